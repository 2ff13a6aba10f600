import Verif.Lemmas.Adaptive
import Verif.Props.Guess
import Verif.Props.Residuals

/-!
# C38, and C10, C11, C12, C15, C19, C20 for `mpopt_adaptive`

Hypotheses as in `Props/Transcription.lean`; `Adapt.Ready` says that `lbh`, `ubh` and `tol_residual` have
one entry per phase, which the constructor establishes (`mkAdapt_ready`).
-/

set_option autoImplicit false
set_option linter.unusedSectionVars false

namespace MPOpt
open Polynomial
open Disc (Block NLP)

variable {K : Type} [Field K] [LinearOrder K] [IsStrictOrderedRing K] {ad : Adapt K} {M : Mesh K}

theorem Adapt.mem_phaseVars {ph : Nat} {s : Sym} : s ∈ ad.phaseVars ph ↔
    s ∈ ad.disc.phaseVars ph ∨ ∃ k < ad.disc.nSegments, s = .H k ph := by
  unfold Adapt.phaseVars
  simp only [List.mem_append, List.mem_map, List.mem_range]
  constructor
  · rintro (h | ⟨k, hk, rfl⟩)
    · exact Or.inl h
    · exact Or.inr ⟨k, hk, rfl⟩
  · rintro (h | ⟨k, hk, rfl⟩)
    · exact Or.inl h
    · exact Or.inr ⟨k, hk, rfl⟩

theorem Disc.not_H_mem {d : Disc K} {ph s p : Nat} : Sym.H s p ∉ d.phaseVars ph := by
  rw [Disc.mem_phaseVars]
  rintro (⟨_, _, _, _, h⟩ | ⟨_, _, _, _, h⟩ | h | h | ⟨_, _, h⟩) <;> cases h

theorem Adapt.nodup_phaseVars (ph : Nat) : (ad.phaseVars ph).Nodup := by
  unfold Adapt.phaseVars
  rw [List.nodup_append]
  refine ⟨Disc.nodup_phaseVars ph, List.nodup_range.map fun k k' h => by cases h; rfl, ?_⟩
  rintro a ha b hb rfl
  simp only [List.mem_map] at hb
  obtain ⟨k, -, rfl⟩ := hb
  exact Disc.not_H_mem ha

/-- Variables of a phase with their bounds. -/
theorem Adapt.nlpVariables_spec (hv : ValidOCP ad.disc.ocp) (hnx : 0 < ad.disc.ocp.nx) (hr : ad.Ready)
    {ph : Nat} (hph : ph < ad.disc.ocp.nPhases) :
    ad.nlpVariables ph = .ok (ad.phaseVars ph,
      (ad.phaseVars ph).map (adaptiveLower ad.disc.ocp fun p => ad.lbh.getD p 0),
      (ad.phaseVars ph).map (adaptiveUpper ad.disc.ocp fun p => ad.ubh.getD p 0)) := by
  have l1 : ph < ad.lbh.length := by rw [hr.lbh]; exact hph
  have l2 : ph < ad.ubh.length := by rw [hr.ubh]; exact hph
  have e1 : (ad.disc.phaseVars ph).map (adaptiveLower ad.disc.ocp fun p => ad.lbh.getD p 0) =
      (ad.disc.phaseVars ph).map (scaledLower ad.disc.ocp) := by
    apply List.map_congr_left
    intro s hs
    cases s with
    | H s p => exact absurd hs Disc.not_H_mem
    | _ => rfl
  have e2 : (ad.disc.phaseVars ph).map (adaptiveUpper ad.disc.ocp fun p => ad.ubh.getD p 0) =
      (ad.disc.phaseVars ph).map (scaledUpper ad.disc.ocp) := by
    apply List.map_congr_left
    intro s hs
    cases s with
    | H s p => exact absurd hs Disc.not_H_mem
    | _ => rfl
  unfold Adapt.nlpVariables Adapt.phaseVars
  rw [Disc.nlpVariables_spec hv hnx hph]
  simp only [py_bind_ok, pyIdx_ok l1, pyIdx_ok l2, py_pure_eq_ok, List.map_append, List.map_map, e1, e2,
    replicate_eq_map_range, Function.comp_def, adaptiveLower, adaptiveUpper,
    List.getD_eq_getElem _ _ l1, List.getD_eq_getElem _ _ l2]

/-- The NLP of `mpopt_adaptive` in closed form. -/
theorem Adapt.createNlp_spec (h : ad.disc.OnMesh M) (hv : ValidOCP ad.disc.ocp)
    (hs : ad.disc.ocp.SettingsOK) (hsc : ad.disc.ocp.PosScales) (hr : ad.Ready) :
    ∃ (bs : List (Block K)) (J : Nat → SX K) (nlp : NLP K), ad.createNlp = .ok nlp ∧
      bs.length = ad.disc.ocp.nPhases ∧
      (∀ (ph : Nat) (b : Block K), bs[ph]? = some b → ad.discretizePhase ph = .ok (b, J ph)) ∧
      (∀ b ∈ bs, b.Sized) ∧
      nlp.x = ad.allVars ∧
      nlp.lbx = nlp.x.map (adaptiveLower ad.disc.ocp fun p => ad.lbh.getD p 0) ∧
      nlp.ubx = nlp.x.map (adaptiveUpper ad.disc.ocp fun p => ad.ubh.getD p 0) ∧
      nlp.p = ad.disc.widthParams ∧
      (∀ σ, nlp.f σ = ∑ ph ∈ Finset.range ad.disc.ocp.nPhases, J ph σ) ∧
      ∃ ev : List (Block K), (∀ b ∈ ev, b.Sized) ∧
        (ad.disc.ocp.nPhases < 2 → ev = []) ∧
        (2 ≤ ad.disc.ocp.nPhases → ∃ e, ad.disc.eventBlock = .ok e ∧ ev = [e]) ∧
        nlp.g = ((bs ++ ev).map (·.g)).flatten ∧ nlp.lbg = ((bs ++ ev).map (·.lo)).flatten ∧
        nlp.ubg = ((bs ++ ev).map (·.hi)).flatten :=
  h.createNlpWith_spec hv hs hsc (fun _ hph => Adapt.nlpVariables_spec hv hs.nx hr hph) fun ph hph => by
    obtain ⟨B, J, -, -, hB, hBs, -⟩ := Adapt.discretizePhase_spec h hv hs hsc hr hph
    exact ⟨(B, J), hB, hBs⟩

/-- **C10** Every decision variable, widths included, appears exactly once, nothing else does. -/
theorem C10_adaptive_variables_once (h : ad.disc.OnMesh M) (hv : ValidOCP ad.disc.ocp)
    (hs : ad.disc.ocp.SettingsOK) (hsc : ad.disc.ocp.PosScales) (hr : ad.Ready) :
    ∃ nlp, ad.createNlp = .ok nlp ∧ nlp.x.Nodup ∧
      (∀ s, s ∈ nlp.x ↔ IsAdaptiveVar ad.disc.ocp M.N M.orders.length s) ∧
      nlp.x.length = ad.disc.ocp.nPhases * (M.N * (ad.disc.ocp.nx + ad.disc.ocp.nu) + 2 +
        ad.disc.ocp.na + M.orders.length) := by
  obtain ⟨bs, J, nlp, hn, -, -, -, hx, -⟩ := Adapt.createNlp_spec h hv hs hsc hr
  obtain ⟨nlp', hn', hd', hm', hl'⟩ := C10_variables_once h hv hs hsc
  obtain ⟨-, -, nlp'', hn'', -, -, -, hx', -⟩ := h.createNlp_spec hv hs hsc
  rw [hn'] at hn''; cases hn''
  rw [hx'] at hd' hm' hl'
  refine ⟨nlp, hn, ?_, ?_, ?_⟩
  · rw [hx]
    unfold Adapt.allVars
    rw [List.nodup_flatMap] at hd' ⊢
    refine ⟨fun ph _ => Adapt.nodup_phaseVars ph, ?_⟩
    apply (hd'.2.and List.nodup_range).imp
    rintro p q ⟨hdis, hne⟩
    simp only [Function.onFun, List.disjoint_left, Adapt.mem_phaseVars] at hdis ⊢
    rintro s (h1 | ⟨k, -, rfl⟩) (h2 | ⟨k', -, h2⟩)
    · exact hdis h1 h2
    · subst h2; exact Disc.not_H_mem h1
    · exact Disc.not_H_mem h2
    · cases h2; exact hne rfl
  · intro s
    rw [hx]
    have key : s ∈ ad.allVars ↔ s ∈ (List.range ad.disc.ocp.nPhases).flatMap ad.disc.phaseVars ∨
        ∃ ph < ad.disc.ocp.nPhases, ∃ k < M.orders.length, s = .H k ph := by
      unfold Adapt.allVars
      simp only [List.mem_flatMap, List.mem_range, Adapt.mem_phaseVars, h.segLen]
      constructor
      · rintro ⟨ph, hph, h | h⟩
        · exact Or.inl ⟨ph, hph, h⟩
        · exact Or.inr ⟨ph, hph, h⟩
      · rintro (⟨ph, hph, h⟩ | ⟨ph, hph, h⟩)
        · exact ⟨ph, hph, Or.inl h⟩
        · exact ⟨ph, hph, Or.inr h⟩
    rw [key, hm']
    cases s with
    | H k p =>
      simp only [IsDecisionVar, IsAdaptiveVar, false_or, Sym.H.injEq]
      constructor
      · rintro ⟨ph, hph, k', hk', rfl, rfl⟩; exact ⟨hph, hk'⟩
      · rintro ⟨hph, hk⟩; exact ⟨p, hph, k, hk, rfl, rfl⟩
    | _ => simp [IsAdaptiveVar]
  · rw [hx]
    unfold Adapt.allVars Adapt.phaseVars
    rw [List.length_flatMap, h.N_eq, h.segLen]
    simp [Disc.length_phaseVars]

/-- **C11** Bounds line up with variables; widths have the bounds `lbh`, `ubh` of their phase. -/
theorem C11_adaptive_bounds_aligned (h : ad.disc.OnMesh M) (hv : ValidOCP ad.disc.ocp)
    (hs : ad.disc.ocp.SettingsOK) (hsc : ad.disc.ocp.PosScales) (hr : ad.Ready) :
    ∃ nlp, ad.createNlp = .ok nlp ∧ nlp.lbx.length = nlp.x.length ∧ nlp.ubx.length = nlp.x.length ∧
      ∀ (i : Nat) (s : Sym), nlp.x[i]? = some s →
        nlp.lbx[i]? = some (adaptiveLower ad.disc.ocp (fun p => ad.lbh.getD p 0) s) ∧
        nlp.ubx[i]? = some (adaptiveUpper ad.disc.ocp (fun p => ad.ubh.getD p 0) s) := by
  obtain ⟨bs, J, nlp, hn, -, -, -, -, hl, hu, -⟩ := Adapt.createNlp_spec h hv hs hsc hr
  refine ⟨nlp, hn, by rw [hl]; simp, by rw [hu]; simp, fun i s hs => ?_⟩
  rw [hl, hu, List.getElem?_map, List.getElem?_map, hs]
  exact ⟨rfl, rfl⟩

/-- **C12** Constraint vector and both bound vectors have equal length. -/
theorem C12_adaptive_lengths (h : ad.disc.OnMesh M) (hv : ValidOCP ad.disc.ocp)
    (hs : ad.disc.ocp.SettingsOK) (hsc : ad.disc.ocp.PosScales) (hr : ad.Ready) :
    ∃ nlp, ad.createNlp = .ok nlp ∧ nlp.g.length = nlp.lbg.length ∧
      nlp.g.length = nlp.ubg.length := by
  obtain ⟨bs, J, nlp, hn, -, -, hbs, -, -, -, -, -, ev, hev, -, -, hg, hl, hu⟩ :=
    Adapt.createNlp_spec h hv hs hsc hr
  have := sized_flatten (bs := bs ++ ev) (by
    intro b hb
    rcases List.mem_append.1 hb with hb | hb
    · exact hbs b hb
    · exact hev b hb)
  exact ⟨nlp, hn, by rw [hg, hl]; exact this.1, by rw [hg, hu]; exact this.2⟩

/-- **C15** The objective of `mpopt_adaptive` is that of `mpopt`. -/
theorem C15_adaptive_objective (h : ad.disc.OnMesh M) (hv : ValidOCP ad.disc.ocp)
    (hs : ad.disc.ocp.SettingsOK) (hsc : ad.disc.ocp.PosScales) (hr : ad.Ready) :
    ∃ nlp, ad.createNlp = .ok nlp ∧ ∀ (σ : Env K) (v : Nat → Nat → K),
      (∀ ph < ad.disc.ocp.nPhases, RunningSamples ad.disc.ocp M (physOf ad.disc.ocp σ) ph (v ph)) →
      nlp.f σ = ∑ ph ∈ Finset.range ad.disc.ocp.nPhases,
        (TerminalCost ad.disc.ocp M (physOf ad.disc.ocp σ) ph + weightedSum ad.disc.compW (v ph)) := by
  obtain ⟨bs, J, nlp, hn, hbl, hbs, -, -, -, -, -, hf, -⟩ := Adapt.createNlp_spec h hv hs hsc hr
  have hne : ad.disc.orders ≠ [] := by rw [← h.orders]; exact h.good.nonempty
  obtain ⟨w, hw, hwl, -⟩ := compQuadWeights_spec ad.disc.colloc ad.disc.orders hne M.nodes h.goodNodes
  rw [h.compW] at hw; cases hw
  have hwN : ad.disc.compW.length = M.N := by rw [hwl, h.N_eq]; rfl
  refine ⟨nlp, hn, fun σ v hvs => ?_⟩
  rw [hf]
  apply Finset.sum_congr rfl
  intro ph hph
  have hph : ph < ad.disc.ocp.nPhases := by simpa using hph
  obtain ⟨B, J', rc, tc, hB, -, -, hrc, htc, hJ⟩ := Adapt.discretizePhase_spec h hv hs hsc hr hph
  have hbl' : ph < bs.length := by omega
  have hB' := hbs ph _ (List.getElem?_eq_getElem hbl')
  rw [hB] at hB'
  injection hB' with hB'
  have hJJ : J ph = J' := by injection hB' with _ e; exact e.symm
  obtain ⟨v', e1, e2⟩ := hJ σ
  rw [hJJ, e1]
  congr 1
  · unfold TerminalCost
    rw [List.getD_eq_getElem?_getD, htc]; rfl
  · unfold weightedSum
    apply Finset.sum_congr rfl
    intro k hk
    have hk : k < M.N := by rw [← hwN]; simpa using hk
    obtain ⟨s, i, ho, rfl⟩ := M.exists_owner h.good.nonempty hk
    rw [e2 s i ho, hvs ph hph rc hrc s i ho]

/-- **C38** A point is feasible for the NLP of `mpopt_adaptive` iff its physical trajectory solves the
collocated problem with free widths, and the (scaled) slope bounds hold where `diff_u` is on. -/
theorem C38_feasible_iff (h : ad.disc.OnMesh M) (hv : ValidOCP ad.disc.ocp)
    (hs : ad.disc.ocp.SettingsOK) (hsc : ad.disc.ocp.PosScales) (hr : ad.Ready) :
    ∃ nlp, ad.createNlp = .ok nlp ∧ ∀ σ, nlp.Feasible σ ↔
      AdaptiveFeasible ad.disc.ocp M (physOf ad.disc.ocp σ) (fun ph => ad.lbh.getD ph 0)
        (fun ph => ad.ubh.getD ph 0) (fun ph => ad.tol.getD ph 0) (ad.midResiduals = true) ∧
      ∀ ph < ad.disc.ocp.nPhases, ad.disc.ocp.diffU.getD ph false = true →
        SlopeBounded ad.disc.ocp M (physOf ad.disc.ocp σ) (fun j => ad.disc.ocp.scaleU.getD j 0) ph := by
  obtain ⟨bs, J, nlp, hn, hbl, hbs, hsz, hx, hl, hu, -, -, ev, hevs, hev1, hev2, hg, hlg, hug⟩ :=
    Adapt.createNlp_spec h hv hs hsc hr
  refine ⟨nlp, hn, fun σ => ?_⟩
  unfold Disc.NLP.Feasible
  have hbox : Holds (nlp.x.map σ) nlp.lbx nlp.ubx ↔
      ∀ ph < ad.disc.ocp.nPhases, BoundsOK ad.disc.ocp M (physOf ad.disc.ocp σ) ph ∧
        ∀ s < M.orders.length, ad.lbh.getD ph 0 ≤ (physOf ad.disc.ocp σ).w s ph ∧
          (physOf ad.disc.ocp σ).w s ph ≤ ad.ubh.getD ph 0 := by
    rw [hl, hu, holds_map, hx]
    simp only [Adapt.allVars, List.mem_flatMap, List.mem_range]
    have plain : ∀ ph, (∀ s ∈ ad.disc.phaseVars ph,
        Within (adaptiveLower ad.disc.ocp (fun p => ad.lbh.getD p 0) s)
          (adaptiveUpper ad.disc.ocp (fun p => ad.ubh.getD p 0) s) (σ s)) ↔
        BoundsOK ad.disc.ocp M (physOf ad.disc.ocp σ) ph := by
      intro ph
      rw [← h.bounds_spec hv hsc σ]
      apply forall_congr'
      intro s
      apply imp_congr_right
      intro hs
      cases s with
      | H s p => exact absurd hs Disc.not_H_mem
      | _ => rfl
    constructor
    · intro hh ph hph
      refine ⟨(plain ph).1 fun s hs => hh s ⟨ph, hph, Adapt.mem_phaseVars.2 (Or.inl hs)⟩,
        fun s hs => ?_⟩
      exact hh (.H s ph) ⟨ph, hph, Adapt.mem_phaseVars.2
        (Or.inr ⟨s, by rw [← h.segLen]; exact hs, rfl⟩)⟩
    · rintro hh s ⟨ph, hph, hs⟩
      rcases Adapt.mem_phaseVars.1 hs with hs | ⟨k, hk, rfl⟩
      · exact (plain ph).2 (hh ph hph).1 s hs
      · exact (hh ph hph).2 k (by rw [h.segLen]; exact hk)
  have hrows : Holds (evalAll nlp.g σ) nlp.lbg nlp.ubg ↔
      (∀ b ∈ bs, b.Sat σ) ∧ ∀ b ∈ ev, b.Sat σ := by
    rw [hg, hlg, hug, sat_flatten (by
      intro b hb
      rcases List.mem_append.1 hb with hb | hb
      · exact hsz b hb
      · exact hevs b hb)]
    simp only [List.mem_append]
    exact ⟨fun h => ⟨fun b hb => h b (Or.inl hb), fun b hb => h b (Or.inr hb)⟩,
      fun h b hb => hb.elim (h.1 b) (h.2 b)⟩
  have key : ∀ ph (hb : ph < bs.length), bs[ph].Sat σ ↔
      CollocationOK ad.disc.ocp M (physOf ad.disc.ocp σ) ph ∧
        PathOK ad.disc.ocp M (physOf ad.disc.ocp σ) ph ∧
        (ad.disc.ocp.diffU.getD ph false = true → SlopeBounded ad.disc.ocp M (physOf ad.disc.ocp σ)
          (fun j => ad.disc.ocp.scaleU.getD j 0) ph) ∧
        TerminalOK ad.disc.ocp M (physOf ad.disc.ocp σ) ph ∧
        (∑ s ∈ Finset.range M.orders.length, (physOf ad.disc.ocp σ).w s ph = 1) ∧
        MidControlOK ad.disc.ocp M (physOf ad.disc.ocp σ) ph ∧
        MidStateOK ad.disc.ocp M (physOf ad.disc.ocp σ) ph ∧
        (ad.midResiduals = true →
          MidResidualOK ad.disc.ocp M (physOf ad.disc.ocp σ) (ad.tol.getD ph 0) ph) := by
    intro ph hb
    have hph : ph < ad.disc.ocp.nPhases := by omega
    obtain ⟨B, J', rc, tc, hB, -, hsat, -⟩ := Adapt.discretizePhase_spec h hv hs hsc hr hph
    have hB' := hbs ph _ (List.getElem?_eq_getElem hb)
    rw [hB] at hB'
    injection hB' with hB'
    injection hB' with hB' _
    rw [← hB']
    exact hsat σ
  have hlink : (∀ b ∈ ev, b.Sat σ) ↔
      (2 ≤ ad.disc.ocp.nPhases → LinksOK ad.disc.ocp M (physOf ad.disc.ocp σ)) := by
    by_cases h2 : 2 ≤ ad.disc.ocp.nPhases
    · obtain ⟨e, he, rfl⟩ := hev2 h2
      obtain ⟨e', he', -, hsat⟩ := h.eventBlock_spec hv hs hsc h2
      rw [he] at he'; cases he'
      simp [h2, hsat]
    · rw [hev1 (by omega)]
      simp [h2]
  rw [hbox, hrows, hlink]
  constructor
  · rintro ⟨hb, hp, hl⟩
    have hp := fun ph (hph : ph < ad.disc.ocp.nPhases) =>
      (key ph (by omega)).1 (hp _ (List.getElem_mem (by omega)))
    exact ⟨⟨fun ph hph => (hb ph hph).1, fun ph hph => (hp ph hph).1, fun ph hph => (hp ph hph).2.1,
      fun ph hph => (hp ph hph).2.2.2.1,
      fun ph hph => ⟨(hp ph hph).2.2.2.2.1, fun s hs => ((hb ph hph).2 s hs).1,
        fun s hs => ((hb ph hph).2 s hs).2⟩,
      fun ph hph => (hp ph hph).2.2.2.2.2.1, fun ph hph => (hp ph hph).2.2.2.2.2.2.1,
      fun hr ph hph => (hp ph hph).2.2.2.2.2.2.2 hr, hl⟩, fun ph hph => (hp ph hph).2.2.1⟩
  · rintro ⟨⟨hb, h1, h2, h3, hw, h4, h5, h6, hl⟩, h7⟩
    refine ⟨fun ph hph => ⟨hb ph hph, fun s hs => ⟨(hw ph hph).lower s hs, (hw ph hph).upper s hs⟩⟩,
      fun b hb => ?_, hl⟩
    obtain ⟨ph, hph, rfl⟩ := List.mem_iff_getElem.1 hb
    have hph' : ph < ad.disc.ocp.nPhases := by omega
    exact (key ph hph).2 ⟨h1 ph hph', h2 ph hph', h7 ph hph', h3 ph hph', (hw ph hph').sum, h4 ph hph',
      h5 ph hph', fun hr => h6 hr ph hph'⟩

/-- **C38** The time passed to the dynamics at a midpoint is the time of that point of the segment. -/
theorem C38_mid_time (h : ad.disc.OnMesh M) {ph : Nat} (hph : ph < ad.disc.ocp.nPhases) :
    ∃ g, ad.disc.nodeGrid ph = .ok g ∧ (Adapt.midTimes (g.map (·.1))).length = M.orders.sum ∧
      ∀ s < M.orders.length, ∀ i < M.order s, ∃ t,
        (Adapt.midTimes (g.map (·.1)))[segStart M.orders s + i]? = some t ∧
        ∀ σ, t σ = M.time (physOf ad.disc.ocp σ) ph s ((M.node s i + M.node s (i + 1)) / 2) :=
  h.midTimes_spec hph

/-- **C38** In a feasible point the segments of a phase fill it: the last one ends at `tf`. -/
theorem C38_covers_phase (h : ad.disc.OnMesh M) (hv : ValidOCP ad.disc.ocp)
    (hs : ad.disc.ocp.SettingsOK) (hsc : ad.disc.ocp.PosScales) (hr : ad.Ready) :
    ∃ nlp, ad.createNlp = .ok nlp ∧ ∀ σ, nlp.Feasible σ → ∀ ph < ad.disc.ocp.nPhases,
      M.time (physOf ad.disc.ocp σ) ph (M.orders.length - 1) M.tau1 =
        (physOf ad.disc.ocp σ).tf ph := by
  obtain ⟨nlp, hn, hiff⟩ := C38_feasible_iff h hv hs hsc hr
  exact ⟨nlp, hn, fun σ hf ph hph => (C13_segment_ends h.good _ ph).2.2.2
    (((hiff σ).1 hf).1.widths ph hph).sum⟩

/-- The object with other values of the flags `du_continuity` and `midu`. -/
def Adapt.withFlags (ad : Adapt K) (flags midu : List Bool) : Adapt K :=
  { ad with disc := { ad.disc with ocp := { ad.disc.ocp with duContinuity := flags, midu := midu } } }

theorem Adapt.withFlags_nodeGrid (ad : Adapt K) (flags midu : List Bool) (ph : Nat) :
    (ad.withFlags flags midu).disc.nodeGrid ph = ad.disc.nodeGrid ph := by
  have h : ∀ n st, (ad.withFlags flags midu).disc.nodeLoop ph n st = ad.disc.nodeLoop ph n st := by
    intro n
    induction n with
    | zero => intro st; rfl
    | succ n ih =>
      intro st
      simp only [Disc.nodeLoop]
      have e : (ad.withFlags flags midu).disc.nodeStep ph st = ad.disc.nodeStep ph st := rfl
      rw [e]
      cases ad.disc.nodeStep ph st with
      | error e => rfl
      | ok v => simp only [py_bind_ok, ih]
  unfold Disc.nodeGrid
  have e : (ad.withFlags flags midu).disc.hSeg ph 0 = ad.disc.hSeg ph 0 := rfl
  rw [e]
  cases ad.disc.hSeg ph 0 with
  | error e => rfl
  | ok v => simp only [py_bind_ok, h]; rfl

/-- **C19** `mpopt_adaptive` ignores `du_continuity` (and `midu`): the NLP is the same for all values of
the flags. -/
theorem C19_adaptive_ignores_flags (ad : Adapt K) (flags midu : List Bool) :
    (ad.withFlags flags midu).createNlp = ad.createNlp := by
  have hargs : ∀ ph, (ad.withFlags flags midu).disc.nodeArgs ph = ad.disc.nodeArgs ph := by
    intro ph
    unfold Disc.nodeArgs
    rw [ad.withFlags_nodeGrid]
    rfl
  have hdisc : ∀ ph, (ad.withFlags flags midu).disc.discretized ph = ad.disc.discretized ph := by
    intro ph
    unfold Disc.discretized
    rw [hargs]
    rfl
  have hwidth : ∀ ph, (ad.withFlags flags midu).widthBlock ph = ad.widthBlock ph := by
    intro ph
    unfold Adapt.widthBlock
    dsimp only
    rw [ad.withFlags_nodeGrid]
    rfl
  have hph : (ad.withFlags flags midu).discretizePhase = ad.discretizePhase := by
    funext ph
    unfold Adapt.discretizePhase
    dsimp only
    rw [hdisc, hwidth]
    rfl
  unfold Adapt.createNlp
  rw [hph]
  rfl

/-! ### Initial guess and trajectories -/

/-- The guess a user expects: as in `mpopt`, and equal widths. -/
def adaptiveGuessOf (ocp : OCP K) (N ns : Nat) : Sym → K
  | .H _ _ => 1 / (ns : K)
  | s => guessOf ocp N s

/-- **C20** The default guess of `mpopt_adaptive`: length of `x`, equal widths, straight lines for all
variables that are not controls, and for all variables when there is at most one control. -/
theorem C20_adaptive_guess (h : ad.disc.OnMesh M) (hv : ValidOCP ad.disc.ocp)
    (hs : ad.disc.ocp.SettingsOK) (hsc : ad.disc.ocp.PosScales) (hr : ad.Ready)
    (ht : ∀ ph < ad.disc.ocp.nPhases,
      entry ad.disc.ocp.t00 ph 0 0 ≠ entry ad.disc.ocp.tf0 ph 0 0) :
    ∃ nlp z, ad.createNlp = .ok nlp ∧ ad.initialGuess = .ok z ∧ z.length = nlp.x.length ∧
      ∀ (i : Nat) (s : Sym), nlp.x[i]? = some s → ¬ IsControl s ∨ ad.disc.ocp.nu ≤ 1 →
        z[i]? = some (.fin (adaptiveGuessOf ad.disc.ocp M.N M.orders.length s)) := by
  obtain ⟨bs, J, nlp, hn, -, -, -, hx, -⟩ := Adapt.createNlp_spec h hv hs hsc hr
  have hN : 0 < M.N := by unfold Mesh.N; omega
  have hns : ad.disc.nSegments ≠ 0 := by
    rw [← h.segLen]; exact (List.length_pos_iff.2 h.good.nonempty).ne'
  have hphase : ∀ ph < ad.disc.ocp.nPhases, ad.guessPhase ph =
      .ok ((guessVars ad.disc.ocp M.N ph).map (fun s => Ext.fin (guessOf ad.disc.ocp M.N s)) ++
        List.replicate ad.disc.nSegments (.fin (1 / (ad.disc.nSegments : K)))) := by
    intro ph hph
    unfold Adapt.guessPhase
    rw [← h.N_eq, guessPhase_spec ad.disc.ocp hv hs.nx hph hN (ht ph hph) hsc.t.ne', py_bind_ok,
      if_neg hns]
    rfl
  have hmap := mapM_ok ad.guessPhase _ (List.range ad.disc.ocp.nPhases) fun ph hph =>
    hphase ph (by simpa using hph)
  have hz : ad.initialGuess = .ok ((List.range ad.disc.ocp.nPhases).flatMap fun ph =>
      (guessVars ad.disc.ocp M.N ph).map (fun s => Ext.fin (guessOf ad.disc.ocp M.N s)) ++
        List.replicate ad.disc.nSegments (.fin (1 / (ad.disc.nSegments : K)))) := by
    unfold Adapt.initialGuess
    rw [hmap, py_bind_ok, npConcat, if_neg, List.flatMap_def]
    simpa using hv.phases.ne'
  have hF : List.Forall₂ (fun s (v : Ext K) => ¬ IsControl s ∨ ad.disc.ocp.nu ≤ 1 →
      v = .fin (adaptiveGuessOf ad.disc.ocp M.N M.orders.length s)) nlp.x
      ((List.range ad.disc.ocp.nPhases).flatMap fun ph =>
        (guessVars ad.disc.ocp M.N ph).map (fun s => Ext.fin (guessOf ad.disc.ocp M.N s)) ++
          List.replicate ad.disc.nSegments (.fin (1 / (ad.disc.nSegments : K)))) := by
    rw [hx]
    refine forall₂_flatMap _ _ _ _ fun ph _ => ?_
    unfold Adapt.phaseVars
    apply List.rel_append
    · have hb := guess_forall₂ h.N_eq ph
      rw [List.forall₂_iff_get] at hb ⊢
      refine ⟨hb.1, fun i h1 h2 hc => ?_⟩
      have hm := List.get_mem (ad.disc.phaseVars ph) ⟨i, h1⟩
      rw [hb.2 i h1 h2 hc]
      generalize List.get (ad.disc.phaseVars ph) ⟨i, h1⟩ = s at hm
      cases s with
      | H k p => exact absurd hm Disc.not_H_mem
      | _ => rfl
    · rw [replicate_eq_map_range, List.forall₂_map_left_iff, List.forall₂_map_right_iff,
        List.forall₂_same]
      intro k _ _
      rw [h.segLen]; rfl
  refine ⟨nlp, _, hn, hz, hF.length_eq.symm, fun i s hi hc => ?_⟩
  have hil : i < nlp.x.length := (List.getElem?_eq_some_iff.1 hi).1
  have := hF.get hil (by rw [← hF.length_eq]; exact hil)
  rw [List.getElem?_eq_getElem (by rw [← hF.length_eq]; exact hil)]
  simp only [List.get_eq_getElem] at this
  have e : nlp.x[i] = s := (List.getElem_eq_iff hil).2 hi
  rw [this (by rw [e]; exact hc), e]

/-- The widths of the equal-width guess sum to one. -/
theorem C20_adaptive_guess_sum {ns : Nat} (h : ns ≠ 0) (ocp : OCP K) (N ph : Nat) :
    ∑ s ∈ Finset.range ns, adaptiveGuessOf ocp N ns (.H s ph) = 1 := by
  simp only [adaptiveGuessOf, Finset.sum_const, Finset.card_range, nsmul_eq_mul]
  exact mul_one_div_cancel (Nat.cast_ne_zero.2 h)

/-- The part of a solution of `mpopt_adaptive` that `mpopt` would have solved for. -/
def Adapt.plainPart (ad : Adapt K) (z : List K) : List K := ad.disc.allVars.map (bindSyms ad.allVars z)

/-- **C38** The trajectory functions of `mpopt_adaptive` ignore the widths passed to them and use those of
the solution: they return what those of `mpopt` return for the states, controls, times and parameters of
the solution together with the widths `solve` stored. So post-processing and residuals (C22–C29) see the
optimised mesh. -/
theorem C38_trajectories {z h' : List K} (hz : z.length = ad.allVars.length)
    (hh : h'.length = ad.disc.widthParams.length) (ph : Nat) :
    ∃ w, ad.solvedWidths z = .ok w ∧ (ad.plainPart z).length = ad.disc.allVars.length ∧
      w.length = ad.disc.widthParams.length ∧
      ad.trajectories ph z h' = ad.disc.trajectories ph (ad.plainPart z) w := by
  refine ⟨ad.disc.widthParams.map (bindSyms ad.allVars z), if_pos hz, by simp [Adapt.plainPart],
    by simp, ?_⟩
  have henv : bindSyms (ad.disc.allVars ++ ad.disc.widthParams)
      (ad.plainPart z ++ ad.disc.widthParams.map (bindSyms ad.allVars z)) = bindSyms ad.allVars z := by
    unfold Adapt.plainPart
    rw [← List.map_append]
    funext s
    by_cases hs : s ∈ ad.disc.allVars ++ ad.disc.widthParams
    · exact bindSyms_map _ _ hs
    · have hs' : s ∉ ad.allVars := by
        intro hmem
        apply hs
        simp only [Adapt.allVars, List.mem_flatMap, List.mem_range, Adapt.mem_phaseVars] at hmem
        obtain ⟨p, hp, hm | ⟨k, hk, rfl⟩⟩ := hmem
        · exact List.mem_append_left _ (List.mem_flatMap.2 ⟨p, by simpa using hp, hm⟩)
        · refine List.mem_append_right _ (List.mem_flatMap.2 ⟨p, by simpa using hp, ?_⟩)
          simpa using hk
      unfold bindSyms
      rw [List.idxOf_eq_length hs, List.idxOf_eq_length hs', List.getD_eq_default _ _ (by simp),
        List.getD_eq_default _ _ (by omega)]
  unfold Adapt.trajectories Disc.trajectories
  simp only [henv]
  by_cases hph : ad.disc.ocp.nPhases ≤ ph
  · simp only [if_pos hph]; rfl
  · simp only [if_neg hph]
    cases ad.disc.nodeGrid ph with
    | error e => rfl
    | ok g =>
      simp only [py_bind_ok]
      rw [if_neg (by simp [hz, hh]), if_neg (by simp [Adapt.plainPart])]

/-! ### Order of the bounds -/

theorem ordered_box {n : Nat} {e : Mat (SX K)} {lo hi : List (Ext K)} {sc : List K}
    (hsc : ∀ s ∈ sc, 0 < s) (hlo : lo.length = n) (hhi : hi.length = n) (hle : BoundsOrdered lo hi)
    {B : Block K} (hB : boxBlock e lo hi sc = .ok B) :
    BoundsOrdered B.lo B.hi ∧ B.lo.length = B.hi.length := by
  unfold boxBlock at hB
  split at hB
  · simp only [py_bind_eq_ok, py_pure_eq_ok] at hB
    obtain ⟨l, hl, h, hh, rfl⟩ := hB
    have e1 : l.length = h.length := by rw [scaleRow_length hl, scaleRow_length hh, hlo, hhi]
    exact ⟨ordered_repeat _ e1 (ordered_scaleRow hsc hl hh hle), by simp [List.length_flatMap, e1]⟩
  · rw [py_pure_eq_ok] at hB
    subst hB; exact ⟨ordered_nil, rfl⟩

theorem Adapt.ordered_width (hv : ValidOCP ad.disc.ocp) (hsc : ad.disc.ocp.PosScales) {ph : Nat}
    (htol : 0 ≤ ad.tol.getD ph 0) {B : Block K} (hB : ad.widthBlock ph = .ok B) :
    BoundsOrdered B.lo B.hi := by
  unfold Adapt.widthBlock at hB
  simp only [py_bind_eq_ok, py_pure_eq_ok, pyIdx_eq_ok] at hB
  obtain ⟨sw, -, taus, -, g, -, I, -, D, -, xi, -, ui, -, lbu, hlbu, ubu, hubu, U, hU, lbx, hlbx, ubx, hubx,
    X, hX, R, hR, rfl⟩ := hB
  have oU := ordered_box hsc.u (hv.lbu.2 _ (List.mem_of_getElem? hlbu))
    (hv.ubu.2 _ (List.mem_of_getElem? hubu)) (hv.ordU ph _ _ hlbu hubu) hU
  have oX := ordered_box hsc.x (hv.lbx.2 _ (List.mem_of_getElem? hlbx))
    (hv.ubx.2 _ (List.mem_of_getElem? hubx)) (hv.ordX ph _ _ hlbx hubx) hX
  have oR : BoundsOrdered R.lo R.hi := by
    split at hR
    · simp only [py_bind_eq_ok, py_pure_eq_ok, pyIdx_eq_ok] at hR
      obtain ⟨_, -, _, -, _, -, tol, ht, rfl⟩ := hR
      rw [List.getD_eq_getElem?_getD, ht, Option.getD_some] at htol
      exact ordered_const _ (by simp only [Ext.le, decide_eq_true_eq]; linarith)
    · rw [py_pure_eq_ok] at hR
      subst hR; exact ordered_nil
  refine ordered_append ?_ ?_ (ordered_append oU.2 oU.1 (ordered_append oX.2 oX.1 oR))
  · simp [Block.const]
  · exact ordered_const _ le_zero_zero

/-- **C40** For `mpopt_adaptive`: also with `lbh ≤ ubh` and a nonnegative `tol_residual`, all bounds are
ordered. -/
theorem C40_adaptive_bounds_ordered (h : ad.disc.OnMesh M) (hval : ad.disc.ocp.validate = .ok ())
    (hs : ad.disc.ocp.SettingsOK) (hsc : ad.disc.ocp.PosScales) (hr : ad.Ready)
    (hh : ∀ ph < ad.disc.ocp.nPhases, ad.lbh.getD ph 0 ≤ ad.ubh.getD ph 0) :
    ∃ nlp, ad.createNlp = .ok nlp ∧ BoundsOrdered nlp.lbx nlp.ubx ∧
      ((∀ ph < ad.disc.ocp.nPhases, 0 ≤ ad.tol.getD ph 0) →
        (∀ ph : Nat, ad.disc.ocp.diffU[ph]? = some true → ∀ a b : Ext K, ad.disc.ocp.lbdu[ph]? = some a →
          ad.disc.ocp.ubdu[ph]? = some b → Ext.le a b = true) → BoundsOrdered nlp.lbg nlp.ubg) := by
  have hv := (C40_validate_iff _).1 hval
  obtain ⟨bs, J, nlp, hn, hbl, hbs, hsz, hx, hl, hu, -, -, ev, hevs, hev1, hev2, hg, hlg, hug⟩ :=
    Adapt.createNlp_spec h hv hs hsc hr
  refine ⟨nlp, hn, ?_, fun htol hdu => ?_⟩
  · obtain ⟨nlp', hn', -, hmem, -⟩ := C10_adaptive_variables_once h hv hs hsc hr
    rw [hn] at hn'; cases hn'
    rw [hl, hu]
    refine ordered_map _ _ _ fun s hs => ?_
    have hm := (hmem s).1 hs
    cases s with
    | H k p => simpa [adaptiveLower, adaptiveUpper, Ext.le] using hh p hm.1
    | _ => exact scaled_le (N := M.N) hv hsc hm
  · rw [hlg, hug]
    apply ordered_flatten
    · intro b hb
      rcases List.mem_append.1 hb with hb | hb
      · exact hsz b hb
      · exact hevs b hb
    · intro b hb
      rcases List.mem_append.1 hb with hb | hb
      · obtain ⟨ph, hph, rfl⟩ := List.mem_iff_getElem.1 hb
        have hB := hbs ph _ (List.getElem?_eq_getElem hph)
        unfold Adapt.discretizePhase at hB
        simp only [py_bind_eq_ok, py_pure_eq_ok] at hB
        obtain ⟨⟨f, c, q⟩, -, F, hF, pc, -, ⟨TC, m⟩, hT, DU, hDU, SW, hSW, J', -, hB⟩ := hB
        injection hB with hB _
        rw [← hB]
        have oF := Disc.ordered_dyn hF
        have oC := Disc.ordered_path c (Disc.pathLen pc)
        have oDU := Disc.ordered_slope (hdu ph) hDU
        have oT := Disc.ordered_term hT
        exact ordered_append oF.2 oF.1 (ordered_append oC.2 oC.1 (ordered_append oDU.2 oDU.1
          (ordered_append oT.2 oT.1 (Adapt.ordered_width hv hsc (htol ph (by omega)) hSW))))
      · by_cases h2 : 2 ≤ ad.disc.ocp.nPhases
        · obtain ⟨e, he, rfl⟩ := hev2 h2
          simp only [List.mem_singleton] at hb
          subst hb
          exact Disc.ordered_event hv hsc he
        · rw [hev1 (by omega)] at hb; simp at hb

end MPOpt
