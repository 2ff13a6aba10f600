import Verif.Spec.Scales
import Verif.Props.Adaptive

/-! # C92: variable bounds for scales of any sign -/

set_option autoImplicit false
set_option linter.unusedSectionVars false

namespace MPOpt
open Disc (Block NLP)

variable {K : Type} [Field K] [LinearOrder K] [IsStrictOrderedRing K] {d : Disc K}

/-- Bounds times scale, by the sign of the scale. -/
theorem within_times (lo hi : Ext K) (s y : K) : Within (Ext.mul lo s) (Ext.mul hi s) y ↔ BoxDemands lo hi s y := by
  unfold BoxDemands
  rcases lt_trichotomy s 0 with h | h | h
  · have hn : ¬ 0 < s := not_lt.2 h.le
    simp only [hn, false_and, h, true_and, h.ne, or_false, false_or]
    unfold Within
    have e1 : (Ext.mul lo s).Below y ↔ lo.Above (y / s) := by
      cases lo with
      | fin a => simp only [Ext.mul, Ext.Below, Ext.Above]; rw [div_le_iff_of_neg h]
      | _ => simp [Ext.mul, Ext.Below, Ext.Above, h, hn]
    have e2 : (Ext.mul hi s).Above y ↔ hi.Below (y / s) := by
      cases hi with
      | fin a => simp only [Ext.mul, Ext.Below, Ext.Above]; rw [le_div_iff_of_neg h]
      | _ => simp [Ext.mul, Ext.Below, Ext.Above, h, hn]
    rw [e1, e2, and_comm]
  · subst h
    simp only [lt_irrefl, false_and, true_and, false_or]
    unfold Within
    cases lo with
    | fin a =>
      cases hi with
      | fin b =>
        simp only [Ext.mul, Ext.Below, Ext.Above, mul_zero]
        exact ⟨fun hh => ⟨le_antisymm hh.2 hh.1, ⟨a, rfl⟩, ⟨b, rfl⟩⟩, fun hh => ⟨hh.1.ge, hh.1.le⟩⟩
      | _ =>
        simp only [Ext.mul, lt_irrefl, if_false, Ext.Above, and_false, false_iff]
        rintro ⟨-, -, k, hk⟩
        cases hk
    | _ =>
      simp only [Ext.mul, lt_irrefl, if_false, Ext.Below, false_and, false_iff]
      rintro ⟨-, ⟨k, hk⟩, -⟩
      cases hk
  · have hn : ¬ s < 0 := not_lt.2 h.le
    simp only [h, true_and, hn, false_and, h.ne', or_false]
    exact within_mul lo hi y s h

theorem scaledLower_eq (ocp : OCP K) {v : Sym} (hv : ∀ s p, v ≠ .H s p) :
    scaledLower ocp v = Ext.mul (lowerOf ocp v) (scaleOf ocp v) := by
  cases v with
  | X ph i j => unfold scaledLower scaledBound lowerOf scaleOf; dsimp only; split <;> rfl
  | H s p => exact absurd rfl (hv s p)
  | _ => rfl

theorem scaledUpper_eq (ocp : OCP K) {v : Sym} (hv : ∀ s p, v ≠ .H s p) :
    scaledUpper ocp v = Ext.mul (upperOf ocp v) (scaleOf ocp v) := by
  cases v with
  | X ph i j => unfold scaledUpper scaledBound upperOf scaleOf; dsimp only; split <;> rfl
  | H s p => exact absurd rfl (hv s p)
  | _ => rfl

/-- Variables and their bounds of the NLP, whatever the constraints are. -/
theorem createNlpWith_box {vars : Nat → Py (List Sym × List (Ext K) × List (Ext K))} {disc : Nat → Py (Block K × SX K)}
    {V : Nat → List Sym} {L U : Nat → List (Ext K)} (h : ∀ ph < d.ocp.nPhases, vars ph = .ok (V ph, L ph, U ph))
    {nlp : NLP K} (hn : d.createNlpWith vars disc = .ok nlp) :
    nlp.x = (List.range d.ocp.nPhases).flatMap V ∧ nlp.lbx = (List.range d.ocp.nPhases).flatMap L ∧
      nlp.ubx = (List.range d.ocp.nPhases).flatMap U := by
  unfold Disc.createNlpWith at hn
  simp only [py_bind_eq_ok, py_pure_eq_ok] at hn
  obtain ⟨phases, hp, ev, -, lbg, -, ubg, -, lbx, h1, ubx, h2, rfl⟩ := hn
  have hmap : phases.map (·.1) = (List.range d.ocp.nPhases).map fun ph => (V ph, L ph, U ph) := by
    rw [mapM_eq_ok] at hp
    apply List.ext_getElem (by simp [← hp.length_eq])
    intro i hi1 hi2
    have hi : i < d.ocp.nPhases := by simpa using hi2
    have hi' : i < phases.length := by simpa using hi1
    have := List.Forall₂.get hp (i := i) (by simpa using hi) hi'
    simp only [List.get_eq_getElem, List.getElem_range, py_bind_eq_ok, py_pure_eq_ok, h i hi] at this
    obtain ⟨z, hz, g, -, heq⟩ := this
    cases hz
    simp only [List.getElem_map, List.getElem_range, ← heq]
  have hcat : ∀ {A : Type} (l : List (List A)) (r : List A), npConcat l = .ok r → r = l.flatten := by
    intro A l r hr
    unfold npConcat at hr
    split at hr
    · cases hr
    · cases hr; rfl
  refine ⟨?_, ?_, ?_⟩
  · show (phases.map (·.1.1)).flatten = _
    rw [show phases.map (·.1.1) = (phases.map (·.1)).map (·.1) by rw [List.map_map]; rfl, hmap, List.map_map]
    rfl
  · show lbx = _
    rw [hcat _ _ h1, show phases.map (·.1.2.1) = (phases.map (·.1)).map (·.2.1) by rw [List.map_map]; rfl, hmap,
      List.map_map]
    rfl
  · show ubx = _
    rw [hcat _ _ h2, show phases.map (·.1.2.2) = (phases.map (·.1)).map (·.2.2) by rw [List.map_map]; rfl, hmap,
      List.map_map]
    rfl

theorem flatMap_map' {A B : Type} (l : List Nat) (V : Nat → List A) (f : A → B) :
    (l.flatMap fun ph => (V ph).map f) = (l.flatMap V).map f := by rw [List.map_flatMap]

/-- **C92** A point is within the variable bounds of the NLP exactly if every variable meets the demands of its physical bounds and its
scale, for scales of any sign. -/
theorem C92_box (hv : ValidOCP d.ocp) (hnx : 0 < d.ocp.nx) {nlp : NLP K} (hn : d.createNlp = .ok nlp) (σ : Env K) :
    Holds (nlp.x.map σ) nlp.lbx nlp.ubx ↔
      ∀ v, IsDecisionVar d.ocp d.N v → BoxDemands (lowerOf d.ocp v) (upperOf d.ocp v) (scaleOf d.ocp v) (σ v) := by
  have hn' : d.createNlpWith d.nlpVariables d.discretizePhase = .ok nlp := hn
  obtain ⟨h1, h2, h3⟩ := createNlpWith_box (V := d.phaseVars) (fun ph hph => Disc.nlpVariables_spec hv hnx hph) hn'
  rw [flatMap_map'] at h2 h3
  rw [h1, h2, h3]
  refine (holdsBy_map (W := Within) _ σ (scaledLower d.ocp) (scaledUpper d.ocp)).trans ?_
  have hmem : ∀ v, v ∈ (List.range d.ocp.nPhases).flatMap d.phaseVars ↔ IsDecisionVar d.ocp d.N v := by
    intro v
    simp only [List.mem_flatMap, List.mem_range, Disc.mem_phaseVars]
    constructor
    · rintro ⟨ph, hph, ⟨i, hi, j, hj, rfl⟩ | ⟨i, hi, j, hj, rfl⟩ | rfl | rfl | ⟨k, hk, rfl⟩⟩
      · exact ⟨hph, hi, hj⟩
      · exact ⟨hph, hi, hj⟩
      · exact hph
      · exact hph
      · exact ⟨hph, hk⟩
    · intro h
      cases v with
      | X ph i j => exact ⟨ph, h.1, Or.inl ⟨i, h.2.1, j, h.2.2, rfl⟩⟩
      | U ph i j => exact ⟨ph, h.1, Or.inr (Or.inl ⟨i, h.2.1, j, h.2.2, rfl⟩)⟩
      | T0 ph => exact ⟨ph, h, Or.inr (Or.inr (Or.inl rfl))⟩
      | Tf ph => exact ⟨ph, h, Or.inr (Or.inr (Or.inr (Or.inl rfl)))⟩
      | A k ph => exact ⟨ph, h.1, Or.inr (Or.inr (Or.inr (Or.inr ⟨k, h.2, rfl⟩)))⟩
      | H s p => exact absurd h id
  refine forall_congr' fun v => ?_
  rw [hmem v]
  refine imp_congr_right fun hdv => ?_
  have hH : ∀ s p, v ≠ .H s p := by rintro s p rfl; exact hdv
  rw [scaledLower_eq _ hH, scaledUpper_eq _ hH, within_times]

/-- **C92** The same for `mpopt_adaptive`, where the widths are variables without scale. -/
theorem C92_adaptive_box {ad : Adapt K} (hv : ValidOCP ad.disc.ocp) (hnx : 0 < ad.disc.ocp.nx) {nlp : NLP K}
    (hn : ad.createNlp = .ok nlp) (hlb : ad.lbh.length = ad.disc.ocp.nPhases) (hub : ad.ubh.length = ad.disc.ocp.nPhases)
    (σ : Env K) (hbox : Holds (nlp.x.map σ) nlp.lbx nlp.ubx) {v : Sym} (hdv : IsDecisionVar ad.disc.ocp ad.disc.N v) :
    BoxDemands (lowerOf ad.disc.ocp v) (upperOf ad.disc.ocp v) (scaleOf ad.disc.ocp v) (σ v) := by
  have hH : ∀ s p, v ≠ .H s p := by rintro s p rfl; exact hdv
  obtain ⟨h1, h2, h3⟩ := createNlpWith_box (d := ad.disc) (V := ad.phaseVars)
    (L := fun ph => (ad.phaseVars ph).map (adaptiveLower ad.disc.ocp fun p => ad.lbh.getD p 0))
    (U := fun ph => (ad.phaseVars ph).map (adaptiveUpper ad.disc.ocp fun p => ad.ubh.getD p 0))
    (fun ph hph => by
      unfold Adapt.nlpVariables
      rw [Disc.nlpVariables_spec hv hnx hph]
      have l1 : ph < ad.lbh.length := by rw [hlb]; exact hph
      have l2 : ph < ad.ubh.length := by rw [hub]; exact hph
      simp only [py_bind_ok, pyIdx_ok l1, pyIdx_ok l2]
      show Except.ok _ = Except.ok _
      congr 2
      have key : ∀ (f g : Sym → Ext K) (c : K), (∀ v ∈ ad.disc.phaseVars ph, g v = f v) →
          (∀ s, g (.H s ph) = .fin c) → (ad.disc.phaseVars ph).map f ++ List.replicate ad.disc.nSegments (.fin c) =
            (ad.phaseVars ph).map g := by
        intro f g c hf hg
        unfold Adapt.phaseVars
        rw [List.map_append, List.map_map]
        congr 1
        · exact List.map_congr_left fun v hv => (hf v hv).symm
        · rw [replicate_eq_map_range]
          exact List.map_congr_left fun s _ => (hg s).symm
      congr 1
      · refine key _ _ _ (fun v hv => ?_) fun s => ?_
        · cases v with
          | H s p => exact absurd hv Disc.not_H_mem
          | _ => rfl
        · show Ext.fin (ad.lbh.getD ph 0) = _
          rw [List.getD_eq_getElem _ _ l1]
      · refine key _ _ _ (fun v hv => ?_) fun s => ?_
        · cases v with
          | H s p => exact absurd hv Disc.not_H_mem
          | _ => rfl
        · show Ext.fin (ad.ubh.getD ph 0) = _
          rw [List.getD_eq_getElem _ _ l2]) hn
  rw [flatMap_map'] at h2 h3
  rw [h1, h2, h3] at hbox
  have hmem : v ∈ (List.range ad.disc.ocp.nPhases).flatMap ad.phaseVars := by
    simp only [List.mem_flatMap, List.mem_range, Adapt.mem_phaseVars, Disc.mem_phaseVars]
    cases v with
    | X ph i j => exact ⟨ph, hdv.1, Or.inl (Or.inl ⟨i, hdv.2.1, j, hdv.2.2, rfl⟩)⟩
    | U ph i j => exact ⟨ph, hdv.1, Or.inl (Or.inr (Or.inl ⟨i, hdv.2.1, j, hdv.2.2, rfl⟩))⟩
    | T0 ph => exact ⟨ph, hdv, Or.inl (Or.inr (Or.inr (Or.inl rfl)))⟩
    | Tf ph => exact ⟨ph, hdv, Or.inl (Or.inr (Or.inr (Or.inr (Or.inl rfl))))⟩
    | A k ph => exact ⟨ph, hdv.1, Or.inl (Or.inr (Or.inr (Or.inr (Or.inr ⟨k, hdv.2, rfl⟩))))⟩
    | H s p => exact absurd hdv id
  have := (holdsBy_map (W := Within) _ σ _ _).1 hbox v hmem
  have e1 : adaptiveLower ad.disc.ocp (fun p => ad.lbh.getD p 0) v = scaledLower ad.disc.ocp v := by
    cases v with
    | H s p => exact absurd hdv id
    | _ => rfl
  have e2 : adaptiveUpper ad.disc.ocp (fun p => ad.ubh.getD p 0) v = scaledUpper ad.disc.ocp v := by
    cases v with
    | H s p => exact absurd hdv id
    | _ => rfl
  rw [e1, e2, scaledLower_eq _ hH, scaledUpper_eq _ hH, within_times] at this
  exact this

theorem entry_ordered {lo hi : List (List (Ext K))} {r c ph j : Nat} (hlo : HasShape lo r c) (hhi : HasShape hi r c)
    (h : ∀ ph, RowOrdered lo hi ph) (hph : ph < r) (hj : j < c) : Ext.le (entry lo ph j .nan) (entry hi ph j .nan) = true := by
  have l1 : ph < lo.length := by rw [hlo.1]; exact hph
  have l2 : ph < hi.length := by rw [hhi.1]; exact hph
  have j1 : j < lo[ph].length := by rw [hlo.2 _ (List.getElem_mem l1)]; exact hj
  have j2 : j < hi[ph].length := by rw [hhi.2 _ (List.getElem_mem l2)]; exact hj
  rw [entry_eq l1, entry_eq l2, List.getD_eq_getElem _ _ j1, List.getD_eq_getElem _ _ j2]
  exact h ph _ _ (List.getElem?_eq_getElem l1) (List.getElem?_eq_getElem l2) j _ _ (List.getElem?_eq_getElem j1)
    (List.getElem?_eq_getElem j2)

/-- In a valid problem the bounds of every variable are ordered. -/
theorem bounds_ordered {ocp : OCP K} (hv : ValidOCP ocp) {N : Nat} {v : Sym} (h : IsDecisionVar ocp N v) :
    Ext.le (lowerOf ocp v) (upperOf ocp v) = true := by
  cases v with
  | X ph i j =>
    unfold lowerOf upperOf
    dsimp only
    split
    · simp [Ext.le]
    · exact entry_ordered hv.lbx hv.ubx hv.ordX h.1 h.2.2
  | U ph i j => exact entry_ordered hv.lbu hv.ubu hv.ordU h.1 h.2.2
  | T0 ph => exact entry_ordered hv.lbt0 hv.ubt0 hv.ordT0 h one_pos
  | Tf ph => exact entry_ordered hv.lbtf hv.ubtf hv.ordTf h one_pos
  | A k ph => exact entry_ordered hv.lba hv.uba hv.ordA h.1 h.2
  | H s p => exact absurd h id

/-- With a negative scale only equal bounds can be met. -/
theorem demands_negative {lo hi : Ext K} {s y : K} (hle : Ext.le lo hi = true) (hs : s < 0) (h : BoxDemands lo hi s y) :
    lo = .fin (y / s) ∧ hi = .fin (y / s) := by
  rcases h with h | ⟨-, h1, h2⟩ | h
  · exact absurd h.1 (not_lt.2 hs.le)
  · cases lo <;> cases hi <;> simp_all [Ext.le, Ext.Below, Ext.Above]
    constructor <;> apply le_antisymm <;> linarith
  · exact absurd h.1 hs.ne

/-- **C92** With a negative scale, a point within the variable bounds exists only if all variables of that scale have equal lower and upper
bounds: otherwise the NLP has no feasible point. -/
theorem C92_negative_infeasible (hv : ValidOCP d.ocp) (hnx : 0 < d.ocp.nx) {nlp : NLP K} (hn : d.createNlp = .ok nlp) {v : Sym}
    (hdv : IsDecisionVar d.ocp d.N v) (hs : scaleOf d.ocp v < 0) (hne : lowerOf d.ocp v ≠ upperOf d.ocp v) (σ : Env K) :
    ¬ nlp.Feasible σ := by
  rintro ⟨h, -⟩
  obtain ⟨h1, h2⟩ := demands_negative (bounds_ordered hv hdv) hs ((C92_box hv hnx hn σ).1 h v hdv)
  exact hne (h1.trans h2.symm)

/-- **C92** With scale zero, variables with an infinite bound make the NLP infeasible, and the others are stuck at zero, whatever their
bounds are. -/
theorem C92_zero_scale (hv : ValidOCP d.ocp) (hnx : 0 < d.ocp.nx) {nlp : NLP K} (hn : d.createNlp = .ok nlp) {v : Sym}
    (hdv : IsDecisionVar d.ocp d.N v) (hs : scaleOf d.ocp v = 0) (σ : Env K) (h : Holds (nlp.x.map σ) nlp.lbx nlp.ubx) :
    σ v = 0 ∧ (lowerOf d.ocp v).Finite ∧ (upperOf d.ocp v).Finite := by
  rcases (C92_box hv hnx hn σ).1 h v hdv with h | h | h
  · exact absurd h.1 hs.not_gt
  · exact absurd h.1 hs.not_lt
  · exact h.2

/-- **C92** The same for `mpopt_adaptive`. -/
theorem C92_adaptive_infeasible {ad : Adapt K} (hv : ValidOCP ad.disc.ocp) (hnx : 0 < ad.disc.ocp.nx) {nlp : NLP K}
    (hn : ad.createNlp = .ok nlp) (hlb : ad.lbh.length = ad.disc.ocp.nPhases) (hub : ad.ubh.length = ad.disc.ocp.nPhases)
    {v : Sym} (hdv : IsDecisionVar ad.disc.ocp ad.disc.N v) (hs : scaleOf ad.disc.ocp v < 0)
    (hne : lowerOf ad.disc.ocp v ≠ upperOf ad.disc.ocp v) (σ : Env K) : ¬ nlp.Feasible σ := by
  rintro ⟨h, -⟩
  obtain ⟨h1, h2⟩ := demands_negative (bounds_ordered hv hdv) hs (C92_adaptive_box hv hnx hn hlb hub σ h hdv)
  exact hne (h1.trans h2.symm)

/-! ### Concrete cases -/

/-- The two-phase example with a negative scale of the state. -/
def ocpNeg : OCP ℚ := { ocpQ2 with scaleX := [-2] }

/-- The two-phase example with scale zero of the parameter. -/
def ocpZero : OCP ℚ := { ocpQ2 with scaleA := [0] }

/-- Both are accepted by `validate` and by both classes. -/
theorem scales_run (ocp : OCP ℚ) (hocp : ocp = ocpNeg ∨ ocp = ocpZero) : ocp.validate = .ok () ∧ ∃ d nlp nlpA,
    mkDisc libQ .numerical (-1) 1 ocp 2 [1, 1] "LGR" = .ok d ∧ d.ocp = ocp ∧ d.N = 3 ∧ d.createNlp = .ok nlp ∧
      (mkAdapt d).createNlp = .ok nlpA := by
  have hval : ocp.validate = .ok () := by rcases hocp with rfl | rfl <;> decide +kernel
  have hc : (do
      let d ← mkDisc libQ .numerical (-1) 1 ocp 2 [1, 1] "LGR"
      let nlp ← d.createNlp
      let nlpA ← (mkAdapt d).createNlp
      return (d.N, nlp.x.length, nlpA.x.length) : Py (Nat × Nat × Nat)) = .ok (3, 24, 28) := by
    rcases hocp with rfl | rfl <;> decide +kernel
  obtain ⟨d, M, h1, h2, h3, h4, -⟩ := C43_lgr_setup libQ .numerical (-1) 1 (by norm_num) ocp
    [1, 1] (by simp) (by simp) (by
      intro p hp h2
      simp only [List.mem_cons, List.not_mem_nil, or_false, or_self] at hp
      omega)
  have h1' : mkDisc libQ .numerical (-1) 1 ocp 2 [1, 1] "LGR" = .ok d := h1
  rw [h1', py_bind_ok] at hc
  simp only [py_bind_eq_ok, py_pure_eq_ok, Prod.mk.injEq] at hc
  obtain ⟨nlp, hn, nlpA, hA, hN, -⟩ := hc
  exact ⟨hval, d, nlp, nlpA, h1', h3, hN, hn, hA⟩

/-- With the negative scale neither NLP has a feasible point. -/
theorem C92_example : ∃ d nlp nlpA, mkDisc libQ .numerical (-1) 1 ocpNeg 2 [1, 1] "LGR" = .ok d ∧ ValidOCP d.ocp ∧
    d.createNlp = .ok nlp ∧ (mkAdapt d).createNlp = .ok nlpA ∧ IsDecisionVar d.ocp d.N (.X 0 1 0) ∧
    scaleOf d.ocp (.X 0 1 0) < 0 ∧ lowerOf d.ocp (.X 0 1 0) ≠ upperOf d.ocp (.X 0 1 0) ∧
    (∀ σ, ¬ nlp.Feasible σ) ∧ ∀ σ, ¬ nlpA.Feasible σ := by
  obtain ⟨hval, d, nlp, nlpA, h1, h3, hN, hn, hA⟩ := scales_run ocpNeg (Or.inl rfl)
  have hv : ValidOCP d.ocp := by rw [h3]; exact (C40_validate_iff _).1 hval
  have hnx : 0 < d.ocp.nx := by rw [h3]; decide
  have hdv : IsDecisionVar d.ocp d.N (.X 0 1 0) := by
    rw [h3, hN]
    exact ⟨by decide, by decide, by decide⟩
  have hs : scaleOf d.ocp (.X 0 1 0) < 0 := by rw [h3]; decide +kernel
  have hne : lowerOf d.ocp (.X 0 1 0) ≠ upperOf d.ocp (.X 0 1 0) := by rw [h3]; decide +kernel
  exact ⟨d, nlp, nlpA, h1, hv, hn, hA, hdv, hs, hne, C92_negative_infeasible hv hnx hn hdv hs hne,
    C92_adaptive_infeasible (ad := mkAdapt d) hv hnx hA (by simp [mkAdapt]) (by simp [mkAdapt]) hdv hs hne⟩

/-- With scale zero of a parameter with bounds 0 and 1 there are points within the variable bounds; in all of them the parameter is 0. -/
theorem C92_zero_example : ∃ d nlp, mkDisc libQ .numerical (-1) 1 ocpZero 2 [1, 1] "LGR" = .ok d ∧ ValidOCP d.ocp ∧
    d.createNlp = .ok nlp ∧ upperOf d.ocp (.A 0 0) = .fin 1 ∧ Holds (nlp.x.map fun _ => (0 : ℚ)) nlp.lbx nlp.ubx ∧
    ∀ σ, Holds (nlp.x.map σ) nlp.lbx nlp.ubx → σ (.A 0 0) = 0 := by
  obtain ⟨hval, d, nlp, nlpA, h1, h3, hN, hn, hA⟩ := scales_run ocpZero (Or.inr rfl)
  have hv : ValidOCP d.ocp := by rw [h3]; exact (C40_validate_iff _).1 hval
  have hnx : 0 < d.ocp.nx := by rw [h3]; decide
  have hdv : IsDecisionVar d.ocp d.N (.A 0 0) := by
    rw [h3]
    exact ⟨by decide, by decide⟩
  refine ⟨d, nlp, h1, hv, hn, by rw [h3]; decide +kernel, (C92_box hv hnx hn _).2 fun v h => ?_, fun σ h =>
    (C92_zero_scale hv hnx hn hdv (by rw [h3]; decide +kernel) σ h).1⟩
  rw [h3, hN] at h
  rw [h3]
  cases v with
  | X ph i j =>
    have h1 : ph < 2 := h.1
    have h2 : i < 3 := h.2.1
    have h3 : j < 1 := h.2.2
    refine Or.inl ⟨by interval_cases j; norm_num [scaleOf, ocpZero, ocpQ2], ?_⟩
    unfold lowerOf upperOf
    dsimp only
    split <;> interval_cases ph <;> interval_cases j <;>
      simp [Within, Ext.Below, Ext.Above, entry, ocpZero, ocpQ2]
  | U ph i j =>
    have h1 : ph < 2 := h.1
    have h3 : j < 2 := h.2.2
    refine Or.inl ⟨by interval_cases j <;> norm_num [scaleOf, ocpZero, ocpQ2], ?_⟩
    interval_cases ph <;> interval_cases j <;>
      simp [Within, Ext.Below, Ext.Above, entry, ocpZero, ocpQ2, lowerOf, upperOf]
  | T0 ph =>
    have h1 : ph < 2 := h
    refine Or.inl ⟨by norm_num [scaleOf, ocpZero, ocpQ2], ?_⟩
    interval_cases ph <;> simp [Within, Ext.Below, Ext.Above, entry, ocpZero, ocpQ2, lowerOf, upperOf]
  | Tf ph =>
    have h1 : ph < 2 := h
    refine Or.inl ⟨by norm_num [scaleOf, ocpZero, ocpQ2], ?_⟩
    interval_cases ph <;> simp [Within, Ext.Below, Ext.Above, entry, ocpZero, ocpQ2, lowerOf, upperOf]
  | A k ph =>
    have h1 : ph < 2 := h.1
    have h2 : k < 1 := h.2
    refine Or.inr (Or.inr ⟨by interval_cases k; norm_num [scaleOf, ocpZero, ocpQ2], rfl, ?_⟩)
    interval_cases ph <;> interval_cases k <;>
      simp [Ext.Finite, entry, ocpZero, ocpQ2, lowerOf, upperOf]
  | H s p => exact absurd h id

end MPOpt
