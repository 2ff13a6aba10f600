import Verif.Spec.ToleranceFree
import Verif.Props.Tolerance
import Verif.Props.AdaptiveEnd
import Verif.Props.HEnd

/-! # C86: what tolerances of the NLP solver mean for the classes with varying segment widths -/

set_option autoImplicit false
set_option linter.unusedSectionVars false

namespace MPOpt
open Polynomial
open Disc (Block NLP)
variable {K V : Type} [Field K] [LinearOrder K] [IsStrictOrderedRing K]

/-- Without tolerances, a solver that has them delivers solutions. -/
theorem near_zero {c : SolverCall K V} {z : List K} : c.NearSolution 0 0 z ↔ c.IsSolution z := by
  have h : ∀ (g : List K) (lo hi : List (Ext K)), HoldsTo 0 g lo hi ↔ Holds g lo hi := fun g lo hi => by
    unfold HoldsTo Holds
    simp only [withinTo_exact]
  constructor
  · rintro ⟨h1, h2, h3, h4⟩
    exact ⟨h1, h2, (h _ _ _).1 h3, (h _ _ _).1 h4⟩
  · rintro ⟨h1, h2, h3, h4⟩
    exact ⟨h1, h2, (h _ _ _).2 h3, (h _ _ _).2 h4⟩

/-! ### `mpopt_h_adaptive` -/

section h
variable [FloorRing K]
variable {w : HOutside K V} {nlpsol : Nat → Nat → SolverCall K V → Py (PyDict V)} {M : Mesh K} {ocp : OCP K}
  {ptp : List (List Nat)} {n : Nat} {arg : OrdersArg} {scheme : String} {lbh ubh tol : List K} {rx rdx : Bool}
  {s : HOpt K V}

/-- **C86** After any calls of `solve` on an `mpopt_h_adaptive` object with a solver that only promises points within
its tolerances, the node values shown are those of a trajectory that solves the collocated problem of the user up to
these tolerances, with exactly the widths stored in the object. -/
theorem C86_h_near (hf : s.Ready w ocp n arg scheme lbh ubh tol) (hv : ValidOCP ocp) (hs : ocp.SettingsOK)
    (hsc : ocp.PosScales) (hM : MeshFor w.toOutside scheme n arg M) {εb ε : K}
    (hnear : ∀ n k c sol, nlpsol n k c = .ok sol → ∃ z, Returned w sol z ∧ c.NearSolution εb ε z)
    {calls : List (HStart V × HArgs V)} (ho : OwnStarts calls) {s' : HOpt K V} {sol : PyDict V}
    (hrun : s.run w nlpsol calls 0 none = (s', some sol))
    {p : Post K} {r : Option (PyDict (ResidVal K))} (hp : s'.processResults w sol ptp false rx rdx = .ok (p, r)) :
    ∃ T, SolvesTo εb ε ocp M T ∧ p.Shows ocp M T ∧ s'.widths = some (ocp.packWidths n T) := by
  obtain ⟨d, honM, rfl, rfl, -, hc⟩ := hf.coherent hM
  obtain ⟨k1, -, k3⟩ := hc.run (nlpsol := nlpsol) ho (n := 0) (last := none) (fun _ h => by cases h)
  rw [hrun] at k1 k3
  obtain ⟨c, ⟨i, k, hk⟩, c2, c3, c4⟩ := k3 sol rfl
  obtain ⟨sw, v, z, q1, q2, q3, q4, q5, q6, q7⟩ := k1.processResults hp
  obtain ⟨z', hz', hsol⟩ := hnear i k c sol hk
  have : z' = z := hz'.unique ⟨v, q2, q3⟩
  subst this
  have hsw : sw = c.p := by
    have c4 : s'.widths = some c.p := c4
    rw [q1] at c4; exact Option.some.inj c4
  subst hsw
  subst q4
  obtain ⟨-, t1, t2, t3⟩ := shown_of_near (a := ({ initial := none, reinitialize := false, widths := some c.p, plugin := "", options := [] } : SolveArgs K V)) hv hs hsc honM
    rfl rfl q5 q6 q7 c2 c3 rfl hsol
  exact ⟨_, t1, t3, by rw [q1]; exact congrArg some t2.symm⟩

/-- **C86** If the solver is in addition optimal up to `η`, the cost of the trajectory shown exceeds the cost of no
trajectory that solves the collocated problem with the stored widths by more than `η`. -/
theorem C86_h_near_optimal (hf : s.Ready w ocp n arg scheme lbh ubh tol) (hv : ValidOCP ocp) (hs : ocp.SettingsOK)
    (hsc : ocp.PosScales) (hM : MeshFor w.toOutside scheme n arg M) {εb ε η : K}
    (hopt : ∀ n k c sol, nlpsol n k c = .ok sol → ∃ z, Returned w sol z ∧ c.NearOptimal εb ε η z)
    {calls : List (HStart V × HArgs V)} (ho : OwnStarts calls) {s' : HOpt K V} {sol : PyDict V}
    (hrun : s.run w nlpsol calls 0 none = (s', some sol))
    {p : Post K} {r : Option (PyDict (ResidVal K))} (hp : s'.processResults w sol ptp false rx rdx = .ok (p, r)) :
    ∃ T W J, compQuadWeights ⟨w.method, w.tau0, w.tau1, tausFn w.lib w.tau0 w.tau1 scheme⟩ M.orders = .ok W ∧
      SolvesTo εb ε ocp M T ∧ p.Shows ocp M T ∧ s'.widths = some (ocp.packWidths n T) ∧ PhysCost ocp M W T J ∧
      ∀ T' J', SolvesOCP ocp M T' → s'.widths = some (ocp.packWidths n T') → PhysCost ocp M W T' J' → J ≤ J' + η := by
  obtain ⟨d, honM, rfl, rfl, hW, hc⟩ := hf.coherent hM
  obtain ⟨k1, -, k3⟩ := hc.run (nlpsol := nlpsol) ho (n := 0) (last := none) (fun _ h => by cases h)
  rw [hrun] at k1 k3
  obtain ⟨c, ⟨i, k, hk⟩, c2, c3, c4⟩ := k3 sol rfl
  obtain ⟨sw, v, z, q1, q2, q3, q4, q5, q6, q7⟩ := k1.processResults hp
  obtain ⟨z', hz', hsol⟩ := hopt i k c sol hk
  have : z' = z := hz'.unique ⟨v, q2, q3⟩
  subst this
  have hsw : sw = c.p := by
    have c4 : s'.widths = some c.p := c4
    rw [q1] at c4; exact Option.some.inj c4
  subst hsw
  subst q4 q6
  obtain ⟨hcl, t1, t2, t3⟩ := shown_of_near (a := ({ initial := none, reinitialize := false, widths := some c.p, plugin := "", options := [] } : SolveArgs K V)) hv hs hsc honM
    rfl rfl q5 rfl q7 c2 c3 rfl hsol.sol
  have hcost := (call_spec honM hv hs hsc c2 c3 p.solved.z hcl).2
  refine ⟨_, _, c.solver.problem.f (c.point p.solved.z), hW, t1, t3, by rw [q1]; exact congrArg some t2.symm, ?_,
    fun T' J' hS' hw' hJ' => ?_⟩
  · unfold Solved.traj; rw [q5]; exact hcost
  · obtain ⟨k1, k2⟩ := call_trajectories honM hv hs hsc c2 c3 hcl (req := some c.p) rfl
    have hw'' : WidthsAre p.solved.disc.ocp p.solved.disc.nSegments (some c.p) T' := by
      rw [q1] at hw'
      exact (Option.some.inj hw').symm
    rw [← k2 T' J' hw'' hJ']
    exact hsol.best _ ((k1 _).2 ⟨T', hS', hw'', rfl⟩)

end h

/-! ### `mpopt_adaptive` -/

theorem withinTo_sym (ε tol v : K) : WithinTo ε (.fin (-tol)) (.fin tol) v ↔ |v| ≤ tol + ε := by
  simp only [WithinTo, Ext.Below, Ext.Above, abs_le]
  constructor
  · rintro ⟨h1, h2⟩; constructor <;> linarith
  · rintro ⟨h1, h2⟩; constructor <;> linarith

variable {ad : Adapt K} {M : Mesh K} {ocp : OCP K}

/-- Rows of a phase of `mpopt_adaptive` up to a tolerance. -/
theorem plainRowsBy_withinTo (hv : ValidOCP ocp) (hsc : ocp.PosScales) (ε : K) (T : Traj K) (ph : Nat) :
    PlainRowsBy (WithinTo ε) ocp M T ph ↔ CollocationTo ε ocp M T ph ∧
      (∀ F, ocp.pathConstraints[ph]? = some (some F) → ∀ s i, M.Owns s i → ∀ c < F.len,
        F.f (ocp.pArg T ph (M.idx s i) (M.time T ph s (M.node s i))) c ≤ ε) ∧
      (ocp.diffU.getD ph false = true → ∀ j < ocp.nu, ∀ s i, M.Owns s i →
        WithinTo ε (ocp.lbdu.getD ph .nan) (ocp.ubdu.getD ph .nan)
          (ocp.scaleU.getD j 0 * (derivative (M.piece (fun k => T.u ph k j) s)).eval (M.node s i))) ∧
      ∀ F, ocp.terminalConstraints[ph]? = some (some F) → ∀ c < F.len, |F.f (ocp.tArg T ph M.N) c| ≤ ε := by
  have px : ∀ j < ocp.nx, 0 < ocp.scaleX.getD j 0 := fun j hj => getD_mem_ne hv.scaleX hsc.x hj
  constructor
  · rintro ⟨a, b, c, g⟩
    exact ⟨fun F hF j hj s i ho => (withinTo_zero_scaled _ _ _ (px j hj)).1 (a F hF j hj s i ho),
      fun F hF s i ho k hk => (withinTo_neg _ _).1 (b F hF s i ho k hk), c,
      fun F hF k hk => (withinTo_zero _ _).1 (g F hF k hk)⟩
  · rintro ⟨a, b, c, g⟩
    exact ⟨fun F hF j hj s i ho => (withinTo_zero_scaled _ _ _ (px j hj)).2 (a F hF j hj s i ho),
      fun F hF s i ho k hk => (withinTo_neg _ _).2 (b F hF s i ho k hk), c,
      fun F hF k hk => (withinTo_zero _ _).2 (g F hF k hk)⟩

theorem widthRowsBy_withinTo (hv : ValidOCP ocp) (hsc : ocp.PosScales) (ε : K) (T : Traj K) (tol : K) (mid : Bool)
    (ph : Nat) :
    WidthRowsBy (WithinTo ε) ocp M T tol mid ph ↔ |(∑ s ∈ Finset.range M.orders.length, T.w s ph) - 1| ≤ ε ∧
      (∀ j < ocp.nu, ∀ s < M.orders.length, ∀ i < M.order s,
        WithinTo (ε / ocp.scaleU.getD j 0) (entry ocp.lbu ph j .nan) (entry ocp.ubu ph j .nan)
          ((M.piece (fun k => T.u ph k j) s).eval ((M.node s i + M.node s (i + 1)) / 2))) ∧
      (∀ j < ocp.nx, ∀ s < M.orders.length, ∀ i < M.order s,
        WithinTo (ε / ocp.scaleX.getD j 0) (entry ocp.lbx ph j .nan) (entry ocp.ubx ph j .nan)
          ((M.piece (fun k => T.x ph k j) s).eval ((M.node s i + M.node s (i + 1)) / 2))) ∧
      (mid = true → ∀ F, ocp.dynamics[ph]? = some F → ∀ j < ocp.nx, ∀ s < M.orders.length, ∀ i < M.order s,
        |T.w s ph * (ocp.scaleX.getD j 0 *
          ocp.defect M T F ph s ((M.node s i + M.node s (i + 1)) / 2) j)| ≤ tol + ε) := by
  have px : ∀ j < ocp.nx, 0 < ocp.scaleX.getD j 0 := fun j hj => getD_mem_ne hv.scaleX hsc.x hj
  have pu : ∀ j < ocp.nu, 0 < ocp.scaleU.getD j 0 := fun j hj => getD_mem_ne hv.scaleU hsc.u hj
  constructor
  · rintro ⟨a, b, c, e⟩
    exact ⟨(withinTo_zero _ _).1 a,
      fun j hj s hs i hi => (withinTo_scaled _ _ _ _ _ (pu j hj)).1 (b j hj s hs i hi),
      fun j hj s hs i hi => (withinTo_scaled _ _ _ _ _ (px j hj)).1 (c j hj s hs i hi),
      fun hm F hF j hj s hs i hi => (withinTo_sym _ _ _).1 (e hm F hF j hj s hs i hi)⟩
  · rintro ⟨a, b, c, e⟩
    exact ⟨(withinTo_zero _ _).2 a,
      fun j hj s hs i hi => (withinTo_scaled _ _ _ _ _ (pu j hj)).2 (b j hj s hs i hi),
      fun j hj s hs i hi => (withinTo_scaled _ _ _ _ _ (px j hj)).2 (c j hj s hs i hi),
      fun hm F hF j hj s hs i hi => (withinTo_sym _ _ _).2 (e hm F hF j hj s hs i hi)⟩

/-- **C86** A point respects the NLP of `mpopt_adaptive` up to `εb` in the variable bounds and `ε` in the rows exactly
when its trajectory solves the collocated problem with free widths up to these tolerances. -/
theorem C86_near_iff (h : ad.disc.OnMesh M) (hv : ValidOCP ad.disc.ocp) (hs : ad.disc.ocp.SettingsOK)
    (hsc : ad.disc.ocp.PosScales) (hr : ad.Ready) :
    ∃ nlp, ad.createNlp = .ok nlp ∧ ∀ (εb ε : K) (σ : Env K), nlp.FeasibleTo εb ε σ ↔
      SolvesAdaptiveTo εb ε ad.disc.ocp M (physOf ad.disc.ocp σ) ad.lbh ad.ubh ad.tol ad.midResiduals := by
  obtain ⟨bs, J, nlp, hn, hbl, hbs, hsz, hx, hl, hu, -, -, ev, hevs, hev1, hev2, hg, hlg, hug⟩ :=
    Adapt.createNlp_spec h hv hs hsc hr
  refine ⟨nlp, hn, fun εb ε σ => ?_⟩
  unfold Disc.NLP.FeasibleTo
  have hbox : HoldsTo εb (nlp.x.map σ) nlp.lbx nlp.ubx ↔
      ∀ ph < ad.disc.ocp.nPhases, BoundsTo εb ad.disc.ocp M (physOf ad.disc.ocp σ) ph ∧
        ∀ s < M.orders.length, ad.lbh.getD ph 0 - εb ≤ (physOf ad.disc.ocp σ).w s ph ∧
          (physOf ad.disc.ocp σ).w s ph ≤ ad.ubh.getD ph 0 + εb := by
    rw [holdsTo_iff_by, hl, hu, holdsBy_map, hx]
    simp only [Adapt.allVars, List.mem_flatMap, List.mem_range]
    have plain : ∀ ph, (∀ s ∈ ad.disc.phaseVars ph,
        WithinTo εb (adaptiveLower ad.disc.ocp (fun p => ad.lbh.getD p 0) s)
          (adaptiveUpper ad.disc.ocp (fun p => ad.ubh.getD p 0) s) (σ s)) ↔
        BoundsTo εb ad.disc.ocp M (physOf ad.disc.ocp σ) ph := by
      intro ph
      rw [← h.boundsTo_spec hv hsc εb σ]
      apply forall_congr'
      intro s
      apply imp_congr_right
      intro hs
      cases s with
      | H s p => exact absurd hs Disc.not_H_mem
      | _ => rfl
    have width : ∀ ph s, WithinTo εb (.fin (ad.lbh.getD ph 0)) (.fin (ad.ubh.getD ph 0)) (σ (.H s ph)) ↔
        ad.lbh.getD ph 0 - εb ≤ (physOf ad.disc.ocp σ).w s ph ∧
          (physOf ad.disc.ocp σ).w s ph ≤ ad.ubh.getD ph 0 + εb := by
      intro ph s
      simp only [WithinTo, Ext.Below, Ext.Above, physOf, sub_le_iff_le_add]
    constructor
    · intro hh ph hph
      refine ⟨(plain ph).1 fun s hs => hh s ⟨ph, hph, Adapt.mem_phaseVars.2 (Or.inl hs)⟩,
        fun s hs => ?_⟩
      exact (width ph s).1 (hh (.H s ph) ⟨ph, hph, Adapt.mem_phaseVars.2
        (Or.inr ⟨s, by rw [← h.segLen]; exact hs, rfl⟩)⟩)
    · rintro hh s ⟨ph, hph, hs⟩
      rcases Adapt.mem_phaseVars.1 hs with hs | ⟨k, hk, rfl⟩
      · exact (plain ph).2 (hh ph hph).1 s hs
      · exact (width ph k).2 ((hh ph hph).2 k (by rw [h.segLen]; exact hk))
  have hrows : HoldsTo ε (evalAll nlp.g σ) nlp.lbg nlp.ubg ↔
      (∀ b ∈ bs, b.SatBy (WithinTo ε) σ) ∧ ∀ b ∈ ev, b.SatBy (WithinTo ε) σ := by
    rw [holdsTo_iff_by, hg, hlg, hug, satBy_flatten (by
      intro b hb
      rcases List.mem_append.1 hb with hb | hb
      · exact hsz b hb
      · exact hevs b hb)]
    simp only [List.mem_append]
    exact ⟨fun h => ⟨fun b hb => h b (Or.inl hb), fun b hb => h b (Or.inr hb)⟩,
      fun h b hb => hb.elim (h.1 b) (h.2 b)⟩
  have hphase : (∀ b ∈ bs, b.SatBy (WithinTo ε) σ) ↔ ∀ ph < ad.disc.ocp.nPhases,
      PlainRowsBy (WithinTo ε) ad.disc.ocp M (physOf ad.disc.ocp σ) ph ∧
      WidthRowsBy (WithinTo ε) ad.disc.ocp M (physOf ad.disc.ocp σ) (ad.tol.getD ph 0) ad.midResiduals ph := by
    have key : ∀ ph (hb : ph < bs.length), bs[ph].SatBy (WithinTo ε) σ ↔
        PlainRowsBy (WithinTo ε) ad.disc.ocp M (physOf ad.disc.ocp σ) ph ∧
        WidthRowsBy (WithinTo ε) ad.disc.ocp M (physOf ad.disc.ocp σ) (ad.tol.getD ph 0) ad.midResiduals ph := by
      intro ph hb
      have hph : ph < ad.disc.ocp.nPhases := by omega
      obtain ⟨B, J', rc, tc, hB, -, hsat, -⟩ := Adapt.discretizePhase_rows h hv hs hsc hr hph
      have hB' := hbs ph _ (List.getElem?_eq_getElem hb)
      rw [hB] at hB'
      injection hB' with hB'
      injection hB' with hB' _
      rw [← hB']
      exact hsat _ σ (withinTo_free ε)
    constructor
    · intro hh ph hph
      exact (key ph (by omega)).1 (hh _ (List.getElem_mem _))
    · intro hh b hb
      obtain ⟨ph, hph, rfl⟩ := List.mem_iff_getElem.1 hb
      exact (key ph hph).2 (hh ph (by omega))
  have hlink : (∀ b ∈ ev, b.SatBy (WithinTo ε) σ) ↔
      (2 ≤ ad.disc.ocp.nPhases → LinksTo ε ad.disc.ocp M (physOf ad.disc.ocp σ)) := by
    by_cases h2 : 2 ≤ ad.disc.ocp.nPhases
    · obtain ⟨e, he, rfl⟩ := hev2 h2
      obtain ⟨e', he', -, hsat⟩ := h.eventBlock_rows hv hs hsc h2
      rw [he] at he'; cases he'
      simp [h2, hsat, linkRowsBy_withinTo hv hsc]
    · rw [hev1 (by omega)]
      simp [h2]
  rw [hbox, hrows, hphase, hlink]
  simp only [plainRowsBy_withinTo hv hsc, widthRowsBy_withinTo hv hsc]
  constructor
  · rintro ⟨hb, hp, hl⟩
    exact ⟨fun ph hp => (hb ph hp).1, fun ph hph => (hp ph hph).1.1, fun ph hph => (hp ph hph).1.2.1,
      fun ph hph => (hp ph hph).1.2.2.2, fun ph hph => (hp ph hph).1.2.2.1,
      fun ph hp s hs => ((hb ph hp).2 s hs).1, fun ph hp s hs => ((hb ph hp).2 s hs).2,
      fun ph hph => (hp ph hph).2.1, fun ph hph => (hp ph hph).2.2.1, fun ph hph => (hp ph hph).2.2.2.1,
      fun hm ph hph => (hp ph hph).2.2.2.2 hm, hl⟩
  · rintro ⟨hb, h1, h2, h3, h4, h5, h6, h7, h8, h9, h10, hl⟩
    exact ⟨fun ph hp => ⟨hb ph hp, fun s hs => ⟨h5 ph hp s hs, h6 ph hp s hs⟩⟩,
      fun ph hph => ⟨⟨h1 ph hph, h2 ph hph, h4 ph hph, h3 ph hph⟩, h7 ph hph, h8 ph hph, h9 ph hph,
        fun hm => h10 hm ph hph⟩, hl⟩

/-- **C86** Without tolerances the trajectory solves the collocated problem with free widths. -/
theorem C86_exact (T : Traj K) {lbh ubh tol : List K} {mid : Bool} :
    SolvesAdaptiveTo 0 0 ocp M T lbh ubh tol mid ↔ SolvesAdaptive ocp M T lbh ubh tol mid := by
  have ab : ∀ v : K, |v| ≤ 0 ↔ v = 0 := fun v => abs_nonpos_iff
  constructor
  · rintro ⟨h1, h2, h3, h4, h5, l1, l2, l3, m1, m2, m3, h8⟩
    refine ⟨⟨fun ph hp => ?_, fun ph hp F hF j hj s i ho => ?_, h3, fun ph hp F hF c hc => ?_,
      fun ph hp => ⟨?_, ?_, ?_⟩, fun ph hp j hj s hs i hi => ?_, fun ph hp j hj s hs i hi => ?_,
      fun hm ph hp F hF j hj s hs i hi => ?_, fun h2 => ?_⟩,
      fun ph hp hd j hj s i ho => (withinTo_exact _ _ _).1 (h5 ph hp hd j hj s i ho)⟩
    · obtain ⟨b1, b2, b3, b4, b5, b6⟩ := h1 ph hp
      simp only [zero_div, withinTo_exact, ab, sub_eq_zero] at b1 b2 b3 b4 b5 b6
      exact ⟨b1, b2, b3, b4, b5, b6⟩
    · have := h2 ph hp F hF j hj s i ho
      rwa [zero_div, ab, sub_eq_zero] at this
    · exact (ab _).1 (h4 ph hp F hF c hc)
    · have := l3 ph hp
      rwa [ab, sub_eq_zero] at this
    · intro s hs; have := l1 ph hp s hs; rwa [sub_zero] at this
    · intro s hs; have := l2 ph hp s hs; rwa [add_zero] at this
    · have := m1 ph hp j hj s hs i hi
      rwa [zero_div, withinTo_exact] at this
    · have := m2 ph hp j hj s hs i hi
      rwa [zero_div, withinTo_exact] at this
    · have := m3 hm ph hp F hF j hj s hs i hi
      rw [← withinTo_sym, withinTo_exact] at this
      exact this
    · obtain ⟨b1, b2, b3⟩ := h8 h2
      simp only [zero_div, withinTo_exact, ab, sub_eq_zero] at b1 b2 b3
      exact ⟨b1, b2, b3⟩
  · rintro ⟨⟨h1, h2, h3, h4, hw, m1, m2, m3, h8⟩, h5⟩
    refine ⟨fun ph hp => ?_, fun ph hp F hF j hj s i ho => ?_, h3, fun ph hp F hF c hc => ?_,
      fun ph hp hd j hj s i ho => (withinTo_exact _ _ _).2 (h5 ph hp hd j hj s i ho),
      fun ph hp s hs => ?_, fun ph hp s hs => ?_, fun ph hp => ?_,
      fun ph hp j hj s hs i hi => ?_, fun ph hp j hj s hs i hi => ?_,
      fun hm ph hp F hF j hj s hs i hi => ?_, fun h2 => ?_⟩
    · obtain ⟨b1, b2, b3, b4, b5, b6⟩ := h1 ph hp
      refine ⟨?_, ?_, ?_, ?_, ?_, ?_⟩ <;> simp only [zero_div, withinTo_exact, ab, sub_eq_zero] <;> assumption
    · rw [zero_div, ab, sub_eq_zero]; exact h2 ph hp F hF j hj s i ho
    · exact (ab _).2 (h4 ph hp F hF c hc)
    · rw [sub_zero]; exact (hw ph hp).lower s hs
    · rw [add_zero]; exact (hw ph hp).upper s hs
    · rw [ab, sub_eq_zero]; exact (hw ph hp).sum
    · rw [zero_div, withinTo_exact]; exact m1 ph hp j hj s hs i hi
    · rw [zero_div, withinTo_exact]; exact m2 ph hp j hj s hs i hi
    · rw [← withinTo_sym, withinTo_exact]; exact m3 hm ph hp F hF j hj s hs i hi
    · obtain ⟨b1, b2, b3⟩ := h8 h2
      refine ⟨?_, ?_, ?_⟩ <;> simp only [zero_div, withinTo_exact, ab, sub_eq_zero] <;> assumption

theorem SameOn.solvesAdaptiveTo {S T : Traj K} {εb ε : K} {lbh ubh tol : List K} {mid : Bool}
    (h : SameOn ocp M.N M.orders.length S T) (hs : ocp.SettingsOK)
    (hS : SolvesAdaptiveTo εb ε ocp M S lbh ubh tol mid) : SolvesAdaptiveTo εb ε ocp M T lbh ubh tol mid := by
  have hN : 0 < M.N := by unfold Mesh.N; omega
  obtain ⟨h1, h2, h3, h4, h5, l1, l2, l3, m1, m2, m3, h8⟩ := hS
  refine ⟨fun ph hp => ?_, fun ph hp F hF j hj s i ho => ?_, fun ph hp F hF s i ho c hc => ?_,
    fun ph hp F hF c hc => ?_, fun ph hp hd j hj s i ho => ?_, fun ph hp s hs => ?_, fun ph hp s hs => ?_,
    fun ph hp => ?_, fun ph hp j hj s hs i hi => ?_, fun ph hp j hj s hs i hi => ?_,
    fun hm ph hp F hF j hj s hs i hi => ?_, fun hm => ?_⟩
  · obtain ⟨b1, b2, b3, b4, b5, b6⟩ := h1 ph hp
    refine ⟨fun h0 j hj => ?_, fun i hi hn j hj => ?_, fun i hi j hj => ?_, ?_, ?_, fun k hk => ?_⟩
    · rw [← h.x 0 (by omega) 0 hN j hj]; exact b1 h0 j hj
    · rw [← h.x ph hp i hi j hj]; exact b2 i hi hn j hj
    · rw [← h.u ph hp i hi j hj]; exact b3 i hi j hj
    · rw [← h.t0 ph hp]; exact b4
    · rw [← h.tf ph hp]; exact b5
    · rw [← h.a ph hp k hk]; exact b6 k hk
  · rw [← Mesh.piece_congr ho.1 fun k hk => h.x ph hp k hk j hj, ← h.half hp ho.1, ← h.time hp ho.1,
      ← h.pArg hp (Mesh.idx_lt ho.1 ho.2.1)]
    exact h2 ph hp F hF j hj s i ho
  · rw [← h.time hp ho.1, ← h.pArg hp (Mesh.idx_lt ho.1 ho.2.1)]
    exact h3 ph hp F hF s i ho c hc
  · rw [← h.tArg hp]
    exact h4 ph hp F hF c hc
  · rw [← Mesh.piece_congr ho.1 fun k hk => h.u ph hp k hk j hj]
    exact h5 ph hp hd j hj s i ho
  · rw [← h.w ph hp s hs]; exact l1 ph hp s hs
  · rw [← h.w ph hp s hs]; exact l2 ph hp s hs
  · rw [← Finset.sum_congr rfl fun s hs => h.w ph hp s (Finset.mem_range.1 hs)]
    exact l3 ph hp
  · rw [← Mesh.piece_congr hs fun k hk => h.u ph hp k hk j hj]
    exact m1 ph hp j hj s hs i hi
  · rw [← Mesh.piece_congr hs fun k hk => h.x ph hp k hk j hj]
    exact m2 ph hp j hj s hs i hi
  · rw [← h.defect hp hs F _ hj, ← h.w ph hp s hs]
    exact m3 hm ph hp F hF j hj s hs i hi
  · have hr : ∀ (k p q : Nat), ocp.phaseLinks[k]? = some (p, q) → p < ocp.nPhases ∧ q < ocp.nPhases :=
      fun k p q e => hs.linkRange (p, q) (List.mem_of_getElem? e)
    obtain ⟨b1, b2, b3⟩ := h8 hm
    refine ⟨fun k p q e j hj => ?_, fun k p q e j hj => ?_, fun k p q e => ?_⟩
    · obtain ⟨hp, hq⟩ := hr k p q e
      rw [← h.x q hq 0 hN j hj, ← h.x p hp _ (by omega) j hj]
      exact b1 k p q e j hj
    · obtain ⟨hp, hq⟩ := hr k p q e
      rw [← h.u q hq 0 hN j hj, ← h.u p hp _ (by omega) j hj]
      exact b2 k p q e j hj
    · obtain ⟨hp, hq⟩ := hr k p q e
      rw [← h.t0 q hq, ← h.tf p hp]
      exact b3 k p q e

/-- **C86** Up to the tolerance the segments fill the phase: the last one ends within `ε |tf - t0|` of `tf`. -/
theorem C86_covers_phase (hM : M.Good) {T : Traj K} {εb ε : K} {lbh ubh tol : List K} {mid : Bool}
    (hT : SolvesAdaptiveTo εb ε ocp M T lbh ubh tol mid) {ph : Nat} (hp : ph < ocp.nPhases) :
    |M.time T ph (M.orders.length - 1) M.tau1 - T.tf ph| ≤ ε * |T.tf ph - T.t0 ph| := by
  have h0 : 0 < M.orders.length := List.length_pos_iff.2 hM.nonempty
  have e := (C13_segment_ends hM T ph).2.1 (M.orders.length - 1)
  rw [Nat.sub_add_cancel h0] at e
  rw [e, show T.t0 ph + (T.tf ph - T.t0 ph) * (∑ r ∈ Finset.range M.orders.length, T.w r ph) - T.tf ph =
    ((∑ r ∈ Finset.range M.orders.length, T.w r ph) - 1) * (T.tf ph - T.t0 ph) by ring, abs_mul]
  exact mul_le_mul_of_nonneg_right (hT.sum ph hp) (abs_nonneg _)

/-- Near solutions of the NLP handed to the solver, in terms of trajectories. -/
theorem near_adaptCall_spec {c : SolverCall K V} (h : ad.disc.OnMesh M) (hv : ValidOCP ad.disc.ocp)
    (hs : ad.disc.ocp.SettingsOK) (hsc : ad.disc.ocp.PosScales) (hr : ad.Ready)
    (hn : ad.solverProblem = .ok c.bounds) (hp : c.solver.problem = c.bounds) (hcp : c.p = []) (εb ε : K)
    (z : List K) :
    c.NearSolution εb ε z ↔ z.length = ad.allVars.length ∧
      SolvesAdaptiveTo εb ε ad.disc.ocp M (physOf ad.disc.ocp (bindSyms ad.allVars z)) ad.lbh ad.ubh ad.tol
        ad.midResiduals := by
  obtain ⟨bs, J, nlp, hn', -, -, -, hx, -⟩ := Adapt.createNlp_spec h hv hs hsc hr
  obtain ⟨nlp', hn'', hiff⟩ := C86_near_iff h hv hs hsc hr
  obtain ⟨nlp3, hn4, hnd, -⟩ := C10_adaptive_variables_once h hv hs hsc hr
  rw [hn'] at hn'' hn4
  cases hn''; cases hn4
  have hb : c.bounds = { nlp with p := [] } := by
    unfold Adapt.solverProblem at hn
    rw [hn'] at hn
    exact (Except.ok.inj hn).symm
  have hpt : c.point z = bindSyms ad.allVars z := by
    unfold SolverCall.point
    rw [hp, hb, hcp]
    simp only [hx, List.append_nil]
  constructor
  · rintro ⟨h1, -, h3, h4⟩
    have hz : z.length = ad.allVars.length := by rw [h1, hp, hb]; exact congrArg _ hx
    refine ⟨hz, (hiff _ _ _).1 ⟨?_, ?_⟩⟩
    · rw [hx] at hnd ⊢
      rw [map_bindSyms hnd hz]
      rw [hb] at h3; exact h3
    · rw [hpt, hp, hb] at h4; exact h4
  · rintro ⟨hz, h1⟩
    obtain ⟨h3, h4⟩ := (hiff _ _ _).2 h1
    refine ⟨by rw [hz, hp, hb]; exact (congrArg _ hx).symm, by rw [hcp, hp, hb]; rfl, ?_, ?_⟩
    · rw [hx] at hnd h3
      rw [map_bindSyms hnd hz] at h3
      rw [hb]; exact h3
    · rw [hpt, hp, hb]; exact h4

variable {w : Outside K V} {nlpsol : SolverCall K V → Py (List K)}
  {ptp : List (List Nat)} {n : Nat} {arg : OrdersArg} {scheme : String}
  {lbh ubh tol : List K} {mid rx rdx : Bool} {s : AdaptOpt K V}

/-- **C86** With a solver that only promises points within its tolerances: after any earlier calls of `solve` on an
`mpopt_adaptive` object, when `solve` and `process_results` return, the node values shown are those of a trajectory that
solves the collocated problem with free widths up to these tolerances. -/
theorem C86_adaptive_near (hf : s.Ready w ocp n arg scheme lbh ubh tol mid) (hv : ValidOCP ocp)
    (hs : ocp.SettingsOK) (hsc : ocp.PosScales) (hlb : lbh.length = ocp.nPhases) (hub : ubh.length = ocp.nPhases)
    (htol : tol.length = ocp.nPhases) (hM : MeshFor w scheme n arg M) {εb ε : K}
    (hnear : ∀ c z, nlpsol c = .ok z → c.NearSolution εb ε z) (earlier : List (SolveArgs K V)) (a : SolveArgs K V)
    {s' : AdaptOpt K V} {z : List K} (hrun : (s.run w nlpsol earlier).solve w nlpsol a = (s', .ok z))
    {p : Post K} {r : Option (PyDict (ResidVal K))} (hp : s'.processResults w ptp false rx rdx = .ok (p, r)) :
    ∃ T, SolvesAdaptiveTo εb ε ocp M T lbh ubh tol mid ∧ p.Shows ocp M T ∧
      s'.widths = some (ocp.packWidths n T) := by
  obtain ⟨d, honM, rfl, rfl, -, hc, -⟩ := hf.coherent hM
  have hr : (⟨d, lbh, ubh, tol, mid⟩ : Adapt K).Ready := ⟨hlb, hub, htol⟩
  obtain ⟨hc1, -⟩ := hc.run (nlpsol := nlpsol) earlier
  obtain ⟨hc2, -, k⟩ := hc1.solve (nlpsol := nlpsol) a
  obtain ⟨-, -, k'⟩ := hc1.solveCall a
  rw [hrun] at hc2 k
  obtain ⟨c, sw, e1, e2, e3, e4, e5⟩ := k z rfl
  obtain ⟨q1, q2, q3⟩ := k' c e1
  have hsol := ((near_adaptCall_spec honM hv hs hsc hr q1 q2 q3 εb ε z).1 (hnear c z e2)).2
  obtain ⟨g1, g2⟩ := adapt_shown honM hv hsc hc2 e3 e4 e5 hp
  exact ⟨_, hsol, g1, by rw [e4, g2]⟩

/-- **C86** If the solver is in addition optimal up to `η`, the cost of the trajectory shown exceeds the cost of no
trajectory with admissible widths that solves the collocated problem by more than `η`. -/
theorem C86_adaptive_near_optimal (hf : s.Ready w ocp n arg scheme lbh ubh tol mid) (hv : ValidOCP ocp)
    (hs : ocp.SettingsOK) (hsc : ocp.PosScales) (hlb : lbh.length = ocp.nPhases) (hub : ubh.length = ocp.nPhases)
    (htol : tol.length = ocp.nPhases) (hM : MeshFor w scheme n arg M) {εb ε η : K}
    (hopt : ∀ c z, nlpsol c = .ok z → c.NearOptimal εb ε η z) (earlier : List (SolveArgs K V)) (a : SolveArgs K V)
    {s' : AdaptOpt K V} {z : List K} (hrun : (s.run w nlpsol earlier).solve w nlpsol a = (s', .ok z))
    {p : Post K} {r : Option (PyDict (ResidVal K))} (hp : s'.processResults w ptp false rx rdx = .ok (p, r)) :
    ∃ T W J, compQuadWeights ⟨w.method, w.tau0, w.tau1, tausFn w.lib w.tau0 w.tau1 scheme⟩ M.orders = .ok W ∧
      SolvesAdaptiveTo εb ε ocp M T lbh ubh tol mid ∧ p.Shows ocp M T ∧ PhysCost ocp M W T J ∧
      ∀ T' J', SolvesAdaptive ocp M T' lbh ubh tol mid → PhysCost ocp M W T' J' → J ≤ J' + η := by
  obtain ⟨d, honM, rfl, rfl, hW, hc, -⟩ := hf.coherent hM
  have hr : (⟨d, lbh, ubh, tol, mid⟩ : Adapt K).Ready := ⟨hlb, hub, htol⟩
  obtain ⟨hc1, -⟩ := hc.run (nlpsol := nlpsol) earlier
  obtain ⟨hc2, -, k⟩ := hc1.solve (nlpsol := nlpsol) a
  obtain ⟨-, -, k'⟩ := hc1.solveCall a
  rw [hrun] at hc2 k
  obtain ⟨c, sw, e1, e2, e3, e4, e5⟩ := k z rfl
  obtain ⟨q1, q2, q3⟩ := k' c e1
  have ho := hopt c z e2
  have hsol := ((near_adaptCall_spec honM hv hs hsc hr q1 q2 q3 εb ε z).1 ho.sol).2
  obtain ⟨-, hcost⟩ := adaptCall_spec honM hv hs hsc hr q1 q2 q3 z
  obtain ⟨g1, g2⟩ := adapt_shown honM hv hsc hc2 e3 e4 e5 hp
  refine ⟨_, d.compW, _, hW, hsol, g1, hcost, fun T' J' hT' hJ' => ?_⟩
  have hsame := adapt_decoded honM hv hsc T'
  obtain ⟨hsol', hcost'⟩ := adaptCall_spec honM hv hs hsc hr q1 q2 q3
    ((⟨d, lbh, ubh, tol, mid⟩ : Adapt K).allVars.map (packEnv d.ocp T'))
  have hWl : d.compW.length = M.N := by
    obtain ⟨-, -, hl, -⟩ := C15_objective honM hv hs hsc
    exact hl
  rw [PhysCost.unique honM.good hWl hv.runningCosts hJ' (hsame.cost hcost')]
  exact ho.best _ (hsol'.2 ⟨by simp, hsame.symm.solvesAdaptive hs hT'⟩)

theorem packFree_eq (ad : Adapt K) (T : Traj K) :
    ad.disc.ocp.packFree ad.disc.N ad.disc.nSegments T = ad.allVars.map (packEnv ad.disc.ocp T) := by
  unfold OCP.packFree Adapt.allVars Adapt.phaseVars Disc.phaseVars
  rw [List.map_flatMap]
  apply List.flatMap_congr
  intro ph _
  simp only [List.map_append, List.map_flatMap, List.map_map, List.map_cons, List.map_nil]
  rfl

/-- Packing the decoded trajectory gives the vector back. -/
theorem packFree_decoded (hv : ValidOCP ad.disc.ocp) (hsc : ad.disc.ocp.PosScales) {z : List K}
    (hz : z.length = ad.allVars.length) (hnd : ad.allVars.Nodup) :
    ad.disc.ocp.packFree ad.disc.N ad.disc.nSegments (physOf ad.disc.ocp (bindSyms ad.allVars z)) = z := by
  rw [packFree_eq]
  conv_rhs => rw [← map_bindSyms hnd hz]
  apply List.map_congr_left
  intro s hs
  unfold Adapt.allVars at hs
  simp only [List.mem_flatMap, Adapt.mem_phaseVars, Disc.mem_phaseVars] at hs
  obtain ⟨ph, -, (⟨i, -, j, hj, rfl⟩ | ⟨i, -, j, hj, rfl⟩ | rfl | rfl | ⟨k, hk, rfl⟩) | ⟨i, -, rfl⟩⟩ := hs
  · exact div_mul_cancel₀ _ (getD_pos hsc.x (by rw [hv.scaleX]; exact hj)).ne'
  · exact div_mul_cancel₀ _ (getD_pos hsc.u (by rw [hv.scaleU]; exact hj)).ne'
  · exact div_mul_cancel₀ _ hsc.t.ne'
  · exact div_mul_cancel₀ _ hsc.t.ne'
  · exact div_mul_cancel₀ _ (getD_pos hsc.a (by rw [hv.scaleA]; exact hk)).ne'
  · rfl

/-- **C86** The call of the solver object that `solve` makes on an `mpopt_adaptive` object: what a solver with given
tolerances may return are the trajectories and widths that solve the collocated problem up to these tolerances. `solve`
returns whenever the call returns such a point, and then stores its widths. `process_results` returns as well if `εb` is
smaller than every lower bound of a width and `ε` is smaller than 1e-6. -/
theorem C86_adaptive_returns {a : SolveArgs K V} (hf : s.Ready w ocp n arg scheme lbh ubh tol mid)
    (hv : ValidOCP ocp) (hs : ocp.SettingsOK) (hsc : ocp.PosScales) (hlb : lbh.length = ocp.nPhases)
    (hub : ubh.length = ocp.nPhases) (htol : tol.length = ocp.nPhases) (hM : MeshFor w scheme n arg M)
    (hlt : w.tau0 < w.tau1) (hgt : s.gridType = List.replicate ocp.nPhases "fixed")
    (hacc : w.accepts a.plugin (solverOptions w.vals a.plugin a.options) = true)
    (ht : ∀ ph < ocp.nPhases, entry ocp.t00 ph 0 0 ≠ entry ocp.tf0 ph 0 0) (hptp : ptp ≠ []) :
    ∃ (c : SolverCall K V) (W : List K),
      compQuadWeights ⟨w.method, w.tau0, w.tau1, tausFn w.lib w.tau0 w.tau1 scheme⟩ M.orders = .ok W ∧
      (∀ εb ε z, c.NearSolution εb ε z ↔
        ∃ T, SolvesAdaptiveTo εb ε ocp M T lbh ubh tol mid ∧ z = ocp.packFree M.N n T) ∧
      (∀ T J, PhysCost ocp M W T J → c.solver.problem.f (c.point (ocp.packFree M.N n T)) = J) ∧
      ∀ (nlpsol : SolverCall K V → Py (List K)) (εb ε : K) (T : Traj K),
        SolvesAdaptiveTo εb ε ocp M T lbh ubh tol mid → nlpsol c = .ok (ocp.packFree M.N n T) →
        (s.solve w nlpsol a).2 = .ok (ocp.packFree M.N n T) ∧
        (s.solve w nlpsol a).1.widths = some (ocp.packWidths n T) ∧
        ((∀ v ∈ lbh, εb < v) → ε < 1 / 1000000 →
          ∃ out, (s.solve w nlpsol a).1.processResults w ptp false rx rdx = .ok out) := by
  obtain ⟨c, d, honM, rfl, hW, h1, h2, h3, hret⟩ := adapt_call (rx := rx) (rdx := rdx) hf hv hs hsc hlb hub htol hM hlt
    hgt hacc ht hptp
  obtain ⟨d', honM', hd', hn', -, hc, -⟩ := hf.coherent hM
  have hn : d.nSegments = n := by
    rw [← hn', ← honM.segLen, honM'.segLen]
  have hr : (⟨d, lbh, ubh, tol, mid⟩ : Adapt K).Ready := ⟨hlb, hub, htol⟩
  have spec := adaptCall_spec (c := c) honM hv hs hsc hr h1 h2 h3
  have near := near_adaptCall_spec (c := c) honM hv hs hsc hr h1 h2 h3
  have hWl : d.compW.length = M.N := (C15_objective honM hv hs hsc).choose_spec.2.1
  have hpk : ∀ T : Traj K, d.ocp.packFree M.N n T =
      (⟨d, lbh, ubh, tol, mid⟩ : Adapt K).allVars.map (packEnv d.ocp T) := fun T => by
    rw [← packFree_eq ⟨d, lbh, ubh, tol, mid⟩, honM.N_eq, ← hn]
  have hnd : (⟨d, lbh, ubh, tol, mid⟩ : Adapt K).allVars.Nodup := by
    obtain ⟨bs, J, nlp, hn1, -, -, -, hx, -⟩ := Adapt.createNlp_spec honM hv hs hsc hr
    obtain ⟨nlp', hn2, hnd, -⟩ := C10_adaptive_variables_once honM hv hs hsc hr
    rw [hn1] at hn2
    cases hn2
    rwa [hx] at hnd
  have hsame := fun T => adapt_decoded (ad := ⟨d, lbh, ubh, tol, mid⟩) honM hv hsc T
  have fwd : ∀ εb ε T, SolvesAdaptiveTo εb ε d.ocp M T lbh ubh tol mid →
      c.NearSolution εb ε (d.ocp.packFree M.N n T) := fun εb ε T hT => by
    rw [hpk]
    exact (near _ _ _).2 ⟨by simp, (hsame T).symm.solvesAdaptiveTo hs hT⟩
  refine ⟨c, d.compW, hW, fun εb ε z => ⟨fun hz => ?_, ?_⟩, fun T J hJ => ?_, fun nlpsol εb ε T hT hz => ?_⟩
  · obtain ⟨hzl, hT⟩ := (near εb ε z).1 hz
    refine ⟨_, hT, ?_⟩
    have := packFree_decoded (ad := ⟨d, lbh, ubh, tol, mid⟩) hv hsc hzl hnd
    rw [honM.N_eq, ← hn]
    exact this.symm
  · rintro ⟨T, hT, rfl⟩
    exact fwd _ _ _ hT
  · rw [hpk]
    exact PhysCost.unique honM.good hWl hv.runningCosts ((hsame T).cost (spec _).2) hJ
  · obtain ⟨hzl, hT'⟩ := (near εb ε _).1 (fwd εb ε T hT)
    obtain ⟨k1, k2⟩ := hret nlpsol _ hz hzl
    refine ⟨k1, ?_, fun hlow hε => k2 fun ph hp => ⟨fun i hi => ?_, (hT'.sum ph hp).trans_lt hε⟩⟩
    · obtain ⟨-, -, k⟩ := hc.solve (nlpsol := nlpsol) a
      obtain ⟨c', sw, -, -, e3, e4, -⟩ := k _ k1
      have hpk' : d.ocp.packFree M.N n T =
          (⟨d', lbh, ubh, tol, mid⟩ : Adapt K).allVars.map (packEnv d'.ocp T) := by
        rw [← packFree_eq ⟨d', lbh, ubh, tol, mid⟩, ← hn', hd', ← honM'.N_eq]
      rw [hpk'] at e3
      unfold Adapt.solvedWidths at e3
      rw [if_pos (by simp)] at e3
      rw [e4, ← Except.ok.inj e3, ← hn', ← hd', packWidths_eq]
      exact congrArg some (List.map_congr_left fun s hs =>
        bindSyms_map _ _ (Adapt.sub_allVars (List.mem_append_right _ hs)))
    · have hl := hT'.lower ph hp i hi
      have : εb < lbh.getD ph 0 := by
        rw [List.getD_eq_getElem _ _ (by simpa [hlb] using hp)]
        exact hlow _ (List.getElem_mem _)
      simp only [] at hl
      linarith

theorem AdaptOpt.solve_gridType (a : SolveArgs K V) : (s.solve w nlpsol a).1.gridType = s.gridType := by
  have hcs : ∀ t : AdaptOpt K V, ∀ p o, (t.createSolver w p o).1.gridType = t.gridType := by
    intro t p o
    unfold AdaptOpt.createSolver
    split
    · rfl
    · simp only
      split <;> rfl
  have hsc : (s.solveCall w a).1.gridType = s.gridType := by
    unfold AdaptOpt.solveCall
    by_cases h : s.initialized = false ∨ a.reinitialize = true
    · rw [if_pos h]
      have := hcs s a.plugin a.options
      revert this
      rcases s.createSolver w a.plugin a.options with ⟨s1, e | r⟩ <;> exact fun this => this
    · rw [if_neg h]
  unfold AdaptOpt.solve
  rcases hh : s.solveCall w a with ⟨s1, r⟩
  rw [hh] at hsc
  simp only
  split
  · exact hsc
  · exact hsc

theorem AdaptOpt.run_gridType (calls : List (SolveArgs K V)) : (s.run w nlpsol calls).gridType = s.gridType := by
  induction calls generalizing s with
  | nil => rfl
  | cons a as ih =>
    show ((s.solve w nlpsol a).1.run w nlpsol as).gridType = _
    rw [ih, AdaptOpt.solve_gridType]

/-- The residuals on the grid of type `fixed` exist only for widths with sum 1 up to 1e-6. -/
theorem dynResiduals_sum {e : Solved K} {r : List _} (hp : 0 < e.disc.ocp.nPhases)
    (hg : e.gridType = List.replicate e.disc.ocp.nPhases "fixed") (h : e.dynResiduals none none false = .ok r) :
    ∀ ph < e.disc.ocp.nPhases, |(e.phaseWidths ph).sum - 1| < 1 / 1000000 := by
  intro ph hph
  rw [C30_uses_phase_zero_type e false "fixed" (by rw [hg, List.getElem?_replicate, if_pos hp]) hp, mapM_eq_ok] at h
  obtain ⟨b, hb⟩ : ∃ b, e.residualGrid ph (some "fixed") >>= phaseResult e false ph = .ok b := by
    have hl := h.length_eq
    rw [List.length_range] at hl
    have := h.get (i := ph) (by simpa using hph) (by omega)
    simp only [List.get_eq_getElem, List.getElem_range] at this
    exact ⟨_, this⟩
  obtain ⟨g, hg, -⟩ := py_bind_eq_ok.1 hb
  unfold Solved.residualGrid at hg
  simp only [py_bind_ok] at hg
  rw [if_pos (by decide)] at hg
  obtain ⟨ts, hts, -⟩ := py_bind_eq_ok.1 hg
  unfold interpTaus at hts
  obtain ⟨_, ha, -⟩ := py_bind_eq_ok.1 hts
  unfold pyAssert at ha
  split at ha
  · rename_i hd
    have := of_decide_eq_true hd
    rw [List.getD_eq_getElem _ _ (by simp)] at this
    simpa using this
  · cases ha

/-- **C86** `process_results` with residuals of the dynamics on the grid of type `fixed` returns only if the widths stored in
the object sum to 1 up to 1e-6 in every phase. -/
theorem C86_residuals_need_sum (hf : s.Ready w ocp n arg scheme lbh ubh tol mid) (hv : ValidOCP ocp)
    (hM : MeshFor w scheme n arg M) (calls : List (SolveArgs K V)) {T : Traj K}
    (hgt : s.gridType = List.replicate ocp.nPhases "fixed")
    (hw : (s.run w nlpsol calls).widths = some (ocp.packWidths n T)) {sc : Bool}
    {out : Post K × Option (PyDict (ResidVal K))}
    (hp : (s.run w nlpsol calls).processResults w ptp sc rx true = .ok out) :
    ∀ ph < ocp.nPhases, |(∑ i ∈ Finset.range n, T.w i ph) - 1| < 1 / 1000000 := by
  obtain ⟨d, honM, rfl, rfl, -, hc, hocp⟩ := hf.coherent hM
  obtain ⟨hc1, hc2⟩ := hc.run (nlpsol := nlpsol) calls
  unfold AdaptOpt.processResults AdaptOpt.solved at hp
  rw [hc1.adapt, hw, AdaptOpt.run_gridType] at hp
  obtain ⟨e, he, hp⟩ := py_bind_eq_ok.1 hp
  obtain ⟨ad, had, he⟩ := py_bind_eq_ok.1 he
  cases had
  obtain ⟨rv, hrv, -⟩ := py_bind_eq_ok.1 hp
  split at he
  · rename_i h z e1 e2
    cases e1
    have he := (py_pure_eq_ok.1 he).symm
    unfold residValue at hrv
    obtain ⟨dd, -, hrv⟩ := py_bind_eq_ok.1 hrv
    rw [if_pos rfl] at hrv
    obtain ⟨r, hr, -⟩ := py_bind_eq_ok.1 hrv
    intro ph hph
    have key := dynResiduals_sum (e := e) (by rw [he]; exact hv.phases) (by rw [he]; exact hgt) hr ph (by rw [he]; exact hph)
    have hpw : e.phaseWidths ph = (List.range d.nSegments).map fun i => T.w i ph := by
      rw [he]
      unfold Solved.phaseWidths OCP.packWidths
      exact phaseSlice_flatMap _ _ _ (fun p i => T.w i p) hph
    rw [hpw] at key
    rwa [Finset.sum_range, ← List.sum_ofFn, List.ofFn_eq_map, ← List.map_coe_finRange_eq_range, List.map_map] at *
  · cases he

end MPOpt
