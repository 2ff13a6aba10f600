import Verif.Spec.FreeMode
import Verif.Props.AdaptiveEnd
import Verif.Props.ResponseEnd
import Mathlib.Analysis.SpecialFunctions.ExpDeriv
import Mathlib.Analysis.Complex.ExponentialBounds

/-!
# C76: the first segment of a phase carries one equation too many

`get_nlp_constraints_for_dynamics` imposes the differential equation at every node of a phase. A segment of order `p` other
than the first owns `p` nodes and its polynomial has `p` free coefficients left once it joins the segment before. The first
segment owns `p + 1` nodes. Where a control acts on the state the control absorbs the extra equation. A mode
`y' = lam * y + mu` with `lam ≠ 0` that no control acts on has no such slack: the only polynomial meeting all `p + 1`
equations is the equilibrium `y = -mu / lam`, on any mesh, of any order, for any set of nodes.
-/

set_option autoImplicit false
set_option linter.unusedSectionVars false

namespace MPOpt
open Polynomial

variable {K : Type} [Field K] [LinearOrder K] [IsStrictOrderedRing K] {ocp : OCP K} {M : Mesh K} {T : Traj K} {ph : Nat}

theorem degree_C_mul_le_self (a : K) (q : K[X]) : (C a * q).degree ≤ q.degree := by
  rw [← smul_eq_C_mul]; exact degree_smul_le a q

/-- A polynomial with `y' = a y + b` everywhere is constant if `a ≠ 0`. -/
theorem poly_linear_ode {y : K[X]} {a b : K} (ha : a ≠ 0) (h : derivative y = C a * y + C b) : y = C (-b / a) := by
  set v := y + C (b / a) with hv
  have hd : derivative v = C a * v := by
    rw [hv, derivative_add, derivative_C, add_zero, h, mul_add, ← C_mul, mul_div_cancel₀ _ ha]
  have hv0 : v = 0 := by
    by_contra hne
    have h1 := degree_derivative_lt hne
    rw [hd, degree_C_mul ha] at h1
    exact lt_irrefl _ h1
  have : y = -C (b / a) := eq_neg_of_add_eq_zero_left hv0
  rw [this, ← C_neg, neg_div]

/-- **C76** On the first segment a mode that no control acts on is stuck at its equilibrium. -/
theorem C76_first_segment (hM : M.Good) (hC : CollocationOK ocp M T ph) {F : VFun (PArg K) K}
    (hF : ocp.dynamics[ph]? = some F) {c : Nat → K} {lam mu : K} (hm : FreeMode F ocp.nx c lam mu) (hl : lam ≠ 0)
    (ht : T.t0 ph ≠ T.tf ph) (hw : T.w 0 ph ≠ 0) {k : Nat} (hk : k ≤ M.order 0) :
    T.mode ocp.nx c ph k = -mu / lam := by
  have h0 : 0 < M.orders.length := List.length_pos_iff.2 hM.nonempty
  set h := M.halfWidth T ph 0 with hh
  have hne : h ≠ 0 := mul_ne_zero (div_ne_zero (sub_ne_zero.2 ht.symm) hM.tau_ne) hw
  set P : Nat → K[X] := fun j => M.piece (fun k => T.x ph k j) 0 with hP
  set y : K[X] := ∑ j ∈ Finset.range ocp.nx, C (c j) * P j with hy
  have hdeg : ∀ j, (P j).degree < (M.order 0 + 1 : Nat) := by
    intro j
    have := Lagrange.degree_interpolate_lt (s := Finset.range (M.order 0 + 1)) (v := M.node 0)
      (fun i => T.x ph (M.idx 0 i) j) (hM.node_injOn h0)
    rwa [Finset.card_range] at this
  have hydeg : y.degree < (M.order 0 + 1 : Nat) := by
    refine (degree_sum_le _ _).trans_lt ((Finset.sup_lt_iff (WithBot.bot_lt_coe _)).2 fun j _ => ?_)
    exact (degree_C_mul_le_self _ _).trans_lt (hdeg j)
  have hev : ∀ i ≤ M.order 0, y.eval (M.node 0 i) = T.mode ocp.nx c ph (M.idx 0 i) := by
    intro i hi
    rw [hy, eval_finsetSum]
    refine Finset.sum_congr rfl fun j _ => ?_
    rw [eval_mul, eval_C, hM.piece_eval_node _ h0 hi]
  have hode : ∀ i ≤ M.order 0, (derivative y).eval (M.node 0 i) =
      h * (lam * T.mode ocp.nx c ph (M.idx 0 i) + mu) := by
    intro i hi
    have hmode := hm (ocp.pArg T ph (M.idx 0 i) (M.time T ph 0 (M.node 0 i))) (by simp [OCP.pArg])
    have hx : ∑ j ∈ Finset.range ocp.nx, c j * (ocp.pArg T ph (M.idx 0 i) (M.time T ph 0 (M.node 0 i))).x.getD j 0 =
        T.mode ocp.nx c ph (M.idx 0 i) := by
      refine Finset.sum_congr rfl fun j hj => ?_
      have hj : j < ocp.nx := Finset.mem_range.1 hj
      simp [OCP.pArg, List.getD_eq_getElem?_getD, hj]
    rw [hx] at hmode
    rw [hy, derivative_sum, eval_finsetSum, ← hmode, Finset.mul_sum]
    refine Finset.sum_congr rfl fun j hj => ?_
    rw [derivative_C_mul, eval_mul, eval_C, hP]
    simp only
    rw [hC F hF j (Finset.mem_range.1 hj) 0 i ⟨h0, hi, Or.inl rfl⟩]
    ring
  have hq : derivative y = C (h * lam) * y + C (h * mu) := by
    have hinj := hM.node_injOn h0
    refine eq_of_degrees_lt_of_eval_index_eq (Finset.range (M.order 0 + 1)) hinj ?_ ?_ ?_
    · rw [Finset.card_range]; exact (degree_derivative_le).trans_lt hydeg
    · rw [Finset.card_range]
      refine (degree_add_le _ _).trans_lt (max_lt ((degree_C_mul_le_self _ _).trans_lt hydeg) ?_)
      refine degree_C_le.trans_lt ?_
      exact_mod_cast Nat.succ_pos _
    · intro i hi
      have hi : i ≤ M.order 0 := Nat.lt_succ_iff.1 (Finset.mem_range.1 hi)
      rw [hode i hi, eval_add, eval_mul, eval_C, eval_C, hev i hi]
      ring
  have hconst := poly_linear_ode (mul_ne_zero hne hl) hq
  have hidx : M.idx 0 k = k := by simp [Mesh.idx, segStart]
  have := hev k hk
  rw [hconst, eval_C, hidx] at this
  rw [← this]
  field_simp

/-- **C76** No trajectory whose first segment has a width respects the bounds and meets the collocation equations when the
given initial state is off the equilibrium of such a mode. -/
theorem C76_infeasible (hM : M.Good) (h : ocp.StartsOffMode) (hw : T.w 0 0 ≠ 0) :
    ¬ (BoundsOK ocp M T 0 ∧ CollocationOK ocp M T 0) := by
  obtain ⟨F, c, lam, mu, hF, hm, hl, hoff, ht⟩ := h
  rintro ⟨hB, hC⟩
  apply hoff
  rw [← C76_first_segment hM hC hF hm hl (ht _ _ hB.t0 hB.tf) hw (Nat.zero_le _)]
  exact Finset.sum_congr rfl fun j hj => by rw [hB.x0 rfl j (Finset.mem_range.1 hj)]

theorem OCP.StartsOffMode.phases (h : ocp.StartsOffMode) (hv : ValidOCP ocp) : 0 < ocp.nPhases := by
  obtain ⟨F, -, -, -, hF, -⟩ := h
  rw [← hv.dynamics]
  by_contra hn
  rw [List.getElem?_eq_none (by omega)] at hF
  cases hF

section
variable {V : Type} {w : Outside K V} {ptp : List (List Nat)} {n : Nat} {arg : OrdersArg} {scheme : String}
variable {a : SolveArgs K V} {rx rdx : Bool}

theorem first_width_ne {sw : List K} (hn : 0 < n) (hp : 0 < ocp.nPhases)
    (h : ∀ v ∈ phaseSlice n 0 sw, 0 < v) (e : ocp.packWidths n T = sw) : T.w 0 0 ≠ 0 := by
  subst e
  unfold OCP.packWidths at h
  rw [phaseSlice_flatMap _ _ _ (fun p s => T.w s p) hp] at h
  exact (h _ (List.mem_map.2 ⟨0, List.mem_range.2 hn, rfl⟩)).ne'

theorem WidthsAre.first_ne (hn : 0 < n) (hp : 0 < ocp.nPhases) {req : Option (List K)} (hg : GoodWidths ocp n req)
    (h : WidthsAre ocp n req T) : T.w 0 0 ≠ 0 := by
  cases req with
  | none =>
    have h0 : T.w 0 0 = 1 / (n : K) := h 0 hp 0 hn
    rw [h0]
    exact one_div_ne_zero (Nat.cast_ne_zero.2 hn.ne')
  | some l => exact first_width_ne hn hp ((hg l rfl).2 0 hp).1 h

/-- **C76** The NLP that the module-level `solve` hands to the solver has no feasible point at all, for any number of segments,
any orders, any scheme and any positive widths. -/
theorem C76_nothing_feasible (h : ocp.StartsOffMode) (hv : ValidOCP ocp) (hs : ocp.SettingsOK) (hsc : ocp.PosScales)
    (hM : MeshFor w scheme n arg M) (hn : M.orders.length = n) (hlt : w.tau0 < w.tau1)
    (hacc : w.accepts a.plugin (solverOptions w.vals a.plugin a.options) = true) (hwid : GoodWidths ocp n a.widths)
    (ht : ∀ ph < ocp.nPhases, entry ocp.t00 ph 0 0 ≠ entry ocp.tf0 ph 0 0) (hptp : ptp ≠ []) :
    ∃ c : SolverCall K V, (∀ z, ¬ c.IsSolution z) ∧
      ∀ (nlpsol : SolverCall K V → Py (List K)) (z : List K), nlpsol c = .ok z →
        z.length = c.solver.problem.x.length →
        ∃ out, mpSolve w nlpsol ocp ptp n arg scheme a rx rdx = .ok out := by
  obtain ⟨c, -, -, h1, -, h2⟩ := C52_solve_returns (rx := rx) (rdx := rdx) hv hs hsc hM hn hlt hacc hwid ht hptp
  have hn0 : 0 < n := by rw [← hn]; exact List.length_pos_iff.2 hM.good.nonempty
  have hp := h.phases hv
  refine ⟨c, fun z hz => ?_, h2⟩
  obtain ⟨T, hT, hw, -⟩ := (h1 z).1 hz
  exact C76_infeasible hM.good h (hw.first_ne hn0 hp hwid) ⟨hT.1.bounds 0 hp, hT.1.dynamics 0 hp⟩

/-- **C76** With a solver that only returns feasible points the module-level `solve` never returns. -/
theorem C76_solve_fails {nlpsol : SolverCall K V → Py (List K)} (h : ocp.StartsOffMode) (hv : ValidOCP ocp)
    (hs : ocp.SettingsOK) (hsc : ocp.PosScales) (hM : MeshFor w scheme n arg M) (hn : 0 < n)
    (hwid : GoodWidths ocp n a.widths) (hsound : ∀ c z, nlpsol c = .ok z → c.IsSolution z)
    (out : Session K V × Post K × Option (PyDict (ResidVal K))) :
    mpSolve w nlpsol ocp ptp n arg scheme a rx rdx ≠ .ok out := by
  intro hrun
  obtain ⟨s, p, r⟩ := out
  obtain ⟨T, hT, hw, -⟩ := C52_solve_feasible hrun hv hs hsc hM hsound
  have hp := h.phases hv
  exact C76_infeasible hM.good h (hw.first_ne hn hp hwid) ⟨hT.1.bounds 0 hp, hT.1.dynamics 0 hp⟩

/-- **C76** Nor does `solve` of an `mpopt_adaptive` object, after any earlier calls, with a positive lower bound on the widths
of the first phase: freeing the widths does not help. -/
theorem C76_adaptive_fails {s : AdaptOpt K V} {nlpsol : SolverCall K V → Py (List K)} {lbh ubh tol : List K} {mid : Bool}
    (h : ocp.StartsOffMode) (hf : s.Ready w ocp n arg scheme lbh ubh tol mid) (hv : ValidOCP ocp)
    (hs : ocp.SettingsOK) (hsc : ocp.PosScales) (hlb : lbh.length = ocp.nPhases) (hub : ubh.length = ocp.nPhases)
    (htol : tol.length = ocp.nPhases) (hM : MeshFor w scheme n arg M) (hpos : 0 < lbh.getD 0 0)
    (hsound : ∀ c z, nlpsol c = .ok z → c.IsSolution z) (earlier : List (SolveArgs K V)) (a : SolveArgs K V)
    (z : List K) : ((s.run w nlpsol earlier).solve w nlpsol a).2 ≠ .ok z := by
  intro hok
  have hp := h.phases hv
  obtain ⟨d, honM, rfl, rfl, -, hc, -⟩ := hf.coherent hM
  have hr : (⟨d, lbh, ubh, tol, mid⟩ : Adapt K).Ready := ⟨hlb, hub, htol⟩
  obtain ⟨hc1, -⟩ := hc.run (nlpsol := nlpsol) earlier
  obtain ⟨-, -, k⟩ := hc1.solve (nlpsol := nlpsol) a
  obtain ⟨-, -, k'⟩ := hc1.solveCall a
  obtain ⟨c, sw, e1, e2, -⟩ := k z hok
  obtain ⟨q1, q2, q3⟩ := k' c e1
  have hT := ((adaptCall_spec honM hv hs hsc hr q1 q2 q3 z).1.1 (hsound c z e2)).2
  have h0 : 0 < M.orders.length := List.length_pos_iff.2 hM.good.nonempty
  have hw := (hT.1.widths 0 hp).lower 0 h0
  exact C76_infeasible hM.good h (hpos.trans_le hw).ne' ⟨hT.1.bounds 0 hp, hT.1.dynamics 0 hp⟩

end

section
variable {V : Type} [FloorRing K] {w : HOutside K V} {nlpsol : Nat → Nat → SolverCall K V → Py (PyDict V)}
variable {ptp : List (List Nat)} {n : Nat} {arg : OrdersArg} {scheme : String} {lbh ubh tol : List K} {s : HOpt K V}

/-- **C76** Nor do `solve` and `process_results` of an `mpopt_h_adaptive` object, after any calls that leave positive widths:
refining the mesh does not help. -/
theorem C76_h_fails (h : ocp.StartsOffMode) (hf : s.Ready w ocp n arg scheme lbh ubh tol) (hv : ValidOCP ocp)
    (hs : ocp.SettingsOK) (hsc : ocp.PosScales) (hM : MeshFor w.toOutside scheme n arg M)
    (hsound : ∀ n k c sol, nlpsol n k c = .ok sol → ∃ z, Returned w sol z ∧ c.IsSolution z)
    {calls : List (HStart V × HArgs V)} (ho : OwnStarts calls) {s' : HOpt K V} {sol : PyDict V}
    (hrun : s.run w nlpsol calls 0 none = (s', some sol)) {sw : List K} (hsw : s'.widths = some sw)
    (hval : ValidWidths n ocp.nPhases sw) (p : Post K) (r : Option (PyDict (ResidVal K))) {rx rdx : Bool} :
    s'.processResults w sol ptp false rx rdx ≠ .ok (p, r) := by
  intro hpr
  obtain ⟨T, hT, -, hwid⟩ := C59_h_feasible hf hv hs hsc hM hsound ho hrun hpr
  have hp := h.phases hv
  rw [hsw] at hwid
  have hn : 0 < n := by
    have := hM.orders.unique hf.orders
    rw [← hf.length, ← this]
    exact List.length_pos_iff.2 hM.good.nonempty
  exact C76_infeasible hM.good h (first_width_ne hn hp (hval.2 0 hp).1 (Option.some.inj hwid).symm)
    ⟨hT.1.bounds 0 hp, hT.1.dynamics 0 hp⟩

end

/-! ### A concrete case: `x₁' = x₁` beside a controlled `x₂' = u` -/

/-- `x₁(0) = 1`, `x₂(0) = 0`, `x₂(1) = 1/4`, cost `∫ u²`. -/
noncomputable def ocpFree : OCP ℝ :=
  { ocpR with
    nx := 2
    dynamics := [⟨2, fun p j => if j = 0 then p.x.getD 0 0 else p.u.getD 0 0⟩]
    pathConstraints := [none]
    terminalConstraints := [some ⟨1, fun t _ => t.xf.getD 1 0 - 1 / 4⟩]
    scaleX := [1, 2], x00 := [[1, 0]], xf0 := [[1, 1]]
    lbx := [[.fin (-5), .fin (-5)]], ubx := [[.fin 5, .fin 5]] }

/-- Its solution. -/
noncomputable def freeR : CTraj :=
  ⟨fun _ j t => if j = 0 then Real.exp t else t / 4, fun _ _ _ => 1 / 4, fun _ => 0, fun _ => 1, fun _ _ => 0⟩

theorem ocpFree_ready : ValidOCP ocpFree ∧ ocpFree.SettingsOK ∧ ocpFree.PosScales := by
  refine ⟨?_, ⟨Nat.two_pos, rfl, rfl, rfl, rfl, rfl, Or.inl Nat.one_pos, fun h => absurd h (by simp [ocpFree, ocpR]),
    fun h => absurd h (by simp [ocpFree, ocpR]), by simp [ocpFree, ocpR]⟩, ⟨?_, ?_, ?_, by norm_num [ocpFree, ocpR]⟩⟩
  · constructor
    case ordX =>
      intro ph l u hl hu i a' b' ha hb
      obtain rfl : ph = 0 := by
        by_contra hne
        rw [List.getElem?_eq_none (by simp [ocpFree]; omega)] at hl; cases hl
      have hl : [Ext.fin (-5), Ext.fin (-5)] = l := by simpa [ocpFree] using hl
      have hu : [Ext.fin 5, Ext.fin 5] = u := by simpa [ocpFree] using hu
      subst hl hu
      have hi : i < 2 := by
        by_contra hne
        rw [List.getElem?_eq_none (by simp; omega)] at ha; cases ha
      interval_cases i <;> simp at ha hb <;> subst ha hb <;> simp [Ext.le]
    case ordU => exact rowOrdered_single (by simp [Ext.le])
    case ordA => exact rowOrdered_empty
    case ordT0 => exact rowOrdered_single (by simp [Ext.le])
    case ordTf => exact rowOrdered_single (by simp [Ext.le])
    case ordE => intro ph l u hl; simp [ocpFree, ocpR] at hl
    all_goals simp [ocpFree, ocpR, HasShape]
  all_goals simp [ocpFree, ocpR]

theorem ocpFree_off : ocpFree.StartsOffMode := by
  refine ⟨_, fun j => if j = 0 then 1 else 0, 1, 0, rfl, ?_, one_ne_zero, ?_, ?_⟩
  · intro p _
    simp [ocpFree, Finset.sum_range_succ]
  · simp [ocpFree, entry]
  · rintro a b ⟨-, h1⟩ ⟨h2, -⟩ rfl
    have h1 : a ≤ 0 := h1
    have h2 : 1 ≤ a := h2
    linarith

/-- The continuous-time problem has a solution. -/
theorem freeR_solves : SolvesContinuously ocpFree freeR := by
  refine ⟨fun ph hph => ?_, by simp [ocpFree, ocpR], by simp [ocpFree, ocpR], by simp [ocpFree, ocpR]⟩
  obtain rfl : ph = 0 := by simpa [ocpFree, ocpR] using hph
  have hd : ∀ t : ℝ, HasDerivAt (fun t : ℝ => t / 4) (1 / 4) t := fun t => (hasDerivAt_id t).div_const 4
  have hdyn : ∀ F, ocpFree.dynamics[0]? = some F → ∀ j < ocpFree.nx, ∀ (t : ℝ) (S : Set ℝ),
      HasDerivWithinAt (freeR.x 0 j) (F.f (ocpFree.cArg freeR 0 t) j) S t := by
    intro F hF j hj t S
    have hF : (⟨2, fun p j => if j = 0 then p.x.getD 0 0 else p.u.getD 0 0⟩ : VFun (PArg ℝ) ℝ) = F := by
      simpa [ocpFree] using hF
    rw [← hF]
    have hj : j < 2 := hj
    interval_cases j
    · simpa [freeR, OCP.cArg, ocpFree] using (Real.hasDerivAt_exp t).hasDerivWithinAt
    · simpa [freeR, OCP.cArg, ocpFree, ocpR] using (hd t).hasDerivWithinAt
  refine ⟨by simp [freeR], ⟨fun F hF j hj t _ _ => hdyn F hF j hj t _, fun F hF j hj => hdyn F hF j hj _ _,
    fun j hj t _ => (hdyn _ rfl j hj t _).continuousWithinAt⟩, ?_, ?_, ?_, ?_,
    ?_, ?_, ?_, ?_⟩
  · intro F hF; simp [ocpFree] at hF
  · intro F hF c hc
    have hF : (⟨1, fun t _ => t.xf.getD 1 0 - 1 / 4⟩ : VFun (TArg ℝ) ℝ) = F := by simpa [ocpFree] using hF
    rw [← hF]
    simp [freeR, OCP.cEnd, ocpFree]
  · intro _ j hj
    have hj : j < 2 := hj
    interval_cases j <;> simp [freeR, ocpFree, entry]
  · intro t ht _ j hj
    obtain ⟨h0, h1⟩ := ht
    have h0 : 0 ≤ t := h0
    have h1 : t ≤ 1 := h1
    have hj : j < 2 := hj
    have he : Real.exp t ≤ 3 := (Real.exp_le_exp.2 h1).trans (Real.exp_one_lt_d9.le.trans (by norm_num))
    have hp := Real.exp_pos t
    interval_cases j <;> simp [freeR, ocpFree, entry, Within, Ext.Below, Ext.Above] <;> constructor <;> linarith
  · intro t ht j hj
    obtain rfl : j = 0 := by simpa [ocpFree, ocpR] using hj
    simp [freeR, ocpFree, ocpR, entry, Within, Ext.Below, Ext.Above]
    norm_num
  · simp [freeR, ocpFree, ocpR, entry, Within, Ext.Below, Ext.Above]
  · simp [freeR, ocpFree, ocpR, entry, Within, Ext.Below, Ext.Above]
  · intro k hk; simp [ocpFree, ocpR] at hk

/-- The hypotheses of `C76_first_segment` are met by a trajectory that is not at rest: `x' = 2 x - 2` on two segments of order 1,
with node values `1, 1, 5`. It stays at the equilibrium 1 on the first segment only. -/
theorem C76_first_segment_case :
    let ocp : OCP ℝ := { ocpGrow with dynamics := [⟨1, fun p _ => 2 * p.x.getD 0 0 - 2⟩] }
    let T : Traj ℝ := { trajGrow with x := fun _ i _ => if i = 2 then 5 else 1 }
    meshGrow.Good ∧ CollocationOK ocp meshGrow T 0 ∧ (∀ F : VFun (PArg ℝ) ℝ, ocp.dynamics[0]? = some F → FreeMode F ocp.nx (fun _ => 1) 2 (-2)) ∧
      T.t0 0 ≠ T.tf 0 ∧ T.w 0 0 ≠ 0 ∧ T.mode ocp.nx (fun _ => 1) 0 1 = 1 ∧ T.mode ocp.nx (fun _ => 1) 0 2 = 5 := by
  intro ocp T
  refine ⟨meshGrow_good, ?_, ?_, by simp [T, trajGrow], by norm_num [T, trajGrow],
    by simp [T, ocp, Traj.mode, ocpGrow, ocpR], by simp [T, ocp, Traj.mode, ocpGrow, ocpR]⟩
  · intro F hF j hj s i hi
    obtain rfl : j = 0 := by simpa [ocp, ocpGrow, ocpR] using hj
    have hF : (⟨1, fun p _ => 2 * p.x.getD 0 0 - 2⟩ : VFun (PArg ℝ) ℝ) = F := by simpa [ocp] using hF
    rw [← hF]
    have p0 : meshGrow.piece (fun k => T.x 0 k 0) 0 = Polynomial.C 1 := by
      apply meshGrow_good.piece_eq (by simp [meshGrow])
      · exact degree_C_le.trans_lt (by simp [meshGrow, Mesh.order])
      · intro i hi
        have : i ≤ 1 := hi
        interval_cases i <;> norm_num [meshGrow, Mesh.node, Mesh.order, Mesh.idx, segStart, T]
    have p1 : meshGrow.piece (fun k => T.x 0 k 0) 1 = Polynomial.C 2 * X + Polynomial.C 3 := by
      apply meshGrow_good.piece_eq (by simp [meshGrow])
      · exact degree_linear_le.trans_lt (by simp [meshGrow, Mesh.order])
      · intro i hi
        have : i ≤ 1 := hi
        interval_cases i <;> norm_num [meshGrow, Mesh.node, Mesh.order, Mesh.idx, segStart, T]
    obtain ⟨h1, h2, h3⟩ := hi
    have h1 : s < 2 := h1
    interval_cases s
    · have h2 : i ≤ 1 := h2
      rw [p0]
      interval_cases i <;>
        simp [OCP.pArg, ocp, ocpGrow, ocpR, Mesh.idx, segStart, T]
    · have h2 : i ≤ 1 := h2
      obtain rfl : i = 1 := by omega
      rw [p1]
      norm_num [OCP.pArg, ocp, ocpGrow, ocpR, Mesh.idx, segStart, T, meshGrow, Mesh.halfWidth, trajGrow]
  · intro F hF p _
    have hF : (⟨1, fun p _ => 2 * p.x.getD 0 0 - 2⟩ : VFun (PArg ℝ) ℝ) = F := by simpa [ocp] using hF
    rw [← hF]
    simp [ocp, ocpGrow, ocpR]; ring

/-- The problem has a solution, yet on LGR meshes of any orders (so of any fineness) the NLP has no feasible point. -/
theorem C76_example (orders : List Nat) (hne : orders ≠ []) (hpos : ∀ p ∈ orders, 1 ≤ p) :
    SolvesContinuously ocpFree freeR ∧
    ∃ c : SolverCall ℝ Nat, (∀ z, ¬ c.IsSolution z) ∧
      ∀ (nlpsol : SolverCall ℝ Nat → Py (List ℝ)) (z : List ℝ), nlpsol c = .ok z →
        z.length = c.solver.problem.x.length →
        ∃ out, mpSolve outsideR nlpsol ocpFree [[0]] orders.length (.list orders) "LGR" argsR true true = .ok out := by
  obtain ⟨M, hM, ho⟩ := exists_lgr_mesh orders hne hpos
  obtain ⟨hv, hs, hsc⟩ := ocpFree_ready
  refine ⟨freeR_solves, C76_nothing_feasible ocpFree_off hv hs hsc hM (by rw [ho]) (by norm_num [outsideR]) rfl
    (fun l hl => nomatch hl) ?_ (by simp)⟩
  intro ph hp
  obtain rfl : ph = 0 := by simpa [ocpFree, ocpR] using hp
  simp [ocpFree, ocpR, entry]

end MPOpt
