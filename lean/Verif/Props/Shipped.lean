import Verif.Model.Examples
import Verif.Props.Weights
import Verif.Props.ExactFree
import Verif.Props.ExactExample

/-! # C68: the shipped example with a known solution -/

set_option autoImplicit false
set_option linter.unusedSectionVars false

namespace MPOpt
open Polynomial

variable {M : Mesh ℝ}

/-! ### Sums over owned nodes -/

/-- Values can be prescribed at all owned nodes. -/
theorem Mesh.exists_owned (M : Mesh ℝ) (f : Nat → Nat → ℝ) :
    ∃ v : Nat → ℝ, ∀ s i, M.Owns s i → v (M.idx s i) = f s i := by
  classical
  refine ⟨fun k => if h : ∃ q : Nat × Nat, M.Owns q.1 q.2 ∧ M.idx q.1 q.2 = k then f h.choose.1 h.choose.2 else 0,
    fun s i ho => ?_⟩
  have h : ∃ q : Nat × Nat, M.Owns q.1 q.2 ∧ M.idx q.1 q.2 = M.idx s i := ⟨(s, i), ho, rfl⟩
  simp only [dif_pos h]
  obtain ⟨e1, e2⟩ := Mesh.owner_unique h.choose_spec.1 ho h.choose_spec.2
  rw [e1, e2]

/-- Weighted sums of derivatives of pieces that join telescope. -/
theorem Mesh.Integrates.telescope (hM : M.Good) {W : List ℝ} {deg : Nat → Nat} (hW : M.Integrates W deg)
    {P : Nat → ℝ[X]} (hd : ∀ s < M.orders.length, (derivative (P s)).natDegree ≤ deg s)
    (hj : ∀ s, s + 1 < M.orders.length → (P (s + 1)).eval M.tau0 = (P s).eval M.tau1) {v : Nat → ℝ}
    (hv : ∀ s i, M.Owns s i → v (M.idx s i) = (derivative (P s)).eval (M.node s i)) :
    weightedSum W v = (P (M.orders.length - 1)).eval M.tau1 - (P 0).eval M.tau0 := by
  rw [hW P (fun _ => 1) v hd (by
    intro s hs i hi ho
    have hi' : i ≤ M.order s := by rw [Mesh.order_eq hs]; exact hi
    have hn : (M.nodes M.orders[s]).getD i 0 = M.node s i := by unfold Mesh.node; rw [Mesh.order_eq hs]
    refine (hv s i ⟨hs, hi', ho⟩).trans ?_
    beta_reduce
    rw [hn, one_mul])]
  have hn : 0 < M.orders.length := List.length_pos_iff.2 hM.nonempty
  have key : ∀ m, m + 1 ≤ M.orders.length → ∑ s ∈ Finset.range (m + 1), 1 * ((P s).eval M.tau1 - (P s).eval M.tau0) =
      (P m).eval M.tau1 - (P 0).eval M.tau0 := by
    intro m
    induction m with
    | zero => intro _; simp
    | succ m ih =>
      intro h
      rw [Finset.sum_range_succ, ih (by omega), hj m (by omega)]
      ring
  have := key (M.orders.length - 1) (by omega)
  rwa [show M.orders.length - 1 + 1 = M.orders.length by omega] at this

/-! ### The problem and its solution -/

/-- The object built by the script, written out. -/
noncomputable def ocpWS : OCP ℝ :=
  { nx := 1, nu := 1, na := 0, nPhases := 1
    dynamics := [⟨1, fun p _ => 2 * (1 - p.u.getD 0 0)⟩]
    pathConstraints := [none]
    terminalCosts := [fun _ => 0]
    runningCosts := [fun p => 1 / 2 * p.u.getD 0 0 * p.u.getD 0 0 - p.x.getD 0 0]
    terminalConstraints := [none]
    phaseLinks := []
    scaleX := [1], scaleU := [1], scaleA := [], scaleT := 1
    x00 := [[1]], xf0 := [[0]], u00 := [[0]], uf0 := [[0]], t00 := [[0]], tf0 := [[1]], a0 := [[]]
    lbx := [[.ninf]], ubx := [[.pinf]], lbu := [[.ninf]], ubu := [[.pinf]], lba := [[]]
    uba := [[]], lbt0 := [[.fin 0]], ubt0 := [[.fin 0]], lbtf := [[.fin 1]], ubtf := [[.fin 1]]
    lbe := [], ube := [], diffU := [false], lbdu := [.fin (-15)], ubdu := [.fin 15], midu := [true]
    duContinuity := [false] }

theorem scriptWithSolution_eq : scriptWithSolution = .ok ocpWS := rfl

theorem ocpWS_ready : ValidOCP ocpWS ∧ ocpWS.SettingsOK ∧ ocpWS.PosScales := by
  refine ⟨?_, ⟨Nat.one_pos, rfl, rfl, rfl, rfl, rfl, Or.inl Nat.one_pos, fun h => absurd h (by simp [ocpWS]),
    fun h => absurd h (by simp [ocpWS]), by simp [ocpWS]⟩, ⟨?_, ?_, ?_, by norm_num [ocpWS]⟩⟩
  · constructor
    case ordX => exact rowOrdered_single (by simp [Ext.le])
    case ordU => exact rowOrdered_single (by simp [Ext.le])
    case ordA => exact rowOrdered_empty
    case ordT0 => exact rowOrdered_single (by simp [Ext.le])
    case ordTf => exact rowOrdered_single (by simp [Ext.le])
    case ordE => intro ph l u hl; simp [ocpWS] at hl
    all_goals simp [ocpWS, HasShape]
  all_goals simp [ocpWS]

/-- The solution in the lecture notes: `x = 1 + 6 t - 2 t²`, `u = 2 (t - 1)`. -/
noncomputable def exactWS : CTraj :=
  ⟨fun _ _ t => 1 + 6 * t - 2 * t ^ 2, fun _ _ t => 2 * (t - 1), fun _ => 0, fun _ => 1, fun _ _ => 0⟩

theorem exactWS_solves : SolvesContinuously ocpWS exactWS := by
  refine ⟨fun ph hph => ?_, by simp [ocpWS], by simp [ocpWS], by simp [ocpWS]⟩
  obtain rfl : ph = 0 := by simpa [ocpWS] using hph
  have hd : ∀ t : ℝ, HasDerivAt (fun t : ℝ => 1 + 6 * t - 2 * t ^ 2) (2 * (1 - 2 * (t - 1))) t := by
    intro t
    have := (((hasDerivAt_id t).const_mul 6).const_add 1).sub (((hasDerivAt_id t).pow 2).const_mul 2)
    refine this.congr_deriv ?_
    simp; ring
  refine ⟨by simp [exactWS], ⟨?_, ?_, fun j _ t _ => (hd t).continuousAt.continuousWithinAt⟩, ?_, ?_, ?_, ?_, ?_, ?_, ?_, ?_⟩
  · intro F hF j hj t _ _
    have hF : (⟨1, fun p _ => 2 * (1 - p.u.getD 0 0)⟩ : VFun (PArg ℝ) ℝ) = F := by simpa [ocpWS] using hF
    rw [← hF]
    simpa [exactWS, OCP.cArg, ocpWS] using (hd t).hasDerivWithinAt
  · intro F hF j hj
    have hF : (⟨1, fun p _ => 2 * (1 - p.u.getD 0 0)⟩ : VFun (PArg ℝ) ℝ) = F := by simpa [ocpWS] using hF
    rw [← hF]
    simpa [exactWS, OCP.cArg, ocpWS] using (hd 0).hasDerivWithinAt
  · intro F hF; simp [ocpWS] at hF
  · intro F hF; simp [ocpWS] at hF
  · intro _ j hj
    obtain rfl : j = 0 := by simpa [ocpWS] using hj
    simp [exactWS, ocpWS, entry]
  · intro t ht _ j hj
    obtain rfl : j = 0 := by simpa [ocpWS] using hj
    simp [ocpWS, entry, Within, Ext.Below, Ext.Above]
  · intro t ht j hj
    obtain rfl : j = 0 := by simpa [ocpWS] using hj
    simp [ocpWS, entry, Within, Ext.Below, Ext.Above]
  · simp [exactWS, ocpWS, entry, Within, Ext.Below, Ext.Above]
  · simp [exactWS, ocpWS, entry, Within, Ext.Below, Ext.Above]
  · intro k hk; simp [ocpWS] at hk

theorem exactWS_poly {n : Nat} {deg : Nat → Nat} (h : ∀ s < n, 2 ≤ deg s) (b : Nat → ℝ) :
    PiecewisePoly n deg b (exactWS.x 0 0) ∧ PiecewisePoly n deg b (exactWS.u 0 0) ∧
      LeftPiecewisePoly n deg b fun t => ocpWS.runningCosts.getD 0 (fun _ => 0) (ocpWS.cArg exactWS 0 t) := by
  refine ⟨fun s hs => ⟨C (-2) * X ^ 2 + C 6 * X + C 1, natDegree_quadratic_le.trans (h s hs), fun t _ => ?_⟩,
    fun s hs => ⟨C 2 * X + C (-2), natDegree_linear_le.trans (by have := h s hs; omega), fun t _ => ?_⟩,
    fun s hs => ⟨C 4 * X ^ 2 + C (-10) * X + C 1, natDegree_quadratic_le.trans (h s hs), fun t _ _ => ?_⟩⟩
  · simp [exactWS]; ring
  · simp [exactWS]; ring
  · simp [exactWS, OCP.cArg, ocpWS]; ring

theorem exactWS_cost : ocpWS.trueCost exactWS = -8 / 3 := by
  have e : ocpWS.trueCost exactWS = ∫ t in (0 : ℝ)..1, (4 * t ^ 2 - 10 * t + 1) := by
    simp only [OCP.trueCost, show ocpWS.nPhases = 1 from rfl, Finset.sum_range_one]
    rw [show ocpWS.terminalCosts.getD 0 (fun _ => 0) (ocpWS.cEnd exactWS 0) = 0 from rfl, zero_add]
    apply intervalIntegral.integral_congr
    intro t _
    simp [exactWS, OCP.cArg, ocpWS]; ring
  have hd : ∀ t : ℝ, HasDerivAt (fun t : ℝ => 4 / 3 * t ^ 3 - 5 * t ^ 2 + t) (4 * t ^ 2 - 10 * t + 1) t := by
    intro t
    have := ((((hasDerivAt_id t).pow 3).const_mul (4 / 3)).sub (((hasDerivAt_id t).pow 2).const_mul 5)).add
      (hasDerivAt_id t)
    refine this.congr_deriv ?_
    simp; ring
  rw [e, intervalIntegral.integral_eq_sub_of_hasDerivAt (fun t _ => hd t)
    ((by fun_prop : Continuous fun t : ℝ => 4 * t ^ 2 - 10 * t + 1).intervalIntegrable _ _)]
  norm_num

/-- What it means to have found the solution: cost, states between the nodes as well, controls at the nodes. -/
structure FoundWS (M : Mesh ℝ) (T : Traj ℝ) (J : ℝ) : Prop where
  cost : J = -8 / 3
  x : ∀ s < M.orders.length, ∀ tau, (M.piece (fun k => T.x 0 k 0) s).eval tau =
    1 + 6 * M.time T 0 s tau - 2 * M.time T 0 s tau ^ 2
  u : ∀ s i, M.Owns s i → T.u 0 (M.idx s i) 0 = 2 * (M.time T 0 s (M.node s i) - 1)

/-- A trajectory of the collocated problem that costs at most `-8/3` is the solution. -/
theorem foundWS (hM : M.Good) (hI : M.Inside) (hord : ∀ p ∈ M.orders, 2 ≤ p) {W : List ℝ}
    (hW : M.Integrates W fun s => 2 * M.order s - 2)
    (hpos : ∃ ws, W = 0 :: ws ∧ ws.length = M.orders.sum ∧ ∀ x ∈ ws, 0 < x) {T : Traj ℝ} {J : ℝ}
    (hB : BoundsOK ocpWS M T 0) (hC : CollocationOK ocpWS M T 0) (hw : FullWidths M T 0)
    (hJ : PhysCost ocpWS M W T J) (hle : J ≤ -8 / 3) : FoundWS M T J := by
  obtain ⟨b1, -, -, b4, b5, -⟩ := hB
  have x0 : T.x 0 0 0 = 1 := by simpa [ocpWS, entry] using b1 rfl 0 (by simp [ocpWS])
  have t0 : T.t0 0 = 0 := by
    have : (0 : ℝ) ≤ T.t0 0 ∧ T.t0 0 ≤ 0 := by simpa [ocpWS, entry, Within, Ext.Below, Ext.Above] using b4
    exact le_antisymm this.2 this.1
  have tf : T.tf 0 = 1 := by
    have : (1 : ℝ) ≤ T.tf 0 ∧ T.tf 0 ≤ 1 := by simpa [ocpWS, entry, Within, Ext.Below, Ext.Above] using b5
    exact le_antisymm this.2 this.1
  have hlen : 0 < M.orders.length := List.length_pos_iff.2 hM.nonempty
  have ho2 : ∀ s < M.orders.length, 2 ≤ M.order s := fun s hs => hord _ (hM.order_mem hs)
  set n := M.orders.length with hn
  -- abbreviations
  set Xs : Nat → ℝ[X] := fun s => M.piece (fun k => T.x 0 k 0) s with hXs
  set c : Nat → ℝ[X] := fun s => M.clockPoly T 0 s with hc
  have hcd : ∀ s, derivative (c s) = C (M.halfWidth T 0 s) := by
    intro s; rw [hc]; simp [Mesh.clockPoly]
  have hXd : ∀ s < n, (Xs s).natDegree ≤ M.order s := by
    intro s hs
    have := hM.piece_degrees (fun k => T.x 0 k 0) s hs
    rwa [← Mesh.order_eq hs] at this
  have hXn : ∀ s < n, ∀ i ≤ M.order s, (Xs s).eval (M.node s i) = T.x 0 (M.idx s i) 0 := by
    intro s hs i hi
    exact hM.piece_eval_node (fun k => T.x 0 k 0) hs hi
  have hcol : ∀ s i, M.Owns s i →
      (derivative (Xs s)).eval (M.node s i) = M.halfWidth T 0 s * (2 * (1 - T.u 0 (M.idx s i) 0)) := by
    intro s i ho
    have := hC ⟨1, fun p _ => 2 * (1 - p.u.getD 0 0)⟩ rfl 0 (by simp [ocpWS]) s i ho
    simpa [OCP.pArg, ocpWS] using this
  have hh : ∀ s < n, 0 < M.halfWidth T 0 s := by
    intro s hs
    have h1 := hw.pos s hs
    have h2 := hI.tau_lt hM
    unfold Mesh.halfWidth
    rw [t0, tf]
    have : 0 < M.tau1 - M.tau0 := by linarith
    positivity
  obtain ⟨j1, -, j3, j4⟩ := C13_segment_ends hM T 0
  have hXj : ∀ s, s + 1 < n → (Xs (s + 1)).eval M.tau0 = (Xs s).eval M.tau1 := by
    intro s hs
    have a := hXn (s + 1) hs 0 (Nat.zero_le _)
    have b := hXn s (by omega) (M.order s) le_rfl
    rw [hM.node_first hs] at a
    rw [hM.node_last (by omega)] at b
    rw [a, b]
    congr 1
    simp only [Mesh.idx, Nat.add_zero]
    rw [Mesh.order_eq (by omega : s < M.orders.length)]
    exact segStart_succ M.orders (by omega)
  have hcj : ∀ s, s + 1 < n → (c (s + 1)).eval M.tau0 = (c s).eval M.tau1 := by
    intro s _
    simp only [hc, M.clockPoly_eval]; exact j3 s
  have hc0 : (c 0).eval M.tau0 = 0 := by simp only [hc, M.clockPoly_eval]; rw [j1, t0]
  have hc1 : (c (n - 1)).eval M.tau1 = 1 := by simp only [hc, M.clockPoly_eval]; rw [j4 hw.sum, tf]
  have hX0 : (Xs 0).eval M.tau0 = 1 := by
    have := hXn 0 hlen 0 (Nat.zero_le _)
    rwa [hM.node_first hlen, show M.idx 0 0 = 0 by simp [Mesh.idx, segStart], x0] at this
  have hcdeg : ∀ s, (c s).natDegree ≤ 1 := fun s => natDegree_linear_le
  obtain ⟨v, hv, rfl⟩ := hJ
  -- the square that is left over
  obtain ⟨q, hq⟩ := M.exists_owned fun s i => M.halfWidth T 0 s *
    ((T.u 0 (M.idx s i) 0 - 2 * (M.time T 0 s (M.node s i) - 1)) ^ 2 / 2)
  set P : Nat → ℝ[X] := fun s => C (-2 / 3) * (c s - 1) ^ 3 + (c s - 1) ^ 2 - (c s - 1) * Xs s with hP
  have hPd : ∀ s, derivative (P s) = C (M.halfWidth T 0 s) * (C (-2) * (c s - 1) ^ 2 + C 2 * (c s - 1) - Xs s) -
      (c s - 1) * derivative (Xs s) := by
    intro s
    simp only [hP, derivative_sub, derivative_add, derivative_mul, derivative_pow, derivative_C, derivative_one, hcd]
    have : (C (-2 / 3 : ℝ)) * 3 = C (-2) := by
      rw [show (3 : ℝ[X]) = C 3 from rfl, ← C_mul]; norm_num
    have h2 : (C (2 : ℝ)) = 2 := rfl
    have h3 : (C (3 : ℝ)) = 3 := rfl
    push_cast
    simp only [h2, h3]
    linear_combination (c s - 1) ^ 2 * C (M.halfWidth T 0 s) * this
  have hsum := hW.telescope hM (P := P) (v := fun k => v 0 k - q k) (by
    intro s hs
    have h2 := ho2 s hs
    have h1 : (c s - 1).natDegree ≤ 1 := (natDegree_sub_le _ _).trans (by simp [hcdeg s])
    have h3 : ((c s - 1) ^ 2).natDegree ≤ 2 := natDegree_pow_le.trans (by omega)
    have h4 := hXd s hs
    have h5 := natDegree_derivative_le (Xs s)
    rw [hPd]
    refine (natDegree_sub_le _ _).trans (max_le ?_ ?_)
    · refine (natDegree_C_mul_le _ _).trans ((natDegree_sub_le _ _).trans (max_le ?_ (by omega)))
      refine (natDegree_add_le _ _).trans (max_le ?_ ?_)
      · exact (natDegree_C_mul_le _ _).trans (by omega)
      · exact (natDegree_C_mul_le _ _).trans (by omega)
    · exact natDegree_mul_le.trans (by omega)) (by
    intro s hs
    simp only [hP, eval_sub, eval_add, eval_mul, eval_pow, eval_C, eval_one, hcj s hs, hXj s hs]) (by
    intro s i ho
    have e1 := hv 0 (by simp [ocpWS]) (fun p => 1 / 2 * p.u.getD 0 0 * p.u.getD 0 0 - p.x.getD 0 0) rfl s i ho
    have e1 : v 0 (M.idx s i) = M.halfWidth T 0 s *
        (1 / 2 * T.u 0 (M.idx s i) 0 * T.u 0 (M.idx s i) 0 - T.x 0 (M.idx s i) 0) := by
      simpa [OCP.pArg, ocpWS] using e1
    have e2 := hXn s ho.1 i ho.2.1
    have e3 : (c s).eval (M.node s i) = M.time T 0 s (M.node s i) := M.clockPoly_eval T 0 s _
    rw [e1, hq s i ho, hPd]
    simp only [eval_sub, eval_add, eval_mul, eval_pow, eval_C, eval_one, hcol s i ho, e2, e3]
    ring)
  have hval : weightedSum W (fun k => v 0 k - q k) = -8 / 3 := by
    rw [hsum]
    simp only [hP, eval_sub, eval_add, eval_mul, eval_pow, eval_C, eval_one]
    rw [hc0, hc1, hX0]; norm_num
  have hsplit : weightedSum W (fun k => v 0 k - q k) = weightedSum W (v 0) - weightedSum W q := by
    unfold weightedSum
    rw [← Finset.sum_sub_distrib]
    exact Finset.sum_congr rfl fun k _ => by ring
  have hJ : (∑ ph ∈ Finset.range ocpWS.nPhases, (TerminalCost ocpWS M T ph + weightedSum W (v ph))) =
      -8 / 3 + weightedSum W q := by
    rw [show ocpWS.nPhases = 1 from rfl, Finset.sum_range_one, show TerminalCost ocpWS M T 0 = 0 from rfl]
    linarith
  rw [hJ] at hle ⊢
  obtain ⟨ws, rfl, hwl, hwp⟩ := hpos
  have hqn : ∀ s i, M.Owns s i → 0 ≤ q (M.idx s i) := by
    intro s i ho
    have := hh s ho.1
    rw [hq s i ho]; positivity
  have hN : M.N = ws.length + 1 := by rw [hwl]; rfl
  have hterm : ∀ k ∈ Finset.range (0 :: ws : List ℝ).length, 0 ≤ (0 :: ws : List ℝ).getD k 0 * q k := by
    intro k hk
    rw [Finset.mem_range, List.length_cons] at hk
    obtain ⟨s, i, ho, rfl⟩ := M.exists_owner hM.nonempty (k := k) (by omega)
    refine mul_nonneg ?_ (hqn s i ho)
    rcases M.idx s i with _ | j
    · simp
    · rw [List.getD_cons_succ]
      by_cases hj : j < ws.length
      · rw [List.getD_eq_getElem _ _ hj]; exact (hwp _ (List.getElem_mem hj)).le
      · rw [List.getD_eq_default _ _ (by omega)]
  have hge : 0 ≤ weightedSum (0 :: ws) q := by unfold weightedSum; exact Finset.sum_nonneg hterm
  have hz : weightedSum (0 :: ws) q = 0 := le_antisymm (by linarith) hge
  have hz' := (Finset.sum_eq_zero_iff_of_nonneg hterm).1 (by unfold weightedSum at hz; exact hz)
  -- controls at all nodes with positive weight
  have hu1 : ∀ s i, M.Owns s i → 1 ≤ M.idx s i →
      T.u 0 (M.idx s i) 0 = 2 * (M.time T 0 s (M.node s i) - 1) := by
    intro s i ho hk
    have hlt : M.idx s i < M.N := Mesh.idx_lt ho.1 ho.2.1
    have h1 := hz' (M.idx s i) (by rw [Finset.mem_range, List.length_cons]; omega)
    obtain ⟨j, hj⟩ : ∃ j, M.idx s i = j + 1 := ⟨M.idx s i - 1, by omega⟩
    have hw' : (0 :: ws : List ℝ).getD (M.idx s i) 0 ≠ 0 := by
      rw [hj, List.getD_cons_succ, List.getD_eq_getElem _ _ (by omega)]
      exact (hwp _ (List.getElem_mem _)).ne'
    have h2 := (mul_eq_zero.1 h1).resolve_left hw'
    rw [hq s i ho] at h2
    have h3 := (mul_eq_zero.1 h2).resolve_left (hh s ho.1).ne'
    have h4 : (T.u 0 (M.idx s i) 0 - 2 * (M.time T 0 s (M.node s i) - 1)) ^ 2 = 0 := by linarith
    have := pow_eq_zero_iff (two_ne_zero) |>.1 h4
    linarith
  -- states
  set E : ℝ[X] := C (-2) * X ^ 2 + C 6 * X + C 1 with hE
  have hEv : ∀ t, E.eval t = 1 + 6 * t - 2 * t ^ 2 := by intro t; simp [hE]; ring
  have hEd : ∀ t, (derivative E).eval t = 6 - 4 * t := by intro t; simp [hE]; ring
  have hder : ∀ s < n, derivative (Xs s) = derivative (E.comp (c s)) := by
    intro s hs
    have h2 := ho2 s hs
    rw [← sub_eq_zero]
    apply eq_zero_of_natDegree_lt_card_of_eval_eq_zero' _ ((Finset.Icc 1 (M.order s)).image (M.node s))
    · intro y hy
      obtain ⟨i, hi, rfl⟩ := Finset.mem_image.1 hy
      rw [Finset.mem_Icc] at hi
      have ho : M.Owns s i := ⟨hs, hi.2, Or.inr hi.1⟩
      have hu := hu1 s i ho (by unfold Mesh.idx; omega)
      rw [eval_sub, hcol s i ho, hu, (M.clockPoly_comp T 0 s E _).2.1, hEd]
      ring
    · rw [Finset.card_image_of_injOn (fun a ha b hb e => hM.node_injOn hs
        (by simp at ha ⊢; omega) (by simp at hb ⊢; omega) e), Nat.card_Icc]
      have h3 := hXd s hs
      have h4 := natDegree_derivative_le (Xs s)
      have h5 := natDegree_derivative_le (E.comp (c s))
      have h6 := (M.clockPoly_comp T 0 s E 0).2.2
      have h7 : E.natDegree ≤ 2 := natDegree_quadratic_le
      have := natDegree_sub_le (derivative (Xs s)) (derivative (E.comp (c s)))
      have : (derivative (Xs s) - derivative (E.comp (c s))).natDegree ≤ M.order s - 1 :=
        this.trans (max_le (by omega) (by simp only [hc] at *; omega))
      omega
  have heq : ∀ s < n, (Xs s).eval M.tau0 = (E.comp (c s)).eval M.tau0 → Xs s = E.comp (c s) := by
    intro s hs h0
    have h1 : derivative (Xs s - E.comp (c s)) = 0 := by rw [derivative_sub, hder s hs, sub_self]
    have h2 := derivative_eq_zero.1 h1
    rw [natDegree_eq_zero] at h2
    obtain ⟨r, hr⟩ := h2
    have h3 : (Xs s - E.comp (c s)).eval M.tau0 = 0 := by rw [eval_sub, h0, sub_self]
    rw [← hr, eval_C] at h3
    rw [← sub_eq_zero, ← hr, h3, C_0]
  have hall : ∀ s, s < n → Xs s = E.comp (c s) := by
    intro s
    induction s with
    | zero => intro hs; exact heq 0 hs (by rw [hX0, eval_comp, hc0, hEv]; norm_num)
    | succ s ih =>
      intro hs
      refine heq _ hs ?_
      rw [hXj s hs, ih (by omega), eval_comp, eval_comp, hcj s hs]
  refine ⟨by rw [hz]; norm_num, fun s hs tau => ?_, fun s i ho => ?_⟩
  · have := congrArg (fun p => p.eval tau) (hall s hs)
    simp only [(M.clockPoly_comp T 0 s E tau).1, hc, hEv] at this
    exact this
  · have h1 := hcol s i ho
    rw [hall s ho.1] at h1
    simp only [hc] at h1
    rw [(M.clockPoly_comp T 0 s E _).2.1, hEd] at h1
    have := mul_left_cancel₀ (hh s ho.1).ne' h1
    linarith

/-! ### The three solvers -/

theorem WidthsAre.full {ocp : OCP ℝ} (h1 : ocp.nPhases = 1) {n : Nat} (hn : 0 < n) (hl : M.orders.length = n)
    {req : Option (List ℝ)} (hreq : ∀ l, req = some l → l.sum = 1 ∧ ∀ x ∈ l, 0 < x) {T : Traj ℝ}
    (h : WidthsAre ocp n req T) : FullWidths M T 0 := by
  subst hl
  have hn' : (0 : ℝ) < (M.orders.length : ℝ) := by exact_mod_cast hn
  cases req with
  | none =>
    have h : ∀ s < M.orders.length, T.w s 0 = 1 / (M.orders.length : ℝ) := h 0 (by omega)
    refine ⟨fun s hs => by rw [h s hs]; positivity, ?_⟩
    rw [Finset.sum_congr rfl fun s hs => h s (Finset.mem_range.1 hs)]
    simp; field_simp
  | some l =>
    obtain ⟨q1, q2⟩ := hreq l rfl
    have h : ocp.packWidths M.orders.length T = l := h
    unfold OCP.packWidths at h
    rw [h1] at h
    simp only [List.range_one, List.flatMap_cons, List.flatMap_nil, List.append_nil] at h
    subst h
    refine ⟨fun s hs => q2 _ (List.mem_map.2 ⟨s, List.mem_range.2 hs, rfl⟩), ?_⟩
    rw [← q1]
    rfl

variable {V : Type} {w : Outside ℝ V} {nlpsol : SolverCall ℝ V → Py (List ℝ)} {ptp : List (List Nat)} {n : Nat}
  {arg : OrdersArg} {rx rdx : Bool} {ocp : OCP ℝ}

theorem one_phase {P : Nat → Prop} (h : P 0) : ∀ ph < ocpWS.nPhases, P ph := by
  intro ph hp
  obtain rfl : ph = 0 := by simpa [ocpWS] using hp
  exact h

theorem one_entry {P : Nat → Prop} (h : P 0) : ∀ j < 1, P j := by
  intro j hj
  obtain rfl : j = 0 := by omega
  exact h

theorem mpSolve_length {scheme : String} {a : SolveArgs ℝ V} {s : Session ℝ V} {p : Post ℝ}
    {r : Option (PyDict (ResidVal ℝ))} (h : mpSolve w nlpsol ocp ptp n arg scheme a rx rdx = .ok (s, p, r))
    (hM : MeshFor w scheme n arg M) : M.orders.length = n := by
  unfold mpSolve newSession at h
  simp only [py_bind_eq_ok, py_pure_eq_ok] at h
  obtain ⟨s0, ⟨⟨orders, N⟩, ho, rfl⟩, -⟩ := h
  obtain ⟨h1, h2, -⟩ := initOrders_inv ho
  rw [OrdersArg.Means.unique hM.orders h1]; exact h2

/-- **C68** `mpopt.solve` on the shipped example: LGR nodes of order at least 2 on any number of segments, equal widths
or any positive ones with sum 1, a globally optimal NLP solver. The trajectory shown is the solution in the lecture
notes. -/
theorem C68_solve (hocp : scriptWithSolution = .ok ocp) {a : SolveArgs ℝ V} {s : Session ℝ V}
    {p : Post ℝ} {r : Option (PyDict (ResidVal ℝ))}
    (hrun : mpSolve w nlpsol ocp ptp n arg "LGR" a rx rdx = .ok (s, p, r)) (hM : MeshFor w "LGR" n arg M)
    (hlt : w.tau0 < w.tau1) (hord : ∀ q ∈ M.orders, 2 ≤ q)
    (hj : ∀ q ∈ M.orders, IsJacobiRoots 1 0 (q - 1) (w.lib.jroots (q - 1) 1 0))
    (hopt : ∀ c z, nlpsol c = .ok z → c.IsOptimal z)
    (hwid : ∀ l, a.widths = some l → l.sum = 1 ∧ ∀ x ∈ l, 0 < x) :
    ∃ T W J, compQuadWeights ⟨w.method, w.tau0, w.tau1, tausFn w.lib w.tau0 w.tau1 "LGR"⟩ M.orders = .ok W ∧
      p.Shows ocp M T ∧ PhysCost ocp M W T J ∧ FoundWS M T J := by
  obtain rfl : ocpWS = ocp := by rw [scriptWithSolution_eq] at hocp; injection hocp
  obtain ⟨hv, hs, hsc⟩ := ocpWS_ready
  obtain ⟨T, W, J, h1, h2, h3, h4, h5, h6⟩ := C57_solve_beats hrun hv hs hsc hM hlt hord hj hopt
    (one_phase rfl) (one_phase rfl)
  obtain ⟨hI, hW⟩ := C57_lgr_integrates hM hlt hord hj h1
  have hlen : M.orders.length = n := mpSolve_length hrun hM
  have hn : 0 < n := by rw [← hlen]; exact List.length_pos_iff.2 hM.good.nonempty
  have hfw := h3.full rfl hn hlen hwid
  have ho : ∀ s < M.orders.length, 2 ≤ M.order s := fun s hs => hord _ (hM.good.order_mem hs)
  obtain ⟨T', hT', hTw⟩ := exists_samples_of ocpWS M exactWS T.w
  have hw' : WidthsAre ocpWS n a.widths T' := by
    unfold WidthsAre OCP.packWidths at h3 ⊢
    rw [hTw]; exact h3
  have hfw' := hw'.full rfl hn hlen hwid
  obtain ⟨p1, p2, -⟩ := exactWS_poly ho (exactWS.breakTime T'.w 0)
  obtain ⟨-, -, p3⟩ := exactWS_poly (deg := fun s => 2 * M.order s - 2)
    (fun s hs => by have := ho s hs; omega) (exactWS.breakTime T'.w 0)
  have hle := h6 exactWS T' exactWS_solves hT' hw' (one_phase hfw') (one_phase (one_entry p1))
    (one_phase fun _ => one_entry p2) (one_phase p3)
  rw [exactWS_cost] at hle
  exact ⟨T, W, J, h1, h4, h5, foundWS hM.good hI hord hW
    (C67_lgr_composite w.lib w.method w.tau0 w.tau1 hlt hord hj h1)
    (h2.1.bounds 0 (by simp [ocpWS])) (h2.1.dynamics 0 (by simp [ocpWS])) hfw h5 hle⟩

/-- **C68** `mpopt_adaptive` on the shipped example, for any bounds on the widths that are positive and admit equal
widths. -/
theorem C68_adaptive (hocp : scriptWithSolution = .ok ocp) {lb ub tol : ℝ} {mid : Bool} {s : AdaptOpt ℝ V}
    (hf : s.Ready w ocp n arg "LGR" [lb] [ub] [tol] mid) (hlb : 0 < lb) (h1n : lb ≤ 1 / n) (h2n : 1 / n ≤ ub)
    (htol : 0 ≤ tol) (hM : MeshFor w "LGR" n arg M) (hlt : w.tau0 < w.tau1) (hord : ∀ q ∈ M.orders, 2 ≤ q)
    (hj : ∀ q ∈ M.orders, IsJacobiRoots 1 0 (q - 1) (w.lib.jroots (q - 1) 1 0))
    (hopt : ∀ c z, nlpsol c = .ok z → c.IsOptimal z) (earlier : List (SolveArgs ℝ V)) (a : SolveArgs ℝ V)
    {s' : AdaptOpt ℝ V} {z : List ℝ} (hrun : (s.run w nlpsol earlier).solve w nlpsol a = (s', .ok z))
    {p : Post ℝ} {r : Option (PyDict (ResidVal ℝ))} (hp : s'.processResults w ptp false rx rdx = .ok (p, r)) :
    ∃ T W J, compQuadWeights ⟨w.method, w.tau0, w.tau1, tausFn w.lib w.tau0 w.tau1 "LGR"⟩ M.orders = .ok W ∧
      p.Shows ocp M T ∧ PhysCost ocp M W T J ∧ FoundWS M T J := by
  obtain rfl : ocpWS = ocp := by rw [scriptWithSolution_eq] at hocp; injection hocp
  obtain ⟨hv, hs, hsc⟩ := ocpWS_ready
  obtain ⟨T, W, J, h1, h2, h3, h4, h5⟩ := C63_adaptive_beats hf hv hs hsc rfl rfl rfl hM hlt hord hj hopt
    (one_phase rfl) (fun _ v hv => by rw [List.mem_singleton.1 hv]; exact htol) earlier a hrun hp
  obtain ⟨hI, hW⟩ := C57_lgr_integrates hM hlt hord hj h1
  have hlen : M.orders.length = n := by
    rw [OrdersArg.Means.unique hM.orders hf.orders]; exact hf.length
  have hn : 0 < n := by rw [← hlen]; exact List.length_pos_iff.2 hM.good.nonempty
  have hn' : (0 : ℝ) < n := by exact_mod_cast hn
  have ho : ∀ s < M.orders.length, 2 ≤ M.order s := fun s hs => hord _ (hM.good.order_mem hs)
  obtain ⟨p1, p2, -⟩ := exactWS_poly ho (exactWS.breakTime (fun _ _ => 1 / (n : ℝ)) 0)
  obtain ⟨-, -, p3⟩ := exactWS_poly (deg := fun s => 2 * M.order s - 2)
    (fun s hs => by have := ho s hs; omega) (exactWS.breakTime (fun _ _ => 1 / (n : ℝ)) 0)
  have hle := h5 exactWS (fun _ _ => 1 / (n : ℝ)) exactWS_solves
    (one_phase (by rw [hlen]; simp; field_simp))
    (one_phase fun s _ => ⟨by positivity, h1n, h2n⟩) (one_phase (one_entry p1)) (one_phase (one_entry p2))
    (one_phase p3)
  rw [exactWS_cost] at hle
  have hwd := h2.1.widths 0 (by simp [ocpWS])
  exact ⟨T, W, J, h1, h3, h4, foundWS hM.good hI hord hW
    (C67_lgr_composite w.lib w.method w.tau0 w.tau1 hlt hord hj h1)
    (h2.1.bounds 0 (by simp [ocpWS])) (h2.1.dynamics 0 (by simp [ocpWS]))
    ⟨fun s hs => hlb.trans_le (hwd.lower s hs), hwd.sum⟩ h4 hle⟩

/-- **C68** `mpopt_h_adaptive` on the shipped example: whatever the refinement does, provided it ends with positive
widths of sum 1. -/
theorem C68_h (hocp : scriptWithSolution = .ok ocp) {wh : HOutside ℝ V}
    {nlpsolH : Nat → Nat → SolverCall ℝ V → Py (PyDict V)} {lbh ubh tol : List ℝ} {sh : HOpt ℝ V}
    (hf : sh.Ready wh ocp n arg "LGR" lbh ubh tol) (hM : MeshFor wh.toOutside "LGR" n arg M)
    (hlt : wh.tau0 < wh.tau1) (hord : ∀ q ∈ M.orders, 2 ≤ q)
    (hj : ∀ q ∈ M.orders, IsJacobiRoots 1 0 (q - 1) (wh.lib.jroots (q - 1) 1 0))
    (hopt : ∀ n k c sol, nlpsolH n k c = .ok sol → ∃ z, Returned wh sol z ∧ c.IsOptimal z)
    {calls : List (HStart V × HArgs V)} (ho : OwnStarts calls) {s' : HOpt ℝ V} {sol : PyDict V}
    (hrun : sh.run wh nlpsolH calls 0 none = (s', some sol))
    {p : Post ℝ} {r : Option (PyDict (ResidVal ℝ))} (hp : s'.processResults wh sol ptp false rx rdx = .ok (p, r))
    (hwid : ∀ l, s'.widths = some l → l.sum = 1 ∧ ∀ x ∈ l, 0 < x) :
    ∃ T W J, compQuadWeights ⟨wh.method, wh.tau0, wh.tau1, tausFn wh.lib wh.tau0 wh.tau1 "LGR"⟩ M.orders = .ok W ∧
      p.Shows ocp M T ∧ s'.widths = some (ocp.packWidths n T) ∧ PhysCost ocp M W T J ∧ FoundWS M T J := by
  obtain rfl : ocpWS = ocp := by rw [scriptWithSolution_eq] at hocp; injection hocp
  obtain ⟨hv, hs, hsc⟩ := ocpWS_ready
  obtain ⟨T, W, J, h1, h2, h3, h4, h5, h6⟩ := C64_h_beats hf hv hs hsc hM hlt hord hj hopt
    (one_phase rfl) (one_phase rfl) ho hrun hp
  obtain ⟨hI, hW⟩ := C57_lgr_integrates hM hlt hord hj h1
  have hlen : M.orders.length = n := by rw [OrdersArg.Means.unique hM.orders hf.orders]; exact hf.length
  have hn : 0 < n := by rw [← hlen]; exact List.length_pos_iff.2 hM.good.nonempty
  have hfw : FullWidths M T 0 := WidthsAre.full (ocp := ocpWS) rfl hn hlen (req := s'.widths) hwid
    (by rw [h4]; exact rfl)
  have hog : ∀ s < M.orders.length, 2 ≤ M.order s := fun s hs => hord _ (hM.good.order_mem hs)
  obtain ⟨p1, p2, -⟩ := exactWS_poly hog (exactWS.breakTime T.w 0)
  obtain ⟨-, -, p3⟩ := exactWS_poly (deg := fun s => 2 * M.order s - 2)
    (fun s hs => by have := hog s hs; omega) (exactWS.breakTime T.w 0)
  have hle := h6 exactWS exactWS_solves (one_phase hfw) (one_phase (one_entry p1))
    (one_phase fun _ => one_entry p2) (one_phase p3)
  rw [exactWS_cost] at hle
  exact ⟨T, W, J, h1, h3, h4, h5, foundWS hM.good hI hord hW
    (C67_lgr_composite wh.lib wh.method wh.tau0 wh.tau1 hlt hord hj h1)
    (h2.1.bounds 0 (by simp [ocpWS])) (h2.1.dynamics 0 (by simp [ocpWS])) hfw h5 hle⟩

end MPOpt
