import Verif.Props.Energy
import Verif.Props.ShippedExample
import Mathlib.Analysis.SpecialFunctions.Trigonometric.Deriv
import Mathlib.Analysis.SpecialFunctions.Trigonometric.Bounds
import Mathlib.Analysis.Real.Pi.Bounds

/-! # C114: a quarter turn, which LGR nodes of order 2 cannot make -/

set_option autoImplicit false

namespace MPOpt
open Polynomial

/-- A point turns about the origin, the control is the rate of turning: from (1, 0) to (0, 1) within one unit of time. -/
noncomputable def scriptTurn : Py (OCP ℝ) := do
  let o ← mkOCP 2 1 1 0
  return { o with
    dynamics := o.dynamics.set 0 ⟨2, fun p j => if j = 0 then -(p.u.getD 0 0 * p.x.getD 1 0) else p.u.getD 0 0 * p.x.getD 0 0⟩
    runningCosts := o.runningCosts.set 0 fun p => p.u.getD 0 0 ^ 2
    terminalConstraints := o.terminalConstraints.set 0
      (some ⟨2, fun t j => if j = 0 then t.xf.getD 0 0 else t.xf.getD 1 0 - 1⟩)
    x00 := o.x00.set 0 [1, 0]
    lbu := o.lbu.set 0 [.fin (-10)], ubu := o.ubu.set 0 [.fin 10], lbtf := o.lbtf.set 0 [.fin 1], ubtf := o.ubtf.set 0 [.fin 1] }

/-- The object built by the script, written out. -/
noncomputable def ocpTurn : OCP ℝ :=
  { nx := 2, nu := 1, na := 0, nPhases := 1
    dynamics := [⟨2, fun p j => if j = 0 then -(p.u.getD 0 0 * p.x.getD 1 0) else p.u.getD 0 0 * p.x.getD 0 0⟩]
    pathConstraints := [none], terminalCosts := [fun _ => 0], runningCosts := [fun p => p.u.getD 0 0 ^ 2]
    terminalConstraints := [some ⟨2, fun t j => if j = 0 then t.xf.getD 0 0 else t.xf.getD 1 0 - 1⟩]
    phaseLinks := [], scaleX := [1, 1], scaleU := [1], scaleA := [], scaleT := 1
    x00 := [[1, 0]], xf0 := [[0, 0]], u00 := [[0]], uf0 := [[0]], t00 := [[0]], tf0 := [[1]], a0 := [[]]
    lbx := [[.ninf, .ninf]], ubx := [[.pinf, .pinf]], lbu := [[.fin (-10)]], ubu := [[.fin 10]], lba := [[]], uba := [[]]
    lbt0 := [[.fin 0]], ubt0 := [[.fin 0]], lbtf := [[.fin 1]], ubtf := [[.fin 1]]
    lbe := [], ube := [], diffU := [false], lbdu := [.fin (-15)], ubdu := [.fin 15], midu := [true], duContinuity := [false] }

theorem scriptTurn_eq : scriptTurn = .ok ocpTurn := rfl

theorem turn_ready : ValidOCP ocpTurn ∧ ocpTurn.SettingsOK ∧ ocpTurn.PosScales := by
  refine ⟨?_, ?_, ?_⟩
  · constructor
    case ordX => exact rowOrdered_cons (by simp [Ext.le]) rowOrdered_nil
    case ordU => exact rowOrdered_cons (by simp [Ext.le]) rowOrdered_nil
    case ordA => exact rowOrdered_cons (by simp) rowOrdered_nil
    case ordT0 => exact rowOrdered_cons (by simp [Ext.le]) rowOrdered_nil
    case ordTf => exact rowOrdered_cons (by simp [Ext.le]) rowOrdered_nil
    case ordE => exact rowOrdered_nil
    all_goals simp [HasShape, ocpTurn]
  · constructor <;> simp [ocpTurn]
  · constructor <;> simp [ocpTurn]

theorem turn_phase {P : Nat → Prop} (h : P 0) : ∀ ph < ocpTurn.nPhases, P ph := one_phase h

theorem turn_states {P : Nat → Prop} (h0 : P 0) (h1 : P 1) : ∀ j < ocpTurn.nx, P j := two_phases h0 h1

theorem turn_control {P : Nat → Prop} (h : P 0) : ∀ j < ocpTurn.nu, P j := one_phase h

/-! ### In continuous time -/

/-- A quarter turn at constant rate. -/
noncomputable def quarter : CTraj :=
  { x := fun _ j t => if j = 0 then Real.cos (Real.pi / 2 * t) else Real.sin (Real.pi / 2 * t)
    u := fun _ _ _ => Real.pi / 2, t0 := fun _ => 0, tf := fun _ => 1, a := fun _ _ => 0 }

theorem quarter_solves : SolvesContinuously ocpTurn quarter := by
  have d0 : ∀ t : ℝ, HasDerivAt (fun t => Real.cos (Real.pi / 2 * t)) (-(Real.pi / 2 * Real.sin (Real.pi / 2 * t))) t := fun t => by
    have := ((hasDerivAt_id t).const_mul (Real.pi / 2)).cos
    simp only [id, mul_one] at this
    convert this using 1
    ring
  have d1 : ∀ t : ℝ, HasDerivAt (fun t => Real.sin (Real.pi / 2 * t)) (Real.pi / 2 * Real.cos (Real.pi / 2 * t)) t := fun t => by
    have := ((hasDerivAt_id t).const_mul (Real.pi / 2)).sin
    simp only [id, mul_one] at this
    convert this using 1
    ring
  have hb := Real.pi_le_four
  have hb' := Real.pi_pos
  refine ⟨turn_phase ⟨by simp [quarter], ⟨fun F hF => ?_, fun F hF => ?_, ?_⟩, ?_, ?_, ?_, ?_, ?_, ?_, ?_, ?_⟩, ?_, ?_, ?_⟩
  · cases hF
    refine turn_states (fun t _ _ => ?_) (fun t _ _ => ?_)
    · have := (d0 t).hasDerivWithinAt (s := Set.Iic t)
      simpa [OCP.cArg, ocpTurn, quarter] using this
    · have := (d1 t).hasDerivWithinAt (s := Set.Iic t)
      simpa [OCP.cArg, ocpTurn, quarter] using this
  · cases hF
    refine turn_states ?_ ?_
    · have := (d0 0).hasDerivWithinAt (s := Set.Ici 0)
      simpa [OCP.cArg, ocpTurn, quarter] using this
    · have := (d1 0).hasDerivWithinAt (s := Set.Ici 0)
      simpa [OCP.cArg, ocpTurn, quarter] using this
  · refine turn_states ?_ ?_
    · exact fun t _ => (d0 t).continuousAt.continuousWithinAt
    · exact fun t _ => (d1 t).continuousAt.continuousWithinAt
  · intro F hF; simp [ocpTurn] at hF
  · intro F hF
    cases hF
    exact two_phases (by simp [OCP.cEnd, ocpTurn, quarter]) (by simp [OCP.cEnd, ocpTurn, quarter])
  · exact fun _ => turn_states (by simp [quarter, ocpTurn, entry]) (by simp [quarter, ocpTurn, entry])
  · exact fun t _ _ => turn_states (by simp [ocpTurn, entry, Within, Ext.Below, Ext.Above])
      (by simp [ocpTurn, entry, Within, Ext.Below, Ext.Above])
  · refine fun t _ => turn_control ?_
    simp [ocpTurn, entry, Within, Ext.Below, Ext.Above, quarter]
    constructor <;> linarith
  · simp [ocpTurn, entry, Within, Ext.Below, Ext.Above, quarter]
  · simp [ocpTurn, entry, Within, Ext.Below, Ext.Above, quarter]
  · intro k hk; simp [ocpTurn] at hk
  · intro k p q hk; simp [ocpTurn] at hk
  · intro k p q hk; simp [ocpTurn] at hk
  · intro k p q hk; simp [ocpTurn] at hk

/-! ### LGR nodes -/

/-- The square of the distance from the origin. -/
def square : Nat → Nat → ℝ := fun j k => if j = k then 1 else 0

theorem square_form (x : Nat → ℝ) : quadForm square 2 x = x 0 ^ 2 + x 1 ^ 2 := by
  simp [quadForm, square, Finset.sum_range_succ]; ring

theorem square_pos : QuadPos square 2 := by
  refine ⟨fun x => by rw [square_form]; positivity, fun x h => ?_⟩
  rw [square_form] at h
  have h0 : x 0 = 0 := by nlinarith [sq_nonneg (x 0), sq_nonneg (x 1)]
  have h1 : x 1 = 0 := by nlinarith [sq_nonneg (x 0), sq_nonneg (x 1)]
  intro j hj
  interval_cases j <;> assumption

theorem turn_conserves : ocpTurn.Conserves square 0 := by
  intro F hF z
  cases hF
  simp [quadPower, square, ocpTurn, Finset.sum_range_succ]
  ring

theorem turn_dissipates : ocpTurn.Dissipates square 0 := fun F hF z => (turn_conserves F hF z).le

section
variable {V : Type} {w : Outside ℝ V} {n : Nat} {arg : OrdersArg} {M : Mesh ℝ}

/-- **C114** The quarter turn has no trajectory on LGR meshes of orders 1 and 2, however many segments they have. -/
theorem C114_turn (hM : MeshFor w "LGR" n arg M) (hlt : w.tau0 < w.tau1)
    (hj : ∀ p ∈ M.orders, 2 ≤ p → IsJacobiRoots 1 0 (p - 1) (w.lib.jroots (p - 1) 1 0)) (h2 : ∀ p ∈ M.orders, p ≤ 2) :
    NoTrajectory ocpTurn M := by
  refine C114_stuck (ph := 0) hM hlt hj turn_ready.1 (by simp [ocpTurn]) square_pos turn_conserves h2 fun E hE => ?_
  have hb := hE.bounds 0 (by simp [ocpTurn])
  have x0 : E.x 0 0 0 = 1 := hb.x0 rfl 0 (by simp [ocpTurn])
  have x1 : E.x 0 0 1 = 0 := hb.x0 rfl 1 (by simp [ocpTurn])
  have f0 := hE.terminal 0 (by simp [ocpTurn]) _ rfl 0 (by norm_num)
  have f1 := hE.terminal 0 (by simp [ocpTurn]) _ rfl 1 (by norm_num)
  simp [OCP.tArg, ocpTurn, endMesh_N] at f0 f1
  refine ⟨?_, 0, by simp [ocpTurn], by rw [x0, f0]; norm_num⟩
  show quadForm square 2 _ ≤ quadForm square 2 _
  rw [square_form, square_form, x0, x1, f0]
  nlinarith

/-- **C114** So `solve` never returns, with a solver that only returns feasible points. -/
theorem C114_turn_solve (hM : MeshFor w "LGR" n arg M) (hlt : w.tau0 < w.tau1)
    (hj : ∀ p ∈ M.orders, 2 ≤ p → IsJacobiRoots 1 0 (p - 1) (w.lib.jroots (p - 1) 1 0)) (h2 : ∀ p ∈ M.orders, p ≤ 2)
    {a : SolveArgs ℝ V} (hwid : GoodWidths ocpTurn n a.widths) {nlpsol : SolverCall ℝ V → Py (List ℝ)}
    (hsound : ∀ c z, nlpsol c = .ok z → c.IsSolution z) {ptp : List (List Nat)} {rx rdx : Bool}
    (out : Session ℝ V × Post ℝ × Option (PyDict (ResidVal ℝ))) :
    mpSolve w nlpsol ocpTurn ptp n arg "LGR" a rx rdx ≠ .ok out :=
  C108_solve (C114_turn hM hlt hj h2) turn_ready.1 turn_ready.2.1 turn_ready.2.2 hM hwid hsound out

end

section
variable {V : Type} {n : Nat} {arg : OrdersArg} {M : Mesh ℝ}

/-- **C114** Nor does `mpopt_adaptive` return, whatever it did before, if its width limits are not negative. -/
theorem C114_turn_adaptive {w : Outside ℝ V} (hM : MeshFor w "LGR" n arg M) (hlt : w.tau0 < w.tau1)
    (hj : ∀ p ∈ M.orders, 2 ≤ p → IsJacobiRoots 1 0 (p - 1) (w.lib.jroots (p - 1) 1 0)) (h2 : ∀ p ∈ M.orders, p ≤ 2)
    {nlpsol : SolverCall ℝ V → Py (List ℝ)} {s : AdaptOpt ℝ V} {lbh ubh tol : List ℝ} {mid : Bool}
    (hf : s.Ready w ocpTurn n arg "LGR" lbh ubh tol mid) (hlb : lbh.length = 1) (hub : ubh.length = 1) (htol : tol.length = 1)
    (hlbn : ∀ l ∈ lbh, 0 ≤ l) (hsound : ∀ c z, nlpsol c = .ok z → c.IsSolution z) (earlier : List (SolveArgs ℝ V))
    (a : SolveArgs ℝ V) (z : List ℝ) : ((s.run w nlpsol earlier).solve w nlpsol a).2 ≠ .ok z :=
  C108_adaptive (C114_turn hM hlt hj h2) hf turn_ready.1 turn_ready.2.1 turn_ready.2.2 hlb hub htol hlbn hM hsound earlier a z

/-- **C114** Nor does `mpopt_h_adaptive` end with widths that fill the phase. -/
theorem C114_turn_h {wh : HOutside ℝ V} (hM : MeshFor wh.toOutside "LGR" n arg M) (hlt : wh.tau0 < wh.tau1)
    (hj : ∀ p ∈ M.orders, 2 ≤ p → IsJacobiRoots 1 0 (p - 1) (wh.lib.jroots (p - 1) 1 0)) (h2 : ∀ p ∈ M.orders, p ≤ 2)
    {nlpsolH : Nat → Nat → SolverCall ℝ V → Py (PyDict V)} {lbh ubh tol : List ℝ} {sh : HOpt ℝ V}
    (hf : sh.Ready wh ocpTurn n arg "LGR" lbh ubh tol)
    (hsound : ∀ n k c sol, nlpsolH n k c = .ok sol → ∃ z, Returned wh sol z ∧ c.IsSolution z)
    {calls : List (HStart V × HArgs V)} (ho : OwnStarts calls) {s' : HOpt ℝ V} (hwid : GoodWidths ocpTurn n s'.widths)
    (sol : PyDict V) : sh.run wh nlpsolH calls 0 none ≠ (s', some sol) :=
  C108_h (C114_turn hM hlt hj h2) hf turn_ready.1 turn_ready.2.1 turn_ready.2.2 hM hsound ho hwid sol

end

/-- The hypotheses are met for every number of segments: the problem has a solution in continuous time, and `solve` with that
many segments of order 2 never returns one. -/
theorem exampleTurn : SolvesContinuously ocpTurn quarter ∧ ∀ n, 0 < n → ∀ (nlpsol : SolverCall ℝ Nat → Py (List ℝ)),
    (∀ c z, nlpsol c = .ok z → c.IsSolution z) → ∀ out,
      mpSolve outsideR nlpsol ocpTurn [[0]] n (.int 2) "LGR" argsR false true ≠ .ok out := by
  refine ⟨quarter_solves, fun n hn nlpsol hsound out => ?_⟩
  obtain ⟨M, hM, ho⟩ := exists_lgr_int hn (le_refl 2)
  exact C114_turn_solve (a := argsR) hM (by norm_num [outsideR]) (fun p _ _ => libR_jacobi 1 0 (p - 1))
    (fun p hp => by rw [ho] at hp; rw [(List.mem_replicate.1 hp).2]) (fun _ h => nomatch h) hsound out

/-! ### One segment of order 2 -/

/-- One segment with the nodes -1, `r`, 1. -/
noncomputable def meshThree (r : ℝ) : Mesh ℝ := ⟨[2], fun _ => [-1, r, 1], -1, 1⟩

theorem meshThree_good {r : ℝ} (h0 : -1 < r) (h1 : r < 1) : (meshThree r).Good := by
  refine ⟨by simp [meshThree], by simp [meshThree], by simp [meshThree], ?_, by simp [meshThree], by simp [meshThree]⟩
  intro p _
  simp only [meshThree, List.nodup_cons, List.mem_cons, List.not_mem_nil, or_false, not_or, not_false_eq_true,
    List.nodup_nil, and_true]
  exact ⟨⟨h0.ne, by norm_num⟩, h1.ne⟩

theorem jacobi_lobatto : IsJacobiRoots 1 1 1 [(0 : ℝ)] := by
  refine ⟨rfl, by simp, by norm_num, fun q hq => ?_⟩
  obtain ⟨c, rfl⟩ : ∃ c, q = C c := ⟨_, eq_C_of_degree_le_zero (Nat.WithBot.lt_one_iff_le_zero.1 hq)⟩
  have e : (1 - X) ^ 1 * (1 + X) ^ 1 * (([(0 : ℝ)].map fun x => X - C x).prod) * C c =
      derivative (C c * (C (1 / 2) * X ^ 2 - C (1 / 4) * X ^ 4)) := by
    rw [derivative_C_mul, derivative_sub, derivative_C_mul_X_pow, derivative_C_mul_X_pow]
    norm_num
    ring
  rw [e, polyIntegral_derivative]
  simp
  ring

theorem jacobi_radau : IsJacobiRoots 1 0 1 [(-(1 / 3) : ℝ)] := by
  refine ⟨rfl, by simp, by norm_num, fun q hq => ?_⟩
  obtain ⟨c, rfl⟩ : ∃ c, q = C c := ⟨_, eq_C_of_degree_le_zero (Nat.WithBot.lt_one_iff_le_zero.1 hq)⟩
  have e : (1 - X) ^ 1 * (1 + X) ^ 0 * (([(-(1 / 3) : ℝ)].map fun x => X - C x).prod) * C c =
      derivative (C c * (C (1 / 3) * X ^ 2 ^ 0 + C (1 / 3) * X ^ 2 - C (1 / 3) * X ^ 3)) := by
    have h3 : (C (1 / 3) : ℝ[X]) * 3 = 1 := by
      rw [show (3 : ℝ[X]) = C 3 from rfl, ← C_mul]; norm_num
    rw [derivative_C_mul, derivative_sub, derivative_add, derivative_C_mul_X_pow, derivative_C_mul_X_pow, derivative_C_mul_X_pow]
    simp only [map_neg, map_mul, List.map_cons, List.map_nil, List.prod_cons, List.prod_nil, Nat.cast_ofNat, map_ofNat,
      pow_zero, Nat.cast_one, map_one]
    linear_combination (C c * (X ^ 2 - X)) * h3
  rw [e, polyIntegral_derivative]
  simp
  ring

theorem meshFor_lobatto : MeshFor outsideR "LGL" 1 (.int 2) (meshThree 0) := by
  refine ⟨meshThree_good (by norm_num) (by norm_num), by simp [OrdersArg.Means, meshThree], rfl, rfl, fun p hp => ?_⟩
  obtain rfl : p = 2 := by simpa [meshThree] using hp
  have hj : libR.jroots 1 1 1 = [0] := (libR_jacobi 1 1 1).unique jacobi_lobatto
  simp [tausFn, lglRoots, outsideR, hj, rescale, meshThree]

theorem meshFor_radau : MeshFor outsideR "LGR" 1 (.int 2) (meshThree (-(1 / 3))) := by
  refine ⟨meshThree_good (by norm_num) (by norm_num), by simp [OrdersArg.Means, meshThree], rfl, rfl, fun p hp => ?_⟩
  obtain rfl : p = 2 := by simpa [meshThree] using hp
  have hj : libR.jroots 1 1 0 = [-(1 / 3)] := (libR_jacobi 1 0 1).unique jacobi_radau
  simp [tausFn, lgrRoots, outsideR, hj, rescale, meshThree]

theorem meshThree_node (r : ℝ) (i : Nat) : (meshThree r).node 0 i = ([-1, r, 1] : List ℝ).getD i 0 := rfl

theorem meshThree_order (r : ℝ) : (meshThree r).order 0 = 2 := rfl

theorem meshThree_idx (r : ℝ) (i : Nat) : (meshThree r).idx 0 i = i := by simp [Mesh.idx, segStart]

/-- Values of a quadratic polynomial at the nodes belong to that polynomial. -/
theorem meshThree_piece {r : ℝ} (h0 : -1 < r) (h1 : r < 1) {v : Nat → ℝ} (a b c : ℝ)
    (hv0 : v 0 = a - b + c) (hv1 : v 1 = a * r ^ 2 + b * r + c) (hv2 : v 2 = a + b + c) :
    (meshThree r).piece v 0 = C a * X ^ 2 + C b * X + C c := by
  refine (meshThree_good h0 h1).piece_eq (by simp [meshThree]) v _ (lt_of_le_of_lt (degree_quadratic_le) (by
    rw [meshThree_order]; norm_num)) fun i hi => ?_
  rw [meshThree_order] at hi
  rw [meshThree_idx, meshThree_node]
  interval_cases i
  · simp [hv0]; ring
  · simp [hv1]
  · simp [hv2]

/-- Collocation at the nodes of `meshThree`, written out for quadratic polynomials. -/
theorem meshThree_collocation {r : ℝ} (h0 : -1 < r) (h1 : r < 1) {T : Traj ℝ} (a b c : Nat → ℝ) (h : ℝ)
    (hh : (meshThree r).halfWidth T 0 0 = h)
    (hx : ∀ j < 2, ∀ i < 3, T.x 0 i j = a j * ([-1, r, 1] : List ℝ).getD i 0 ^ 2 + b j * ([-1, r, 1] : List ℝ).getD i 0 + c j)
    (hf : ∀ i < 3, 2 * a 0 * ([-1, r, 1] : List ℝ).getD i 0 + b 0 = h * -(T.u 0 i 0 * T.x 0 i 1) ∧
      2 * a 1 * ([-1, r, 1] : List ℝ).getD i 0 + b 1 = h * (T.u 0 i 0 * T.x 0 i 0)) :
    CollocationOK ocpTurn (meshThree r) T 0 := by
  rintro F hF j hj s i ⟨hs, hi, -⟩
  cases hF
  obtain rfl : s = 0 := by simpa [meshThree] using hs
  rw [meshThree_order] at hi
  have hj : j < 2 := hj
  have e := meshThree_piece h0 h1 (v := fun k => T.x 0 k j) (a j) (b j) (c j)
    (by rw [hx j hj 0 (by norm_num)]; simp; ring) (by rw [hx j hj 1 (by norm_num)]; simp) (by rw [hx j hj 2 (by norm_num)]; simp)
  rw [e, hh, meshThree_node, meshThree_idx]
  obtain ⟨f0, f1⟩ := hf i (by omega)
  interval_cases j
  · refine Eq.trans ?_ f0
    simp [-List.getD_eq_getElem?_getD]
    ring
  · refine Eq.trans ?_ f1
    simp [-List.getD_eq_getElem?_getD]
    ring

/-- The quarter turn at the three LGL nodes: the point leaves the circle on the way. -/
noncomputable def turnLobatto : Traj ℝ :=
  { x := fun _ k j => if j = 0 then ([1, 3 / 4, 0] : List ℝ).getD k 0 else ([0, 3 / 4, 1] : List ℝ).getD k 0
    u := fun _ k _ => ([2, 4 / 3, 2] : List ℝ).getD k 0
    t0 := fun _ => 0, tf := fun _ => 1, a := fun _ _ => 0, w := fun _ _ => 1 }

/-- **C114** One segment of LGL nodes of order 2 does make the quarter turn. -/
theorem C114_turn_lobatto : SolvesOCP ocpTurn (meshThree 0) turnLobatto := by
  have hu := meshThree_piece (r := 0) (by norm_num) (by norm_num) (v := fun k => turnLobatto.u 0 k 0) (2 / 3) 0 (4 / 3)
    (by norm_num [turnLobatto]) (by norm_num [turnLobatto]) (by norm_num [turnLobatto])
  refine ⟨⟨turn_phase ?_, turn_phase ?_, turn_phase ?_, turn_phase ?_, turn_phase ?_, turn_phase ?_, ?_⟩, turn_phase ?_⟩
  · refine ⟨fun _ => ?_, fun i _ _ => ?_, fun i hi => turn_control ?_, ?_, ?_, ?_⟩
    · exact turn_states (by simp [turnLobatto, ocpTurn, entry]) (by simp [turnLobatto, ocpTurn, entry])
    · exact turn_states (by simp [ocpTurn, entry, Within, Ext.Below, Ext.Above])
        (by simp [ocpTurn, entry, Within, Ext.Below, Ext.Above])
    · have hi : i < 3 := by simpa [Mesh.N, meshThree] using hi
      interval_cases i <;> norm_num [turnLobatto, ocpTurn, entry, Within, Ext.Below, Ext.Above]
    · simp [turnLobatto, ocpTurn, entry, Within, Ext.Below, Ext.Above]
    · simp [turnLobatto, ocpTurn, entry, Within, Ext.Below, Ext.Above]
    · intro k hk; simp [ocpTurn] at hk
  · refine meshThree_collocation (by norm_num) (by norm_num) (fun _ => -(1 / 4)) (fun j => if j = 0 then -(1 / 2) else 1 / 2)
      (fun _ => 3 / 4) (1 / 2) (by norm_num [Mesh.halfWidth, meshThree, turnLobatto]) ?_ ?_
    · intro j hj i hi
      interval_cases j <;> interval_cases i <;> norm_num [turnLobatto]
    · intro i hi
      interval_cases i <;> norm_num [turnLobatto]
  · intro F hF; simp [ocpTurn] at hF
  · intro F hF
    cases hF
    exact two_phases (by simp [OCP.tArg, ocpTurn, turnLobatto, Mesh.N, meshThree])
      (by simp [OCP.tArg, ocpTurn, turnLobatto, Mesh.N, meshThree])
  · refine fun _ => turn_control fun s hs i hi => ?_
    obtain rfl : s = 0 := by simpa [meshThree] using hs
    have hi : i < 2 := hi
    rw [hu, meshThree_node, meshThree_node]
    interval_cases i <;> norm_num [ocpTurn, entry, Within, Ext.Below, Ext.Above]
  · intro h; simp [ocpTurn] at h
  · intro h; simp [ocpTurn] at h
  · intro h; simp [ocpTurn] at h

/-- With that scheme `solve` builds a call that has a solution, and returns as soon as the solver does. -/
theorem exampleTurnLobatto : ∃ c : SolverCall ℝ Nat, (∃ z, c.IsSolution z) ∧
    ∀ (nlpsol : SolverCall ℝ Nat → Py (List ℝ)) (z : List ℝ), nlpsol c = .ok z → z.length = c.solver.problem.x.length →
      ∃ out, mpSolve outsideR nlpsol ocpTurn [[0]] 1 (.int 2) "LGL" argsR false true = .ok out := by
  obtain ⟨hv, hs, hsc⟩ := turn_ready
  obtain ⟨c, -, -, h1, -, h2⟩ := C52_solve_returns (ptp := [[0]]) (rx := false) (rdx := true) (a := argsR) hv hs hsc
    meshFor_lobatto rfl (by norm_num [outsideR]) rfl (fun _ h => nomatch h) (turn_phase (by simp [ocpTurn, entry])) (by simp)
  exact ⟨c, ⟨_, (h1 _).2 ⟨turnLobatto, C114_turn_lobatto, fun _ _ _ _ => by simp [turnLobatto], rfl⟩⟩, h2⟩

/-- A turn at the three LGR nodes. -/
noncomputable def turnRadau : Traj ℝ :=
  { x := fun _ k j => if j = 0 then ([-(121 / 162), -(241 / 162), -(49 / 162)] : List ℝ).getD k 0
      else ([-(968 / 729), -(482 / 729), 490 / 729] : List ℝ).getD k 0
    u := fun _ k _ => ([-(162 / 121), -(162 / 241), -(162 / 49)] : List ℝ).getD k 0
    t0 := fun _ => 0, tf := fun _ => 2, a := fun _ _ => 0, w := fun _ _ => 1 }

/-- The hypotheses of `C114_balance` and `C114_shrink` are met by a trajectory that moves: collocated at the LGR nodes, its
distance from the origin falls although the dynamics keep it. -/
theorem exampleLoss : CollocationOK ocpTurn (meshThree (-(1 / 3))) turnRadau 0 ∧ ocpTurn.Dissipates square 0 ∧
    0 ≤ (meshThree (-(1 / 3))).halfWidth turnRadau 0 0 ∧
    quadForm square 2 (turnRadau.x 0 2) = quadForm square 2 (turnRadau.x 0 0) - 16 / 9 := by
  refine ⟨?_, turn_dissipates, by norm_num [Mesh.halfWidth, meshThree, turnRadau], ?_⟩
  · refine meshThree_collocation (by norm_num) (by norm_num) (fun j => if j = 0 then 1 else 0) (fun j => if j = 0 then 2 / 9 else 1)
      (fun j => if j = 0 then -(247 / 162) else -(239 / 729)) 1 (by norm_num [Mesh.halfWidth, meshThree, turnRadau]) ?_ ?_
    · intro j hj i hi
      interval_cases j <;> interval_cases i <;> norm_num [turnRadau]
    · intro i hi
      interval_cases i <;> norm_num [turnRadau]
  · rw [square_form, square_form]
    norm_num [turnRadau]

/-! ### A run whose trajectory moves -/

/-- The turning point without a place to go. -/
noncomputable def ocpSpin : OCP ℝ := { ocpTurn with terminalConstraints := [none] }

theorem spin_ready : ValidOCP ocpSpin ∧ ocpSpin.SettingsOK ∧ ocpSpin.PosScales := by
  obtain ⟨hv, hs, hsc⟩ := turn_ready
  refine ⟨?_, ?_, ?_⟩
  · cases hv
    constructor
    all_goals first | assumption | simp [ocpSpin, ocpTurn]
  · cases hs
    constructor <;> assumption
  · cases hsc
    constructor <;> assumption

theorem spin_times : ocpSpin.TimesOrdered :=
  one_phase ⟨0, 1, by norm_num, rfl, Or.inl rfl⟩

/-- `turnRadau`, turned and scaled so that it starts at (1, 0), and run in one unit of time. -/
noncomputable def spinRadau : Traj ℝ :=
  { x := fun _ k j => if j = 0 then ([1, 34945 / 40777, -(11711 / 40777)] : List ℝ).getD k 0
      else ([0, -(26028 / 40777), -(15876 / 40777)] : List ℝ).getD k 0
    u := fun _ k _ => ([-(324 / 121), -(324 / 241), -(324 / 49)] : List ℝ).getD k 0
    t0 := fun _ => 0, tf := fun _ => 1, a := fun _ _ => 0, w := fun _ _ => 1 }

theorem spinRadau_solves : SolvesOCP ocpSpin (meshThree (-(1 / 3))) spinRadau := by
  have hu := meshThree_piece (r := -(1 / 3)) (by norm_num) (by norm_num) (v := fun k => spinRadau.u 0 k 0)
    (-(4251528 / 1428889)) (-(11664 / 5929)) (-(2385612 / 1428889))
    (by norm_num [spinRadau]) (by norm_num [spinRadau]) (by norm_num [spinRadau])
  refine ⟨⟨turn_phase ?_, turn_phase ?_, turn_phase ?_, turn_phase ?_, turn_phase ?_, turn_phase ?_, ?_⟩, turn_phase ?_⟩
  · refine ⟨fun _ => ?_, fun i _ _ => ?_, fun i hi => turn_control ?_, ?_, ?_, ?_⟩
    · exact turn_states (by simp [spinRadau, ocpSpin, ocpTurn, entry]) (by simp [spinRadau, ocpSpin, ocpTurn, entry])
    · exact turn_states (by simp [ocpSpin, ocpTurn, entry, Within, Ext.Below, Ext.Above])
        (by simp [ocpSpin, ocpTurn, entry, Within, Ext.Below, Ext.Above])
    · have hi : i < 3 := by simpa [Mesh.N, meshThree] using hi
      interval_cases i <;> norm_num [spinRadau, ocpSpin, ocpTurn, entry, Within, Ext.Below, Ext.Above]
    · simp [spinRadau, ocpSpin, ocpTurn, entry, Within, Ext.Below, Ext.Above]
    · simp [spinRadau, ocpSpin, ocpTurn, entry, Within, Ext.Below, Ext.Above]
    · intro k hk; simp [ocpSpin, ocpTurn] at hk
  · refine meshThree_collocation (by norm_num) (by norm_num) (fun j => if j = 0 then -(13122 / 40777) else 23328 / 40777)
      (fun j => if j = 0 then -(26244 / 40777) else -(7938 / 40777))
      (fun j => if j = 0 then 27655 / 40777 else -(31266 / 40777)) (1 / 2)
      (by norm_num [Mesh.halfWidth, meshThree, spinRadau]) ?_ ?_
    · intro j hj i hi
      interval_cases j <;> interval_cases i <;> norm_num [spinRadau]
    · intro i hi
      interval_cases i <;> norm_num [spinRadau]
  · intro F hF; simp [ocpSpin, ocpTurn] at hF
  · intro F hF; simp [ocpSpin] at hF
  · refine fun _ => turn_control fun s hs i hi => ?_
    obtain rfl : s = 0 := by simpa [meshThree] using hs
    have hi : i < 2 := hi
    rw [hu, meshThree_node, meshThree_node]
    interval_cases i <;> norm_num [ocpSpin, ocpTurn, entry, Within, Ext.Below, Ext.Above]
  · intro h; simp [ocpSpin, ocpTurn] at h
  · intro h; simp [ocpSpin, ocpTurn] at h
  · intro h; simp [ocpSpin, ocpTurn] at h

/-- The hypotheses of `C114_solve` are met: with a solver that returns this trajectory where it is feasible, `solve` returns it,
and the distance from the origin has fallen to less than half. -/
theorem exampleFall : ∃ (nlpsol : SolverCall ℝ Nat → Py (List ℝ)) (out : _), (∀ c z, nlpsol c = .ok z → c.IsSolution z) ∧
    mpSolve outsideR nlpsol ocpSpin [[0]] 1 (.int 2) "LGR" argsR false true = .ok out ∧
    (∃ T, SolvesOCP ocpSpin (meshThree (-(1 / 3))) T ∧ WidthsAre ocpSpin 1 none T ∧ out.2.1.Shows ocpSpin (meshThree (-(1 / 3))) T ∧
      Falls square ocpSpin (meshThree (-(1 / 3))) T 0) ∧
    quadForm square 2 (spinRadau.x 0 2) < 1 / 4 ∧ quadForm square 2 (spinRadau.x 0 0) = 1 := by
  classical
  obtain ⟨hv, hs, hsc⟩ := spin_ready
  obtain ⟨c, -, -, h1, -, h2⟩ := C52_solve_returns (ptp := [[0]]) (rx := false) (rdx := true) (a := argsR) hv hs hsc
    meshFor_radau rfl (by norm_num [outsideR]) rfl (fun _ h => nomatch h) (turn_phase (by simp [ocpSpin, ocpTurn, entry])) (by simp)
  have hz : c.IsSolution (ocpSpin.packVec (meshThree (-(1 / 3))).N spinRadau) :=
    (h1 _).2 ⟨spinRadau, spinRadau_solves, fun _ _ _ _ => by simp [spinRadau], rfl⟩
  obtain ⟨nlpsol, hc, hsound⟩ : ∃ nlpsol : SolverCall ℝ Nat → Py (List ℝ),
      nlpsol c = .ok (ocpSpin.packVec (meshThree (-(1 / 3))).N spinRadau) ∧ ∀ c z, nlpsol c = .ok z → c.IsSolution z := by
    refine ⟨fun c => if c.IsSolution (ocpSpin.packVec (meshThree (-(1 / 3))).N spinRadau) then
      .ok (ocpSpin.packVec (meshThree (-(1 / 3))).N spinRadau) else .error .assertion, if_pos hz, fun c' z h => ?_⟩
    dsimp only at h
    split at h
    · rename_i hc; cases h; exact hc
    · cases h
  obtain ⟨out, hout⟩ := h2 nlpsol _ hc hz.x
  refine ⟨nlpsol, out, hsound, hout, ?_, ?_, ?_⟩
  · exact C114_solve (ocp := ocpSpin) (a := argsR) square_pos.1 (by simp [ocpSpin, ocpTurn]) turn_dissipates (s := out.1) (po := out.2.1) (r := out.2.2) hout
      hv hs hsc spin_times meshFor_radau (by norm_num [outsideR]) (fun p _ _ => libR_jacobi 1 0 (p - 1)) (fun _ h => nomatch h) hsound
  · rw [square_form]; norm_num [spinRadau]
  · rw [square_form]; norm_num [spinRadau]

end MPOpt
