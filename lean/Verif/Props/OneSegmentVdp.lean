import Verif.Model.ExamplesVdpTest
import Verif.Props.OneSegment
import Verif.Props.Backward
import Verif.Props.ShippedValid
import Verif.Props.ShippedExample
import Verif.Props.Setup

/-! # C112: the Van der Pol fixtures of the test suite -/

set_option autoImplicit false
set_option linter.unusedSectionVars false

namespace MPOpt
open Polynomial

variable {M : Mesh ℝ} {T : Traj ℝ}

/-- The object built by the fixture, written out. -/
noncomputable def ocpFix : OCP ℝ :=
  { nx := 2, nu := 1, na := 0, nPhases := 1
    dynamics := [⟨2, fun p j =>
      if j = 0 then (1 - p.x.getD 1 0 * p.x.getD 1 0) * p.x.getD 0 0 - p.x.getD 1 0 + p.u.getD 0 0 else p.x.getD 0 0⟩]
    pathConstraints := [none]
    terminalCosts := [fun _ => 0]
    runningCosts := [fun p =>
      p.x.getD 0 0 * p.x.getD 0 0 + p.x.getD 1 0 * p.x.getD 1 0 + p.u.getD 0 0 * p.u.getD 0 0]
    terminalConstraints := [none]
    phaseLinks := []
    scaleX := [1, 1], scaleU := [1], scaleA := [], scaleT := 1
    x00 := [[0, 1]], xf0 := [[0, 0]], u00 := [[0]], uf0 := [[0]], t00 := [[0]], tf0 := [[1]], a0 := [[]]
    lbx := [[.ninf, .fin (-1 / 4)]], ubx := [[.pinf, .pinf]], lbu := [[.fin (-1)]], ubu := [[.fin 1]], lba := [[]]
    uba := [[]], lbt0 := [[.fin 0]], ubt0 := [[.fin 0]], lbtf := [[.fin 10]], ubtf := [[.fin 10]]
    lbe := [], ube := [], diffU := [false], lbdu := [.fin (-15)], ubdu := [.fin 15], midu := [true]
    duContinuity := [false] }

theorem fixtureVdp_eq : fixtureVdp = .ok ocpFix := rfl

theorem fix_phase {P : Nat → Prop} (h : P 0) : ∀ ph < ocpFix.nPhases, P ph := by
  intro ph hp
  obtain rfl : ph = 0 := by simpa [ocpFix] using hp
  exact h

theorem fix_two {P : Nat → Prop} (h0 : P 0) (h1 : P 1) : ∀ j < ocpFix.nx, P j := by
  intro j hj
  have hj : j < 2 := hj
  interval_cases j
  · exact h0
  · exact h1

theorem fix_one {P : Nat → Prop} (h0 : P 0) : ∀ j < ocpFix.nu, P j := by
  intro j hj
  obtain rfl : j = 0 := Nat.lt_one_iff.1 hj
  exact h0

theorem ocpFix_ready : ValidOCP ocpFix ∧ ocpFix.SettingsOK ∧ ocpFix.PosScales := by
  refine ⟨?_, ⟨Nat.two_pos, rfl, rfl, rfl, rfl, rfl, Or.inl Nat.one_pos, fun h => absurd h (by simp [ocpFix]),
    fun h => absurd h (by simp [ocpFix]), by simp [ocpFix]⟩, ⟨?_, ?_, ?_, by norm_num [ocpFix]⟩⟩
  · constructor
    case ordX => exact rowOrdered_cons (.cons rfl (.cons rfl .nil)) rowOrdered_nil
    case ordU => exact rowOrdered_single (by simp [Ext.le])
    case ordA => exact rowOrdered_cons .nil rowOrdered_nil
    case ordT0 => exact rowOrdered_single (by simp [Ext.le])
    case ordTf => exact rowOrdered_single (by simp [Ext.le])
    case ordE => intro ph l u hl; simp [ocpFix] at hl
    all_goals simp [ocpFix, HasShape]
  all_goals simp [ocpFix]

theorem fix_times : ocpFix.TimesOrdered := fix_phase ⟨0, 10, by norm_num, rfl, Or.inl rfl⟩

/-- The initial state, held by the largest control. -/
noncomputable def restFix : Rest :=
  ⟨fun _ j => if j = 0 then 0 else 1, fun _ _ => 1, fun _ _ => 0, fun _ => 0, fun _ => 10⟩

theorem restFix_holds : restFix.Holds ocpFix := by
  refine ⟨fix_phase (by norm_num [restFix]), fix_phase fun F hF t _ _ => ?_, fix_phase fun F hF => by simp [ocpFix] at hF,
    fix_phase fun F hF => by simp [ocpFix] at hF, fix_two ?_ ?_, fix_phase (fix_two ?_ ?_), fix_phase (fix_one ?_), fix_phase ?_,
    fix_phase ?_, fix_phase fun k hk => absurd hk (by simp [ocpFix]), fix_phase fun h => by simp [ocpFix] at h,
    fun k p q h => by simp [ocpFix] at h, fun k p q h => by simp [ocpFix] at h, fun k p q h => by simp [ocpFix] at h⟩
  · cases hF
    exact fix_two (by norm_num [OCP.restArg, restFix, ocpFix, List.range_succ]) (by norm_num [OCP.restArg, restFix, ocpFix, List.range_succ])
  all_goals norm_num [restFix, ocpFix, entry, Within, Ext.Below, Ext.Above]

theorem restFix_costs : restFix.Costs ocpFix fun _ => 2 := by
  refine fix_phase fun L hL t _ _ => ?_
  cases hL
  norm_num [OCP.restArg, restFix, ocpFix, List.range_succ]

theorem restFix_cost : ocpFix.restCost restFix (fun _ => 2) = 20 := by
  norm_num [OCP.restCost, restFix, ocpFix]

/-! ### A lower bound -/

/-- `V = α x₁ + β` with `α = 60/103 (1 - t/10)` and `4 β' = α² + α'²`. -/
noncomputable def certFix : Certificate :=
  ⟨fun _ j => if j = 1 then C (60 / 103) - C (6 / 103) * X else 0,
   fun _ => C (900 / 10609) * (C (101 / 100) * X - C (1 / 10) * X ^ 2 + C (1 / 300) * X ^ 3)⟩

theorem certFix_proves : certFix.Proves ocpFix (30 / 103) := by
  refine ⟨fix_phase fun F L hF hL p hp => ?_, fun E hE => ?_⟩
  · cases hF; cases hL
    simp only [Certificate.rate, certFix, show ocpFix.nx = 2 from rfl, Finset.sum_range_succ, Finset.sum_range_zero]
    simp [-List.getD_eq_getElem?_getD]
    nlinarith [mul_self_nonneg (p.x.getD 0 0 + (30 / 103) * (1 - p.t / 10)), mul_self_nonneg (p.x.getD 1 0 - 3 / 103),
      mul_self_nonneg (p.u.getD 0 0)]
  · have b := hE.bounds 0 (by simp [ocpFix])
    have h0 : E.t0 0 = 0 := le_antisymm b.t0.2 b.t0.1
    have h1 : E.tf 0 = 10 := le_antisymm b.tf.2 b.tf.1
    have h2 : E.x 0 0 1 = 1 := by simpa [ocpFix, entry] using b.x0 rfl 1 (by simp [ocpFix])
    simp only [show ocpFix.nPhases = 1 from rfl, Certificate.value, certFix, show ocpFix.nx = 2 from rfl,
      Finset.sum_range_succ, Finset.sum_range_zero, h0, h1, h2]
    norm_num [ocpFix]

theorem certFix_fits {lib : NodeLib ℝ} {scheme : String} {p d : Nat} (h : OneSegment lib scheme p d) (hp : 2 ≤ p) :
    (∀ ph < ocpFix.nPhases, ∀ j < ocpFix.nx, (certFix.price ph j).natDegree + p ≤ d + 1) ∧
      ∀ ph < ocpFix.nPhases, (certFix.free ph).natDegree ≤ d + 1 := by
  have h1 : ∀ ph j, (certFix.price ph j).natDegree ≤ 1 := fun ph j => by
    show (if j = 1 then C (60 / 103) - C (6 / 103) * X else (0 : ℝ[X])).natDegree ≤ 1
    split
    · compute_degree
    · simp
  have h2 : ∀ ph, (certFix.free ph).natDegree ≤ 3 := fun ph => by
    show (C (900 / 10609) * (C (101 / 100) * X - C (1 / 10) * X ^ 2 + C (1 / 300) * X ^ 3) : ℝ[X]).natDegree ≤ 3
    compute_degree
  have h3 : p ≤ d ∧ 2 ≤ d := by cases h <;> omega
  exact ⟨fun ph _ j _ => by have := h1 ph j; omega, fun ph _ => by have := h2 ph; omega⟩

section
variable {V : Type} {o : Outside ℝ V} {nlpsol : SolverCall ℝ V → Py (List ℝ)} {ptp : List (List Nat)} {p d : Nat} {scheme : String}
  {arg : OrdersArg} {rx rdx : Bool} {po : Post ℝ} {r : Option (PyDict (ResidVal ℝ))}

/-- **C112** On the problem of the fixtures, one segment of any scheme and of any order from 2 with a globally optimal NLP solver
shows a cost between `30/103` and `20`. -/
theorem C112_fixture {a : SolveArgs ℝ V} {s : Session ℝ V}
    (hrun : mpSolve o nlpsol ocpFix ptp 1 arg scheme a rx rdx = .ok (s, po, r)) (hM : MeshFor o scheme 1 arg M)
    (h : OneSegment o.lib scheme p d) (hp2 : 2 ≤ p) (ho : M.orders = [p]) (hlt : o.tau0 < o.tau1)
    (hwid : GoodWidths ocpFix 1 a.widths) (hopt : ∀ c z, nlpsol c = .ok z → c.IsOptimal z) :
    ∃ T W J, compQuadWeights ⟨o.method, o.tau0, o.tau1, tausFn o.lib o.tau0 o.tau1 scheme⟩ M.orders = .ok W ∧
      SolvesOCP ocpFix M T ∧ po.Shows ocpFix M T ∧ PhysCost ocpFix M W T J ∧ 30 / 103 ≤ J ∧ J ≤ 20 := by
  obtain ⟨T, W, J, h1, h2, h3, h4, h5, h6⟩ := C112_rest ocpFix_ready restFix_holds restFix_costs hrun hM h ho hlt hwid hopt
  rw [restFix_cost] at h6
  exact ⟨T, W, J, h1, h2, h4, h5, C112_certificate certFix_proves ocpFix_ready.1 h hM ho hlt (certFix_fits h hp2).1
    (certFix_fits h hp2).2 h1 h2.1.core (h3.one hwid) (C107_forward fix_times h2.1.bounds h2.1.links) h5, h6⟩

/-! ### A perfect solver finds it -/

theorem ocpFix_cts : CtsOCP ocpFix := by
  refine ⟨fun F hF => ?_, fun F hF => by simp [ocpFix] at hF, fun F hF => by simp [ocpFix] at hF, fun L hL => ?_, fun L hL => ?_⟩
  · obtain rfl : F = _ := List.mem_singleton.1 hF
    exact fix_two ((((PCts.const 1).sub ((PCts.x 1).mul (PCts.x 1))).mul (PCts.x 0)).sub (PCts.x 1) |>.add (PCts.u 0)) (PCts.x 0)
  · obtain rfl : L = _ := List.mem_singleton.1 hL
    exact (((PCts.x 0).mul (PCts.x 0)).add ((PCts.x 1).mul (PCts.x 1))).add ((PCts.u 0).mul (PCts.u 0))
  · obtain rfl : L = _ := List.mem_singleton.1 hL
    exact TCts.const 0

/-- Trajectories of bounded cost are bounded. -/
theorem fix_bounded (hM : M.Good) (hI : M.Inside) (hone : M.orders.length = 1) {W : List ℝ} (hl : W.length = M.N)
    (hW0 : ∀ v ∈ W, 0 ≤ v) (hW1 : ∀ v ∈ W.tail, 0 < v) (J₀ : ℝ) : ∃ R, ∀ T J, BoundsOK ocpFix M T 0 → T.w 0 0 = 1 →
      PhysCost ocpFix M W T J → J ≤ J₀ → BoundedBy ocpFix M R T := by
  have hlt := hI.tau_lt hM
  have hx : ∀ k, ∃ B, ∀ T J, BoundsOK ocpFix M T 0 → T.w 0 0 = 1 →
      PhysCost ocpFix M W T J → J ≤ J₀ → k < M.N → ∀ j < 2, |T.x 0 k j| ≤ B := by
    intro k
    by_cases hk : k < M.N
    swap
    · exact ⟨0, fun _ _ _ _ _ _ h => absurd h hk⟩
    rcases Nat.eq_zero_or_pos k with rfl | hpos
    · refine ⟨1, fun T J hT _ _ _ _ => fix_two ?_ ?_⟩
      · rw [hT.x0 rfl 0 (by simp [ocpFix])]; simp [ocpFix, entry]
      · rw [hT.x0 rfl 1 (by simp [ocpFix])]; simp [ocpFix, entry]
    obtain ⟨s, i, ho, rfl⟩ := M.exists_owner hM.nonempty hk
    obtain rfl : s = 0 := by have := ho.1; omega
    set k := M.idx 0 i with hkdef
    have hW : 0 < W.getD k 0 := by
      have hk' : k - 1 < W.tail.length := by rw [List.length_tail]; omega
      have e : W.getD k 0 = W.tail[k - 1] := by
        rw [List.getD_eq_getElem _ _ (by omega), List.getElem_tail]
        congr 1; omega
      rw [e]
      exact hW1 _ (List.getElem_mem _)
    have hc : 0 < 10 / (M.tau1 - M.tau0) := div_pos (by norm_num) (sub_pos.2 hlt)
    refine ⟨J₀ / (W.getD k 0 * (10 / (M.tau1 - M.tau0))) + 1, fun T J hT hw hJ hJ0 _ => ?_⟩
    have ht0 : T.t0 0 = 0 := le_antisymm hT.t0.2 hT.t0.1
    have htf : T.tf 0 = 10 := le_antisymm hT.tf.2 hT.tf.1
    have hh : M.halfWidth T 0 0 = 10 / (M.tau1 - M.tau0) := by
      rw [Mesh.halfWidth, ht0, htf, sub_zero, hw, mul_one]
    obtain ⟨v, hv, rfl⟩ := hJ
    have hval : ∀ i, M.Owns 0 i → v 0 (M.idx 0 i) = 10 / (M.tau1 - M.tau0) *
        (T.x 0 (M.idx 0 i) 0 * T.x 0 (M.idx 0 i) 0 + T.x 0 (M.idx 0 i) 1 * T.x 0 (M.idx 0 i) 1 +
          T.u 0 (M.idx 0 i) 0 * T.u 0 (M.idx 0 i) 0) := fun i ho => by
      have := hv 0 (by simp [ocpFix]) _ rfl 0 i ho
      rw [hh] at this
      exact this
    have hq : ∀ i, 0 ≤ T.x 0 i 0 * T.x 0 i 0 + T.x 0 i 1 * T.x 0 i 1 + T.u 0 i 0 * T.u 0 i 0 := fun i =>
      add_nonneg (add_nonneg (mul_self_nonneg _) (mul_self_nonneg _)) (mul_self_nonneg _)
    have hnn : ∀ m < M.N, 0 ≤ W.getD m 0 * v 0 m := by
      intro m hm
      obtain ⟨s', i', ho', rfl⟩ := M.exists_owner hM.nonempty hm
      obtain rfl : s' = 0 := by have := ho'.1; omega
      refine mul_nonneg ?_ (by rw [hval i' ho']; exact mul_nonneg hc.le (hq _))
      rw [List.getD_eq_getElem _ _ (by omega)]
      exact hW0 _ (List.getElem_mem _)
    have hsum : W.getD k 0 * v 0 k ≤ J₀ := by
      refine le_trans ?_ hJ0
      simp only [show ocpFix.nPhases = 1 from rfl, Finset.sum_range_one]
      rw [show TerminalCost ocpFix M T 0 = 0 from rfl, zero_add, weightedSum]
      exact Finset.single_le_sum (f := fun m => W.getD m 0 * v 0 m) (fun m hm => hnn m (by
        have := Finset.mem_range.1 hm; omega)) (Finset.mem_range.2 (by omega))
    rw [hkdef, hval i ho, ← hkdef, ← mul_assoc, mul_comm, ← le_div_iff₀ (mul_pos hW hc)] at hsum
    refine fix_two ?_ ?_
    · have : |T.x 0 k 0| ≤ T.x 0 k 0 * T.x 0 k 0 + 1 := by
        rw [abs_le]; constructor <;> nlinarith [sq_nonneg (T.x 0 k 0 - 1), sq_nonneg (T.x 0 k 0 + 1)]
      nlinarith [mul_self_nonneg (T.x 0 k 1), mul_self_nonneg (T.u 0 k 0)]
    · have : |T.x 0 k 1| ≤ T.x 0 k 1 * T.x 0 k 1 + 1 := by
        rw [abs_le]; constructor <;> nlinarith [sq_nonneg (T.x 0 k 1 - 1), sq_nonneg (T.x 0 k 1 + 1)]
      nlinarith [mul_self_nonneg (T.x 0 k 0), mul_self_nonneg (T.u 0 k 0)]
  choose B hB using hx
  refine ⟨fun s => match s with
    | .X _ k _ => B k | .U _ _ _ => 1 | .T0 _ => 0 | .Tf _ => 10 | .A _ _ => 0 | .H _ _ => 1, fun T J hT hw hJ hJ0 s hs => ?_⟩
  cases s with
  | X ph i j =>
    obtain ⟨hp, hi, hj⟩ := hs
    obtain rfl : ph = 0 := by simpa [ocpFix] using hp
    exact hB i T J hT hw hJ hJ0 hi j hj
  | U ph i j =>
    obtain ⟨hp, hi, hj⟩ := hs
    obtain rfl : ph = 0 := by simpa [ocpFix] using hp
    obtain rfl : j = 0 := by simpa [ocpFix] using hj
    have h := hT.u i hi 0 (by simp [ocpFix])
    exact abs_le.2 ⟨h.1, h.2⟩
  | T0 ph =>
    obtain rfl : ph = 0 := Nat.lt_one_iff.1 hs
    have h1 : (0 : ℝ) ≤ T.t0 0 ∧ T.t0 0 ≤ 0 := hT.t0
    exact abs_le.2 ⟨by simp only [Traj.val]; linarith [h1.1], h1.2⟩
  | Tf ph =>
    obtain rfl : ph = 0 := Nat.lt_one_iff.1 hs
    have h1 : (10 : ℝ) ≤ T.tf 0 ∧ T.tf 0 ≤ 10 := hT.tf
    exact abs_le.2 ⟨by simp only [Traj.val]; linarith [h1.1], h1.2⟩
  | A k ph =>
    obtain ⟨hp, hk⟩ := hs
    exact absurd hk (by simp [ocpFix])
  | H s ph =>
    obtain ⟨hp, hs⟩ := hs
    obtain rfl : ph = 0 := by simpa [ocpFix] using hp
    obtain rfl : s = 0 := by omega
    show |T.w 0 0| ≤ 1
    rw [hw, abs_one]

/-- **C112** With a perfect NLP solver `solve` on the problem of the fixtures returns: one segment of any scheme. -/
theorem C112_fixture_returns (hM : MeshFor o scheme 1 arg M) (h : OneSegment o.lib scheme p d) (ho : M.orders = [p])
    (hlt : o.tau0 < o.tau1) {a : SolveArgs ℝ V} (hacc : o.accepts a.plugin (solverOptions o.vals a.plugin a.options) = true)
    (hwid : GoodWidths ocpFix 1 a.widths) (hptp : ptp ≠ []) (hperf : Perfect nlpsol) :
    ∃ out, mpSolve o nlpsol ocpFix ptp 1 arg scheme a rx rdx = .ok out := by
  obtain ⟨hv, hs, hsc⟩ := ocpFix_ready
  have hone : M.orders.length = 1 := by rw [ho]; rfl
  have hW' : WidthsAre ocpFix 1 a.widths (restFix.traj fun _ _ => 1) := by
    cases hr : a.widths with
    | none => intro ph hp s hs; simp [Rest.traj]
    | some l =>
      obtain ⟨h1, h2⟩ := hwid l hr
      have hl : l.length = 1 := by simpa [ocpFix] using h1
      obtain ⟨v, rfl⟩ := List.length_eq_one_iff.1 hl
      have h3 : v = 1 := by simpa [phaseSlice] using (h2 0 Nat.one_pos).2
      subst h3
      rfl
  have hsh : ∀ ph < ocpFix.nPhases, Shares M (restFix.traj fun _ _ => 1) ph := fun ph hp =>
    ⟨fun _ _ => by simp [Rest.traj], by rw [hone]; simp [Rest.traj]⟩
  have hmesh : M.Inside := by
    obtain ⟨c, W, hWeq, -⟩ := C52_solve_returns (ptp := ptp) (rx := rx) (rdx := rdx) hv hs hsc hM hone hlt
      hacc hwid (fix_phase (by simp [ocpFix, entry])) hptp
    exact (C112_integrates h hM ho hlt hWeq).1
  obtain ⟨s, p, r, -, -, -, h, -⟩ := C70_solve (ptp := ptp) (rx := rx) (rdx := rdx) hv hs hsc hM hone hlt hacc hwid
    (fix_phase (by simp [ocpFix, entry])) hptp ocpFix_cts
    ⟨_, C111_feasible hM.good hmesh restFix_holds hsh, hW'⟩ (fun W hWeq J₀ => by
      obtain ⟨-, -, hl, h0, h1⟩ := C112_integrates h hM ho hlt hWeq
      obtain ⟨R, hR⟩ := fix_bounded hM.good hmesh hone hl h0 h1 J₀
      exact ⟨R, fun T J hT hw hJ hJ0 => hR T J (hT.1.bounds 0 (by simp [ocpFix])) (hw.one hwid 0 (by simp [ocpFix])) hJ hJ0⟩) hperf
  exact ⟨_, h⟩

end

/-- A mesh of one segment, for any scheme. -/
theorem exists_one_mesh {scheme : String} {p d : Nat} (h : OneSegment libR scheme p d) :
    ∃ M, MeshFor outsideR scheme 1 (.int p) M ∧ M.orders = [p] := by
  obtain ⟨r, hr, hs, -⟩ := h.rule .numerical (lo := -1) (hi := 1) (by norm_num)
  have h1p : 1 ≤ p := by cases h <;> omega
  have hlen := hs.length
  refine ⟨⟨[p], fun _ => r, -1, 1⟩, ⟨⟨by simp, by simpa using h1p, by simpa using hlen, fun _ _ => hs.sorted.imp fun h => h.ne,
    ?_, ?_⟩, rfl, rfl, rfl, fun q hq => ?_⟩, rfl⟩
  · intro q hq
    simpa [List.head?_eq_getElem?] using hs.first
  · intro q hq
    obtain rfl := List.mem_singleton.1 hq
    have := hs.last
    rwa [List.getLast?_eq_getElem?, hlen, Nat.add_sub_cancel] at this
  · obtain rfl := List.mem_singleton.1 hq
    exact hr

/-- The three fixtures `mp.mpopt(van_der_pol_ocp, 1, 15, ...)` (tests/test_mpopt.py:302-323) with the default solver options. -/
theorem exampleFixtures {scheme : String} (hsch : scheme = "LGR" ∨ scheme = "LGL" ∨ scheme = "CGL") :
    ∃ (nlpsol : SolverCall ℝ Nat → Py (List ℝ)) (M : Mesh ℝ) (s : Session ℝ Nat) (po : Post ℝ)
      (r : Option (PyDict (ResidVal ℝ))), MeshFor outsideR scheme 1 (.int 15) M ∧
      mpSolve outsideR nlpsol ocpFix [[0]] 1 (.int 15) scheme argsR false true = .ok (s, po, r) ∧
      ∃ T W J, po.Shows ocpFix M T ∧ PhysCost ocpFix M W T J ∧ 30 / 103 ≤ J ∧ J ≤ 20 := by
  obtain ⟨d, h⟩ : ∃ d, OneSegment libR scheme 15 d := by
    rcases hsch with rfl | rfl | rfl
    · exact ⟨_, .lgr (by norm_num) (libR_jacobi 1 0 _)⟩
    · exact ⟨_, .lgl (by norm_num) (libR_jacobi 1 1 _)⟩
    · exact ⟨_, .cgl (by norm_num) libR_cosine⟩
  obtain ⟨nlpsol, hperf⟩ := exists_perfect (V := Nat)
  obtain ⟨M, hM, ho⟩ := exists_one_mesh h
  have hlt : outsideR.tau0 < outsideR.tau1 := by norm_num [outsideR]
  have hg : GoodWidths ocpFix 1 argsR.widths := by simp [GoodWidths, argsR]
  obtain ⟨⟨s, po, r⟩, hout⟩ := C112_fixture_returns (ptp := [[0]]) (rx := false) (rdx := true) (a := argsR) hM h ho hlt rfl hg
    (by simp) hperf
  obtain ⟨T, W, J, -, -, h2, h3, h4, h5⟩ := C112_fixture hout hM h (by norm_num) ho hlt hg hperf.sound
  exact ⟨nlpsol, M, s, po, r, hM, hout, T, W, J, h2, h3, h4, h5⟩

end MPOpt
