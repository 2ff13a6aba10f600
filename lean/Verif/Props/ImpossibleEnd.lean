import Verif.Props.Impossible
import Verif.Props.BackwardEnd
import Verif.Props.MoonExample

/-! # C108: what the solver classes do with problems that have no solution -/

set_option autoImplicit false
set_option linter.unusedSectionVars false

namespace MPOpt
open Polynomial

variable {M : Mesh ℝ} {ocp : OCP ℝ} {V : Type} {w : Outside ℝ V} {n : Nat} {arg : OrdersArg} {scheme : String}
  {ptp : List (List Nat)} {rx rdx : Bool}

/-- No trajectory on the mesh meets the constraints all solver classes have in common, whatever widths fill the phases. -/
def NoTrajectory (ocp : OCP ℝ) (M : Mesh ℝ) : Prop :=
  ∀ T, (∀ ph < ocp.nPhases, Shares M T ph) → ¬ CoreFeasible ocp M T

/-- **C108** With a solver that only returns feasible points, the module-level `solve` never returns. -/
theorem C108_solve (hno : NoTrajectory ocp M) {nlpsol : SolverCall ℝ V → Py (List ℝ)} {a : SolveArgs ℝ V} (hv : ValidOCP ocp)
    (hs : ocp.SettingsOK) (hsc : ocp.PosScales) (hM : MeshFor w scheme n arg M) (hwid : GoodWidths ocp n a.widths)
    (hsound : ∀ c z, nlpsol c = .ok z → c.IsSolution z) (out : Session ℝ V × Post ℝ × Option (PyDict (ResidVal ℝ))) :
    mpSolve w nlpsol ocp ptp n arg scheme a rx rdx ≠ .ok out := by
  intro hrun
  obtain ⟨T, hT, hw, -⟩ := C52_solve_feasible hrun hv hs hsc hM hsound
  have hn : M.orders.length = n := mpSolve_length hrun hM
  subst hn
  refine hno T (fun ph hp => ?_) hT.1.core
  obtain ⟨h1, h2⟩ := hw.fills (List.length_pos_iff.2 hM.good.nonempty) hwid ph hp
  exact ⟨fun s hs => (h1 s hs).le, h2⟩

/-- **C108** The NLP that `solve` builds has no feasible point, and whatever the solver hands back instead, feasible or not, is
processed and shown as a solution would be: nothing looks at the status of the solver. -/
theorem C108_solve_shows (hno : NoTrajectory ocp M) {a : SolveArgs ℝ V} (hv : ValidOCP ocp) (hs : ocp.SettingsOK)
    (hsc : ocp.PosScales) (hM : MeshFor w scheme n arg M) (hn : M.orders.length = n) (hlt : w.tau0 < w.tau1)
    (hacc : w.accepts a.plugin (solverOptions w.vals a.plugin a.options) = true) (hwid : GoodWidths ocp n a.widths)
    (ht : ∀ ph < ocp.nPhases, entry ocp.t00 ph 0 0 ≠ entry ocp.tf0 ph 0 0) (hptp : ptp ≠ []) :
    ∃ c : SolverCall ℝ V, (∀ z, ¬ c.IsSolution z) ∧
      ∀ (nlpsol : SolverCall ℝ V → Py (List ℝ)) (z : List ℝ), nlpsol c = .ok z →
        z.length = c.solver.problem.x.length →
        ∃ out, mpSolve w nlpsol ocp ptp n arg scheme a rx rdx = .ok out := by
  obtain ⟨c, -, -, h1, -, h2⟩ := C52_solve_returns (rx := rx) (rdx := rdx) hv hs hsc hM hn hlt hacc hwid ht hptp
  have hn0 : 0 < n := by rw [← hn]; exact List.length_pos_iff.2 hM.good.nonempty
  refine ⟨c, fun z hz => ?_, h2⟩
  obtain ⟨T, hT, hw, -⟩ := (h1 z).1 hz
  subst hn
  refine hno T (fun ph hp => ?_) hT.1.core
  obtain ⟨h1, h2⟩ := hw.fills hn0 hwid ph hp
  exact ⟨fun s hs => (h1 s hs).le, h2⟩

/-- **C108** No call of `solve` of an `mpopt_adaptive` object whose width limits are not negative returns. -/
theorem C108_adaptive (hno : NoTrajectory ocp M) {nlpsol : SolverCall ℝ V → Py (List ℝ)} {s : AdaptOpt ℝ V}
    {lbh ubh tol : List ℝ} {mid : Bool} (hf : s.Ready w ocp n arg scheme lbh ubh tol mid) (hv : ValidOCP ocp)
    (hs : ocp.SettingsOK) (hsc : ocp.PosScales) (hlb : lbh.length = ocp.nPhases) (hub : ubh.length = ocp.nPhases)
    (htol : tol.length = ocp.nPhases) (hlbn : ∀ l ∈ lbh, 0 ≤ l) (hM : MeshFor w scheme n arg M)
    (hsound : ∀ c z, nlpsol c = .ok z → c.IsSolution z) (earlier : List (SolveArgs ℝ V)) (a : SolveArgs ℝ V) (z : List ℝ) :
    ((s.run w nlpsol earlier).solve w nlpsol a).2 ≠ .ok z := by
  intro hok
  obtain ⟨d, honM, rfl, rfl, -, hc, -⟩ := hf.coherent hM
  have hr : (⟨d, lbh, ubh, tol, mid⟩ : Adapt ℝ).Ready := ⟨hlb, hub, htol⟩
  obtain ⟨hc1, -⟩ := hc.run (nlpsol := nlpsol) earlier
  obtain ⟨-, -, k⟩ := hc1.solve (nlpsol := nlpsol) a
  obtain ⟨-, -, k'⟩ := hc1.solveCall a
  obtain ⟨c, sw, e1, e2, -⟩ := k z hok
  obtain ⟨q1, q2, q3⟩ := k' c e1
  have hT := ((adaptCall_spec honM hv hs hsc hr q1 q2 q3 z).1.1 (hsound c z e2)).2
  refine hno _ (fun ph hp => ?_) hT.1.core
  obtain ⟨h1, h2, -⟩ := hT.1.widths ph hp
  refine ⟨fun s hs => le_trans ?_ (h2 s hs), h1⟩
  have hp : ph < d.ocp.nPhases := hp
  have : ph < lbh.length := by omega
  show 0 ≤ lbh.getD ph 0
  rw [List.getD_eq_getElem _ _ this]
  exact hlbn _ (List.getElem_mem this)

/-- **C108** Calls of `solve` of an `mpopt_h_adaptive` object never end with a solution and widths that fill the phases. -/
theorem C108_h (hno : NoTrajectory ocp M) {wh : HOutside ℝ V}
    {nlpsolH : Nat → Nat → SolverCall ℝ V → Py (PyDict V)} {lbh ubh tol : List ℝ} {sh : HOpt ℝ V}
    (hf : sh.Ready wh ocp n arg scheme lbh ubh tol) (hv : ValidOCP ocp) (hs : ocp.SettingsOK) (hsc : ocp.PosScales)
    (hM : MeshFor wh.toOutside scheme n arg M)
    (hsound : ∀ n k c sol, nlpsolH n k c = .ok sol → ∃ z, Returned wh sol z ∧ c.IsSolution z)
    {calls : List (HStart V × HArgs V)} (ho : OwnStarts calls) {s' : HOpt ℝ V} (hwid : GoodWidths ocp n s'.widths)
    (sol : PyDict V) : sh.run wh nlpsolH calls 0 none ≠ (s', some sol) := by
  intro hrun
  have hn : M.orders.length = n := by rw [OrdersArg.Means.unique hM.orders hf.orders]; exact hf.length
  obtain ⟨d, honM, rfl, rfl, -, hc⟩ := hf.coherent hM
  obtain ⟨k1, -, k3⟩ := hc.run (nlpsol := nlpsolH) ho (n := 0) (last := none) (fun _ h => by cases h)
  rw [hrun] at k1 k3
  obtain ⟨c, ⟨i, k, hk⟩, c2, c3, c4⟩ := k3 sol rfl
  obtain ⟨z, -, hsol⟩ := hsound i k c sol hk
  have c4 : s'.widths = some c.p := c4
  obtain ⟨-, t1, t2, -⟩ := shown_of_solution (p := ⟨⟨d, c.p, [], 0, z⟩, false, []⟩) (z := z) (a := ({ initial := none, reinitialize := false, widths := some c.p, plugin := "", options := [] } : SolveArgs ℝ V)) hv hs hsc honM
    rfl rfl rfl rfl rfl c2 c3 rfl hsol
  refine hno _ (fun ph hp => ?_) t1.1.core
  obtain ⟨h1, h2⟩ := packed_widths hp ((hwid _ c4).2 ph hp) t2
  rw [← hn] at h1 h2
  exact ⟨fun s hs => (h1 s hs).le, h2⟩

/-! ### The problem of the test suite

`test_ocp` of tests/test_mpopt.py:88-110 asks for `x0 + 1 ≤ 0` on a path that starts at `x0 = 0`. The tests solve it. -/

/-- tests/test_mpopt.py:88-110. -/
noncomputable def scriptTest : Py (OCP ℝ) := do
  let o ← mkOCP 2 2 2 0
  return { o with
    dynamics := List.replicate 2 ⟨2, fun p _ => p.u.getD 0 0⟩
    pathConstraints := List.replicate 2 (some ⟨2, fun p j => if j = 0 then p.x.getD 0 0 + 1 else p.u.getD 0 0⟩)
    runningCosts := List.replicate 2 fun p => p.u.getD 0 0
    terminalConstraints := List.replicate 2 (some ⟨1, fun t _ => -t.xf.getD 0 0⟩)
    terminalCosts := List.replicate 2 fun t => t.tf
    lbu := (o.lbu.set 0 [.fin (-1), .fin (-1)]).set 1 [.fin (-1), .fin (-1)]
    ubu := (o.ubu.set 0 [.fin 1, .fin 1]).set 1 [.fin 1, .fin 1]
    lbtf := (o.lbtf.set 0 [.fin 1]).set 1 [.fin 1]
    ubtf := (o.ubtf.set 0 [.fin 1]).set 1 [.fin 1] }

/-- The object built by the script, written out. -/
noncomputable def ocpTest : OCP ℝ :=
  { nx := 2, nu := 2, na := 0, nPhases := 2
    dynamics := [⟨2, fun p _ => p.u.getD 0 0⟩, ⟨2, fun p _ => p.u.getD 0 0⟩]
    pathConstraints := [some ⟨2, fun p j => if j = 0 then p.x.getD 0 0 + 1 else p.u.getD 0 0⟩,
      some ⟨2, fun p j => if j = 0 then p.x.getD 0 0 + 1 else p.u.getD 0 0⟩]
    terminalCosts := [fun t => t.tf, fun t => t.tf]
    runningCosts := [fun p => p.u.getD 0 0, fun p => p.u.getD 0 0]
    terminalConstraints := [some ⟨1, fun t _ => -t.xf.getD 0 0⟩, some ⟨1, fun t _ => -t.xf.getD 0 0⟩]
    phaseLinks := [(0, 1)]
    scaleX := [1, 1], scaleU := [1, 1], scaleA := [], scaleT := 1
    x00 := [[0, 0], [0, 0]], xf0 := [[0, 0], [0, 0]], u00 := [[0, 0], [0, 0]], uf0 := [[0, 0], [0, 0]]
    t00 := [[0], [0]], tf0 := [[1], [1]], a0 := [[], []]
    lbx := [[.ninf, .ninf], [.ninf, .ninf]], ubx := [[.pinf, .pinf], [.pinf, .pinf]]
    lbu := [[.fin (-1), .fin (-1)], [.fin (-1), .fin (-1)]], ubu := [[.fin 1, .fin 1], [.fin 1, .fin 1]]
    lba := [[], []], uba := [[], []]
    lbt0 := [[.fin 0], [.fin 0]], ubt0 := [[.fin 0], [.pinf]], lbtf := [[.fin 1], [.fin 1]], ubtf := [[.fin 1], [.fin 1]]
    lbe := [[.fin 0, .fin 0]], ube := [[.fin 0, .fin 0]], diffU := [false, false], lbdu := [.fin (-15), .fin (-15)]
    ubdu := [.fin 15, .fin 15], midu := [true, true], duContinuity := [false, false] }

theorem scriptTest_eq : scriptTest = .ok ocpTest := rfl

theorem test_ready : ValidOCP ocpTest ∧ ocpTest.SettingsOK ∧ ocpTest.PosScales := by
  refine ⟨?_, ?_, ?_⟩
  · constructor
    case ordX => exact rowOrdered_cons (by simp [Ext.le]) (rowOrdered_cons (by simp [Ext.le]) rowOrdered_nil)
    case ordU => exact rowOrdered_cons (by simp [Ext.le]) (rowOrdered_cons (by simp [Ext.le]) rowOrdered_nil)
    case ordA => exact rowOrdered_cons (by simp) (rowOrdered_cons (by simp) rowOrdered_nil)
    case ordT0 => exact rowOrdered_cons (by simp [Ext.le]) (rowOrdered_cons (by simp [Ext.le]) rowOrdered_nil)
    case ordTf => exact rowOrdered_cons (by simp [Ext.le]) (rowOrdered_cons (by simp [Ext.le]) rowOrdered_nil)
    case ordE => exact rowOrdered_cons (by simp [Ext.le]) rowOrdered_nil
    all_goals simp [HasShape, ocpTest]
  · constructor <;> simp [ocpTest]
  · constructor <;> simp [ocpTest]

theorem test_blocked : ocpTest.Blocked := by
  intro E hE
  have h1 := hE.startPath 0 (by simp [ocpTest]) _ rfl 0 (by norm_num)
  have h2 := (hE.bounds 0 (by simp [ocpTest])).x0 rfl 0 (by simp [ocpTest])
  simp [OCP.pArg, ocpTest, entry] at h1 h2
  rw [h2] at h1
  norm_num at h1

/-- **C108** The test suite's problem passes `validate` and has no solution, in continuous time or on any mesh. -/
theorem C108_test : scriptTest = .ok ocpTest ∧ ocpTest.validate = .ok () ∧ (∀ C, ¬ SolvesContinuously ocpTest C) ∧
    ∀ M : Mesh ℝ, M.Good → NoTrajectory ocpTest M :=
  ⟨rfl, by
    obtain ⟨hv, hs, hsc⟩ := test_ready
    exact (C40_validate_iff ocpTest).2 hv, C108_blocked_continuous test_blocked, fun _ hM _ hw => C108_blocked test_blocked hM hw⟩

/-- **C108** `mpopt(test_ocp).solve()`, as in the tests: it raises with a solver that only returns feasible points, and shows
whatever any other solver hands back. -/
theorem C108_test_solve : ∃ c : SolverCall ℝ Nat, (∀ z, ¬ c.IsSolution z) ∧
    (∀ (nlpsol : SolverCall ℝ Nat → Py (List ℝ)) (out : _), (∀ c z, nlpsol c = .ok z → c.IsSolution z) →
      mpSolve outsideR nlpsol ocpTest [[0, 1]] 1 (.int 9) "LGR" argsR false true ≠ .ok out) ∧
    ∀ (nlpsol : SolverCall ℝ Nat → Py (List ℝ)) (z : List ℝ), nlpsol c = .ok z → z.length = c.solver.problem.x.length →
      ∃ out, mpSolve outsideR nlpsol ocpTest [[0, 1]] 1 (.int 9) "LGR" argsR false true = .ok out := by
  obtain ⟨hv, hs, hsc⟩ := test_ready
  obtain ⟨M, hM, ho⟩ := exists_lgr_int (n := 1) (p := 9) (by norm_num) (by norm_num)
  have hno := C108_test.2.2.2 M hM.good
  obtain ⟨c, h1, h2⟩ := C108_solve_shows (a := argsR) (ptp := [[0, 1]]) (rx := false) (rdx := true) hno hv hs hsc hM
    (by rw [ho]; simp) (by norm_num [outsideR]) rfl (fun _ h => nomatch h)
    (two_phases (by simp [ocpTest, entry]) (by simp [ocpTest, entry])) (by simp)
  exact ⟨c, h1, fun nlpsol out hsound => C108_solve (a := argsR) hno hv hs hsc hM (fun _ h => nomatch h) hsound out, h2⟩

/-- `mpopt_adaptive(test_ocp)` and `mpopt_h_adaptive(test_ocp)`, with the default settings. -/
noncomputable def adaptTest : AdaptOpt ℝ Nat :=
  ⟨ocpTest, 1, [9], "LGR", [1 / 10000, 1 / 10000], [1, 1], [1 / 1000, 1 / 1000], true, ["fixed", "fixed"], 15, false,
    none, none, none, none⟩

noncomputable def hoptTest : HOpt ℝ (List ℝ) :=
  ⟨ocpTest, 1, [9], "LGR", [1 / 100000, 1 / 100000], [1, 1], [1 / 100, 1 / 100], ["fixed", "fixed"], 15, 1 / 10, 1 / 20,
    false, none, none, none, 0, []⟩

theorem adaptTest_fresh : adaptTest.Fresh ocpTest 1 (.int 9) "LGR" [1 / 10000, 1 / 10000] [1, 1] [1 / 1000, 1 / 1000]
    true := by
  refine ⟨⟨adaptTest, _, _, ?_, rfl⟩⟩
  unfold newAdapt
  rw [show initOrders 1 (.int 9) = .ok ([9], 10) by decide +kernel]
  rfl

theorem hoptTest_fresh : hoptTest.Fresh ocpTest 1 (.int 9) "LGR" [1 / 100000, 1 / 100000] [1, 1] [1 / 100, 1 / 100] := by
  refine ⟨⟨hoptTest, _, _, _, _, ?_, rfl⟩⟩
  unfold newHAdaptive
  rw [show initOrders 1 (.int 9) = .ok ([9], 10) by decide +kernel]
  rfl

/-- The hypotheses of `C108_adaptive` and `C108_h` are met: the other classes raise on this problem as well, whatever they are
asked to do, with solvers that only return feasible points. -/
theorem exampleTest : (∀ (nlpsol : SolverCall ℝ Nat → Py (List ℝ)), (∀ c z, nlpsol c = .ok z → c.IsSolution z) →
      ∀ earlier a z, ((adaptTest.run outsideR nlpsol earlier).solve outsideR nlpsol a).2 ≠ .ok z) ∧
    ∀ (nlpsol : Nat → Nat → SolverCall ℝ (List ℝ) → Py (PyDict (List ℝ))),
      (∀ n k c sol, nlpsol n k c = .ok sol → ∃ z, Returned outsideRH sol z ∧ c.IsSolution z) →
      ∀ calls, OwnStarts calls → ∀ (s' : HOpt ℝ (List ℝ)) sol, GoodWidths ocpTest 1 s'.widths →
        hoptTest.run outsideRH nlpsol calls 0 none ≠ (s', some sol) := by
  obtain ⟨hv, hs, hsc⟩ := test_ready
  obtain ⟨M, hM, ho⟩ := exists_lgr_int (n := 1) (p := 9) (by norm_num) (by norm_num)
  have hno := C108_test.2.2.2 M hM.good
  have hM' : MeshFor outsideRH.toOutside "LGR" 1 (.int 9) M := ⟨hM.good, hM.orders, hM.tau0, hM.tau1, hM.nodes⟩
  exact ⟨fun nlpsol hsound earlier a z => C108_adaptive hno adaptTest_fresh.ready hv hs hsc rfl rfl rfl (by norm_num) hM hsound
      earlier a z,
    fun nlpsol hsound calls hown s' sol hwid => C108_h hno hoptTest_fresh.ready hv hs hsc hM' hsound hown hwid sol⟩

/-! ### The moon lander in too much of a hurry -/

/-- `x0 + (2 - t) x1 + 3/4 t + (t - 2)^3 / 4`. -/
noncomputable def certML : Certificate :=
  ⟨fun _ j => if j = 0 then 1 else C 2 - X, fun _ => C (3 / 4) * X + C (1 / 4) * (X - C 2) ^ 3⟩

theorem certML_value (t : ℝ) (x : Nat → ℝ) :
    certML.value 2 0 t x = x 0 + (2 - t) * x 1 + 3 / 4 * t + 1 / 4 * (t - 2) ^ 3 := by
  simp [certML, Certificate.value, Finset.sum_range_succ]; ring

theorem certML_rate (t : ℝ) (x v : Nat → ℝ) :
    certML.rate 2 0 t x v = v 0 - x 1 + (2 - t) * v 1 + 3 / 4 + 3 / 4 * (t - 2) ^ 2 := by
  simp [certML, Certificate.rate, Finset.sum_range_succ, derivative_pow]; ring

/-- With the dynamics and control bounds of the moon lander this function does not fall. -/
theorem certML_rises (ocp : OCP ℝ) (h2 : ocp.nx = 2) (h1 : ocp.nu = 1) (hd : ocp.dynamics = ocpML.dynamics)
    (hl : ocp.lbu = ocpML.lbu) (hu : ocp.ubu = ocpML.ubu) : certML.Rises ocp 0 := by
  intro F hF p hp
  rw [hd] at hF
  cases hF
  have hb := hp.u 0 (by omega)
  rw [hl, hu] at hb
  have u0 : 0 ≤ p.u.getD 0 0 := hb.1
  have u3 : p.u.getD 0 0 ≤ 3 := hb.2
  rw [h2, certML_rate]
  simp only [if_true, one_ne_zero, if_false]
  have e1 := mul_nonneg u0 (sq_nonneg (3 - p.t))
  have e2 := mul_nonneg (sub_nonneg.2 u3) (sq_nonneg (p.t - 1))
  nlinarith

theorem certML_fits {ocp : OCP ℝ} {orders : List Nat} (hord : ∀ q ∈ orders, 2 ≤ q) : certML.Fits ocp orders := by
  intro ph _ q hq
  have := hord q hq
  refine ⟨fun j _ => ?_, ?_⟩
  · have : (certML.price ph j).natDegree ≤ 1 := by
      unfold certML
      dsimp only
      split
      · simp
      · compute_degree
    omega
  · have : (certML.free ph).natDegree ≤ 3 := by
      unfold certML
      dsimp only
      compute_degree
    omega

/-- The moon lander of the examples, told to land within 3.5 time units. -/
noncomputable def ocpHaste : OCP ℝ := { ocpML with ubtf := [[.fin (7 / 2)]] }

theorem haste_ready : ValidOCP ocpHaste ∧ ocpHaste.SettingsOK ∧ ocpHaste.PosScales := by
  obtain ⟨hv, hs, hsc⟩ := ocpML_ready
  refine ⟨?_, ?_, ?_⟩
  · cases hv
    constructor
    case ordTf => exact rowOrdered_cons (by simp [Ext.le]; norm_num) rowOrdered_nil
    all_goals first | assumption | simp [ocpHaste, ocpML, HasShape]
  · cases hs
    constructor <;> assumption
  · cases hsc
    constructor <;> assumption

theorem haste_refuted : certML.Refutes ocpHaste := by
  refine ⟨one_phase (certML_rises _ rfl rfl rfl rfl rfl), fun E hE _ => ?_⟩
  have hb := hE.bounds 0 (by simp [ocpHaste, ocpML])
  have x0 : E.x 0 0 0 = 10 := hb.x0 rfl 0 (by simp [ocpHaste, ocpML])
  have x1 : E.x 0 0 1 = -2 := hb.x0 rfl 1 (by simp [ocpHaste, ocpML])
  have t0 : E.t0 0 = 0 := le_antisymm hb.t0.2 hb.t0.1
  have tf : E.tf 0 ≤ 7 / 2 := hb.tf.2
  have tf3 : 3 ≤ E.tf 0 := hb.tf.1
  have f0 := hE.terminal 0 (by simp [ocpHaste, ocpML]) _ rfl 0 (by norm_num)
  have f1 := hE.terminal 0 (by simp [ocpHaste, ocpML]) _ rfl 1 (by norm_num)
  simp [OCP.tArg, ocpHaste, ocpML, endMesh_N] at f0 f1
  show ∑ ph ∈ Finset.range 1, certML.value 2 ph (E.tf ph) (E.x ph 1) < ∑ ph ∈ Finset.range 1, certML.value 2 ph (E.t0 ph) (E.x ph 0)
  simp only [Finset.sum_range_one, certML_value, x0, x1, t0, f0, f1]
  nlinarith [mul_nonneg (sub_nonneg.2 tf3) (sub_nonneg.2 tf), sq_nonneg (E.tf 0 - 2)]

/-- **C108** It has no solution in continuous time, and none on any LGR mesh of orders at least 2. -/
theorem C108_haste : ocpHaste.validate = .ok () ∧ (∀ C, ¬ SolvesContinuously ocpHaste C) ∧
    ∀ {V : Type} {w : Outside ℝ V} {n : Nat} {arg : OrdersArg} {M : Mesh ℝ}, MeshFor w "LGR" n arg M → w.tau0 < w.tau1 →
      (∀ q ∈ M.orders, 2 ≤ q) → (∀ q ∈ M.orders, IsJacobiRoots 1 0 (q - 1) (w.lib.jroots (q - 1) 1 0)) →
      NoTrajectory ocpHaste M :=
  ⟨(C40_validate_iff ocpHaste).2 haste_ready.1, C108_refuted_continuous haste_refuted haste_ready.1,
    fun hM hlt hord hj _ hw => C108_refuted haste_refuted haste_ready.1 hM hlt hord hj (certML_fits hord)
      (fun ph hp => by
        obtain rfl : ph = 0 := by simpa [ocpHaste, ocpML] using hp
        exact ⟨0, 3, by norm_num, rfl, Or.inl rfl⟩) hw⟩

/-- **C108** What the shipped moon lander takes: whichever feasible point the solver returns, the landing shown by `solve` is
later than 3.69, for all LGR meshes of orders at least 2 (the script allows 3 to 5). -/
theorem C108_moon {nlpsol : SolverCall ℝ V → Py (List ℝ)} {a : SolveArgs ℝ V} {s : Session ℝ V} {p : Post ℝ}
    {r : Option (PyDict (ResidVal ℝ))} (hrun : mpSolve w nlpsol ocpML ptp n arg "LGR" a rx rdx = .ok (s, p, r))
    (hM : MeshFor w "LGR" n arg M) (hlt : w.tau0 < w.tau1) (hord : ∀ q ∈ M.orders, 2 ≤ q)
    (hj : ∀ q ∈ M.orders, IsJacobiRoots 1 0 (q - 1) (w.lib.jroots (q - 1) 1 0)) (hwid : GoodWidths ocpML n a.widths)
    (hsound : ∀ c z, nlpsol c = .ok z → c.IsSolution z) : ∃ T, SolvesOCP ocpML M T ∧ p.Shows ocpML M T ∧ 369 / 100 < T.tf 0 := by
  obtain ⟨hv, hs, hsc⟩ := ocpML_ready
  obtain ⟨T, hT, hw, hsh⟩ := C52_solve_feasible hrun hv hs hsc hM hsound
  have hn : M.orders.length = n := mpSolve_length hrun hM
  subst hn
  have h0 : 0 < ocpML.nPhases := by simp [ocpML]
  obtain ⟨h1, h2⟩ := hw.fills (List.length_pos_iff.2 hM.good.nonempty) hwid 0 h0
  have hb := hT.1.bounds 0 h0
  have x0 : T.x 0 0 0 = 10 := hb.x0 rfl 0 (by simp [ocpML])
  have x1 : T.x 0 0 1 = -2 := hb.x0 rfl 1 (by simp [ocpML])
  have t0 : T.t0 0 = 0 := le_antisymm hb.t0.2 hb.t0.1
  have tf3 : 3 ≤ T.tf 0 := hb.tf.1
  have f0 := hT.1.terminal 0 h0 _ rfl 0 (by norm_num)
  have f1 := hT.1.terminal 0 h0 _ rfl 1 (by norm_num)
  simp [OCP.tArg, ocpML] at f0 f1
  have key := C108_rises h0 (certML_rises ocpML rfl rfl rfl rfl rfl) hv hM hlt hord hj (certML_fits hord) hT.1.core
    ⟨fun s hs => (h1 s hs).le, h2⟩ (by rw [t0]; linarith)
  rw [show ocpML.nx = 2 from rfl, certML_value, certML_value, x0, x1, t0, f0, f1] at key
  refine ⟨T, hT, hsh, ?_⟩
  by_contra hc
  rw [not_lt] at hc
  nlinarith [mul_nonneg (sub_nonneg.2 tf3) (sub_nonneg.2 hc), sq_nonneg (T.tf 0 - 2)]

end MPOpt
