import Verif.Props.BestExample

/-! # C56, C58, C78, C83 for the module-level `solve`

The statements about trajectories and meshes, carried over to what `solve` hands to the solver and to what it returns. -/

set_option autoImplicit false

namespace MPOpt
open Polynomial
variable {V : Type} {w : Outside ℝ V} {nlpsol : SolverCall ℝ V → Py (List ℝ)} {ocp : OCP ℝ} {ptp : List (List Nat)} {n : Nat}
  {arg : OrdersArg} {scheme : String} {a : SolveArgs ℝ V} {rx rdx : Bool} {M : Mesh ℝ} {C : CTraj} {T : Traj ℝ}

/-- **C56** `solve` returns if the problem has an exact solution the mesh can represent and the solver finds a feasible point whenever
there is one. -/
theorem C56_solve (hv : ValidOCP ocp) (hs : ocp.SettingsOK) (hsc : ocp.PosScales)
    (hM : MeshFor w scheme n arg M) (hn : M.orders.length = n) (hlt : w.tau0 < w.tau1)
    (hacc : w.accepts a.plugin (solverOptions w.vals a.plugin a.options) = true) (hwid : GoodWidths ocp n a.widths)
    (ht : ∀ ph < ocp.nPhases, entry ocp.t00 ph 0 0 ≠ entry ocp.tf0 ph 0 0) (hptp : ptp ≠ [])
    (hfind : ∀ c, (∃ z, c.IsSolution z) → ∃ z, nlpsol c = .ok z ∧ c.IsSolution z)
    (hI : M.Inside) (hC : SolvesContinuously ocp C) (hT : Samples ocp M C T) (hTw : WidthsAre ocp n a.widths T)
    (hw : ∀ ph < ocp.nPhases, FullWidths M T ph)
    (hx : ∀ ph < ocp.nPhases, ∀ j < ocp.nx, PiecewisePoly M.orders.length M.order (C.breakTime T.w ph) (C.x ph j))
    (hu : ∀ ph < ocp.nPhases, ocp.midu.getD ph false = true → ∀ j < ocp.nu,
      PiecewisePoly M.orders.length M.order (C.breakTime T.w ph) (C.u ph j))
    (hdu : ∀ ph < ocp.nPhases, ocp.duContinuity.getD ph false = false)
    (hdf : ∀ ph < ocp.nPhases, ocp.diffU.getD ph false = false) :
    ∃ out, mpSolve w nlpsol ocp ptp n arg scheme a rx rdx = .ok out := by
  obtain ⟨c, W, -, hsol, -, hret⟩ := C52_solve_returns (ptp := ptp) (rx := rx) (rdx := rdx) hv hs hsc hM hn hlt hacc hwid ht hptp
  obtain ⟨z, h1, h2⟩ := hfind c
    ⟨_, (hsol _).2 ⟨T, C56_exact_feasible hM.good hI hC hs.linkRange hT hw hx hu hdu hdf, hTw, rfl⟩⟩
  exact hret nlpsol z h1 h2.x

/-- **C58** What `solve` shows with a sound solver are node values; every motion through them that is a polynomial of the segment's order
on every segment, and whose right-hand side is one of degree less than the number of collocated nodes, obeys the differential equation
at all times. -/
theorem C58_solve {s : Session ℝ V} {p : Post ℝ} {r : Option (PyDict (ResidVal ℝ))}
    (hrun : mpSolve w nlpsol ocp ptp n arg scheme a rx rdx = .ok (s, p, r)) (hv : ValidOCP ocp) (hs : ocp.SettingsOK)
    (hsc : ocp.PosScales) (hM : MeshFor w scheme n arg M) (hI : M.Inside)
    (hsound : ∀ c z, nlpsol c = .ok z → c.IsSolution z) :
    ∃ T, p.Shows ocp M T ∧ WidthsAre ocp n a.widths T ∧ ∀ C, Samples ocp M C T → ∀ ph < ocp.nPhases, C.t0 ph < C.tf ph →
      FullWidths M T ph → (∀ j < ocp.nx, PiecewisePoly M.orders.length M.order (C.breakTime T.w ph) (C.x ph j)) →
      (∀ F, ocp.dynamics[ph]? = some F → ∀ j < ocp.nx, LeftPiecewisePoly M.orders.length (fun s => M.collocated s - 1)
        (C.breakTime T.w ph) fun t => F.f (ocp.cArg C ph t) j) → DynamicsHold ocp C ph := by
  obtain ⟨T, hT, hw, hsh⟩ := C52_solve_feasible hrun hv hs hsc hM hsound
  exact ⟨T, hsh, hw, fun C hS ph hp ht hf hx hF =>
    (C58_collocation_exact hM.good hI hS hp ht hf hx hF).1 (hT.1.dynamics ph hp)⟩

/-- **C78** On fine LGR meshes the objective of the NLP that `solve` hands to the solver, at the node values of a trajectory, is as close
as wanted to the true cost of that trajectory. -/
theorem C78_solve {P : List Nat} (hv : ValidOCP ocp) (hs : ocp.SettingsOK) (hsc : ocp.PosScales) (hlt : w.tau0 < w.tau1)
    (hacc : w.accepts a.plugin (solverOptions w.vals a.plugin a.options) = true)
    (ht : ∀ ph < ocp.nPhases, entry ocp.t00 ph 0 0 ≠ entry ocp.tf0 ph 0 0) (hptp : ptp ≠ []) (hord : ∀ p ∈ P, 2 ≤ p)
    (hj : ∀ p ∈ P, IsJacobiRoots 1 0 (p - 1) (w.lib.jroots (p - 1) 1 0)) (hC : ContinuousCosts ocp C) {η : ℝ} (hη : 0 < η) :
    ∃ ρ, 0 < ρ ∧ ∀ n arg M T, MeshFor w "LGR" n arg M → M.orders.length = n → GoodWidths ocp n a.widths →
      WidthsAre ocp n a.widths T → FineSamples ocp w.tau0 w.tau1 (tausFn w.lib w.tau0 w.tau1 "LGR") P ρ C M T →
      ∃ c : SolverCall ℝ V, |c.solver.problem.f (c.point (ocp.packVec M.N T)) - ocp.trueCost C| ≤ η ∧
        ∀ (nlpsol : SolverCall ℝ V → Py (List ℝ)) (z : List ℝ), nlpsol c = .ok z → z.length = c.solver.problem.x.length →
          ∃ out, mpSolve w nlpsol ocp ptp n arg "LGR" a rx rdx = .ok out := by
  obtain ⟨ρ, h0, h⟩ := C78_lgr w.lib w.method hlt hord hj hC hη
  refine ⟨ρ, h0, fun n arg M T hM hn hwid hTw hF => ?_⟩
  obtain ⟨c, W, hW, -, hobj, hret⟩ := C52_solve_returns (ptp := ptp) (rx := rx) (rdx := rdx) hv hs hsc hM hn hlt hacc hwid ht hptp
  obtain ⟨J, hJ⟩ := exists_physCost ocp M W T
  refine ⟨c, ?_, hret⟩
  rw [hobj T J hTw hJ]
  exact h M T W J hF hW hJ

/-- **C83** On fine meshes `solve` returns for every problem with a smooth solution, if the solver finds a point within its tolerance
whenever there is one; any fraction `ν` of the length of the longest segment will do as tolerance. -/
theorem C83_solve {P : List Nat} (hv : ValidOCP ocp) (hs : ocp.SettingsOK) (hsc : ocp.PosScales) (hlt : w.tau0 < w.tau1)
    (hacc : w.accepts a.plugin (solverOptions w.vals a.plugin a.options) = true)
    (ht : ∀ ph < ocp.nPhases, entry ocp.t00 ph 0 0 ≠ entry ocp.tf0 ph 0 0) (hptp : ptp ≠ [])
    (hC : SolvesContinuously ocp C) (hS : SmoothMotion ocp C)
    (hdu : ∀ ph < ocp.nPhases, ocp.duContinuity.getD ph false = false)
    (hdf : ∀ ph < ocp.nPhases, ocp.diffU.getD ph false = false) {ν : ℝ} (hν : 0 < ν) :
    ∃ ρ, 0 < ρ ∧ ∀ n arg M T H nlpsol, MeshFor w scheme n arg M → M.orders.length = n → GoodWidths ocp n a.widths →
      WidthsAre ocp n a.widths T → FineSamples ocp w.tau0 w.tau1 (tausFn w.lib w.tau0 w.tau1 scheme) P ρ C M T →
      (∀ ph < ocp.nPhases, M.Lasts T ph H) →
      (∀ c, (∃ z, c.NearSolution 0 (ν * H) z) → ∃ z, nlpsol c = .ok z ∧ c.NearSolution 0 (ν * H) z) →
      ∃ out, mpSolve w nlpsol ocp ptp n arg scheme a rx rdx = .ok out := by
  obtain ⟨ρ, h0, h⟩ := C83_fine hv hsc hC hS hs.linkRange hdu hdf w.tau0 w.tau1 (tausFn w.lib w.tau0 w.tau1 scheme) P hν
  refine ⟨ρ, h0, fun n arg M T H nlpsol hM hn hwid hTw hF hH hfind => ?_⟩
  obtain ⟨c, W, -, -, hnear, -, hret⟩ := C81_solve_returns (ptp := ptp) (rx := rx) (rdx := rdx) hv hs hsc hM hn hlt hacc hwid ht hptp
  obtain ⟨z, h1, h2⟩ := hfind c ⟨_, (hnear _ _ _).2 ⟨T, h M T H hF hH, hTw, rfl⟩⟩
  exact hret nlpsol _ _ z h1 h2

/-! ## The hypotheses are met -/

/-- A solver that finds a point with a property whenever there is one. -/
theorem exists_finder (P : SolverCall ℝ V → List ℝ → Prop) :
    ∃ nlpsol : SolverCall ℝ V → Py (List ℝ), (∀ c, (∃ z, P c z) → ∃ z, nlpsol c = .ok z ∧ P c z) ∧
      ∀ c z, nlpsol c = .ok z → P c z := by
  classical
  refine ⟨fun c => if h : ∃ z, P c z then .ok h.choose else .error .assertion, fun c h => ⟨h.choose, dif_pos h, h.choose_spec⟩,
    fun c z h => ?_⟩
  dsimp only at h
  split at h
  · rename_i h'
    cases h
    exact h'.choose_spec
  · cases h

/-- `C56_solve` and `C58_solve`: on two LGR segments of order 2 the trajectory with kink and jump makes `solve` return; what it shows
obeys the differential equation wherever a motion as in C58 goes through it. -/
theorem exampleCalls : ∃ (M : Mesh ℝ) (nlpsol : SolverCall ℝ Nat → Py (List ℝ)) (out : _) (T : Traj ℝ),
    MeshFor outsideR "LGR" 2 (.list [2, 2]) M ∧
      mpSolve outsideR nlpsol ocpR [[0]] 2 (.list [2, 2]) "LGR" argsR false true = .ok out ∧ out.2.1.Shows ocpR M T ∧
      ∀ C, Samples ocpR M C T → C.t0 0 = 0 → C.tf 0 = 1 →
        (∀ j < ocpR.nx, PiecewisePoly M.orders.length M.order (C.breakTime T.w 0) (C.x 0 j)) →
        (∀ F, ocpR.dynamics[0]? = some F → ∀ j < ocpR.nx, LeftPiecewisePoly M.orders.length (fun s => M.collocated s - 1)
          (C.breakTime T.w 0) fun t => F.f (ocpR.cArg C 0 t) j) → DynamicsHold ocpR C 0 := by
  obtain ⟨hv, hs, hsc⟩ := ocpR_ready
  obtain ⟨M, hM, ho⟩ := exists_lgr_mesh [2, 2] (by simp) (by simp)
  have hM : MeshFor outsideR "LGR" 2 (.list [2, 2]) M := hM
  have hj : ∀ p ∈ M.orders, IsJacobiRoots 1 0 (p - 1) (outsideR.lib.jroots (p - 1) 1 0) :=
    fun p _ => libR_jacobi 1 0 (p - 1)
  have hI := hM.lgr_inside (by norm_num [outsideR]) (by rw [ho]; simp) hj
  obtain ⟨T, hT, hTw⟩ := exists_samples_of ocpR M kinkR fun _ _ => 1 / 2
  have hw : WidthsAre ocpR 2 none T := by intro ph _ s _; rw [hTw]; norm_num
  have one : ∀ {P : Nat → Prop}, P 0 → ∀ ph < ocpR.nPhases, P ph := by
    intro P h ph hp
    obtain rfl : ph = 0 := by simpa [ocpR] using hp
    exact h
  obtain ⟨nlpsol, hfind, hsound⟩ := exists_finder (V := Nat) fun c z => c.IsSolution z
  obtain ⟨⟨s, p, r⟩, hout⟩ := C56_solve (ocp := ocpR) (w := outsideR) (a := argsR) (n := 2) (ptp := [[0]]) (rx := false)
    (rdx := true) hv hs hsc hM (by rw [ho]; rfl) (by norm_num [outsideR]) rfl (by simp [GoodWidths, argsR])
    (one (by simp [ocpR, entry])) (by simp) hfind hI kinkR_solves hT hw
    (one (P := fun ph => FullWidths M T ph) (halves ho (C := kinkR) rfl rfl hw).1)
    (one (P := fun ph => ∀ j < ocpR.nx, PiecewisePoly M.orders.length M.order (kinkR.breakTime T.w ph) (kinkR.x ph j))
      (kinkR_poly ho hw).1)
    (one (P := fun ph => ocpR.midu.getD ph false = true → _) (fun h => by simp [ocpR] at h))
    (one (P := fun ph => ocpR.duContinuity.getD ph false = false) rfl)
    (one (P := fun ph => ocpR.diffU.getD ph false = false) rfl)
  obtain ⟨S, h1, h2, h3⟩ := C58_solve hout hv hs hsc hM hI hsound
  exact ⟨M, nlpsol, (s, p, r), S, hM, hout, h1, fun C hS e0 e1 hx hF =>
    h3 C hS 0 Nat.one_pos (by rw [e0, e1]; norm_num) (halves ho e0 e1 h2).1 hx hF⟩

/-- `C78_solve` and `C83_solve`: with enough LGR segments of order 2, `solve` returns for the problem of decay with a solver that finds
points within `ν / n`, and the objective at the node values of `e^-t` is near `(1 - e^-2) / 2`. -/
theorem exampleCallsFine {ν η : ℝ} (hν : 0 < ν) (hη : 0 < η) : ∃ N : Nat, ∀ n, N ≤ n → ∃ (M : Mesh ℝ) (T : Traj ℝ),
    Samples ocpDecay M (expAt (-1)) T ∧
    (∃ c : SolverCall ℝ Nat, |c.solver.problem.f (c.point (ocpDecay.packVec M.N T)) - (1 - Real.exp (-2)) / 2| ≤ η ∧
      ∀ (nlpsol : SolverCall ℝ Nat → Py (List ℝ)) (z : List ℝ), nlpsol c = .ok z → z.length = c.solver.problem.x.length →
        ∃ out, mpSolve outsideR nlpsol ocpDecay [[0]] n (.list (List.replicate n 2)) "LGR" argsR false true = .ok out) ∧
    ∀ nlpsol, (∀ c, (∃ z, c.NearSolution 0 (ν / n) z) → ∃ z, nlpsol c = .ok z ∧ c.NearSolution 0 (ν / n) z) →
      ∃ out, mpSolve outsideR nlpsol ocpDecay [[0]] n (.list (List.replicate n 2)) "LGR" argsR false true = .ok out := by
  obtain ⟨hv, hs, hsc⟩ := ocpDecay_ready
  obtain ⟨ρ, h0, hρ⟩ := C83_solve (ocp := ocpDecay) (w := outsideR) (a := argsR) (scheme := "LGR") (ptp := [[0]]) (rx := false)
    (rdx := true) (P := [2]) hv hs hsc (by norm_num [outsideR]) rfl (decay_one (by simp [ocpDecay, ocpR, entry])) (by simp)
    (expAt_solves (a := -1) le_rfl (by norm_num)) (expAt_smooth (-1))
    (decay_one (P := fun ph => ocpDecay.duContinuity.getD ph false = false) rfl)
    (decay_one (P := fun ph => ocpDecay.diffU.getD ph false = false) rfl) hν
  obtain ⟨ρ', h0', hρ'⟩ := C78_solve (ocp := ocpDecay) (w := outsideR) (a := argsR) (ptp := [[0]]) (rx := false) (rdx := true)
    (P := [2]) hv hs hsc (by norm_num [outsideR]) rfl (decay_one (by simp [ocpDecay, ocpR, entry])) (by simp) (by simp)
    decay_jacobi (expAt_costs (-1)) hη
  obtain ⟨N, hN⟩ := exists_nat_ge (1 / min ρ ρ')
  refine ⟨max N 1, fun n hn => ?_⟩
  have hn0 : 0 < n := (le_max_right _ _).trans hn
  have hnr : (0 : ℝ) < n := by exact_mod_cast hn0
  obtain ⟨M, hM, ho⟩ := exists_lgr_mesh (List.replicate n 2) (by simp; omega) (by intro p hp; simp [(List.mem_replicate.1 hp).2])
  have hlen : M.orders.length = n := by rw [ho]; simp
  rw [List.length_replicate] at hM
  have hmem : ∀ q ∈ M.orders, q ∈ [2] := by rw [ho]; intro q hq; simp [(List.mem_replicate.1 hq).2]
  have hI := hM.lgr_inside (by norm_num [outsideR]) (fun q hq => by rw [List.mem_singleton.1 (hmem q hq)])
    (fun q hq => decay_jacobi q (hmem q hq))
  obtain ⟨T, hS, hw⟩ := exists_samples_of ocpDecay M (expAt (-1)) fun _ _ => 1 / (n : ℝ)
  have hwid : WidthsAre ocpDecay n none T := fun ph hp s hs => by rw [hw]
  have hlast : ∀ ph < ocpDecay.nPhases, M.Lasts T ph (1 / n) := by
    intro ph hp s hs
    rw [hw, hS.t0 ph hp, hS.tf ph hp]
    simp [expAt]
  have c1 : 1 / min ρ ρ' ≤ n := hN.trans (by exact_mod_cast (le_max_left _ _).trans hn)
  rw [div_le_iff₀ (lt_min h0 h0')] at c1
  have hfine : ∀ r, min ρ ρ' ≤ r → FineSamples ocpDecay outsideR.tau0 outsideR.tau1
      (tausFn outsideR.lib outsideR.tau0 outsideR.tau1 "LGR") [2] r (expAt (-1)) M T := fun r hr =>
    ⟨⟨hM.good, hI, hM.tau0, hM.tau1, hmem, hM.nodes⟩, hS, fun ph hp => hwid.equal_full hlen hn0 hp,
      fun ph hp s hs => (hlast ph hp s hs).trans (by rw [div_le_iff₀ hnr]; nlinarith)⟩
  refine ⟨M, T, hS, ?_, fun nlpsol hfind => ?_⟩
  · have := hρ' n (.list (List.replicate n 2)) M T hM hlen (by simp [GoodWidths, argsR]) hwid (hfine _ (min_le_right _ _))
    rwa [expAt_cost] at this
  · exact hρ n (.list (List.replicate n 2)) M T (1 / n) nlpsol hM hlen (by simp [GoodWidths, argsR]) hwid
      (hfine _ (min_le_left _ _)) hlast (by rw [mul_one_div]; exact hfind)

end MPOpt
