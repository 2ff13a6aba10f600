import Verif.Props.Existence

/-! # C70: `mpopt_adaptive` on problems without finite bounds -/

set_option autoImplicit false
set_option linter.unusedSectionVars false

namespace MPOpt

variable {ocp : OCP ℝ} {M : Mesh ℝ}

variable {V : Type} {w : Outside ℝ V} {nlpsol : SolverCall ℝ V → Py (List ℝ)} {ptp : List (List Nat)} {n : Nat}
  {arg : OrdersArg} {scheme : String} {rx rdx : Bool}

/-- **C70** `mpopt_adaptive.solve` with a perfect solver returns, for a continuous problem that has an
admissible trajectory and bounded sublevel sets; what is shown is a cheapest one. -/
theorem C70_adaptive_sublevel {lbh ubh tol : List ℝ} {mid : Bool} {s : AdaptOpt ℝ V} {a : SolveArgs ℝ V}
    (hf : s.Ready w ocp n arg scheme lbh ubh tol mid)
    (hv : ValidOCP ocp) (hs : ocp.SettingsOK) (hsc : ocp.PosScales) (hlb : lbh.length = ocp.nPhases)
    (hub : ubh.length = ocp.nPhases) (htol : tol.length = ocp.nPhases) (hM : MeshFor w scheme n arg M)
    (hlt : w.tau0 < w.tau1) (hgt : s.gridType = List.replicate ocp.nPhases "fixed")
    (hacc : w.accepts a.plugin (solverOptions w.vals a.plugin a.options) = true)
    (hpos : ∀ v ∈ lbh, 0 < v)
    (ht : ∀ ph < ocp.nPhases, entry ocp.t00 ph 0 0 ≠ entry ocp.tf0 ph 0 0) (hptp : ptp ≠ [])
    (hc : CtsOCP ocp) (hne : ∃ T, SolvesAdaptive ocp M T lbh ubh tol mid)
    (hbd : ∀ W, compQuadWeights ⟨w.method, w.tau0, w.tau1, tausFn w.lib w.tau0 w.tau1 scheme⟩ M.orders = .ok W →
      ∀ J₀, ∃ R, ∀ T J, SolvesAdaptive ocp M T lbh ubh tol mid → PhysCost ocp M W T J → J ≤ J₀ → BoundedBy ocp M R T)
    (hperf : Perfect nlpsol) :
    ∃ z p r T W J, (s.solve w nlpsol a).2 = .ok z ∧
      (s.solve w nlpsol a).1.processResults w ptp false rx rdx = .ok (p, r) ∧
      compQuadWeights ⟨w.method, w.tau0, w.tau1, tausFn w.lib w.tau0 w.tau1 scheme⟩ M.orders = .ok W ∧
      SolvesAdaptive ocp M T lbh ubh tol mid ∧ p.Shows ocp M T ∧ PhysCost ocp M W T J ∧
      ∀ T' J', SolvesAdaptive ocp M T' lbh ubh tol mid → PhysCost ocp M W T' J' → J ≤ J' := by
  obtain ⟨c, W, hWeq, hsol, hobj, hret⟩ := C54_adaptive_returns (a := a) (ptp := ptp) (rx := rx) (rdx := rdx) hf hv hs hsc
    hlb hub htol hM hlt hgt hacc hpos ht hptp
  obtain ⟨T, J, k1, k3, k4⟩ := exists_cheapest hM.good hc (weights_length hM hWeq) hv.runningCosts
    (P := fun T => SolvesAdaptive ocp M T lbh ubh tol mid)
    (fun {S T} h hS => h.solvesAdaptive hs hS)
    (fun {S σ} hσ h => closure_solvesAdaptive hσ hc h)
    (hbd W hWeq) hne
  obtain ⟨z, hz, hzc⟩ := hobj T J k1 k3
  have hopt : c.IsOptimal z := by
    refine ⟨hz, fun z' hz' => ?_⟩
    obtain ⟨T', h1, h2⟩ := hsol z' hz'
    rw [hzc]
    exact k4 T' _ h1 h2
  obtain ⟨z, hz⟩ := hperf.complete c _ hopt
  obtain ⟨g1, ⟨p, r⟩, g2⟩ := hret nlpsol z hz (hperf.sound c z hz).sol
  obtain ⟨T, W, J, h⟩ := C55_adaptive_optimal hf hv hs hsc hlb hub htol hM hperf.sound [] a (Prod.ext rfl g1) g2
  exact ⟨z, p, r, T, W, J, g1, g2, h⟩

end MPOpt
