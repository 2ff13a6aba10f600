import Verif.Props.Existence
import Verif.Props.ExactFreeExample

/-! # C70: `mpopt_h_adaptive` with a perfect solver returns -/

set_option autoImplicit false
set_option linter.unusedSectionVars false

namespace MPOpt

/-- A solver object that finds a global minimum whenever there is one, and reports nothing else. -/
structure PerfectH {V : Type} (w : HOutside ℝ V) (nlpsol : Nat → Nat → SolverCall ℝ V → Py (PyDict V)) : Prop where
  sound : ∀ i k c sol, nlpsol i k c = .ok sol → ∃ z, Returned w sol z ∧ c.IsOptimal z
  complete : ∀ i k c z, c.IsOptimal z → ∃ sol, nlpsol i k c = .ok sol

/-- There is one, over the numbers outside of the library used in the examples. -/
theorem exists_perfectH : ∃ nlpsol, PerfectH outsideRH nlpsol := by
  classical
  obtain ⟨f, hf⟩ := exists_perfect (V := List ℝ)
  refine ⟨fun _ _ c => (f c).map fun z => [("x", z)], fun i k c sol h => ?_, fun i k c z h => ?_⟩
  · cases hz : f c with
    | error e => rw [hz] at h; cases h
    | ok z =>
      rw [hz] at h; cases h
      exact ⟨z, ⟨_, rfl, rfl⟩, hf.sound c z hz⟩
  · obtain ⟨z', h'⟩ := hf.complete c z h
    exact ⟨_, by rw [h']; rfl⟩

variable {ocp : OCP ℝ} {M : Mesh ℝ}

variable {V : Type} {w : HOutside ℝ V} {nlpsol : Nat → Nat → SolverCall ℝ V → Py (PyDict V)} {ptp : List (List Nat)} {n : Nat}
  {arg : OrdersArg} {scheme : String} {rx rdx : Bool} {lbh ubh tol : List ℝ} {s : HOpt ℝ V}

/-- **C70** Any calls of `solve` on an `mpopt_h_adaptive` object with a perfect solver, none of them with the equal-area method: they
return, for a continuous problem that at all valid widths has a feasible trajectory and bounded sublevel sets, and whose phases last if
the control-slope method is asked for. What is shown is a cheapest trajectory with the widths the refinement came to, and these are
positive and add up to one. -/
theorem C70_h (hf : s.Ready w ocp n arg scheme lbh ubh tol) (hv : ValidOCP ocp) (hs : ocp.SettingsOK)
    (hsc : ocp.PosScales) (hM : MeshFor w.toOutside scheme n arg M) (hlt : w.tau0 < w.tau1)
    (hord : ∀ q ∈ M.orders, (M.nodes q).Pairwise (· < ·))
    (hlb : lbh.length = ocp.nPhases) (hub : ubh.length = ocp.nPhases) (htol : tol.length = ocp.nPhases)
    (hgt : s.gridType = List.replicate ocp.nPhases "fixed") (htc : 0 ≤ s.tolChange)
    (hwid : ∀ p, s.widths = some p → ValidWidths n ocp.nPhases p)
    (hbox : ∀ (ph : Nat) (l u : ℝ), lbh[ph]? = some l → ubh[ph]? = some u → 0 < l ∧ l ≤ u)
    (hnorm : ∀ l, 0 ≤ w.norm l)
    (ht : ∀ ph < ocp.nPhases, entry ocp.t00 ph 0 0 ≠ entry ocp.tf0 ph 0 0)
    {calls : List (HStart V × HArgs V)} (hcne : calls ≠ []) (ho : OwnStarts calls)
    (hcalls : ∀ c ∈ calls, 0 < c.2.maxIter ∧
      w.accepts c.2.plugin (solverOptions w.vals c.2.plugin (hSolverDict w.zero c.2.options)) = true)
    (harea : ¬ UsesArea calls)
    (hslope : UsesSlope calls → ∀ T, SolvesOCP ocp M T → ∀ ph < ocp.nPhases, T.t0 ph < T.tf ph) (hptp : ptp ≠ [])
    (hc : CtsOCP ocp)
    (hne : ∀ l, ValidWidths n ocp.nPhases l → ∃ T, SolvesOCP ocp M T ∧ WidthsAre ocp n (some l) T)
    (hbd : ∀ W, compQuadWeights ⟨w.method, w.tau0, w.tau1, tausFn w.lib w.tau0 w.tau1 scheme⟩ M.orders = .ok W →
      ∀ l, ValidWidths n ocp.nPhases l → ∀ J₀, ∃ R, ∀ T J, SolvesOCP ocp M T → WidthsAre ocp n (some l) T →
        PhysCost ocp M W T J → J ≤ J₀ → BoundedBy ocp M R T)
    (hperf : PerfectH w nlpsol) :
    ∃ s' sol q p r T W J, s.run w nlpsol calls 0 none = (s', some sol) ∧ s'.widths = some q ∧ ValidWidths n ocp.nPhases q ∧
      s'.processResults w sol ptp false rx rdx = .ok (p, r) ∧
      compQuadWeights ⟨w.method, w.tau0, w.tau1, tausFn w.lib w.tau0 w.tau1 scheme⟩ M.orders = .ok W ∧
      SolvesOCP ocp M T ∧ WidthsAre ocp n (some q) T ∧ p.Shows ocp M T ∧ PhysCost ocp M W T J ∧
      ∀ T' J', SolvesOCP ocp M T' → WidthsAre ocp n (some q) T' → PhysCost ocp M W T' J' → J ≤ J' := by
  have hn : M.orders.length = n := by rw [OrdersArg.Means.unique hM.orders hf.orders]; exact hf.length
  obtain ⟨d, honM, h1, h2, hWeq, hco⟩ := hf.coherent hM
  have hso : s.ocp = ocp := hf.ocp
  have hsn : s.nSegments = n := hf.nSegments
  have hsolver : ∀ i k c, Asked w s c → ∃ sol, nlpsol i k c = .ok sol ∧
      Usable w s M (UsesSlope calls) (UsesArea calls) c.p sol := by
    intro i k c ⟨d', k1, k2, k3, k4⟩
    obtain rfl : d = d' := Except.ok.inj (hco.disc.symm.trans k1)
    rw [hso, hsn] at k4
    have hseg : d.widthParams.length = n * ocp.nPhases := by
      unfold Disc.widthParams; rw [h1, h2]; simp [Nat.mul_comm]
    obtain ⟨hsol, hobj⟩ := call_trajectories (req := some c.p) honM (by rw [h1]; exact hv) (by rw [h1]; exact hs)
      (by rw [h1]; exact hsc) k2 k3 (by rw [hseg]; exact k4.1) rfl
    rw [h1, h2] at hsol hobj
    obtain ⟨T, J, ⟨m1, m2⟩, m3, m4⟩ := exists_cheapest hM.good hc (weights_length hM hWeq) hv.runningCosts
      (P := fun T => SolvesOCP ocp M T ∧ WidthsAre ocp n (some c.p) T)
      (fun {S T} h hS => ⟨h.solves hs hS.1, hS.2.iff.2 fun ph hp s hs => h.w ph hp s (by omega)⟩)
      (fun {S σ} hσ h => ⟨closure_solves hσ hc fun τ hτ => (h τ hτ).1, closure_widthsAre hσ fun τ hτ => (h τ hτ).2⟩)
      (fun J₀ => by
        obtain ⟨R, hR⟩ := hbd _ hWeq c.p k4 J₀
        exact ⟨R, fun T J hT => hR T J hT.1 hT.2⟩) (hne c.p k4)
    have hopt : c.IsOptimal (ocp.packVec M.N T) := by
      refine ⟨(hsol _).2 ⟨T, m1, m2, rfl⟩, fun z hz => ?_⟩
      obtain ⟨T', g1, g2, rfl⟩ := (hsol z).1 hz
      rw [hobj T J m2 m3, hobj T' _ g2 (physCost_costOf _ T')]
      exact m4 T' _ ⟨g1, g2⟩ (physCost_costOf _ T')
    obtain ⟨sol, hk⟩ := hperf.complete i k c _ hopt
    obtain ⟨z, hz, hzo⟩ := hperf.sound i k c sol hk
    obtain ⟨T', g1, g2, rfl⟩ := (hsol z).1 hzo.sol
    refine ⟨sol, hk, ⟨T', ⟨by rw [hso]; exact hz, ?_⟩, fun hu => by rw [hso]; exact hslope hu T' g1⟩, fun h => absurd h harea⟩
    rw [hso, hn]
    exact (show ocp.packWidths n T' = c.p from g2).symm
  obtain ⟨s', sol, q, r1, r2, r3, ⟨p, r⟩, r4⟩ := C62_h_returns (ptp := ptp) (rx := rx) (rdx := rdx) hf hv hs hsc hM hlt hord hlb hub
    htol hgt htc hwid hbox hnorm ht hcne ho hcalls hsolver hptp
  obtain ⟨T, W, J, g1, g2, g3, g4, g5, g6⟩ := C60_h_optimal hf hv hs hsc hM hperf.sound ho r1 r4
  have hq : q = ocp.packWidths n T := by rw [r2] at g4; exact Option.some.inj g4
  refine ⟨s', sol, q, p, r, T, W, J, r1, r2, r3, r4, g1, g2, hq.symm, g3, g5, fun T' J' k1 k2 k3 => g6 T' J' k1 ?_ k3⟩
  rw [r2, ← (show ocp.packWidths n T' = q from k2)]

end MPOpt
