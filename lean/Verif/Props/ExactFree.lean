import Verif.Props.Exact
import Verif.Props.AdaptiveEnd
import Verif.Props.HEnd

/-! # C63, C64: exact solutions and the adaptive classes -/

set_option autoImplicit false

namespace MPOpt
open Polynomial

variable {ocp : OCP ℝ} {M : Mesh ℝ} {C : CTraj} {T : Traj ℝ}

/-- The defect of a represented solution is zero inside every segment. -/
theorem exact_defect (hM : M.Good) (hI : M.Inside) (hT : Samples ocp M C T) {ph : Nat} (hp : ph < ocp.nPhases)
    (ht : C.t0 ph < C.tf ph) (hw : FullWidths M T ph) (hD : DynamicsHold ocp C ph)
    (hx : ∀ j < ocp.nx, PiecewisePoly M.orders.length M.order (C.breakTime T.w ph) (C.x ph j))
    (hu : ∀ j < ocp.nu, PiecewisePoly M.orders.length M.order (C.breakTime T.w ph) (C.u ph j))
    {F : VFun (PArg ℝ) ℝ} (hF : ocp.dynamics[ph]? = some F) {j : Nat} (hj : j < ocp.nx) {s : Nat}
    (hs : s < M.orders.length) {tau : ℝ} (h0 : M.tau0 < tau) (h1 : tau ≤ M.tau1) :
    ocp.defect M T F ph s tau j = 0 := by
  obtain ⟨tlt, t1, t2, hu', hx'⟩ := exact_inner hM hI hT hp ht hw hs h0 h1
  have harg : ocp.pArgAt M T ph s tau = ocp.cArg C ph (M.time T ph s tau) := by
    have e1 : ((List.range ocp.nx).map fun j => (M.piece (fun k => T.x ph k j) s).eval tau) =
        (List.range ocp.nx).map fun j => C.x ph j (M.time T ph s tau) :=
      List.map_congr_left fun j hj => hx' j (List.mem_range.1 hj) (hx j (List.mem_range.1 hj))
    have e2 : ((List.range ocp.nu).map fun j => (M.piece (fun k => T.u ph k j) s).eval tau) =
        (List.range ocp.nu).map fun j => C.u ph j (M.time T ph s tau) :=
      List.map_congr_left fun j hj => hu' j (List.mem_range.1 hj) (hu j (List.mem_range.1 hj))
    have e3 : (List.range ocp.na).map (T.a ph) = (List.range ocp.na).map (C.a ph) :=
      List.map_congr_left fun k hk => hT.a ph hp k (List.mem_range.1 hk)
    unfold OCP.pArgAt OCP.cArg
    rw [e1, e2, e3]
  have htb := time_bounds (s := s) hM hI (by rw [hT.t0 ph hp, hT.tf ph hp]; exact ht) hw hs
  obtain ⟨P, hdeg, hPe⟩ := hx j hj s hs
  obtain ⟨b0, b1⟩ := breakTime_eq hM (hT.t0 ph hp) (hT.tf ph hp) s
  rw [b0, b1] at hPe
  have hle : M.time T ph s tau ≤ M.time T ph s M.tau1 := by
    have := mul_le_mul_of_nonneg_left h1 htb.1.le
    unfold Mesh.time; linarith
  unfold OCP.defect
  rw [harg, piece_of_poly hM hI htb.1 hs (hT.x ph hp j hj) hdeg hPe, (M.clockPoly_comp T ph s P _).2.1,
    deriv_left tlt (hD.left F hF j hj _ t1 t2) fun r hr => hPe r ⟨hr.1, hr.2.trans hle⟩]
  ring

/-- **C63** The problem with free segment widths loses no exact solution it can represent with some admissible
widths: node values of a solution of the continuous-time problem whose states and controls are polynomials of the
segment's order on every segment satisfy all its constraints, the mid-point ones included. Bounds on control slopes
are off. -/
theorem C63_exact_feasible (hM : M.Good) (hI : M.Inside) (hC : SolvesContinuously ocp C)
    (hl : ∀ l ∈ ocp.phaseLinks, l.1 < ocp.nPhases ∧ l.2 < ocp.nPhases)
    (hT : Samples ocp M C T) (hw : ∀ ph < ocp.nPhases, FullWidths M T ph)
    (hx : ∀ ph < ocp.nPhases, ∀ j < ocp.nx,
      PiecewisePoly M.orders.length M.order (C.breakTime T.w ph) (C.x ph j))
    (hu : ∀ ph < ocp.nPhases, ∀ j < ocp.nu,
      PiecewisePoly M.orders.length M.order (C.breakTime T.w ph) (C.u ph j))
    (hdf : ∀ ph < ocp.nPhases, ocp.diffU.getD ph false = false) {lbh ubh tol : List ℝ} {mid : Bool}
    (hb : ∀ ph < ocp.nPhases, ∀ s < M.orders.length, lbh.getD ph 0 ≤ T.w s ph ∧ T.w s ph ≤ ubh.getD ph 0)
    (htol : mid = true → ∀ ph < ocp.nPhases, 0 ≤ tol.getD ph 0) : SolvesAdaptive ocp M T lbh ubh tol mid := by
  obtain ⟨k1, k2, k3, k4, k5⟩ := exact_nodes hM hI hC hl hT hw hx
  refine ⟨⟨k1, k2, k3, k4, fun ph hp => ⟨(hw ph hp).sum, fun s hs => (hb ph hp s hs).1, fun s hs => (hb ph hp s hs).2⟩,
    fun ph hp j hj s hs i hi => ?_, fun ph hp j hj s hs i hi => ?_, fun hm ph hp F hF j hj s hs i hi => ?_,
    fun _ => k5⟩, fun ph hp hd => ?_⟩
  · obtain ⟨m1, m2⟩ := hI.mid hM hs hi
    obtain ⟨-, t1, t2, hu', -⟩ := exact_inner hM hI hT hp (hC.phase ph hp).order (hw ph hp) hs m1 m2
    rw [hu' j hj (hu ph hp j hj)]
    exact (hC.phase ph hp).u _ ⟨t1.le, t2⟩ j hj
  · obtain ⟨m1, m2⟩ := hI.mid hM hs hi
    obtain ⟨-, t1, t2, -, hx'⟩ := exact_inner hM hI hT hp (hC.phase ph hp).order (hw ph hp) hs m1 m2
    rw [hx' j hj (hx ph hp j hj)]
    refine (hC.phase ph hp).x _ ⟨t1.le, t2⟩ ?_ j hj
    rintro ⟨rfl, e⟩
    exact absurd e t1.ne'
  · obtain ⟨m1, m2⟩ := hI.mid hM hs hi
    rw [exact_defect hM hI hT hp (hC.phase ph hp).order (hw ph hp) (hC.phase ph hp).dynamics (hx ph hp) (hu ph hp)
      hF hj hs m1 m2]
    have := htol hm ph hp
    rw [mul_zero, mul_zero]
    exact ⟨neg_nonpos.2 this, this⟩
  · rw [hdf ph hp] at hd; cases hd

variable {V : Type} {w : Outside ℝ V} {nlpsol : SolverCall ℝ V → Py (List ℝ)} {n : Nat} {arg : OrdersArg}
  {lbh ubh tol : List ℝ} {mid rx rdx : Bool} {ptp : List (List Nat)} {s : AdaptOpt ℝ V}

/-- **C63** Lower bound for `mpopt_adaptive` with LGR nodes of order at least 2 and a globally optimal NLP solver: the
cost of the trajectory shown is at most the true cost of every solution of the continuous-time problem for which
there are admissible widths `wd` such that states and controls are polynomials of the segment's order `p`, and the
running cost one of degree at most `2 p - 2`, on every segment. -/
theorem C63_adaptive_beats (hf : s.Ready w ocp n arg "LGR" lbh ubh tol mid) (hv : ValidOCP ocp)
    (hs : ocp.SettingsOK) (hsc : ocp.PosScales) (hlb : lbh.length = ocp.nPhases) (hub : ubh.length = ocp.nPhases)
    (htol : tol.length = ocp.nPhases) (hM : MeshFor w "LGR" n arg M)
    (hlt : w.tau0 < w.tau1) (hord : ∀ q ∈ M.orders, 2 ≤ q)
    (hj : ∀ q ∈ M.orders, IsJacobiRoots 1 0 (q - 1) (w.lib.jroots (q - 1) 1 0))
    (hopt : ∀ c z, nlpsol c = .ok z → c.IsOptimal z)
    (hdf : ∀ ph < ocp.nPhases, ocp.diffU.getD ph false = false) (ht0 : mid = true → ∀ v ∈ tol, 0 ≤ v)
    (earlier : List (SolveArgs ℝ V)) (a : SolveArgs ℝ V)
    {s' : AdaptOpt ℝ V} {z : List ℝ} (hrun : (s.run w nlpsol earlier).solve w nlpsol a = (s', .ok z))
    {p : Post ℝ} {r : Option (PyDict (ResidVal ℝ))} (hp : s'.processResults w ptp false rx rdx = .ok (p, r)) :
    ∃ T W J, compQuadWeights ⟨w.method, w.tau0, w.tau1, tausFn w.lib w.tau0 w.tau1 "LGR"⟩ M.orders = .ok W ∧
      SolvesAdaptive ocp M T lbh ubh tol mid ∧ p.Shows ocp M T ∧ PhysCost ocp M W T J ∧
      ∀ (C : CTraj) (wd : Nat → Nat → ℝ), SolvesContinuously ocp C →
        (∀ ph < ocp.nPhases, ∑ s ∈ Finset.range M.orders.length, wd s ph = 1) →
        (∀ ph < ocp.nPhases, ∀ s < M.orders.length,
          0 < wd s ph ∧ lbh.getD ph 0 ≤ wd s ph ∧ wd s ph ≤ ubh.getD ph 0) →
        (∀ ph < ocp.nPhases, ∀ j < ocp.nx, PiecewisePoly M.orders.length M.order (C.breakTime wd ph) (C.x ph j)) →
        (∀ ph < ocp.nPhases, ∀ j < ocp.nu, PiecewisePoly M.orders.length M.order (C.breakTime wd ph) (C.u ph j)) →
        (∀ ph < ocp.nPhases, LeftPiecewisePoly M.orders.length (fun s => 2 * M.order s - 2) (C.breakTime wd ph)
          fun t => ocp.runningCosts.getD ph (fun _ => 0) (ocp.cArg C ph t)) →
        J ≤ ocp.trueCost C := by
  obtain ⟨T, W, J, h1, h2, h3, h4, h5⟩ := C55_adaptive_optimal hf hv hs hsc hlb hub htol hM hopt earlier a hrun hp
  obtain ⟨hI, hW⟩ := C57_lgr_integrates hM hlt hord hj h1
  refine ⟨T, W, J, h1, h2, h3, h4, fun C wd hC hsum hwd hx hu hc => ?_⟩
  obtain ⟨T', hT', rfl⟩ := exists_samples_of ocp M C wd
  have hfw : ∀ ph < ocp.nPhases, FullWidths M T' ph := fun ph hp => ⟨fun s hs => (hwd ph hp s hs).1, hsum ph hp⟩
  refine h5 T' _ (C63_exact_feasible hM.good hI hC hs.linkRange hT' hfw hx hu hdf
    (fun ph hp s hs => (hwd ph hp s hs).2) fun hm ph hp => ?_)
    (C57_cost hM.good hI hW hv.runningCosts hT' hfw (fun ph hp => (hC.phase ph hp).order) hc)
  rw [List.getD_eq_getElem _ _ (by omega)]
  exact ht0 hm _ (List.getElem_mem _)

variable {wh : HOutside ℝ V} {nlpsolH : Nat → Nat → SolverCall ℝ V → Py (PyDict V)} {sh : HOpt ℝ V}

/-- **C64** Lower bound for `mpopt_h_adaptive` with LGR nodes of order at least 2 and a globally optimal NLP solver:
the cost of the trajectory shown is at most the true cost of every solution of the continuous-time problem that can be
represented on the mesh the refinement ended with: with its widths (if they are positive with sum 1) the states are
polynomials of the segment's order `p`, with `midu` also the controls, and the running cost is a polynomial of degree
at most `2 p - 2`, on every segment. -/
theorem C64_h_beats (hf : sh.Ready wh ocp n arg "LGR" lbh ubh tol) (hv : ValidOCP ocp) (hs : ocp.SettingsOK)
    (hsc : ocp.PosScales) (hM : MeshFor wh.toOutside "LGR" n arg M)
    (hlt : wh.tau0 < wh.tau1) (hord : ∀ q ∈ M.orders, 2 ≤ q)
    (hj : ∀ q ∈ M.orders, IsJacobiRoots 1 0 (q - 1) (wh.lib.jroots (q - 1) 1 0))
    (hopt : ∀ n k c sol, nlpsolH n k c = .ok sol → ∃ z, Returned wh sol z ∧ c.IsOptimal z)
    (hdu : ∀ ph < ocp.nPhases, ocp.duContinuity.getD ph false = false)
    (hdf : ∀ ph < ocp.nPhases, ocp.diffU.getD ph false = false)
    {calls : List (HStart V × HArgs V)} (ho : OwnStarts calls) {s' : HOpt ℝ V} {sol : PyDict V}
    (hrun : sh.run wh nlpsolH calls 0 none = (s', some sol))
    {p : Post ℝ} {r : Option (PyDict (ResidVal ℝ))} (hp : s'.processResults wh sol ptp false rx rdx = .ok (p, r)) :
    ∃ T W J, compQuadWeights ⟨wh.method, wh.tau0, wh.tau1, tausFn wh.lib wh.tau0 wh.tau1 "LGR"⟩ M.orders = .ok W ∧
      SolvesOCP ocp M T ∧ p.Shows ocp M T ∧ s'.widths = some (ocp.packWidths n T) ∧ PhysCost ocp M W T J ∧
      ∀ C : CTraj, SolvesContinuously ocp C → (∀ ph < ocp.nPhases, FullWidths M T ph) →
        (∀ ph < ocp.nPhases, ∀ j < ocp.nx,
          PiecewisePoly M.orders.length M.order (C.breakTime T.w ph) (C.x ph j)) →
        (∀ ph < ocp.nPhases, ocp.midu.getD ph false = true → ∀ j < ocp.nu,
          PiecewisePoly M.orders.length M.order (C.breakTime T.w ph) (C.u ph j)) →
        (∀ ph < ocp.nPhases, LeftPiecewisePoly M.orders.length (fun s => 2 * M.order s - 2) (C.breakTime T.w ph)
          fun t => ocp.runningCosts.getD ph (fun _ => 0) (ocp.cArg C ph t)) →
        J ≤ ocp.trueCost C := by
  obtain ⟨T, W, J, h1, h2, h3, h4, h5, h6⟩ := C60_h_optimal hf hv hs hsc hM hopt ho hrun hp
  obtain ⟨hI, hW⟩ := C57_lgr_integrates hM hlt hord hj h1
  refine ⟨T, W, J, h1, h2, h3, h4, h5, fun C hC hfw hx hu hc => ?_⟩
  obtain ⟨T', hT', hw⟩ := exists_samples_of ocp M C T.w
  have hfw' : ∀ ph < ocp.nPhases, FullWidths M T' ph := fun ph hp =>
    ⟨by rw [hw]; exact (hfw ph hp).pos, by rw [hw]; exact (hfw ph hp).sum⟩
  have hpw : ocp.packWidths n T' = ocp.packWidths n T := by unfold OCP.packWidths; rw [hw]
  rw [← hw] at hx hu hc
  exact h6 T' _ (C56_exact_feasible hM.good hI hC hs.linkRange hT' hfw' hx hu hdu hdf) (by rw [h4, hpw])
    (C57_cost hM.good hI hW hv.runningCosts hT' hfw' (fun ph hp => (hC.phase ph hp).order) hc)

end MPOpt
