import Verif.Props.OneSegment

/-! # C112 for `mpopt_adaptive` and `mpopt_h_adaptive` -/

set_option autoImplicit false

namespace MPOpt
open Polynomial

variable {M : Mesh ℝ} {ocp : OCP ℝ} {V : Type} {scheme : String} {arg : OrdersArg} {p d : Nat} {c : Certificate} {lower : ℝ}
variable {ptp : List (List Nat)} {rx rdx : Bool} {po : Post ℝ} {r : Option (PyDict (ResidVal ℝ))} {lbh ubh tol : List ℝ}

/-- **C112** Certificates bound what `mpopt_adaptive` shows on one segment per phase, for each node scheme and any limits on widths: the
sum of the widths leaves no choice. -/
theorem C112_adaptive_certificate {w : Outside ℝ V} (hc : c.Proves ocp lower) {nlpsol : SolverCall ℝ V → Py (List ℝ)}
    {s s' : AdaptOpt ℝ V} {mid : Bool} (hf : s.Ready w ocp 1 arg scheme lbh ubh tol mid)
    (hv : ValidOCP ocp) (hs : ocp.SettingsOK) (hsc : ocp.PosScales) (hlb : lbh.length = ocp.nPhases)
    (hub : ubh.length = ocp.nPhases) (htol : tol.length = ocp.nPhases) (hM : MeshFor w scheme 1 arg M)
    (h : OneSegment w.lib scheme p d) (ho : M.orders = [p]) (hlt : w.tau0 < w.tau1)
    (hprice : ∀ ph < ocp.nPhases, ∀ j < ocp.nx, (c.price ph j).natDegree + p ≤ d + 1)
    (hfree : ∀ ph < ocp.nPhases, (c.free ph).natDegree ≤ d + 1)
    (hsound : ∀ c z, nlpsol c = .ok z → c.IsSolution z) (earlier : List (SolveArgs ℝ V)) (a : SolveArgs ℝ V)
    {z : List ℝ} (hrun : (s.run w nlpsol earlier).solve w nlpsol a = (s', .ok z))
    (hp : s'.processResults w ptp false rx rdx = .ok (po, r)) :
    ∃ T, SolvesAdaptive ocp M T lbh ubh tol mid ∧ po.Shows ocp M T ∧
      ∀ W, compQuadWeights ⟨w.method, w.tau0, w.tau1, tausFn w.lib w.tau0 w.tau1 scheme⟩ M.orders = .ok W →
        AtLeast lower ocp M W T := by
  obtain ⟨T, hT, hsh, -⟩ := C54_adaptive_feasible hf hv hs hsc hlb hub htol hM hsound earlier a hrun hp
  refine ⟨T, hT, hsh, fun W hW ht J hJ => C112_certificate hc hv h hM ho hlt hprice hfree hW hT.1.core (fun ph hp => ?_) ht hJ⟩
  obtain ⟨h1, -⟩ := hT.1.widths ph hp
  simpa [ho] using h1

/-- **C112** And what `mpopt_h_adaptive` shows, if the refinement ends with positive widths of sum 1. -/
theorem C112_h_certificate {wh : HOutside ℝ V} (hc : c.Proves ocp lower)
    {nlpsolH : Nat → Nat → SolverCall ℝ V → Py (PyDict V)} {sh : HOpt ℝ V}
    (hf : sh.Ready wh ocp 1 arg scheme lbh ubh tol) (hv : ValidOCP ocp) (hs : ocp.SettingsOK) (hsc : ocp.PosScales)
    (hM : MeshFor wh.toOutside scheme 1 arg M) (h : OneSegment wh.lib scheme p d) (ho : M.orders = [p]) (hlt : wh.tau0 < wh.tau1)
    (hprice : ∀ ph < ocp.nPhases, ∀ j < ocp.nx, (c.price ph j).natDegree + p ≤ d + 1)
    (hfree : ∀ ph < ocp.nPhases, (c.free ph).natDegree ≤ d + 1)
    (hsound : ∀ n k c sol, nlpsolH n k c = .ok sol → ∃ z, Returned wh sol z ∧ c.IsSolution z)
    {calls : List (HStart V × HArgs V)} (hown : OwnStarts calls) {s' : HOpt ℝ V} {sol : PyDict V}
    (hrun : sh.run wh nlpsolH calls 0 none = (s', some sol))
    (hp : s'.processResults wh sol ptp false rx rdx = .ok (po, r)) (hwid : GoodWidths ocp 1 s'.widths) :
    ∃ T, SolvesOCP ocp M T ∧ po.Shows ocp M T ∧ s'.widths = some (ocp.packWidths 1 T) ∧
      ∀ W, compQuadWeights ⟨wh.method, wh.tau0, wh.tau1, tausFn wh.lib wh.tau0 wh.tau1 scheme⟩ M.orders = .ok W →
        AtLeast lower ocp M W T := by
  obtain ⟨T, hT, hsh, hw⟩ := C59_h_feasible hf hv hs hsc hM hsound hown hrun hp
  have hw' : WidthsAre ocp 1 s'.widths T := by rw [hw]; rfl
  exact ⟨T, hT, hsh, hw, fun W hW ht J hJ =>
    C112_certificate (w := wh.toOutside) hc hv h hM ho hlt hprice hfree hW hT.1.core (hw'.one hwid) ht hJ⟩

/-- **C112** `mpopt_adaptive` on one segment per phase, with a globally optimal NLP solver: it costs no more than any solution of the
continuous-time problem with polynomials of the degrees of the scheme. Controls are polynomials too, because of the mid-point checks; the
width 1 must be admissible, which it is if anything is shown. -/
theorem C112_adaptive_beats {w : Outside ℝ V} {nlpsol : SolverCall ℝ V → Py (List ℝ)}
    {s s' : AdaptOpt ℝ V} {mid : Bool} (hf : s.Ready w ocp 1 arg scheme lbh ubh tol mid)
    (hv : ValidOCP ocp) (hs : ocp.SettingsOK) (hsc : ocp.PosScales) (hlb : lbh.length = ocp.nPhases)
    (hub : ubh.length = ocp.nPhases) (htol : tol.length = ocp.nPhases) (hM : MeshFor w scheme 1 arg M)
    (h : OneSegment w.lib scheme p d) (ho : M.orders = [p]) (hlt : w.tau0 < w.tau1)
    (hopt : ∀ c z, nlpsol c = .ok z → c.IsOptimal z)
    (hdf : ∀ ph < ocp.nPhases, ocp.diffU.getD ph false = false) (ht0 : mid = true → ∀ v ∈ tol, 0 ≤ v)
    (earlier : List (SolveArgs ℝ V)) (a : SolveArgs ℝ V)
    {z : List ℝ} (hrun : (s.run w nlpsol earlier).solve w nlpsol a = (s', .ok z))
    (hp : s'.processResults w ptp false rx rdx = .ok (po, r)) :
    ∃ T W J, compQuadWeights ⟨w.method, w.tau0, w.tau1, tausFn w.lib w.tau0 w.tau1 scheme⟩ M.orders = .ok W ∧
      SolvesAdaptive ocp M T lbh ubh tol mid ∧ po.Shows ocp M T ∧ PhysCost ocp M W T J ∧
      ∀ C, SolvesContinuously ocp C →
        (∀ ph < ocp.nPhases, ∀ j < ocp.nx, ∃ P : ℝ[X], P.natDegree ≤ p ∧ ∀ t ∈ Set.Icc (C.t0 ph) (C.tf ph), C.x ph j t = P.eval t) →
        (∀ ph < ocp.nPhases, ∀ j < ocp.nu, ∃ P : ℝ[X], P.natDegree ≤ p ∧ ∀ t ∈ Set.Icc (C.t0 ph) (C.tf ph), C.u ph j t = P.eval t) →
        (∀ ph < ocp.nPhases, ∃ P : ℝ[X], P.natDegree ≤ d ∧ ∀ t ∈ Set.Icc (C.t0 ph) (C.tf ph),
          ocp.runningCosts.getD ph (fun _ => 0) (ocp.cArg C ph t) = P.eval t) →
        J ≤ ocp.trueCost C := by
  obtain ⟨T, W, J, h1, h2, h3, h4, h5⟩ := C55_adaptive_optimal hf hv hs hsc hlb hub htol hM hopt earlier a hrun hp
  obtain ⟨hI, hW, -⟩ := C112_integrates h hM ho hlt h1
  have hlen1 : M.orders.length = 1 := by rw [ho]; rfl
  have hord : M.order 0 = p := by simp [Mesh.order, ho]
  have hz : ∀ s < M.orders.length, s = 0 := fun s hs => by omega
  refine ⟨T, W, J, h1, h2, h3, h4, fun C hC hx hu hc => ?_⟩
  obtain ⟨T', hT', hw'⟩ := exists_samples_of ocp M C T.w
  have hww : ∀ ph < ocp.nPhases, T'.w 0 ph = 1 := fun ph hp => by
    rw [hw']; simpa [ho] using (h2.1.widths ph hp).sum
  have hb : ∀ ph < ocp.nPhases, C.breakTime T'.w ph 0 = C.t0 ph ∧ C.breakTime T'.w ph (0 + 1) = C.tf ph := fun ph hp => by
    simp [CTraj.breakTime, hww ph hp]
  have hfw : ∀ ph < ocp.nPhases, FullWidths M T' ph := fun ph hp => by
    refine ⟨fun s hs => ?_, by rw [hlen1]; simpa using hww ph hp⟩
    obtain rfl := hz s hs
    rw [hww ph hp]; norm_num
  refine h5 T' _ (C63_exact_feasible hM.good hI hC hs.linkRange hT' hfw (fun ph hp j hj s hs' => ?_)
    (fun ph hp j hj s hs' => ?_) hdf (fun ph hp s hs' => ?_) fun hm ph hp => ?_)
    (C57_cost hM.good hI hW hv.runningCosts hT' hfw (fun ph hp => (hC.phase ph hp).order) fun ph hp s hs' => ?_)
  · obtain rfl := hz s hs'
    rw [(hb ph hp).1, (hb ph hp).2, hord]; exact hx ph hp j hj
  · obtain rfl := hz s hs'
    rw [(hb ph hp).1, (hb ph hp).2, hord]; exact hu ph hp j hj
  · rw [hw']; exact ⟨(h2.1.widths ph hp).lower s hs', (h2.1.widths ph hp).upper s hs'⟩
  · rw [List.getD_eq_getElem _ _ (by omega)]
    exact ht0 hm _ (List.getElem_mem _)
  · obtain rfl := hz s hs'
    rw [(hb ph hp).1, (hb ph hp).2]
    obtain ⟨P, h1, h2⟩ := hc ph hp
    exact ⟨P, h1, fun t ht _ => h2 t ht⟩

/-- **C112** And no more than a rest point. -/
theorem C112_adaptive_rest {R : Rest} {rate : Nat → ℝ} {w : Outside ℝ V} {nlpsol : SolverCall ℝ V → Py (List ℝ)}
    (hr : ValidOCP ocp ∧ ocp.SettingsOK ∧ ocp.PosScales) (hR : R.Holds ocp) (hc : R.Costs ocp rate)
    {s s' : AdaptOpt ℝ V} {mid : Bool} (hf : s.Ready w ocp 1 arg scheme lbh ubh tol mid) (hlb : lbh.length = ocp.nPhases)
    (hub : ubh.length = ocp.nPhases) (htol : tol.length = ocp.nPhases) (hlbn : ∀ l ∈ lbh, 0 ≤ l) (htoln : ∀ l ∈ tol, 0 ≤ l)
    (hM : MeshFor w scheme 1 arg M) (h : OneSegment w.lib scheme p d) (ho : M.orders = [p]) (hlt : w.tau0 < w.tau1)
    (hopt : ∀ c z, nlpsol c = .ok z → c.IsOptimal z) (earlier : List (SolveArgs ℝ V)) (a : SolveArgs ℝ V)
    {z : List ℝ} (hrun : (s.run w nlpsol earlier).solve w nlpsol a = (s', .ok z))
    (hp : s'.processResults w ptp false rx rdx = .ok (po, r)) :
    ∃ T W J, compQuadWeights ⟨w.method, w.tau0, w.tau1, tausFn w.lib w.tau0 w.tau1 scheme⟩ M.orders = .ok W ∧
      SolvesAdaptive ocp M T lbh ubh tol mid ∧ po.Shows ocp M T ∧ PhysCost ocp M W T J ∧ J ≤ ocp.restCost R rate := by
  obtain ⟨hv, hs, hsc⟩ := hr
  obtain ⟨T, W, J, h1, h2, h3, h4, h5⟩ := C55_adaptive_optimal hf hv hs hsc hlb hub htol hM hopt earlier a hrun hp
  obtain ⟨hI, hint, -⟩ := C112_integrates h hM ho hlt h1
  have get : ∀ {l : List ℝ}, l.length = ocp.nPhases → (∀ v ∈ l, 0 ≤ v) → ∀ ph < ocp.nPhases, 0 ≤ l.getD ph 0 := by
    intro l hl h ph hp
    rw [List.getD_eq_getElem _ _ (by omega)]
    exact h _ (List.getElem_mem _)
  have hw : ∀ ph < ocp.nPhases, WidthsOK M (R.traj T.w) (lbh.getD ph 0) (ubh.getD ph 0) ph := fun ph hp =>
    ⟨(h2.1.widths ph hp).sum, (h2.1.widths ph hp).lower, (h2.1.widths ph hp).upper⟩
  have hsh : ∀ ph < ocp.nPhases, Shares M (R.traj T.w) ph := fun ph hp =>
    ⟨fun s hs => (get hlb hlbn ph hp).trans ((hw ph hp).lower s hs), (hw ph hp).sum⟩
  exact ⟨T, W, J, h1, h2, h3, h4, h5 _ _ (C111_adaptive_feasible hM.good hI hR (get hlb hlbn) (get htol htoln) hw)
    (C111_cost hM.good hI hR hv.runningCosts hsh hint hc)⟩

/-- **C112** The same for `mpopt_h_adaptive`. -/
theorem C112_h_rest {R : Rest} {rate : Nat → ℝ} {wh : HOutside ℝ V} {nlpsolH : Nat → Nat → SolverCall ℝ V → Py (PyDict V)}
    (hr : ValidOCP ocp ∧ ocp.SettingsOK ∧ ocp.PosScales) (hR : R.Holds ocp) (hc : R.Costs ocp rate)
    {sh : HOpt ℝ V} (hf : sh.Ready wh ocp 1 arg scheme lbh ubh tol)
    (hM : MeshFor wh.toOutside scheme 1 arg M) (h : OneSegment wh.lib scheme p d) (ho : M.orders = [p]) (hlt : wh.tau0 < wh.tau1)
    (hopt : ∀ n k c sol, nlpsolH n k c = .ok sol → ∃ z, Returned wh sol z ∧ c.IsOptimal z)
    {calls : List (HStart V × HArgs V)} (hown : OwnStarts calls) {s' : HOpt ℝ V} {sol : PyDict V}
    (hrun : sh.run wh nlpsolH calls 0 none = (s', some sol))
    (hp : s'.processResults wh sol ptp false rx rdx = .ok (po, r)) (hwid : GoodWidths ocp 1 s'.widths) :
    ∃ T W J, compQuadWeights ⟨wh.method, wh.tau0, wh.tau1, tausFn wh.lib wh.tau0 wh.tau1 scheme⟩ M.orders = .ok W ∧
      SolvesOCP ocp M T ∧ po.Shows ocp M T ∧ s'.widths = some (ocp.packWidths 1 T) ∧ PhysCost ocp M W T J ∧
      J ≤ ocp.restCost R rate := by
  obtain ⟨hv, hs, hsc⟩ := hr
  obtain ⟨T, W, J, h1, h2, h3, h4, h5, h6⟩ := C60_h_optimal hf hv hs hsc hM hopt hown hrun hp
  obtain ⟨hI, hint, -⟩ := C112_integrates (w := wh.toOutside) h hM ho hlt h1
  have hW' : WidthsAre ocp 1 s'.widths (R.traj T.w) := by rw [h4]; rfl
  have hsh : ∀ ph < ocp.nPhases, Shares M (R.traj T.w) ph := fun ph hp => by
    have e := hW'.one hwid ph hp
    refine ⟨fun s hs => ?_, by rw [ho]; simpa using e⟩
    obtain rfl : s = 0 := by rw [ho] at hs; simpa using hs
    rw [e]; norm_num
  exact ⟨T, W, J, h1, h2, h3, h4, h5, h6 _ _ (C111_feasible hM.good hI hR hsh) h4
    (C111_cost hM.good hI hR hv.runningCosts hsh hint hc)⟩

end MPOpt
