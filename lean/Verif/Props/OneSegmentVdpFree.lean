import Verif.Props.OneSegmentFree
import Verif.Props.OneSegmentVdp
import Verif.Props.BackwardEnd

/-! # C112: the Van der Pol fixture with `mpopt_adaptive` and `mpopt_h_adaptive` -/

set_option autoImplicit false

namespace MPOpt

variable {M : Mesh ℝ} {V : Type} {scheme : String} {arg : OrdersArg} {p d : Nat}
variable {ptp : List (List Nat)} {rx rdx : Bool} {po : Post ℝ} {r : Option (PyDict (ResidVal ℝ))}

/-- **C112** `mpopt_adaptive` on the problem of the fixtures with one segment: the cost is between `30/103` and `20`. -/
theorem C112_fixture_adaptive {o : Outside ℝ V} {nlpsol : SolverCall ℝ V → Py (List ℝ)} {lb ub tol : ℝ} {mid : Bool}
    {s s' : AdaptOpt ℝ V} (hf : s.Ready o ocpFix 1 arg scheme [lb] [ub] [tol] mid) (hlb : 0 ≤ lb) (htol : 0 ≤ tol)
    (hM : MeshFor o scheme 1 arg M) (h : OneSegment o.lib scheme p d) (hp2 : 2 ≤ p) (ho : M.orders = [p]) (hlt : o.tau0 < o.tau1)
    (hopt : ∀ c z, nlpsol c = .ok z → c.IsOptimal z) (earlier : List (SolveArgs ℝ V)) (a : SolveArgs ℝ V)
    {z : List ℝ} (hrun : (s.run o nlpsol earlier).solve o nlpsol a = (s', .ok z))
    (hp : s'.processResults o ptp false rx rdx = .ok (po, r)) :
    ∃ T W J, compQuadWeights ⟨o.method, o.tau0, o.tau1, tausFn o.lib o.tau0 o.tau1 scheme⟩ M.orders = .ok W ∧
      SolvesAdaptive ocpFix M T [lb] [ub] [tol] mid ∧ po.Shows ocpFix M T ∧ PhysCost ocpFix M W T J ∧ 30 / 103 ≤ J ∧ J ≤ 20 := by
  obtain ⟨T, W, J, h1, h2, h3, h4, h5⟩ := C112_adaptive_rest ocpFix_ready restFix_holds restFix_costs hf rfl rfl rfl
    (by simpa using hlb) (by simpa using htol) hM h ho hlt hopt earlier a hrun hp
  rw [restFix_cost] at h5
  exact ⟨T, W, J, h1, h2, h3, h4, C112_certificate certFix_proves ocpFix_ready.1 h hM ho hlt (certFix_fits h hp2).1
    (certFix_fits h hp2).2 h1 h2.1.core (fun ph hp => by simpa [ho] using (h2.1.widths ph hp).sum)
    (C107_forward fix_times h2.1.bounds h2.1.links) h4, h5⟩

/-- **C112** `mpopt_h_adaptive` on it, too. -/
theorem C112_fixture_h {wh : HOutside ℝ V} {nlpsolH : Nat → Nat → SolverCall ℝ V → Py (PyDict V)} {lbh ubh tol : List ℝ}
    {sh : HOpt ℝ V} (hf : sh.Ready wh ocpFix 1 arg scheme lbh ubh tol)
    (hM : MeshFor wh.toOutside scheme 1 arg M) (h : OneSegment wh.lib scheme p d) (hp2 : 2 ≤ p) (ho : M.orders = [p])
    (hlt : wh.tau0 < wh.tau1)
    (hopt : ∀ n k c sol, nlpsolH n k c = .ok sol → ∃ z, Returned wh sol z ∧ c.IsOptimal z)
    {calls : List (HStart V × HArgs V)} (hown : OwnStarts calls) {s' : HOpt ℝ V} {sol : PyDict V}
    (hrun : sh.run wh nlpsolH calls 0 none = (s', some sol))
    (hp : s'.processResults wh sol ptp false rx rdx = .ok (po, r)) (hwid : GoodWidths ocpFix 1 s'.widths) :
    ∃ T W J, compQuadWeights ⟨wh.method, wh.tau0, wh.tau1, tausFn wh.lib wh.tau0 wh.tau1 scheme⟩ M.orders = .ok W ∧
      SolvesOCP ocpFix M T ∧ po.Shows ocpFix M T ∧ PhysCost ocpFix M W T J ∧ 30 / 103 ≤ J ∧ J ≤ 20 := by
  obtain ⟨T, W, J, h1, h2, h3, h4, h5, h6⟩ := C112_h_rest ocpFix_ready restFix_holds restFix_costs hf hM h ho hlt hopt hown hrun hp hwid
  rw [restFix_cost] at h6
  have hw : WidthsAre ocpFix 1 s'.widths T := by rw [h4]; rfl
  exact ⟨T, W, J, h1, h2, h3, h5, C112_certificate (w := wh.toOutside) certFix_proves ocpFix_ready.1 h hM ho hlt
    (certFix_fits h hp2).1 (certFix_fits h hp2).2 h1 h2.1.core (hw.one hwid)
    (C107_forward fix_times h2.1.bounds h2.1.links) h5, h6⟩

end MPOpt
