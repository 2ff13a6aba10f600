import Verif.Spec.Rest
import Verif.Props.KnownRateEnd
import Verif.Props.Certificate

/-! # C111: rest points are feasible on every mesh and bound the optimal cost -/

set_option autoImplicit false
set_option linter.unusedSectionVars false

namespace MPOpt
open Polynomial

variable {M : Mesh ℝ} {ocp : OCP ℝ} {R : Rest} {w : Nat → Nat → ℝ}

/-- A constant is interpolated by itself. -/
theorem piece_const (hM : M.Good) {s : Nat} (hs : s < M.orders.length) (c : ℝ) : M.piece (fun _ => c) s = C c := by
  have hp := hM.order_mem hs
  unfold Mesh.piece
  have hinj : Set.InjOn (M.node s) (Finset.range (M.order s + 1) : Set Nat) := by
    intro i hi j hj h
    simp only [Finset.coe_range, Set.mem_Iio] at hi hj
    have hl := hM.length _ hp
    simp only [Mesh.node] at h
    rw [List.getD_eq_getElem _ _ (by omega), List.getD_eq_getElem _ _ (by omega)] at h
    exact (hM.nodup _ hp).getElem_inj_iff.1 h
  symm
  refine Lagrange.eq_interpolate_of_eval_eq _ hinj ?_ fun i _ => by simp
  rw [Finset.card_range]
  exact lt_of_le_of_lt degree_C_le (by exact_mod_cast Nat.succ_pos _)

theorem rest_time (hM : M.Good) (hI : M.Inside) (hR : R.Holds ocp) {ph s : Nat} (hp : ph < ocp.nPhases)
    (hw : Shares M (R.traj w) ph) (hs : s < M.orders.length) {tau : ℝ} (h0 : M.tau0 ≤ tau) (h1 : tau ≤ M.tau1) :
    R.t0 ph ≤ M.time (R.traj w) ph s tau ∧ M.time (R.traj w) ph s tau ≤ R.tf ph :=
  have h := Shares.times (T := R.traj w) hM hI (hR.order ph hp) hw hs
  ⟨h.2.1 tau h0, h.2.2 tau h1⟩

theorem rest_bounds (hR : R.Holds ocp) {ph : Nat} (hp : ph < ocp.nPhases) : BoundsOK ocp M (R.traj w) ph :=
  ⟨fun _ j hj => hR.x0 j hj, fun _ _ _ j hj => hR.x ph hp j hj, fun _ _ j hj => hR.u ph hp j hj, hR.t0 ph hp, hR.tf ph hp,
    fun k hk => hR.a ph hp k hk⟩

theorem rest_dynamics (hM : M.Good) (hI : M.Inside) (hR : R.Holds ocp) {ph : Nat} (hp : ph < ocp.nPhases)
    (hw : Shares M (R.traj w) ph) : CollocationOK ocp M (R.traj w) ph := by
  intro F hF j hj s i ho
  obtain ⟨h0, h1⟩ := hI.node hM ho.1 ho.2.1
  obtain ⟨t0, t1⟩ := rest_time hM hI hR hp hw ho.1 h0 h1
  have e : F.f (ocp.pArg (R.traj w) ph (M.idx s i) (M.time (R.traj w) ph s (M.node s i))) j = 0 :=
    hR.still ph hp F hF _ t0 t1 j hj
  rw [e, mul_zero, show M.piece (fun k => (R.traj w).x ph k j) s = C (R.x ph j) from piece_const hM ho.1 _]
  simp

theorem rest_path (hM : M.Good) (hI : M.Inside) (hR : R.Holds ocp) {ph : Nat} (hp : ph < ocp.nPhases)
    (hw : Shares M (R.traj w) ph) : PathOK ocp M (R.traj w) ph := by
  intro F hF s i ho c hc
  obtain ⟨h0, h1⟩ := hI.node hM ho.1 ho.2.1
  obtain ⟨t0, t1⟩ := rest_time hM hI hR hp hw ho.1 h0 h1
  exact hR.path ph hp F hF _ t0 t1 c hc

theorem rest_terminal (hR : R.Holds ocp) {ph : Nat} (hp : ph < ocp.nPhases) : TerminalOK ocp M (R.traj w) ph :=
  fun F hF c hc => hR.terminal ph hp F hF c hc

theorem rest_midControl (hM : M.Good) (hR : R.Holds ocp) {ph : Nat} (hp : ph < ocp.nPhases) :
    MidControlOK ocp M (R.traj w) ph := by
  intro j hj s hs i _
  rw [show M.piece (fun k => (R.traj w).u ph k j) s = C (R.u ph j) from piece_const hM hs _, eval_C]
  exact hR.u ph hp j hj

theorem rest_links (hR : R.Holds ocp) : LinksOK ocp M (R.traj w) :=
  ⟨hR.linkX, hR.linkU, hR.linkT⟩

theorem rest_slope (hM : M.Good) (hR : R.Holds ocp) {ph : Nat} (hp : ph < ocp.nPhases)
    (hd : ocp.diffU.getD ph false = true) (sc : Nat → ℝ) : SlopeBounded ocp M (R.traj w) sc ph := by
  intro j _ s i ho
  rw [show M.piece (fun k => (R.traj w).u ph k j) s = C (R.u ph j) from piece_const hM ho.1 _]
  simpa using hR.slope ph hp hd

/-- **C111** Staying at a rest point solves the collocated problem on every mesh, for every scheme with nodes within the segments, all
orders and all widths that fill the phases, whatever extra conditions on the controls are switched on. -/
theorem C111_feasible (hM : M.Good) (hI : M.Inside) (hR : R.Holds ocp)
    (hw : ∀ ph < ocp.nPhases, Shares M (R.traj w) ph) : SolvesOCP ocp M (R.traj w) := by
  refine ⟨⟨fun ph hp => rest_bounds hR hp, fun ph hp => rest_dynamics hM hI hR hp (hw ph hp),
    fun ph hp => rest_path hM hI hR hp (hw ph hp), fun ph hp => rest_terminal hR hp, fun ph hp _ => rest_midControl hM hR hp,
    fun ph _ _ j _ s hs => ?_, fun _ => rest_links hR⟩, fun ph hp hd => rest_slope hM hR hp hd _⟩
  rw [show M.piece (fun k => (R.traj w).u ph k j) s = C (R.u ph j) from piece_const hM (by omega) _,
    show M.piece (fun k => (R.traj w).u ph k j) (s + 1) = C (R.u ph j) from piece_const hM hs _]
  simp

/-- **C111** The same for the problem with free widths of `mpopt_adaptive`, also with residuals limited between nodes. -/
theorem C111_adaptive_feasible (hM : M.Good) (hI : M.Inside) (hR : R.Holds ocp) {lbh ubh tol : List ℝ} {mid : Bool}
    (hlb : ∀ ph < ocp.nPhases, 0 ≤ lbh.getD ph 0) (htol : ∀ ph < ocp.nPhases, 0 ≤ tol.getD ph 0)
    (hw : ∀ ph < ocp.nPhases, WidthsOK M (R.traj w) (lbh.getD ph 0) (ubh.getD ph 0) ph) :
    SolvesAdaptive ocp M (R.traj w) lbh ubh tol mid := by
  have hsh : ∀ ph < ocp.nPhases, Shares M (R.traj w) ph := fun ph hp =>
    ⟨fun s hs => (hlb ph hp).trans ((hw ph hp).lower s hs), (hw ph hp).sum⟩
  refine ⟨⟨fun ph hp => rest_bounds hR hp, fun ph hp => rest_dynamics hM hI hR hp (hsh ph hp),
    fun ph hp => rest_path hM hI hR hp (hsh ph hp), fun ph hp => rest_terminal hR hp, hw, fun ph hp => rest_midControl hM hR hp,
    fun ph hp j hj s hs i _ => ?_, fun _ ph hp F hF j hj s hs i hi => ?_, fun _ => rest_links hR⟩,
    fun ph hp hd => rest_slope hM hR hp hd _⟩
  · rw [show M.piece (fun k => (R.traj w).x ph k j) s = C (R.x ph j) from piece_const hM hs _, eval_C]
    exact hR.x ph hp j hj
  · obtain ⟨a0, a1⟩ := hI.node hM hs hi.le
    obtain ⟨b0, b1⟩ := hI.node hM hs (Nat.succ_le_of_lt hi)
    obtain ⟨t0, t1⟩ := rest_time hM hI hR hp (hsh ph hp) hs (tau := (M.node s i + M.node s (i + 1)) / 2) (by linarith)
      (by linarith)
    have e : ocp.pArgAt M (R.traj w) ph s ((M.node s i + M.node s (i + 1)) / 2) =
        ocp.restArg R ph (M.time (R.traj w) ph s ((M.node s i + M.node s (i + 1)) / 2)) := by
      unfold OCP.pArgAt OCP.restArg
      congr 1
      · refine List.map_congr_left fun j _ => ?_
        rw [show M.piece (fun k => (R.traj w).x ph k j) s = C (R.x ph j) from piece_const hM hs _, eval_C]
      · refine List.map_congr_left fun j _ => ?_
        rw [show M.piece (fun k => (R.traj w).u ph k j) s = C (R.u ph j) from piece_const hM hs _, eval_C]
    unfold OCP.defect
    rw [e, hR.still ph hp F hF _ t0 t1 j hj, mul_zero,
      show M.piece (fun k => (R.traj w).x ph k j) s = C (R.x ph j) from piece_const hM hs _]
    have h := htol ph hp
    simp only [derivative_C, eval_zero, sub_zero, mul_zero]
    exact ⟨show -(tol.getD ph 0) ≤ 0 from neg_nonpos.2 h, h⟩

/-- **C111** Where quadrature integrates constants, the collocated problem sees the true cost of staying. -/
theorem C111_cost (hM : M.Good) (hI : M.Inside) (hR : R.Holds ocp) (hrc : ocp.runningCosts.length = ocp.nPhases)
    (hw : ∀ ph < ocp.nPhases, Shares M (R.traj w) ph) {W : List ℝ} {deg : Nat → Nat} (hW : M.Integrates W deg)
    {rate : Nat → ℝ} (hc : R.Costs ocp rate) : PhysCost ocp M W (R.traj w) (ocp.restCost R rate) := by
  obtain ⟨v, hv⟩ := exists_samples ocp M (R.traj w)
  refine ⟨v, hv, Finset.sum_congr rfl fun ph hp => ?_⟩
  have hp := Finset.mem_range.1 hp
  have hlt := hI.tau_lt hM
  have e := hW (fun _ => C (rate ph) * X) (fun s => M.halfWidth (R.traj w) ph s) (v ph) (fun s _ => by simp) (by
    intro s hs i hi h0
    have ho : M.Owns s i := ⟨hs, by rwa [Mesh.order, List.getD_eq_getElem _ _ hs], h0⟩
    obtain ⟨h0, h1⟩ := hI.node hM ho.1 ho.2.1
    obtain ⟨t0, t1⟩ := rest_time hM hI hR hp (hw ph hp) hs h0 h1
    have hL : ocp.runningCosts[ph]? = some ocp.runningCosts[ph] := List.getElem?_eq_getElem (by omega)
    have := hv ph hp _ hL s i ho
    rw [show ocp.pArg (R.traj w) ph (M.idx s i) (M.time (R.traj w) ph s (M.node s i)) =
      ocp.restArg R ph (M.time (R.traj w) ph s (M.node s i)) from rfl, hc ph hp _ hL _ t0 t1] at this
    simpa [Mesh.idx] using this)
  rw [e]
  congr 1
  simp only [eval_mul, eval_C, eval_X]
  have hne : M.tau1 - M.tau0 ≠ 0 := (sub_pos.2 hlt).ne'
  rw [Finset.sum_congr rfl fun s _ => show M.halfWidth (R.traj w) ph s * (rate ph * M.tau1 - rate ph * M.tau0) =
    (rate ph * (R.tf ph - R.t0 ph)) * w s ph by
      simp only [Mesh.halfWidth, Rest.traj]; field_simp]
  rw [← Finset.mul_sum, show ∑ s ∈ Finset.range M.orders.length, w s ph = 1 from (hw ph hp).sum, mul_one]

/-- **C111** Staying also solves the continuous-time problem, if the phases take time. -/
theorem C111_continuous (hR : R.Holds ocp) (ht : ∀ ph < ocp.nPhases, R.t0 ph < R.tf ph) :
    SolvesContinuously ocp ⟨fun ph j _ => R.x ph j, fun ph j _ => R.u ph j, R.t0, R.tf, R.a⟩ := by
  refine ⟨fun ph hp => ⟨ht ph hp, ⟨fun F hF j hj t h0 h1 => ?_, fun F hF j hj => ?_, fun j _ => continuousOn_const⟩,
    fun F hF c hc t h => hR.path ph hp F hF t h.1 h.2 c hc, fun F hF c hc => hR.terminal ph hp F hF c hc,
    fun _ j hj => hR.x0 j hj, fun _ _ _ j hj => hR.x ph hp j hj, fun _ _ j hj => hR.u ph hp j hj, hR.t0 ph hp, hR.tf ph hp,
    fun k hk => hR.a ph hp k hk⟩, hR.linkX, hR.linkU, hR.linkT⟩
  · have e := hR.still ph hp F hF t h0.le h1 j hj
    exact (hasDerivWithinAt_const _ _ _).congr_deriv e.symm
  · have e := hR.still ph hp F hF _ le_rfl (ht ph hp).le j hj
    exact (hasDerivWithinAt_const _ _ _).congr_deriv e.symm

section
variable {V : Type} {o : Outside ℝ V} {nlpsol : SolverCall ℝ V → Py (List ℝ)} {ptp : List (List Nat)} {n : Nat}
  {arg : OrdersArg} {rx rdx : Bool} {p : Post ℝ} {r : Option (PyDict (ResidVal ℝ))} {rate : Nat → ℝ}

/-- **C111** With a globally optimal NLP solver the trajectory shown by `solve` costs no more than staying at the rest point: for all LGR
meshes of orders at least 2 and all admissible widths. -/
theorem C111_solve (hr : ValidOCP ocp ∧ ocp.SettingsOK ∧ ocp.PosScales) (hR : R.Holds ocp) (hc : R.Costs ocp rate) {a : SolveArgs ℝ V} {s : Session ℝ V}
    (hrun : mpSolve o nlpsol ocp ptp n arg "LGR" a rx rdx = .ok (s, p, r)) (hM : MeshFor o "LGR" n arg M)
    (hlt : o.tau0 < o.tau1) (hord : ∀ q ∈ M.orders, 2 ≤ q)
    (hj : ∀ q ∈ M.orders, IsJacobiRoots 1 0 (q - 1) (o.lib.jroots (q - 1) 1 0)) (hwid : GoodWidths ocp n a.widths)
    (hopt : ∀ c z, nlpsol c = .ok z → c.IsOptimal z) :
    ∃ T W J, compQuadWeights ⟨o.method, o.tau0, o.tau1, tausFn o.lib o.tau0 o.tau1 "LGR"⟩ M.orders = .ok W ∧
      SolvesOCP ocp M T ∧ WidthsAre ocp n a.widths T ∧ p.Shows ocp M T ∧ PhysCost ocp M W T J ∧ J ≤ ocp.restCost R rate := by
  obtain ⟨hv, hs, hsc⟩ := hr
  obtain ⟨T, W, J, h1, h2, h3, h4, h5, h6⟩ := C53_solve_optimal hrun hv hs hsc hM hopt
  have hn : M.orders.length = n := mpSolve_length hrun hM
  have hpos : 0 < n := by rw [← hn]; exact List.length_pos_iff.2 hM.good.nonempty
  obtain ⟨hI, hint⟩ := C57_lgr_integrates hM hlt hord hj h1
  have hW' : WidthsAre ocp n a.widths (R.traj T.w) := h3
  have hsh : ∀ ph < ocp.nPhases, Shares M (R.traj T.w) ph := fun ph hp => by
    obtain ⟨e1, e2⟩ := hW'.fills hpos hwid ph hp
    exact ⟨fun s hs => (e1 s (by omega)).le, by rw [hn]; exact e2⟩
  exact ⟨T, W, J, h1, h2, h3, h4, h5, h6 _ _ (C111_feasible hM.good hI hR hsh) hW'
    (C111_cost hM.good hI hR hv.runningCosts hsh hint hc)⟩

/-- **C111** The same for `mpopt_adaptive`, after any earlier calls. -/
theorem C111_adaptive (hr : ValidOCP ocp ∧ ocp.SettingsOK ∧ ocp.PosScales) (hR : R.Holds ocp) (hc : R.Costs ocp rate) {lbh ubh tol : List ℝ} {mid : Bool}
    {s s' : AdaptOpt ℝ V} (hf : s.Ready o ocp n arg "LGR" lbh ubh tol mid) (hlb : lbh.length = ocp.nPhases)
    (hub : ubh.length = ocp.nPhases) (htol : tol.length = ocp.nPhases) (hlbn : ∀ l ∈ lbh, 0 ≤ l) (htoln : ∀ l ∈ tol, 0 ≤ l)
    (hM : MeshFor o "LGR" n arg M) (hlt : o.tau0 < o.tau1) (hord : ∀ q ∈ M.orders, 2 ≤ q)
    (hj : ∀ q ∈ M.orders, IsJacobiRoots 1 0 (q - 1) (o.lib.jroots (q - 1) 1 0))
    (hopt : ∀ c z, nlpsol c = .ok z → c.IsOptimal z) (earlier : List (SolveArgs ℝ V)) (a : SolveArgs ℝ V)
    {z : List ℝ} (hrun : (s.run o nlpsol earlier).solve o nlpsol a = (s', .ok z))
    (hp : s'.processResults o ptp false rx rdx = .ok (p, r)) :
    ∃ T W J, compQuadWeights ⟨o.method, o.tau0, o.tau1, tausFn o.lib o.tau0 o.tau1 "LGR"⟩ M.orders = .ok W ∧
      SolvesAdaptive ocp M T lbh ubh tol mid ∧ p.Shows ocp M T ∧ PhysCost ocp M W T J ∧ J ≤ ocp.restCost R rate := by
  obtain ⟨hv, hs, hsc⟩ := hr
  obtain ⟨T, W, J, h1, h2, h3, h4, h5⟩ := C55_adaptive_optimal hf hv hs hsc hlb hub htol hM hopt earlier a hrun hp
  obtain ⟨hI, hint⟩ := C57_lgr_integrates hM hlt hord hj h1
  have get : ∀ {l : List ℝ}, l.length = ocp.nPhases → (∀ v ∈ l, 0 ≤ v) → ∀ ph < ocp.nPhases, 0 ≤ l.getD ph 0 := by
    intro l hl h ph hp
    rw [List.getD_eq_getElem _ _ (by omega)]
    exact h _ (List.getElem_mem _)
  have hw : ∀ ph < ocp.nPhases, WidthsOK M (R.traj T.w) (lbh.getD ph 0) (ubh.getD ph 0) ph := fun ph hp =>
    ⟨(h2.1.widths ph hp).sum, (h2.1.widths ph hp).lower, (h2.1.widths ph hp).upper⟩
  have hsh : ∀ ph < ocp.nPhases, Shares M (R.traj T.w) ph := fun ph hp =>
    ⟨fun s hs => (get hlb hlbn ph hp).trans ((hw ph hp).lower s hs), (hw ph hp).sum⟩
  exact ⟨T, W, J, h1, h2, h3, h4, h5 _ _ (C111_adaptive_feasible hM.good hI hR (get hlb hlbn) (get htol htoln) hw)
    (C111_cost hM.good hI hR hv.runningCosts hsh hint hc)⟩

end

section
variable {V : Type} {wh : HOutside ℝ V} {nlpsol : Nat → Nat → SolverCall ℝ V → Py (PyDict V)} {ptp : List (List Nat)}
  {n : Nat} {arg : OrdersArg} {lbh ubh tol : List ℝ} {s s' : HOpt ℝ V} {rx rdx : Bool} {p : Post ℝ}
  {r : Option (PyDict (ResidVal ℝ))} {rate : Nat → ℝ}

/-- **C111** The same for `mpopt_h_adaptive`, after any calls that leave positive widths of sum 1. -/
theorem C111_h (hr : ValidOCP ocp ∧ ocp.SettingsOK ∧ ocp.PosScales) (hR : R.Holds ocp) (hc : R.Costs ocp rate) (hf : s.Ready wh ocp n arg "LGR" lbh ubh tol)
    (hM : MeshFor wh.toOutside "LGR" n arg M) (hlt : wh.tau0 < wh.tau1) (hord : ∀ q ∈ M.orders, 2 ≤ q)
    (hj : ∀ q ∈ M.orders, IsJacobiRoots 1 0 (q - 1) (wh.lib.jroots (q - 1) 1 0))
    (hopt : ∀ n k c sol, nlpsol n k c = .ok sol → ∃ z, Returned wh sol z ∧ c.IsOptimal z)
    {calls : List (HStart V × HArgs V)} (ho : OwnStarts calls) {sol : PyDict V}
    (hrun : s.run wh nlpsol calls 0 none = (s', some sol))
    (hp : s'.processResults wh sol ptp false rx rdx = .ok (p, r)) (hwid : GoodWidths ocp n s'.widths) :
    ∃ T W J, compQuadWeights ⟨wh.method, wh.tau0, wh.tau1, tausFn wh.lib wh.tau0 wh.tau1 "LGR"⟩ M.orders = .ok W ∧
      SolvesOCP ocp M T ∧ p.Shows ocp M T ∧ s'.widths = some (ocp.packWidths n T) ∧ PhysCost ocp M W T J ∧
      J ≤ ocp.restCost R rate := by
  obtain ⟨hv, hs, hsc⟩ := hr
  obtain ⟨T, W, J, h1, h2, h3, h4, h5, h6⟩ := C60_h_optimal hf hv hs hsc hM hopt ho hrun hp
  obtain ⟨hI, hint⟩ := C57_lgr_integrates hM hlt hord hj h1
  have hn : M.orders.length = n := by rw [OrdersArg.Means.unique hM.orders hf.orders]; exact hf.length
  subst hn
  have hsh : ∀ ph < ocp.nPhases, Shares M (R.traj T.w) ph := fun ph hp => by
    obtain ⟨e1, e2⟩ := packed_widths (T := T) hp ((hwid _ h4).2 ph hp) rfl
    exact ⟨fun s hs => (e1 s hs).le, e2⟩
  exact ⟨T, W, J, h1, h2, h3, h4, h5, h6 _ _ (C111_feasible hM.good hI hR hsh) h4
    (C111_cost hM.good hI hR hv.runningCosts hsh hint hc)⟩

end

end MPOpt
