import Verif.Model.ExamplesVdp
import Verif.Props.Rest
import Verif.Props.Backward
import Verif.Props.Existence
import Verif.Props.ShippedValid
import Verif.Props.ShippedExample

/-! # C111: the shipped Van der Pol example -/

set_option autoImplicit false
set_option linter.unusedSectionVars false

namespace MPOpt
open Polynomial

variable {M : Mesh ℝ} {T : Traj ℝ}

/-- The object built by the script, written out. -/
noncomputable def ocpVdp : OCP ℝ :=
  { nx := 2, nu := 1, na := 1, nPhases := 1
    dynamics := [⟨2, fun p j =>
      if j = 0 then (1 - p.x.getD 1 0 * p.x.getD 1 0) * p.x.getD 0 0 - p.x.getD 1 0 + p.u.getD 0 0 else p.x.getD 0 0⟩]
    pathConstraints := [some ⟨1, fun p _ => (p.a.getD []).getD 0 0 - p.x.getD 1 0⟩]
    terminalCosts := [fun _ => 0]
    runningCosts := [fun p =>
      p.x.getD 0 0 * p.x.getD 0 0 + p.x.getD 1 0 * p.x.getD 1 0 + p.u.getD 0 0 * p.u.getD 0 0]
    terminalConstraints := [none]
    phaseLinks := []
    scaleX := [1, 1], scaleU := [1], scaleA := [1], scaleT := 1
    x00 := [[0, 1]], xf0 := [[0, 0]], u00 := [[0]], uf0 := [[0]], t00 := [[0]], tf0 := [[1]], a0 := [[0]]
    lbx := [[.ninf, .fin (-1 / 4)]], ubx := [[.pinf, .pinf]], lbu := [[.fin (-1)]], ubu := [[.fin 1]], lba := [[.fin (1 / 4)]]
    uba := [[.fin (1 / 2)]], lbt0 := [[.fin 0]], ubt0 := [[.fin 0]], lbtf := [[.fin 10]], ubtf := [[.fin 10]]
    lbe := [], ube := [], diffU := [false], lbdu := [.fin (-15)], ubdu := [.fin 15], midu := [true]
    duContinuity := [false] }

theorem scriptVdp_eq : scriptVdp = .ok ocpVdp := rfl

theorem vdp_phase {P : Nat → Prop} (h : P 0) : ∀ ph < ocpVdp.nPhases, P ph := by
  intro ph hp
  obtain rfl : ph = 0 := by simpa [ocpVdp] using hp
  exact h

theorem ocpVdp_ready : ValidOCP ocpVdp ∧ ocpVdp.SettingsOK ∧ ocpVdp.PosScales := by
  refine ⟨?_, ⟨Nat.two_pos, rfl, rfl, rfl, rfl, rfl, Or.inl Nat.one_pos, fun h => absurd h (by simp [ocpVdp]),
    fun h => absurd h (by simp [ocpVdp]), by simp [ocpVdp]⟩, ⟨?_, ?_, ?_, by norm_num [ocpVdp]⟩⟩
  · constructor
    case ordX => exact rowOrdered_cons (.cons rfl (.cons rfl .nil)) rowOrdered_nil
    case ordU => exact rowOrdered_single (by simp [Ext.le])
    case ordA => exact rowOrdered_single (by norm_num [Ext.le])
    case ordT0 => exact rowOrdered_single (by simp [Ext.le])
    case ordTf => exact rowOrdered_single (by simp [Ext.le])
    case ordE => intro ph l u hl; simp [ocpVdp] at hl
    all_goals simp [ocpVdp, HasShape]
  all_goals simp [ocpVdp]

theorem vdp_times : ocpVdp.TimesOrdered := vdp_phase ⟨0, 10, by norm_num, rfl, Or.inl rfl⟩

/-! ### Staying where the script starts -/

/-- The initial state of the script, held by the largest control. -/
noncomputable def restVdp : Rest :=
  ⟨fun _ j => if j = 0 then 0 else 1, fun _ _ => 1, fun _ _ => 1 / 4, fun _ => 0, fun _ => 10⟩

theorem vdp_two {P : Nat → Prop} (h0 : P 0) (h1 : P 1) : ∀ j < ocpVdp.nx, P j := by
  intro j hj
  have hj : j < 2 := hj
  interval_cases j
  · exact h0
  · exact h1

theorem vdp_one {P : Nat → Prop} (h0 : P 0) : ∀ j < 1, P j := by
  intro j hj
  obtain rfl : j = 0 := by omega
  exact h0

theorem restVdp_holds : restVdp.Holds ocpVdp := by
  refine ⟨vdp_phase (by norm_num [restVdp]), vdp_phase fun F hF t _ _ => ?_, vdp_phase fun F hF t _ _ c _ => ?_,
    vdp_phase fun F hF => by simp [ocpVdp] at hF, vdp_two ?_ ?_, vdp_phase (vdp_two ?_ ?_), vdp_phase (vdp_one ?_), vdp_phase ?_,
    vdp_phase ?_, vdp_phase (vdp_one ?_), vdp_phase fun h => by simp [ocpVdp] at h, fun k p q h => by simp [ocpVdp] at h,
    fun k p q h => by simp [ocpVdp] at h, fun k p q h => by simp [ocpVdp] at h⟩
  · cases hF
    exact vdp_two (by norm_num [OCP.restArg, restVdp, ocpVdp, List.range_succ]) (by norm_num [OCP.restArg, restVdp, ocpVdp, List.range_succ])
  · cases hF
    norm_num [OCP.restArg, restVdp, ocpVdp, List.range_succ]
  all_goals norm_num [restVdp, ocpVdp, entry, Within, Ext.Below, Ext.Above]

theorem restVdp_costs : restVdp.Costs ocpVdp fun _ => 2 := by
  refine vdp_phase fun L hL t _ _ => ?_
  cases hL
  norm_num [OCP.restArg, restVdp, ocpVdp, List.range_succ]

theorem restVdp_cost : ocpVdp.restCost restVdp (fun _ => 2) = 20 := by
  norm_num [OCP.restCost, restVdp, ocpVdp]

/-! ### What cannot be avoided -/

/-- The second state is at least the parameter at every node, and the parameter is at least `1/4`. -/
theorem vdp_above (hM : M.Good) (hB : BoundsOK ocpVdp M T 0) (hP : PathOK ocpVdp M T 0) :
    1 / 4 ≤ T.a 0 0 ∧ ∀ k < M.N, T.a 0 0 ≤ T.x 0 k 1 := by
  refine ⟨(hB.a 0 (by simp [ocpVdp])).1, fun k hk => ?_⟩
  obtain ⟨s, i, ho, rfl⟩ := M.exists_owner hM.nonempty hk
  have h : T.a 0 0 - T.x 0 (M.idx s i) 1 ≤ 0 := hP _ rfl s i ho 0 Nat.one_pos
  linarith

/-- `V = -t/16`. -/
noncomputable def certVdp : Certificate := ⟨fun _ _ => 0, fun _ => C (-1 / 16) * X⟩

theorem certVdp_proves : certVdp.Proves ocpVdp (5 / 8) := by
  refine ⟨vdp_phase fun F L hF hL p hp => ?_, fun E hE => ?_⟩
  · cases hF; cases hL
    obtain ⟨l, h1, -, h3⟩ := hp.param (by simp [ocpVdp])
    have h3 : 1 / 4 ≤ l.getD 0 0 := (h3 0 (by simp [ocpVdp])).1
    have h4 : (p.a.getD []).getD 0 0 - p.x.getD 1 0 ≤ 0 := hp.path _ rfl 0 Nat.one_pos
    rw [h1, Option.getD_some] at h4
    have h5 : 1 / 16 ≤ p.x.getD 1 0 * p.x.getD 1 0 := by nlinarith
    simp only [Certificate.rate, certVdp, derivative_zero, eval_zero, zero_mul, add_zero, Finset.sum_const_zero, zero_add,
      derivative_C_mul, derivative_X, mul_one, eval_C]
    nlinarith [mul_self_nonneg (p.x.getD 0 0), mul_self_nonneg (p.u.getD 0 0)]
  · have b := hE.bounds 0 (by simp [ocpVdp])
    have h0 : E.t0 0 ≤ 0 := b.t0.2
    have h1 : 10 ≤ E.tf 0 := b.tf.1
    simp only [Finset.sum_range_one, Certificate.value, certVdp, eval_zero, zero_mul,
      Finset.sum_const_zero, zero_add, eval_mul, eval_C, eval_X, ocpVdp, List.getD_cons_zero]
    linarith

theorem certVdp_fits {orders : List Nat} (h : ∀ q ∈ orders, 2 ≤ q) : certVdp.Fits ocpVdp orders := by
  intro ph _ q hq
  have := h q hq
  have hd : (C (-1 / 16) * X : ℝ[X]).natDegree ≤ 1 := (natDegree_C_mul_le _ _).trans natDegree_X_le
  simp only [certVdp, natDegree_zero]
  refine ⟨fun _ _ => by omega, by omega⟩

/-- The problem without the bound on the second state. -/
noncomputable def ocpVdpFree : OCP ℝ := { ocpVdp with lbx := [[.ninf, .ninf]] }

/-- **C111** The bound `-0.25` of the script on the second state excludes nothing: the path constraint with the bound on the parameter is
stricter at every node of every mesh. -/
theorem C111_vdp_idle (hM : M.Good) : SolvesOCP ocpVdpFree M T ↔ SolvesOCP ocpVdp M T := by
  constructor
  · rintro ⟨⟨h1, h2, h3, h4, h5, h6, h7⟩, h8⟩
    have b := h1 0 (by simp [ocpVdpFree, ocpVdp])
    have hP : PathOK ocpVdp M T 0 := h3 0 (by simp [ocpVdpFree, ocpVdp])
    have ha : 1 / 4 ≤ T.a 0 0 := (b.a 0 (by simp [ocpVdpFree, ocpVdp])).1
    refine ⟨⟨vdp_phase ⟨b.x0, fun i hi h0 => vdp_two ⟨trivial, trivial⟩ ⟨?_, trivial⟩, b.u, b.t0, b.tf, b.a⟩, h2, h3, h4, h5, h6,
      fun h => absurd h (by simp [ocpVdp])⟩, h8⟩
    obtain ⟨s, i, ho, rfl⟩ := M.exists_owner hM.nonempty hi
    have h : T.a 0 0 - T.x 0 (M.idx s i) 1 ≤ 0 := hP _ rfl s i ho 0 Nat.one_pos
    show -1 / 4 ≤ T.x 0 (M.idx s i) 1
    linarith
  · rintro ⟨⟨h1, h2, h3, h4, h5, h6, h7⟩, h8⟩
    have b := h1 0 (by simp [ocpVdp])
    exact ⟨⟨vdp_phase ⟨b.x0, fun i hi h0 => vdp_two ⟨trivial, trivial⟩ ⟨trivial, trivial⟩, b.u, b.t0, b.tf, b.a⟩, h2, h3, h4, h5, h6,
      fun h => absurd h (by simp [ocpVdpFree, ocpVdp])⟩, h8⟩

/-- **C111** The parameter is not determined: every value between its lower bound and the one found serves as well, at the same cost. -/
theorem C111_vdp_parameter (hT : SolvesOCP ocpVdp M T) {v : ℝ} (h0 : 1 / 4 ≤ v) (h1 : v ≤ T.a 0 0) {W : List ℝ} {J : ℝ}
    (hJ : PhysCost ocpVdp M W T J) :
    SolvesOCP ocpVdp M { T with a := fun _ _ => v } ∧ PhysCost ocpVdp M W { T with a := fun _ _ => v } J := by
  obtain ⟨⟨k1, k2, k3, k4, k5, k6, k7⟩, k8⟩ := hT
  have b := k1 0 (by simp [ocpVdp])
  refine ⟨⟨⟨vdp_phase ⟨b.x0, b.x, b.u, b.t0, b.tf, vdp_one ⟨h0, ?_⟩⟩, vdp_phase fun F hF j hj s i ho => ?_,
    vdp_phase fun F hF s i ho c hc => ?_, vdp_phase fun F hF => by simp [ocpVdp] at hF, k5, k6,
    fun h => absurd h (by simp [ocpVdp])⟩, k8⟩, ?_⟩
  · exact h1.trans (b.a 0 (by simp [ocpVdp])).2
  · cases hF
    exact k2 0 (by simp [ocpVdp]) _ rfl j hj s i ho
  · cases hF
    have h : T.a 0 0 - T.x 0 (M.idx s i) 1 ≤ 0 := k3 0 (by simp [ocpVdp]) _ rfl s i ho 0 Nat.one_pos
    show v - T.x 0 (M.idx s i) 1 ≤ 0
    linarith
  · obtain ⟨u, hu, rfl⟩ := hJ
    refine ⟨u, vdp_phase fun L hL s i ho => ?_, rfl⟩
    cases hL
    exact hu 0 (by simp [ocpVdp]) _ rfl s i ho

section
variable {V : Type} {o : Outside ℝ V} {nlpsol : SolverCall ℝ V → Py (List ℝ)} {ptp : List (List Nat)} {n : Nat}
  {arg : OrdersArg} {rx rdx : Bool} {p : Post ℝ} {r : Option (PyDict (ResidVal ℝ))}

/-- **C111** On the shipped example `solve` with a globally optimal NLP solver shows a cost between `5/8` and `20`, and a second state
that is at least the parameter and so at least `1/4` at all nodes: for all LGR meshes of orders at least 2 and all admissible widths. -/
theorem C111_vdp_solve {a : SolveArgs ℝ V} {s : Session ℝ V}
    (hrun : mpSolve o nlpsol ocpVdp ptp n arg "LGR" a rx rdx = .ok (s, p, r)) (hM : MeshFor o "LGR" n arg M)
    (hlt : o.tau0 < o.tau1) (hord : ∀ q ∈ M.orders, 2 ≤ q)
    (hj : ∀ q ∈ M.orders, IsJacobiRoots 1 0 (q - 1) (o.lib.jroots (q - 1) 1 0)) (hwid : GoodWidths ocpVdp n a.widths)
    (hopt : ∀ c z, nlpsol c = .ok z → c.IsOptimal z) :
    ∃ T W J, compQuadWeights ⟨o.method, o.tau0, o.tau1, tausFn o.lib o.tau0 o.tau1 "LGR"⟩ M.orders = .ok W ∧
      SolvesOCP ocpVdp M T ∧ p.Shows ocpVdp M T ∧ PhysCost ocpVdp M W T J ∧ 5 / 8 ≤ J ∧ J ≤ 20 ∧
      1 / 4 ≤ T.a 0 0 ∧ ∀ k < M.N, T.a 0 0 ≤ T.x 0 k 1 := by
  obtain ⟨T, W, J, h1, h2, h3, h4, h5, h6⟩ := C111_solve ocpVdp_ready restVdp_holds restVdp_costs hrun hM hlt hord hj hwid hopt
  rw [restVdp_cost] at h6
  have hn : M.orders.length = n := mpSolve_length hrun hM
  have hpos : 0 < n := by rw [← hn]; exact List.length_pos_iff.2 hM.good.nonempty
  have hsh : ∀ ph < ocpVdp.nPhases, Shares M T ph := fun ph hp => by
    obtain ⟨e1, e2⟩ := h3.fills hpos hwid ph hp
    exact ⟨fun s hs => (e1 s (by omega)).le, by rw [hn]; exact e2⟩
  refine ⟨T, W, J, h1, h2, h4, h5, ?_, h6, vdp_above hM.good (h2.1.bounds 0 (by simp [ocpVdp])) (h2.1.path 0 (by simp [ocpVdp]))⟩
  exact C106_lgr certVdp_proves ocpVdp_ready.1 hM hlt hord hj (certVdp_fits hord) h1 h2.1.core hsh
    (C107_forward vdp_times h2.1.bounds h2.1.links) h5

/-- **C111** The same for `mpopt_adaptive`, after any earlier calls. -/
theorem C111_vdp_adaptive {lbh ubh tol : List ℝ} {mid : Bool}
    {s s' : AdaptOpt ℝ V} (hf : s.Ready o ocpVdp n arg "LGR" lbh ubh tol mid) (hlb : lbh.length = 1)
    (hub : ubh.length = 1) (htol : tol.length = 1) (hlbn : ∀ l ∈ lbh, 0 ≤ l) (htoln : ∀ l ∈ tol, 0 ≤ l)
    (hM : MeshFor o "LGR" n arg M) (hlt : o.tau0 < o.tau1) (hord : ∀ q ∈ M.orders, 2 ≤ q)
    (hj : ∀ q ∈ M.orders, IsJacobiRoots 1 0 (q - 1) (o.lib.jroots (q - 1) 1 0))
    (hopt : ∀ c z, nlpsol c = .ok z → c.IsOptimal z) (earlier : List (SolveArgs ℝ V)) (a : SolveArgs ℝ V)
    {z : List ℝ} (hrun : (s.run o nlpsol earlier).solve o nlpsol a = (s', .ok z))
    (hp : s'.processResults o ptp false rx rdx = .ok (p, r)) :
    ∃ T W J, compQuadWeights ⟨o.method, o.tau0, o.tau1, tausFn o.lib o.tau0 o.tau1 "LGR"⟩ M.orders = .ok W ∧
      SolvesAdaptive ocpVdp M T lbh ubh tol mid ∧ p.Shows ocpVdp M T ∧ PhysCost ocpVdp M W T J ∧ 5 / 8 ≤ J ∧ J ≤ 20 ∧
      1 / 4 ≤ T.a 0 0 ∧ ∀ k < M.N, T.a 0 0 ≤ T.x 0 k 1 := by
  obtain ⟨T, W, J, h1, h2, h3, h4, h5⟩ := C111_adaptive ocpVdp_ready restVdp_holds restVdp_costs hf hlb hub htol hlbn htoln hM hlt
    hord hj hopt earlier a hrun hp
  rw [restVdp_cost] at h5
  have hsh : ∀ ph < ocpVdp.nPhases, Shares M T ph := vdp_phase ⟨fun s hs => le_trans (by
    rw [List.getD_eq_getElem _ _ (by omega)]
    exact hlbn _ (List.getElem_mem _)) ((h2.1.widths 0 (by simp [ocpVdp])).lower s hs), (h2.1.widths 0 (by simp [ocpVdp])).sum⟩
  refine ⟨T, W, J, h1, h2, h3, h4, ?_, h5, vdp_above hM.good (h2.1.bounds 0 (by simp [ocpVdp])) (h2.1.path 0 (by simp [ocpVdp]))⟩
  exact C106_lgr certVdp_proves ocpVdp_ready.1 hM hlt hord hj (certVdp_fits hord) h1 h2.1.core hsh
    (C107_forward vdp_times h2.1.bounds h2.1.links) h4

/-- **C111** The same for `mpopt_h_adaptive`, which the script itself runs: whatever the methods and the number of calls. -/
theorem C111_vdp_h {wh : HOutside ℝ V} {nlpsol : Nat → Nat → SolverCall ℝ V → Py (PyDict V)} {lbh ubh tol : List ℝ}
    {s s' : HOpt ℝ V} (hf : s.Ready wh ocpVdp n arg "LGR" lbh ubh tol)
    (hM : MeshFor wh.toOutside "LGR" n arg M) (hlt : wh.tau0 < wh.tau1) (hord : ∀ q ∈ M.orders, 2 ≤ q)
    (hj : ∀ q ∈ M.orders, IsJacobiRoots 1 0 (q - 1) (wh.lib.jroots (q - 1) 1 0))
    (hopt : ∀ n k c sol, nlpsol n k c = .ok sol → ∃ z, Returned wh sol z ∧ c.IsOptimal z)
    {calls : List (HStart V × HArgs V)} (ho : OwnStarts calls) {sol : PyDict V}
    (hrun : s.run wh nlpsol calls 0 none = (s', some sol))
    (hp : s'.processResults wh sol ptp false rx rdx = .ok (p, r)) (hwid : GoodWidths ocpVdp n s'.widths) :
    ∃ T W J, compQuadWeights ⟨wh.method, wh.tau0, wh.tau1, tausFn wh.lib wh.tau0 wh.tau1 "LGR"⟩ M.orders = .ok W ∧
      SolvesOCP ocpVdp M T ∧ p.Shows ocpVdp M T ∧ PhysCost ocpVdp M W T J ∧ 5 / 8 ≤ J ∧ J ≤ 20 ∧
      1 / 4 ≤ T.a 0 0 ∧ ∀ k < M.N, T.a 0 0 ≤ T.x 0 k 1 := by
  obtain ⟨T, W, J, h1, h2, h3, h4, h5, h6⟩ := C111_h ocpVdp_ready restVdp_holds restVdp_costs hf hM hlt hord hj hopt ho hrun hp hwid
  rw [restVdp_cost] at h6
  have hn : M.orders.length = n := by rw [OrdersArg.Means.unique hM.orders hf.orders]; exact hf.length
  subst hn
  have hsh : ∀ ph < ocpVdp.nPhases, Shares M T ph := fun ph hp => by
    obtain ⟨e1, e2⟩ := packed_widths (T := T) hp ((hwid _ h4).2 ph hp) rfl
    exact ⟨fun s hs => (e1 s hs).le, e2⟩
  refine ⟨T, W, J, h1, h2, h3, h5, ?_, h6, vdp_above hM.good (h2.1.bounds 0 (by simp [ocpVdp])) (h2.1.path 0 (by simp [ocpVdp]))⟩
  exact C106_lgr certVdp_proves ocpVdp_ready.1 hM hlt hord hj (certVdp_fits hord) h1 h2.1.core hsh
    (C107_forward vdp_times h2.1.bounds h2.1.links) h5

/-! ### A perfect solver finds it -/

theorem ocpVdp_cts : CtsOCP ocpVdp := by
  refine ⟨fun F hF => ?_, fun F hF c _ => ?_, fun F hF => by simp [ocpVdp] at hF, fun L hL => ?_, fun L hL => ?_⟩
  · obtain rfl : F = _ := List.mem_singleton.1 hF
    exact vdp_two ((((PCts.const 1).sub ((PCts.x 1).mul (PCts.x 1))).mul (PCts.x 0)).sub (PCts.x 1) |>.add (PCts.u 0)) (PCts.x 0)
  · obtain rfl : F = _ := Option.some.inj (List.mem_singleton.1 hF)
    refine PCts.sub (f := fun p => (p.a.getD []).getD 0 0) ?_ (PCts.x 1)
    show Continuous _
    simp only [show ocpVdp.na = 1 from rfl, one_ne_zero, if_false, Option.getD_some]
    exact (cts_getD 1 0).comp (continuous_snd.comp (continuous_snd.comp continuous_snd))
  · obtain rfl : L = _ := List.mem_singleton.1 hL
    exact (((PCts.x 0).mul (PCts.x 0)).add ((PCts.x 1).mul (PCts.x 1))).add ((PCts.u 0).mul (PCts.u 0))
  · obtain rfl : L = _ := List.mem_singleton.1 hL
    exact TCts.const 0

/-- Trajectories of bounded cost are bounded: the quadrature sees the states at every node but the first, which is given. -/
theorem vdp_bounded (hM : M.Good) (hI : M.Inside) {lo hi : Nat → ℝ} {ws : List ℝ} (hl : ws.length + 1 = M.N)
    (hws : ∀ v ∈ ws, 0 < v) (hf : ∀ s < M.orders.length, 0 < lo s) (J₀ : ℝ) : ∃ R, ∀ T J, BoundsOK ocpVdp M T 0 →
      (∀ s < M.orders.length, lo s ≤ T.w s 0 ∧ T.w s 0 ≤ hi s) → PhysCost ocpVdp M (0 :: ws) T J → J ≤ J₀ → BoundedBy ocpVdp M R T := by
  have hlt := hI.tau_lt hM
  have hx : ∀ k, ∃ B, ∀ T J, BoundsOK ocpVdp M T 0 → (∀ s < M.orders.length, lo s ≤ T.w s 0 ∧ T.w s 0 ≤ hi s) →
      PhysCost ocpVdp M (0 :: ws) T J → J ≤ J₀ → k < M.N → ∀ j < 2, |T.x 0 k j| ≤ B := by
    intro k
    by_cases hk : k < M.N
    swap
    · exact ⟨0, fun _ _ _ _ _ _ h => absurd h hk⟩
    rcases Nat.eq_zero_or_pos k with rfl | hpos
    · refine ⟨1, fun T J hT _ _ _ _ => vdp_two ?_ ?_⟩
      · rw [hT.x0 rfl 0 (by simp [ocpVdp])]; simp [ocpVdp, entry]
      · rw [hT.x0 rfl 1 (by simp [ocpVdp])]; simp [ocpVdp, entry]
    obtain ⟨s, i, ho, rfl⟩ := M.exists_owner hM.nonempty hk
    set k := M.idx s i with hkdef
    have hW : 0 < (0 :: ws).getD k 0 := by
      obtain ⟨m, hm⟩ : ∃ m, k = m + 1 := ⟨k - 1, by omega⟩
      rw [hm, List.getD_cons_succ, List.getD_eq_getElem _ _ (by omega)]
      exact hws _ (List.getElem_mem _)
    have hc : 0 < 10 / (M.tau1 - M.tau0) * lo s := mul_pos (div_pos (by norm_num) (sub_pos.2 hlt)) (hf s ho.1)
    refine ⟨J₀ / ((0 :: ws).getD k 0 * (10 / (M.tau1 - M.tau0) * lo s)) + 1, fun T J hT hw hJ hJ0 _ => ?_⟩
    have b := hT
    have ht0 : T.t0 0 = 0 := le_antisymm b.t0.2 b.t0.1
    have htf : T.tf 0 = 10 := le_antisymm b.tf.2 b.tf.1
    have hh : ∀ s, M.halfWidth T 0 s = 10 / (M.tau1 - M.tau0) * T.w s 0 := fun s => by
      rw [Mesh.halfWidth, ht0, htf, sub_zero]
    obtain ⟨v, hv, rfl⟩ := hJ
    have hval : ∀ s i, M.Owns s i → v 0 (M.idx s i) = 10 / (M.tau1 - M.tau0) * T.w s 0 *
        (T.x 0 (M.idx s i) 0 * T.x 0 (M.idx s i) 0 + T.x 0 (M.idx s i) 1 * T.x 0 (M.idx s i) 1 +
          T.u 0 (M.idx s i) 0 * T.u 0 (M.idx s i) 0) := fun s i ho => by
      have := hv 0 (by simp [ocpVdp]) _ rfl s i ho
      rw [hh] at this
      exact this
    have hnn : ∀ m < M.N, 0 ≤ (0 :: ws).getD m 0 * v 0 m := by
      intro m hm
      obtain ⟨s', i', ho', rfl⟩ := M.exists_owner hM.nonempty hm
      refine mul_nonneg ?_ ?_
      · rw [List.getD_eq_getElem _ _ (by simp; omega)]
        rcases List.mem_cons.1 (List.getElem_mem (l := 0 :: ws) (n := M.idx s' i') (by simp; omega)) with h | h
        · rw [h]
        · exact (hws _ h).le
      · rw [hval s' i' ho']
        exact mul_nonneg (mul_pos (div_pos (by norm_num) (sub_pos.2 hlt)) ((hf s' ho'.1).trans_le (hw s' ho'.1).1)).le
          (add_nonneg (add_nonneg (mul_self_nonneg _) (mul_self_nonneg _)) (mul_self_nonneg _))
    have hsum : (0 :: ws).getD k 0 * v 0 k ≤ J₀ := by
      refine le_trans ?_ hJ0
      simp only [show ocpVdp.nPhases = 1 from rfl, Finset.sum_range_one]
      rw [show TerminalCost ocpVdp M T 0 = 0 from rfl, zero_add, weightedSum]
      refine Finset.single_le_sum (f := fun m => (0 :: ws).getD m 0 * v 0 m) (fun m hm => hnn m ?_) (Finset.mem_range.2 (by simp; omega))
      have := Finset.mem_range.1 hm
      simp at this
      omega
    rw [hkdef, hval s i ho, ← hkdef] at hsum
    have hq : 0 ≤ T.x 0 k 0 * T.x 0 k 0 + T.x 0 k 1 * T.x 0 k 1 + T.u 0 k 0 * T.u 0 k 0 :=
      add_nonneg (add_nonneg (mul_self_nonneg _) (mul_self_nonneg _)) (mul_self_nonneg _)
    replace hsum := le_trans (mul_le_mul_of_nonneg_left (mul_le_mul_of_nonneg_right (mul_le_mul_of_nonneg_left (hw s ho.1).1
      (div_pos (by norm_num : (0 : ℝ) < 10) (sub_pos.2 hlt)).le) hq) hW.le) hsum
    rw [← mul_assoc, mul_comm, ← le_div_iff₀ (mul_pos hW hc)] at hsum
    refine vdp_two ?_ ?_
    · have : |T.x 0 k 0| ≤ T.x 0 k 0 * T.x 0 k 0 + 1 := by
        rw [abs_le]; constructor <;> nlinarith [sq_nonneg (T.x 0 k 0 - 1), sq_nonneg (T.x 0 k 0 + 1)]
      nlinarith [mul_self_nonneg (T.x 0 k 1), mul_self_nonneg (T.u 0 k 0)]
    · have : |T.x 0 k 1| ≤ T.x 0 k 1 * T.x 0 k 1 + 1 := by
        rw [abs_le]; constructor <;> nlinarith [sq_nonneg (T.x 0 k 1 - 1), sq_nonneg (T.x 0 k 1 + 1)]
      nlinarith [mul_self_nonneg (T.x 0 k 0), mul_self_nonneg (T.u 0 k 0)]
  choose B hB using hx
  refine ⟨fun s => match s with
    | .X _ k _ => B k | .U _ _ _ => 1 | .T0 _ => 0 | .Tf _ => 10 | .A _ _ => 1 | .H s _ => hi s, fun T J hT hw hJ hJ0 s hs => ?_⟩
  have b := hT
  cases s with
  | X ph i j =>
    obtain ⟨hp, hi, hj⟩ := hs
    obtain rfl : ph = 0 := by simpa [ocpVdp] using hp
    exact hB i T J hT hw hJ hJ0 hi j hj
  | U ph i j =>
    obtain ⟨hp, hi, hj⟩ := hs
    obtain rfl : ph = 0 := by simpa [ocpVdp] using hp
    obtain rfl : j = 0 := by simpa [ocpVdp] using hj
    have h := b.u i hi 0 (by simp [ocpVdp])
    exact abs_le.2 ⟨h.1, h.2⟩
  | T0 ph =>
    obtain rfl : ph = 0 := Nat.lt_one_iff.1 hs
    have h1 : (0 : ℝ) ≤ T.t0 0 ∧ T.t0 0 ≤ 0 := b.t0
    exact abs_le.2 ⟨by simp only [Traj.val]; linarith [h1.1], h1.2⟩
  | Tf ph =>
    obtain rfl : ph = 0 := Nat.lt_one_iff.1 hs
    have h1 : (10 : ℝ) ≤ T.tf 0 ∧ T.tf 0 ≤ 10 := b.tf
    exact abs_le.2 ⟨by simp only [Traj.val]; linarith [h1.1], h1.2⟩
  | A k ph =>
    obtain ⟨hp, hk⟩ := hs
    obtain rfl : ph = 0 := by simpa [ocpVdp] using hp
    obtain rfl : k = 0 := by simpa [ocpVdp] using hk
    have h1 : (1 / 4 : ℝ) ≤ T.a 0 0 ∧ T.a 0 0 ≤ 1 / 2 := b.a 0 (by simp [ocpVdp])
    exact abs_le.2 ⟨by simp only [Traj.val]; linarith [h1.1], by simp only [Traj.val]; linarith [h1.2]⟩
  | H s ph =>
    obtain ⟨hp, hs⟩ := hs
    obtain rfl : ph = 0 := by simpa [ocpVdp] using hp
    show |T.w s 0| ≤ hi s
    rw [abs_of_pos ((hf s hs).trans_le (hw s hs).1)]
    exact (hw s hs).2

/-- **C111** With a perfect NLP solver `solve` on the shipped example returns: for all LGR meshes of orders at least 2 and all admissible
widths. So the hypotheses of `C111_vdp_solve`, and of `C111_solve`, can be met. -/
theorem C111_vdp_returns (hM : MeshFor o "LGR" n arg M) (hn : M.orders.length = n) (hlt : o.tau0 < o.tau1)
    {a : SolveArgs ℝ V} (hacc : o.accepts a.plugin (solverOptions o.vals a.plugin a.options) = true)
    (hwid : GoodWidths ocpVdp n a.widths) (hptp : ptp ≠ []) (hord : ∀ q ∈ M.orders, 2 ≤ q)
    (hj : ∀ q ∈ M.orders, IsJacobiRoots 1 0 (q - 1) (o.lib.jroots (q - 1) 1 0)) (hperf : Perfect nlpsol) :
    ∃ out, mpSolve o nlpsol ocpVdp ptp n arg "LGR" a rx rdx = .ok out := by
  obtain ⟨hv, hs, hsc⟩ := ocpVdp_ready
  have hn0 : 0 < n := by rw [← hn]; exact List.length_pos_iff.2 hM.good.nonempty
  obtain ⟨ω, hω⟩ : ∃ T, WidthsAre ocpVdp n a.widths T := by
    cases hr : a.widths with
    | none => exact ⟨⟨fun _ _ _ => 0, fun _ _ _ => 0, fun _ => 0, fun _ => 0, fun _ _ => 0, fun _ _ => 1 / n⟩, fun _ _ _ _ => rfl⟩
    | some l =>
      refine ⟨⟨fun _ _ _ => 0, fun _ _ _ => 0, fun _ => 0, fun _ => 0, fun _ _ => 0, fun s _ => l.getD s 0⟩, ?_⟩
      have hl : l.length = n := by simpa [ocpVdp] using (hwid l hr).1
      show ocpVdp.packWidths n _ = l
      simp only [OCP.packWidths, show ocpVdp.nPhases = 1 from rfl, List.range_one, List.flatMap_cons,
        List.flatMap_nil, List.append_nil]
      rw [← hl]
      apply List.ext_getElem
      · simp
      · intro i h1 h2
        simp [List.getElem?_eq_getElem h2]
  have hW' : WidthsAre ocpVdp n a.widths (restVdp.traj ω.w) := hω
  have hfull : FullWidths M (restVdp.traj ω.w) 0 := by
    obtain ⟨e1, e2⟩ := hW'.fills hn0 hwid 0 (by simp [ocpVdp])
    exact ⟨fun s hs => e1 s (by omega), by rw [hn]; exact e2⟩
  have hmesh : M.Inside := by
    obtain ⟨c, W, hWeq, -⟩ := C52_solve_returns (ptp := ptp) (rx := rx) (rdx := rdx) hv hs hsc hM hn hlt
      hacc hwid (vdp_phase (by simp [ocpVdp, entry])) hptp
    exact (C57_lgr_integrates hM hlt hord hj hWeq).1
  obtain ⟨s, p, r, -, -, -, h, -⟩ := C70_solve (ptp := ptp) (rx := rx) (rdx := rdx) hv hs hsc hM hn hlt hacc hwid
    (vdp_phase (by simp [ocpVdp, entry])) hptp ocpVdp_cts
    ⟨_, C111_feasible hM.good hmesh restVdp_holds (vdp_phase hfull.shares), hW'⟩ (fun W hWeq J₀ => by
      obtain ⟨ws, rfl, hl, hp⟩ := C67_lgr_composite o.lib o.method o.tau0 o.tau1 hlt hord hj hWeq
      obtain ⟨R, hR⟩ := vdp_bounded hM.good hmesh (lo := fun s => ω.w s 0) (hi := fun s => ω.w s 0) (ws := ws) (by rw [hl]; rfl) hp
        hfull.pos J₀
      exact ⟨R, fun T J hT hw hJ hJ0 => hR T J (hT.1.bounds 0 (by simp [ocpVdp])) (fun s hs => by
        have e : ω.w s 0 = T.w s 0 := hW'.iff.1 hw 0 (by simp [ocpVdp]) s (by omega)
        exact ⟨e.le, e.ge⟩) hJ hJ0⟩) hperf
  exact ⟨_, h⟩

end

/-- The shipped call `mp.mpopt(ocp, 50, 3)` with the default solver options: 50 LGR segments of order 3. -/
theorem exampleVdp : ∃ (nlpsol : SolverCall ℝ Nat → Py (List ℝ)) (M : Mesh ℝ) (s : Session ℝ Nat) (p : Post ℝ)
    (r : Option (PyDict (ResidVal ℝ))), MeshFor outsideR "LGR" 50 (.int 3) M ∧
    mpSolve outsideR nlpsol ocpVdp [[0]] 50 (.int 3) "LGR" argsR false true = .ok (s, p, r) ∧
    ∃ T W J, p.Shows ocpVdp M T ∧ PhysCost ocpVdp M W T J ∧ 5 / 8 ≤ J ∧ J ≤ 20 := by
  obtain ⟨nlpsol, hperf⟩ := exists_perfect (V := Nat)
  obtain ⟨M, hM, hMo⟩ := exists_lgr_int (n := 50) (p := 3) (by norm_num) (by norm_num)
  have hord : ∀ q ∈ M.orders, 2 ≤ q := by rw [hMo]; intro q hq; rw [List.eq_of_mem_replicate hq]; norm_num
  have hlt : outsideR.tau0 < outsideR.tau1 := by norm_num [outsideR]
  have hg : GoodWidths ocpVdp 50 argsR.widths := by simp [GoodWidths, argsR]
  obtain ⟨⟨s, p, r⟩, hout⟩ := C111_vdp_returns (ptp := [[0]]) (rx := false) (rdx := true) (a := argsR) hM
    (by rw [hMo, List.length_replicate]) hlt rfl hg (by simp) hord (fun q _ => libR_jacobi 1 0 (q - 1)) hperf
  obtain ⟨T, W, J, -, -, h2, h3, h4, h5, -⟩ := C111_vdp_solve hout hM hlt hord (fun q _ => libR_jacobi 1 0 (q - 1)) hg hperf.sound
  exact ⟨nlpsol, M, s, p, r, hM, hout, T, W, J, h2, h3, h4, h5⟩

end MPOpt
