import Verif.Model.AdaptSession
import Verif.Props.EndToEnd
import Verif.Props.Adaptive

/-! # C54, C55: `mpopt_adaptive`, from the user's problem to the returned trajectory -/

set_option autoImplicit false
set_option linter.unusedSectionVars false

namespace MPOpt
open Polynomial
variable {K V : Type} [Field K] [LinearOrder K] [IsStrictOrderedRing K]
variable {ad : Adapt K} {M : Mesh K}

theorem Adapt.allVars_sub {s : Sym} (h : s ∈ ad.allVars) : s ∈ ad.disc.allVars ++ ad.disc.widthParams := by
  simp only [Adapt.allVars, List.mem_flatMap, List.mem_range, Adapt.mem_phaseVars] at h
  obtain ⟨p, hp, hm | ⟨k, hk, rfl⟩⟩ := h
  · exact List.mem_append_left _ (List.mem_flatMap.2 ⟨p, by simpa using hp, hm⟩)
  · refine List.mem_append_right _ (List.mem_flatMap.2 ⟨p, by simpa using hp, ?_⟩)
    simpa using hk

theorem Adapt.sub_allVars {s : Sym} (h : s ∈ ad.disc.allVars ++ ad.disc.widthParams) : s ∈ ad.allVars := by
  unfold Adapt.allVars
  rcases List.mem_append.1 h with h | h
  · obtain ⟨p, hp, hm⟩ := List.mem_flatMap.1 h
    exact List.mem_flatMap.2 ⟨p, hp, Adapt.mem_phaseVars.2 (Or.inl hm)⟩
  · obtain ⟨p, hp, i, hi, rfl⟩ := Disc.mem_widthParams.1 h
    exact List.mem_flatMap.2 ⟨p, by simpa using hp, Adapt.mem_phaseVars.2 (Or.inr ⟨i, hi, rfl⟩)⟩

/-- The point of an adaptive solution is the point of its part without widths and its widths. -/
theorem Adapt.env_eq {z : List K} (hz : z.length = ad.allVars.length) :
    ad.disc.envOf (ad.disc.allVars.map (bindSyms ad.allVars z)) (ad.disc.widthParams.map (bindSyms ad.allVars z)) =
      bindSyms ad.allVars z := by
  unfold Disc.envOf
  rw [← List.map_append]
  funext s
  by_cases hs : s ∈ ad.disc.allVars ++ ad.disc.widthParams
  · exact bindSyms_map _ _ hs
  · have hs' : s ∉ ad.allVars := fun hm => hs (Adapt.allVars_sub hm)
    unfold bindSyms
    rw [List.idxOf_eq_length hs, List.idxOf_eq_length hs', List.getD_eq_default _ _ (by simp),
      List.getD_eq_default _ _ (by omega)]

/-- The stored widths of a phase are those of the solution. -/
theorem Adapt.phaseWidths_eq {z : List K} (hz : z.length = ad.allVars.length) {ph : Nat}
    (hp : ph < ad.disc.ocp.nPhases) :
    phaseSlice ad.disc.nSegments ph (ad.disc.widthParams.map (bindSyms ad.allVars z)) =
      (List.range ad.disc.nSegments).map fun i => bindSyms ad.allVars z (.H i ph) := by
  have hw : (ad.disc.widthParams.map (bindSyms ad.allVars z)).length = ad.disc.widthParams.length := by simp
  have hlen := length_phaseSlice hw hp
  apply List.ext_getElem?
  intro i
  by_cases hi : i < ad.disc.nSegments
  · have := phaseSlice_getElem? (d := ad.disc) (z := ad.disc.allVars.map (bindSyms ad.allVars z)) (by simp) hw hp hi
    rw [this, Adapt.env_eq hz, List.getElem?_map, List.getElem?_range hi]
    rfl
  · rw [List.getElem?_eq_none (by omega), List.getElem?_eq_none (by simpa using hi)]

/-- What is asked of a trajectory when the widths are free; with `diff_u` also the bounds on the slope of the
scaled controls. -/
def SolvesAdaptive (ocp : OCP K) (M : Mesh K) (T : Traj K) (lbh ubh tol : List K) (mid : Bool) : Prop :=
  AdaptiveFeasible ocp M T (fun ph => lbh.getD ph 0) (fun ph => ubh.getD ph 0) (fun ph => tol.getD ph 0)
    (mid = true) ∧ ∀ ph < ocp.nPhases, ocp.diffU.getD ph false = true →
    SlopeBounded ocp M T (fun j => ocp.scaleU.getD j 0) ph

theorem SameOn.solvesAdaptive {ocp : OCP K} {S T : Traj K} (h : SameOn ocp M.N M.orders.length S T)
    (hs : ocp.SettingsOK) {lbh ubh tol : List K} {mid : Bool} (hS : SolvesAdaptive ocp M S lbh ubh tol mid) :
    SolvesAdaptive ocp M T lbh ubh tol mid :=
  ⟨h.adaptive hs.linkRange hS.1, fun ph hp hd => h.slopeBounded hp (hS.2 ph hp hd)⟩

/-- Points of the NLP handed to the solver. -/
theorem adaptCall_spec {c : SolverCall K V} (h : ad.disc.OnMesh M) (hv : ValidOCP ad.disc.ocp)
    (hs : ad.disc.ocp.SettingsOK) (hsc : ad.disc.ocp.PosScales) (hr : ad.Ready)
    (hn : ad.solverProblem = .ok c.bounds) (hp : c.solver.problem = c.bounds) (hcp : c.p = []) (z : List K) :
    (c.IsSolution z ↔ z.length = ad.allVars.length ∧
      SolvesAdaptive ad.disc.ocp M (physOf ad.disc.ocp (bindSyms ad.allVars z)) ad.lbh ad.ubh ad.tol
        ad.midResiduals) ∧
      PhysCost ad.disc.ocp M ad.disc.compW (physOf ad.disc.ocp (bindSyms ad.allVars z))
        (c.solver.problem.f (c.point z)) := by
  obtain ⟨bs, J, nlp, hn', -, -, -, hx, -⟩ := Adapt.createNlp_spec h hv hs hsc hr
  obtain ⟨nlp', hn'', hiff⟩ := C38_feasible_iff h hv hs hsc hr
  obtain ⟨nlp'', hn''', hobj⟩ := C15_adaptive_objective h hv hs hsc hr
  obtain ⟨nlp3, hn4, hnd, -⟩ := C10_adaptive_variables_once h hv hs hsc hr
  rw [hn'] at hn'' hn''' hn4
  cases hn''; cases hn'''; cases hn4
  have hb : c.bounds = { nlp with p := [] } := by
    unfold Adapt.solverProblem at hn
    rw [hn'] at hn
    exact (Except.ok.inj hn).symm
  have hpt : c.point z = bindSyms ad.allVars z := by
    unfold SolverCall.point
    rw [hp, hb, hcp]
    simp only [hx, List.append_nil]
  refine ⟨?_, ?_⟩
  · constructor
    · rintro ⟨h1, -, h3, h4⟩
      have hz : z.length = ad.allVars.length := by rw [h1, hp, hb]; exact congrArg _ hx
      refine ⟨hz, (hiff _).1 ⟨?_, ?_⟩⟩
      · rw [hx] at hnd ⊢
        rw [map_bindSyms hnd hz]
        rw [hb] at h3; exact h3
      · rw [hpt, hp, hb] at h4; exact h4
    · rintro ⟨hz, h1⟩
      obtain ⟨h3, h4⟩ := (hiff _).2 h1
      refine ⟨by rw [hz, hp, hb]; exact (congrArg _ hx).symm, by rw [hcp, hp, hb]; rfl, ?_, ?_⟩
      · rw [hx] at hnd h3
        rw [map_bindSyms hnd hz] at h3
        rw [hb]; exact h3
      · rw [hpt, hp, hb]; exact h4
  · obtain ⟨v, hvs⟩ := exists_samples ad.disc.ocp M (physOf ad.disc.ocp (bindSyms ad.allVars z))
    refine ⟨v, hvs, ?_⟩
    rw [hpt, hp, hb]; exact hobj _ v hvs

/-- Packing a trajectory with its widths, and the trajectory the packed vector decodes to. -/
theorem adapt_decoded (h : ad.disc.OnMesh M) (hv : ValidOCP ad.disc.ocp) (hsc : ad.disc.ocp.PosScales) (T : Traj K) :
    SameOn ad.disc.ocp M.N M.orders.length
      (physOf ad.disc.ocp (bindSyms ad.allVars (ad.allVars.map (packEnv ad.disc.ocp T)))) T := by
  have hin : ∀ s ∈ ad.disc.allVars ++ ad.disc.widthParams,
      bindSyms ad.allVars (ad.allVars.map (packEnv ad.disc.ocp T)) s = packEnv ad.disc.ocp T s :=
    fun s hs => bindSyms_map _ _ (Adapt.sub_allVars hs)
  rw [← Adapt.env_eq (by simp),
    List.map_congr_left fun s hs => hin s (List.mem_append_left _ hs),
    List.map_congr_left fun s hs => hin s (List.mem_append_right _ hs),
    ← packVec_eq, ← packWidths_eq, ← h.N_eq]
  exact decoded_packed h hv hsc T rfl

/-! ### Histories -/

variable {w : Outside K V} {nlpsol : SolverCall K V → Py (List K)}

/-- What holds between calls of `solve` on one object, with discretisation `ad`. -/
structure AdaptOpt.Coherent (w : Outside K V) (ad : Adapt K) (s : AdaptOpt K V) : Prop where
  adapt : s.adapt w = .ok ad
  solver : ∀ sol, s.solver = some sol → ad.solverProblem = .ok sol.problem
  bounds : ∀ b, s.bounds = some b → ad.solverProblem = .ok b

theorem AdaptOpt.Coherent.solveCall {s : AdaptOpt K V} (h : s.Coherent w ad) (a : SolveArgs K V) :
    (s.solveCall w a).1.Coherent w ad ∧ (s.solveCall w a).1.ocp = s.ocp ∧
      ∀ c, (s.solveCall w a).2 = .ok c →
        ad.solverProblem = .ok c.bounds ∧ c.solver.problem = c.bounds ∧ c.p = [] := by
  have hcs : (s.createSolver w a.plugin a.options).1.Coherent w ad ∧
      (s.createSolver w a.plugin a.options).1.ocp = s.ocp := by
    unfold AdaptOpt.createSolver
    rw [h.adapt, py_bind_ok]
    rcases hn : ad.solverProblem with e | nlp
    · exact ⟨h, rfl⟩
    · simp only
      split
      · exact ⟨⟨h.adapt, fun sol e => by cases e; exact hn, fun b e => by cases e; exact hn⟩, rfl⟩
      · exact ⟨⟨h.adapt, h.solver, fun b e => by cases e; exact hn⟩, rfl⟩
  unfold AdaptOpt.solveCall
  have key : ∀ (s1 : AdaptOpt K V) (r : Py Unit), s1.Coherent w ad → s1.ocp = s.ocp →
      ∀ out : AdaptOpt K V × Py (SolverCall K V), out = (match r with
        | .error e => (s1, .error e)
        | .ok _ => (s1, do
          let inputs ← warmStart (s1.guess w) a.initial
          match s1.solver, s1.bounds with
          | some sol, some b => return ⟨sol, b, inputs, []⟩
          | _, _ => Except.error PyErr.attribute)) →
      out.1.Coherent w ad ∧ out.1.ocp = s.ocp ∧
        ∀ c, out.2 = .ok c → ad.solverProblem = .ok c.bounds ∧ c.solver.problem = c.bounds ∧ c.p = [] := by
    rintro s1 (e | _) h1 h2 out rfl
    · exact ⟨h1, h2, fun c hc => by cases hc⟩
    · refine ⟨h1, h2, fun c hc => ?_⟩
      simp only [py_bind_eq_ok] at hc
      obtain ⟨i, -, hc⟩ := hc
      rcases hs : s1.solver with _ | sol
      · rw [hs] at hc; cases hc
      · rcases hb : s1.bounds with _ | b
        · rw [hs, hb] at hc; cases hc
        · rw [hs, hb] at hc
          cases hc
          have e1 := h1.solver sol hs
          have e2 := h1.bounds b hb
          refine ⟨e2, ?_, rfl⟩
          rw [e1] at e2; exact Except.ok.inj e2
  by_cases hi : s.initialized = false ∨ a.reinitialize = true
  · rw [if_pos hi]
    generalize s.createSolver w a.plugin a.options = out at *
    obtain ⟨s1, r⟩ := out
    exact key s1 r hcs.1 hcs.2 _ rfl
  · rw [if_neg hi]
    exact key s (.ok ()) h rfl _ rfl

theorem AdaptOpt.Coherent.solve {s : AdaptOpt K V} (h : s.Coherent w ad) (a : SolveArgs K V) :
    (s.solve w nlpsol a).1.Coherent w ad ∧ (s.solve w nlpsol a).1.ocp = s.ocp ∧
      ∀ z, (s.solve w nlpsol a).2 = .ok z → ∃ c sw, (s.solveCall w a).2 = .ok c ∧ nlpsol c = .ok z ∧
        ad.solvedWidths z = .ok sw ∧ (s.solve w nlpsol a).1.widths = some sw ∧
        (s.solve w nlpsol a).1.last = some z := by
  obtain ⟨h1, h2, -⟩ := h.solveCall a
  unfold AdaptOpt.solve
  generalize hsc : s.solveCall w a = out at *
  obtain ⟨s1, r⟩ := out
  simp only at h1 h2 ⊢
  rcases hr : (do
    let c ← r
    let z ← nlpsol c
    let sw ← (← s1.adapt w).solvedWidths z
    return (z, sw) : Py (List K × List K)) with e | ⟨z, sw⟩
  · exact ⟨h1, h2, fun z hz => by cases hz⟩
  · refine ⟨⟨h1.adapt, h1.solver, h1.bounds⟩, h2, fun z' hz' => ?_⟩
    cases hz'
    simp only [py_bind_eq_ok, py_pure_eq_ok] at hr
    obtain ⟨c, hc, z0, hz0, ad', had, sw', hsw, hr⟩ := hr
    rw [h1.adapt] at had
    cases had; cases hr
    exact ⟨c, sw, hc, hz0, hsw, rfl, rfl⟩

theorem AdaptOpt.Coherent.run {s : AdaptOpt K V} (h : s.Coherent w ad) (as : List (SolveArgs K V)) :
    (s.run w nlpsol as).Coherent w ad ∧ (s.run w nlpsol as).ocp = s.ocp := by
  induction as generalizing s with
  | nil => exact ⟨h, rfl⟩
  | cons a as ih =>
    obtain ⟨h1, h2, -⟩ := h.solve (nlpsol := nlpsol) a
    obtain ⟨k1, k2⟩ := ih h1
    exact ⟨k1, k2.trans h2⟩

/-- An object as the constructor leaves it, where the user may then have set `lbh`, `ubh`, `tol_residual` and
`mid_residuals`, and also `grid_type` and `_MAX_GRID_POINTS`. -/
structure AdaptOpt.Fresh (s : AdaptOpt K V) (ocp : OCP K) (n : Nat) (arg : OrdersArg) (scheme : String)
    (lbh ubh tol : List K) (mid : Bool) : Prop where
  made : ∃ (s0 : AdaptOpt K V) (g : List String) (m : Nat), newAdapt ocp n arg scheme = .ok s0 ∧
    s = { s0 with lbh := lbh, ubh := ubh, tol := tol, midResiduals := mid, gridType := g, maxGrid := m }

/-- An object that is new, or whose solver was made for the problem, the mesh and the settings it has now. -/
structure AdaptOpt.Ready (s : AdaptOpt K V) (w : Outside K V) (ocp : OCP K) (n : Nat) (arg : OrdersArg)
    (scheme : String) (lbh ubh tol : List K) (mid : Bool) : Prop where
  ocp : s.ocp = ocp
  nSegments : s.nSegments = n
  orders : arg.Means n s.orders
  length : s.orders.length = n
  scheme : s.scheme = scheme
  lbh : s.lbh = lbh
  ubh : s.ubh = ubh
  tol : s.tol = tol
  mid : s.midResiduals = mid
  solver : ∀ ad sol, s.adapt w = .ok ad → s.solver = some sol → ad.solverProblem = .ok sol.problem
  bounds : ∀ ad b, s.adapt w = .ok ad → s.bounds = some b → ad.solverProblem = .ok b
  made : s.initialized = true → s.solver.isSome ∧ s.bounds.isSome

variable {ocp : OCP K} {ptp : List (List Nat)} {n : Nat} {arg : OrdersArg} {scheme : String}
  {lbh ubh tol : List K} {mid rx rdx : Bool} {s : AdaptOpt K V}

theorem AdaptOpt.Fresh.inv (h : s.Fresh ocp n arg scheme lbh ubh tol mid) :
    ∃ orders g m, arg.Means n orders ∧ orders.length = n ∧
      s = ⟨ocp, n, orders, scheme, lbh, ubh, tol, mid, g, m, false, none, none, none, none⟩ := by
  obtain ⟨s0, g, m, h0, rfl⟩ := h.made
  unfold newAdapt at h0
  simp only [py_bind_eq_ok, py_pure_eq_ok] at h0
  obtain ⟨⟨orders, N⟩, ho, rfl⟩ := h0
  obtain ⟨h1, h2, -⟩ := initOrders_inv ho
  exact ⟨orders, g, m, h1, h2, rfl⟩

theorem AdaptOpt.Fresh.ready (h : s.Fresh ocp n arg scheme lbh ubh tol mid) :
    s.Ready w ocp n arg scheme lbh ubh tol mid := by
  obtain ⟨orders, g, m, h1, h2, rfl⟩ := h.inv
  exact ⟨rfl, rfl, h1, h2, rfl, rfl, rfl, rfl, rfl, (fun _ _ _ h => nomatch h), (fun _ _ _ h => nomatch h),
    fun h => nomatch h⟩

/-- **C54** Every object the constructor returns is new, with the settings of the class: widths from 1e-4 to 1, a
tolerance of 1e-3 in every phase, residuals checked at mid-points, fixed residual grids of at most 15 points per
segment. -/
theorem C54_constructed (h : newAdapt ocp n arg scheme = .ok s) :
    s.Fresh ocp n arg scheme (List.replicate ocp.nPhases (1 / 10000)) (List.replicate ocp.nPhases 1)
      (List.replicate ocp.nPhases (1 / 1000)) true ∧ s.gridType = List.replicate ocp.nPhases "fixed" ∧ s.maxGrid = 15 ∧
      s.widths = none ∧ s.last = none := by
  have h' := h
  unfold newAdapt at h
  simp only [py_bind_eq_ok, py_pure_eq_ok] at h
  obtain ⟨⟨orders, N⟩, -, rfl⟩ := h
  exact ⟨⟨⟨_, _, _, h', rfl⟩⟩, rfl, rfl, rfl, rfl⟩

/-- One good mesh: the discretisation exists, and is the only one an object of these arguments uses. -/
theorem AdaptOpt.Ready.coherent (h : s.Ready w ocp n arg scheme lbh ubh tol mid) (hM : MeshFor w scheme n arg M) :
    ∃ d, (⟨d, lbh, ubh, tol, mid⟩ : Adapt K).disc.OnMesh M ∧ d.ocp = ocp ∧ d.nSegments = n ∧
      compQuadWeights ⟨w.method, w.tau0, w.tau1, tausFn w.lib w.tau0 w.tau1 scheme⟩ M.orders = .ok d.compW ∧
      s.Coherent w ⟨d, lbh, ubh, tol, mid⟩ ∧ s.ocp = ocp := by
  have hord : M.orders = s.orders := hM.orders.unique h.orders
  have h2 : M.orders.length = n := by rw [hord]; exact h.length
  have hG : GoodNodes ⟨w.method, w.tau0, w.tau1, tausFn w.lib w.tau0 w.tau1 scheme⟩ M.orders M.nodes :=
    fun q hq => ⟨hM.nodes q hq, hM.good.length q hq, hM.good.nodup q hq⟩
  obtain ⟨D, hD, -⟩ := C06_composite_diff _ M.orders M.nodes hG 1 (Or.inl rfl) (fun _ => 0)
    (fun s hs => by simp) (fun _ => 0) (fun s hs i hi => by simp)
  obtain ⟨W, hW, -⟩ := compQuadWeights_spec _ M.orders hM.good.nonempty M.nodes hG
  have hd : mkDisc w.lib w.method w.tau0 w.tau1 ocp n M.orders scheme =
      .ok ⟨ocp, n, M.orders, ⟨w.method, w.tau0, w.tau1, tausFn w.lib w.tau0 w.tau1 scheme⟩, D, W⟩ := by
    have e := mapM_ok (tausFn w.lib w.tau0 w.tau1 scheme) M.nodes M.orders hM.nodes
    unfold mkDisc mkColloc
    rw [show (M.orders.length == n) = true by simpa using h2]
    simp only [pyAssert, if_true, py_bind_ok, e]
    simp only [show ∀ c : Colloc K, (pure c : Py (Colloc K)) = .ok c from fun _ => rfl, py_bind_ok, hD, hW]
    rfl
  have had : s.adapt w = .ok ⟨⟨ocp, n, M.orders, ⟨w.method, w.tau0, w.tau1, tausFn w.lib w.tau0 w.tau1 scheme⟩, D, W⟩,
      lbh, ubh, tol, mid⟩ := by
    unfold AdaptOpt.adapt
    rw [h.ocp, h.nSegments, ← hord, h.scheme, h.lbh, h.ubh, h.tol, h.mid]
    simp only [hd, py_bind_ok]
    rfl
  exact ⟨⟨ocp, n, M.orders, ⟨w.method, w.tau0, w.tau1, tausFn w.lib w.tau0 w.tau1 scheme⟩, D, W⟩,
    ⟨hM.good, rfl, hM.tau0, hM.tau1, hM.nodes, h2, hD, hW⟩, rfl, rfl, hW,
    ⟨had, fun sol => h.solver _ sol had, fun b => h.bounds _ b had⟩, h.ocp⟩

/-- The post-processor of the object shows the decoded solution. -/
theorem adapt_shown {z : List K} {p : Post K} {r : Option (PyDict (ResidVal K))} (h : ad.disc.OnMesh M)
    (hv : ValidOCP ad.disc.ocp) (hsc : ad.disc.ocp.PosScales) (hc : s.Coherent w ad)
    {sw : List K} (hsw : ad.solvedWidths z = .ok sw) (hw : s.widths = some sw) (hl : s.last = some z)
    (hp : s.processResults w ptp false rx rdx = .ok (p, r)) :
    p.Shows ad.disc.ocp M (physOf ad.disc.ocp (bindSyms ad.allVars z)) ∧
      sw = ad.disc.ocp.packWidths ad.disc.nSegments (physOf ad.disc.ocp (bindSyms ad.allVars z)) := by
  unfold AdaptOpt.processResults AdaptOpt.solved at hp
  rw [hc.adapt, hw, hl] at hp
  simp only [py_bind_eq_ok, py_pure_eq_ok] at hp
  obtain ⟨e, ⟨ad', he1, he⟩, rv, -, p', hp', hpp⟩ := hp
  cases he1; cases he; cases hpp
  unfold mkPost at hp'
  simp only [py_bind_eq_ok, py_pure_eq_ok] at hp'
  obtain ⟨q, -, rfl⟩ := hp'
  unfold Adapt.solvedWidths at hsw
  split at hsw
  next hz =>
    cases hsw
    refine ⟨?_, ?_⟩
    · intro phases hne hph
      have hready : Solved.Ready (⟨ad.disc, ad.disc.widthParams.map (bindSyms ad.allVars z),
          List.replicate s.ocp.nPhases "fixed", 15, ad.disc.allVars.map (bindSyms ad.allVars z)⟩ : Solved K) M :=
        ⟨h, hv, by simp, by simp, fun s hs => (hsc.x s hs).ne', fun s hs => (hsc.u s hs).ne',
          fun s hs => (hsc.a s hs).ne'⟩
      obtain ⟨D, d1, d2, d3, d4, -⟩ := C25_get_data (p := ⟨_, false, q⟩) hready phases hne hph
      have hu : ∀ sc : List K, unitOr false sc = fun _ => 1 := fun sc => by funext j; rfl
      have ht : Solved.traj (⟨ad.disc, ad.disc.widthParams.map (bindSyms ad.allVars z),
          List.replicate s.ocp.nPhases "fixed", 15, ad.disc.allVars.map (bindSyms ad.allVars z)⟩ : Solved K) =
          physOf ad.disc.ocp (bindSyms ad.allVars z) := by
        unfold Solved.traj; simp only [Adapt.env_eq hz]
      simp only [hu] at d2 d3
      rw [ht] at d2 d3 d4
      exact ⟨D, d1, d2, d3, d4⟩
    · rw [packWidths_eq]
      apply List.map_congr_left
      intro s hs
      obtain ⟨ph, -, i, -, rfl⟩ := Disc.mem_widthParams.1 hs
      rfl
  next => cases hsw

/-- **C54** Whatever trajectory a sound NLP solver leads to: after any earlier calls of `solve` on an `mpopt_adaptive`
object, when `solve` and `process_results` return, the node values shown are those of a trajectory that solves the
collocated problem with free widths: widths between `lbh` and `ubh` that cut each phase completely, bounds half-way
between nodes, small defects there. The widths stored are those of the trajectory. -/
theorem C54_adaptive_feasible (hf : s.Ready w ocp n arg scheme lbh ubh tol mid) (hv : ValidOCP ocp)
    (hs : ocp.SettingsOK) (hsc : ocp.PosScales) (hlb : lbh.length = ocp.nPhases) (hub : ubh.length = ocp.nPhases)
    (htol : tol.length = ocp.nPhases) (hM : MeshFor w scheme n arg M)
    (hsound : ∀ c z, nlpsol c = .ok z → c.IsSolution z) (earlier : List (SolveArgs K V)) (a : SolveArgs K V)
    {s' : AdaptOpt K V} {z : List K} (hrun : (s.run w nlpsol earlier).solve w nlpsol a = (s', .ok z))
    {p : Post K} {r : Option (PyDict (ResidVal K))} (hp : s'.processResults w ptp false rx rdx = .ok (p, r)) :
    ∃ T, SolvesAdaptive ocp M T lbh ubh tol mid ∧ p.Shows ocp M T ∧ s'.widths = some (ocp.packWidths n T) := by
  obtain ⟨d, honM, rfl, rfl, -, hc, -⟩ := hf.coherent hM
  have hr : (⟨d, lbh, ubh, tol, mid⟩ : Adapt K).Ready := ⟨hlb, hub, htol⟩
  obtain ⟨hc1, -⟩ := hc.run (nlpsol := nlpsol) earlier
  obtain ⟨hc2, -, k⟩ := hc1.solve (nlpsol := nlpsol) a
  obtain ⟨-, -, k'⟩ := hc1.solveCall a
  rw [hrun] at hc2 k
  obtain ⟨c, sw, e1, e2, e3, e4, e5⟩ := k z rfl
  obtain ⟨q1, q2, q3⟩ := k' c e1
  have hsol := ((adaptCall_spec honM hv hs hsc hr q1 q2 q3 z).1.1 (hsound c z e2)).2
  obtain ⟨g1, g2⟩ := adapt_shown honM hv hsc hc2 e3 e4 e5 hp
  exact ⟨_, hsol, g1, by rw [e4, g2]⟩

/-- **C55** With a solver that returns a global minimiser, the trajectory shown by an `mpopt_adaptive` object has the
least cost among all trajectories and all admissible segment widths. -/
theorem C55_adaptive_optimal (hf : s.Ready w ocp n arg scheme lbh ubh tol mid) (hv : ValidOCP ocp)
    (hs : ocp.SettingsOK) (hsc : ocp.PosScales) (hlb : lbh.length = ocp.nPhases) (hub : ubh.length = ocp.nPhases)
    (htol : tol.length = ocp.nPhases) (hM : MeshFor w scheme n arg M)
    (hopt : ∀ c z, nlpsol c = .ok z → c.IsOptimal z) (earlier : List (SolveArgs K V)) (a : SolveArgs K V)
    {s' : AdaptOpt K V} {z : List K} (hrun : (s.run w nlpsol earlier).solve w nlpsol a = (s', .ok z))
    {p : Post K} {r : Option (PyDict (ResidVal K))} (hp : s'.processResults w ptp false rx rdx = .ok (p, r)) :
    ∃ T W J, compQuadWeights ⟨w.method, w.tau0, w.tau1, tausFn w.lib w.tau0 w.tau1 scheme⟩ M.orders = .ok W ∧
      SolvesAdaptive ocp M T lbh ubh tol mid ∧ p.Shows ocp M T ∧ PhysCost ocp M W T J ∧
      ∀ T' J', SolvesAdaptive ocp M T' lbh ubh tol mid → PhysCost ocp M W T' J' → J ≤ J' := by
  obtain ⟨d, honM, rfl, rfl, hW, hc, -⟩ := hf.coherent hM
  have hr : (⟨d, lbh, ubh, tol, mid⟩ : Adapt K).Ready := ⟨hlb, hub, htol⟩
  obtain ⟨hc1, -⟩ := hc.run (nlpsol := nlpsol) earlier
  obtain ⟨hc2, -, k⟩ := hc1.solve (nlpsol := nlpsol) a
  obtain ⟨-, -, k'⟩ := hc1.solveCall a
  rw [hrun] at hc2 k
  obtain ⟨c, sw, e1, e2, e3, e4, e5⟩ := k z rfl
  obtain ⟨q1, q2, q3⟩ := k' c e1
  have ho := hopt c z e2
  obtain ⟨hsol, hcost⟩ := adaptCall_spec honM hv hs hsc hr q1 q2 q3 z
  obtain ⟨g1, g2⟩ := adapt_shown honM hv hsc hc2 e3 e4 e5 hp
  refine ⟨_, d.compW, _, hW, (hsol.1 ho.sol).2, g1, hcost, fun T' J' hT' hJ' => ?_⟩
  have hsame := adapt_decoded honM hv hsc T'
  obtain ⟨hsol', hcost'⟩ := adaptCall_spec honM hv hs hsc hr q1 q2 q3
    ((⟨d, lbh, ubh, tol, mid⟩ : Adapt K).allVars.map (packEnv d.ocp T'))
  have hWl : d.compW.length = M.N := by
    obtain ⟨-, -, hl, -⟩ := C15_objective honM hv hs hsc
    exact hl
  rw [PhysCost.unique honM.good hWl hv.runningCosts hJ' (hsame.cost hcost')]
  exact ho.best _ (hsol'.2 ⟨by simp, hsame.symm.solvesAdaptive hs hT'⟩)

/-- The call of the solver object that `solve` makes on an object that is new, or whose solver is of its problem and
settings. If this call returns a vector of the right length then `solve` returns it, and `process_results` returns when
the widths in the vector are positive with sums that pass the test of the code. -/
theorem adapt_call {a : SolveArgs K V} (hf : s.Ready w ocp n arg scheme lbh ubh tol mid)
    (hv : ValidOCP ocp) (hs : ocp.SettingsOK) (hsc : ocp.PosScales) (hlb : lbh.length = ocp.nPhases)
    (hub : ubh.length = ocp.nPhases) (htol : tol.length = ocp.nPhases) (hM : MeshFor w scheme n arg M)
    (hlt : w.tau0 < w.tau1) (hgt : s.gridType = List.replicate ocp.nPhases "fixed")
    (hacc : w.accepts a.plugin (solverOptions w.vals a.plugin a.options) = true)
    (ht : ∀ ph < ocp.nPhases, entry ocp.t00 ph 0 0 ≠ entry ocp.tf0 ph 0 0) (hptp : ptp ≠ []) :
    ∃ (c : SolverCall K V) (d : Disc K), d.OnMesh M ∧ d.ocp = ocp ∧
      compQuadWeights ⟨w.method, w.tau0, w.tau1, tausFn w.lib w.tau0 w.tau1 scheme⟩ M.orders = .ok d.compW ∧
      (⟨d, lbh, ubh, tol, mid⟩ : Adapt K).solverProblem = .ok c.bounds ∧ c.solver.problem = c.bounds ∧ c.p = [] ∧
      ∀ (nlpsol : SolverCall K V → Py (List K)) (z : List K), nlpsol c = .ok z →
        z.length = (⟨d, lbh, ubh, tol, mid⟩ : Adapt K).allVars.length →
        (s.solve w nlpsol a).2 = .ok z ∧
        ((∀ ph < ocp.nPhases, (∀ i < M.orders.length,
          0 < (physOf d.ocp (bindSyms (⟨d, lbh, ubh, tol, mid⟩ : Adapt K).allVars z)).w i ph) ∧
          |(∑ i ∈ Finset.range M.orders.length,
            (physOf d.ocp (bindSyms (⟨d, lbh, ubh, tol, mid⟩ : Adapt K).allVars z)).w i ph) - 1| < 1 / 1000000) →
          ∃ out, (s.solve w nlpsol a).1.processResults w ptp false rx rdx = .ok out) := by
  obtain ⟨d, honM, rfl, rfl, hW, hc, hocp⟩ := hf.coherent hM
  have hr : (⟨d, lbh, ubh, tol, mid⟩ : Adapt K).Ready := ⟨hlb, hub, htol⟩
  obtain ⟨bs, J, nlp, hnlp, -, -, -, hx, -⟩ := Adapt.createNlp_spec honM hv hs hsc hr
  obtain ⟨-, zg, -, hguess, -⟩ := C20_adaptive_guess honM hv hs hsc hr ht
  obtain ⟨inp, hinp⟩ := warmStart_succeeds (g := w.vec zg) a.initial
  have hprob : (⟨d, lbh, ubh, tol, mid⟩ : Adapt K).solverProblem = .ok { nlp with p := [] } := by
    unfold Adapt.solverProblem; rw [hnlp]; rfl
  have hcall : ∃ (s1 : AdaptOpt K V) (sol : NlpSol K V),
      s.solveCall w a = (s1, .ok ⟨sol, { nlp with p := [] }, inp, []⟩) ∧ sol.problem = { nlp with p := [] } ∧
      s1.adapt w = .ok ⟨d, lbh, ubh, tol, mid⟩ ∧ s1.gridType = s.gridType := by
    by_cases hini : s.initialized = false ∨ a.reinitialize = true
    · let sol : NlpSol K V := ⟨{ nlp with p := [] }, a.plugin, solverOptions w.vals a.plugin a.options⟩
      let s1 : AdaptOpt K V := ⟨s.ocp, s.nSegments, s.orders, s.scheme, s.lbh, s.ubh, s.tol, s.midResiduals,
        s.gridType, s.maxGrid, true, some sol, some { nlp with p := [] }, s.widths, s.last⟩
      have had : s1.adapt w = .ok ⟨d, lbh, ubh, tol, mid⟩ := hc.adapt
      refine ⟨s1, sol, ?_, rfl, had, rfl⟩
      have hcs : s.createSolver w a.plugin a.options = (s1, .ok ()) := by
        unfold AdaptOpt.createSolver
        rw [hc.adapt, py_bind_ok, hprob]
        simp only [hacc, if_true]
        rfl
      have hg : s1.guess w = .ok (w.vec zg) := by
        unfold AdaptOpt.guess
        rw [had, py_bind_ok, hguess]
        rfl
      unfold AdaptOpt.solveCall
      rw [if_pos hini, hcs]
      simp only [hg, hinp, py_bind_ok]
      rfl
    · obtain ⟨hi1, hi2⟩ := hf.made (by simpa using (not_or.1 hini).1)
      obtain ⟨sol, hsol⟩ := Option.isSome_iff_exists.1 hi1
      obtain ⟨b, hb⟩ := Option.isSome_iff_exists.1 hi2
      have e1 := hc.solver sol hsol
      have e2 := hc.bounds b hb
      rw [hprob] at e1 e2
      cases Except.ok.inj e2
      refine ⟨s, sol, ?_, (Except.ok.inj e1).symm, hc.adapt, rfl⟩
      have hg : s.guess w = .ok (w.vec zg) := by
        unfold AdaptOpt.guess
        rw [hc.adapt, py_bind_ok, hguess]
        rfl
      unfold AdaptOpt.solveCall
      rw [if_neg hini]
      simp only [hg, hinp, py_bind_ok, hsol, hb]
      rfl
  obtain ⟨s1, sol, hcall, hsolp, had1, hgt1⟩ := hcall
  obtain ⟨hc1, -, -⟩ := hc.solveCall a
  rw [hcall] at hc1
  refine ⟨⟨sol, { nlp with p := [] }, inp, []⟩, d, honM, rfl, hW, hprob, hsolp, rfl, fun nlpsol z hz hzl => ?_⟩
  have hsw : (⟨d, lbh, ubh, tol, mid⟩ : Adapt K).solvedWidths z =
      .ok (d.widthParams.map (bindSyms (⟨d, lbh, ubh, tol, mid⟩ : Adapt K).allVars z)) := by
    unfold Adapt.solvedWidths; rw [if_pos hzl]
  have hsolve : s.solve w nlpsol a =
      ({ s1 with widths := some (d.widthParams.map (bindSyms (⟨d, lbh, ubh, tol, mid⟩ : Adapt K).allVars z))
                 last := some z }, .ok z) := by
    unfold AdaptOpt.solve
    rw [hcall]
    simp only [py_bind_ok, hz, had1, hsw]
    rfl
  rw [hsolve]
  refine ⟨rfl, fun hT => ?_⟩
  obtain ⟨q, ptp', rfl⟩ := List.exists_cons_of_ne_nil hptp
  set e : Solved K := ⟨d, d.widthParams.map (bindSyms (⟨d, lbh, ubh, tol, mid⟩ : Adapt K).allVars z),
    s1.gridType, s1.maxGrid,
    d.allVars.map (bindSyms (⟨d, lbh, ubh, tol, mid⟩ : Adapt K).allVars z)⟩ with he
  have hready : e.Ready M :=
    ⟨honM, hv, by simp [he], by simp [he, hgt1, hgt], fun s hs => (hsc.x s hs).ne', fun s hs => (hsc.u s hs).ne',
      fun s hs => (hsc.a s hs).ne'⟩
  have hwid : ∀ ph < d.ocp.nPhases, e.phaseWidths ph = (List.range M.orders.length).map
      (fun i => bindSyms (⟨d, lbh, ubh, tol, mid⟩ : Adapt K).allVars z (.H i ph)) := by
    intro ph hp
    rw [honM.segLen]
    exact Adapt.phaseWidths_eq (ad := ⟨d, lbh, ubh, tol, mid⟩) hzl hp
  obtain ⟨⟨r1, hr1⟩, r2, hr2⟩ := residuals_succeed_near hready (by rw [hM.tau0, hM.tau1]; exact hlt)
    (by rw [he]; simp only [hgt1, hgt]) (by
      intro ph hp
      have hp : ph < d.ocp.nPhases := hp
      rw [hwid ph hp]
      obtain ⟨k1, k2⟩ := hT ph hp
      refine ⟨fun v hv => ?_, ?_⟩
      · obtain ⟨i, hi, rfl⟩ := List.mem_map.1 hv
        exact k1 i (by simpa using hi)
      · rw [← List.sum_toFinset _ List.nodup_range, List.toFinset_range]
        exact k2)
  obtain ⟨rv, hrv⟩ : ∃ rv, residValue rx rdx (e.stateResiduals none false) (e.dynResiduals none none false)
      ResidVal.states ResidVal.dynamics = .ok rv := by
    obtain ⟨k1, k2, k3, k4⟩ := C49_stored _ _ ResidVal.states ResidVal.dynamics r1 r2 hr1 hr2
    cases rx <;> cases rdx
    exacts [⟨_, k3⟩, ⟨_, k2⟩, ⟨_, k4⟩, ⟨_, k1⟩]
  refine ⟨(⟨e, false, q⟩, rv), ?_⟩
  unfold AdaptOpt.processResults AdaptOpt.solved
  simp only [show AdaptOpt.adapt w { s1 with
    widths := some (d.widthParams.map (bindSyms (⟨d, lbh, ubh, tol, mid⟩ : Adapt K).allVars z))
    last := some z } = _ from had1, py_bind_ok]
  show (residValue rx rdx (e.stateResiduals none false) (e.dynResiduals none none false)
      ResidVal.states ResidVal.dynamics >>= _) = _
  rw [hrv]; rfl

/-- **C54** On an object that is new, or whose solver is of its problem and settings, `solve` makes one call of the solver object; its solutions correspond to the trajectories
and widths that solve the collocated problem, with the cost as objective. If that call returns a solution then `solve`
returns it, and `process_results` returns as well. Needed: a well-posed problem, positive orders of a working scheme,
a plugin and options `ca.nlpsol` accepts, positive `lbh` and a start guess without division by zero. -/
theorem C54_adaptive_returns {a : SolveArgs K V} (hf : s.Ready w ocp n arg scheme lbh ubh tol mid)
    (hv : ValidOCP ocp) (hs : ocp.SettingsOK) (hsc : ocp.PosScales) (hlb : lbh.length = ocp.nPhases)
    (hub : ubh.length = ocp.nPhases) (htol : tol.length = ocp.nPhases) (hM : MeshFor w scheme n arg M)
    (hlt : w.tau0 < w.tau1) (hgt : s.gridType = List.replicate ocp.nPhases "fixed")
    (hacc : w.accepts a.plugin (solverOptions w.vals a.plugin a.options) = true)
    (hpos : ∀ v ∈ lbh, 0 < v)
    (ht : ∀ ph < ocp.nPhases, entry ocp.t00 ph 0 0 ≠ entry ocp.tf0 ph 0 0) (hptp : ptp ≠ []) :
    ∃ (c : SolverCall K V) (W : List K),
      compQuadWeights ⟨w.method, w.tau0, w.tau1, tausFn w.lib w.tau0 w.tau1 scheme⟩ M.orders = .ok W ∧
      (∀ z, c.IsSolution z → ∃ T, SolvesAdaptive ocp M T lbh ubh tol mid ∧
        PhysCost ocp M W T (c.solver.problem.f (c.point z))) ∧
      (∀ T J, SolvesAdaptive ocp M T lbh ubh tol mid → PhysCost ocp M W T J →
        ∃ z, c.IsSolution z ∧ c.solver.problem.f (c.point z) = J) ∧
      ∀ (nlpsol : SolverCall K V → Py (List K)) (z : List K), nlpsol c = .ok z → c.IsSolution z →
        (s.solve w nlpsol a).2 = .ok z ∧ ∃ out, (s.solve w nlpsol a).1.processResults w ptp false rx rdx = .ok out := by
  obtain ⟨c, d, honM, rfl, hW, h1, h2, h3, hret⟩ := adapt_call (rx := rx) (rdx := rdx) hf hv hs hsc hlb hub htol hM hlt
    hgt hacc ht hptp
  have hr : (⟨d, lbh, ubh, tol, mid⟩ : Adapt K).Ready := ⟨hlb, hub, htol⟩
  have spec := adaptCall_spec (c := c) honM hv hs hsc hr h1 h2 h3
  have hWl : d.compW.length = M.N := (C15_objective honM hv hs hsc).choose_spec.2.1
  refine ⟨c, d.compW, hW, fun z hz => ⟨_, ((spec z).1.1 hz).2, (spec z).2⟩,
    fun T J hT hJ => ?_, fun nlpsol z hz hsolz => ?_⟩
  · have hsame := adapt_decoded (ad := ⟨d, lbh, ubh, tol, mid⟩) honM hv hsc T
    refine ⟨(⟨d, lbh, ubh, tol, mid⟩ : Adapt K).allVars.map (packEnv d.ocp T),
      (spec _).1.2 ⟨by simp, hsame.symm.solvesAdaptive hs hT⟩, ?_⟩
    exact PhysCost.unique honM.good hWl hv.runningCosts (hsame.cost (spec _).2) hJ
  · obtain ⟨hzl, hT⟩ := (spec z).1.1 hsolz
    obtain ⟨k1, k2⟩ := hret nlpsol z hz hzl
    refine ⟨k1, k2 fun ph hp => ?_⟩
    obtain ⟨w1, w2, -⟩ := hT.1.widths ph hp
    refine ⟨fun i hi => lt_of_lt_of_le ?_ (w2 i hi), by simp only [] at w1; rw [w1]; norm_num⟩
    rw [List.getD_eq_getElem _ _ (by simpa [hlb] using hp)]
    exact hpos _ (List.getElem_mem _)

end MPOpt
