import Verif.Model.HSession
import Verif.Props.HLoop
import Verif.Props.HRefine

/-! # C59, C60: `mpopt_h_adaptive`, from the user's problem to the returned trajectory -/

set_option autoImplicit false
set_option linter.unusedSectionVars false

namespace MPOpt
variable {K V : Type} [Field K] [LinearOrder K] [IsStrictOrderedRing K]
variable {M : Mesh K} {w : HOutside K V} {d : Disc K}

/-! ### One object -/

/-- What holds between calls of `solve` on one object, with discretisation `d`. -/
structure HOpt.Coherent (w : HOutside K V) (d : Disc K) (s : HOpt K V) : Prop where
  disc : s.disc w = .ok d
  solver : ∀ sol, s.solver = some sol → d.createNlp = .ok sol.problem
  bounds : ∀ b, s.bounds = some b → d.createNlp = .ok b

/-- Attributes that `solve` does not change. -/
structure HOpt.Same (s s' : HOpt K V) : Prop where
  ocp : s'.ocp = s.ocp
  nSegments : s'.nSegments = s.nSegments
  orders : s'.orders = s.orders
  scheme : s'.scheme = s.scheme
  lbh : s'.lbh = s.lbh
  ubh : s'.ubh = s.ubh
  tol : s'.tol = s.tol
  gridType : s'.gridType = s.gridType
  maxGrid : s'.maxGrid = s.maxGrid
  slope : s'.slope = s.slope
  tolChange : s'.tolChange = s.tolChange

theorem HOpt.Same.refl (s : HOpt K V) : s.Same s := ⟨rfl, rfl, rfl, rfl, rfl, rfl, rfl, rfl, rfl, rfl, rfl⟩

theorem HOpt.Same.trans {s s' s'' : HOpt K V} (h : s.Same s') (h' : s'.Same s'') : s.Same s'' :=
  ⟨h'.ocp.trans h.ocp, h'.nSegments.trans h.nSegments, h'.orders.trans h.orders, h'.scheme.trans h.scheme,
    h'.lbh.trans h.lbh, h'.ubh.trans h.ubh, h'.tol.trans h.tol, h'.gridType.trans h.gridType, h'.maxGrid.trans h.maxGrid,
    h'.slope.trans h.slope, h'.tolChange.trans h.tolChange⟩

theorem HOpt.Same.symm {s s' : HOpt K V} (h : s.Same s') : s'.Same s :=
  ⟨h.ocp.symm, h.nSegments.symm, h.orders.symm, h.scheme.symm, h.lbh.symm, h.ubh.symm, h.tol.symm, h.gridType.symm,
    h.maxGrid.symm, h.slope.symm, h.tolChange.symm⟩

theorem HOpt.Coherent.createSolver {s : HOpt K V} (h : s.Coherent w d) (plugin : String) (options : PyDict V) :
    (s.createSolver w plugin options).1.Coherent w d ∧ s.Same (s.createSolver w plugin options).1 ∧
      (s.createSolver w plugin options).1.widths = s.widths := by
  unfold HOpt.createSolver
  rw [h.disc, py_bind_ok]
  rcases hn : d.createNlp with e | nlp
  · exact ⟨h, .refl s, rfl⟩
  · simp only
    split
    · exact ⟨⟨h.disc, fun sol e => by cases e; exact hn, fun b e => by cases e; exact hn⟩,
        ⟨rfl, rfl, rfl, rfl, rfl, rfl, rfl, rfl, rfl, rfl, rfl⟩, rfl⟩
    · exact ⟨⟨h.disc, h.solver, fun b e => by cases e; exact hn⟩, ⟨rfl, rfl, rfl, rfl, rfl, rfl, rfl, rfl, rfl, rfl, rfl⟩, rfl⟩

/-- A call of the solver object: the current problem, its bounds, and the widths asked for. -/
theorem HOpt.Coherent.call {s : HOpt K V} (h : s.Coherent w d) {initial : Option (PyDict V)} {sw : List K}
    {c : SolverCall K V} (hc : s.call w initial sw = .ok c) :
    d.createNlp = .ok c.bounds ∧ c.solver.problem = c.bounds ∧ c.p = sw := by
  unfold HOpt.call at hc
  simp only [py_bind_eq_ok] at hc
  obtain ⟨i, -, hc⟩ := hc
  rcases hs : s.solver with _ | sol
  · rw [hs] at hc; cases hc
  · rcases hb : s.bounds with _ | b
    · rw [hs, hb] at hc; cases hc
    · rw [hs, hb] at hc
      cases hc
      have e1 := h.solver sol hs
      have e2 := h.bounds b hb
      refine ⟨e2, ?_, rfl⟩
      rw [e1] at e2; exact Except.ok.inj e2

/-- The solution was returned by a call of the solver object on the discretised problem, with these widths. -/
def SolvedBy (d : Disc K) (run : SolverCall K V → PyDict V → Prop) (sol : PyDict V) (sw : Option (List K)) : Prop :=
  ∃ c : SolverCall K V, run c sol ∧ d.createNlp = .ok c.bounds ∧ c.solver.problem = c.bounds ∧ sw = some c.p

section
variable [FloorRing K] {nlpsol : Nat → SolverCall K V → Py (PyDict V)}

theorem HConfig.env_inv {Sol : Type} {C : HConfig K} {solver : Nat → Option Sol → List K → Py Sol}
    {probe : Nat → Sol → List K → Py (Probe K)} {E : HEnv K Sol (List K)} (h : C.env solver probe = .ok E) :
    C.nSegments ≠ 0 ∧ E.nSegments = C.nSegments ∧ E.dflt = C.dflt ∧ E.solver = solver ∧
      (E.refine = fun n s w => C.refine (probe n s w) w) ∧ E.unchanged = C.unchanged ∧
      ∃ a l, C.tolResidual = a :: l ∧ E.tol = l.foldl min a := by
  unfold HConfig.env at h
  split at h
  · cases h
  · rename_i h0
    split at h
    · cases h
    · rename_i a l ht
      cases h
      exact ⟨h0, rfl, rfl, rfl, rfl, rfl, a, l, ht, rfl⟩

/-- `solve` keeps the object coherent. A returned solution goes with the stored widths; the initial solution is only
returned when the widths it was given with are the stored ones, as far as there are any. -/
theorem HOpt.Coherent.solve {s : HOpt K V} (h : s.Coherent w d) (a : HArgs V) :
    (s.solve w nlpsol a).1.Coherent w d ∧ s.Same (s.solve w nlpsol a).1 ∧
      ∀ sol, (s.solve w nlpsol a).2 = .ok sol →
        SolvedBy d (fun c sol => ∃ k, nlpsol k c = .ok sol) sol (s.solve w nlpsol a).1.widths ∨
        (a.initial = some sol ∧ (s.solve w nlpsol a).1.widths =
          some (s.widths.getD (s.config w (hMethodDict a.method)).dflt)) := by
  obtain ⟨g1, g2, g3⟩ := h.createSolver a.plugin (hSolverDict w.zero a.options)
  have key : ∀ (s1 : HOpt K V) (r : Py Unit), s1.Coherent w d → s.Same s1 → s1.widths = s.widths →
      ∀ out : HOpt K V × Py (PyDict V), out = (match r with
        | .error e => (s1, .error e)
        | .ok _ =>
          match s1.env w nlpsol (hMethodDict a.method) with
          | .error e => ({ s1 with iterCount := 0, iterInfo := [] }, .error e)
          | .ok E =>
            let (st, r) := E.solve a.initial s1.widths a.maxIter
            ({ s1 with widths := st.sw, iterCount := st.count, iterInfo := st.info }, r)) →
      out.1.Coherent w d ∧ s.Same out.1 ∧ ∀ sol, out.2 = .ok sol →
        SolvedBy d (fun c sol => ∃ k, nlpsol k c = .ok sol) sol out.1.widths ∨
        (a.initial = some sol ∧ out.1.widths = some (s.widths.getD (s.config w (hMethodDict a.method)).dflt)) := by
    rintro s1 (e | _) h1 h2 h3 out rfl
    · exact ⟨h1, h2, fun _ hs => by cases hs⟩
    · cases hE : s1.env w nlpsol (hMethodDict a.method) with
      | error e =>
        exact ⟨⟨h1.disc, h1.solver, h1.bounds⟩,
          ⟨h2.ocp, h2.nSegments, h2.orders, h2.scheme, h2.lbh, h2.ubh, h2.tol, h2.gridType, h2.maxGrid, h2.slope,
            h2.tolChange⟩, fun _ hs => by cases hs⟩
      | ok E =>
        refine ⟨⟨h1.disc, h1.solver, h1.bounds⟩,
          ⟨h2.ocp, h2.nSegments, h2.orders, h2.scheme, h2.lbh, h2.ubh, h2.tol, h2.gridType, h2.maxGrid, h2.slope,
            h2.tolChange⟩, fun sol hs => ?_⟩
        obtain ⟨-, -, i3, i4, -⟩ := HConfig.env_inv hE
        obtain ⟨-, k2, k3⟩ := C36_consistent_pair E a.initial s1.widths a.maxIter
        rcases k3 sol hs with ⟨pre, c, j1, j2, j3⟩ | ⟨-, j1, j2, -⟩
        · left
          have := k2 pre.length c (by rw [j1]; simp)
          rw [i4] at this
          simp only [py_bind_eq_ok] at this
          obtain ⟨sc, c1, c2⟩ := this
          obtain ⟨d1, d2, d3⟩ := h1.call c1
          exact ⟨sc, ⟨_, by rw [c2, j2]⟩, d1, d2, by rw [d3]; exact j3⟩
        · right
          refine ⟨j1, ?_⟩
          have : (s1.config w (hMethodDict a.method)).dflt = (s.config w (hMethodDict a.method)).dflt := by
            unfold HOpt.config HConfig.dflt; simp only [h2.nSegments, h2.ocp]
          rw [← h3, ← this, ← i3]; exact j2
  unfold HOpt.solve
  by_cases hi : s.initialized = false ∨ a.reinitialize = true
  · rw [if_pos hi]
    generalize s.createSolver w a.plugin (hSolverDict w.zero a.options) = out at *
    obtain ⟨s1, r⟩ := out
    exact key s1 r g1 g2 g3 _ rfl
  · rw [if_neg hi]
    exact key s (.ok ()) h (.refl s) rfl _ rfl

end

/-! ### Histories -/

variable [FloorRing K] {nlpsol : Nat → Nat → SolverCall K V → Py (PyDict V)}

/-- Only left-out initial solutions, or those returned by the call before. -/
def OwnStarts (calls : List (HStart V × HArgs V)) : Prop := ∀ c ∈ calls, ∀ x, c.1 ≠ .given x

theorem HOpt.Coherent.run {calls : List (HStart V × HArgs V)} (ho : OwnStarts calls) :
    ∀ {n : Nat} {s : HOpt K V} {last : Option (PyDict V)}, s.Coherent w d →
      (∀ sol, last = some sol → SolvedBy d (fun c sol => ∃ n k, nlpsol n k c = .ok sol) sol s.widths) →
      (s.run w nlpsol calls n last).1.Coherent w d ∧ s.Same (s.run w nlpsol calls n last).1 ∧
        ∀ sol, (s.run w nlpsol calls n last).2 = some sol →
          SolvedBy d (fun c sol => ∃ n k, nlpsol n k c = .ok sol) sol (s.run w nlpsol calls n last).1.widths := by
  induction calls with
  | nil => intro n s last h hl; exact ⟨h, .refl s, hl⟩
  | cons c calls ih =>
    intro n s last h hl
    obtain ⟨st, a⟩ := c
    have hst : ∀ x, st ≠ .given x := ho (st, a) (by simp)
    have hrun : s.run w nlpsol ((st, a) :: calls) n last =
        (s.solve w (nlpsol n) { a with initial := st.value last }).1.run w nlpsol calls (n + 1)
          (s.solve w (nlpsol n) { a with initial := st.value last }).2.toOption := rfl
    rw [hrun]
    generalize hinit : st.value last = init
    have hi : init = none ∨ init = last := by
      subst hinit
      cases st with
      | fresh => exact Or.inl rfl
      | previous => exact Or.inr rfl
      | given x => exact absurd rfl (hst x)
    obtain ⟨h1, h2, h3⟩ := h.solve (nlpsol := nlpsol n) { a with initial := init }
    have hstep : ∀ sol, (s.solve w (nlpsol n) { a with initial := init }).2.toOption = some sol →
        SolvedBy d (fun c sol => ∃ n k, nlpsol n k c = .ok sol) sol
          (s.solve w (nlpsol n) { a with initial := init }).1.widths := by
      intro sol hs
      have hs' : (s.solve w (nlpsol n) { a with initial := init }).2 = .ok sol := by
        cases hr : (s.solve w (nlpsol n) { a with initial := init }).2 with
        | error e => rw [hr] at hs; cases hs
        | ok v => rw [hr] at hs; cases hs; rfl
      rcases h3 sol hs' with ⟨c, ⟨k, hk⟩, c2⟩ | ⟨j1, j2⟩
      · exact ⟨c, ⟨n, k, hk⟩, c2⟩
      · have j1 : init = some sol := j1
        rcases hi with hi | hi
        · rw [hi] at j1; cases j1
        · rw [hi] at j1
          obtain ⟨c, c1, c2, c3, c4⟩ := hl sol j1
          refine ⟨c, c1, c2, c3, ?_⟩
          rw [j2, c4]; rfl
    obtain ⟨k1, k2, k3⟩ := ih (fun c hc => ho c (List.mem_cons_of_mem _ hc)) (n := n + 1) h1 hstep
    exact ⟨k1, h2.trans k2, k3⟩

/-- An object as the constructor leaves it, where the user may then have set `lbh`, `ubh` and `tol_residual`, and also
`grid_type`, `_MAX_GRID_POINTS`, `_THRESHOLD_SLOPE` and `_TOL_SEG_WIDTH_CHANGE`. -/
structure HOpt.Fresh (s : HOpt K V) (ocp : OCP K) (n : Nat) (arg : OrdersArg) (scheme : String)
    (lbh ubh tol : List K) : Prop where
  made : ∃ (s0 : HOpt K V) (g : List String) (m : Nat) (sl tc : K), newHAdaptive ocp n arg scheme = .ok s0 ∧
    s = { s0 with lbh := lbh, ubh := ubh, tol := tol, gridType := g, maxGrid := m, slope := sl, tolChange := tc }

/-- An object that is new, or whose solver was made for the problem and the mesh it has now. -/
structure HOpt.Ready (s : HOpt K V) (w : HOutside K V) (ocp : OCP K) (n : Nat) (arg : OrdersArg) (scheme : String)
    (lbh ubh tol : List K) : Prop where
  ocp : s.ocp = ocp
  nSegments : s.nSegments = n
  orders : arg.Means n s.orders
  length : s.orders.length = n
  scheme : s.scheme = scheme
  lbh : s.lbh = lbh
  ubh : s.ubh = ubh
  tol : s.tol = tol
  solver : ∀ d sol, s.disc w = .ok d → s.solver = some sol → d.createNlp = .ok sol.problem
  bounds : ∀ d b, s.disc w = .ok d → s.bounds = some b → d.createNlp = .ok b
  made : s.initialized = true → s.solver.isSome ∧ s.bounds.isSome

variable {ocp : OCP K} {ptp : List (List Nat)} {n : Nat} {arg : OrdersArg} {scheme : String}
  {lbh ubh tol : List K} {rx rdx : Bool} {s : HOpt K V}

theorem HOpt.Fresh.inv (h : s.Fresh ocp n arg scheme lbh ubh tol) :
    ∃ orders g m sl tc, arg.Means n orders ∧ orders.length = n ∧
      s = ⟨ocp, n, orders, scheme, lbh, ubh, tol, g, m, sl, tc, false, none, none, none, 0, []⟩ := by
  obtain ⟨s0, g, m, sl, tc, h0, rfl⟩ := h.made
  unfold newHAdaptive at h0
  simp only [py_bind_eq_ok, py_pure_eq_ok] at h0
  obtain ⟨⟨orders, N⟩, ho, rfl⟩ := h0
  obtain ⟨h1, h2, -⟩ := initOrders_inv ho
  exact ⟨orders, g, m, sl, tc, h1, h2, rfl⟩

theorem HOpt.Fresh.ready (h : s.Fresh ocp n arg scheme lbh ubh tol) : s.Ready w ocp n arg scheme lbh ubh tol := by
  obtain ⟨orders, g, m, sl, tc, h1, h2, rfl⟩ := h.inv
  exact ⟨rfl, rfl, h1, h2, rfl, rfl, rfl, rfl, (fun _ _ _ h => nomatch h), (fun _ _ _ h => nomatch h), fun h => nomatch h⟩

/-- **C59** Every object the constructor returns is new, with the settings of the class: widths from 1e-5 to 1, a
tolerance of 1e-2 in every phase, fixed residual grids of at most 15 points per segment, and the thresholds 0.1 and
0.05 for slopes and for changes of the widths. It has a problem, a mesh and a scheme as asked for, no widths, and did
no iterations. -/
theorem C59_constructed (h : newHAdaptive ocp n arg scheme = .ok s) :
    s.Fresh ocp n arg scheme (List.replicate ocp.nPhases (1 / 100000)) (List.replicate ocp.nPhases 1)
      (List.replicate ocp.nPhases (1 / 100)) ∧ s.gridType = List.replicate ocp.nPhases "fixed" ∧ s.maxGrid = 15 ∧
      s.slope = 1 / 10 ∧ s.tolChange = 1 / 20 ∧ s.widths = none ∧ s.iterCount = 0 ∧ s.iterInfo = [] := by
  have h' := h
  unfold newHAdaptive at h
  simp only [py_bind_eq_ok, py_pure_eq_ok] at h
  obtain ⟨⟨orders, N⟩, -, rfl⟩ := h
  exact ⟨⟨⟨_, _, _, _, _, h', rfl⟩⟩, rfl, rfl, rfl, rfl, rfl, rfl, rfl⟩

/-- One good mesh: the discretisation exists, and is the only one an object of these arguments uses. -/
theorem HOpt.Ready.coherent (h : s.Ready w ocp n arg scheme lbh ubh tol) (hM : MeshFor w.toOutside scheme n arg M) :
    ∃ d : Disc K, d.OnMesh M ∧ d.ocp = ocp ∧ d.nSegments = n ∧
      compQuadWeights ⟨w.method, w.tau0, w.tau1, tausFn w.lib w.tau0 w.tau1 scheme⟩ M.orders = .ok d.compW ∧
      s.Coherent w d := by
  have hord : M.orders = s.orders := hM.orders.unique h.orders
  have h2 : M.orders.length = n := by rw [hord]; exact h.length
  have hG : GoodNodes ⟨w.method, w.tau0, w.tau1, tausFn w.lib w.tau0 w.tau1 scheme⟩ M.orders M.nodes :=
    fun q hq => ⟨hM.nodes q hq, hM.good.length q hq, hM.good.nodup q hq⟩
  obtain ⟨D, hD, -⟩ := C06_composite_diff _ M.orders M.nodes hG 1 (Or.inl rfl) (fun _ => 0)
    (fun s hs => by simp) (fun _ => 0) (fun s hs i hi => by simp)
  obtain ⟨W, hW, -⟩ := compQuadWeights_spec _ M.orders hM.good.nonempty M.nodes hG
  have hd : s.disc w =
      .ok ⟨ocp, n, M.orders, ⟨w.method, w.tau0, w.tau1, tausFn w.lib w.tau0 w.tau1 scheme⟩, D, W⟩ := by
    have e := mapM_ok (tausFn w.lib w.tau0 w.tau1 scheme) M.nodes M.orders hM.nodes
    unfold HOpt.disc
    rw [h.ocp, h.nSegments, ← hord, h.scheme]
    unfold mkDisc mkColloc
    rw [show (M.orders.length == n) = true by simpa using h2]
    simp only [pyAssert, if_true, py_bind_ok, e]
    simp only [show ∀ c : Colloc K, (pure c : Py (Colloc K)) = .ok c from fun _ => rfl, py_bind_ok, hD, hW]
    rfl
  exact ⟨⟨ocp, n, M.orders, ⟨w.method, w.tau0, w.tau1, tausFn w.lib w.tau0 w.tau1 scheme⟩, D, W⟩,
    ⟨hM.good, rfl, hM.tau0, hM.tau1, hM.nodes, h2, hD, hW⟩, rfl, rfl, hW, hd, fun sol => h.solver _ sol hd,
    fun b => h.bounds _ b hd⟩

/-- The post-processor of the object, for a solution that goes with its widths. -/
theorem HOpt.Coherent.processResults {s : HOpt K V} (h : s.Coherent w d) {sol : PyDict V} {p : Post K}
    {r : Option (PyDict (ResidVal K))} (hp : s.processResults w sol ptp false rx rdx = .ok (p, r)) :
    ∃ sw v z, s.widths = some sw ∧ sol.get? "x" = some v ∧ w.num v = .ok z ∧ p.solved.disc = d ∧
      p.solved.widths = sw ∧ p.solved.z = z ∧ p.scaling = false := by
  unfold HOpt.processResults at hp
  rcases hsw : s.widths with _ | sw
  · rw [hsw] at hp; cases hp
  · rw [hsw] at hp
    simp only [py_bind_eq_ok, py_pure_eq_ok, HOpt.solvedAt, h.disc] at hp
    obtain ⟨e, ⟨d', hd', he⟩, rv, -, p', hp', hpp⟩ := hp
    cases hd'; cases hpp
    rcases hx : sol.get? "x" with _ | v
    · rw [hx] at he; cases he
    · rw [hx] at he
      simp only [py_bind_eq_ok, py_pure_eq_ok] at he
      obtain ⟨z, hz, rfl⟩ := he
      unfold mkPost at hp'
      simp only [py_bind_eq_ok, py_pure_eq_ok] at hp'
      obtain ⟨q, -, rfl⟩ := hp'
      exact ⟨sw, v, z, rfl, rfl, hz, rfl, rfl, rfl, rfl⟩

/-- A dictionary returned by a solver call, and the vector in it. -/
def Returned (w : HOutside K V) (sol : PyDict V) (z : List K) : Prop :=
  ∃ v, sol.get? "x" = some v ∧ w.num v = .ok z

theorem Returned.unique {sol : PyDict V} {z z' : List K} (h : Returned w sol z) (h' : Returned w sol z') : z = z' := by
  obtain ⟨v, h1, h2⟩ := h
  obtain ⟨v', h1', h2'⟩ := h'
  rw [h1] at h1'; cases h1'
  rw [h2] at h2'; exact Except.ok.inj h2'

/-- **C59** Whatever trajectory a sound NLP solver leads to: after any calls of `solve` on an `mpopt_h_adaptive` object
(with any methods, iteration limits and options, some of which may have raised; initial solutions are left out or are
what the call before returned), when the last of them and `process_results` return, the node values shown are those of
a trajectory that solves the collocated problem of the user, with the widths stored in the object. -/
theorem C59_h_feasible (hf : s.Ready w ocp n arg scheme lbh ubh tol) (hv : ValidOCP ocp) (hs : ocp.SettingsOK)
    (hsc : ocp.PosScales) (hM : MeshFor w.toOutside scheme n arg M)
    (hsound : ∀ n k c sol, nlpsol n k c = .ok sol → ∃ z, Returned w sol z ∧ c.IsSolution z)
    {calls : List (HStart V × HArgs V)} (ho : OwnStarts calls) {s' : HOpt K V} {sol : PyDict V}
    (hrun : s.run w nlpsol calls 0 none = (s', some sol))
    {p : Post K} {r : Option (PyDict (ResidVal K))} (hp : s'.processResults w sol ptp false rx rdx = .ok (p, r)) :
    ∃ T, SolvesOCP ocp M T ∧ p.Shows ocp M T ∧ s'.widths = some (ocp.packWidths n T) := by
  obtain ⟨d, honM, rfl, rfl, -, hc⟩ := hf.coherent hM
  obtain ⟨k1, -, k3⟩ := hc.run (nlpsol := nlpsol) ho (n := 0) (last := none) (fun _ h => by cases h)
  rw [hrun] at k1 k3
  obtain ⟨c, ⟨i, k, hk⟩, c2, c3, c4⟩ := k3 sol rfl
  obtain ⟨sw, v, z, q1, q2, q3, q4, q5, q6, q7⟩ := k1.processResults hp
  obtain ⟨z', hz', hsol⟩ := hsound i k c sol hk
  have : z' = z := hz'.unique ⟨v, q2, q3⟩
  subst this
  have hsw : sw = c.p := by
    have c4 : s'.widths = some c.p := c4
    rw [q1] at c4; exact Option.some.inj c4
  subst hsw
  subst q4
  obtain ⟨-, t1, t2, t3⟩ := shown_of_solution (a := ({ initial := none, reinitialize := false, widths := some c.p, plugin := "", options := [] } : SolveArgs K V)) hv hs hsc honM
    rfl rfl q5 q6 q7 c2 c3 rfl hsol
  exact ⟨_, t1, t3, by rw [q1]; exact congrArg some t2.symm⟩

/-- **C60** With a solver that returns a global minimiser, the trajectory shown has the least cost among all
trajectories that solve the collocated problem with the stored widths. -/
theorem C60_h_optimal (hf : s.Ready w ocp n arg scheme lbh ubh tol) (hv : ValidOCP ocp) (hs : ocp.SettingsOK)
    (hsc : ocp.PosScales) (hM : MeshFor w.toOutside scheme n arg M)
    (hopt : ∀ n k c sol, nlpsol n k c = .ok sol → ∃ z, Returned w sol z ∧ c.IsOptimal z)
    {calls : List (HStart V × HArgs V)} (ho : OwnStarts calls) {s' : HOpt K V} {sol : PyDict V}
    (hrun : s.run w nlpsol calls 0 none = (s', some sol))
    {p : Post K} {r : Option (PyDict (ResidVal K))} (hp : s'.processResults w sol ptp false rx rdx = .ok (p, r)) :
    ∃ T W J, compQuadWeights ⟨w.method, w.tau0, w.tau1, tausFn w.lib w.tau0 w.tau1 scheme⟩ M.orders = .ok W ∧
      SolvesOCP ocp M T ∧ p.Shows ocp M T ∧ s'.widths = some (ocp.packWidths n T) ∧ PhysCost ocp M W T J ∧
      ∀ T' J', SolvesOCP ocp M T' → s'.widths = some (ocp.packWidths n T') → PhysCost ocp M W T' J' → J ≤ J' := by
  obtain ⟨d, honM, rfl, rfl, hW, hc⟩ := hf.coherent hM
  obtain ⟨k1, -, k3⟩ := hc.run (nlpsol := nlpsol) ho (n := 0) (last := none) (fun _ h => by cases h)
  rw [hrun] at k1 k3
  obtain ⟨c, ⟨i, k, hk⟩, c2, c3, c4⟩ := k3 sol rfl
  obtain ⟨sw, v, z, q1, q2, q3, q4, q5, q6, q7⟩ := k1.processResults hp
  obtain ⟨z', hz', hsol⟩ := hopt i k c sol hk
  have : z' = z := hz'.unique ⟨v, q2, q3⟩
  subst this
  have hsw : sw = c.p := by
    have c4 : s'.widths = some c.p := c4
    rw [q1] at c4; exact Option.some.inj c4
  subst hsw
  subst q4 q6
  obtain ⟨hcl, t1, t2, t3⟩ := shown_of_solution (a := ({ initial := none, reinitialize := false, widths := some c.p, plugin := "", options := [] } : SolveArgs K V)) hv hs hsc honM
    rfl rfl q5 rfl q7 c2 c3 rfl hsol.sol
  have hcost := (call_spec honM hv hs hsc c2 c3 p.solved.z hcl).2
  refine ⟨_, _, c.solver.problem.f (c.point p.solved.z), hW, t1, t3, by rw [q1]; exact congrArg some t2.symm, ?_,
    fun T' J' hS' hw' hJ' => ?_⟩
  · unfold Solved.traj; rw [q5]; exact hcost
  · obtain ⟨k1, k2⟩ := call_trajectories honM hv hs hsc c2 c3 hcl (req := some c.p) rfl
    have hw'' : WidthsAre p.solved.disc.ocp p.solved.disc.nSegments (some c.p) T' := by
      rw [q1] at hw'
      exact (Option.some.inj hw').symm
    rw [← k2 T' J' hw'' hJ']
    exact hsol.best _ ((k1 _).2 ⟨T', hS', hw'', rfl⟩)

end MPOpt
