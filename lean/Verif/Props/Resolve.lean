import Verif.Props.EndToEnd
import Verif.Props.AdaptiveEnd
import Verif.Props.HMeasure

/-! # C75: solving again after the problem or the settings were edited -/

set_option autoImplicit false
set_option linter.unusedSectionVars false

namespace MPOpt
variable {K V : Type} [Field K] [LinearOrder K]

/-! ### Which problem an `mpopt` object works on -/

/-- The problem object of the user and the one of the optimiser; `none` when they are the same object. -/
structure Problems (K : Type) where
  user : OCP K
  own : Option (OCP K)

/-- The problem the optimiser works on. -/
def Problems.current (P : Problems K) : OCP K := P.own.getD P.user

/-- Effect of one operation on them. -/
def Problems.after (P : Problems K) : Op K V → Problems K
  | .editUser f => ⟨f P.user, P.own⟩
  | .editOwn f => match P.own with
    | some o => ⟨P.user, some (f o)⟩
    | none => ⟨f P.user, none⟩
  | .assign => ⟨P.user, none⟩
  | _ => P

/-- The problems after a history that begins with the construction from `problem`: the optimiser has a copy. -/
def problemsAfter (problem : OCP K) (ops : List (Op K V)) : Problems K :=
  ops.foldl Problems.after ⟨problem, some problem⟩

/-- What a session holds of them. -/
def Session.Has (s : Session K V) (P : Problems K) : Prop :=
  match P.own with
  | some o => s.heap = [P.user, o] ∧ s.opt.ocp = 1
  | none => (∃ o, s.heap = [P.user, o]) ∧ s.opt.ocp = 0

theorem Session.Has.ocp {s : Session K V} {P : Problems K} (h : s.Has P) : s.ocp? = .ok P.current := by
  obtain ⟨u, own⟩ := P
  cases own with
  | some o =>
    obtain ⟨h1, h2⟩ := h
    unfold Session.ocp?; rw [h1, h2]; rfl
  | none =>
    obtain ⟨⟨o, h1⟩, h2⟩ := h
    unfold Session.ocp?; rw [h1, h2]; rfl

theorem Session.solve_keeps (w : Outside K V) (s : Session K V) (a : SolveArgs K V) :
    (s.solve w a).1.heap = s.heap ∧ (s.solve w a).1.opt.ocp = s.opt.ocp ∧ (s.solve w a).1.opt.scheme = s.opt.scheme := by
  have hcs : (s.createSolver w a.plugin a.options).1.heap = s.heap ∧
      (s.createSolver w a.plugin a.options).1.opt.ocp = s.opt.ocp ∧
      (s.createSolver w a.plugin a.options).1.opt.scheme = s.opt.scheme := by
    unfold Session.createSolver
    split
    · exact ⟨rfl, rfl, rfl⟩
    · simp only
      split <;> exact ⟨rfl, rfl, rfl⟩
  have key : ∀ (s1 : Session K V) (r : Py Unit), (s1.heap = s.heap ∧ s1.opt.ocp = s.opt.ocp ∧
      s1.opt.scheme = s.opt.scheme) → ∀ out : Session K V × Py (SolverCall K V), out = (match r with
        | .error e => (s1, .error e)
        | .ok _ =>
          let sw : Py (List K) := match a.widths with
            | some l => .ok l
            | none => do equalWidths s1.opt.nSegments (← s1.ocp?).nPhases
          match sw with
          | .error e => (s1, .error e)
          | .ok sw =>
            let s := { s1 with opt := { s1.opt with widths := some sw } }
            (s, do
              let inputs ← warmStart (s.guess w) a.initial
              match s.opt.solver, s.opt.bounds with
              | some sol, some b => return ⟨sol, b, inputs, sw⟩
              | _, _ => Except.error PyErr.attribute)) →
      out.1.heap = s.heap ∧ out.1.opt.ocp = s.opt.ocp ∧ out.1.opt.scheme = s.opt.scheme := by
    rintro s1 (e | _) h out rfl
    · exact h
    · simp only
      split <;> exact h
  unfold Session.solve
  by_cases hi : s.opt.initialized = false ∨ a.reinitialize = true
  · rw [if_pos hi]
    generalize s.createSolver w a.plugin a.options = out at *
    obtain ⟨s1, r⟩ := out
    exact key s1 r hcs _ rfl
  · rw [if_neg hi]
    exact key s (.ok ()) ⟨rfl, rfl, rfl⟩ _ rfl

theorem Session.Has.step {w : Outside K V} {s : Session K V} {P : Problems K} (h : s.Has P) (o : Op K V) :
    (s.step w o).1.Has (P.after o) ∧ (s.step w o).1.opt.scheme = s.opt.scheme := by
  obtain ⟨heap, opt⟩ := s
  obtain ⟨u, own⟩ := P
  cases o with
  | editUser f =>
    cases own with
    | some o => obtain ⟨h1, h2⟩ := h; subst h1; exact ⟨⟨rfl, h2⟩, rfl⟩
    | none => obtain ⟨⟨o, h1⟩, h2⟩ := h; subst h1; exact ⟨⟨⟨o, rfl⟩, h2⟩, rfl⟩
  | editOwn f =>
    cases own with
    | some o =>
      obtain ⟨h1, h2⟩ := h
      refine ⟨⟨?_, h2⟩, rfl⟩
      simp only at h1 h2
      simp only [Session.step, h1, h2]; rfl
    | none =>
      obtain ⟨⟨o, h1⟩, h2⟩ := h
      refine ⟨⟨⟨o, ?_⟩, h2⟩, rfl⟩
      simp only at h1 h2
      simp only [Session.step, h1, h2]; rfl
  | assign =>
    cases own with
    | some o => obtain ⟨h1, h2⟩ := h; exact ⟨⟨⟨o, h1⟩, rfl⟩, rfl⟩
    | none => obtain ⟨⟨o, h1⟩, h2⟩ := h; exact ⟨⟨⟨o, h1⟩, rfl⟩, rfl⟩
  | setMesh n os => exact ⟨h, rfl⟩
  | reset =>
    simp only [Session.step]
    split <;> exact ⟨h, rfl⟩
  | solve a =>
    obtain ⟨k1, k2, k3⟩ := Session.solve_keeps w ⟨heap, opt⟩ a
    refine ⟨?_, k3⟩
    simp only [Session.step, Problems.after]
    unfold Session.Has at h ⊢
    simp only [k1, k2]
    exact h

theorem Session.Has.run {w : Outside K V} (ops : List (Op K V)) : ∀ {s : Session K V} {P : Problems K}, s.Has P →
    (s.run w ops).1.Has (ops.foldl Problems.after P) ∧ (s.run w ops).1.opt.scheme = s.opt.scheme := by
  induction ops with
  | nil => intro s P h; exact ⟨h, rfl⟩
  | cons o ops ih =>
    intro s P h
    obtain ⟨h1, h2⟩ := h.step (w := w) o
    obtain ⟨k1, k2⟩ := ih h1
    exact ⟨k1, k2.trans h2⟩

/-- **C75** The problem an `mpopt` object works on after any history: its own copy of the problem, as edited through
`opt._ocp`; from an assignment `opt._ocp = problem` on, the user's object with all its edits. -/
theorem C75_current_problem (w : Outside K V) {problem : OCP K} {n : Nat} {orders : OrdersArg} {scheme : String}
    {s₀ : Session K V} (hnew : newSession problem n orders scheme = .ok s₀) (ops : List (Op K V)) :
    (s₀.run w ops).1.ocp? = .ok (problemsAfter problem ops).current ∧ (s₀.run w ops).1.opt.scheme = scheme := by
  unfold newSession at hnew
  simp only [py_bind_eq_ok, py_pure_eq_ok] at hnew
  obtain ⟨⟨os, N⟩, -, rfl⟩ := hnew
  obtain ⟨h1, h2⟩ := Session.Has.run (w := w) (s := ⟨[problem, problem], ⟨1, n, os, scheme, N, false, none, none, none⟩⟩)
    (P := ⟨problem, some problem⟩) ops ⟨rfl, rfl⟩
  exact ⟨h1.ocp, h2⟩

/-- Calls of `solve` and edits of the user's object leave the optimiser with the original problem. -/
theorem C75_unassigned_edits (problem : OCP K) {ops : List (Op K V)}
    (h : ∀ o ∈ ops, (∃ f, o = .editUser f) ∨ ∃ a, o = .solve a) : (problemsAfter problem ops).current = problem := by
  have : ∀ P : Problems K, P.own = some problem → (ops.foldl Problems.after P).own = some problem := by
    induction ops with
    | nil => intro P h; exact h
    | cons o ops ih =>
      intro P hP
      refine ih (fun o' ho => h o' (List.mem_cons_of_mem _ ho)) (P.after o) ?_
      rcases h o List.mem_cons_self with ⟨f, rfl⟩ | ⟨a, rfl⟩ <;> exact hP
  unfold Problems.current problemsAfter
  rw [this _ rfl]; rfl

/-- After an assignment the optimiser works on the user's object, as it is now. -/
theorem C75_assigned_edits (problem : OCP K) (pre post : List (Op K V)) :
    (problemsAfter problem (pre ++ .assign :: post)).current = (problemsAfter problem (pre ++ .assign :: post)).user := by
  have : ∀ (ops : List (Op K V)) (P : Problems K), P.own = none → (ops.foldl Problems.after P).own = none := by
    intro ops
    induction ops with
    | nil => intro P h; exact h
    | cons o ops ih =>
      intro P hP
      refine ih (P.after o) ?_
      obtain ⟨u, own⟩ := P
      have hP : own = none := hP
      subst hP
      cases o <;> rfl
  unfold Problems.current problemsAfter
  rw [List.foldl_append, List.foldl_cons, this post _ rfl]; rfl

section
variable [IsStrictOrderedRing K] {w : Outside K V} {M : Mesh K} {ptp : List (List Nat)} {rx rdx : Bool}

/-- The pieces of a `solve` that made its solver object, on its mesh. -/
theorem resolve_pieces {s : Session K V} {a : SolveArgs K V} {ocp : OCP K} {c : SolverCall K V} {z : List K}
    {p : Post K} {r : Option (PyDict (ResidVal K))} (hi : s.opt.initialized = false ∨ a.reinitialize = true)
    (hocp : s.ocp? = .ok ocp) (hlen : s.opt.orders.length = s.opt.nSegments)
    (hM : MeshFor w s.opt.scheme s.opt.nSegments (.list s.opt.orders) M) (hc : (s.solve w a).2 = .ok c)
    (hp : (s.solve w a).1.processResults w z ptp false rx rdx = .ok (p, r)) :
    p.solved.disc.OnMesh M ∧ p.solved.disc.ocp = ocp ∧ p.solved.disc.nSegments = s.opt.nSegments ∧
      p.solved.widths = c.p ∧ p.solved.z = z ∧ p.scaling = false ∧ p.solved.disc.createNlp = .ok c.bounds ∧
      c.solver.problem = c.bounds ∧
      compQuadWeights ⟨w.method, w.tau0, w.tau1, tausFn w.lib w.tau0 w.tau1 s.opt.scheme⟩ M.orders =
        .ok p.solved.disc.compW ∧
      (match a.widths with
        | some l => c.p = l
        | none => equalWidths s.opt.nSegments ocp.nPhases = .ok c.p) := by
  obtain ⟨e1, e2, e3, e4, e5, e6, e7, e8, e9⟩ := first_solve hi hc
  have hord : M.orders = s.opt.orders := hM.orders
  unfold Session.processResults Session.solved Session.ocp? at hp
  rw [e1, e2, e3, e4, e5, e6] at hp
  have hocp' : pyIdx s.heap s.opt.ocp = .ok ocp := hocp
  rw [hocp'] at hp
  simp only [py_bind_eq_ok, py_pure_eq_ok] at hp
  obtain ⟨e, ⟨oc, hoc, d, hd, he⟩, _, -, p'', hp'', hpp⟩ := hp
  cases hoc; cases hpp; cases he
  unfold mkPost at hp''
  simp only [py_bind_eq_ok, py_pure_eq_ok] at hp''
  obtain ⟨ph, -, rfl⟩ := hp''
  rw [hlen] at hd
  obtain ⟨g1, g2, g3, g4, g5, g6, g7⟩ := mkDisc_inv hd
  have hdd : ({ d with nSegments := s.opt.nSegments } : Disc K) = d := by rw [← g3]
  simp only [hdd]
  refine ⟨⟨hM.good, by rw [hord, g4], by rw [hM.tau0, g5], by rw [hM.tau1, g5], ?_, by rw [g4, g3, g1], g6, g7⟩, g2, trivial,
    trivial, trivial, trivial, ?_, e8, ?_, ?_⟩
  · intro q hq
    rw [g5]
    exact hM.nodes q (by rw [hord, ← g4]; exact hq)
  · unfold Session.buildNlp at e7
    simp only [hocp, py_bind_eq_ok] at e7
    obtain ⟨oc', hoc', d', hd', e7⟩ := e7
    cases hoc'
    rw [hlen, hd] at hd'; cases hd'
    rw [hdd] at e7
    by_cases hN : s.opt.npoints = d.N
    · simpa [hN] using e7
    · simp only [ne_eq, hN, not_false_eq_true, if_true] at e7
      cases e7
  · rw [← g5, hord, ← g4]; exact g7
  · rcases hw : a.widths with _ | l
    · rw [hw] at e9
      obtain ⟨oc', hoc', e9⟩ := e9
      rw [hocp] at hoc'; cases hoc'
      exact e9
    · rw [hw] at e9; exact e9

/-- **C75** `mpopt` objects solve the problem they currently have when asked to reinitialise. After any history of
edits, mesh changes, resets and calls of `solve` (which may have raised), if a `solve` with `reinitialize_nlp=True`
calls a solver that returns a solution, and `process_results` returns, then a trajectory is shown that solves the
problem the object then works on, on the mesh it then has, with the widths asked for. If the solver returned a global
minimiser, the trajectory has the least cost. -/
theorem C75_resolve {problem : OCP K} {n : Nat} {orders : OrdersArg} {scheme : String}
    {s₀ : Session K V} (hnew : newSession problem n orders scheme = .ok s₀) (ops : List (Op K V))
    {ocp : OCP K} (hcur : (problemsAfter problem ops).current = ocp)
    (hv : ValidOCP ocp) (hs : ocp.SettingsOK) (hsc : ocp.PosScales) {n' : Nat} {os : List Nat}
    (hmesh : (s₀.run w ops).1.opt.nSegments = n' ∧ (s₀.run w ops).1.opt.orders = os) (hlen : os.length = n')
    (hM : MeshFor w scheme n' (.list os) M) {a : SolveArgs K V} (ha : a.reinitialize = true)
    {c : SolverCall K V} {z : List K} (hc : ((s₀.run w ops).1.solve w a).2 = .ok c) (hz : c.IsSolution z)
    {p : Post K} {r : Option (PyDict (ResidVal K))}
    (hp : ((s₀.run w ops).1.solve w a).1.processResults w z ptp false rx rdx = .ok (p, r)) :
    ∃ T W J, compQuadWeights ⟨w.method, w.tau0, w.tau1, tausFn w.lib w.tau0 w.tau1 scheme⟩ M.orders = .ok W ∧
      SolvesOCP ocp M T ∧ WidthsAre ocp n' a.widths T ∧ p.Shows ocp M T ∧ PhysCost ocp M W T J ∧
      (c.IsOptimal z → ∀ T' J', SolvesOCP ocp M T' → WidthsAre ocp n' a.widths T' → PhysCost ocp M W T' J' → J ≤ J') := by
  obtain ⟨hocp, hsch⟩ := C75_current_problem w hnew ops
  rw [hcur] at hocp
  obtain ⟨rfl, rfl⟩ := hmesh
  generalize (s₀.run w ops).1 = s at *
  subst hsch
  obtain ⟨h2, h3, h4, h5, h6, h7, h8, h9, hW, h10⟩ := resolve_pieces (Or.inr ha) hocp hlen hM hc hp
  obtain ⟨hcl, hS, hw, hsh⟩ := shown_of_solution hv hs hsc h2 h3 h4 h5 h6 h7 h8 h9 h10 hz
  subst h3 h6
  have hcost := (call_spec h2 hv hs hsc h8 h9 p.solved.z hcl).2
  refine ⟨_, p.solved.disc.compW, c.solver.problem.f (c.point p.solved.z), hW, hS, hw, hsh, ?_,
    fun ho T' J' hS' hw' hJ' => ?_⟩
  · unfold Solved.traj; rw [h5]; exact hcost
  · obtain ⟨k1, k2⟩ := call_trajectories h2 hv hs hsc h8 h9 hcl (req := a.widths) (by rw [h4]; exact h10)
    rw [h4] at k1 k2
    rw [← k2 T' J' hw' hJ']
    exact ho.best _ ((k1 _).2 ⟨T', hS', hw', rfl⟩)


/-! ### `mpopt_adaptive` -/

variable {nlpsol : SolverCall K V → Py (List K)}

theorem AdaptOpt.createSolver_ready {s s1 : AdaptOpt K V} {plugin : String} {options : PyDict V}
    (hlen : s.orders.length = s.nSegments) (h : s.createSolver w plugin options = (s1, .ok ())) :
    s1.Ready w s.ocp s.nSegments (.list s.orders) s.scheme s.lbh s.ubh s.tol s.midResiduals ∧ s1.initialized = true := by
  unfold AdaptOpt.createSolver at h
  split at h
  · cases h
  · rename_i nlp hn
    simp only at h
    split at h
    · cases h
      simp only [py_bind_eq_ok] at hn
      obtain ⟨ad, h1, h2⟩ := hn
      refine ⟨⟨rfl, rfl, rfl, hlen, rfl, rfl, rfl, rfl, rfl, fun ad' sol h3 h4 => ?_, fun ad' b h3 h4 => ?_,
        fun _ => ⟨rfl, rfl⟩⟩, rfl⟩
      · have h3 : s.adapt w = .ok ad' := h3
        rw [h1] at h3; cases h3; cases h4; exact h2
      · have h3 : s.adapt w = .ok ad' := h3
        rw [h1] at h3; cases h3; cases h4; exact h2
    · cases h

/-- A call that makes the solver object is a call on an object with that solver. -/
theorem AdaptOpt.solve_reinit {s s' : AdaptOpt K V} {a : SolveArgs K V} {z : List K}
    (hi : s.initialized = false ∨ a.reinitialize = true) (h : s.solve w nlpsol a = (s', .ok z)) :
    ∃ s1, s.createSolver w a.plugin a.options = (s1, .ok ()) ∧
      (s1.initialized = true → s1.solve w nlpsol { a with reinitialize := false } = (s', .ok z)) := by
  unfold AdaptOpt.solve AdaptOpt.solveCall at h
  rw [if_pos hi] at h
  generalize hcs : s.createSolver w a.plugin a.options = out at h
  obtain ⟨s1, r⟩ := out
  cases r with
  | error e => cases h
  | ok u =>
    refine ⟨s1, rfl, fun hini => ?_⟩
    unfold AdaptOpt.solve AdaptOpt.solveCall
    rw [if_neg (by simp [hini])]
    exact h

/-- **C75** `mpopt_adaptive` objects solve the problem they currently have, with the current settings, when asked to
reinitialise, in whatever state the object is: if the call and `process_results` return and the solver is sound, a
trajectory is shown that solves the problem `self._ocp` with `lbh`, `ubh`, `tol_residual` and `mid_residuals` as they
are at the call. With a solver that returns a global minimiser it has the least cost. -/
theorem C75_adaptive_resolve {s s' : AdaptOpt K V} {a : SolveArgs K V} {z : List K} (ha : a.reinitialize = true)
    (hlen : s.orders.length = s.nSegments) (hv : ValidOCP s.ocp) (hs : s.ocp.SettingsOK) (hsc : s.ocp.PosScales)
    (hlb : s.lbh.length = s.ocp.nPhases) (hub : s.ubh.length = s.ocp.nPhases) (htol : s.tol.length = s.ocp.nPhases)
    (hM : MeshFor w s.scheme s.nSegments (.list s.orders) M)
    (hsound : ∀ c z, nlpsol c = .ok z → c.IsSolution z) (hrun : s.solve w nlpsol a = (s', .ok z))
    {p : Post K} {r : Option (PyDict (ResidVal K))} (hp : s'.processResults w ptp false rx rdx = .ok (p, r)) :
    (∃ T, SolvesAdaptive s.ocp M T s.lbh s.ubh s.tol s.midResiduals ∧ p.Shows s.ocp M T) ∧
      ((∀ c z, nlpsol c = .ok z → c.IsOptimal z) → ∃ T W J,
        compQuadWeights ⟨w.method, w.tau0, w.tau1, tausFn w.lib w.tau0 w.tau1 s.scheme⟩ M.orders = .ok W ∧
        SolvesAdaptive s.ocp M T s.lbh s.ubh s.tol s.midResiduals ∧ p.Shows s.ocp M T ∧ PhysCost s.ocp M W T J ∧
        ∀ T' J', SolvesAdaptive s.ocp M T' s.lbh s.ubh s.tol s.midResiduals → PhysCost s.ocp M W T' J' → J ≤ J') := by
  obtain ⟨s1, h1, h2⟩ := AdaptOpt.solve_reinit (Or.inr ha) hrun
  obtain ⟨hr, hini⟩ := AdaptOpt.createSolver_ready hlen h1
  have hrun' := h2 hini
  refine ⟨?_, fun hopt => C55_adaptive_optimal hr hv hs hsc hlb hub htol hM hopt [] _ hrun' hp⟩
  obtain ⟨T, hT⟩ := C54_adaptive_feasible hr hv hs hsc hlb hub htol hM hsound [] _ hrun' hp
  exact ⟨T, hT.1, hT.2.1⟩

/-- The object with other settings. -/
def AdaptOpt.withSettings (s : AdaptOpt K V) (lbh ubh tol : List K) (mid : Bool) : AdaptOpt K V :=
  { s with lbh := lbh, ubh := ubh, tol := tol, midResiduals := mid }

/-- **C75** Without `reinitialize_nlp` the settings are not looked at again: once an `mpopt_adaptive` object has its
solver, changing `lbh`, `ubh`, `tol_residual` or `mid_residuals` changes nothing in what later calls without
reinitialisation return, nor in what is shown. -/
theorem C75_settings_ignored (s : AdaptOpt K V) (hini : s.initialized = true) {a : SolveArgs K V}
    (ha : a.reinitialize = false) (lbh ubh tol : List K) (mid : Bool) :
    (s.withSettings lbh ubh tol mid).solve w nlpsol a =
      ((s.solve w nlpsol a).1.withSettings lbh ubh tol mid, (s.solve w nlpsol a).2) ∧
    ∀ s' : AdaptOpt K V, (s'.withSettings lbh ubh tol mid).processResults w ptp false rx rdx =
      s'.processResults w ptp false rx rdx := by
  have hno : ∀ s : AdaptOpt K V, s.initialized = true → ¬ (s.initialized = false ∨ a.reinitialize = true) := by
    intro s h; simp [h, ha]
  have had : ∀ s : AdaptOpt K V, (s.withSettings lbh ubh tol mid).adapt w =
      (s.adapt w).map fun ad => ⟨ad.disc, lbh, ubh, tol, mid⟩ := by
    intro s
    unfold AdaptOpt.adapt AdaptOpt.withSettings
    simp only
    rcases mkDisc w.lib w.method w.tau0 w.tau1 s.ocp s.nSegments s.orders s.scheme with e | d <;> rfl
  constructor
  · have hg : (s.withSettings lbh ubh tol mid).guess w = s.guess w := by
      unfold AdaptOpt.guess
      rw [had]
      rcases s.adapt w with e | ad <;> rfl
    have hcall : (s.withSettings lbh ubh tol mid).solveCall w a =
        ((s.solveCall w a).1.withSettings lbh ubh tol mid, (s.solveCall w a).2) ∧ (s.solveCall w a).1 = s := by
      unfold AdaptOpt.solveCall
      rw [if_neg (hno _ hini), if_neg (hno _ (show (s.withSettings lbh ubh tol mid).initialized = true from hini))]
      simp only [hg]
      exact ⟨rfl, trivial⟩
    obtain ⟨c1, c2⟩ := hcall
    unfold AdaptOpt.solve
    rw [c1]
    generalize hr : (s.solveCall w a).2 = r
    generalize s.solveCall w a = out at *
    obtain ⟨s3, r3⟩ := out
    simp only at c2 hr
    subst c2 hr
    simp only [had]
    rcases r3 with e | c
    · rfl
    · simp only [py_bind_ok]
      rcases nlpsol c with e | z
      · rfl
      · simp only [py_bind_ok]
        rcases s3.adapt w with e | ad
        · rfl
        · simp only [Except.map, py_bind_ok,
            show (⟨ad.disc, lbh, ubh, tol, mid⟩ : Adapt K).solvedWidths z = ad.solvedWidths z from rfl]
          rcases ad.solvedWidths z with e | sw <;> rfl
  · intro s'
    unfold AdaptOpt.processResults AdaptOpt.solved
    rw [had]
    rcases s'.adapt w with e | ad
    · rfl
    · rfl

end
end MPOpt
