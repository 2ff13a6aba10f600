import Verif.Model.Adaptive
import Verif.Model.Helpers

/-!
# `mpopt_adaptive`: solver, `solve` and `process_results` (mpopt.py:2900-2925, 3176-3376)

The mesh is not changed between `create_nlp` and the functions that look at a solution. Printing, timing and plots are left out.
-/

set_option autoImplicit false

namespace MPOpt
variable {K V : Type} [Field K] [LinearOrder K]

/-- An `mpopt_adaptive` object. -/
structure AdaptOpt (K V : Type) where
  ocp : OCP K
  nSegments : Nat
  orders : List Nat
  scheme : String
  lbh : List K
  ubh : List K
  tol : List K
  midResiduals : Bool
  /-- `self.grid_type` -/
  gridType : List String
  /-- `self._MAX_GRID_POINTS` -/
  maxGrid : Nat
  initialized : Bool
  solver : Option (NlpSol K V)
  bounds : Option (Disc.NLP K)
  /-- `self._nlp_sw_params` -/
  widths : Option (List K)
  /-- the vector last returned by `solve`; the code does not keep it, the caller does -/
  last : Option (List K)

/-- `mpopt_adaptive(problem, …)` (mpopt.py:2900-2925). -/
def newAdapt (problem : OCP K) (nSegments : Nat) (orders : OrdersArg) (scheme : String) : Py (AdaptOpt K V) := do
  let (ords, _) ← initOrders nSegments orders
  return {
    ocp := problem, nSegments, orders := ords, scheme
    lbh := List.replicate problem.nPhases (1 / 10000)
    ubh := List.replicate problem.nPhases 1
    tol := List.replicate problem.nPhases (1 / 1000)
    midResiduals := true, gridType := List.replicate problem.nPhases "fixed", maxGrid := 15
    initialized := false, solver := none, bounds := none, widths := none
    last := none }

/-- The discretised problem with the settings of the object (mpopt.py:574-600, 95-103). -/
def AdaptOpt.adapt (w : Outside K V) (s : AdaptOpt K V) : Py (Adapt K) := do
  let d ← mkDisc w.lib w.method w.tau0 w.tau1 s.ocp s.nSegments s.orders s.scheme
  return ⟨d, s.lbh, s.ubh, s.tol, s.midResiduals⟩

/-- `create_solver` (mpopt.py:3176-3207): `p` is taken out of the problem. On an exception the attributes assigned so
far stay. -/
def AdaptOpt.createSolver (w : Outside K V) (s : AdaptOpt K V) (solver : String) (options : PyDict V) :
    AdaptOpt K V × Py Unit :=
  match (do (← s.adapt w).solverProblem : Py (Disc.NLP K)) with
  | .error e => (s, .error e)
  | .ok nlp =>
    let s := { s with bounds := some nlp }
    let opts := solverOptions w.vals solver options
    if w.accepts solver opts then
      ({ s with solver := some ⟨nlp, solver, opts⟩, initialized := true }, .ok ())
    else (s, .error .value)

/-- `initialize_solution()` (mpopt.py:694-708, 2981-3032). -/
def AdaptOpt.guess (w : Outside K V) (s : AdaptOpt K V) : Py V := do
  return w.vec (← (← s.adapt w).initialGuess)

/-- `solve` up to the call of the solver object (mpopt.py:3209-3241). The widths in `mpopt_options` are not looked
at. -/
def AdaptOpt.solveCall (w : Outside K V) (s : AdaptOpt K V) (a : SolveArgs K V) :
    AdaptOpt K V × Py (SolverCall K V) :=
  let (s, r) := if s.initialized = false ∨ a.reinitialize = true
    then s.createSolver w a.plugin a.options else (s, .ok ())
  match r with
  | .error e => (s, .error e)
  | .ok _ => (s, do
    let inputs ← warmStart (s.guess w) a.initial
    match s.solver, s.bounds with
    | some sol, some b => return ⟨sol, b, inputs, []⟩
    | _, _ => Except.error PyErr.attribute)

/-- `solve` (mpopt.py:3209-3247) with `nlpsol` as the solver: the vector returned, and the widths stored. -/
def AdaptOpt.solve (w : Outside K V) (nlpsol : SolverCall K V → Py (List K)) (s : AdaptOpt K V)
    (a : SolveArgs K V) : AdaptOpt K V × Py (List K) :=
  let (s, r) := s.solveCall w a
  match (do
    let c ← r
    let z ← nlpsol c
    let sw ← (← s.adapt w).solvedWidths z
    return (z, sw) : Py (List K × List K)) with
  | .error e => (s, .error e)
  | .ok (z, sw) => ({ s with widths := some sw, last := some z }, .ok z)

/-- Calls of `solve` one after the other; the caller may catch exceptions and go on. -/
def AdaptOpt.run (w : Outside K V) (nlpsol : SolverCall K V → Py (List K)) (s : AdaptOpt K V) :
    List (SolveArgs K V) → AdaptOpt K V
  | [] => s
  | a :: as => (s.solve w nlpsol a).1.run w nlpsol as

/-- What post-processing and residual functions look at, for the solution returned last. They reach it only through
`init_trajectories(phase)(z, self._nlp_sw_params)` (mpopt.py:3249-3276), which reads the widths from `z`. By
`C38_trajectories` this is what the functions of the base class return for the part of `z` without widths and the
widths in `z`, so this part is taken here; `self._nlp_sw_params` are the widths in `z`. -/
def AdaptOpt.solved (w : Outside K V) (s : AdaptOpt K V) : Py (Solved K) := do
  let ad ← s.adapt w
  match s.widths, s.last with
  | some h, some z =>
    return ⟨ad.disc, h, s.gridType, s.maxGrid, ad.disc.allVars.map (bindSyms ad.allVars z)⟩
  | _, _ => Except.error PyErr.attribute

/-- `process_results` (mpopt.py:3278-3376), given the solution returned last. -/
def AdaptOpt.processResults (w : Outside K V) (s : AdaptOpt K V) (phasesToPlot : List (List Nat))
    (scaling residualX residualDx : Bool) : Py (Post K × Option (PyDict (ResidVal K))) := do
  let e ← s.solved w
  let r ← residValue residualX residualDx (e.stateResiduals none false) (e.dynResiduals none none false)
    ResidVal.states ResidVal.dynamics
  let p ← mkPost e phasesToPlot scaling
  return (p, r)

end MPOpt
