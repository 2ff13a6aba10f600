import Verif.Model.HAdaptive
import Verif.Model.Helpers

/-!
# `mpopt_h_adaptive` objects: `solve` and `process_results` (mpopt.py:2304-2522, 2709-2805, 884-987)

The loop of `Model/HAdaptive.lean` with the object's own solver, residuals and control slopes. The mesh
is not changed between `create_nlp` and the functions that look at a solution. Printing, timing and plots are left out.
-/

set_option autoImplicit false

namespace MPOpt
variable {K V : Type} [Field K] [LinearOrder K]

/-- What the class needs from outside: that of `mpopt`, the numbers in a dictionary value (`solution["x"]`),
`np.linalg.norm(·, 2)` of a row, and the value 0 of an option. -/
structure HOutside (K V : Type) extends Outside K V where
  num : V → Py (List K)
  norm : List K → K
  zero : V

/-- An `mpopt_h_adaptive` object. -/
structure HOpt (K V : Type) where
  ocp : OCP K
  nSegments : Nat
  orders : List Nat
  scheme : String
  lbh : List K
  ubh : List K
  tol : List K
  /-- `self.grid_type` -/
  gridType : List String
  /-- `self._MAX_GRID_POINTS` -/
  maxGrid : Nat
  /-- `self._THRESHOLD_SLOPE` -/
  slope : K
  /-- `self._TOL_SEG_WIDTH_CHANGE` -/
  tolChange : K
  initialized : Bool
  solver : Option (NlpSol K V)
  bounds : Option (Disc.NLP K)
  /-- `self._nlp_sw_params` -/
  widths : Option (List K)
  /-- `self.iter_count`, 0 before the first `solve` -/
  iterCount : Nat
  /-- `self.iter_info`, empty before the first `solve` -/
  iterInfo : List (Nat × Option K)

/-- `mpopt_h_adaptive(problem, …)` (mpopt.py:52-53, 90, 2293-2329). -/
def newHAdaptive (problem : OCP K) (nSegments : Nat) (orders : OrdersArg) (scheme : String) : Py (HOpt K V) := do
  let (ords, _) ← initOrders nSegments orders
  return {
    ocp := problem, nSegments, orders := ords, scheme
    lbh := List.replicate problem.nPhases (1 / 100000)
    ubh := List.replicate problem.nPhases 1
    tol := List.replicate problem.nPhases (1 / 100)
    gridType := List.replicate problem.nPhases "fixed", maxGrid := 15, slope := 1 / 10, tolChange := 1 / 20
    initialized := false, solver := none, bounds := none, widths := none,
    iterCount := 0, iterInfo := [] }

/-- The discretised problem (mpopt.py:574-600, 95-103). -/
def HOpt.disc (w : HOutside K V) (s : HOpt K V) : Py (Disc K) :=
  mkDisc w.lib w.method w.tau0 w.tau1 s.ocp s.nSegments s.orders s.scheme

/-- `create_solver` (mpopt.py:725-758). On an exception the attributes assigned so far stay. -/
def HOpt.createSolver (w : HOutside K V) (s : HOpt K V) (solver : String) (options : PyDict V) :
    HOpt K V × Py Unit :=
  match (do (← s.disc w).createNlp : Py (Disc.NLP K)) with
  | .error e => (s, .error e)
  | .ok nlp =>
    let s := { s with bounds := some nlp }
    let opts := solverOptions w.vals solver options
    if w.accepts solver opts then
      ({ s with solver := some ⟨nlp, solver, opts⟩, initialized := true }, .ok ())
    else (s, .error .value)

/-- `initialize_solution()` (mpopt.py:694-708). -/
def HOpt.guess (w : HOutside K V) (s : HOpt K V) : Py V := do
  return w.vec (← s.ocp.initialGuess (s.orders.sum + 1))

/-- The call of the solver object in the loop (mpopt.py:2433-2438): warm start, widths, bounds. -/
def HOpt.call (w : HOutside K V) (s : HOpt K V) (initial : Option (PyDict V)) (sw : List K) :
    Py (SolverCall K V) := do
  let inputs ← warmStart (s.guess w) initial
  match s.solver, s.bounds with
  | some sol, some b => return ⟨sol, b, inputs, sw⟩
  | _, _ => Except.error PyErr.attribute

/-- What residual functions look at for a solution and the stored widths. A missing key `x` raises `KeyError`. -/
def HOpt.solvedAt (w : HOutside K V) (s : HOpt K V) (sol : PyDict V) (sw : List K) : Py (Solved K) := do
  let d ← s.disc w
  match sol.get? "x" with
  | none => Except.error PyErr.index
  | some v => return ⟨d, sw, s.gridType, s.maxGrid, ← w.num v⟩

/-- Node times, control slopes in τ and phase ends (mpopt.py:2764-2773). The residual grid and its times are computed
there too but do not enter the result. -/
def Solved.slopeData (e : Solved K) (ph : Nat) : Py (SlopeData K) := do
  let tr ← e.disc.trajectories ph e.z e.widths
  match ← e.residualGrid ph none with
  | none => Except.error PyErr.type
  | some taus =>
    let _ ← timeGridAt tr.t taus e.disc.orders e.disc.colloc.tau0 e.disc.colloc.tau1
    let du ← e.disc.compD.mtimes tr.u
    return ⟨tr.t, du.toRows, tr.t0, tr.tf⟩

/-- What the width computation measures (mpopt.py:2540, 2718, 2764-2773). In the code slopes are computed only for
phases that miss their tolerance; their computation raises only when that of the residuals did. -/
def HOpt.probe (w : HOutside K V) (s : HOpt K V) (method : PyDict String) (sol : PyDict V) (sw : List K) :
    Py (Probe K) := do
  let e ← s.solvedAt w sol sw
  let res ← e.dynResiduals none none false
  let slopes ← (if method.get? "method" = some "control_slope"
    then (List.range s.ocp.nPhases).mapM e.slopeData else .ok [] : Py (List (SlopeData K)))
  return ⟨res.map (·.2), slopes⟩

/-- Settings of the loop (mpopt.py:2379, 2415, 2777). -/
def HOpt.config (w : HOutside K V) (s : HOpt K V) (method : PyDict String) : HConfig K :=
  ⟨s.nSegments, s.ocp.nPhases, s.tol, s.lbh, s.ubh, s.slope, s.tolChange, w.norm, method⟩

/-- Arguments of `solve`. -/
structure HArgs (V : Type) where
  initial : Option (PyDict V)
  reinitialize : Bool
  plugin : String
  options : PyDict V
  /-- `mpopt_options` -/
  method : PyDict String
  maxIter : Nat

/-- Everything the loop depends on, for an object with a solver. `nlpsol` is the solver; it may behave differently at
every call (the number is that of earlier calls within one `solve`). -/
def HOpt.env [FloorRing K] (w : HOutside K V) (nlpsol : Nat → SolverCall K V → Py (PyDict V)) (s : HOpt K V)
    (method : PyDict String) : Py (HEnv K (PyDict V) (List K)) :=
  (s.config w method).env (fun k init sw => do nlpsol k (← s.call w init sw))
    (fun _ sol sw => s.probe w method sol sw)

/-- `solve` (mpopt.py:2331-2470). -/
def HOpt.solve [FloorRing K] (w : HOutside K V) (nlpsol : Nat → SolverCall K V → Py (PyDict V)) (s : HOpt K V)
    (a : HArgs V) : HOpt K V × Py (PyDict V) :=
  let (s, r) := if s.initialized = false ∨ a.reinitialize = true
    then s.createSolver w a.plugin (hSolverDict w.zero a.options) else (s, .ok ())
  match r with
  | .error e => (s, .error e)
  | .ok _ =>
    match s.env w nlpsol (hMethodDict a.method) with
    | .error e => ({ s with iterCount := 0, iterInfo := [] }, .error e)
    | .ok E =>
      let (st, r) := E.solve a.initial s.widths a.maxIter
      ({ s with widths := st.sw, iterCount := st.count, iterInfo := st.info }, r)

/-- `process_results` (mpopt.py:884-987) for a solution dictionary. -/
def HOpt.processResults (w : HOutside K V) (s : HOpt K V) (sol : PyDict V) (phasesToPlot : List (List Nat))
    (scaling residualX residualDx : Bool) : Py (Post K × Option (PyDict (ResidVal K))) := do
  match s.widths with
  | none => Except.error PyErr.attribute
  | some sw =>
    let e ← s.solvedAt w sol sw
    let r ← residValue residualX residualDx (e.stateResiduals none false) (e.dynResiduals none none false)
      ResidVal.states ResidVal.dynamics
    let p ← mkPost e phasesToPlot scaling
    return (p, r)

/-- The `initial_solution` argument of one call among several: left out, what the call before returned, or another
dictionary. -/
inductive HStart (V : Type)
  | fresh
  | previous
  | given (d : PyDict V)

/-- The argument, when `last` is what the call before returned. -/
def HStart.value (last : Option (PyDict V)) : HStart V → Option (PyDict V)
  | .fresh => none
  | .previous => last
  | .given d => some d

/-- Calls of `solve` one after the other, and the solution returned by the last of them (`none` when it raised). The
caller may catch exceptions and go on. -/
def HOpt.run [FloorRing K] (w : HOutside K V) (nlpsol : Nat → Nat → SolverCall K V → Py (PyDict V)) :
    List (HStart V × HArgs V) → Nat → HOpt K V → Option (PyDict V) → HOpt K V × Option (PyDict V)
  | [], _, s, last => (s, last)
  | (st, a) :: as, n, s, last =>
    let (s, r) := s.solve w (nlpsol n) { a with initial := st.value last }
    HOpt.run w nlpsol as (n + 1) s r.toOption

end MPOpt
