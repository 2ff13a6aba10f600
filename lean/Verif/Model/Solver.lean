import Verif.Model.Transcription

/-!
# `mpopt`: initial guess, solver options, warm start, life cycle (mpopt.py:641-855)
-/

set_option autoImplicit false

namespace MPOpt

/-! ## Dictionaries -/

/-- A Python `dict` with string keys, as its items in insertion order. -/
abbrev PyDict (V : Type) := List (String × V)

namespace PyDict
variable {V : Type}

/-- `d.get(k)`. -/
def get? (d : PyDict V) (k : String) : Option V := (d.find? fun e => e.1 == k).map (·.2)

/-- `k in d`. -/
def has (d : PyDict V) (k : String) : Bool := d.any fun e => e.1 == k

/-- `d[k] = v`: overwrites in place or appends. -/
def set (d : PyDict V) (k : String) (v : V) : PyDict V :=
  if d.has k then d.map fun e => if e.1 == k then (k, v) else e else d ++ [(k, v)]

/-- A Python dict has each key once. -/
def WF (d : PyDict V) : Prop := (d.map (·.1)).Nodup

end PyDict

section
variable {K : Type} [Field K]

/-! ## Initial guess -/

/-- `np.linspace(a, b, n)[k]` (for `n = 1` the start). -/
def linspaceAt (a b : K) (n k : Nat) : K := a + k * ((b - a) / ((n : K) - 1))

/-- One entry of the interpolation `y0 + (yf - y0) / (tf0 - t00) * (t - t00)` (mpopt.py:668-692). With
`tf0 = t00` numpy divides by zero and multiplies by zero, which gives `nan`. -/
def guessAt [DecidableEq K] (y0 yf t0 tf : K) (n k : Nat) : Ext K :=
  if tf = t0 then .nan else .fin (y0 + (yf - y0) / (tf - t0) * (linspaceAt t0 tf n k - t0))

/-- `init_solution_per_phase` (mpopt.py:641-692); `N` is `self._Npoints`. The state block is transposed
before it is flattened, the control block is not. -/
def OCP.guessPhase [DecidableEq K] (ocp : OCP K) (N ph : Nat) : Py (List (Ext K)) := do
  let x00 ← mulRow (← pyIdx ocp.x00 ph) ocp.scaleX
  let xf0 ← mulRow (← pyIdx ocp.xf0 ph) ocp.scaleX
  let u00 ← mulRow (← pyIdx ocp.u00 ph) ocp.scaleU
  let uf0 ← mulRow (← pyIdx ocp.uf0 ph) ocp.scaleU
  let t00 := (← pyIdx ocp.t00 ph).map (· * ocp.scaleT)
  let tf0 := (← pyIdx ocp.tf0 ph).map (· * ocp.scaleT)
  let a0 ← mulRow (← pyIdx ocp.a0 ph) ocp.scaleA
  let t0 ← pyIdx t00 0
  let tf ← pyIdx tf0 0
  let xs ← npConcat ((List.range ocp.nx).map fun j => (List.range N).map fun k =>
    guessAt (x00.getD j 0) (xf0.getD j 0) t0 tf N k)
  let us ← npConcat ((List.range N).map fun k => (List.range ocp.nu).map fun j =>
    guessAt (u00.getD j 0) (uf0.getD j 0) t0 tf N k)
  return xs ++ us ++ t00.map Ext.fin ++ tf0.map Ext.fin ++ a0.map Ext.fin

/-- `initialize_solution` (mpopt.py:694-708). -/
def OCP.initialGuess [DecidableEq K] (ocp : OCP K) (N : Nat) : Py (List (Ext K)) := do
  let z ← (List.range ocp.nPhases).mapM (ocp.guessPhase N)
  npConcat z

/-- `get_segment_width_parameters` of `mpopt` (mpopt.py:710-723). -/
def equalWidths (nSegments nPhases : Nat) : Py (List K) :=
  if nSegments = 0 then .error .zeroDivision
  else .ok (List.replicate (nSegments * nPhases) (1 / (nSegments : K)))

end

/-! ## Options -/

section
variable {V : Type}

/-- Values of the default ipopt options; `V` is whatever type option values have. -/
structure OptVals (V : Type) where
  maxIter : V
  accTol : V
  printLevel : V
  sb : V
  printTime : V

/-- `create_solver`: the option dictionary handed to `ca.nlpsol` (mpopt.py:740-754; the same code in
`mpopt_adaptive`, mpopt.py:3193-3205). -/
def solverOptions (c : OptVals V) (solver : String) (options : PyDict V) : PyDict V :=
  let defaults : PyDict V :=
    if solver == "ipopt" then
      [("ipopt.max_iter", c.maxIter), ("ipopt.acceptable_tol", c.accTol),
        ("ipopt.print_level", c.printLevel), ("ipopt.sb", c.sb), ("print_time", c.printTime)]
    else []
  options.foldl (fun d e => d.set e.1 e.2) defaults

/-! ## Warm start -/

/-- `key_target_pair` (mpopt.py:832-839). -/
def warmTarget (k : String) : Option String :=
  if k == "x" then some "x0" else if k == "x0" then some "x0"
  else if k == "lam_x" then some "lam_x0" else if k == "lam_x0" then some "lam_x0"
  else if k == "lam_g" then some "lam_g0" else if k == "lam_g0" then some "lam_g0" else none

/-- `get_solver_warm_start_input_parameters` (mpopt.py:822-855); `guess` is `initialize_solution()`,
evaluated only when needed. -/
def warmStart (guess : Py V) (solution : Option (PyDict V)) : Py (PyDict V) := do
  let inputs ← (match solution with
    | none => do return [("x0", ← guess)]
    | some s => return s.foldl (fun (d : PyDict V) e =>
        match warmTarget e.1 with
        | some t => d.set t e.2
        | none => d) [] : Py (PyDict V))
  if inputs.has "x0" then return inputs
  else return inputs.set "x0" (← guess)

end

/-! ## Life cycle -/

section
variable {K V : Type} [Field K] [LinearOrder K]

/-- What the code needs from outside to build and run a solver: node library and method (Collocation
settings), default option values, whether `ca.nlpsol` accepts plugin and options, and the wrapping of
vectors as dictionary values. -/
structure Outside (K V : Type) where
  lib : NodeLib K
  method : Method
  tau0 : K
  tau1 : K
  vals : OptVals V
  accepts : String → PyDict V → Bool
  vec : List (Ext K) → V

/-- The solver object made by `ca.nlpsol`. -/
structure NlpSol (K V : Type) where
  problem : Disc.NLP K
  plugin : String
  options : PyDict V

/-- An `mpopt` object. `ocp` is the index of its problem object in the heap. -/
structure Opt (K V : Type) where
  ocp : Nat
  nSegments : Nat
  orders : List Nat
  scheme : String
  /-- `self._Npoints`, set by `reset_mpopt` -/
  npoints : Nat
  initialized : Bool
  solver : Option (NlpSol K V)
  /-- `self.nlp_bounds`, kept as the NLP whose bounds they are -/
  bounds : Option (Disc.NLP K)
  widths : Option (List K)

/-- Problem objects and one optimiser. The user's problem object has index 0. -/
structure Session (K V : Type) where
  heap : List (OCP K)
  opt : Opt K V

/-- A call of the solver object (mpopt.py:806): problem inside the solver, bounds, inputs, parameters. -/
structure SolverCall (K V : Type) where
  solver : NlpSol K V
  bounds : Disc.NLP K
  inputs : PyDict V
  p : List K

/-- `mpopt(problem, …)` (mpopt.py:56-93): `copy.deepcopy(problem)` allocates a new object. -/
def newSession (problem : OCP K) (nSegments : Nat) (orders : OrdersArg) (scheme : String) :
    Py (Session K V) := do
  let (ords, N) ← initOrders nSegments orders
  return ⟨[problem, problem], ⟨1, nSegments, ords, scheme, N, false, none, none, none⟩⟩

/-- The problem the optimiser works on: `self._ocp`. -/
def Session.ocp? (s : Session K V) : Py (OCP K) := pyIdx s.heap s.opt.ocp

/-- `create_nlp` including `compute_numerical_approximation` (mpopt.py:574-639). The number of segments is
not checked here (only in `reset_mpopt`). When the orders were changed without `reset_mpopt`, `_Npoints`
does not match the matrices and CasADi raises. -/
def Session.buildNlp (w : Outside K V) (s : Session K V) : Py (Disc.NLP K) := do
  let ocp ← s.ocp?
  let d ← mkDisc w.lib w.method w.tau0 w.tau1 ocp s.opt.orders.length s.opt.orders s.opt.scheme
  if s.opt.npoints ≠ d.N then Except.error PyErr.shape
  { d with nSegments := s.opt.nSegments }.createNlp

/-- `create_solver` (mpopt.py:725-758). On an exception the attributes assigned so far stay. -/
def Session.createSolver (w : Outside K V) (s : Session K V) (solver : String) (options : PyDict V) :
    Session K V × Py Unit :=
  match s.buildNlp w with
  | .error e => (s, .error e)
  | .ok nlp =>
    let s := { s with opt := { s.opt with bounds := some nlp } }
    let opts := solverOptions w.vals solver options
    if w.accepts solver opts then
      ({ s with opt := { s.opt with solver := some ⟨nlp, solver, opts⟩, initialized := true } }, .ok ())
    else (s, .error .value)

/-- Arguments of `solve`. -/
structure SolveArgs (K V : Type) where
  initial : Option (PyDict V)
  reinitialize : Bool
  plugin : String
  options : PyDict V
  /-- `mpopt_options["nlp_sw_params"]`, if present -/
  widths : Option (List K)

/-- `initialize_solution()` at the current problem and number of nodes. -/
def Session.guess (w : Outside K V) (s : Session K V) : Py V := do
  let ocp ← s.ocp?
  let z ← ocp.initialGuess s.opt.npoints
  return w.vec z

/-- `solve` up to the call of the solver object (mpopt.py:760-806). -/
def Session.solve (w : Outside K V) (s : Session K V) (a : SolveArgs K V) :
    Session K V × Py (SolverCall K V) :=
  let (s, r) := if s.opt.initialized = false ∨ a.reinitialize = true
    then s.createSolver w a.plugin a.options else (s, .ok ())
  match r with
  | .error e => (s, .error e)
  | .ok _ =>
    let sw : Py (List K) := match a.widths with
      | some l => .ok l
      | none => do equalWidths s.opt.nSegments (← s.ocp?).nPhases
    match sw with
    | .error e => (s, .error e)
    | .ok sw =>
      let s := { s with opt := { s.opt with widths := some sw } }
      (s, do
        let inputs ← warmStart (s.guess w) a.initial
        match s.opt.solver, s.opt.bounds with
        | some sol, some b => return ⟨sol, b, inputs, sw⟩
        | _, _ => Except.error PyErr.attribute)

/-- What can happen to a session. -/
inductive Op (K V : Type)
  /-- the user edits the problem object passed to the constructor -/
  | editUser (f : OCP K → OCP K)
  /-- the user edits `opt._ocp` -/
  | editOwn (f : OCP K → OCP K)
  /-- `opt._ocp = problem`, with the object passed to the constructor -/
  | assign
  /-- assignment to `n_segments`, `poly_orders` (as `solve_ph` does, mpopt.py:4448-4451) -/
  | setMesh (nSegments : Nat) (orders : List Nat)
  /-- `reset_mpopt()` (mpopt.py:81-93) -/
  | reset
  | solve (a : SolveArgs K V)

/-- Effect of one operation; the result of a `solve` is returned. -/
def Session.step (w : Outside K V) (s : Session K V) : Op K V → Session K V × Py (Option (SolverCall K V))
  | .editUser f => ({ s with heap := s.heap.modify 0 f }, .ok none)
  | .editOwn f => ({ s with heap := s.heap.modify s.opt.ocp f }, .ok none)
  | .assign => ({ s with opt := { s.opt with ocp := 0 } }, .ok none)
  | .setMesh n o => ({ s with opt := { s.opt with nSegments := n, orders := o } }, .ok none)
  | .reset =>
    if s.opt.orders.length = s.opt.nSegments then
      ({ s with opt := { s.opt with npoints := s.opt.orders.sum + 1, initialized := false } }, .ok none)
    else (s, .error .assertion)
  | .solve a => let (s, r) := s.solve w a; (s, r.map some)

/-- A history of operations; results in order. Exceptions do not end it: the caller may catch them. -/
def Session.run (w : Outside K V) (s : Session K V) :
    List (Op K V) → Session K V × List (Py (Option (SolverCall K V)))
  | [] => (s, [])
  | o :: os =>
    let (s, r) := s.step w o
    let (s, rs) := s.run w os
    (s, r :: rs)

end
end MPOpt
