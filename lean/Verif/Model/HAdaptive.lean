import Verif.Model.Widths
import Verif.Model.Solver

/-!
# `mpopt_h_adaptive.solve` (mpopt.py:2331-2522)

The loop is written for any type `Sol` of solver results and any type `W` of width vectors; the solver and the
evaluation of a solution are oracles that may behave differently at every call. Timing and printing are left
out, except that the two `print` statements after the loop use no more than `return` does.
-/

set_option autoImplicit false

namespace MPOpt
variable {K : Type} [Field K] [LinearOrder K]

/-- A call of the NLP solver: warm start taken from, parameter `p`, result. -/
structure HCall (Sol W : Type) where
  start : Option Sol
  p : W
  result : Sol

/-- Attributes and local variables of `solve`. -/
structure HState (K Sol W : Type) where
  /-- `self._nlp_sw_params`, `none` while the attribute does not exist -/
  sw : Option W
  /-- `sw_old`, `none` for the initial `[]` -/
  swOld : Option W
  /-- `new_nlp_sw_params` -/
  newSw : W
  /-- `max_error` -/
  maxErr : Option K
  /-- `initial_solution` -/
  init : Option Sol
  /-- `solution`, `none` while unbound -/
  solution : Option Sol
  /-- `self.iter_count` -/
  count : Nat
  /-- `self.iter_info` -/
  info : List (Nat × Option K)
  /-- calls of the NLP solver so far -/
  calls : List (HCall Sol W)

/-- Everything `solve` depends on. -/
structure HEnv (K Sol W : Type) where
  nSegments : Nat
  /-- `min(self.tol_residual)` -/
  tol : K
  /-- equal widths -/
  dflt : W
  /-- the NLP solver; the first argument is the number of calls made before -/
  solver : Nat → Option Sol → W → Py Sol
  /-- the body of `get_segment_width_parameters` (mpopt.py:2503-2522) for a solution and stored widths; the first
  argument is the number of solver calls made before -/
  refine : Nat → Sol → W → Py (W × Option K)
  /-- `sw_percentage_change.all()` for new and old widths -/
  unchanged : W → W → Py Bool

variable {Sol W : Type}

/-- `get_segment_width_parameters` (mpopt.py:2472-2522): attribute afterwards, new widths, largest residual. -/
def HEnv.widths (E : HEnv K Sol W) (nCalls : Nat) (sol : Option Sol) (sw : Option W) :
    Py (Option W × W × Option K) :=
  if E.nSegments = 1 then .ok (sw, E.dflt, none)
  else match sol with
    | none => .ok (sw, E.dflt, none)
    | some s => do
      let w := sw.getD E.dflt
      let (new, err) ← E.refine nCalls s w
      return (some w, new, err)

/-- How an iteration ends. -/
inductive Flow
  | next
  | stop
  | raise (e : PyErr)
  deriving DecidableEq

/-- `d[k] = v` for `iter_info`. -/
def setInfo (d : List (Nat × Option K)) (k : Nat) (v : Option K) : List (Nat × Option K) :=
  if d.any (fun e => e.1 == k) then d.map fun e => if e.1 == k then (k, v) else e else d ++ [(k, v)]

/-- `abs(max_error - mean_error) < 0.05 * abs(max_error)` with the mean of the last four entries of
`iter_info` (mpopt.py:2402-2404); arithmetic on `None` raises. -/
def stagnates (info : List (Nat × Option K)) (maxErr : Option K) : Py Bool := do
  let vals := (info.map (·.2)).drop (info.length - 4)
  let nums ← vals.mapM fun o => match o with
    | some v => (.ok v : Py K)
    | none => .error .type
  match maxErr with
  | none => .error .type
  | some e => return decide (|e - nums.sum / (nums.length : Nat)| < 1 / 20 * |e|)

/-- The part of an iteration before the solver is called (mpopt.py:2394-2429). -/
def HEnv.before (E : HEnv K Sol W) (i : Nat) (s : HState K Sol W) : HState K Sol W × Flow :=
  let s := { s with sw := some s.newSw }
  let s := if 0 < s.count then { s with info := setInfo s.info s.count s.maxErr } else s
  match (if 4 < s.count then stagnates s.info s.maxErr else .ok false) with
  | .error e => (s, .raise e)
  | .ok true => ({ s with sw := s.swOld }, .stop)
  | .ok false =>
    match (if 0 < i then (match s.swOld with
        | some old => E.unchanged s.newSw old
        | none => .error .index) else .ok false) with
    | .error e => (s, .raise e)
    | .ok true => ({ s with sw := s.swOld }, .stop)
    | .ok false => (if i = 0 ∧ s.init.isNone then { s with maxErr := none } else s, .next)

/-- `max_error is not None and max_error < min(self.tol_residual)`. -/
def HEnv.accepts (E : HEnv K Sol W) (err : Option K) : Bool :=
  match err with
  | some e => decide (e < E.tol)
  | none => false

/-- The solver call and the rest of the iteration (mpopt.py:2433-2464). -/
def HEnv.after (E : HEnv K Sol W) (maxIter i : Nat) (s : HState K Sol W) : HState K Sol W × Flow :=
  match E.solver s.calls.length s.init s.newSw with
  | .error e => (s, .raise e)
  | .ok sol =>
    let s := { s with solution := some sol, init := some sol, swOld := some s.newSw,
                      calls := s.calls ++ [⟨s.init, s.newSw, sol⟩] }
    match E.widths s.calls.length s.init s.sw with
    | .error e => (s, .raise e)
    | .ok (sw, new, err) =>
      let s := { s with sw := sw, newSw := new, maxErr := err, count := s.count + 1 }
      if E.accepts err then ({ s with info := setInfo s.info s.count err }, .stop)
      else if i + 1 = maxIter then ({ s with info := setInfo s.info s.count err }, .next)
      else (s, .next)

/-- One iteration. -/
def HEnv.iter (E : HEnv K Sol W) (maxIter i : Nat) (s : HState K Sol W) : HState K Sol W × Flow :=
  match E.before i s with
  | (s, .next) => E.after maxIter i s
  | r => r

/-- `for iter in range(max_iter)`: `k` iterations are left, the next one is number `i`. -/
def HEnv.loop (E : HEnv K Sol W) (maxIter : Nat) : Nat → Nat → HState K Sol W → HState K Sol W × Option PyErr
  | 0, _, s => (s, none)
  | k + 1, i, s =>
    match E.iter maxIter i s with
    | (s, .next) => E.loop maxIter k (i + 1) s
    | (s, .stop) => (s, none)
    | (s, .raise e) => (s, some e)

/-- `solve` after the solver object exists (mpopt.py:2377-2470); `sw` is the attribute on entry. When the first
computation of widths raises, the attribute has been set (mpopt.py:2500-2501). -/
def HEnv.solve (E : HEnv K Sol W) (initial : Option Sol) (sw : Option W) (maxIter : Nat) :
    HState K Sol W × Py Sol :=
  match E.widths 0 initial sw with
  | .error e => (⟨some (sw.getD E.dflt), none, E.dflt, none, initial, none, 0, [], []⟩, .error e)
  | .ok (sw, new, err) =>
    let s : HState K Sol W := ⟨sw, none, new, err, initial, none, 0, [], []⟩
    let (s, r) := if E.accepts err
      then ({ s with info := setInfo s.info 0 err, solution := initial }, none)
      else E.loop maxIter maxIter 0 s
    (s, match r with
      | some e => .error e
      | none => match s.solution with
        | some sol => .ok sol
        | none => .error .unboundLocal)

/-! ## The code's own width computation -/

/-- Attributes of `mpopt_h_adaptive` used for widths, and the Python-side functions they are combined with. -/
structure HConfig (K : Type) where
  nSegments : Nat
  nPhases : Nat
  tolResidual : List K
  lbh : List K
  ubh : List K
  /-- `_THRESHOLD_SLOPE` -/
  threshold : K
  /-- `_TOL_SEG_WIDTH_CHANGE` -/
  tolChange : K
  norm : List K → K
  /-- `mpopt_options`, keys and values are strings -/
  options : PyDict String

/-- What is measured of a solution at given widths: residuals by phase and segment, slopes by phase. -/
structure Probe (K : Type) where
  residuals : List (List (SegResidual K))
  slopes : List (SlopeData K)

/-- `default_widths` (mpopt.py:2492). -/
def HConfig.dflt (C : HConfig K) : List K :=
  List.replicate (C.nSegments * C.nPhases) (1 / (C.nSegments : K))

/-- Choice of the method (mpopt.py:2503-2522). -/
def HConfig.refine [FloorRing K] (C : HConfig K) (P : Py (Probe K)) (sw : List K) :
    Py (List K × Option K) :=
  match C.options.get? "method" with
  | some "control_slope" => do
    let P ← P
    let (w, e) ← slopeWidths C.norm C.nSegments C.nPhases C.tolResidual C.lbh C.ubh C.threshold
      P.residuals P.slopes sw
    return (w, some e)
  | some "residual" => do
    let P ← P
    let (w, e) ← residualWidths C.norm C.nSegments C.nPhases C.tolResidual P.residuals sw
      ((C.options.get? "sub_method").getD "equal_area")
    return (w, some e)
  | _ => .ok (C.dflt, none)

/-- `sw_percentage_change.all()` (mpopt.py:2411-2420). Division by a zero width gives `nan` or `inf`, which
compares false. -/
def HConfig.unchanged (C : HConfig K) (new old : List K) : Py Bool := do
  let flags ← (List.range new.length).mapM fun i => do
    let a ← pyIdx new i
    let b ← pyIdx old i
    return match npDiv |a - b| a with
      | some q => decide (q ≤ C.tolChange)
      | none => false
  return flags.all id

/-- `solve` with the code's own width computation, for arbitrary solver and measurements. -/
def HConfig.env [FloorRing K] (C : HConfig K) (solver : Nat → Option Sol → List K → Py Sol)
    (probe : Nat → Sol → List K → Py (Probe K)) : Py (HEnv K Sol (List K)) :=
  if C.nSegments = 0 then .error .zeroDivision
  else match C.tolResidual with
    | [] => .error .value
    | a :: l => .ok ⟨C.nSegments, l.foldl min a, C.dflt, solver,
        fun n s w => C.refine (probe n s w) w, C.unchanged⟩

/-! ## Options of `mpopt_h_adaptive.solve` -/

section
variable {V : Type}

/-- The option dictionary object after `solve` has run `create_solver` (mpopt.py:2367-2370): the key
`ipopt.print_level` is added to the caller's dictionary, whatever the solver is. `zero` is the value 0. -/
def hSolverDict (zero : V) (options : PyDict V) : PyDict V :=
  if options.has "ipopt.print_level" then options else options.set "ipopt.print_level" zero

/-- `mpopt_options` after `solve` (mpopt.py:2372-2374). -/
def hMethodDict (options : PyDict String) : PyDict String :=
  if options.isEmpty then (options.set "method" "residual").set "sub_method" "equal_area" else options

/-- The objects bound to the default arguments `nlp_solver_options={}` and `mpopt_options={}`. They are made
once, when the class is defined, and shared by all calls. -/
structure HDefaults (V : Type) where
  nlp : PyDict V
  mpopt : PyDict String

/-- What one call does with options: `none` means that the caller left the argument out. `builds` says
whether the call creates the solver object. Result: default objects afterwards, options of `ca.nlpsol`
(if built), `mpopt_options` used. -/
def HDefaults.call (c : OptVals V) (zero : V) (d : HDefaults V) (solver : String)
    (nlp : Option (PyDict V)) (mp : Option (PyDict String)) (builds : Bool) :
    HDefaults V × Option (PyDict V) × PyDict String :=
  let used := nlp.getD d.nlp
  let used' := if builds then hSolverDict zero used else used
  let mp' := hMethodDict (mp.getD d.mpopt)
  (⟨if nlp.isNone then used' else d.nlp, if mp.isNone then mp' else d.mpopt⟩,
    if builds then some (solverOptions c solver used') else none, mp')

end
end MPOpt
