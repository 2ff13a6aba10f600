import Verif.Model.PhAdaptive
import Verif.Model.HSession

/-!
# The body of `solve_ph` after its first statement (mpopt.py:4441-4596)

`solve_ph` raises before it gets here (`PhObj.solvePh`, C41); this is what it would do if `grid_type`, which is not used
afterwards, were not read. `self.solve(reinitialize_nlp=True, **solve_dict)` is the method of `mpopt`. It takes widths
from `mpopt_options["nlp_sw_params"]` only; the entry `solve_dict["nlp_sw_params"]`, which holds the refined widths (mpopt.py:4449),
disappears in `**kwargs`. Printing is left out.
-/

set_option autoImplicit false

namespace MPOpt
variable {K S V : Type} [Field K] [LinearOrder K]

/-- What the loop asks for: solutions, their relative state residuals and their second derivatives (states, by phase, segment and
point, at the nodes of given orders). The number is that of earlier calls of the solver. -/
structure PhEnv (K S : Type) where
  nPhases : Nat
  nx : Nat
  /-- `self.non_smooth_threshold` -/
  threshold : K
  /-- `solve_dict["mpopt_options"]["nlp_sw_params"]`, if present -/
  given : Option (List K)
  solve : Nat → List Nat → List K → Py S
  residual : S → List Nat → List K → Py (List (List (SegResidual K)))
  second : S → List Nat → List K → List Nat → Py (List (List (List (List K))))

/-- `arr.max()` of a non-empty list. -/
def npMax (l : List K) : Py K :=
  match l with
  | [] => .error .value
  | a :: l => .ok (l.foldl max a)

/-- `np.array(max_r_phase)[:, 1].max(axis=1) > self.max_residual` (mpopt.py:4473-4476, 4537-4538, 4559-4562). -/
def phStatus (tol : K) (segs : List (List (Nat × K))) : Py (List Bool) :=
  segs.mapM fun s => do return decide (tol < (← npMax (s.map (·.2))))

/-- `poly_orders` after the loop over the phases (mpopt.py:4470-4481): it is computed anew from `self.poly_orders` for every phase
that needs refinement. -/
def phRaise (orders : List Nat) (status : List (List Bool)) : Py (List Nat) :=
  status.foldlM (fun acc st => if st.any id then
    st.zipIdx.mapM fun si => do return (← pyIdx orders si.2) + (if si.1 then 3 else 0) else .ok acc) orders

/-- `a / b > threshold` for `a, b ≥ 0`; numpy divides by zero, giving `inf` or `nan`. -/
def ratioAbove (threshold a b : K) : Bool := if b = 0 then decide (a ≠ 0) else decide (threshold < a / b)

/-- `(dd_max_phase[i_phase][i_seg] > self.non_smooth_threshold).any()` (mpopt.py:4541-4548, 4565-4569) for one segment: second
derivatives before and after, row by row. -/
def phRough (threshold : K) (nx : Nat) (before after : List (List K)) : Py Bool := do
  let cols ← (List.range nx).mapM fun j => do
    let m ← npMax (before.map fun row => |row.getD j 0|)
    return after.any fun row => ratioAbove threshold |row.getD j 0| m
  return cols.any id

variable (E : PhEnv K S) (o : PhObj K)

/-- Mesh of a solve: `reset_mpopt` asserts (mpopt.py:83), `solve` takes equal widths unless given others (mpopt.py:794-798). -/
def PhEnv.solveOn (k n : Nat) (orders : List Nat) : Py (S × List K) := do
  pyAssert (orders.length == n)
  let widths ← (match E.given with
    | some w => .ok w
    | none => equalWidths n E.nPhases : Py (List K))
  return (← E.solve k orders widths, widths)

/-- Which segments of which phases miss the tolerance. -/
def PhEnv.status (sol : S) (orders : List Nat) (widths : List K) : Py (List (List Bool)) := do
  (← absMaxResidual E.nx (← E.residual sol orders widths)).mapM (phStatus o.maxResidual)

/-- `limit_poly_orders` on natural numbers. -/
def PhObj.limited (orders : List Nat) : List Nat := (o.limitOrders (orders.map Int.ofNat)).map Int.toNat

/-- One iteration (mpopt.py:4453-4594): a solution to return, or the last solution with widths and orders for the next iteration. -/
def PhEnv.round (k n : Nat) (orders : List Nat) : Py (S ⊕ (S × List K × List Nat)) := do
  let (sol, widths) ← E.solveOn (2 * k) n orders
  let status ← E.status o sol orders widths
  let raised ← phRaise orders status
  if status.all (·.any id) = false then return .inl sol
  let before ← E.second sol orders widths raised
  let orders := o.limited raised
  let (sol, widths) ← E.solveOn (2 * k + 1) n orders
  let r ← E.residual sol orders widths
  let m ← absMaxResidual E.nx r
  let after ← E.second sol orders widths raised
  let status ← m.mapM (phStatus o.maxResidual)
  let marks ← status.zipIdx.mapM fun sp => if sp.1.any id then sp.1.zipIdx.mapM fun si => do
      let rough ← phRough E.threshold E.nx (← pyIdx (← pyIdx before sp.2) si.2) (← pyIdx (← pyIdx after sp.2) si.2)
      return si.1 && rough
    else .ok []
  if status.all (·.any id) = false then return .inl sol
  let (w, os) ← phMesh widths orders marks
  return .inr (sol, w, os)

/-- The loop (mpopt.py:4445-4596): `fuel` iterations left, `last` is `solution_new`. The refined widths enter through their number
only. -/
def PhEnv.loop : Nat → Nat → Nat → List Nat → Option S → Py S
  | 0, _, _, _, last => readLocal last
  | fuel + 1, k, n, orders, _ => do
    match ← E.round o k n orders with
    | .inl s => .ok s
    | .inr (s, w, os) => PhEnv.loop fuel (k + 1) w.length os (some s)

/-- The body of `solve_ph`. -/
def PhEnv.body (maxIter : Nat) : Py S := E.loop o maxIter 0 o.nSegments o.orders none

/-- `solve_ph` itself. -/
def PhObj.solvePhFull (maxIter : Nat) : Py S := o.solvePh fun _ => E.body o maxIter

/-! ### With the methods of the object -/

/-- Arguments in `solve_dict`. -/
structure PhSolveDict (K V : Type) where
  initial : Option (PyDict V)
  plugin : String
  options : PyDict V
  widths : Option (List K)

/-- `self.solve(reinitialize_nlp=True, **solve_dict)` (mpopt.py:760-806) on a mesh. -/
def phSolve (w : HOutside K V) (nlpsol : Nat → SolverCall K V → Py (PyDict V)) (ocp : OCP K) (scheme : String)
    (a : PhSolveDict K V) (k : Nat) (orders : List Nat) (widths : List K) : Py (PyDict V) := do
  let d ← mkDisc w.lib w.method w.tau0 w.tau1 ocp orders.length orders scheme
  let nlp ← d.createNlp
  let opts := solverOptions w.vals a.plugin a.options
  if w.accepts a.plugin opts = false then Except.error PyErr.value
  let inputs ← warmStart (do return w.vec (← ocp.initialGuess (orders.sum + 1))) a.initial
  nlpsol k ⟨⟨nlp, a.plugin, opts⟩, nlp, inputs, widths⟩

/-- What residual functions look at. -/
def phSolved (w : HOutside K V) (ocp : OCP K) (scheme : String) (gridType : List String) (maxGrid : Nat) (sol : PyDict V)
    (orders : List Nat) (widths : List K) : Py (Solved K) := do
  let d ← mkDisc w.lib w.method w.tau0 w.tau1 ocp orders.length orders scheme
  match sol.get? "x" with
  | none => Except.error PyErr.index
  | some v => return ⟨d, widths, gridType, maxGrid, ← w.num v⟩

/-- The loop's environment for an object on a problem: `get_states_residuals(solution, residual_type="relative")` and
`get_state_second_derivative(solution, nodes=taus_new)`, where `taus_new` are the nodes of the new orders for every phase
(mpopt.py:4462-4464, 4491-4498). -/
def PhObj.env (w : HOutside K V) (nlpsol : Nat → SolverCall K V → Py (PyDict V)) (ocp : OCP K) (scheme : String) (maxGrid : Nat)
    (threshold : K) (a : PhSolveDict K V) : PhEnv K (PyDict V) where
  nPhases := ocp.nPhases
  nx := ocp.nx
  threshold
  given := a.widths
  solve := phSolve w nlpsol ocp scheme a
  residual sol orders widths := do
    let e ← phSolved w ocp scheme o.gridType maxGrid sol orders widths
    return (← e.stateResiduals none true).map (·.map (·.res))
  second sol orders widths raised := do
    let e ← phSolved w ocp scheme o.gridType maxGrid sol orders widths
    let taus ← raised.mapM fun p => e.disc.colloc.taus p
    let out ← e.secondDerivative (some (List.replicate ocp.nPhases taus)) none
    out.mapM fun p => p.mapM fun s => (match s with
      | some v => .ok v.2.1
      | none => Except.error PyErr.type : Py (List (List K)))

end MPOpt
