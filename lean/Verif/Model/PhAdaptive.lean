import Verif.Model.Residual

/-!
# `mpopt_ph_adaptive` (mpopt.py:4316-4596)

The constructor, `get_abs_max_residual`, the nested `limit_poly_orders`, the statements of `solve_ph` up to
the point where it raises, and the mesh update at the end of its loop (which is never reached).
-/

set_option autoImplicit false

namespace MPOpt
variable {K : Type} [Field K]

/-- Constructor arguments besides the problem (mpopt.py:4341-4355). -/
structure PhArgs (K : Type) where
  nSegments : Nat
  polyOrders : OrdersArg
  gridType : String := "spectral"
  maxResidual : K
  polyMin : Int := 3
  polyMax : Int := 16
  segMin : Int := 1
  segMax : Int := 20
  nGridPoints : Nat := 20

/-- Attributes set by the constructor (mpopt.py:70-93, 4362-4397). -/
structure PhObj (K : Type) where
  nSegments : Nat
  orders : List Nat
  polyMin : Int
  polyMax : Int
  minSegments : Int
  maxSegments : Int
  maxResidual : K
  gridType : List String
  maxGrid : List Nat
  lbh : List K
  ubh : List K
  tol : List K

/-- `min(l)` of a list; `ValueError` when empty. -/
def pyMin (l : List Nat) : Py Nat :=
  match l with
  | [] => .error .value
  | a :: l => .ok (l.foldl min a)

/-- `max(l)` of a list. -/
def pyMax (l : List Nat) : Py Nat :=
  match l with
  | [] => .error .value
  | a :: l => .ok (l.foldl max a)

/-- `mpopt_ph_adaptive.__init__` (mpopt.py:4341-4397) for a problem with `nPhases` phases. -/
def mkPh (nPhases : Nat) (a : PhArgs K) : Py (PhObj K) := do
  let (orders, _) ← initOrders a.nSegments a.polyOrders
  let mn ← pyMin orders
  let mx ← pyMax orders
  let polyMin := if (mn : Int) < a.polyMin then (mn : Int) else a.polyMin
  let polyMax := if a.polyMax < (mx : Int) then (mx : Int) else a.polyMax
  let segMin := if (a.nSegments : Int) < a.segMin then (a.nSegments : Int) else a.segMin
  let segMax := if a.segMax < (a.nSegments : Int) then (a.nSegments : Int) else a.segMax
  -- reset_mpopt
  pyAssert (orders.length == a.nSegments)
  return {
    nSegments := a.nSegments, orders, polyMin, polyMax, minSegments := segMin, maxSegments := segMax
    maxResidual := a.maxResidual
    gridType := List.replicate nPhases a.gridType
    maxGrid := List.replicate nPhases a.nGridPoints
    lbh := List.replicate nPhases (1 / 100000)
    ubh := List.replicate nPhases 1
    tol := List.replicate nPhases a.maxResidual }

/-- `limit_poly_orders` (mpopt.py:4432-4437). -/
def PhObj.limitOrders (o : PhObj K) (orders : List Int) : List Int :=
  orders.map fun p => min (max o.polyMin p) o.polyMax

/-- Reading a local variable: unbound raises. -/
def readLocal {A : Type} : Option A → Py A
  | some a => .ok a
  | none => .error .unboundLocal

/-- `solve_ph` (mpopt.py:4422-4596). `grid_type` is assigned in the body and is not a parameter, so it is a
local variable, unbound at the first statement (mpopt.py:4439). `rest` is the remainder of the body. -/
def PhObj.solvePh {S : Type} (o : PhObj K) (rest : String → Py S) : Py S := do
  let gridType : Option (Option String) := none
  let g ← readLocal gridType
  let g ← (match g with
    | none => pyIdx o.gridType 0
    | some g => .ok g : Py String)
  rest g

/-- Largest element with its first position, `arr.max()` and `arr.argmax()`. -/
def maxFrom [LinearOrder K] (best : Nat × K) (i : Nat) : List K → Nat × K
  | [] => best
  | a :: l => maxFrom (if best.2 < a then (i, a) else best) (i + 1) l

/-- `abs(col).argmax()`, `abs(col).max()` (mpopt.py:4416-4417). -/
def absMaxCol [LinearOrder K] (col : List K) : Py (Nat × K) :=
  match col with
  | [] => .error .value
  | a :: l => .ok (maxFrom (0, |a|) 1 (l.map fun v => |v|))

/-- `get_abs_max_residual` (mpopt.py:4400-4420); `nx` columns. A segment without points is `None`, for
which `abs` raises `TypeError`. -/
def absMaxResidual [LinearOrder K] (nx : Nat) (residual : List (List (SegResidual K))) :
    Py (List (List (List (Nat × K)))) :=
  residual.mapM fun phase => phase.mapM fun seg =>
    match seg with
    | none => .error .type
    | some rows => (List.range nx).mapM fun j => absMaxCol (rows.map fun row => row.getD j 0)

/-- The mesh update at the end of the loop (mpopt.py:4551-4594) for one phase: segments marked in `split`
are halved and keep their order; then `np.hstack` of both lists (mpopt.py:4448-4451). -/
def phSplit (widths : List K) (orders : List Nat) (split : List Bool) : Py (List K × List Nat) := do
  let parts ← split.zipIdx.mapM fun si => do
    let w ← pyIdx widths si.2
    let p ← pyIdx orders si.2
    return if si.1 then ([w / 2, w / 2], [p, p]) else ([w], [p])
  if parts.isEmpty then Except.error PyErr.value
  return ((parts.map (·.1)).flatten, (parts.map (·.2)).flatten)

/-- The same over all phases: `poly_orders` and `nlp_sw_params` are emptied for every phase, and the widths
are always read from the beginning of `_nlp_sw_params`. -/
def phMesh (widths : List K) (orders : List Nat) (split : List (List Bool)) : Py (List K × List Nat) := do
  let ms ← split.mapM (phSplit widths orders)
  match ms.getLast? with
  | some m => .ok m
  | none => .error .value

end MPOpt
