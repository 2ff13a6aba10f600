import Mathlib.Algebra.Order.Field.Basic
import Mathlib.Algebra.Order.Ring.Defs
import Mathlib.Algebra.BigOperators.Group.List.Basic

/-!
# Python / numpy run-time values used by the model

Exceptions are values of `PyErr`; bounds may be infinite (`Ext`).
-/

set_option autoImplicit false

namespace MPOpt

/-- The exceptions that the modelled code can raise.
`shape` stands for the errors CasADi/numpy raise on a shape mismatch. -/
inductive PyErr
  | assertion
  | index
  | value
  | zeroDivision
  | unboundLocal
  | shape
  | type
  | attribute
  /-- not a Python exception: numpy went on with `nan` or `inf` and the model stops -/
  | nonFinite
  deriving DecidableEq, Repr

/-- Result of Python code: a value or an exception. -/
abbrev Py := Except PyErr

/-- Python list indexing `l[i]` with a non-negative index: `IndexError` when out of range. -/
def pyIdx {α : Type*} (l : List α) (i : Nat) : Py α :=
  match l[i]? with
  | some x => .ok x
  | none => .error .index

/-- Python `assert b`. -/
def pyAssert (b : Bool) : Py Unit := if b then .ok () else .error .assertion

/-- Floats used as bounds: finite numbers, the two infinities and `nan`
(numpy arrays `lbx`, `ubx`, … of `OCP`, mpopt.py:3455-3466, hold `±np.inf`). -/
inductive Ext (K : Type)
  | ninf
  | fin (k : K)
  | pinf
  | nan
  deriving DecidableEq, Repr

namespace Ext
variable {K : Type}

instance : Coe K (Ext K) := ⟨.fin⟩

/-- IEEE product of a bound with a finite scale: `inf * s` is `inf` with the sign of `s`, and
`inf * 0` is `nan`. Models `self._ocp.lbx[phase] * self._ocp.scale_x` etc. (mpopt.py:546-571). -/
def mul [Zero K] [LT K] [DecidableRel (α := K) (· < ·)] [Mul K] (b : Ext K) (s : K) : Ext K :=
  match b with
  | .fin k => .fin (k * s)
  | .ninf => if 0 < s then .ninf else if s < 0 then .pinf else .nan
  | .pinf => if 0 < s then .pinf else if s < 0 then .ninf else .nan
  | .nan => .nan

/-- IEEE `a <= b` (false as soon as one side is `nan`). -/
def le [LE K] [DecidableRel (α := K) (· ≤ ·)] : Ext K → Ext K → Bool
  | .nan, _ => false
  | _, .nan => false
  | .ninf, _ => true
  | _, .pinf => true
  | .fin a, .fin b => decide (a ≤ b)
  | .fin _, .ninf => false
  | .pinf, .fin _ => false
  | .pinf, .ninf => false

/-- IEEE `a < b`. -/
def lt [LT K] [DecidableRel (α := K) (· < ·)] : Ext K → Ext K → Bool
  | .nan, _ => false
  | _, .nan => false
  | .ninf, .ninf => false
  | .ninf, _ => true
  | .pinf, _ => false
  | .fin _, .pinf => true
  | .fin _, .ninf => false
  | .fin a, .fin b => decide (a < b)

end Ext

/-- `np.linspace(a, b, n)` (exact arithmetic): `n` equally spaced points including both ends
(one point, `a`, when `n = 1`). -/
def linspace {K : Type} [Field K] (a b : K) (n : Nat) : List K :=
  (List.range n).map fun (i : Nat) => a + (b - a) * ((i : K) / ((n - 1 : Nat) : K))

end MPOpt
