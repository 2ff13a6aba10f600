import Mathlib.Algebra.BigOperators.Group.Finset.Basic
import Mathlib.Algebra.BigOperators.Ring.Finset
import Verif.Model.Py

/-!
# Dense matrices as used from CasADi (`DM`, `SX`) and numpy

A matrix is its shape and an entry function; only entries inside the shape are meaningful.
-/

set_option autoImplicit false

namespace MPOpt

/-- Dense matrix: shape and entries. -/
structure Mat (K : Type) where
  rows : Nat
  cols : Nat
  e : Nat → Nat → K

namespace Mat
variable {K : Type}

/-- `ca.DM.zeros((r, c))` / `np.zeros((r, c))`. -/
def zeros [Zero K] (r c : Nat) : Mat K := ⟨r, c, fun _ _ => 0⟩

/-- `ca.DM.eye(n)`. -/
def eye [Zero K] [One K] (n : Nat) : Mat K := ⟨n, n, fun i j => if i = j then 1 else 0⟩

/-- CasADi `M[:]`: the entries in column-major order. -/
def vec (M : Mat K) : List K :=
  (List.range M.cols).flatMap fun j => (List.range M.rows).map fun i => M.e i j

/-- A list as a column vector (CasADi/numpy conversion of a list of scalars). -/
def ofCol [Zero K] (l : List K) : Mat K := ⟨l.length, 1, fun i _ => l.getD i 0⟩

/-- `ca.vertcat(*rows)` of `1 × c` rows given as lists: one row per list. -/
def ofRows [Zero K] (c : Nat) (l : List (List K)) : Mat K :=
  ⟨l.length, c, fun i j => (l.getD i []).getD j 0⟩

/-- `ca.mtimes(A, B)` / `np.dot(A, B)`; a shape mismatch is an error. -/
def mtimes [Semiring K] (A B : Mat K) : Py (Mat K) :=
  if A.cols = B.rows then
    .ok ⟨A.rows, B.cols, fun i j => ∑ k ∈ Finset.range A.cols, A.e i k * B.e k j⟩
  else .error .shape

/-- `ca.kron(A, B)`. -/
def kron [Mul K] (A B : Mat K) : Mat K :=
  ⟨A.rows * B.rows, A.cols * B.cols, fun i j =>
    A.e (i / B.rows) (j / B.cols) * B.e (i % B.rows) (j % B.cols)⟩

/-- Slice `M[r:, :]` (rows from `r` on). -/
def dropRows (M : Mat K) (r : Nat) : Mat K := ⟨M.rows - r, M.cols, fun i j => M.e (r + i) j⟩

/-- Slice assignment `M[r0:r0+nr, c0:c0+nc] = B`: error when the block has another shape. -/
def setBlock (M : Mat K) (r0 nr c0 nc : Nat) (B : Mat K) : Py (Mat K) :=
  if B.rows = nr ∧ B.cols = nc then
    .ok { M with e := fun i j =>
      if r0 ≤ i ∧ i < r0 + nr ∧ c0 ≤ j ∧ j < c0 + nc then B.e (i - r0) (j - c0) else M.e i j }
  else .error .shape

/-- Python slice with step 2 of rows, `M[lo:hi][::2]` with `hi` an absolute end index. -/
def everySecondRow (M : Mat K) (lo hi : Nat) : Mat K :=
  ⟨(hi - lo + 1) / 2, M.cols, fun i j => M.e (lo + 2 * i) j⟩

/-- Entrywise difference `A - B`. -/
def sub [Sub K] (A B : Mat K) : Py (Mat K) :=
  if A.rows = B.rows ∧ A.cols = B.cols then .ok ⟨A.rows, A.cols, fun i j => A.e i j - B.e i j⟩
  else .error .shape

end Mat
end MPOpt
