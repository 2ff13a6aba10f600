import Mathlib.Algebra.BigOperators.Group.Finset.Basic
import Verif.Model.Mat

/-! # Specification: what a matrix does to a vector of samples -/

set_option autoImplicit false

namespace MPOpt

/-- Row `i` of `M` applied to the sample vector `v`. -/
def Mat.rowDot {K : Type} [Semiring K] (M : Mat K) (i : Nat) (v : Nat → K) : K :=
  ∑ j ∈ Finset.range M.cols, M.e i j * v j

/-- Weighted sum of samples. -/
def weightedSum {K : Type} [Semiring K] (w : List K) (v : Nat → K) : K :=
  ∑ j ∈ Finset.range w.length, w.getD j 0 * v j

end MPOpt
