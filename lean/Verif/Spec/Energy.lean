import Verif.Model.OCP
import Mathlib.Data.Real.Basic
import Mathlib.Algebra.BigOperators.Group.Finset.Basic

/-! # Specification: quadratic quantities of the states -/

set_option autoImplicit false

namespace MPOpt

/-- `xᵀ q x` of the first `n` states. -/
def quadForm (q : Nat → Nat → ℝ) (n : Nat) (x : Nat → ℝ) : ℝ :=
  ∑ j ∈ Finset.range n, ∑ k ∈ Finset.range n, q j k * (x j * x k)

/-- How fast `xᵀ q x` changes at the state `x` with velocity `v`. -/
def quadPower (q : Nat → Nat → ℝ) (n : Nat) (x v : Nat → ℝ) : ℝ :=
  ∑ j ∈ Finset.range n, ∑ k ∈ Finset.range n, q j k * (v j * x k + x j * v k)

/-- `q` is positive semidefinite. -/
def QuadNonneg (q : Nat → Nat → ℝ) (n : Nat) : Prop := ∀ x, 0 ≤ quadForm q n x

/-- `q` is positive definite. -/
def QuadPos (q : Nat → Nat → ℝ) (n : Nat) : Prop :=
  QuadNonneg q n ∧ ∀ x, quadForm q n x = 0 → ∀ j < n, x j = 0

/-- The dynamics of the phase never increase `xᵀ q x`. -/
def OCP.Dissipates (ocp : OCP ℝ) (q : Nat → Nat → ℝ) (ph : Nat) : Prop :=
  ∀ F, ocp.dynamics[ph]? = some F → ∀ z : PArg ℝ, quadPower q ocp.nx (fun j => z.x.getD j 0) (F.f z) ≤ 0

/-- The dynamics of the phase do not change `xᵀ q x`. -/
def OCP.Conserves (ocp : OCP ℝ) (q : Nat → Nat → ℝ) (ph : Nat) : Prop :=
  ∀ F, ocp.dynamics[ph]? = some F → ∀ z : PArg ℝ, quadPower q ocp.nx (fun j => z.x.getD j 0) (F.f z) = 0

end MPOpt
