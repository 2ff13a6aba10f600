import Mathlib.Analysis.SpecialFunctions.Trigonometric.Basic
import Mathlib.Algebra.Polynomial.Derivative
import Verif.Spec.Integral
import Verif.Model.Roots

/-! # Specification: nodes, and the contracts of the external root finders -/

set_option autoImplicit false

namespace MPOpt
open Polynomial

/-- What a user expects of the `d + 1` nodes of a segment on `[lo, hi]`. -/
structure NodesSpan {K : Type} [LT K] (lo hi : K) (d : Nat) (r : List K) : Prop where
  length : r.length = d + 1
  sorted : r.Pairwise (· < ·)
  first : r.head? = some lo
  last : r.getLast? = some hi

/-- Contract of `scipy.special.j_roots(n, α, β)[0]` with integer parameters: `n` increasing points in
(-1, 1), and the polynomial with these roots is orthogonal to all lower degrees for the weight
`(1-x)^α (1+x)^β`. -/
structure IsJacobiRoots {K : Type} [Field K] [LinearOrder K] (α β n : Nat) (r : List K) : Prop where
  length : r.length = n
  sorted : r.Pairwise (· < ·)
  inside : ∀ x ∈ r, -1 < x ∧ x < 1
  orthogonal : ∀ q : K[X], q.degree < n →
    polyIntegral ((1 - X) ^ α * (1 + X) ^ β * (r.map fun x => X - C x).prod * q) (-1) 1 = 0

/-- Contract of the trigonometric node formula over ℝ. -/
def IsCosine (lib : NodeLib ℝ) : Prop := ∀ j d, lib.cosPi j d = Real.cos (Real.pi * j / d)

end MPOpt
