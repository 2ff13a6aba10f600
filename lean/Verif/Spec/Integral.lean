import Mathlib.Algebra.Polynomial.Derivative
import Mathlib.Algebra.Polynomial.Eval.Degree
import Mathlib.Algebra.CharP.Defs

/-!
# Specification: the integral of a polynomial over any field of characteristic zero

`polyIntegral p a b` is `Σ_i p_i (b^(i+1) - a^(i+1)) / (i+1)`. `Lemmas/Integral.lean` proves the
fundamental theorem (`polyIntegral Q' a b = Q b - Q a`) and, over ℝ, that it is Mathlib's interval
integral.
-/

set_option autoImplicit false

namespace MPOpt
open Polynomial

/-- Exact integral of a polynomial. -/
noncomputable def polyIntegral {K : Type} [Field K] (p : K[X]) (a b : K) : K :=
  p.sum fun i c => c * (b ^ (i + 1) - a ^ (i + 1)) / ((i + 1 : Nat) : K)

end MPOpt
