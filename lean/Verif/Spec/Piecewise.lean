import Mathlib.Algebra.Polynomial.Derivative
import Verif.Model.Collocation

/-! # Specification: piecewise polynomials on a mesh of segments -/

set_option autoImplicit false

namespace MPOpt
open Polynomial

/-- Index of the first node of segment `s`: the sum of the orders of the earlier segments. -/
def segStart (orders : List Nat) (s : Nat) : Nat := (orders.take s).sum

/-- The node function delivers, for every order used, `p + 1` distinct nodes `R p`. -/
def GoodNodes {K : Type} (c : Colloc K) (orders : List Nat) (R : Nat → List K) : Prop :=
  ∀ p ∈ orders, c.taus p = .ok (R p) ∧ (R p).length = p + 1 ∧ (R p).Nodup

/-- `v` holds the samples of the piecewise polynomial with pieces `P 0, P 1, …`: node `i` of segment
`s` is entry `segStart s + i` (the last node of a segment is the first node of the next, so the
pieces agree there). -/
def PiecewiseSamples {K : Type} [Field K] (orders : List Nat) (R : Nat → List K) (P : Nat → K[X])
    (v : Nat → K) : Prop :=
  ∀ (s : Nat) (hs : s < orders.length) (i : Nat), i ≤ orders[s] →
    v (segStart orders s + i) = (P s).eval ((R orders[s]).getD i 0)

/-- Every piece has at most the degree of its segment. -/
def PieceDegrees {K : Type} [Field K] (orders : List Nat) (P : Nat → K[X]) : Prop :=
  ∀ (s : Nat) (hs : s < orders.length), (P s).natDegree ≤ orders[s]

end MPOpt
