import Verif.Spec.Convergence
import Verif.Model.Collocation

/-!
# Specification: a family of meshes with the nodes of one collocation object

The meshes of a refinement study: any number of segments, orders out of a fixed list, always the same nodes.
-/

set_option autoImplicit false

namespace MPOpt

/-- A mesh with the nodes `taus` on `[lo, hi]` and orders out of `P`. -/
structure MeshOf (lo hi : ℝ) (taus : Nat → Py (List ℝ)) (P : List Nat) (M : Mesh ℝ) : Prop where
  good : M.Good
  inside : ∀ p ∈ M.orders, ∀ v ∈ M.nodes p, M.tau0 ≤ v ∧ v ≤ M.tau1
  tau0 : M.tau0 = lo
  tau1 : M.tau1 = hi
  allowed : ∀ p ∈ M.orders, p ∈ P
  nodes : ∀ p ∈ M.orders, taus p = .ok (M.nodes p)

/-- At every node, the half-width of the segment owning it times the value of `g` at its time. -/
def TimeSamples (M : Mesh ℝ) (T : Traj ℝ) (ph : Nat) (g : ℝ → ℝ) (v : Nat → ℝ) : Prop :=
  ∀ s i, M.Owns s i → v (M.idx s i) = M.halfWidth T ph s * g (M.time T ph s (M.node s i))

end MPOpt
