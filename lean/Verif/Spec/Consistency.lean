import Verif.Spec.Continuous
import Verif.Spec.Tolerance

/-!
# Specification: how much a motion changes within a segment

For the question by how much the node values of a motion miss the collocation equations.
-/

set_option autoImplicit false

namespace MPOpt
open Polynomial

/-- Derivatives of the interpolants on the nodes of a segment: data of size 1 gives slopes up to `D` at the nodes. -/
def Mesh.DerivBound (M : Mesh ℝ) (D : ℝ) : Prop :=
  ∀ s < M.orders.length, ∀ i ≤ M.order s, ∑ k ∈ Finset.range (M.order s + 1),
    |(derivative (Lagrange.basis (Finset.range (M.order s + 1)) (M.node s) k)).eval (M.node s i)| ≤ D

/-- Interpolants on the nodes of a segment: data of size 1 gives values up to `A`. -/
def Mesh.ValueBound (M : Mesh ℝ) (A : ℝ) : Prop :=
  ∀ s < M.orders.length, ∀ tau ∈ Set.Icc M.tau0 M.tau1, ∑ k ∈ Finset.range (M.order s + 1),
    |(Lagrange.basis (Finset.range (M.order s + 1)) (M.node s) k).eval tau| ≤ A

/-- Times of segment `s` between breaks `b`; a break belongs to the segment on its left. -/
def OwnTime (b : Nat → ℝ) (s : Nat) (t : ℝ) : Prop := b s ≤ t ∧ t ≤ b (s + 1) ∧ (s = 0 ∨ b s < t)

/-- Along the motion, the scaled rates of phase `ph` vary by at most `ω` within a segment; they may jump from one to the next. -/
def RatesVary (ocp : OCP ℝ) (C : CTraj) (n : Nat) (w : Nat → Nat → ℝ) (ph : Nat) (ω : ℝ) : Prop :=
  ∀ F, ocp.dynamics[ph]? = some F → ∀ j < ocp.nx, ∀ s < n, ∀ t t', OwnTime (C.breakTime w ph) s t →
    OwnTime (C.breakTime w ph) s t' →
      |ocp.scaleX.getD j 0 * (F.f (ocp.cArg C ph t) j - F.f (ocp.cArg C ph t') j)| ≤ ω

/-- Within a segment, its ends included, the scaled controls of phase `ph` stay within `e` of some straight line through any of their
points. -/
def ControlsBend (ocp : OCP ℝ) (C : CTraj) (n : Nat) (w : Nat → Nat → ℝ) (ph : Nat) (e : ℝ) : Prop :=
  ∀ j < ocp.nu, ∀ s < n, ∀ t ∈ Set.Icc (C.breakTime w ph s) (C.breakTime w ph (s + 1)), ∃ d : ℝ,
    ∀ t' ∈ Set.Icc (C.breakTime w ph s) (C.breakTime w ph (s + 1)),
      |ocp.scaleU.getD j 0 * (C.u ph j t' - C.u ph j t - d * (t' - t))| ≤ e

/-- Along the motion rates are continuous functions of time. Where control bounds are imposed between nodes, controls have a
continuous derivative. -/
structure SmoothMotion (ocp : OCP ℝ) (C : CTraj) : Prop where
  rates : ∀ ph < ocp.nPhases, ∀ F, ocp.dynamics[ph]? = some F → ∀ j < ocp.nx,
    ContinuousOn (fun t => F.f (ocp.cArg C ph t) j) (Set.Icc (C.t0 ph) (C.tf ph))
  controls : ∀ ph < ocp.nPhases, ocp.midu.getD ph false = true → ∀ j < ocp.nu, ∃ d : ℝ → ℝ,
    ContinuousOn d (Set.Icc (C.t0 ph) (C.tf ph)) ∧
      ∀ t ∈ Set.Icc (C.t0 ph) (C.tf ph), HasDerivWithinAt (C.u ph j) (d t) (Set.Icc (C.t0 ph) (C.tf ph)) t

end MPOpt
