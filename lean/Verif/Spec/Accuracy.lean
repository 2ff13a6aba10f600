import Verif.Spec.Consistency
import Mathlib.Analysis.Calculus.ContDiff.Defs
import Mathlib.Analysis.Calculus.IteratedDeriv.Defs

/-!
# Specification: how well polynomials on the segments fit functions of time

For the question how much a higher order of the segments gains.
-/

set_option autoImplicit false

namespace MPOpt
open Polynomial

/-- On segment `s < n` some polynomial of degree at most `deg s` differs from `f` by at most `ω`; `f` may jump between segments. -/
def Fits (n : Nat) (deg : Nat → Nat) (b : Nat → ℝ) (f : ℝ → ℝ) (ω : ℝ) : Prop :=
  ∀ s < n, ∃ Q : ℝ[X], Q.natDegree ≤ deg s ∧ ∀ t, OwnTime b s t → |f t - Q.eval t| ≤ ω

/-- The same with both ends of the segment. -/
def FitsClosed (n : Nat) (deg : Nat → Nat) (b : Nat → ℝ) (f : ℝ → ℝ) (ω : ℝ) : Prop :=
  ∀ s < n, ∃ Q : ℝ[X], Q.natDegree ≤ deg s ∧ ∀ t ∈ Set.Icc (b s) (b (s + 1)), |f t - Q.eval t| ≤ ω

/-- On segment `s < n` the function has `p` continuous derivatives, the `p`-th bounded by `K`; it may jump between segments. -/
def SmoothPieces (n p : Nat) (b : Nat → ℝ) (f : ℝ → ℝ) (K : ℝ) : Prop :=
  ∀ s < n, ∃ g : ℝ → ℝ, ContDiffOn ℝ p g (Set.Icc (b s) (b (s + 1))) ∧
    (∀ t ∈ Set.Icc (b s) (b (s + 1)), |iteratedDerivWithin p g (Set.Icc (b s) (b (s + 1))) t| ≤ K) ∧
    ∀ t, OwnTime b s t → f t = g t

/-- Rates of the motion, as functions of time, are `p` times continuously differentiable and running costs `q` times; where control
bounds are imposed between nodes, controls are `p + 1` times. -/
structure MotionSmooth (ocp : OCP ℝ) (C : CTraj) (p q : Nat) : Prop where
  rates : ∀ ph < ocp.nPhases, ∀ F, ocp.dynamics[ph]? = some F → ∀ j < ocp.nx,
    ContDiffOn ℝ p (fun t => F.f (ocp.cArg C ph t) j) (Set.Icc (C.t0 ph) (C.tf ph))
  costs : ∀ ph < ocp.nPhases,
    ContDiffOn ℝ q (fun t => ocp.runningCosts.getD ph (fun _ => 0) (ocp.cArg C ph t)) (Set.Icc (C.t0 ph) (C.tf ph))
  controls : ∀ ph < ocp.nPhases, ocp.midu.getD ph false = true → ∀ j < ocp.nu,
    ContDiffOn ℝ (p + 1 : Nat) (C.u ph j) (Set.Icc (C.t0 ph) (C.tf ph))

end MPOpt
