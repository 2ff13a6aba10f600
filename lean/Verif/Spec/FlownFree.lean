import Verif.Spec.FlownTo
import Verif.Spec.ToleranceFree

/-!
# Specification: a plan whose segments do not quite fill its phases

A solver with tolerances returns segment widths whose sum is not quite 1. The plan then ends where its last segment does.
-/

set_option autoImplicit false

namespace MPOpt

/-- The same nodes, each at the same time; phases end with their last segment. -/
noncomputable def Traj.filled (T : Traj ℝ) (n : Nat) : Traj ℝ :=
  { T with
    tf := fun ph => T.t0 ph + (T.tf ph - T.t0 ph) * ∑ s ∈ Finset.range n, T.w s ph
    w := fun s ph => T.w s ph / ∑ s ∈ Finset.range n, T.w s ph }

/-- Phases may end with their last segment: this changes the final time, in its scaled unit, terminal constraints and terminal costs by
at most `θ`. -/
structure EndsNear (ocp : OCP ℝ) (M : Mesh ℝ) (T : Traj ℝ) (θ : ℝ) : Prop where
  tf : ∀ ph < ocp.nPhases, |ocp.scaleT * ((T.filled M.orders.length).tf ph - T.tf ph)| ≤ θ
  terminal : ∀ ph < ocp.nPhases, ∀ F, ocp.terminalConstraints[ph]? = some (some F) → ∀ c < F.len,
    |F.f (ocp.tArg (T.filled M.orders.length) ph M.N) c - F.f (ocp.tArg T ph M.N) c| ≤ θ
  cost : ∀ ph < ocp.nPhases, ∀ g, ocp.terminalCosts[ph]? = some g →
    |g (ocp.tArg (T.filled M.orders.length) ph M.N) - g (ocp.tArg T ph M.N)| ≤ θ

/-- Terminal constraints and costs change by at most `L` per unit of final time. -/
structure TerminalLipschitz (ocp : OCP ℝ) (L : ℝ) : Prop where
  terminal : ∀ ph < ocp.nPhases, ∀ F, ocp.terminalConstraints[ph]? = some (some F) → ∀ c < F.len, ∀ (r : TArg ℝ) (t t' : ℝ),
    |F.f { r with tf := t } c - F.f { r with tf := t' } c| ≤ L * |t - t'|
  cost : ∀ ph < ocp.nPhases, ∀ g, ocp.terminalCosts[ph]? = some g → ∀ (r : TArg ℝ) (t t' : ℝ),
    |g { r with tf := t } - g { r with tf := t' }| ≤ L * |t - t'|

end MPOpt
