import Verif.Spec.Consistency
import Verif.Spec.ToleranceFree

/-!
# Specification: how much rates change near a motion

For the question by how much the node values of a motion miss the rows of `mpopt_adaptive`, which look at interpolants half-way between
nodes.
-/

set_option autoImplicit false

namespace MPOpt
open Polynomial

/-- Derivatives of the interpolants on the nodes of a segment: data of size 1 gives slopes up to `D` all over the segment. -/
def Mesh.SlopeBound (M : Mesh ℝ) (D : ℝ) : Prop :=
  ∀ s < M.orders.length, ∀ tau ∈ Set.Icc M.tau0 M.tau1, ∑ k ∈ Finset.range (M.order s + 1),
    |(derivative (Lagrange.basis (Finset.range (M.order s + 1)) (M.node s) k)).eval tau| ≤ D

/-- At scaled states and controls within `ρ` of the motion the scaled rates of phase `ph` are within `ν` of those of the motion. -/
def RatesNear (ocp : OCP ℝ) (C : CTraj) (ph : Nat) (ρ ν : ℝ) : Prop :=
  ∀ F, ocp.dynamics[ph]? = some F → ∀ t ∈ Set.Icc (C.t0 ph) (C.tf ph), ∀ x u : List ℝ, x.length = ocp.nx → u.length = ocp.nu →
    (∀ k < ocp.nx, |ocp.scaleX.getD k 0 * (x.getD k 0 - C.x ph k t)| ≤ ρ) →
    (∀ k < ocp.nu, |ocp.scaleU.getD k 0 * (u.getD k 0 - C.u ph k t)| ≤ ρ) → ∀ j < ocp.nx,
      |ocp.scaleX.getD j 0 * (F.f { ocp.cArg C ph t with x := x, u := u } j - F.f (ocp.cArg C ph t) j)| ≤ ν

/-- Rates are continuous functions of states and controls, uniformly along the motion. -/
def RatesContinuous (ocp : OCP ℝ) (C : CTraj) : Prop :=
  ∀ ph < ocp.nPhases, ∀ ν, 0 < ν → ∃ ρ, 0 < ρ ∧ RatesNear ocp C ph ρ ν

/-- Controls have a continuous derivative in all phases: `mpopt_adaptive` imposes control bounds between nodes whatever `midu` says. -/
def SmoothControls (ocp : OCP ℝ) (C : CTraj) : Prop :=
  ∀ ph < ocp.nPhases, ∀ j < ocp.nu, ∃ d : ℝ → ℝ, ContinuousOn d (Set.Icc (C.t0 ph) (C.tf ph)) ∧
    ∀ t ∈ Set.Icc (C.t0 ph) (C.tf ph), HasDerivWithinAt (C.u ph j) (d t) (Set.Icc (C.t0 ph) (C.tf ph)) t

end MPOpt
