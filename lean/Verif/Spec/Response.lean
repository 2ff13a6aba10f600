import Verif.Spec.Defect
import Mathlib.Analysis.Calculus.Deriv.Basic

/-!
# Specification: the exact response to interpolated controls

The controls shown by a solution are polynomials on each segment. The exact response is the motion of the system
under these controls: it solves the differential equation, with no collocation involved.
-/

set_option autoImplicit false

namespace MPOpt

/-- Arguments `(x, u, t, a)` at `tau` in segment `s`, with the states `p` in place of the interpolated ones. -/
noncomputable def OCP.argWith (ocp : OCP ℝ) (M : Mesh ℝ) (T : Traj ℝ) (ph s : Nat) (tau : ℝ) (p : Nat → ℝ) : PArg ℝ :=
  { ocp.pArgAt M T ph s tau with x := (List.range ocp.nx).map p }

/-- `X` is a motion of phase `ph` under the interpolated controls: continuous, and at every time of a segment but its
end the derivative from the right is given by the dynamics. -/
structure Response (ocp : OCP ℝ) (M : Mesh ℝ) (T : Traj ℝ) (F : VFun (PArg ℝ) ℝ) (ph : Nat) (X : Nat → ℝ → ℝ) :
    Prop where
  cont : ∀ j < ocp.nx, ContinuousOn (X j) (Set.Icc (T.t0 ph) (T.tf ph))
  ode : ∀ s < M.orders.length, ∀ tau ∈ Set.Ico M.tau0 M.tau1, ∀ j < ocp.nx,
    HasDerivWithinAt (X j) (F.f (ocp.argWith M T ph s tau fun k => X k (M.time T ph s tau)) j)
      (Set.Ici (M.time T ph s tau)) (M.time T ph s tau)

/-- Scaled states differ by at most `d`. -/
def OCP.CloseBy (ocp : OCP ℝ) (p q : Nat → ℝ) (d : ℝ) : Prop := ∀ k < ocp.nx, |ocp.scaleX.getD k 0 * (p k - q k)| ≤ d

/-- On the states of `S` the dynamics are Lipschitz with constant `L`, in scaled states and largest components. -/
def LipschitzDynamics (ocp : OCP ℝ) (M : Mesh ℝ) (T : Traj ℝ) (F : VFun (PArg ℝ) ℝ) (ph : Nat)
    (S : List ℝ → Prop) (L : ℝ) : Prop :=
  ∀ s < M.orders.length, ∀ tau ∈ Set.Ico M.tau0 M.tau1, ∀ p q d, S ((List.range ocp.nx).map p) →
    S ((List.range ocp.nx).map q) → ocp.CloseBy p q d → ∀ j < ocp.nx,
      |ocp.scaleX.getD j 0 * (F.f (ocp.argWith M T ph s tau p) j - F.f (ocp.argWith M T ph s tau q) j)| ≤ L * d

/-- States of the solution at `tau` in segment `s`. -/
noncomputable def Mesh.stateAt (M : Mesh ℝ) (T : Traj ℝ) (ph s : Nat) (tau : ℝ) (j : Nat) : ℝ :=
  (M.piece (fun k => T.x ph k j) s).eval tau

end MPOpt
