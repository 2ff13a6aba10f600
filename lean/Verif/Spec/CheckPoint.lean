import Verif.Spec.Defect
import Mathlib.Algebra.Order.Field.Basic
import Mathlib.Algebra.Order.Group.Unbundled.Abs

/-! # Specification: where the dynamics of a solution are checked, and the largest defect found there

`N` equally spaced instants are placed over a phase. Those after its start are checked, each in the segment that
contains it (a boundary belongs to the segment on its left), except the last instant of the first segment. -/

set_option autoImplicit false

namespace MPOpt
variable {K : Type} [Field K] [LinearOrder K]

/-- Fraction of phase `ph` that has passed at `tau` in segment `s`. -/
def Mesh.passed (M : Mesh K) (T : Traj K) (ph s : Nat) (tau : K) : K :=
  (∑ r ∈ Finset.range s, T.w r ph) + T.w s ph * ((tau - M.tau0) / (M.tau1 - M.tau0))

/-- `tau` in segment `s` is one of the instants at which phase `ph` is checked. -/
structure CheckPoint (M : Mesh K) (T : Traj K) (N ph s : Nat) (tau : K) : Prop where
  segment : s < M.orders.length
  inside : M.tau0 < tau ∧ tau ≤ M.tau1
  instant : ∃ k : Nat, M.passed T ph s tau = (k : K) / ((N - 1 : Nat) : K) ∧
    (s = 0 → ((k + 1 : Nat) : K) / ((N - 1 : Nat) : K) ≤ T.w 0 ph)

/-- The scaled defect of state `j` at a checked instant of phase `ph` is `v`. -/
def ChecksTo (ocp : OCP K) (M : Mesh K) (T : Traj K) (N ph : Nat) (v : K) : Prop :=
  ∃ F s tau j, ocp.dynamics[ph]? = some F ∧ CheckPoint M T N ph s tau ∧ j < ocp.nx ∧
    v = ocp.scaleX.getD j 0 * ocp.defect M T F ph s tau j

/-- `e` is the largest absolute scaled defect over all phases and checked instants, 0 if there are none. -/
def LargestDefect (ocp : OCP K) (M : Mesh K) (T : Traj K) (N : Nat) (e : K) : Prop :=
  0 ≤ e ∧ (∀ ph < ocp.nPhases, ∀ v, ChecksTo ocp M T N ph v → |v| ≤ e) ∧
    (0 < e → ∃ ph < ocp.nPhases, ∃ v, ChecksTo ocp M T N ph v ∧ |v| = e)

end MPOpt
