import Verif.Spec.Mesh

/-! # The affine change of variable from `tau` to time -/

set_option autoImplicit false

namespace MPOpt
open Polynomial

variable {K : Type} [Field K]

/-- The affine change of variable from `tau` to time. -/
noncomputable def Mesh.clockPoly (M : Mesh K) (T : Traj K) (ph s : Nat) : K[X] :=
  Polynomial.C (M.halfWidth T ph s) * X + Polynomial.C (M.time T ph s 0)

theorem Mesh.clockPoly_eval (M : Mesh K) (T : Traj K) (ph s : Nat) (tau : K) :
    (M.clockPoly T ph s).eval tau = M.time T ph s tau := by
  simp only [Mesh.clockPoly, eval_add, eval_mul, eval_C, eval_X, Mesh.time]; ring

theorem Mesh.clockPoly_comp (M : Mesh K) (T : Traj K) (ph s : Nat) (P : K[X]) (tau : K) :
    (P.comp (M.clockPoly T ph s)).eval tau = P.eval (M.time T ph s tau) ∧
    (derivative (P.comp (M.clockPoly T ph s))).eval tau =
      M.halfWidth T ph s * (derivative P).eval (M.time T ph s tau) ∧
    (P.comp (M.clockPoly T ph s)).natDegree ≤ P.natDegree := by
  refine ⟨by rw [eval_comp, M.clockPoly_eval], ?_, ?_⟩
  · rw [derivative_comp, eval_mul, eval_comp, M.clockPoly_eval]
    simp [Mesh.clockPoly]
  · refine natDegree_comp_le.trans ?_
    have : (M.clockPoly T ph s).natDegree ≤ 1 := natDegree_linear_le
    nlinarith

end MPOpt
