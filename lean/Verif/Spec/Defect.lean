import Verif.Spec.Mesh

/-! # Specification: the trajectory between nodes and its defect in the dynamics -/

set_option autoImplicit false

namespace MPOpt
open Polynomial
variable {K : Type} [Field K]

/-- Arguments `(x, u, t, a)` at `tau` in segment `s` of phase `ph`: values of the segment's polynomials. -/
noncomputable def OCP.pArgAt (ocp : OCP K) (M : Mesh K) (T : Traj K) (ph s : Nat) (tau : K) : PArg K :=
  ⟨(List.range ocp.nx).map fun j => (M.piece (fun k => T.x ph k j) s).eval tau,
    (List.range ocp.nu).map fun j => (M.piece (fun k => T.u ph k j) s).eval tau, M.time T ph s tau,
    if ocp.na = 0 then none else some ((List.range ocp.na).map (T.a ph))⟩

/-- Defect of state `j`: derivative of the polynomial minus `dt/dtau` times the dynamics `F`. -/
noncomputable def OCP.defect (ocp : OCP K) (M : Mesh K) (T : Traj K) (F : VFun (PArg K) K)
    (ph s : Nat) (tau : K) (j : Nat) : K :=
  (derivative (M.piece (fun k => T.x ph k j) s)).eval tau -
    M.halfWidth T ph s * F.f (ocp.pArgAt M T ph s tau) j

/-- Numbers encoded by an NLP vector: the components of the physical trajectory times their scales. -/
def Traj.scaledX (T : Traj K) (ocp : OCP K) (ph i j : Nat) : K := T.x ph i j * ocp.scaleX.getD j 0

end MPOpt
