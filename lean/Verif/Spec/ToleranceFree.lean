import Verif.Spec.Tolerance
import Verif.Spec.Adaptive
import Verif.Spec.PostProcess

/-! # Specification: solutions up to a tolerance when the segment widths are free -/

set_option autoImplicit false

namespace MPOpt
open Polynomial
variable {K : Type} [Field K] [LinearOrder K]

/-- The trajectory solves the collocated problem with free widths up to tolerances: `εb` for bounds of variables, the
widths among them, and `ε` for everything else. The bound `tol` on the weighted scaled defect grows by `ε`. -/
structure SolvesAdaptiveTo (εb ε : K) (ocp : OCP K) (M : Mesh K) (T : Traj K) (lbh ubh tol : List K) (mid : Bool) :
    Prop where
  bounds : ∀ ph < ocp.nPhases, BoundsTo εb ocp M T ph
  dynamics : ∀ ph < ocp.nPhases, CollocationTo ε ocp M T ph
  path : ∀ ph < ocp.nPhases, ∀ F, ocp.pathConstraints[ph]? = some (some F) → ∀ s i, M.Owns s i → ∀ c < F.len,
    F.f (ocp.pArg T ph (M.idx s i) (M.time T ph s (M.node s i))) c ≤ ε
  terminal : ∀ ph < ocp.nPhases, ∀ F, ocp.terminalConstraints[ph]? = some (some F) → ∀ c < F.len,
    |F.f (ocp.tArg T ph M.N) c| ≤ ε
  slope : ∀ ph < ocp.nPhases, ocp.diffU.getD ph false = true → ∀ j < ocp.nu, ∀ s i, M.Owns s i →
    WithinTo ε (ocp.lbdu.getD ph .nan) (ocp.ubdu.getD ph .nan)
      (ocp.scaleU.getD j 0 * (derivative (M.piece (fun k => T.u ph k j) s)).eval (M.node s i))
  lower : ∀ ph < ocp.nPhases, ∀ s < M.orders.length, lbh.getD ph 0 - εb ≤ T.w s ph
  upper : ∀ ph < ocp.nPhases, ∀ s < M.orders.length, T.w s ph ≤ ubh.getD ph 0 + εb
  sum : ∀ ph < ocp.nPhases, |(∑ s ∈ Finset.range M.orders.length, T.w s ph) - 1| ≤ ε
  midControl : ∀ ph < ocp.nPhases, ∀ j < ocp.nu, ∀ s < M.orders.length, ∀ i < M.order s,
    WithinTo (ε / ocp.scaleU.getD j 0) (entry ocp.lbu ph j .nan) (entry ocp.ubu ph j .nan)
      ((M.piece (fun k => T.u ph k j) s).eval ((M.node s i + M.node s (i + 1)) / 2))
  midState : ∀ ph < ocp.nPhases, ∀ j < ocp.nx, ∀ s < M.orders.length, ∀ i < M.order s,
    WithinTo (ε / ocp.scaleX.getD j 0) (entry ocp.lbx ph j .nan) (entry ocp.ubx ph j .nan)
      ((M.piece (fun k => T.x ph k j) s).eval ((M.node s i + M.node s (i + 1)) / 2))
  midResidual : mid = true → ∀ ph < ocp.nPhases, ∀ F, ocp.dynamics[ph]? = some F → ∀ j < ocp.nx,
    ∀ s < M.orders.length, ∀ i < M.order s, |T.w s ph * (ocp.scaleX.getD j 0 *
      ocp.defect M T F ph s ((M.node s i + M.node s (i + 1)) / 2) j)| ≤ tol.getD ph 0 + ε
  links : 2 ≤ ocp.nPhases → LinksTo ε ocp M T

/-- A trajectory with its widths as solution vector: per phase the samples of the states, of the controls, initial and
final time, parameters, each times its scale, and then the widths. -/
def OCP.packFree (ocp : OCP K) (n segments : Nat) (T : Traj K) : List K :=
  (List.range ocp.nPhases).flatMap fun ph =>
    ((List.range ocp.nx).flatMap fun j => (List.range n).map fun i => T.x ph i j * ocp.scaleX.getD j 0) ++
    ((List.range ocp.nu).flatMap fun j => (List.range n).map fun i => T.u ph i j * ocp.scaleU.getD j 0) ++
    [T.t0 ph * ocp.scaleT, T.tf ph * ocp.scaleT] ++
    ((List.range ocp.na).map fun k => T.a ph k * ocp.scaleA.getD k 0) ++
    (List.range segments).map fun s => T.w s ph

end MPOpt
