import Verif.Spec.Mesh

/-! # Specification: one phase, or the same problem cut into two linked phases -/

set_option autoImplicit false

namespace MPOpt
open Polynomial

/-- A one-phase problem written with two linked phases that share everything but the end conditions: the first phase keeps the
initial conditions, the second the terminal cost and constraints. The time of the junction is guessed as `tm` and bounded by
`lo`, `hi`. -/
def OCP.cut {K : Type} [Zero K] (o : OCP K) (lo hi : Ext K) (tm : K) : OCP K :=
  { o with
    nPhases := 2
    dynamics := o.dynamics ++ o.dynamics
    pathConstraints := o.pathConstraints ++ o.pathConstraints
    terminalCosts := (fun _ => 0) :: o.terminalCosts
    runningCosts := o.runningCosts ++ o.runningCosts
    terminalConstraints := none :: o.terminalConstraints
    phaseLinks := [(0, 1)]
    x00 := o.x00 ++ o.x00, xf0 := o.xf0 ++ o.xf0, u00 := o.u00 ++ o.u00, uf0 := o.uf0 ++ o.uf0
    t00 := o.t00 ++ [[tm]], tf0 := [tm] :: o.tf0, a0 := o.a0 ++ o.a0
    lbx := o.lbx ++ o.lbx, ubx := o.ubx ++ o.ubx, lbu := o.lbu ++ o.lbu, ubu := o.ubu ++ o.ubu
    lba := o.lba ++ o.lba, uba := o.uba ++ o.uba
    lbt0 := o.lbt0 ++ [[lo]], ubt0 := o.ubt0 ++ [[hi]], lbtf := [lo] :: o.lbtf, ubtf := [hi] :: o.ubtf
    lbe := [List.replicate o.nx (.fin 0)], ube := [List.replicate o.nx (.fin 0)]
    diffU := o.diffU ++ o.diffU, lbdu := o.lbdu ++ o.lbdu, ubdu := o.ubdu ++ o.ubdu, midu := o.midu ++ o.midu
    duContinuity := o.duContinuity ++ o.duContinuity }

/-- The segments of a mesh twice over. -/
def Mesh.twice {K : Type} (M : Mesh K) : Mesh K := { M with orders := M.orders ++ M.orders }

/-- Terminal cost and constraints look at the end of the phase only. -/
structure OCP.EndOnly {K : Type} (o : OCP K) : Prop where
  cost : ∀ F ∈ o.terminalCosts, ∀ s t : TArg K, s.xf = t.xf → s.tf = t.tf → s.a = t.a → F s = F t
  con : ∀ F, some F ∈ o.terminalConstraints → ∀ s t : TArg K, s.xf = t.xf → s.tf = t.tf → s.a = t.a → F.f s = F.f t

section
variable {K : Type} [Field K]

/-- `T` on the doubled mesh and `S` on two phases are the same: values at the nodes, times, and lengths of the segments. -/
structure SameCut (o : OCP K) (M : Mesh K) (T S : Traj K) : Prop where
  x0 : ∀ k < M.N, ∀ j < o.nx, T.x 0 k j = S.x 0 k j
  x1 : ∀ k < M.N, ∀ j < o.nx, T.x 0 (M.N - 1 + k) j = S.x 1 k j
  u0 : ∀ k < M.N, ∀ j < o.nu, T.u 0 k j = S.u 0 k j
  u1 : ∀ k < M.N, ∀ j < o.nu, T.u 0 (M.N - 1 + k) j = S.u 1 k j
  t0 : T.t0 0 = S.t0 0
  tm : S.tf 0 = S.t0 1
  tf : T.tf 0 = S.tf 1
  w0 : ∀ s < M.orders.length, (T.tf 0 - T.t0 0) * T.w s 0 = (S.tf 0 - S.t0 0) * S.w s 0
  w1 : ∀ s < M.orders.length, (T.tf 0 - T.t0 0) * T.w (M.orders.length + s) 0 = (S.tf 1 - S.t0 1) * S.w s 1
  sum : ∑ s ∈ Finset.range M.orders.length, S.w s 0 = 1

/-- What the second phase asks at its first node and the doubled mesh does not: the collocation equation from the right ... -/
def JointDynamics (o : OCP K) (M : Mesh K) (S : Traj K) : Prop :=
  ∀ F, o.dynamics[0]? = some F → ∀ j < o.nx,
    (derivative (M.piece (fun k => S.x 1 k j) 0)).eval M.tau0 = M.halfWidth S 1 0 * F.f (o.pArg S 1 0 (S.t0 1)) j

/-- ... and, with `diff_u`, the bounds on the control slope from the right. -/
def JointSlopeBounded [LE K] (o : OCP K) (M : Mesh K) (S : Traj K) : Prop :=
  o.diffU.getD 0 false = true → ∀ j < o.nu, Within (o.lbdu.getD 0 .nan) (o.ubdu.getD 0 .nan)
    (o.scaleU.getD j 0 * (derivative (M.piece (fun k => S.u 1 k j) 0)).eval M.tau0)

/-- What the doubled mesh asks and two phases do not: with `du_continuity`, equal control slopes on both sides. -/
def JointSlopeContinuous (o : OCP K) (M : Mesh K) (S : Traj K) : Prop :=
  o.duContinuity.getD 0 false = true → ∀ j < o.nu,
    (derivative (M.piece (fun k => S.u 0 k j) (M.orders.length - 1))).eval M.tau1 =
      (derivative (M.piece (fun k => S.u 1 k j) 0)).eval M.tau0

end
end MPOpt
