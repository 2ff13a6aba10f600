import Verif.Spec.Mesh
import Verif.Spec.Ready

/-! # Specification: the same problem in other units

States, controls, parameters and time are measured in other units and from other zeros, costs in another unit. -/

set_option autoImplicit false

namespace MPOpt
variable {K : Type}

/-- New value of state `j`: `xa j * x + xb j`, and so on; costs are multiplied by `c`. -/
structure UnitChange (K : Type) where
  xa : Nat → K
  xb : Nat → K
  ua : Nat → K
  ub : Nat → K
  aa : Nat → K
  ab : Nat → K
  ta : K
  tb : K
  c : K

/-- All units are positive. -/
structure UnitChange.Positive [Zero K] [LT K] (U : UnitChange K) : Prop where
  x : ∀ j, 0 < U.xa j
  u : ∀ j, 0 < U.ua j
  a : ∀ j, 0 < U.aa j
  t : 0 < U.ta
  c : 0 < U.c

/-- A bound in the new unit; infinite bounds stay infinite. -/
def Ext.affine [Mul K] [Add K] (a b : K) : Ext K → Ext K
  | .fin k => .fin (a * k + b)
  | e => e

/-- Every entry of a table by a function of its column. -/
def perColumn {α β : Type} (f : Nat → α → β) (arr : List (List α)) : List (List β) := arr.map fun row => row.mapIdx f

variable [Field K]

/-- Old values of the arguments of dynamics, path constraints and running costs. -/
def UnitChange.oldP (U : UnitChange K) (p : PArg K) : PArg K :=
  ⟨p.x.mapIdx fun j v => (v - U.xb j) / U.xa j, p.u.mapIdx fun j v => (v - U.ub j) / U.ua j, (p.t - U.tb) / U.ta,
    p.a.map fun l => l.mapIdx fun j v => (v - U.ab j) / U.aa j⟩

/-- Old values of the arguments of terminal constraints and costs. -/
def UnitChange.oldT (U : UnitChange K) (p : TArg K) : TArg K :=
  ⟨p.xf.mapIdx fun j v => (v - U.xb j) / U.xa j, (p.tf - U.tb) / U.ta, p.x0.mapIdx fun j v => (v - U.xb j) / U.xa j,
    (p.t0 - U.tb) / U.ta, p.a.map fun l => l.mapIdx fun j v => (v - U.ab j) / U.aa j⟩

/-- The problem in the new units: rates are per new unit of time, event bounds are differences, scale factors are per unit. -/
def OCP.inUnits (ocp : OCP K) (U : UnitChange K) : OCP K :=
  { ocp with
    dynamics := ocp.dynamics.map fun F => ⟨F.len, fun p j => U.xa j / U.ta * F.f (U.oldP p) j⟩
    pathConstraints := ocp.pathConstraints.map fun F => F.map fun F => ⟨F.len, fun p => F.f (U.oldP p)⟩
    terminalCosts := ocp.terminalCosts.map fun E t => U.c * E (U.oldT t)
    runningCosts := ocp.runningCosts.map fun L p => U.c / U.ta * L (U.oldP p)
    terminalConstraints := ocp.terminalConstraints.map fun F => F.map fun F => ⟨F.len, fun t => F.f (U.oldT t)⟩
    scaleX := ocp.scaleX.mapIdx fun j s => s / U.xa j
    scaleU := ocp.scaleU.mapIdx fun j s => s / U.ua j
    scaleA := ocp.scaleA.mapIdx fun j s => s / U.aa j
    scaleT := ocp.scaleT / U.ta
    x00 := perColumn (fun j v => U.xa j * v + U.xb j) ocp.x00
    xf0 := perColumn (fun j v => U.xa j * v + U.xb j) ocp.xf0
    u00 := perColumn (fun j v => U.ua j * v + U.ub j) ocp.u00
    uf0 := perColumn (fun j v => U.ua j * v + U.ub j) ocp.uf0
    t00 := perColumn (fun _ v => U.ta * v + U.tb) ocp.t00
    tf0 := perColumn (fun _ v => U.ta * v + U.tb) ocp.tf0
    a0 := perColumn (fun j v => U.aa j * v + U.ab j) ocp.a0
    lbx := perColumn (fun j => Ext.affine (U.xa j) (U.xb j)) ocp.lbx
    ubx := perColumn (fun j => Ext.affine (U.xa j) (U.xb j)) ocp.ubx
    lbu := perColumn (fun j => Ext.affine (U.ua j) (U.ub j)) ocp.lbu
    ubu := perColumn (fun j => Ext.affine (U.ua j) (U.ub j)) ocp.ubu
    lba := perColumn (fun j => Ext.affine (U.aa j) (U.ab j)) ocp.lba
    uba := perColumn (fun j => Ext.affine (U.aa j) (U.ab j)) ocp.uba
    lbt0 := perColumn (fun _ => Ext.affine U.ta U.tb) ocp.lbt0
    ubt0 := perColumn (fun _ => Ext.affine U.ta U.tb) ocp.ubt0
    lbtf := perColumn (fun _ => Ext.affine U.ta U.tb) ocp.lbtf
    ubtf := perColumn (fun _ => Ext.affine U.ta U.tb) ocp.ubtf
    lbe := perColumn (fun j => Ext.affine (U.xa j) 0) ocp.lbe
    ube := perColumn (fun j => Ext.affine (U.xa j) 0) ocp.ube }

/-- A trajectory in the new units. -/
def Traj.inUnits (T : Traj K) (U : UnitChange K) : Traj K where
  x ph i j := U.xa j * T.x ph i j + U.xb j
  u ph i j := U.ua j * T.u ph i j + U.ub j
  t0 ph := U.ta * T.t0 ph + U.tb
  tf ph := U.ta * T.tf ph + U.tb
  a ph k := U.aa k * T.a ph k + U.ab k
  w := T.w

/-- And back. -/
def Traj.fromUnits (T : Traj K) (U : UnitChange K) : Traj K where
  x ph i j := (T.x ph i j - U.xb j) / U.xa j
  u ph i j := (T.u ph i j - U.ub j) / U.ua j
  t0 ph := (T.t0 ph - U.tb) / U.ta
  tf ph := (T.tf ph - U.tb) / U.ta
  a ph k := (T.a ph k - U.ab k) / U.aa k
  w := T.w

/-- Dynamics, path constraints and running costs do not read the time; terminal costs and constraints read at most how long
the phase takes. -/
structure OCP.Autonomous (ocp : OCP K) : Prop where
  dynamics : ∀ F ∈ ocp.dynamics, ∀ p t, F.f { p with t := t } = F.f p
  path : ∀ F, some F ∈ ocp.pathConstraints → ∀ p t, F.f { p with t := t } = F.f p
  running : ∀ L ∈ ocp.runningCosts, ∀ (p : PArg K) t, L { p with t := t } = L p
  terminal : ∀ E ∈ ocp.terminalCosts, ∀ (e : TArg K) δ, E { e with tf := e.tf - δ, t0 := e.t0 - δ } = E e
  final : ∀ F, some F ∈ ocp.terminalConstraints → ∀ e δ, F.f { e with tf := e.tf - δ, t0 := e.t0 - δ } = F.f e

/-- The problem `δ` later: bounds and guesses of times are moved, nothing else. -/
def OCP.later (ocp : OCP K) (δ : K) : OCP K :=
  { ocp with
    t00 := ocp.t00.map fun row => row.map (· + δ)
    tf0 := ocp.tf0.map fun row => row.map (· + δ)
    lbt0 := ocp.lbt0.map fun row => row.map (Ext.affine 1 δ)
    ubt0 := ocp.ubt0.map fun row => row.map (Ext.affine 1 δ)
    lbtf := ocp.lbtf.map fun row => row.map (Ext.affine 1 δ)
    ubtf := ocp.ubtf.map fun row => row.map (Ext.affine 1 δ) }

/-- A trajectory `δ` later. -/
def Traj.later (T : Traj K) (δ : K) : Traj K := { T with t0 := fun ph => T.t0 ph + δ, tf := fun ph => T.tf ph + δ }

end MPOpt
