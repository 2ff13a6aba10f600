import Verif.Spec.Mesh

/-! # Specification: a problem that asks for less

The looser problem has the same sizes, dynamics and start; every bound is at least as wide, every constraint follows from one
of the original problem, no cost is higher. Guesses and the scales of states, parameters and time are not compared. -/

set_option autoImplicit false

namespace MPOpt
variable {K : Type} [Field K] [LinearOrder K]

/-- Bounds `lo'`, `hi'` are at least as wide as `lo`, `hi`. -/
def Wider (lo hi lo' hi' : Ext K) : Prop := Ext.le lo' lo = true ∧ Ext.le hi hi' = true

/-- All entries of row `ph`, up to column `n`, are at least as wide. -/
def WiderRow (n ph : Nat) (lo hi lo' hi' : List (List (Ext K))) : Prop :=
  ∀ j < n, Wider (entry lo ph j .nan) (entry hi ph j .nan) (entry lo' ph j .nan) (entry hi' ph j .nan)

/-- Constraint `F'`, if there is one, follows from `F`, if there is one; `P` says what a component has to meet. -/
def Follows {A : Type} (P : K → Prop) (F F' : Option (VFun A K)) : Prop :=
  ∀ p : A, (∀ G, F = some G → ∀ c < G.len, P (G.f p c)) → ∀ G, F' = some G → ∀ c < G.len, P (G.f p c)

/-- `ocp'` asks for no more than `ocp`, on the same dynamics. -/
structure OCP.Loosens (ocp ocp' : OCP K) : Prop where
  nx : ocp'.nx = ocp.nx
  nu : ocp'.nu = ocp.nu
  na : ocp'.na = ocp.na
  nPhases : ocp'.nPhases = ocp.nPhases
  dynamics : ocp'.dynamics = ocp.dynamics
  start : ∀ j < ocp.nx, entry ocp'.x00 0 j 0 = entry ocp.x00 0 j 0
  x : ∀ ph < ocp.nPhases, WiderRow ocp.nx ph ocp.lbx ocp.ubx ocp'.lbx ocp'.ubx
  u : ∀ ph < ocp.nPhases, WiderRow ocp.nu ph ocp.lbu ocp.ubu ocp'.lbu ocp'.ubu
  a : ∀ ph < ocp.nPhases, WiderRow ocp.na ph ocp.lba ocp.uba ocp'.lba ocp'.uba
  t0 : ∀ ph < ocp.nPhases, WiderRow 1 ph ocp.lbt0 ocp.ubt0 ocp'.lbt0 ocp'.ubt0
  tf : ∀ ph < ocp.nPhases, WiderRow 1 ph ocp.lbtf ocp.ubtf ocp'.lbtf ocp'.ubtf
  path : ∀ ph < ocp.nPhases, Follows (· ≤ 0) (ocp.pathConstraints.getD ph none) (ocp'.pathConstraints.getD ph none)
  terminal : ∀ ph < ocp.nPhases, Follows (· = 0) (ocp.terminalConstraints.getD ph none) (ocp'.terminalConstraints.getD ph none)
  links : ∀ (k p q : Nat), ocp'.phaseLinks[k]? = some (p, q) → ∃ m, ocp.phaseLinks[m]? = some (p, q) ∧
    ∀ j < ocp.nx, Wider (entry ocp.lbe m j .nan) (entry ocp.ube m j .nan) (entry ocp'.lbe k j .nan) (entry ocp'.ube k j .nan)
  mid : ∀ ph < ocp.nPhases, ocp'.midu.getD ph false = true → ocp.midu.getD ph false = true
  cont : ∀ ph < ocp.nPhases, ocp'.duContinuity.getD ph false = true → ocp.duContinuity.getD ph false = true
  slope : ∀ ph < ocp.nPhases, ocp'.diffU.getD ph false = true → ocp.diffU.getD ph false = true ∧ ocp'.scaleU = ocp.scaleU ∧
    Wider (ocp.lbdu.getD ph .nan) (ocp.ubdu.getD ph .nan) (ocp'.lbdu.getD ph .nan) (ocp'.ubdu.getD ph .nan)

/-- The same costs. -/
structure OCP.SameCosts (ocp ocp' : OCP K) : Prop where
  terminal : ocp'.terminalCosts = ocp.terminalCosts
  running : ocp'.runningCosts = ocp.runningCosts

/-- No cost is higher. -/
structure OCP.Cheapens (ocp ocp' : OCP K) : Prop where
  terminal : ∀ ph < ocp.nPhases, ∀ e, ocp'.terminalCosts.getD ph (fun _ => 0) e ≤ ocp.terminalCosts.getD ph (fun _ => 0) e
  running : ∀ ph < ocp.nPhases, ∀ p, ocp'.runningCosts.getD ph (fun _ => 0) p ≤ ocp.runningCosts.getD ph (fun _ => 0) p

end MPOpt
