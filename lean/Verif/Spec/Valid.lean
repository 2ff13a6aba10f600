import Verif.Model.OCP

/-! # Specification: what a valid optimal control problem is -/

set_option autoImplicit false

namespace MPOpt
variable {K : Type}

/-- A two-dimensional array has `r` rows of `c` entries. -/
def HasShape {α : Type} (arr : List (List α)) (r c : Nat) : Prop :=
  arr.length = r ∧ ∀ row ∈ arr, row.length = c

/-- Row `ph` of lower bounds is below row `ph` of upper bounds, entry by entry. -/
def RowOrdered [LE K] [DecidableRel (α := K) (· ≤ ·)] (lo hi : List (List (Ext K))) (ph : Nat) : Prop :=
  ∀ l u, lo[ph]? = some l → hi[ph]? = some u →
    ∀ (i : Nat) (a b : Ext K), l[i]? = some a → u[i]? = some b → Ext.le a b = true

/-- Dimensions of all attributes agree with `nx`, `nu`, `na`, `n_phases`; bounds are ordered. -/
structure ValidOCP [LE K] [DecidableRel (α := K) (· ≤ ·)] (ocp : OCP K) : Prop where
  phases : 0 < ocp.nPhases
  dynamics : ocp.dynamics.length = ocp.nPhases
  runningCosts : ocp.runningCosts.length = ocp.nPhases
  terminalCosts : ocp.terminalCosts.length = ocp.nPhases
  pathConstraints : ocp.pathConstraints.length = ocp.nPhases
  terminalConstraints : ocp.terminalConstraints.length = ocp.nPhases
  dynLen : ∀ F ∈ ocp.dynamics, F.len = ocp.nx
  pathLen : ∀ F, some F ∈ ocp.pathConstraints → 0 < F.len
  termLen : ∀ F, some F ∈ ocp.terminalConstraints → 0 < F.len
  scaleX : ocp.scaleX.length = ocp.nx
  scaleU : ocp.scaleU.length = ocp.nu
  scaleA : ocp.scaleA.length = ocp.na
  x00 : HasShape ocp.x00 ocp.nPhases ocp.nx
  xf0 : HasShape ocp.xf0 ocp.nPhases ocp.nx
  u00 : HasShape ocp.u00 ocp.nPhases ocp.nu
  uf0 : HasShape ocp.uf0 ocp.nPhases ocp.nu
  a0 : HasShape ocp.a0 ocp.nPhases ocp.na
  t00 : HasShape ocp.t00 ocp.nPhases 1
  tf0 : HasShape ocp.tf0 ocp.nPhases 1
  lbx : HasShape ocp.lbx ocp.nPhases ocp.nx
  ubx : HasShape ocp.ubx ocp.nPhases ocp.nx
  lbu : HasShape ocp.lbu ocp.nPhases ocp.nu
  ubu : HasShape ocp.ubu ocp.nPhases ocp.nu
  lba : HasShape ocp.lba ocp.nPhases ocp.na
  uba : HasShape ocp.uba ocp.nPhases ocp.na
  lbt0 : HasShape ocp.lbt0 ocp.nPhases 1
  ubt0 : HasShape ocp.ubt0 ocp.nPhases 1
  lbtf : HasShape ocp.lbtf ocp.nPhases 1
  ubtf : HasShape ocp.ubtf ocp.nPhases 1
  lbe : HasShape ocp.lbe (ocp.nPhases - 1) ocp.nx
  ube : HasShape ocp.ube (ocp.nPhases - 1) ocp.nx
  ordX : ∀ ph, RowOrdered ocp.lbx ocp.ubx ph
  ordU : ∀ ph, RowOrdered ocp.lbu ocp.ubu ph
  ordA : ∀ ph, RowOrdered ocp.lba ocp.uba ph
  ordT0 : ∀ ph, RowOrdered ocp.lbt0 ocp.ubt0 ph
  ordTf : ∀ ph, RowOrdered ocp.lbtf ocp.ubtf ph
  ordE : ∀ ph, RowOrdered ocp.lbe ocp.ube ph

end MPOpt
