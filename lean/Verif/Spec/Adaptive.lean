import Verif.Spec.Defect
import Verif.Spec.Bounds

/-! # Specification: collocated problem with free segment widths -/

set_option autoImplicit false

namespace MPOpt
variable {K : Type} [Field K] [LE K]

/-- The widths of phase `ph` cut it completely: they sum to one, and each is between `lo` and `hi`. -/
structure WidthsOK (M : Mesh K) (T : Traj K) (lo hi : K) (ph : Nat) : Prop where
  sum : ∑ s ∈ Finset.range M.orders.length, T.w s ph = 1
  lower : ∀ s < M.orders.length, lo ≤ T.w s ph
  upper : ∀ s < M.orders.length, T.w s ph ≤ hi

/-- State polynomials respect the state bounds half-way between consecutive nodes. -/
def MidStateOK (ocp : OCP K) (M : Mesh K) (T : Traj K) (ph : Nat) : Prop :=
  ∀ j < ocp.nx, ∀ s < M.orders.length, ∀ i < M.order s,
    Within (entry ocp.lbx ph j .nan) (entry ocp.ubx ph j .nan)
      ((M.piece (fun k => T.x ph k j) s).eval ((M.node s i + M.node s (i + 1)) / 2))

/-- Half-way between consecutive nodes the defect in the dynamics, in scaled units and weighted with the
segment's width, is at most `tol` in size. The time argument of the dynamics is the time of that
point. -/
def MidResidualOK (ocp : OCP K) (M : Mesh K) (T : Traj K) (tol : K) (ph : Nat) : Prop :=
  ∀ F, ocp.dynamics[ph]? = some F → ∀ j < ocp.nx, ∀ s < M.orders.length, ∀ i < M.order s,
    Within (.fin (-tol)) (.fin tol) (T.w s ph * (ocp.scaleX.getD j 0 *
      ocp.defect M T F ph s ((M.node s i + M.node s (i + 1)) / 2) j))

/-- The collocated optimal control problem with free segment widths, in physical units: bounds,
collocation equations, path and terminal constraints, phase links, a complete cut of every phase, state
and control bounds half-way between nodes and, if `res`, small defects there. -/
structure AdaptiveFeasible (ocp : OCP K) (M : Mesh K) (T : Traj K) (lbh ubh tol : Nat → K)
    (res : Prop) : Prop where
  bounds : ∀ ph < ocp.nPhases, BoundsOK ocp M T ph
  dynamics : ∀ ph < ocp.nPhases, CollocationOK ocp M T ph
  path : ∀ ph < ocp.nPhases, PathOK ocp M T ph
  terminal : ∀ ph < ocp.nPhases, TerminalOK ocp M T ph
  widths : ∀ ph < ocp.nPhases, WidthsOK M T (lbh ph) (ubh ph) ph
  midControl : ∀ ph < ocp.nPhases, MidControlOK ocp M T ph
  midState : ∀ ph < ocp.nPhases, MidStateOK ocp M T ph
  midResidual : res → ∀ ph < ocp.nPhases, MidResidualOK ocp M T (tol ph) ph
  links : 2 ≤ ocp.nPhases → LinksOK ocp M T

end MPOpt

namespace MPOpt
variable {K : Type} [Field K] [LinearOrder K]

/-- Decision variables when segment widths are free: `ns` widths per phase in addition. -/
def IsAdaptiveVar (ocp : OCP K) (N ns : Nat) : Sym → Prop
  | .H s ph => ph < ocp.nPhases ∧ s < ns
  | s => IsDecisionVar ocp N s

/-- Scaled lower bound of a decision variable; widths are not scaled. -/
def adaptiveLower (ocp : OCP K) (lbh : Nat → K) : Sym → Ext K
  | .H _ ph => .fin (lbh ph)
  | s => scaledLower ocp s

/-- Scaled upper bound of a decision variable; widths are not scaled. -/
def adaptiveUpper (ocp : OCP K) (ubh : Nat → K) : Sym → Ext K
  | .H _ ph => .fin (ubh ph)
  | s => scaledUpper ocp s

end MPOpt
