import Verif.Spec.Bounds

/-! # Specification: physical bounds of a decision variable, and its scale -/

set_option autoImplicit false

namespace MPOpt
variable {K : Type} [Field K] [LinearOrder K]

/-- Scale of the component a decision variable belongs to. -/
def scaleOf (ocp : OCP K) : Sym → K
  | .X _ _ j => ocp.scaleX.getD j 0
  | .U _ _ j => ocp.scaleU.getD j 0
  | .T0 _ => ocp.scaleT
  | .Tf _ => ocp.scaleT
  | .A k _ => ocp.scaleA.getD k 0
  | .H _ _ => 1

/-- Physical lower bound of a decision variable; the first node of phase 0 is pinned. -/
def lowerOf (ocp : OCP K) : Sym → Ext K
  | .X ph i j => if ph = 0 ∧ i = 0 then .fin (entry ocp.x00 0 j 0) else entry ocp.lbx ph j .nan
  | .U ph _ j => entry ocp.lbu ph j .nan
  | .T0 ph => entry ocp.lbt0 ph 0 .nan
  | .Tf ph => entry ocp.lbtf ph 0 .nan
  | .A k ph => entry ocp.lba ph k .nan
  | .H _ _ => .nan

/-- Physical upper bound of a decision variable. -/
def upperOf (ocp : OCP K) : Sym → Ext K
  | .X ph i j => if ph = 0 ∧ i = 0 then .fin (entry ocp.x00 0 j 0) else entry ocp.ubx ph j .nan
  | .U ph _ j => entry ocp.ubu ph j .nan
  | .T0 ph => entry ocp.ubt0 ph 0 .nan
  | .Tf ph => entry ocp.ubtf ph 0 .nan
  | .A k ph => entry ocp.uba ph k .nan
  | .H _ _ => .nan

/-- A bound is a number. -/
def Ext.Finite {K : Type} (b : Ext K) : Prop := ∃ k, b = .fin k

/-- What the variable bounds demand of the value `y` of a variable with scale `s` and physical bounds `lo`, `hi`. With a positive scale:
that the physical value `y / s` respects the bounds. With a negative one: that it respects the bounds exchanged. With scale zero: that
`y` is zero and the bounds are numbers. -/
def BoxDemands (lo hi : Ext K) (s y : K) : Prop :=
  (0 < s ∧ Within lo hi (y / s)) ∨ (s < 0 ∧ Within hi lo (y / s)) ∨ (s = 0 ∧ y = 0 ∧ lo.Finite ∧ hi.Finite)

end MPOpt
