import Verif.Model.Transcription
import Verif.Spec.Mesh

/-! # Specification: decision variables and their bounds -/

set_option autoImplicit false

namespace MPOpt
variable {K : Type} [Field K] [LinearOrder K]

/-- A symbol is a decision variable of an `nPhases`-phase problem with `N` nodes per phase. -/
def IsDecisionVar (ocp : OCP K) (N : Nat) : Sym → Prop
  | .X ph i j => ph < ocp.nPhases ∧ i < N ∧ j < ocp.nx
  | .U ph i j => ph < ocp.nPhases ∧ i < N ∧ j < ocp.nu
  | .T0 ph => ph < ocp.nPhases
  | .Tf ph => ph < ocp.nPhases
  | .A k ph => ph < ocp.nPhases ∧ k < ocp.na
  | .H _ _ => False

/-- Bound of a decision variable in scaled units, from tables of physical bounds on states, controls,
initial times, final times and parameters: the entry of its phase and component times the scale of the
component. The first node of phase 0 is pinned to `x00[0]`. -/
def scaledBound (ocp : OCP K) (bx bu bt0 btf ba : List (List (Ext K))) : Sym → Ext K
  | .X ph i j =>
    if ph = 0 ∧ i = 0 then .fin (entry ocp.x00 0 j 0 * ocp.scaleX.getD j 0)
    else Ext.mul (entry bx ph j .nan) (ocp.scaleX.getD j 0)
  | .U ph _ j => Ext.mul (entry bu ph j .nan) (ocp.scaleU.getD j 0)
  | .T0 ph => Ext.mul (entry bt0 ph 0 .nan) ocp.scaleT
  | .Tf ph => Ext.mul (entry btf ph 0 .nan) ocp.scaleT
  | .A k ph => Ext.mul (entry ba ph k .nan) (ocp.scaleA.getD k 0)
  | .H _ _ => .nan

/-- Scaled lower bound of a decision variable. -/
def scaledLower (ocp : OCP K) : Sym → Ext K :=
  scaledBound ocp ocp.lbx ocp.lbu ocp.lbt0 ocp.lbtf ocp.lba

/-- Scaled upper bound of a decision variable. -/
def scaledUpper (ocp : OCP K) : Sym → Ext K :=
  scaledBound ocp ocp.ubx ocp.ubu ocp.ubt0 ocp.ubtf ocp.uba

end MPOpt
