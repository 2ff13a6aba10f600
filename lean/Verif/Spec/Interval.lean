import Verif.Spec.Adaptive
import Verif.Spec.UnitChange

/-! # Specification: the same mesh with nodes placed on another interval

`_TAU_MIN` and `_TAU_MAX` (mpopt.py:4144-4145) are settings of the class `CollocationRoots`; the test suite uses
`[-1, 1]` and `[0, 1]` (tests/test_mpopt.py:905, 998, 1117, 1126). -/

set_option autoImplicit false

namespace MPOpt
variable {K : Type} [Field K] [LinearOrder K]

/-- `M'` is `M` with nodes and interval moved by `tau ↦ c * tau + b`, which keeps the order. -/
structure Mesh.Moved (M M' : Mesh K) (c b : K) : Prop where
  pos : 0 < c
  orders : M'.orders = M.orders
  tau0 : M'.tau0 = c * M.tau0 + b
  tau1 : M'.tau1 = c * M.tau1 + b
  nodes : ∀ p ∈ M.orders, M'.nodes p = (M.nodes p).map fun r => c * r + b

/-- `M` moved to `[lo, hi]`. -/
def Mesh.onInterval (M : Mesh K) (lo hi : K) : Mesh K :=
  ⟨M.orders, fun p => (M.nodes p).map fun r => lo + (hi - lo) / (M.tau1 - M.tau0) * (r - M.tau0), lo, hi⟩

/-- The problem with all limits on control slopes multiplied by `k`. -/
def OCP.slopesTimes (ocp : OCP K) (k : K) : OCP K :=
  { ocp with lbdu := ocp.lbdu.map (Ext.affine k 0), ubdu := ocp.ubdu.map (Ext.affine k 0) }

/-- No phase limits the slopes of its controls. -/
def OCP.FreeSlopes (ocp : OCP K) : Prop := ∀ ph < ocp.nPhases, ocp.diffU.getD ph false = false

end MPOpt
