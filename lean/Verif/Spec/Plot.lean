import Verif.Model.Plot
import Verif.Spec.PostProcess

/-! # Specification: what a plot of a trajectory shows -/

set_option autoImplicit false

namespace MPOpt
variable {K : Type} [Field K]

/-- Component `j` at the nodes of the requested phases; `v ph i j` is the value at node `i`. -/
def nodeSeries (n : Nat) (v : Nat → Nat → Nat → K) (sc : Nat → K) (phases : List Nat) (j : Nat) : List K :=
  phases.flatMap fun ph => (List.range n).map fun i => sc j * v ph i j

/-- Component `j` of the segment polynomials on the plot grid of the requested phases. -/
noncomputable def Mesh.lineSeries (M : Mesh K) (v : Nat → Nat → Nat → K) (sc : Nat → K) (phases : List Nat)
    (j : Nat) : List K :=
  phases.flatMap fun ph => (List.range M.orders.length).flatMap fun s => (M.plotGrid s).map fun tau =>
    sc j * (M.piece (fun k => v ph k j) s).eval tau

/-- Smooth lines without label: components `0, …, n - 1` on the plot grid. -/
noncomputable def Mesh.lines (M : Mesh K) (T : Traj K) (v : Nat → Nat → Nat → K) (sc : Nat → K) (phases : List Nat)
    (dims : List Nat) (label : Nat → Option String) : List (Curve K) :=
  dims.map fun j => ⟨phases.flatMap (M.timesAt M.plotGrid T), M.lineSeries v sc phases j, "-", label j⟩

/-- Components at the nodes. -/
def Mesh.points (M : Mesh K) (T : Traj K) (v : Nat → Nat → Nat → K) (sc : Nat → K) (phases : List Nat)
    (dims : List Nat) (tic : String) (label : Nat → Option String) : List (Curve K) :=
  dims.map fun j => ⟨phases.flatMap (M.nodeTimes T), nodeSeries M.N v sc phases j, tic, label j⟩

/-- Labels `what 1`, `what 2`, … -/
def fromOne (what : String) (j : Nat) : Option String := some (what ++ " " ++ toString (j + 1))

/-- Labels `what 0`, `what 1`, … -/
def fromZero (what : String) (j : Nat) : Option String := some (what ++ " " ++ toString j)

def noLabel (_ : Nat) : Option String := none

end MPOpt
