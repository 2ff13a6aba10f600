import Verif.Spec.Ready

/-! # Specification: what the user gets back from post-processing -/

set_option autoImplicit false

namespace MPOpt
variable {K : Type}

/-- `b` is `a` with the midpoint of every pair of neighbours inserted. -/
def IsMidRefinement [Field K] (a b : List K) : Prop :=
  b.length = 2 * a.length - 1 ∧ (∀ i < a.length, b[2 * i]? = a[i]?) ∧
    ∀ i x y, a[i]? = some x → a[i + 1]? = some y → b[2 * i + 1]? = some ((x + y) / 2)

/-- `b` is `a` refined `k` times. -/
inductive RefinedBy [Field K] : Nat → List K → List K → Prop
  | zero (a : List K) : RefinedBy 0 a a
  | succ {k : Nat} {a b c : List K} (h : IsMidRefinement a b) (t : RefinedBy k b c) :
      RefinedBy (k + 1) a c

variable [Field K]

/-- States of phase `ph` at its `n` nodes: one row per node. -/
def Traj.stateRows (T : Traj K) (n nx ph : Nat) (sc : Nat → K) : List (List K) :=
  (List.range n).map fun i => (List.range nx).map fun j => sc j * T.x ph i j

/-- Controls of phase `ph` at its `n` nodes. -/
def Traj.controlRows (T : Traj K) (n nu ph : Nat) (sc : Nat → K) : List (List K) :=
  (List.range n).map fun i => (List.range nu).map fun j => sc j * T.u ph i j

/-- Times of the nodes of phase `ph`: the start, then the later nodes of every segment. -/
def Mesh.nodeTimes (M : Mesh K) (T : Traj K) (ph : Nat) : List K :=
  T.t0 ph :: (List.range M.orders.length).flatMap fun s =>
    (List.range (M.order s)).map fun i => M.time T ph s (M.node s (i + 1))

/-- 49 equal steps from `tau0` to `tau1`; the start point belongs to segment 0 only. -/
def Mesh.plotGrid (M : Mesh K) (s : Nat) : List K :=
  ((List.range 50).filter fun k => s = 0 ∨ 0 < k).map fun (k : Nat) =>
    M.tau0 + (M.tau1 - M.tau0) * ((k : K) / 49)

/-- Segment polynomials through node values `v i j` (node, component) of `n` components, at the points `g s` of every
segment `s`: one row per point. -/
noncomputable def Mesh.rowsAt (M : Mesh K) (g : Nat → List K) (v : Nat → Nat → K) (n : Nat) (sc : Nat → K) :
    List (List K) :=
  (List.range M.orders.length).flatMap fun s => (g s).map fun tau =>
    (List.range n).map fun j => sc j * (M.piece (fun k => v k j) s).eval tau

/-- Times of the points `g s` of every segment `s`. -/
def Mesh.timesAt (M : Mesh K) (g : Nat → List K) (T : Traj K) (ph : Nat) : List K :=
  (List.range M.orders.length).flatMap fun s => (g s).map (M.time T ph s)

/-- A trajectory written as solution vector: per phase all samples of state 0, of state 1, …, of the controls, then
initial and final time, then parameters, each times its scale. -/
def OCP.packVec (ocp : OCP K) (n : Nat) (T : Traj K) : List K :=
  (List.range ocp.nPhases).flatMap fun ph =>
    ((List.range ocp.nx).flatMap fun j => (List.range n).map fun i => T.x ph i j * ocp.scaleX.getD j 0) ++
    ((List.range ocp.nu).flatMap fun j => (List.range n).map fun i => T.u ph i j * ocp.scaleU.getD j 0) ++
    [T.t0 ph * ocp.scaleT, T.tf ph * ocp.scaleT] ++
    (List.range ocp.na).map fun k => T.a ph k * ocp.scaleA.getD k 0

/-- Segment widths as parameter vector, phase by phase. -/
def OCP.packWidths (ocp : OCP K) (segments : Nat) (T : Traj K) : List K :=
  (List.range ocp.nPhases).flatMap fun ph => (List.range segments).map fun s => T.w s ph

end MPOpt
