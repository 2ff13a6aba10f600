import Verif.Model.Solver
import Verif.Model.Residual
import Verif.Model.PostProcess
import Verif.Spec.PostProcess

/-! # Specification: what a solver delivers, and what the user wants back -/

set_option autoImplicit false

namespace MPOpt
variable {K V : Type} [Field K] [LinearOrder K]

/-- The point a vector stands for: variables and parameters of the problem by position. -/
def SolverCall.point (c : SolverCall K V) (z : List K) : Env K :=
  bindSyms (c.solver.problem.x ++ c.solver.problem.p) (z ++ c.p)

/-- `z` has the right length and respects all bounds handed to the solver. -/
structure SolverCall.IsSolution (c : SolverCall K V) (z : List K) : Prop where
  x : z.length = c.solver.problem.x.length
  p : c.p.length = c.solver.problem.p.length
  box : Holds z c.bounds.lbx c.bounds.ubx
  rows : Holds (evalAll c.solver.problem.g (c.point z)) c.bounds.lbg c.bounds.ubg

/-- A global minimiser. -/
structure SolverCall.IsOptimal (c : SolverCall K V) (z : List K) : Prop where
  sol : c.IsSolution z
  best : ∀ z', c.IsSolution z' → c.solver.problem.f (c.point z) ≤ c.solver.problem.f (c.point z')

/-- Meaning of the `poly_orders` argument. -/
def OrdersArg.Means (n : Nat) (arg : OrdersArg) (orders : List Nat) : Prop :=
  match arg with
  | .int p => orders = List.replicate n p
  | .list l => orders = l

/-- Post-processing returns the node values of `T`, phase by phase in the requested order, in physical units. -/
def Post.Shows (p : Post K) (ocp : OCP K) (M : Mesh K) (T : Traj K) : Prop :=
  ∀ phases : List Nat, phases ≠ [] → (∀ ph ∈ phases, ph < ocp.nPhases) →
    ∃ D, p.getData phases false = .ok D ∧
      D.x.toRows = phases.flatMap (fun ph => T.stateRows M.N ocp.nx ph fun _ => 1) ∧
      D.u.toRows = phases.flatMap (fun ph => T.controlRows M.N ocp.nu ph fun _ => 1) ∧
      D.t = phases.flatMap (M.nodeTimes T)

/-- Segment widths requested by the caller: the given vector, or equal fractions. -/
def WidthsAre (ocp : OCP K) (n : Nat) (req : Option (List K)) (T : Traj K) : Prop :=
  match req with
  | some l => ocp.packWidths n T = l
  | none => ∀ ph < ocp.nPhases, ∀ s < n, T.w s ph = 1 / (n : K)

end MPOpt
