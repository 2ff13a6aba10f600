import Verif.Spec.Mesh
import Verif.Spec.Linear

/-! # Specification: running costs as an additional state (Mayer form) -/

set_option autoImplicit false

namespace MPOpt
open Polynomial
variable {K : Type}

/-- The arguments without the states from number `nx` on. -/
def PArg.cut (nx : Nat) (p : PArg K) : PArg K := { p with x := p.x.take nx }

/-- The same for the arguments of terminal functions. -/
def TArg.cut (nx : Nat) (t : TArg K) : TArg K := { t with xf := t.xf.take nx, x0 := t.x0.take nx }

/-- The Mayer form of a problem, as a user would write it: one more state, with scale `σ`, whose rate is the running cost. It starts at
0, is not bounded and may jump between phases; its change over a phase is added to the terminal cost of the phase. There is no running
cost. -/
def OCP.mayer [Field K] (ocp : OCP K) (σ : K) : OCP K :=
  { ocp with
    nx := ocp.nx + 1
    dynamics := List.zipWith (fun F rc => ⟨F.len + 1, fun p j =>
      if j < ocp.nx then F.f (p.cut ocp.nx) j else rc (p.cut ocp.nx)⟩) ocp.dynamics ocp.runningCosts
    pathConstraints := ocp.pathConstraints.map (Option.map fun F => ⟨F.len, fun p => F.f (p.cut ocp.nx)⟩)
    terminalCosts := ocp.terminalCosts.map fun c t => c (t.cut ocp.nx) + (t.xf.getD ocp.nx 0 - t.x0.getD ocp.nx 0)
    runningCosts := List.replicate ocp.nPhases fun _ => 0
    terminalConstraints := ocp.terminalConstraints.map (Option.map fun F => ⟨F.len, fun t => F.f (t.cut ocp.nx)⟩)
    scaleX := ocp.scaleX ++ [σ]
    x00 := ocp.x00.map (· ++ [0])
    xf0 := ocp.xf0.map (· ++ [0])
    lbx := ocp.lbx.map (· ++ [.ninf])
    ubx := ocp.ubx.map (· ++ [.pinf])
    lbe := ocp.lbe.map (· ++ [.ninf])
    ube := ocp.ube.map (· ++ [.pinf]) }

variable [Field K]

/-- Weights that turn the slopes of the polynomial pieces at the nodes into the change over the phase. -/
def Mesh.SumsRates (M : Mesh K) (W : List K) : Prop :=
  ∀ x v : Nat → K, (∀ s i, M.Owns s i → v (M.idx s i) = (derivative (M.piece x s)).eval (M.node s i)) →
    weightedSum W v = x (M.N - 1) - x 0

/-- In every phase the values of `dt/dtau` times the running cost at the `p + 1` nodes of the first segment lie on a polynomial of
degree below `p`. -/
def FirstCostsFit (ocp : OCP K) (M : Mesh K) (T : Traj K) : Prop :=
  ∀ ph < ocp.nPhases, ∀ rc, ocp.runningCosts[ph]? = some rc → ∃ q : K[X], q.natDegree < M.order 0 ∧
    ∀ i ≤ M.order 0, q.eval (M.node 0 i) =
      M.halfWidth T ph 0 * rc (ocp.pArg T ph (M.idx 0 i) (M.time T ph 0 (M.node 0 i)))

end MPOpt
