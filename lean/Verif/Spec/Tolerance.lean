import Verif.Spec.Solution
import Verif.Spec.Ready
import Mathlib.Algebra.Order.AbsoluteValue.Basic

/-!
# Specification: solutions up to a tolerance

An NLP solver stops at a point that respects its bounds and rows only up to tolerances. This file says what that means
for the vector, and what it means for a trajectory in the units of the user.
-/

set_option autoImplicit false

namespace MPOpt
open Polynomial
variable {K V : Type} [Field K] [LinearOrder K]

/-- `lo - ε ≤ v ≤ hi + ε`. -/
def WithinTo (ε : K) (lo hi : Ext K) (v : K) : Prop := lo.Below (v + ε) ∧ hi.Above (v - ε)

/-- A vector of values respects vectors of bounds of the same length up to `ε`. -/
def HoldsTo (ε : K) (g : List K) (lo hi : List (Ext K)) : Prop :=
  g.length = lo.length ∧ g.length = hi.length ∧
    ∀ (i : Nat) (v : K) (l h : Ext K), g[i]? = some v → lo[i]? = some l → hi[i]? = some h →
      WithinTo ε l h v

/-- A point satisfies the NLP up to `εb` in the variable bounds and `ε` in the rows. -/
def Disc.NLP.FeasibleTo (nlp : Disc.NLP K) (εb ε : K) (σ : Env K) : Prop :=
  HoldsTo εb (nlp.x.map σ) nlp.lbx nlp.ubx ∧ HoldsTo ε (evalAll nlp.g σ) nlp.lbg nlp.ubg

/-- What a solver with tolerances delivers. -/
structure SolverCall.NearSolution (c : SolverCall K V) (εb ε : K) (z : List K) : Prop where
  x : z.length = c.solver.problem.x.length
  p : c.p.length = c.solver.problem.p.length
  box : HoldsTo εb z c.bounds.lbx c.bounds.ubx
  rows : HoldsTo ε (evalAll c.solver.problem.g (c.point z)) c.bounds.lbg c.bounds.ubg

/-- A solution up to tolerances whose objective exceeds that of no solution by more than `η`. -/
structure SolverCall.NearOptimal (c : SolverCall K V) (εb ε η : K) (z : List K) : Prop where
  sol : c.NearSolution εb ε z
  best : ∀ z', c.IsSolution z' → c.solver.problem.f (c.point z) ≤ c.solver.problem.f (c.point z') + η

/-- Bounds of phase `ph`, each up to `ε` divided by the scale of the variable. -/
structure BoundsTo (ε : K) (ocp : OCP K) (M : Mesh K) (T : Traj K) (ph : Nat) : Prop where
  x0 : ph = 0 → ∀ j < ocp.nx, |T.x 0 0 j - entry ocp.x00 0 j 0| ≤ ε / ocp.scaleX.getD j 0
  x : ∀ i < M.N, ¬ (ph = 0 ∧ i = 0) → ∀ j < ocp.nx,
    WithinTo (ε / ocp.scaleX.getD j 0) (entry ocp.lbx ph j .nan) (entry ocp.ubx ph j .nan) (T.x ph i j)
  u : ∀ i < M.N, ∀ j < ocp.nu,
    WithinTo (ε / ocp.scaleU.getD j 0) (entry ocp.lbu ph j .nan) (entry ocp.ubu ph j .nan) (T.u ph i j)
  t0 : WithinTo (ε / ocp.scaleT) (entry ocp.lbt0 ph 0 .nan) (entry ocp.ubt0 ph 0 .nan) (T.t0 ph)
  tf : WithinTo (ε / ocp.scaleT) (entry ocp.lbtf ph 0 .nan) (entry ocp.ubtf ph 0 .nan) (T.tf ph)
  a : ∀ k < ocp.na,
    WithinTo (ε / ocp.scaleA.getD k 0) (entry ocp.lba ph k .nan) (entry ocp.uba ph k .nan) (T.a ph k)

/-- Collocation equations of phase `ph`, state `j` up to `ε` divided by its scale. -/
def CollocationTo (ε : K) (ocp : OCP K) (M : Mesh K) (T : Traj K) (ph : Nat) : Prop :=
  ∀ F, ocp.dynamics[ph]? = some F → ∀ j < ocp.nx, ∀ s i, M.Owns s i →
    |(derivative (M.piece (fun k => T.x ph k j) s)).eval (M.node s i) -
      M.halfWidth T ph s * F.f (ocp.pArg T ph (M.idx s i) (M.time T ph s (M.node s i))) j| ≤
        ε / ocp.scaleX.getD j 0

/-- Phase links up to `ε` divided by the scale of the linked variable. -/
structure LinksTo (ε : K) (ocp : OCP K) (M : Mesh K) (T : Traj K) : Prop where
  x : ∀ (k p q : Nat), ocp.phaseLinks[k]? = some (p, q) → ∀ j < ocp.nx,
    WithinTo (ε / ocp.scaleX.getD j 0) (entry ocp.lbe k j .nan) (entry ocp.ube k j .nan)
      (T.x q 0 j - T.x p (M.N - 1) j)
  u : ∀ (k p q : Nat), ocp.phaseLinks[k]? = some (p, q) → ∀ j < ocp.nu,
    |T.u q 0 j - T.u p (M.N - 1) j| ≤ ε / ocp.scaleU.getD j 0
  t : ∀ (k p q : Nat), ocp.phaseLinks[k]? = some (p, q) → |T.t0 q - T.tf p| ≤ ε / ocp.scaleT

/-- The trajectory solves the collocated optimal control problem up to tolerances: `εb` for variable bounds, `ε` for
everything else. Path and terminal constraints are not scaled, so `ε` is meant in their own units. -/
structure SolvesTo (εb ε : K) (ocp : OCP K) (M : Mesh K) (T : Traj K) : Prop where
  bounds : ∀ ph < ocp.nPhases, BoundsTo εb ocp M T ph
  dynamics : ∀ ph < ocp.nPhases, CollocationTo ε ocp M T ph
  path : ∀ ph < ocp.nPhases, ∀ F, ocp.pathConstraints[ph]? = some (some F) → ∀ s i, M.Owns s i → ∀ c < F.len,
    F.f (ocp.pArg T ph (M.idx s i) (M.time T ph s (M.node s i))) c ≤ ε
  terminal : ∀ ph < ocp.nPhases, ∀ F, ocp.terminalConstraints[ph]? = some (some F) → ∀ c < F.len,
    |F.f (ocp.tArg T ph M.N) c| ≤ ε
  slope : ∀ ph < ocp.nPhases, ocp.diffU.getD ph false = true → ∀ j < ocp.nu, ∀ s i, M.Owns s i →
    WithinTo ε (ocp.lbdu.getD ph .nan) (ocp.ubdu.getD ph .nan)
      (ocp.scaleU.getD j 0 * (derivative (M.piece (fun k => T.u ph k j) s)).eval (M.node s i))
  mid : ∀ ph < ocp.nPhases, ocp.midu.getD ph false = true →
    ∀ j < ocp.nu, ∀ s < M.orders.length, ∀ i < M.order s,
      WithinTo (ε / ocp.scaleU.getD j 0) (entry ocp.lbu ph j .nan) (entry ocp.ubu ph j .nan)
        ((M.piece (fun k => T.u ph k j) s).eval ((M.node s i + M.node s (i + 1)) / 2))
  cont : ∀ ph < ocp.nPhases, ocp.duContinuity.getD ph false = true → ∀ j < ocp.nu,
    ∀ s, s + 1 < M.orders.length →
      |(derivative (M.piece (fun k => T.u ph k j) s)).eval M.tau1 -
        (derivative (M.piece (fun k => T.u ph k j) (s + 1))).eval M.tau0| ≤ ε / ocp.scaleU.getD j 0
  links : 2 ≤ ocp.nPhases → LinksTo ε ocp M T

end MPOpt
