import Verif.Spec.Solution

/-! # Specification: local minimisers, mixtures and convex problems -/

set_option autoImplicit false

namespace MPOpt
variable {K V : Type} [Field K] [LinearOrder K]

/-- A local minimiser: no solution with all entries closer than some `ε` is better. -/
structure SolverCall.IsLocal (c : SolverCall K V) (z : List K) : Prop where
  sol : c.IsSolution z
  best : ∃ ε : K, 0 < ε ∧ ∀ z', c.IsSolution z' → (∀ i < z.length, |z'.getD i 0 - z.getD i 0| < ε) →
    c.solver.problem.f (c.point z) ≤ c.solver.problem.f (c.point z')

/-- `T` is within `δ` of `S`: states and controls at all `n` nodes, times and parameters, in physical units. -/
structure Traj.Near (ocp : OCP K) (n : Nat) (δ : K) (S T : Traj K) : Prop where
  x : ∀ ph < ocp.nPhases, ∀ i < n, ∀ j < ocp.nx, |T.x ph i j - S.x ph i j| ≤ δ
  u : ∀ ph < ocp.nPhases, ∀ i < n, ∀ j < ocp.nu, |T.u ph i j - S.u ph i j| ≤ δ
  t0 : ∀ ph < ocp.nPhases, |T.t0 ph - S.t0 ph| ≤ δ
  tf : ∀ ph < ocp.nPhases, |T.tf ph - S.tf ph| ≤ δ
  a : ∀ ph < ocp.nPhases, ∀ k < ocp.na, |T.a ph k - S.a ph k| ≤ δ

/-- The widths of the `m` segments are within `δ` too. -/
def Traj.NearWidths (ocp : OCP K) (m : Nat) (δ : K) (S T : Traj K) : Prop :=
  ∀ ph < ocp.nPhases, ∀ s < m, |T.w s ph - S.w s ph| ≤ δ

/-- `(1 - θ) x + θ y`, entry by entry. -/
def mixList (θ : K) (x y : List K) : List K := List.zipWith (fun a b => (1 - θ) * a + θ * b) x y

/-- Parameters, if there are any. -/
def mixParams (θ : K) : Option (List K) → Option (List K) → Option (List K)
  | some a, some b => some (mixList θ a b)
  | _, _ => none

/-- States, controls and parameters on the line between two arguments, at the time of the first. -/
def PArg.mix (θ : K) (p q : PArg K) : PArg K := ⟨mixList θ p.x q.x, mixList θ p.u q.u, p.t, mixParams θ p.a q.a⟩

/-- The same for the two ends of a phase. -/
def TArg.mix (θ : K) (p q : TArg K) : TArg K := ⟨mixList θ p.xf q.xf, p.tf, mixList θ p.x0 q.x0, p.t0, mixParams θ p.a q.a⟩

/-- States, controls and parameters on the line between two trajectories; times and widths are those of the first. -/
def Traj.mix (θ : K) (S T : Traj K) : Traj K where
  x ph i j := (1 - θ) * S.x ph i j + θ * T.x ph i j
  u ph i j := (1 - θ) * S.u ph i j + θ * T.u ph i j
  t0 := S.t0
  tf := S.tf
  a ph k := (1 - θ) * S.a ph k + θ * T.a ph k
  w := S.w

/-- Parameters of the right number. -/
def FitsParams (n : Nat) (a : Option (List K)) : Prop :=
  match a with
  | none => n = 0
  | some l => n ≠ 0 ∧ l.length = n

/-- An argument of the sizes of the problem. -/
structure PArg.Fits (ocp : OCP K) (p : PArg K) : Prop where
  x : p.x.length = ocp.nx
  u : p.u.length = ocp.nu
  a : FitsParams ocp.na p.a

/-- Ends of a phase of the sizes of the problem. -/
structure TArg.Fits (ocp : OCP K) (p : TArg K) : Prop where
  xf : p.xf.length = ocp.nx
  x0 : p.x0.length = ocp.nx
  a : FitsParams ocp.na p.a

/-- A convex problem: dynamics and terminal constraints are affine, path constraints and costs convex, each in states, controls
and parameters with the times held fixed. -/
structure OCP.Convex (ocp : OCP K) : Prop where
  dynamics : ∀ ph < ocp.nPhases, ∀ F, ocp.dynamics[ph]? = some F → ∀ j < ocp.nx, ∀ (p q : PArg K) (θ : K), p.Fits ocp → q.Fits ocp →
    p.t = q.t → 0 ≤ θ → θ ≤ 1 → F.f (p.mix θ q) j = (1 - θ) * F.f p j + θ * F.f q j
  path : ∀ ph < ocp.nPhases, ∀ F, ocp.pathConstraints[ph]? = some (some F) → ∀ c < F.len, ∀ (p q : PArg K) (θ : K), p.Fits ocp →
    q.Fits ocp → p.t = q.t → 0 ≤ θ → θ ≤ 1 → F.f (p.mix θ q) c ≤ (1 - θ) * F.f p c + θ * F.f q c
  terminal : ∀ ph < ocp.nPhases, ∀ F, ocp.terminalConstraints[ph]? = some (some F) → ∀ c < F.len, ∀ (p q : TArg K) (θ : K),
    p.Fits ocp → q.Fits ocp → p.t0 = q.t0 → p.tf = q.tf → 0 ≤ θ → θ ≤ 1 → F.f (p.mix θ q) c = (1 - θ) * F.f p c + θ * F.f q c
  running : ∀ ph < ocp.nPhases, ∀ f, ocp.runningCosts[ph]? = some f → ∀ (p q : PArg K) (θ : K), p.Fits ocp → q.Fits ocp →
    p.t = q.t → 0 ≤ θ → θ ≤ 1 → f (p.mix θ q) ≤ (1 - θ) * f p + θ * f q
  cost : ∀ ph < ocp.nPhases, ∀ f, ocp.terminalCosts[ph]? = some f → ∀ (p q : TArg K) (θ : K), p.Fits ocp → q.Fits ocp →
    p.t0 = q.t0 → p.tf = q.tf → 0 ≤ θ → θ ≤ 1 → f (p.mix θ q) ≤ (1 - θ) * f p + θ * f q

/-- Start and end of every phase are fixed, and no phase runs backwards. -/
def OCP.FixedTimes (ocp : OCP K) : Prop :=
  ∀ ph < ocp.nPhases, ∃ b e : K, b ≤ e ∧ entry ocp.lbt0 ph 0 .nan = .fin b ∧ entry ocp.ubt0 ph 0 .nan = .fin b ∧
    entry ocp.lbtf ph 0 .nan = .fin e ∧ entry ocp.ubtf ph 0 .nan = .fin e

/-- Two different controls, half-and-half, cost strictly less than their mean. -/
def OCP.StrictInControls (ocp : OCP K) : Prop :=
  ∀ ph < ocp.nPhases, ∀ f, ocp.runningCosts[ph]? = some f → ∀ p q : PArg K, p.Fits ocp → q.Fits ocp → p.t = q.t → p.u ≠ q.u →
    f (p.mix (1 / 2) q) < (1 - 1 / 2) * f p + 1 / 2 * f q

end MPOpt
