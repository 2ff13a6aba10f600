import Verif.Spec.Flown
import Verif.Spec.Tolerance

/-!
# Specification: a plan with tolerances that is flown

As `Spec/Flown.lean`, for plans that only nearly solve the collocated problem.
-/

set_option autoImplicit false

namespace MPOpt

/-- Tolerances: bounds on states and on controls, path constraints, terminal constraints, state links; then initial state, times and
parameters; then links in controls and time. -/
structure Slack where
  x : ℝ
  u : ℝ
  path : ℝ
  terminal : ℝ
  linkX : ℝ
  bound : ℝ
  link : ℝ

/-- One phase of the continuous-time problem: the dynamics exactly, everything else but for tolerances, in the scaled unit of the
variable. -/
structure PhaseNearlyTo (ocp : OCP ℝ) (C : CTraj) (ph : Nat) (E : Slack) : Prop where
  order : C.t0 ph < C.tf ph
  dynamics : DynamicsHold ocp C ph
  path : ∀ F, ocp.pathConstraints[ph]? = some (some F) → ∀ c < F.len, ∀ t ∈ Set.Icc (C.t0 ph) (C.tf ph),
    F.f (ocp.cArg C ph t) c ≤ E.path
  terminal : ∀ F, ocp.terminalConstraints[ph]? = some (some F) → ∀ c < F.len, |F.f (ocp.cEnd C ph) c| ≤ E.terminal
  x0 : ph = 0 → ∀ j < ocp.nx, |C.x 0 j (C.t0 0) - entry ocp.x00 0 j 0| ≤ E.bound / ocp.scaleX.getD j 0
  x : ∀ t ∈ Set.Icc (C.t0 ph) (C.tf ph), ∀ j < ocp.nx,
    WithinTo (E.x / ocp.scaleX.getD j 0) (entry ocp.lbx ph j .nan) (entry ocp.ubx ph j .nan) (C.x ph j t)
  u : ∀ t ∈ Set.Icc (C.t0 ph) (C.tf ph), ∀ j < ocp.nu,
    WithinTo (E.u / ocp.scaleU.getD j 0) (entry ocp.lbu ph j .nan) (entry ocp.ubu ph j .nan) (C.u ph j t)
  t0 : WithinTo (E.bound / ocp.scaleT) (entry ocp.lbt0 ph 0 .nan) (entry ocp.ubt0 ph 0 .nan) (C.t0 ph)
  tf : WithinTo (E.bound / ocp.scaleT) (entry ocp.lbtf ph 0 .nan) (entry ocp.ubtf ph 0 .nan) (C.tf ph)
  a : ∀ k < ocp.na, WithinTo (E.bound / ocp.scaleA.getD k 0) (entry ocp.lba ph k .nan) (entry ocp.uba ph k .nan) (C.a ph k)

/-- The continuous-time problem but for these tolerances. -/
structure NearlySolvesTo (ocp : OCP ℝ) (C : CTraj) (E : Slack) : Prop where
  phase : ∀ ph < ocp.nPhases, PhaseNearlyTo ocp C ph E
  linkX : 2 ≤ ocp.nPhases → ∀ (k p q : Nat), ocp.phaseLinks[k]? = some (p, q) → ∀ j < ocp.nx,
    WithinTo (E.linkX / ocp.scaleX.getD j 0) (entry ocp.lbe k j .nan) (entry ocp.ube k j .nan)
      (C.x q j (C.t0 q) - C.x p j (C.tf p))
  linkU : 2 ≤ ocp.nPhases → ∀ (k p q : Nat), ocp.phaseLinks[k]? = some (p, q) → ∀ j < ocp.nu,
    |C.u q j (C.t0 q) - C.u p j (C.tf p)| ≤ E.link / ocp.scaleU.getD j 0
  linkT : 2 ≤ ocp.nPhases → ∀ (k p q : Nat), ocp.phaseLinks[k]? = some (p, q) →
    |C.t0 q - C.tf p| ≤ E.link / ocp.scaleT

/-- What a plan has to meet at its nodes, up to tolerances: `εb` for bounds of variables, `ε` for everything else. Rows about control
slopes and about values between nodes are left out. -/
structure MeetsTo (εb ε : ℝ) (ocp : OCP ℝ) (M : Mesh ℝ) (T : Traj ℝ) : Prop where
  bounds : ∀ ph < ocp.nPhases, BoundsTo εb ocp M T ph
  dynamics : ∀ ph < ocp.nPhases, CollocationTo ε ocp M T ph
  path : ∀ ph < ocp.nPhases, ∀ F, ocp.pathConstraints[ph]? = some (some F) → ∀ s i, M.Owns s i → ∀ c < F.len,
    F.f (ocp.pArg T ph (M.idx s i) (M.time T ph s (M.node s i))) c ≤ ε
  terminal : ∀ ph < ocp.nPhases, ∀ F, ocp.terminalConstraints[ph]? = some (some F) → ∀ c < F.len,
    |F.f (ocp.tArg T ph M.N) c| ≤ ε
  links : 2 ≤ ocp.nPhases → LinksTo ε ocp M T

/-- The same tolerance for everything. -/
def Slack.all (ε : ℝ) : Slack := ⟨ε, ε, ε, ε, ε, ε, ε⟩

/-- Tolerances of the motion, given the sizes of the plan and the tolerances of the solver: `εb` for variable bounds, `ε` for rows. -/
noncomputable def Sizes.slack (K : Sizes) (εb ε : ℝ) : Slack :=
  ⟨K.gap + εb, K.e + εb, K.change + ε, K.Px * K.drift + ε, K.drift + ε, εb, ε⟩

/-- `K.tol` accounts for a solver that stops within `ε`: short segments make more of it. -/
def Sizes.Allows (K : Sizes) (ocp : OCP ℝ) (M : Mesh ℝ) (T : Traj ℝ) (ε : ℝ) : Prop :=
  ∀ ph < ocp.nPhases, ∀ s < M.orders.length, ε ≤ M.halfWidth T ph s * K.tol

end MPOpt
