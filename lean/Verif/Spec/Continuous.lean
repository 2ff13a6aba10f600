import Verif.Spec.Mesh
import Mathlib.Analysis.Calculus.Deriv.Basic
import Mathlib.MeasureTheory.Integral.IntervalIntegral.Basic

/-!
# Specification: the continuous-time optimal control problem

Functions of time, over the reals. Nothing here refers to nodes or to the transcription.
-/

set_option autoImplicit false

namespace MPOpt
open Polynomial

/-- States and controls as functions of time. -/
structure CTraj where
  /-- state: phase, component, time -/
  x : Nat → Nat → ℝ → ℝ
  /-- control: phase, component, time -/
  u : Nat → Nat → ℝ → ℝ
  /-- initial time of a phase -/
  t0 : Nat → ℝ
  /-- final time of a phase -/
  tf : Nat → ℝ
  /-- parameter: phase, component -/
  a : Nat → Nat → ℝ

/-- Arguments `(x, u, t, a)` at time `t`. -/
def OCP.cArg (ocp : OCP ℝ) (C : CTraj) (ph : Nat) (t : ℝ) : PArg ℝ :=
  ⟨(List.range ocp.nx).map fun j => C.x ph j t, (List.range ocp.nu).map fun j => C.u ph j t, t,
    if ocp.na = 0 then none else some ((List.range ocp.na).map (C.a ph))⟩

/-- Arguments `(x(tf), tf, x(t0), t0, a)`. -/
def OCP.cEnd (ocp : OCP ℝ) (C : CTraj) (ph : Nat) : TArg ℝ :=
  ⟨(List.range ocp.nx).map fun j => C.x ph j (C.tf ph), C.tf ph,
    (List.range ocp.nx).map fun j => C.x ph j (C.t0 ph), C.t0 ph,
    if ocp.na = 0 then none else some ((List.range ocp.na).map (C.a ph))⟩

/-- The differential equation of phase `ph`: the derivative from the left at every time after `t0`, and the
derivative from the right at `t0`, equal the dynamics. States are continuous; controls may jump (and are then continuous from the
left). -/
structure DynamicsHold (ocp : OCP ℝ) (C : CTraj) (ph : Nat) : Prop where
  left : ∀ F, ocp.dynamics[ph]? = some F → ∀ j < ocp.nx, ∀ t, C.t0 ph < t → t ≤ C.tf ph →
    HasDerivWithinAt (C.x ph j) (F.f (ocp.cArg C ph t) j) (Set.Iic t) t
  start : ∀ F, ocp.dynamics[ph]? = some F → ∀ j < ocp.nx,
    HasDerivWithinAt (C.x ph j) (F.f (ocp.cArg C ph (C.t0 ph)) j) (Set.Ici (C.t0 ph)) (C.t0 ph)
  continuous : ∀ j < ocp.nx, ContinuousOn (C.x ph j) (Set.Icc (C.t0 ph) (C.tf ph))

/-- All constraints of one phase, at all times. The initial state of phase 0 is given, not bounded. -/
structure PhaseHolds (ocp : OCP ℝ) (C : CTraj) (ph : Nat) : Prop where
  order : C.t0 ph < C.tf ph
  dynamics : DynamicsHold ocp C ph
  path : ∀ F, ocp.pathConstraints[ph]? = some (some F) → ∀ c < F.len, ∀ t ∈ Set.Icc (C.t0 ph) (C.tf ph),
    F.f (ocp.cArg C ph t) c ≤ 0
  terminal : ∀ F, ocp.terminalConstraints[ph]? = some (some F) → ∀ c < F.len, F.f (ocp.cEnd C ph) c = 0
  x0 : ph = 0 → ∀ j < ocp.nx, C.x 0 j (C.t0 0) = entry ocp.x00 0 j 0
  x : ∀ t ∈ Set.Icc (C.t0 ph) (C.tf ph), ¬ (ph = 0 ∧ t = C.t0 0) → ∀ j < ocp.nx,
    Within (entry ocp.lbx ph j .nan) (entry ocp.ubx ph j .nan) (C.x ph j t)
  u : ∀ t ∈ Set.Icc (C.t0 ph) (C.tf ph), ∀ j < ocp.nu,
    Within (entry ocp.lbu ph j .nan) (entry ocp.ubu ph j .nan) (C.u ph j t)
  t0 : Within (entry ocp.lbt0 ph 0 .nan) (entry ocp.ubt0 ph 0 .nan) (C.t0 ph)
  tf : Within (entry ocp.lbtf ph 0 .nan) (entry ocp.ubtf ph 0 .nan) (C.tf ph)
  a : ∀ k < ocp.na, Within (entry ocp.lba ph k .nan) (entry ocp.uba ph k .nan) (C.a ph k)

/-- A solution of the continuous-time problem. -/
structure SolvesContinuously (ocp : OCP ℝ) (C : CTraj) : Prop where
  phase : ∀ ph < ocp.nPhases, PhaseHolds ocp C ph
  linkX : ∀ (k p q : Nat), ocp.phaseLinks[k]? = some (p, q) → ∀ j < ocp.nx,
    Within (entry ocp.lbe k j .nan) (entry ocp.ube k j .nan) (C.x q j (C.t0 q) - C.x p j (C.tf p))
  linkU : ∀ (k p q : Nat), ocp.phaseLinks[k]? = some (p, q) → ∀ j < ocp.nu,
    C.u q j (C.t0 q) = C.u p j (C.tf p)
  linkT : ∀ (k p q : Nat), ocp.phaseLinks[k]? = some (p, q) → C.t0 q = C.tf p

/-- Terminal costs plus integrals of the running costs. -/
noncomputable def OCP.trueCost (ocp : OCP ℝ) (C : CTraj) : ℝ :=
  ∑ ph ∈ Finset.range ocp.nPhases, (ocp.terminalCosts.getD ph (fun _ => 0) (ocp.cEnd C ph) +
    ∫ t in (C.t0 ph)..(C.tf ph), ocp.runningCosts.getD ph (fun _ => 0) (ocp.cArg C ph t))

/-- Start of segment `s` when segment `r` takes the fraction `w r ph` of the phase. -/
noncomputable def CTraj.breakTime (C : CTraj) (w : Nat → Nat → ℝ) (ph s : Nat) : ℝ :=
  C.t0 ph + (C.tf ph - C.t0 ph) * ∑ r ∈ Finset.range s, w r ph

/-- On the closed interval `[b s, b (s+1)]` the function is a polynomial of degree at most `deg s`, for `s < n`. -/
def PiecewisePoly (n : Nat) (deg : Nat → Nat) (b : Nat → ℝ) (f : ℝ → ℝ) : Prop :=
  ∀ s < n, ∃ P : ℝ[X], P.natDegree ≤ deg s ∧ ∀ t ∈ Set.Icc (b s) (b (s + 1)), f t = P.eval t

/-- The same on `(b s, b (s+1)]`, and at `b 0`: the function may jump at breaks, continuous from the left. -/
def LeftPiecewisePoly (n : Nat) (deg : Nat → Nat) (b : Nat → ℝ) (f : ℝ → ℝ) : Prop :=
  ∀ s < n, ∃ P : ℝ[X], P.natDegree ≤ deg s ∧ ∀ t ∈ Set.Icc (b s) (b (s + 1)), s = 0 ∨ b s < t → f t = P.eval t

/-- `T` holds the values of `C` at the nodes of the mesh. -/
structure Samples (ocp : OCP ℝ) (M : Mesh ℝ) (C : CTraj) (T : Traj ℝ) : Prop where
  t0 : ∀ ph < ocp.nPhases, T.t0 ph = C.t0 ph
  tf : ∀ ph < ocp.nPhases, T.tf ph = C.tf ph
  a : ∀ ph < ocp.nPhases, ∀ k < ocp.na, T.a ph k = C.a ph k
  x : ∀ ph < ocp.nPhases, ∀ j < ocp.nx, ∀ s i, M.Owns s i →
    T.x ph (M.idx s i) j = C.x ph j (M.time T ph s (M.node s i))
  u : ∀ ph < ocp.nPhases, ∀ j < ocp.nu, ∀ s i, M.Owns s i →
    T.u ph (M.idx s i) j = C.u ph j (M.time T ph s (M.node s i))

end MPOpt
