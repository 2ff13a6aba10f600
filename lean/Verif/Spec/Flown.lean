import Verif.Spec.Convergence
import Verif.Spec.Continuous

/-!
# Specification: a plan that is flown

The controls of a collocated solution are given to the real system. What comes out is a motion that obeys the differential equation
exactly and everything else nearly.
-/

set_option autoImplicit false

namespace MPOpt

/-- `C` has the times, the parameters and the (interpolated) controls of `T`, and starts every phase where `T` does. -/
structure Flies (ocp : OCP ℝ) (M : Mesh ℝ) (T : Traj ℝ) (C : CTraj) : Prop where
  t0 : C.t0 = T.t0
  tf : C.tf = T.tf
  a : C.a = T.a
  u : ∀ ph < ocp.nPhases, ∀ j < ocp.nu, ∀ s < M.orders.length, ∀ tau ∈ Set.Icc M.tau0 M.tau1,
    C.u ph j (M.time T ph s tau) = M.controlAt T ph s tau j
  start : ∀ ph < ocp.nPhases, ∀ j < ocp.nx, C.x ph j (C.t0 ph) = T.x ph 0 j

/-- Between the bounds, but for `d` units after scaling. -/
def NearWithin (sc : ℝ) (lo hi : Ext ℝ) (d v : ℝ) : Prop := ∃ v', Within lo hi v' ∧ |sc * (v - v')| ≤ d

/-- One phase: the dynamics, the initial state, times and parameters exactly; states and controls within their bounds but for `εx` and
`εu`, path constraints but for `εc`, terminal constraints but for `εf`. -/
structure PhaseNearly (ocp : OCP ℝ) (C : CTraj) (ph : Nat) (εx εu εc εf : ℝ) : Prop where
  order : C.t0 ph < C.tf ph
  dynamics : DynamicsHold ocp C ph
  path : ∀ F, ocp.pathConstraints[ph]? = some (some F) → ∀ c < F.len, ∀ t ∈ Set.Icc (C.t0 ph) (C.tf ph),
    F.f (ocp.cArg C ph t) c ≤ εc
  terminal : ∀ F, ocp.terminalConstraints[ph]? = some (some F) → ∀ c < F.len, |F.f (ocp.cEnd C ph) c| ≤ εf
  x0 : ph = 0 → ∀ j < ocp.nx, C.x 0 j (C.t0 0) = entry ocp.x00 0 j 0
  x : ∀ t ∈ Set.Icc (C.t0 ph) (C.tf ph), ∀ j < ocp.nx,
    NearWithin (ocp.scaleX.getD j 0) (entry ocp.lbx ph j .nan) (entry ocp.ubx ph j .nan) εx (C.x ph j t)
  u : ∀ t ∈ Set.Icc (C.t0 ph) (C.tf ph), ∀ j < ocp.nu,
    NearWithin (ocp.scaleU.getD j 0) (entry ocp.lbu ph j .nan) (entry ocp.ubu ph j .nan) εu (C.u ph j t)
  t0 : Within (entry ocp.lbt0 ph 0 .nan) (entry ocp.ubt0 ph 0 .nan) (C.t0 ph)
  tf : Within (entry ocp.lbtf ph 0 .nan) (entry ocp.ubtf ph 0 .nan) (C.tf ph)
  a : ∀ k < ocp.na, Within (entry ocp.lba ph k .nan) (entry ocp.uba ph k .nan) (C.a ph k)

/-- The continuous-time problem but for these tolerances; phase links are exact in controls and time. As in the transcription, links
are not looked at with a single phase. -/
structure NearlySolves (ocp : OCP ℝ) (C : CTraj) (εx εu εc εf : ℝ) : Prop where
  phase : ∀ ph < ocp.nPhases, PhaseNearly ocp C ph εx εu εc εf
  linkX : 2 ≤ ocp.nPhases → ∀ (k p q : Nat), ocp.phaseLinks[k]? = some (p, q) →
    ∀ j < ocp.nx, NearWithin (ocp.scaleX.getD j 0) (entry ocp.lbe k j .nan) (entry ocp.ube k j .nan) εx
      (C.x q j (C.t0 q) - C.x p j (C.tf p))
  linkU : 2 ≤ ocp.nPhases → ∀ (k p q : Nat), ocp.phaseLinks[k]? = some (p, q) →
    ∀ j < ocp.nu, C.u q j (C.t0 q) = C.u p j (C.tf p)
  linkT : 2 ≤ ocp.nPhases → ∀ (k p q : Nat), ocp.phaseLinks[k]? = some (p, q) → C.t0 q = C.tf p

/-- A function of `(x, u, t, a)` is Lipschitz on states in `S`, controls in `U` and times in `I` for the parameters `a`, in scaled states
and controls. -/
def LipschitzScalar (ocp : OCP ℝ) (g : PArg ℝ → ℝ) (S U : List ℝ → Prop) (I : Set ℝ) (a : Nat → ℝ) (Qx Qu Qt : ℝ) : Prop :=
  ∀ p q : PArg ℝ, S p.x → S q.x → U p.u → U q.u → p.t ∈ I → q.t ∈ I → p.a = ocp.paramArg a → q.a = ocp.paramArg a → ∀ dx du,
    (∀ k < ocp.nx, |ocp.scaleX.getD k 0 * (p.x.getD k 0 - q.x.getD k 0)| ≤ dx) →
    (∀ k < ocp.nu, |ocp.scaleU.getD k 0 * (p.u.getD k 0 - q.u.getD k 0)| ≤ du) →
      |g p - g q| ≤ Qx * dx + Qu * du + Qt * |p.t - q.t|

/-- A function of `(x(tf), tf, x(t0), t0, a)` is Lipschitz in the scaled final state, the other arguments being those of `r`. -/
def LipschitzEnd (ocp : OCP ℝ) (g : TArg ℝ → ℝ) (S : List ℝ → Prop) (r : TArg ℝ) (Px : ℝ) : Prop :=
  ∀ x y, S x → S y → ∀ d, (∀ k < ocp.nx, |ocp.scaleX.getD k 0 * (x.getD k 0 - y.getD k 0)| ≤ d) →
    |g { r with xf := x } - g { r with xf := y }| ≤ Px * d

/-- What is known of a problem and a plan: Lebesgue constant, largest rate, Lipschitz constants of the dynamics, longest segment,
variation of the controls in a segment, longest phase, Lipschitz constants of path constraints and running costs, and of terminal
constraints and costs; and by how much, per unit of time, the collocation equations fail. -/
structure Sizes where
  C : ℝ
  B : ℝ
  Lx : ℝ
  Lu : ℝ
  Lt : ℝ
  H : ℝ
  e : ℝ
  dur : ℝ
  Qx : ℝ
  Qu : ℝ
  Qt : ℝ
  Px : ℝ
  tol : ℝ

/-- Bound on the failure of the dynamics between nodes (per unit of time). -/
noncomputable def Sizes.rate (K : Sizes) : ℝ := 
  K.C * (K.Lx * (K.C * (K.B + K.tol) * K.H) + K.Lu * K.e + K.Lt * K.H + K.tol)

/-- Bound on the distance of the motion from the plan. -/
noncomputable def Sizes.drift (K : Sizes) : ℝ := K.rate * K.dur * Real.exp (K.Lx * K.dur)

/-- Bound on the distance of the motion from the nodes of the same segment. -/
noncomputable def Sizes.gap (K : Sizes) : ℝ := K.C * (K.B + K.tol) * K.H + K.drift

/-- Bound on the change of path constraints and running costs. -/
noncomputable def Sizes.change (K : Sizes) : ℝ := K.Qx * K.gap + K.Qu * K.e + K.Qt * K.H

/-- A phase of a plan of which these sizes are known: the plan keeps off the sides of a box of states by `K.drift`, and all functions
of the problem are Lipschitz on the box. -/
structure Sized (ocp : OCP ℝ) (M : Mesh ℝ) (T : Traj ℝ) (ph : Nat) (lo hi : Nat → ℝ) (U : List ℝ → Prop) (K : Sizes) : Prop where
  order : T.t0 ph < T.tf ph
  length : T.tf ph - T.t0 ph ≤ K.dur
  tame : ∀ F, ocp.dynamics[ph]? = some F →
    Tame ocp M T F ph (ocp.InBox lo hi) U K.C K.B K.Lx K.Lu K.Lt K.H K.e
  keeps : ocp.KeepsOff M T ph lo hi K.drift
  path : ∀ F, ocp.pathConstraints[ph]? = some (some F) → ∀ c < F.len,
    LipschitzScalar ocp (fun p => F.f p c) (ocp.InBox lo hi) U (Set.Icc (T.t0 ph) (T.tf ph)) (T.a ph) K.Qx K.Qu K.Qt
  cost : ∀ g, ocp.runningCosts[ph]? = some g →
    LipschitzScalar ocp g (ocp.InBox lo hi) U (Set.Icc (T.t0 ph) (T.tf ph)) (T.a ph) K.Qx K.Qu K.Qt
  terminal : ∀ F, ocp.terminalConstraints[ph]? = some (some F) → ∀ c < F.len,
    LipschitzEnd ocp (fun p => F.f p c) (ocp.InBox lo hi) (ocp.tArg T ph M.N) K.Px
  endCost : ∀ g, ocp.terminalCosts[ph]? = some g → LipschitzEnd ocp g (ocp.InBox lo hi) (ocp.tArg T ph M.N) K.Px
  Qt : 0 ≤ K.Qt
  tol : 0 ≤ K.tol

end MPOpt
