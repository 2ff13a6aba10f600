import Verif.Spec.Mesh
import Verif.Spec.Local

/-! # Specification: symmetries of a problem

An affine map of the states and one of the controls that turn motions of the system into motions of the system, and change neither
constraints nor costs: reflections, rotations, exchanges of equal parts. -/

set_option autoImplicit false

namespace MPOpt
variable {K : Type}

/-- States `x` to `A x + b`, controls `u` to `B u + d`. -/
structure Symmetry (K : Type) where
  A : Nat → Nat → K
  b : Nat → K
  B : Nat → Nat → K
  d : Nat → K

variable [Field K]

/-- New value of state `j`, for `n` states. -/
def Symmetry.state (S : Symmetry K) (n : Nat) (x : Nat → K) (j : Nat) : K := ∑ k ∈ Finset.range n, S.A j k * x k + S.b j

/-- New value of control `j`, for `n` controls. -/
def Symmetry.control (S : Symmetry K) (n : Nat) (u : Nat → K) (j : Nat) : K := ∑ k ∈ Finset.range n, S.B j k * u k + S.d j

/-- New arguments of dynamics, path constraints and running costs. -/
def Symmetry.onP (S : Symmetry K) (ocp : OCP K) (p : PArg K) : PArg K :=
  ⟨(List.range ocp.nx).map (S.state ocp.nx fun k => p.x.getD k 0), (List.range ocp.nu).map (S.control ocp.nu fun k => p.u.getD k 0),
    p.t, p.a⟩

/-- New arguments of terminal constraints and costs. -/
def Symmetry.onT (S : Symmetry K) (ocp : OCP K) (p : TArg K) : TArg K :=
  ⟨(List.range ocp.nx).map (S.state ocp.nx fun k => p.xf.getD k 0), p.tf,
    (List.range ocp.nx).map (S.state ocp.nx fun k => p.x0.getD k 0), p.t0, p.a⟩

/-- The image of a trajectory. -/
def Traj.image (T : Traj K) (ocp : OCP K) (S : Symmetry K) : Traj K :=
  { T with x := fun ph i => S.state ocp.nx (T.x ph i), u := fun ph i => S.control ocp.nu (T.u ph i) }

/-- The map is a symmetry of the problem. -/
structure OCP.Invariant [LE K] (ocp : OCP K) (S : Symmetry K) : Prop where
  dynamics : ∀ ph < ocp.nPhases, ∀ F, ocp.dynamics[ph]? = some F → ∀ p : PArg K, p.Fits ocp → ∀ j < ocp.nx,
    F.f (S.onP ocp p) j = ∑ k ∈ Finset.range ocp.nx, S.A j k * F.f p k
  path : ∀ ph < ocp.nPhases, ∀ F, ocp.pathConstraints[ph]? = some (some F) → ∀ p : PArg K, p.Fits ocp →
    (∀ c < F.len, F.f p c ≤ 0) → ∀ c < F.len, F.f (S.onP ocp p) c ≤ 0
  terminal : ∀ ph < ocp.nPhases, ∀ F, ocp.terminalConstraints[ph]? = some (some F) → ∀ p : TArg K, p.Fits ocp →
    (∀ c < F.len, F.f p c = 0) → ∀ c < F.len, F.f (S.onT ocp p) c = 0
  running : ∀ ph < ocp.nPhases, ∀ L, ocp.runningCosts[ph]? = some L → ∀ p : PArg K, p.Fits ocp → L (S.onP ocp p) = L p
  cost : ∀ ph < ocp.nPhases, ∀ E, ocp.terminalCosts[ph]? = some E → ∀ p : TArg K, p.Fits ocp → E (S.onT ocp p) = E p
  start : ∀ j < ocp.nx, S.state ocp.nx (fun k => entry ocp.x00 0 k 0) j = entry ocp.x00 0 j 0
  x : ∀ ph < ocp.nPhases, ∀ x : Nat → K, (∀ j < ocp.nx, Within (entry ocp.lbx ph j .nan) (entry ocp.ubx ph j .nan) (x j)) →
    ∀ j < ocp.nx, Within (entry ocp.lbx ph j .nan) (entry ocp.ubx ph j .nan) (S.state ocp.nx x j)
  u : ∀ ph < ocp.nPhases, ∀ u : Nat → K, (∀ j < ocp.nu, Within (entry ocp.lbu ph j .nan) (entry ocp.ubu ph j .nan) (u j)) →
    ∀ j < ocp.nu, Within (entry ocp.lbu ph j .nan) (entry ocp.ubu ph j .nan) (S.control ocp.nu u j)
  links : ∀ k < ocp.phaseLinks.length, ∀ x : Nat → K, (∀ j < ocp.nx, Within (entry ocp.lbe k j .nan) (entry ocp.ube k j .nan) (x j)) →
    ∀ j < ocp.nx, Within (entry ocp.lbe k j .nan) (entry ocp.ube k j .nan) (∑ k ∈ Finset.range ocp.nx, S.A j k * x k)

end MPOpt
