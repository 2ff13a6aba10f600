import Mathlib.Analysis.Complex.Exponential
import Verif.Spec.Response

/-!
# Specification: fine meshes

What has to be known about the mesh, the controls and the dynamics to bound the error of a collocated solution beforehand.
-/

set_option autoImplicit false

namespace MPOpt

/-- The sum of the absolute values of the Lagrange polynomials of the nodes a segment owns for certain (all but its first node) is
at most `C` on the segment: `C` is a bound on the Lebesgue constant. It depends on the nodes only. -/
def Mesh.Lebesgue (M : Mesh ℝ) (C : ℝ) : Prop :=
  ∀ s < M.orders.length, ∀ tau ∈ Set.Icc M.tau0 M.tau1,
    ∑ i ∈ Finset.Icc 1 (M.order s), |(Lagrange.basis (Finset.Icc 1 (M.order s)) (M.node s) i).eval tau| ≤ C

/-- Every segment of phase `ph` lasts at most `H`. -/
def Mesh.Lasts (M : Mesh ℝ) (T : Traj ℝ) (ph : Nat) (H : ℝ) : Prop :=
  ∀ s < M.orders.length, (T.tf ph - T.t0 ph) * T.w s ph ≤ H

/-- Controls at `tau` in segment `s`. -/
noncomputable def Mesh.controlAt (M : Mesh ℝ) (T : Traj ℝ) (ph s : Nat) (tau : ℝ) (k : Nat) : ℝ :=
  (M.piece (fun i => T.u ph i k) s).eval tau

/-- Within a segment the scaled controls vary by at most `e`. -/
def ControlVaries (ocp : OCP ℝ) (M : Mesh ℝ) (T : Traj ℝ) (ph : Nat) (e : ℝ) : Prop :=
  ∀ s < M.orders.length, ∀ tau ∈ Set.Icc M.tau0 M.tau1, ∀ tau' ∈ Set.Icc M.tau0 M.tau1, ∀ k < ocp.nu,
    |ocp.scaleU.getD k 0 * (M.controlAt T ph s tau k - M.controlAt T ph s tau' k)| ≤ e

/-- Parameters as an argument. -/
def OCP.paramArg (ocp : OCP ℝ) (a : Nat → ℝ) : Option (List ℝ) := if ocp.na = 0 then none else some ((List.range ocp.na).map a)

/-- On states in `S`, controls in `U`, times in `I` and for the parameters `a`, the scaled dynamics are Lipschitz in the scaled states,
the scaled controls and the time, with constants `Lx`, `Lu`, `Lt`. -/
def LipschitzIn (ocp : OCP ℝ) (F : VFun (PArg ℝ) ℝ) (S U : List ℝ → Prop) (I : Set ℝ) (a : Nat → ℝ) (Lx Lu Lt : ℝ) : Prop :=
  ∀ p q : PArg ℝ, S p.x → S q.x → U p.u → U q.u → p.t ∈ I → q.t ∈ I → p.a = ocp.paramArg a → q.a = ocp.paramArg a → ∀ dx du,
    (∀ k < ocp.nx, |ocp.scaleX.getD k 0 * (p.x.getD k 0 - q.x.getD k 0)| ≤ dx) →
    (∀ k < ocp.nu, |ocp.scaleU.getD k 0 * (p.u.getD k 0 - q.u.getD k 0)| ≤ du) → ∀ j < ocp.nx,
      |ocp.scaleX.getD j 0 * (F.f p j - F.f q j)| ≤ Lx * dx + Lu * du + Lt * |p.t - q.t|

/-- Scaled dynamics are at most `B` at the nodes of phase `ph`. -/
def RatesBounded (ocp : OCP ℝ) (M : Mesh ℝ) (T : Traj ℝ) (F : VFun (PArg ℝ) ℝ) (ph : Nat) (B : ℝ) : Prop :=
  ∀ s i, M.Owns s i → ∀ j < ocp.nx,
    |ocp.scaleX.getD j 0 * F.f (ocp.pArg T ph (M.idx s i) (M.time T ph s (M.node s i))) j| ≤ B

/-- At the nodes, per unit of time, the scaled collocation equations of phase `ph` fail by at most `κ`. -/
def CollocationRate (κ : ℝ) (ocp : OCP ℝ) (M : Mesh ℝ) (T : Traj ℝ) (ph : Nat) : Prop :=
  ∀ F, ocp.dynamics[ph]? = some F → ∀ j < ocp.nx, ∀ s i, M.Owns s i →
    |ocp.scaleX.getD j 0 * ((Polynomial.derivative (M.piece (fun k => T.x ph k j) s)).eval (M.node s i) -
      M.halfWidth T ph s * F.f (ocp.pArg T ph (M.idx s i) (M.time T ph s (M.node s i))) j)| ≤ M.halfWidth T ph s * κ

/-- A phase of which the mesh, the controls and the dynamics are known as above, all constants being non-negative. -/
structure Tame (ocp : OCP ℝ) (M : Mesh ℝ) (T : Traj ℝ) (F : VFun (PArg ℝ) ℝ) (ph : Nat) (S U : List ℝ → Prop)
    (C B Lx Lu Lt H e : ℝ) : Prop where
  lebesgue : M.Lebesgue C
  rates : RatesBounded ocp M T F ph B
  lipschitz : LipschitzIn ocp F S U (Set.Icc (T.t0 ph) (T.tf ph)) (T.a ph) Lx Lu Lt
  lasts : M.Lasts T ph H
  varies : ControlVaries ocp M T ph e
  states : ∀ s < M.orders.length, ∀ tau ∈ Set.Icc M.tau0 M.tau1, S ((List.range ocp.nx).map (M.stateAt T ph s tau))
  controls : ∀ s < M.orders.length, ∀ tau ∈ Set.Icc M.tau0 M.tau1, U ((List.range ocp.nu).map (M.controlAt T ph s tau))
  B : 0 ≤ B
  Lx : 0 ≤ Lx
  Lu : 0 ≤ Lu
  Lt : 0 ≤ Lt
  e : 0 ≤ e

/-- A map onto the states of `S` that does not increase distances and leaves `S` alone. -/
structure Retraction (ocp : OCP ℝ) (S : List ℝ → Prop) (ret : (Nat → ℝ) → Nat → ℝ) : Prop where
  into : ∀ p, S ((List.range ocp.nx).map (ret p))
  near : ∀ p q d, ocp.CloseBy p q d → ocp.CloseBy (ret p) (ret q) d
  fixes : ∀ p, S ((List.range ocp.nx).map p) → ∀ k < ocp.nx, ret p k = p k

/-- States between `lo` and `hi`. -/
def OCP.InBox (ocp : OCP ℝ) (lo hi : Nat → ℝ) (x : List ℝ) : Prop := ∀ k < ocp.nx, lo k ≤ x.getD k 0 ∧ x.getD k 0 ≤ hi k

/-- The trajectory keeps the distance `r`, in scaled components, from the sides of the box. -/
def OCP.KeepsOff (ocp : OCP ℝ) (M : Mesh ℝ) (T : Traj ℝ) (ph : Nat) (lo hi : Nat → ℝ) (r : ℝ) : Prop :=
  ∀ s < M.orders.length, ∀ tau ∈ Set.Icc M.tau0 M.tau1, ∀ k < ocp.nx,
    ocp.scaleX.getD k 0 * lo k + r ≤ ocp.scaleX.getD k 0 * M.stateAt T ph s tau k ∧
      ocp.scaleX.getD k 0 * M.stateAt T ph s tau k ≤ ocp.scaleX.getD k 0 * hi k - r

/-- `X` is the exact response to the controls of `T` from its initial state; it stays in `S`, it is the only one that does, and it
never leaves the trajectory by more than `E (t - t0) e^(L (t - t0))`. -/
structure Shadow (ocp : OCP ℝ) (M : Mesh ℝ) (T : Traj ℝ) (F : VFun (PArg ℝ) ℝ) (ph : Nat) (S : List ℝ → Prop) (E L : ℝ)
    (X : Nat → ℝ → ℝ) : Prop where
  response : Response ocp M T F ph X
  start : ∀ j < ocp.nx, X j (T.t0 ph) = T.x ph 0 j
  stays : ∀ s < M.orders.length, ∀ tau ∈ Set.Icc M.tau0 M.tau1,
    S ((List.range ocp.nx).map fun k => X k (M.time T ph s tau))
  close : ∀ s < M.orders.length, ∀ tau ∈ Set.Icc M.tau0 M.tau1, ∀ j < ocp.nx,
    |ocp.scaleX.getD j 0 * (M.stateAt T ph s tau j - X j (M.time T ph s tau))| ≤
      E * (M.time T ph s tau - T.t0 ph) * Real.exp (L * (M.time T ph s tau - T.t0 ph))
  only : ∀ X', Response ocp M T F ph X' → (∀ j < ocp.nx, X' j (T.t0 ph) = T.x ph 0 j) →
    (∀ s < M.orders.length, ∀ tau ∈ Set.Ico M.tau0 M.tau1,
      S ((List.range ocp.nx).map fun k => X' k (M.time T ph s tau))) →
    ∀ k < ocp.nx, ∀ t ∈ Set.Icc (T.t0 ph) (T.tf ph), X' k t = X k t

end MPOpt
