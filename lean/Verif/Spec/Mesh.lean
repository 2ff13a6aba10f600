import Verif.Model.OCP
import Verif.Spec.Piecewise
import Mathlib.LinearAlgebra.Lagrange

/-!
# Specification: a multi-phase trajectory on a mesh, in physical units

Nothing here refers to the transcription. `Traj` holds numbers a user would recognise; the predicates say
what it means for them to solve the collocated optimal control problem.
-/

set_option autoImplicit false

namespace MPOpt
open Polynomial

/-- Values of a discretised multi-phase trajectory in physical units. -/
@[ext] structure Traj (K : Type) where
  /-- state: phase, node, component -/
  x : Nat → Nat → Nat → K
  /-- control: phase, node, component -/
  u : Nat → Nat → Nat → K
  /-- initial time of a phase -/
  t0 : Nat → K
  /-- final time of a phase -/
  tf : Nat → K
  /-- parameter: phase, component -/
  a : Nat → Nat → K
  /-- fraction of the phase taken by a segment: segment, phase -/
  w : Nat → Nat → K

/-- Segments of a phase: polynomial order of each, collocation nodes per order, and the interval
`[tau0, tau1]` on which the nodes live. -/
structure Mesh (K : Type) where
  orders : List Nat
  nodes : Nat → List K
  tau0 : K
  tau1 : K

/-- `lo ≤ v`; a `nan` bound is never met. -/
def Ext.Below {K : Type} [LE K] (lo : Ext K) (v : K) : Prop :=
  match lo with
  | .ninf => True
  | .fin a => a ≤ v
  | .pinf => False
  | .nan => False

/-- `v ≤ hi`. -/
def Ext.Above {K : Type} [LE K] (hi : Ext K) (v : K) : Prop :=
  match hi with
  | .pinf => True
  | .fin a => v ≤ a
  | .ninf => False
  | .nan => False

/-- `lo ≤ v ≤ hi`. -/
def Within {K : Type} [LE K] (lo hi : Ext K) (v : K) : Prop := lo.Below v ∧ hi.Above v

/-- A vector of values respects vectors of bounds of the same length. -/
def Holds {K : Type} [LE K] (g : List K) (lo hi : List (Ext K)) : Prop :=
  g.length = lo.length ∧ g.length = hi.length ∧
    ∀ (i : Nat) (v : K) (l h : Ext K), g[i]? = some v → lo[i]? = some l → hi[i]? = some h →
      Within l h v

/-- Entry of a two-dimensional array (`d` outside). -/
def entry {α : Type} (arr : List (List α)) (i j : Nat) (d : α) : α := (arr.getD i []).getD j d

namespace Mesh
variable {K : Type}

/-- Number of nodes of a phase: neighbouring segments share a node. -/
def N (M : Mesh K) : Nat := M.orders.sum + 1

/-- Order of segment `s`. -/
def order (M : Mesh K) (s : Nat) : Nat := M.orders.getD s 0

/-- Index in the phase of node `i` of segment `s`. -/
def idx (M : Mesh K) (s i : Nat) : Nat := segStart M.orders s + i

/-- Node `i` of segment `s` belongs to segment `s`: the shared node belongs to the segment on its left. -/
def Owns (M : Mesh K) (s i : Nat) : Prop := s < M.orders.length ∧ i ≤ M.order s ∧ (s = 0 ∨ 1 ≤ i)

/-- A mesh with at least one segment, positive orders, and for every order `p` used `p + 1` distinct
nodes from `tau0` to `tau1`. -/
structure Good (M : Mesh K) : Prop where
  nonempty : M.orders ≠ []
  pos : ∀ p ∈ M.orders, 1 ≤ p
  length : ∀ p ∈ M.orders, (M.nodes p).length = p + 1
  nodup : ∀ p ∈ M.orders, (M.nodes p).Nodup
  first : ∀ p ∈ M.orders, (M.nodes p)[0]? = some M.tau0
  last : ∀ p ∈ M.orders, (M.nodes p)[p]? = some M.tau1

variable [Field K]

/-- Node `i` of segment `s`. -/
def node (M : Mesh K) (s i : Nat) : K := (M.nodes (M.order s)).getD i 0

/-- The polynomial of segment `s` through the node values `v`. -/
noncomputable def piece (M : Mesh K) (v : Nat → K) (s : Nat) : K[X] :=
  Lagrange.interpolate (Finset.range (M.order s + 1)) (M.node s) fun i => v (M.idx s i)

/-- `dt/dtau` in segment `s` of phase `ph`. -/
def halfWidth (M : Mesh K) (T : Traj K) (ph s : Nat) : K :=
  (T.tf ph - T.t0 ph) / (M.tau1 - M.tau0) * T.w s ph

/-- Time at `tau` in segment `s` of phase `ph`: earlier segments take their fractions of the phase. -/
def time (M : Mesh K) (T : Traj K) (ph s : Nat) (tau : K) : K :=
  T.t0 ph + (T.tf ph - T.t0 ph) * (∑ r ∈ Finset.range s, T.w r ph) +
    M.halfWidth T ph s * (tau - M.tau0)

end Mesh

section
variable {K : Type} [Field K]

/-- Arguments `(x, u, t, a)` at node `k` of phase `ph`, at time `t`. -/
def OCP.pArg (ocp : OCP K) (T : Traj K) (ph k : Nat) (t : K) : PArg K :=
  ⟨(List.range ocp.nx).map (T.x ph k), (List.range ocp.nu).map (T.u ph k), t,
    if ocp.na = 0 then none else some ((List.range ocp.na).map (T.a ph))⟩

/-- Arguments `(x(tf), tf, x(t0), t0, a)` of phase `ph` with `n` nodes. -/
def OCP.tArg (ocp : OCP K) (T : Traj K) (ph n : Nat) : TArg K :=
  ⟨(List.range ocp.nx).map (T.x ph (n - 1)), T.tf ph, (List.range ocp.nx).map (T.x ph 0), T.t0 ph,
    if ocp.na = 0 then none else some ((List.range ocp.na).map (T.a ph))⟩

/-- Collocation equations of phase `ph`: at every node the derivative of the owning polynomial piece of
every state equals `dt/dtau` times the dynamics. -/
def CollocationOK (ocp : OCP K) (M : Mesh K) (T : Traj K) (ph : Nat) : Prop :=
  ∀ F, ocp.dynamics[ph]? = some F → ∀ j < ocp.nx, ∀ s i, M.Owns s i →
    (derivative (M.piece (fun k => T.x ph k j) s)).eval (M.node s i) =
      M.halfWidth T ph s * F.f (ocp.pArg T ph (M.idx s i) (M.time T ph s (M.node s i))) j

/-- All terminal constraints of phase `ph` vanish. -/
def TerminalOK (ocp : OCP K) (M : Mesh K) (T : Traj K) (ph : Nat) : Prop :=
  ∀ F, ocp.terminalConstraints[ph]? = some (some F) → ∀ c < F.len,
    F.f (ocp.tArg T ph M.N) c = 0

/-- Control slope (with respect to `tau`) is continuous at interior segment boundaries. -/
def SlopeContinuous (ocp : OCP K) (M : Mesh K) (T : Traj K) (ph : Nat) : Prop :=
  ∀ j < ocp.nu, ∀ s, s + 1 < M.orders.length →
    (derivative (M.piece (fun k => T.u ph k j) s)).eval M.tau1 =
      (derivative (M.piece (fun k => T.u ph k j) (s + 1))).eval M.tau0

variable [LE K]

/-- Box bounds of phase `ph` on node values, times and parameters; the first node of phase 0 is fixed. -/
structure BoundsOK (ocp : OCP K) (M : Mesh K) (T : Traj K) (ph : Nat) : Prop where
  x0 : ph = 0 → ∀ j < ocp.nx, T.x 0 0 j = entry ocp.x00 0 j 0
  x : ∀ i < M.N, ¬ (ph = 0 ∧ i = 0) → ∀ j < ocp.nx,
    Within (entry ocp.lbx ph j .nan) (entry ocp.ubx ph j .nan) (T.x ph i j)
  u : ∀ i < M.N, ∀ j < ocp.nu,
    Within (entry ocp.lbu ph j .nan) (entry ocp.ubu ph j .nan) (T.u ph i j)
  t0 : Within (entry ocp.lbt0 ph 0 .nan) (entry ocp.ubt0 ph 0 .nan) (T.t0 ph)
  tf : Within (entry ocp.lbtf ph 0 .nan) (entry ocp.ubtf ph 0 .nan) (T.tf ph)
  a : ∀ k < ocp.na, Within (entry ocp.lba ph k .nan) (entry ocp.uba ph k .nan) (T.a ph k)

/-- Path constraints of phase `ph` are non-positive at every node. -/
def PathOK (ocp : OCP K) (M : Mesh K) (T : Traj K) (ph : Nat) : Prop :=
  ∀ F, ocp.pathConstraints[ph]? = some (some F) → ∀ s i, M.Owns s i → ∀ c < F.len,
    F.f (ocp.pArg T ph (M.idx s i) (M.time T ph s (M.node s i))) c ≤ 0

/-- Control polynomials respect the control bounds half-way between consecutive nodes. -/
def MidControlOK (ocp : OCP K) (M : Mesh K) (T : Traj K) (ph : Nat) : Prop :=
  ∀ j < ocp.nu, ∀ s < M.orders.length, ∀ i < M.order s,
    Within (entry ocp.lbu ph j .nan) (entry ocp.ubu ph j .nan)
      ((M.piece (fun k => T.u ph k j) s).eval ((M.node s i + M.node s (i + 1)) / 2))

/-- `tau`-slope of every control at every node, times `sc`, is within `lbdu`, `ubdu`. -/
def SlopeBounded (ocp : OCP K) (M : Mesh K) (T : Traj K) (sc : Nat → K) (ph : Nat) : Prop :=
  ∀ j < ocp.nu, ∀ s i, M.Owns s i →
    Within (ocp.lbdu.getD ph .nan) (ocp.ubdu.getD ph .nan)
      (sc j * (derivative (M.piece (fun k => T.u ph k j) s)).eval (M.node s i))

/-- Phase links: link number `k` joins the end of one phase with the start of another. -/
structure LinksOK (ocp : OCP K) (M : Mesh K) (T : Traj K) : Prop where
  x : ∀ (k p q : Nat), ocp.phaseLinks[k]? = some (p, q) → ∀ j < ocp.nx,
    Within (entry ocp.lbe k j .nan) (entry ocp.ube k j .nan) (T.x q 0 j - T.x p (M.N - 1) j)
  u : ∀ (k p q : Nat), ocp.phaseLinks[k]? = some (p, q) → ∀ j < ocp.nu, T.u q 0 j = T.u p (M.N - 1) j
  t : ∀ (k p q : Nat), ocp.phaseLinks[k]? = some (p, q) → T.t0 q = T.tf p

/-- The collocated optimal control problem, in physical units. -/
structure PhysFeasible (ocp : OCP K) (M : Mesh K) (T : Traj K) : Prop where
  bounds : ∀ ph < ocp.nPhases, BoundsOK ocp M T ph
  dynamics : ∀ ph < ocp.nPhases, CollocationOK ocp M T ph
  path : ∀ ph < ocp.nPhases, PathOK ocp M T ph
  terminal : ∀ ph < ocp.nPhases, TerminalOK ocp M T ph
  mid : ∀ ph < ocp.nPhases, ocp.midu.getD ph false = true → MidControlOK ocp M T ph
  cont : ∀ ph < ocp.nPhases, ocp.duContinuity.getD ph false = true → SlopeContinuous ocp M T ph
  links : 2 ≤ ocp.nPhases → LinksOK ocp M T

end
end MPOpt
