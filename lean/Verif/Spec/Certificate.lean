import Verif.Spec.Continuous

/-!
# Specification: certificates for lower bounds on the cost

A certificate attaches to every phase a function `V(t, x)` of time and states that is affine in the states, with
polynomials in time as coefficients. It proves that nothing costs less than `lower` if running cost plus rate of change of
`V` is nonnegative wherever bounds and path constraints hold, and terminal costs plus the fall of `V` over the phases
are at least `lower` for all ends that meet bounds, terminal constraints and links. Neither condition mentions nodes,
segments or quadrature.
-/

set_option autoImplicit false

namespace MPOpt
open Polynomial

/-- Arguments of the functions of phase `ph` that meet bounds and path constraints. The state may also be the given
initial state, which need not be within the bounds. -/
structure OCP.Admissible (ocp : OCP ℝ) (ph : Nat) (p : PArg ℝ) : Prop where
  lenX : p.x.length = ocp.nx
  lenU : p.u.length = ocp.nu
  x : (∀ j < ocp.nx, Within (entry ocp.lbx ph j .nan) (entry ocp.ubx ph j .nan) (p.x.getD j 0)) ∨
    (ph = 0 ∧ ∀ j < ocp.nx, p.x.getD j 0 = entry ocp.x00 0 j 0)
  u : ∀ j < ocp.nu, Within (entry ocp.lbu ph j .nan) (entry ocp.ubu ph j .nan) (p.u.getD j 0)
  t : Within (entry ocp.lbt0 ph 0 .nan) (entry ocp.ubtf ph 0 .nan) p.t
  noParam : ocp.na = 0 → p.a = none
  param : ocp.na ≠ 0 → ∃ l, p.a = some l ∧ l.length = ocp.na ∧
    ∀ k < ocp.na, Within (entry ocp.lba ph k .nan) (entry ocp.uba ph k .nan) (l.getD k 0)
  path : ∀ F, ocp.pathConstraints[ph]? = some (some F) → ∀ c < F.len, F.f p c ≤ 0

/-- The constraints that all solver classes have in common. -/
structure CoreFeasible (ocp : OCP ℝ) (M : Mesh ℝ) (T : Traj ℝ) : Prop where
  bounds : ∀ ph < ocp.nPhases, BoundsOK ocp M T ph
  dynamics : ∀ ph < ocp.nPhases, CollocationOK ocp M T ph
  path : ∀ ph < ocp.nPhases, PathOK ocp M T ph
  terminal : ∀ ph < ocp.nPhases, TerminalOK ocp M T ph
  links : 2 ≤ ocp.nPhases → LinksOK ocp M T

/-- Two nodes, start and end. -/
noncomputable def endMesh : Mesh ℝ := ⟨[1], fun _ => [0, 1], 0, 1⟩

/-- Starts (node 0) and ends (node 1) of the phases that meet bounds, terminal constraints and links, no phase ending
before it starts. -/
structure OCP.EndsHold (ocp : OCP ℝ) (E : Traj ℝ) : Prop where
  bounds : ∀ ph < ocp.nPhases, BoundsOK ocp endMesh E ph
  terminal : ∀ ph < ocp.nPhases, TerminalOK ocp endMesh E ph
  order : ∀ ph < ocp.nPhases, E.t0 ph ≤ E.tf ph
  links : 2 ≤ ocp.nPhases → LinksOK ocp endMesh E

/-- Coefficients of `V(t, x) = sum of price j (t) * x j + free (t)`, for every phase. -/
structure Certificate where
  /-- phase, state -/
  price : Nat → Nat → ℝ[X]
  /-- phase -/
  free : Nat → ℝ[X]

/-- `V(t, x)` for `n` states. -/
noncomputable def Certificate.value (c : Certificate) (n ph : Nat) (t : ℝ) (x : Nat → ℝ) : ℝ :=
  (∑ j ∈ Finset.range n, (c.price ph j).eval t * x j) + (c.free ph).eval t

/-- Rate of change of `V` when the states change at the rates `v`. -/
noncomputable def Certificate.rate (c : Certificate) (n ph : Nat) (t : ℝ) (x v : Nat → ℝ) : ℝ :=
  (∑ j ∈ Finset.range n, ((derivative (c.price ph j)).eval t * x j + (c.price ph j).eval t * v j)) +
    (derivative (c.free ph)).eval t

/-- The certificate proves that the cost is at least `lower`. -/
structure Certificate.Proves (c : Certificate) (ocp : OCP ℝ) (lower : ℝ) : Prop where
  running : ∀ ph < ocp.nPhases, ∀ F L, ocp.dynamics[ph]? = some F → ocp.runningCosts[ph]? = some L →
    ∀ p, ocp.Admissible ph p → 0 ≤ L p + c.rate ocp.nx ph p.t (fun j => p.x.getD j 0) (F.f p)
  ends : ∀ E, ocp.EndsHold E → lower ≤ ∑ ph ∈ Finset.range ocp.nPhases,
    (ocp.terminalCosts.getD ph (fun _ => 0) (ocp.tArg E ph 2) + c.value ocp.nx ph (E.t0 ph) (E.x ph 0) -
      c.value ocp.nx ph (E.tf ph) (E.x ph 1))

end MPOpt
