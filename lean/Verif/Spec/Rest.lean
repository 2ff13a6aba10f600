import Verif.Spec.Certificate

/-!
# Specification: staying at a rest point

A rest point of a phase is a state that the dynamics leave where it is, for one constant control and at all times of the phase.
Nothing here refers to meshes or polynomials.
-/

set_option autoImplicit false

namespace MPOpt

/-- One state, control and parameter vector for each phase, and the times of the phase. -/
structure Rest where
  /-- state: phase, component -/
  x : Nat → Nat → ℝ
  /-- control: phase, component -/
  u : Nat → Nat → ℝ
  /-- parameter: phase, component -/
  a : Nat → Nat → ℝ
  t0 : Nat → ℝ
  tf : Nat → ℝ

/-- Arguments `(x, u, t, a)` at time `t`. -/
def OCP.restArg (ocp : OCP ℝ) (R : Rest) (ph : Nat) (t : ℝ) : PArg ℝ :=
  ⟨(List.range ocp.nx).map (R.x ph), (List.range ocp.nu).map (R.u ph), t,
    if ocp.na = 0 then none else some ((List.range ocp.na).map (R.a ph))⟩

/-- Arguments `(x(tf), tf, x(t0), t0, a)`. -/
def OCP.restEnd (ocp : OCP ℝ) (R : Rest) (ph : Nat) : TArg ℝ :=
  ⟨(List.range ocp.nx).map (R.x ph), R.tf ph, (List.range ocp.nx).map (R.x ph), R.t0 ph,
    if ocp.na = 0 then none else some ((List.range ocp.na).map (R.a ph))⟩

/-- Staying there is allowed: the state does not move, bounds, path and terminal constraints and links hold, and where control slopes are
limited the limits admit slope 0. -/
structure Rest.Holds (R : Rest) (ocp : OCP ℝ) : Prop where
  order : ∀ ph < ocp.nPhases, R.t0 ph ≤ R.tf ph
  still : ∀ ph < ocp.nPhases, ∀ F, ocp.dynamics[ph]? = some F → ∀ t, R.t0 ph ≤ t → t ≤ R.tf ph →
    ∀ j < ocp.nx, F.f (ocp.restArg R ph t) j = 0
  path : ∀ ph < ocp.nPhases, ∀ F, ocp.pathConstraints[ph]? = some (some F) → ∀ t, R.t0 ph ≤ t → t ≤ R.tf ph →
    ∀ c < F.len, F.f (ocp.restArg R ph t) c ≤ 0
  terminal : ∀ ph < ocp.nPhases, ∀ F, ocp.terminalConstraints[ph]? = some (some F) →
    ∀ c < F.len, F.f (ocp.restEnd R ph) c = 0
  x0 : ∀ j < ocp.nx, R.x 0 j = entry ocp.x00 0 j 0
  x : ∀ ph < ocp.nPhases, ∀ j < ocp.nx, Within (entry ocp.lbx ph j .nan) (entry ocp.ubx ph j .nan) (R.x ph j)
  u : ∀ ph < ocp.nPhases, ∀ j < ocp.nu, Within (entry ocp.lbu ph j .nan) (entry ocp.ubu ph j .nan) (R.u ph j)
  t0 : ∀ ph < ocp.nPhases, Within (entry ocp.lbt0 ph 0 .nan) (entry ocp.ubt0 ph 0 .nan) (R.t0 ph)
  tf : ∀ ph < ocp.nPhases, Within (entry ocp.lbtf ph 0 .nan) (entry ocp.ubtf ph 0 .nan) (R.tf ph)
  a : ∀ ph < ocp.nPhases, ∀ k < ocp.na, Within (entry ocp.lba ph k .nan) (entry ocp.uba ph k .nan) (R.a ph k)
  slope : ∀ ph < ocp.nPhases, ocp.diffU.getD ph false = true → Within (ocp.lbdu.getD ph .nan) (ocp.ubdu.getD ph .nan) 0
  linkX : ∀ (k p q : Nat), ocp.phaseLinks[k]? = some (p, q) → ∀ j < ocp.nx,
    Within (entry ocp.lbe k j .nan) (entry ocp.ube k j .nan) (R.x q j - R.x p j)
  linkU : ∀ (k p q : Nat), ocp.phaseLinks[k]? = some (p, q) → ∀ j < ocp.nu, R.u q j = R.u p j
  linkT : ∀ (k p q : Nat), ocp.phaseLinks[k]? = some (p, q) → R.t0 q = R.tf p

/-- Staying costs `rate ph` per unit of time in phase `ph`. -/
def Rest.Costs (R : Rest) (ocp : OCP ℝ) (rate : Nat → ℝ) : Prop :=
  ∀ ph < ocp.nPhases, ∀ L, ocp.runningCosts[ph]? = some L → ∀ t, R.t0 ph ≤ t → t ≤ R.tf ph →
    L (ocp.restArg R ph t) = rate ph

/-- What staying costs altogether. -/
noncomputable def OCP.restCost (ocp : OCP ℝ) (R : Rest) (rate : Nat → ℝ) : ℝ :=
  ∑ ph ∈ Finset.range ocp.nPhases,
    (ocp.terminalCosts.getD ph (fun _ => 0) (ocp.restEnd R ph) + rate ph * (R.tf ph - R.t0 ph))

/-- Staying, on a mesh with segment widths `w`. -/
def Rest.traj (R : Rest) (w : Nat → Nat → ℝ) : Traj ℝ :=
  ⟨fun ph _ j => R.x ph j, fun ph _ j => R.u ph j, R.t0, R.tf, R.a, w⟩

end MPOpt
