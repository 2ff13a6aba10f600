import Verif.Spec.Continuous

/-!
# Specification: a quantity used up at known rates and dropped between phases

The mass of a launcher: in every phase propellant burns at a constant rate, between phases the empty stages are dropped.
-/

set_option autoImplicit false

namespace MPOpt

/-- State `j` has the rate `rate ph` in phase `ph`, whatever states and controls are, and phase `ph + 1` starts with what
phase `ph` ends with plus `drop ph`. -/
structure OCP.Staged (ocp : OCP ℝ) (j : Nat) (rate drop : Nat → ℝ) : Prop where
  state : j < ocp.nx
  given : ∀ ph < ocp.nPhases, ph < ocp.dynamics.length
  rates : ∀ ph F, ocp.dynamics[ph]? = some F → ∀ p, F.f p j = rate ph
  chain : ∀ ph, ph + 1 < ocp.nPhases → ∃ k, ocp.phaseLinks[k]? = some (ph, ph + 1) ∧
    entry ocp.lbe k j .nan = .fin (drop ph) ∧ entry ocp.ube k j .nan = .fin (drop ph)

/-- What is left at the start of phase `ph` of what there was at first, when phase `i` runs from `t0 i` to `tf i`. -/
noncomputable def leftAt (first : ℝ) (rate drop t0 tf : Nat → ℝ) (ph : Nat) : ℝ :=
  first + ∑ i ∈ Finset.range ph, (rate i * (tf i - t0 i) + drop i)

end MPOpt
