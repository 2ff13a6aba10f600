import Verif.Spec.Certificate

/-!
# Specification: problems that have no solution

Two reasons that mention neither nodes nor segments: what is asked of the starts and ends of the phases is contradictory, or
some function of time and states that cannot fall during any phase would have to fall.
-/

set_option autoImplicit false

namespace MPOpt

/-- Starts (node 0) and ends (node 1) of the phases that meet bounds, path constraints, terminal constraints and links. -/
structure OCP.EndsMeet (ocp : OCP ℝ) (E : Traj ℝ) : Prop where
  bounds : ∀ ph < ocp.nPhases, BoundsOK ocp endMesh E ph
  startPath : ∀ ph < ocp.nPhases, ∀ F, ocp.pathConstraints[ph]? = some (some F) → ∀ k < F.len,
    F.f (ocp.pArg E ph 0 (E.t0 ph)) k ≤ 0
  endPath : ∀ ph < ocp.nPhases, ∀ F, ocp.pathConstraints[ph]? = some (some F) → ∀ k < F.len,
    F.f (ocp.pArg E ph 1 (E.tf ph)) k ≤ 0
  terminal : ∀ ph < ocp.nPhases, TerminalOK ocp endMesh E ph
  links : 2 ≤ ocp.nPhases → LinksOK ocp endMesh E

/-- What is asked of the starts and ends of the phases is contradictory. -/
def OCP.Blocked (ocp : OCP ℝ) : Prop := ∀ E, ¬ ocp.EndsMeet E

/-- `V` does not fall during phase `ph`, wherever bounds and path constraints hold. -/
def Certificate.Rises (c : Certificate) (ocp : OCP ℝ) (ph : Nat) : Prop :=
  ∀ F, ocp.dynamics[ph]? = some F → ∀ p, ocp.Admissible ph p → 0 ≤ c.rate ocp.nx ph p.t (fun j => p.x.getD j 0) (F.f p)

/-- `V` does not fall during any phase, but the ends of the phases ask for a fall of the sum over the phases. -/
structure Certificate.Refutes (c : Certificate) (ocp : OCP ℝ) : Prop where
  rises : ∀ ph < ocp.nPhases, c.Rises ocp ph
  ends : ∀ E, ocp.EndsMeet E → (∀ ph < ocp.nPhases, E.t0 ph ≤ E.tf ph) →
    ∑ ph ∈ Finset.range ocp.nPhases, c.value ocp.nx ph (E.tf ph) (E.x ph 1) <
      ∑ ph ∈ Finset.range ocp.nPhases, c.value ocp.nx ph (E.t0 ph) (E.x ph 0)

end MPOpt
