import Verif.Spec.Mesh

/-! # Specification: bounds that keep every phase running forward in time -/

set_option autoImplicit false

namespace MPOpt
variable {K : Type} [LE K]

/-- Time bounds after which no phase can end before it starts: the latest start, given by the phase's own bound or by
the bound on the end of a phase linked to it, is not after the earliest end. -/
def OCP.TimesOrdered (ocp : OCP K) : Prop :=
  ∀ ph < ocp.nPhases, ∃ latest earliest, latest ≤ earliest ∧ entry ocp.lbtf ph 0 .nan = .fin earliest ∧
    (entry ocp.ubt0 ph 0 .nan = .fin latest ∨
      2 ≤ ocp.nPhases ∧ ∃ k p : Nat, ocp.phaseLinks[k]? = some (p, ph) ∧ p < ocp.nPhases ∧ entry ocp.ubtf p 0 .nan = .fin latest)

end MPOpt
