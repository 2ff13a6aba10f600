import Verif.Model.Transcription
import Verif.Spec.Mesh
import Verif.Spec.Valid

/-! # Specification: problems and discretisations the transcription theorems are about -/

set_option autoImplicit false

namespace MPOpt
variable {K : Type} [Field K]

/-- The discretisation object lives on the mesh `M`: the node function of its scheme delivers the nodes of
`M`, and the stored composite matrices were computed from them. `Props/Setup.lean` proves that the
constructor establishes this for every scheme that works. -/
structure Disc.OnMesh (d : Disc K) (M : Mesh K) : Prop where
  good : M.Good
  orders : M.orders = d.orders
  tau0 : M.tau0 = d.colloc.tau0
  tau1 : M.tau1 = d.colloc.tau1
  taus : ∀ p ∈ d.orders, d.colloc.taus p = .ok (M.nodes p)
  segments : d.orders.length = d.nSegments
  compD : compDiffMatrix d.colloc d.orders 1 = .ok d.compD
  compW : compQuadWeights d.colloc d.orders = .ok d.compW

/-- Settings `validate()` does not look at but the transcription indexes. -/
structure OCP.SettingsOK (ocp : OCP K) : Prop where
  nx : 0 < ocp.nx
  diffU : ocp.diffU.length = ocp.nPhases
  midu : ocp.midu.length = ocp.nPhases
  duContinuity : ocp.duContinuity.length = ocp.nPhases
  lbdu : ocp.lbdu.length = ocp.nPhases
  ubdu : ocp.ubdu.length = ocp.nPhases
  nu : 0 < ocp.nu ∨ (∀ b ∈ ocp.diffU, b = false) ∧ ∀ b ∈ ocp.duContinuity, b = false
  links : 2 ≤ ocp.nPhases → ocp.phaseLinks ≠ []
  linkCount : 2 ≤ ocp.nPhases → ocp.phaseLinks.length ≤ ocp.nPhases - 1
  linkRange : ∀ l ∈ ocp.phaseLinks, l.1 < ocp.nPhases ∧ l.2 < ocp.nPhases

/-- All scale factors are positive. -/
structure OCP.PosScales [LT K] (ocp : OCP K) : Prop where
  x : ∀ s ∈ ocp.scaleX, 0 < s
  u : ∀ s ∈ ocp.scaleU, 0 < s
  a : ∀ s ∈ ocp.scaleA, 0 < s
  t : 0 < ocp.scaleT

/-- Physical trajectory encoded by values of the (scaled) decision variables. -/
def physOf (ocp : OCP K) (σ : Env K) : Traj K where
  x ph i j := σ (.X ph i j) / ocp.scaleX.getD j 0
  u ph i j := σ (.U ph i j) / ocp.scaleU.getD j 0
  t0 ph := σ (.T0 ph) / ocp.scaleT
  tf ph := σ (.Tf ph) / ocp.scaleT
  a ph k := σ (.A k ph) / ocp.scaleA.getD k 0
  w s ph := σ (.H s ph)

/-- A point satisfies the NLP handed to the solver. -/
def Disc.NLP.Feasible [LE K] (nlp : Disc.NLP K) (σ : Env K) : Prop :=
  Holds (nlp.x.map σ) nlp.lbx nlp.ubx ∧ Holds (evalAll nlp.g σ) nlp.lbg nlp.ubg

end MPOpt
