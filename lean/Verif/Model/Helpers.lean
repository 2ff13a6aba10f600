import Verif.Model.PostProcess

/-!
# `process_results` and the module-level `solve` (mpopt.py:884-987, 4279-4309)

Plots, timing and messages are left out. The call of the solver object is a parameter: a function from what is
handed to it to the vector `solution["x"]`.
-/

set_option autoImplicit false

namespace MPOpt
variable {K V : Type} [Field K] [LinearOrder K]

/-- A value of the dictionary `resid_value` (mpopt.py:913-924). -/
inductive ResidVal (K : Type)
  | states (r : List (List (Solved.StateRes K)))
  | dynamics (r : List (List (List K) × List (SegResidual K)))

/-- The solved problem the methods of an optimiser look at. `grid_type` is `["fixed"]` for every phase and
`_MAX_GRID_POINTS` is 15 (mpopt.py:52-53, 80). The collocation object is rebuilt from the attributes; in the code it
is the one stored by `create_nlp`, which is the same as long as the attributes were not changed. -/
def Session.solved (w : Outside K V) (s : Session K V) (z : List K) : Py (Solved K) := do
  let ocp ← s.ocp?
  let d ← mkDisc w.lib w.method w.tau0 w.tau1 ocp s.opt.orders.length s.opt.orders s.opt.scheme
  match s.opt.widths with
  | some h =>
    return ⟨{ d with nSegments := s.opt.nSegments }, h, List.replicate ocp.nPhases "fixed", 15, z⟩
  | none => Except.error PyErr.attribute

/-- `process_results` (mpopt.py:884-987); `phasesToPlot` is `self._ocp.phases_to_plot`. -/
def Session.processResults (w : Outside K V) (s : Session K V) (z : List K) (phasesToPlot : List (List Nat))
    (scaling residualX residualDx : Bool) : Py (Post K × Option (PyDict (ResidVal K))) := do
  let e ← s.solved w z
  let r ← residValue residualX residualDx (e.stateResiduals none false) (e.dynResiduals none none false)
    ResidVal.states ResidVal.dynamics
  let p ← mkPost e phasesToPlot scaling
  return (p, r)

/-- Module-level `solve` (mpopt.py:4279-4309): optimiser, post-processor and the residuals stored in it. -/
def mpSolve (w : Outside K V) (nlpsol : SolverCall K V → Py (List K)) (ocp : OCP K)
    (phasesToPlot : List (List Nat)) (nSegments : Nat) (orders : OrdersArg) (scheme : String)
    (a : SolveArgs K V) (residualX residualDx : Bool) :
    Py (Session K V × Post K × Option (PyDict (ResidVal K))) := do
  let s ← newSession ocp nSegments orders scheme
  let sr := s.solve w a
  let c ← sr.2
  let z ← nlpsol c
  let pr ← sr.1.processResults w z phasesToPlot false residualX residualDx
  return (sr.1, pr.1, pr.2)

end MPOpt
