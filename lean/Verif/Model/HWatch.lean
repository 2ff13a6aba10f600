import Verif.Model.HSession
import Verif.Model.Plot

/-!
# `plot_residual_evolution` of `mpopt_h_adaptive` (mpopt.py:2328-2329, 2540-2559, 2719-2741)

When the attribute is set, every computation of widths first draws the residuals of the solution, all into one figure. The
figure (`self.axs`) is computed from the course of the loop afterwards; whether drawing raises does not depend on what was
drawn before. What was drawn before an exception is kept up to the last complete drawing.
-/

set_option autoImplicit false

namespace MPOpt
variable {K V : Type} [Field K] [LinearOrder K]

/-- `post_process.plot_residuals(…, phases=self._ocp.phases_to_plot)`: entries of `phases_to_plot` are tuples of phase numbers. The
first is not looked at (mpopt.py:2219-2222); using the second as an index of a list raises `TypeError`. -/
def plotResidualGroups (norm : List K → K) (time : List (List (List K))) (residuals : List (List (SegResidual K)))
    (groups : List (List Nat)) (name : Option String) (ax : Option (Axes K)) (tics : List String) : Py (Axes K) := do
  if 1 < groups.length then
    let _ ← pyIdx time 0
    let _ ← normResidual norm (← pyIdx residuals 0)
    Except.error PyErr.type
  else plotResiduals norm time residuals [0] name ax (some tics)

/-- `[".", "*", "+", "d", "^"] * 15` (mpopt.py:2721). -/
def watchTics : List String := (List.replicate 15 [".", "*", "+", "d", "^"]).flatten

/-- One drawing (mpopt.py:2540-2559, 2720-2741); `count` is `self.iter_count`. -/
def drawEvolution (norm : List K → K) (groups : List (List Nat)) (slopes : Bool) (count : Nat) (time : List (List (List K)))
    (residuals : List (List (SegResidual K))) (ax : Option (Axes K)) : Py (Axes K) := do
  let tics ← (if slopes then do return List.replicate 15 (← pyIdx watchTics count) else .ok (strokes 15) : Py (List String))
  let a ← plotResidualGroups norm time residuals groups (some ("Iter " ++ toString count)) ax tics
  plotResidualGroups norm time residuals groups none (some a) (strokes 15)

/-- Whether the method looks at residuals: `none` if not, otherwise whether it is the one with control slopes. -/
def watchMethod (method : PyDict String) : Option Bool :=
  match method.get? "method" with
  | some "control_slope" => some true
  | some "residual" => some false
  | _ => none

/-- The drawing made when widths are computed for a solution after `n` solver calls. `self.iter_count` is increased after the
computation (mpopt.py:2444-2448), so it is `n - 1`, and 0 for an initial solution. -/
def HOpt.drawAt (w : HOutside K V) (s : HOpt K V) (groups : List (List Nat)) (slopes : Bool) (n : Nat) (sol : PyDict V)
    (sw : List K) (ax : Option (Axes K)) : Py (Axes K) := do
  let e ← s.solvedAt w sol sw
  let res ← e.dynResiduals none none false
  drawEvolution w.norm groups slopes (n - 1) (res.map (·.1)) (res.map (·.2)) ax

/-- What the loop depends on, with drawings. -/
def HOpt.watchEnv [FloorRing K] (w : HOutside K V) (nlpsol : Nat → SolverCall K V → Py (PyDict V)) (s : HOpt K V)
    (groups : List (List Nat)) (method : PyDict String) : Py (HEnv K (PyDict V) (List K)) := do
  let E ← s.env w nlpsol method
  return { E with refine := fun n sol sw => do
    match watchMethod method with
    | some slopes => let _ ← s.drawAt w groups slopes n sol sw none
    | none => pure ()
    E.refine n sol sw }

/-- Computations of widths in a run of the loop: number of solver calls before, solution, widths (mpopt.py:2379, 2444). -/
def evolutionDraws {Sol W : Type} (nSegments : Nat) (dflt : W) (initial : Option Sol) (sw : Option W) (calls : List (HCall Sol W)) :
    List (Nat × Sol × W) :=
  if nSegments = 1 then []
  else (match initial with
    | some sol => [(0, sol, sw.getD dflt)]
    | none => []) ++ calls.zipIdx.map fun c => (c.2 + 1, c.1.result, c.1.p)

/-- `self.axs` after these computations. -/
def HOpt.evolution (w : HOutside K V) (s : HOpt K V) (groups : List (List Nat)) (method : PyDict String)
    (draws : List (Nat × PyDict V × List K)) (ax : Option (Axes K)) : Option (Axes K) :=
  match watchMethod method with
  | none => ax
  | some slopes => draws.foldl (fun ax d => match s.drawAt w groups slopes d.1 d.2.1 d.2.2 ax with
      | .ok a => some a
      | .error _ => ax) ax

/-- `solve` (mpopt.py:2331-2470) with `plot_residual_evolution = True`; `ax` is the attribute `axs`. -/
def HOpt.solveWatched [FloorRing K] (w : HOutside K V) (nlpsol : Nat → SolverCall K V → Py (PyDict V)) (s : HOpt K V)
    (groups : List (List Nat)) (ax : Option (Axes K)) (a : HArgs V) : HOpt K V × Option (Axes K) × Py (PyDict V) :=
  let (s, r) := if s.initialized = false ∨ a.reinitialize = true
    then s.createSolver w a.plugin (hSolverDict w.zero a.options) else (s, .ok ())
  match r with
  | .error e => (s, ax, .error e)
  | .ok _ =>
    match s.watchEnv w nlpsol groups (hMethodDict a.method) with
    | .error e => ({ s with iterCount := 0, iterInfo := [] }, ax, .error e)
    | .ok E =>
      let (st, r) := E.solve a.initial s.widths a.maxIter
      ({ s with widths := st.sw, iterCount := st.count, iterInfo := st.info },
        s.evolution w groups (hMethodDict a.method) (evolutionDraws E.nSegments E.dflt a.initial s.widths st.calls) ax, r)

end MPOpt
