import Verif.Model.Plot

/-!
# `get_states_residuals(…, plot=True)` (mpopt.py:1145-1148)

`plot_residuals` and `sort_residual_data` with the data of the state residual. Other than those of the dynamics residual they contain
`None`: for phases not asked for, and instead of the times of segments without points.
-/

set_option autoImplicit false

namespace MPOpt
variable {K : Type}

/-- Iterating over `None` raises `TypeError`. -/
def notNone {A : Type} (o : Option A) : Py A :=
  match o with
  | some a => .ok a
  | none => .error .type

/-- `np.atleast_2d` of the times of a phase: with a `None` among them one row of objects. `None` is written as `.arr []`, which cannot
be drawn. matplotlib would draw a `None` as a gap, but in a row of as many objects as points another segment has two or more points,
and these cannot be drawn. -/
def atleast2dTimes (segs : List (Option (List K))) : List (List (PlotCell K)) :=
  if segs.all Option.isSome then atleast2d (segs.map (·.getD [])) else [segs.map fun s => .arr (s.getD [])]

/-- `np.concatenate` of the times of a phase: `None` is no array, `ValueError`. -/
def concatTimes (segs : List (Option (List K))) : Py (List K) :=
  if segs.all Option.isSome then npConcat (segs.map (·.getD [])) else .error .value

/-- `time[phase]` where a list is needed. Without a list `np.vstack`/`np.concatenate` would raise, but then the residuals of the phase
are `None` too and raise first. -/
def phaseTimes (time : List (Option (List (Option (List K))))) (ph : Nat) : Py (List (Option (List K))) := do
  notNone (← pyIdx time ph)

/-- `sort_residual_data` (mpopt.py:2210-2230) for state residuals. -/
def sortStateData (norm : List K → K) (time : List (Option (List (Option (List K)))))
    (residuals : List (Option (List (SegResidual K)))) (phases : List Nat) : Py (List K × List (PlotCell K)) := do
  let _ ← pyIdx time 0
  let r0 ← normResidual norm (← notNone (← pyIdx residuals 0))
  let t0 ← phaseTimes time 0
  let (r, t) ← (if 1 < phases.length then do
      let rt ← phases.tail.foldlM (fun rt ph => do
        let _ ← pyIdx time ph
        let rp ← normResidual norm (← notNone (← pyIdx residuals ph))
        let tp ← phaseTimes time ph
        return (← vstackRows rt.1 [rp], ← vstackRows rt.2 (atleast2dTimes tp))) ([r0], atleast2dTimes t0)
      return (rt.1.flatten, rt.2.flatten)
    else do return (r0, (← concatTimes t0).map .num) : Py (List K × List (PlotCell K)))
  if r.length = t.length then return (r, t) else .error .value

variable [Field K] [LinearOrder K]

/-- The axes of `plot_residuals` (mpopt.py:2232-2270) for state residuals, with `phases=range(n_phases)` and the defaults. -/
def plotStateData (norm : List K → K) (time : List (Option (List (Option (List K)))))
    (residuals : List (Option (List (SegResidual K)))) (n : Nat) (ax : Option (Axes K)) : Py (Axes K) := do
  let (r, t) ← sortStateData norm time residuals (List.range n)
  let t ← t.mapM PlotCell.time
  let blank := List.replicate 15 ""
  let a ← plotCurve (ax.getD .empty) (colMat r) t none (some "residuals") (dots 15) (some blank)
  let a ← plotCurve a (colMat r) t none (some "residuals") (strokes 15) (some blank)
  return { a with xlabel := some "Time, s" }

/-- `get_states_residuals(phases, nodes, residual_type, plot=True)` (mpopt.py:1078-1150): the results and the axes. -/
def Solved.statePlot (e : Solved K) (norm : List K → K) (phases : Option (List Nat)) (nodes : Option (List (List (List K))))
    (rel : Bool) (ax : Option (Axes K)) :
    Py (List (Option (List (Solved.StateRes K) × List (SegResidual K))) × Axes K) := do
  let out ← e.stateResidualsOf phases nodes rel
  let axs ← plotStateData norm (out.map (Option.map fun p => p.1.map (·.t))) (out.map (Option.map fun p => p.1.map (·.res)))
    e.disc.ocp.nPhases ax
  return (out, axs)

end MPOpt
