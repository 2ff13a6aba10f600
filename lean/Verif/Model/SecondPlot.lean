import Verif.Model.Plot

/-!
# Relative second derivatives and two more plots (mpopt.py:1277-1281, 1351-1353, 1535-1542)

`get_state_second_derivative_single_phase` makes tables of columns, of shape `(n, nx, 1)`, and columns of times, of shape `(n, 1)`.
Other than in the plots of residuals, `norm_residual` then makes columns.
-/

set_option autoImplicit false

namespace MPOpt
variable {K : Type}

/-- Second derivatives of a segment: times, those of the states, those of the controls. -/
abbrev SecondSeg (K : Type) := Option (List K × List (List K) × List (List K))

/-- Data of a segment with points (mpopt.py:2214). -/
def secondData : SecondSeg K → Py (List K × List (List K) × List (List K))
  | some v => .ok v
  | none => .error .value

/-- Data of `sort_residual_data` (mpopt.py:2210-2230) for second derivatives of all phases. A segment without points contributes `[]`,
which cannot be concatenated with columns; if no segment of a phase has points, the times (`None`) cannot. With more than one phase
the times are stacked: unless all segments have equally many points, one of the tables of times is ragged or the tables differ in
shape, and stacking them, or reshaping the norms by the number of objects, raises. -/
def sortColumns (norm : List K → K) (data : List (List (SecondSeg K))) : Py (List K × List K) := do
  let _ ← pyIdx data 0
  let phases ← data.mapM fun p => do
    let segs ← p.mapM secondData
    let r ← npConcat (segs.map fun v => v.2.1.map norm)
    return (r, segs.map (·.1))
  let n := ((phases.headD ([], [])).2.headD []).length
  if 1 < phases.length ∧ ¬ (phases.all fun p => p.2.all fun t => t.length == n) = true then Except.error PyErr.value
  return (phases.flatMap (·.1), phases.flatMap (·.2.flatten))

variable [Field K] [LinearOrder K]

/-- `x / x.max()` (mpopt.py:1352-1353), over all rows and components. `max` of an empty array raises; a zero makes numpy continue
with `nan` or `inf`. -/
def divMax (rows : List (List K)) : Py (List (List K)) :=
  match rows.flatten with
  | [] => .error .value
  | v :: l =>
    let m := l.foldl max v
    if m = 0 then .error .nonFinite else .ok (rows.map (List.map (· / m)))

namespace Solved
variable (e : Solved K)

/-- `get_state_second_derivative_single_phase(…, residual_type="relative")` (mpopt.py:1285-1358). -/
def secondRelative (ph : Nat) (nodes : Option (List (List K))) : Py (List (SecondSeg K)) := do
  let segs ← e.secondPhase ph nodes
  segs.mapM fun s => match s with
    | none => .ok none
    | some (t, x, u) => do
      let x ← divMax x
      let u ← divMax u
      return some (t, x, u)

/-- `get_state_second_derivative(…, plot=True)` (mpopt.py:1238-1283): results and axes. -/
def secondPlot (norm : List K → K) (nodes : Option (List (List (List K)))) (gt : Option String) (ax : Option (Axes K)) :
    Py (List (List (SecondSeg K)) × Axes K) := do
  let out ← e.secondDerivative nodes gt
  let (r, t) ← sortColumns norm out
  let blank := List.replicate 15 ""
  let a ← plotCurve (ax.getD .empty) (colMat r) t none (some "residuals") (dots 15) (some blank)
  let a ← plotCurve a (colMat r) t none (some "residuals") (strokes 15) (some blank)
  return (out, { a with xlabel := some "Time, s" })

/-- `interpolate_single_phase(…, options={"plot": …})` (mpopt.py:1489-1544): results and figure. -/
def interpolatePlot (ph : Nat) (nodes : Option (List (List K))) : Py (Interp K × Panel K) := do
  let tr ← e.disc.trajectories ph e.z e.widths
  let r ← e.interpolate ph nodes
  let axs ← plotAll tr.x tr.u tr.t (some (dots 15)) true "" none
  let axs ← plotAll r.x r.u r.t none false "" (some axs)
  return (r, axs)

end Solved
end MPOpt
