import Verif.Model.Helpers

/-!
# Plots of `post_process` (mpopt.py:1857-2208, 2232-2270, 953-956)

A figure is the list of curves on each of its axes, with labels. Colours, positions of the subplots, grid lines and
what matplotlib does with a curve are left out. Handles are passed as values: `fig` and `axs` are given together or not
at all. Line styles, labels and legends are strings. A time is a number; `x` in `plot_curve` is the `y` data of the plot.
-/

set_option autoImplicit false

namespace MPOpt
variable {K : Type}

/-- One line made by `ax.plot(t, y, tic, label=label)`. -/
structure Curve (K : Type) where
  t : List K
  y : List K
  tic : String
  label : Option String
  deriving DecidableEq

/-- One set of axes. -/
structure Axes (K : Type) where
  curves : List (Curve K)
  xlabel : Option String
  ylabel : Option String
  legend : Bool
  deriving DecidableEq

/-- Axes nothing was drawn on. -/
def Axes.empty : Axes K := ⟨[], none, none, false⟩

/-- The `axs` argument: a single axes object, or an array or list of them. -/
inductive Panel (K : Type)
  | one (a : Axes K)
  | many (l : List (Axes K))
  deriving DecidableEq

/-- `axs[i]`; axes objects cannot be indexed. -/
def Panel.at (p : Panel K) (i : Nat) : Py (Axes K) :=
  match p with
  | .one _ => .error .type
  | .many l => pyIdx l i

/-- `ax.plot(t, y, …)`: first dimensions must agree. -/
def Axes.plot (ax : Axes K) (t y : List K) (tic : String) (label : Option String) : Py (Axes K) :=
  if t.length = y.length then .ok { ax with curves := ax.curves ++ [⟨t, y, tic, label⟩] } else .error .value

/-- Column `j`. -/
def Mat.column (A : Mat K) (j : Nat) : List K := (List.range A.rows).map fun i => A.e i j

/-- `state_index` (mpopt.py:2163). -/
def curveIndex (legendIndex : Option (List String)) (i : Nat) : Py String :=
  match legendIndex with
  | none => .ok (toString (i + 1))
  | some l => pyIdx l i

/-- `plot_curve` (mpopt.py:2152-2172). -/
def plotCurve (ax : Axes K) (x : Mat K) (t : List K) (name ylabel : Option String) (tics : List String)
    (legendIndex : Option (List String)) : Py (Axes K) := do
  let ax ← (List.range x.cols).foldlM (fun ax i => do
    let stateIndex ← curveIndex legendIndex i
    let label := name.map fun n => n ++ " " ++ stateIndex
    ax.plot t (x.column i) (← pyIdx tics i) label) ax
  return { ax with ylabel := ylabel, legend := ax.legend || name.isSome }

/-- `["-"] * n`, `["."] * n`. -/
def strokes (n : Nat) : List String := List.replicate n "-"
def dots (n : Nat) : List String := List.replicate n "."

/-- `plot_all` (mpopt.py:2174-2208); `tics=None` stands for `__TICS`, 20 strokes. -/
def plotAll (x u : Mat K) (t : List K) (tics : Option (List String)) (legend : Bool) (name : String)
    (axs : Option (Panel K)) : Py (Panel K) := do
  let tics := tics.getD (strokes 20)
  let axs := axs.getD (.many [.empty, .empty])
  let nameX := if legend then some (name ++ "state") else none
  let nameU := if legend then some (name ++ "control") else none
  let a0 ← plotCurve (← axs.at 0) x t nameX (some "State variables") tics none
  let a1 ← plotCurve (← axs.at 1) u t nameU (some "Control variables") tics none
  match axs with
  | .one _ => .error .type
  | .many l => return .many ((l.set 0 a0).set 1 { a1 with xlabel := some "Time, s" })

/-- `isinstance(dims[0], list)`: a list of components, or one list of components per subplot. Negative components are
left out. -/
inductive DimsArg
  | flat (l : List Nat)
  | nested (l : List (List Nat))

/-- `var_data[:, dim]` for a list of columns. -/
def Mat.pick (A : Mat K) (dims : List Nat) : Py (Mat K) :=
  if dims.all fun d => decide (d < A.cols) then
    .ok ⟨A.rows, dims.length, fun i j => A.e i (dims.getD j 0)⟩
  else .error .index

/-- `str` of a list of integers. -/
def pyListStr (l : List Nat) : String := "[" ++ ", ".intercalate (l.map toString) ++ "]"

/-- `plot_curve` on `var_data[:, [group]]`, an array with three indices: one call of `ax.plot` draws all columns in one
style, and the label shows the whole group. -/
def plotGroup (ax : Axes K) (x : Mat K) (group : List Nat) (t : List K) (name ylabel : Option String)
    (tics : List String) : Py (Axes K) := do
  let tic ← pyIdx tics 0
  let ax ← (List.range x.cols).foldlM (fun ax i =>
    ax.plot t (x.column i) tic (name.map fun n => n ++ " " ++ pyListStr group)) ax
  return { ax with ylabel := ylabel, legend := ax.legend || name.isSome }

/-- `plot_single_variable` (mpopt.py:2093-2150). -/
def plotSingle (data : Mat K) (t : List K) (dims : DimsArg) (name ylabel : Option String) (vertical : Bool)
    (axs : Option (Panel K)) (tics : Option (List String)) : Py (Panel K) := do
  let tics := tics.getD (strokes 20)
  let time (on : Bool) (a : Axes K) : Axes K := if on then { a with xlabel := some "Time, s" } else a
  match dims with
  | .flat [] | .nested [] => .error .index
  | .flat (d :: l) =>
    let x ← data.pick (d :: l)
    match axs.getD (.one .empty) with
    | .many _ => .error .attribute
    | .one ax =>
      let a ← plotCurve ax x t name ylabel tics (some ((d :: l).map toString))
      return .one (time true a)
  | .nested [g] =>
    let x ← data.pick g
    match axs.getD (.one .empty) with
    | .many _ => .error .attribute
    | .one ax => return .one (time true (← plotGroup ax x g t name ylabel tics))
  | .nested gs =>
    let axs := axs.getD (.many (List.replicate gs.length .empty))
    let drawn ← (List.range gs.length).mapM fun i => do
      let ax ← axs.at i
      let g ← pyIdx gs i
      let a ← plotCurve ax (← data.pick g) t name ylabel tics (some (g.map toString))
      return time (!vertical || i + 1 == gs.length) a
    match axs with
    | .one _ => .error .type
    | .many l => return .many (drawn ++ l.drop gs.length)

/-- `if not dims: dims = range(n)`. -/
def defaultDims (dims : Option DimsArg) (n : Nat) : DimsArg :=
  match dims with
  | some (.flat (d :: l)) => .flat (d :: l)
  | some (.nested (g :: l)) => .nested (g :: l)
  | _ => .flat (List.range n)

/-- `np.array` of a list of 1-D arrays: the common length, or `none` for an object array. -/
def commonLength (segs : List (List K)) : Option Nat :=
  match segs with
  | [] => none
  | s :: l => if l.all fun x => x.length == s.length then some s.length else none

/-- `np.hstack(np.concatenate(times))` (mpopt.py:1928, 1945, 1963, 1977): phases of segments of times. All phases give
tables with the same number of columns, or all give object arrays. -/
def stackTimes (time : List (List (List K))) : Py (List K) :=
  match time with
  | [] => .error .value
  | p :: l => if l.all fun q => commonLength q == commonLength p then .ok time.flatten.flatten else .error .value

/-- Times of the state residuals, where a segment without points has `None`: `hstack` makes that one entry, for which
there is no residual, so that the plot raises. -/
def stateTimes (time : List (List (Option (List K)))) : Py (List K) := do
  if time.any fun p => p.any Option.isNone then Except.error PyErr.value
  stackTimes (time.map fun p => p.map fun s => s.getD [])

section
variable [Zero K]

/-- `np.concatenate` of tables with the same number of columns. -/
def concatRows (segs : List (List (List K))) : Py (Mat K) := do
  let rows ← npConcat segs
  let n := (rows.headD []).length
  if rows.all fun r => r.length == n then
    return ⟨rows.length, n, fun i j => (rows.getD i []).getD j 0⟩
  else Except.error PyErr.value

/-- The `y` data of a residual plot (mpopt.py:1921-1929, 1937-1946, 1956-1964): rows of all segments that have one. -/
def residRows (res : List (List (SegResidual K))) : Py (Mat K) :=
  concatRows (res.flatMap fun p => p.filterMap id)

/-- The same, concatenated phase by phase first (mpopt.py:1970-1978). -/
def residRowsByPhase (res : List (List (SegResidual K))) : Py (Mat K) := do
  concatRows (← res.mapM fun p => npConcat (p.filterMap id))

end

section
variable [Field K] [LinearOrder K]

/-- The axes with the residuals in `plot_phases` (mpopt.py:1919-1983). -/
def residualAxes (r : PyDict (ResidVal K)) (tics : List String) : Py (List (Axes K)) := do
  match r.get? "t_x", r.get? "t_dx" with
  | some (.states rx), some (.dynamics rdx) =>
    let t ← stateTimes (rx.map fun p => p.map (·.t))
    let a2 ← plotCurve .empty (← residRows (rx.map fun p => p.map (·.res))) t (some "x") (some "States error") tics none
    let t ← stackTimes (rdx.map (·.1))
    let a3 ← plotCurve .empty (← residRows (rdx.map (·.2))) t (some "dx") (some "Dynamics error") tics none
    return [a2, a3]
  | some (.states rx), none =>
    let t ← stateTimes (rx.map fun p => p.map (·.t))
    let a2 ← plotCurve .empty (← residRows (rx.map fun p => p.map (·.res))) t (some "x") (some "States error") tics none
    return [{ a2 with xlabel := some "Time, s" }]
  | none, some (.dynamics rdx) =>
    let y ← residRowsByPhase (rdx.map (·.2))
    let t ← stackTimes (rdx.map (·.1))
    let a2 ← plotCurve .empty y t (some "dx") (some "Dynamics error") tics none
    return [{ a2 with xlabel := some "Time, s" }]
  | _, _ => Except.error PyErr.index

namespace Post
variable (p : Post K)

/-- `plot_phases` (mpopt.py:1874-1985); `r` are the residuals stored in the object. The result is `axs`. -/
def plotPhases (r : Option (PyDict (ResidVal K))) (phases : Option (List Nat)) (interpolate residuals : Bool)
    (axs : Option (Panel K)) (tics : List String) (name : String) : Py (Panel K) := do
  let phases := phases.getD p.phases
  let r := if residuals then r else none
  let axs := if r.isSome then some (Panel.many [.empty, .empty]) else axs
  let (axs, tics) ← (if interpolate then do
      let D ← p.getData phases true
      return (some (← plotAll D.x D.u D.t (some tics) false "" axs), dots 15)
    else return (axs, tics) : Py (Option (Panel K) × List String))
  let D ← p.getData phases false
  let axs ← plotAll D.x D.u D.t (some tics) true name axs
  match r, axs with
  | none, _ => return axs
  | some r, .many l => return .many (l ++ (← residualAxes r tics))
  | some _, .one _ => Except.error PyErr.type

/-- `plot_phase` (mpopt.py:1857-1872): nothing is returned. -/
def plotPhase (r : Option (PyDict (ResidVal K))) (phase : Nat) (interpolate : Bool) (axs : Option (Panel K)) :
    Py (Option (Panel K)) := do
  let _ ← p.plotPhases r (some [phase]) interpolate true axs (strokes 15) ""
  return none

/-- `plot_x` (mpopt.py:1987-2029). -/
def plotX (dims : Option DimsArg) (phases : List Nat) (vertical interpolate : Bool) (axs : Option (Panel K))
    (tics : Option (List String)) : Py (Panel K) := do
  let phases := if phases.isEmpty then p.phases else phases
  let D ← p.getData phases interpolate
  plotSingle D.x D.t (defaultDims dims p.solved.disc.ocp.nx) (some "state") (some "State variables") vertical axs tics

/-- `plot_u` (mpopt.py:2031-2091). -/
def plotU (dims : Option DimsArg) (phases : List Nat) (vertical interpolate : Bool) (axs : Option (Panel K))
    (tics : Option (List String)) (name ylabel : Option String) : Py (Panel K) := do
  let phases := if phases.isEmpty then p.phases else phases
  let dims := defaultDims dims p.solved.disc.ocp.nu
  let tics := tics.getD (dots 15)
  let axs ← (if interpolate then do
      let D ← p.getData phases false
      return some (← plotSingle D.u D.t dims name none vertical axs (some tics))
    else return axs : Py (Option (Panel K)))
  let D ← p.getData phases interpolate
  plotSingle D.u D.t dims none ylabel vertical axs (some (strokes 15))

end Post

/-- Times in an object array cannot be drawn. -/
def PlotCell.time (c : PlotCell K) : Py K :=
  match c with
  | .num t => .ok t
  | .arr _ => .error .value

/-- `plot_residuals` (mpopt.py:2232-2270). -/
def plotResiduals (norm : List K → K) (time : List (List (List K))) (residuals : List (List (SegResidual K)))
    (phases : List Nat) (name : Option String) (ax : Option (Axes K)) (tics : Option (List String)) : Py (Axes K) := do
  let tics := tics.getD (strokes 20)
  let (r, t) ← sortResidualData norm time residuals phases
  let t ← t.mapM PlotCell.time
  let blank := List.replicate 15 ""
  let a ← plotCurve (ax.getD .empty) (colMat r) t name (some "residuals") tics (some blank)
  let a ← plotCurve a (colMat r) t none (some "residuals") (strokes 15) (some blank)
  return { a with xlabel := some "Time, s" }

/-- The figures of `process_results(plot=True)` (mpopt.py:953-956), one for every entry of `phases_to_plot`. -/
def Post.figures (p : Post K) (r : Option (PyDict (ResidVal K))) (phasesToPlot : List (List Nat))
    (residualX residualDx : Bool) : Py (List (Panel K)) :=
  phasesToPlot.mapM fun phases =>
    p.plotPhases r (some phases) true (residualX || residualDx) none (strokes 15) ""

/-- `solve(…, plot=True)` (mpopt.py:4279-4309) with the figures it draws. -/
def mpSolvePlot {V : Type} (w : Outside K V) (nlpsol : SolverCall K V → Py (List K)) (ocp : OCP K)
    (phasesToPlot : List (List Nat)) (nSegments : Nat) (orders : OrdersArg) (scheme : String)
    (a : SolveArgs K V) (residualX residualDx : Bool) :
    Py ((Session K V × Post K × Option (PyDict (ResidVal K))) × List (Panel K)) := do
  let out ← mpSolve w nlpsol ocp phasesToPlot nSegments orders scheme a residualX residualDx
  let figs ← out.2.1.figures out.2.2 phasesToPlot residualX residualDx
  return (out, figs)

end
end MPOpt
