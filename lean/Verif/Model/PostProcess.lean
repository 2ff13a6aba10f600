import Verif.Model.Residual

/-!
# `post_process`: trajectories and interpolation (mpopt.py:1576-1855, 2210-2232)

Plotting is not modelled. Time is a column in `get_original_data` and a flat array in `get_interpolated_data`; both
are a list here. Phase numbers are non-negative.
-/

set_option autoImplicit false

namespace MPOpt
variable {K : Type}

/-- Rows of a matrix. -/
def Mat.toRows (A : Mat K) : List (List K) :=
  (List.range A.rows).map fun i => (List.range A.cols).map (A.e i)

/-- `np.vstack((A, B))`. -/
def Mat.vstack (A B : Mat K) : Py (Mat K) :=
  if A.cols = B.cols then
    .ok ⟨A.rows + B.rows, A.cols, fun i j => if i < A.rows then A.e i j else B.e (i - A.rows) j⟩
  else .error .value

/-- `np.hstack((A, B))` of two-dimensional arrays. -/
def Mat.hstack (A B : Mat K) : Py (Mat K) :=
  if A.rows = B.rows then
    .ok ⟨A.rows, A.cols + B.cols, fun i j => if j < A.cols then A.e i j else B.e i (j - A.cols)⟩
  else .error .value

/-- What `get_data` returns. -/
structure PostData (K : Type) where
  x : Mat K
  u : Mat K
  t : List K
  a : Mat K

section
variable [Field K]

/-- `M / scale` for a matrix with `scale.length` columns: numpy divides every row by `scale`. Other lengths raise
(numpy would still broadcast a single column or a single scale). -/
def Mat.divCols (A : Mat K) (scale : List K) : Py (Mat K) :=
  if A.cols = scale.length then .ok ⟨A.rows, A.cols, fun i j => A.e i j / scale.getD j 0⟩
  else .error .shape

/-- A list as column: `DM.full()` of a column vector. -/
def colMat (l : List K) : Mat K := ⟨l.length, 1, fun i _ => l.getD i 0⟩

/-- Column divided by a flat array: numpy broadcasts `(n, 1) / (m,)` to `(n, m)`. -/
def outerDiv (col scale : List K) : Mat K :=
  ⟨col.length, scale.length, fun i j => col.getD i 0 / scale.getD j 0⟩

/-- One pass of `get_mid_points` (mpopt.py:1728-1733). -/
def getMidPoints (taus : List K) : Py (List K) := do
  let points := List.zipWith (fun a b => [a, (a + b) / 2]) taus.dropLast taus.tail
  let c ← npConcat points
  return c ++ [← pyIdx taus (taus.length - 1)]

/-- The loop of `get_non_uniform_interpolation_grid` (mpopt.py:1735-1740), `__max_count` is 5. -/
def refineLoop (n : Nat) (taus : List K) (count : Nat) : Py (List K) :=
  if taus.length < n then
    match getMidPoints taus with
    | .error e => .error e
    | .ok taus => if count + 1 > 5 then .ok taus else refineLoop n taus (count + 1)
  else .ok taus
termination_by 6 - count

/-- `get_non_uniform_interpolation_grid` (mpopt.py:1716-1742). -/
def nonUniformGrid (taus : List K) (n : Nat) : Py (List K) := refineLoop n taus 0

/-- `get_interpolation_taus` (mpopt.py:1694-1714). -/
def interpolationTaus (tau0 tau1 : K) (n : Nat) (taus : Option (List K)) (method : String) : Py (List K) :=
  match taus with
  | none => .ok (linspace tau0 tau1 n)
  | some t => if method == "uniform" then .ok (linspace tau0 tau1 n) else nonUniformGrid t n

/-- A `post_process` object made by `process_results` (mpopt.py:930-950): solution, widths and problem data, the
`scaling` flag and the default phases. -/
structure Post (K : Type) where
  solved : Solved K
  scaling : Bool
  phases : List Nat

/-- `post_process.__init__` (mpopt.py:1591-1637): default phases are `phases_to_plot[0]`. -/
def mkPost (e : Solved K) (phasesToPlot : List (List Nat)) (scaling : Bool) : Py (Post K) := do
  return ⟨e, scaling, ← pyIdx phasesToPlot 0⟩

namespace Post
variable (p : Post K)

/-- `get_trajectories` (mpopt.py:1639-1667). -/
def getTrajectories (ph : Nat) : Py (PostData K) := do
  let d := p.solved.disc
  let tr ← d.trajectories ph p.solved.z p.solved.widths
  if p.scaling then return ⟨tr.x, tr.u, tr.t, colMat tr.a⟩
  else return ⟨← tr.x.divCols d.ocp.scaleX, ← tr.u.divCols d.ocp.scaleU, tr.t,
    outerDiv tr.a d.ocp.scaleA⟩

/-- `get_original_data` (mpopt.py:1669-1692). -/
def originalData (phases : List Nat) : Py (PostData K) := do
  let phases := if phases.isEmpty then p.phases else phases
  let first ← p.getTrajectories (← pyIdx phases 0)
  phases.tail.foldlM (fun acc ph => do
    let q ← p.getTrajectories ph
    return ⟨← acc.x.vstack q.x, ← acc.u.vstack q.u, acc.t ++ q.t, ← acc.a.vstack q.a⟩) first

variable [LinearOrder K]

/-- Interpolation nodes of `get_interpolated_data` (mpopt.py:1790-1800); `_INTERPOLATION_NODES_PER_SEG` is 50. -/
def interpNodes : Py (List (List K)) := do
  let c := p.solved.disc.colloc
  let taus ← p.solved.disc.orders.mapM fun q => do
    let orig ← c.taus q
    return (← interpolationTaus c.tau0 c.tau1 50 (some orig) "uniform").drop 1
  let first ← pyIdx taus 0
  return taus.set 0 (c.tau0 :: first)

/-- Data of one phase at `taus` (mpopt.py:1806-1814, 1820-1824). -/
def phaseAt (I : Mat K) (taus : List (List K)) (ph : Nat) : Py (PostData K) := do
  let d := p.solved.disc
  let o ← p.originalData [ph]
  let x ← I.mtimes o.x
  let u ← I.mtimes o.u
  let t ← timeGridAt o.t taus d.orders d.colloc.tau0 d.colloc.tau1
  return ⟨x, u, t.flatten, o.a⟩

/-- `get_interpolated_data` (mpopt.py:1773-1831); `taus` is `None` for the default `[]`. The `Collocation` object
created here is the one of the discretisation (same orders, scheme and class settings). -/
def interpolatedData (phases : List Nat) (taus : Option (List (List K))) : Py (PostData K) := do
  let d := p.solved.disc
  let taus ← (match taus with
    | some t => .ok t
    | none => p.interpNodes : Py (List (List K)))
  let I ← compInterpMatrix d.colloc taus d.orders
  let first ← p.phaseAt I taus (← pyIdx phases 0)
  phases.tail.foldlM (fun acc ph => do
    let q ← p.phaseAt I taus ph
    return ⟨← acc.x.vstack q.x, ← acc.u.vstack q.u, acc.t ++ q.t, ← acc.a.hstack q.a⟩) first

/-- `get_data` (mpopt.py:1833-1855). -/
def getData (phases : List Nat) (interpolate : Bool) : Py (PostData K) :=
  let phases := if phases.isEmpty then p.phases else phases
  if interpolate then p.interpolatedData phases none else p.originalData phases

end Post

/-- An entry of an array of times: a number, or in an object array the times of a whole segment. -/
inductive PlotCell (K : Type)
  | num (t : K)
  | arr (l : List K)
  deriving DecidableEq

/-- `np.atleast_2d(np.asanyarray(segs))` for a list of 1-D arrays, by rows: a table when all have the same length,
otherwise (with a warning in numpy 1.22) one row with the arrays as objects. -/
def atleast2d (segs : List (List K)) : List (List (PlotCell K)) :=
  match segs with
  | [] => [[]]
  | s :: l => if l.all fun x => x.length == s.length then segs.map (List.map .num) else [segs.map .arr]

/-- `np.vstack((A, B))` by rows: the numbers of columns must agree. -/
def vstackRows {A : Type} (a b : List (List A)) : Py (List (List A)) :=
  if (a.headD []).length = (b.headD []).length then .ok (a ++ b) else .error .value

/-- `norm_residual` (mpopt.py:2213-2218); `norm` is `np.linalg.norm(·, 2)` of a row. -/
def normResidual (norm : List K → K) (res : List (SegResidual K)) : Py (List K) :=
  npConcat (res.map fun err => match err with
    | some rows => rows.map norm
    | none => [])

/-- `sort_residual_data` (mpopt.py:2210-2230): norms and times, entry by entry. Entry 0 of both lists is used for the
first phase, whatever it is. -/
def sortResidualData (norm : List K → K) (time : List (List (List K))) (residuals : List (List (SegResidual K)))
    (phases : List Nat) : Py (List K × List (PlotCell K)) := do
  let t0 ← pyIdx time 0
  let r0 ← normResidual norm (← pyIdx residuals 0)
  let (r, t) ← (if 1 < phases.length then do
      let rt ← phases.tail.foldlM (fun rt ph => do
        let tp ← pyIdx time ph
        let rp ← normResidual norm (← pyIdx residuals ph)
        return (← vstackRows rt.1 [rp], ← vstackRows rt.2 (atleast2d tp))) ([r0], atleast2d t0)
      return (rt.1.flatten, rt.2.flatten)
    else do return (r0, (← npConcat t0).map .num) : Py (List K × List (PlotCell K)))
  if r.length = t.length then return (r, t) else .error .value

end

/-- `get_dynamics_residuals(…, plot=True)` (mpopt.py:1421-1424): the data handed to the plot, for all phases. -/
def Solved.residualPlot [Field K] [LinearOrder K] (e : Solved K) (norm : List K → K) (nodes : Option (List (List (List K))))
    (gt : Option String) (rel : Bool) : Py (List K × List (PlotCell K)) := do
  let res ← e.dynResiduals nodes gt rel
  sortResidualData norm (res.map (·.1)) (res.map (·.2)) (List.range e.disc.ocp.nPhases)

end MPOpt
