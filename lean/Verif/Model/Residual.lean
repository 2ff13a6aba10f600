import Verif.Model.Transcription
import Verif.Model.Widths
import Verif.Model.Solver

/-!
# `mpopt`: residuals of a solution (mpopt.py:857-1575)

`solution["x"]` is a list of numbers. numpy is version 1.22 (pinned in setup.py:27), where an array of rows of
different lengths is an object array, i.e. a list of rows; later versions raise on it.
-/

set_option autoImplicit false

namespace MPOpt
variable {K : Type}

/-- Bind symbols to values by position: what a CasADi `Function` does with its inputs. -/
def bindSyms [Zero K] (syms : List Sym) (vals : List K) : Env K := fun s => vals.getD (syms.idxOf s) 0

/-- Output of a trajectory function (mpopt.py:869-880): scaled `x`, `u`, `a`; unscaled `t`, `t0`, `tf`. -/
structure PhaseTraj (K : Type) where
  x : Mat K
  u : Mat K
  t : List K
  t0 : K
  tf : K
  a : List K

section
variable [Field K]

/-- `self.Z` (mpopt.py:632): the variables of all phases. -/
def Disc.allVars (d : Disc K) : List Sym := (List.range d.ocp.nPhases).flatMap d.phaseVars

/-- `init_trajectories(phase)` called with solution vector and segment widths (mpopt.py:857-882). Inputs of
the wrong length are an error (CasADi's broadcasting of scalars is not modelled). -/
def Disc.trajectories (d : Disc K) (ph : Nat) (z h : List K) : Py (PhaseTraj K) := do
  if d.ocp.nPhases ≤ ph then Except.error PyErr.index
  let grid ← d.nodeGrid ph
  if z.length ≠ d.allVars.length ∨ h.length ≠ d.widthParams.length then Except.error PyErr.shape
  let σ := bindSyms (d.allVars ++ d.widthParams) (z ++ h)
  return {
    x := ⟨d.N, d.ocp.nx, fun i j => σ (.X ph i j)⟩
    u := ⟨d.N, d.ocp.nu, fun i j => σ (.U ph i j)⟩
    t := grid.map fun th => th.1 σ
    t0 := d.t0u ph σ
    tf := d.tfu ph σ
    a := (List.range d.ocp.na).map fun k => σ (.A k ph) }

/-- Row of a matrix. -/
def Mat.row (M : Mat K) (i : Nat) : List K := (List.range M.cols).map (M.e i)

/-- `row / scale`; other lengths than the row's raise. Division by a zero scale (`inf`, `nan` in numpy) is
excluded by the theorems. -/
def divRow (row scale : List K) : Py (List K) :=
  if row.length = scale.length then .ok (List.zipWith (· / ·) row scale) else .error .shape

/-- `get_interpolated_time_grid` (mpopt.py:1546-1573, 1744-1771), one list per segment. -/
def timeGridAt [DecidableEq K] (t : List K) (taus : List (List K)) (orders : List Nat) (tau0 tau1 : K) :
    Py (List (List K)) := do
  let first ← pyIdx t 0
  let ends ← (List.range orders.length).mapM fun i => pyIdx t (orders.take (i + 1)).sum
  let tSeg := first :: ends
  (List.range orders.length).mapM fun i => do
    let a ← pyIdx tSeg i
    let b ← pyIdx tSeg (i + 1)
    if tau1 = tau0 then Except.error PyErr.zeroDivision
    let tau ← pyIdx taus i
    return tau.map fun x => a + (b - a) * (0 + (1 - 0) / (tau1 - tau0) * (x - tau0))

variable [LinearOrder K]

/-- `compute_interpolation_taus_corresponding_to_original_grid` (mpopt.py:1205-1236). -/
def interpTaus (nodes widths : List K) (tau0 tau1 : K) : Py (List (List K)) := do
  let cum := (List.range (widths.length + 1)).map fun i => (widths.take i).sum
  pyAssert (decide (|cum.getD widths.length 0 - 1| < 1 / 1000000))
  if tau1 = tau0 then Except.error PyErr.zeroDivision
  let scaled := nodes.map fun n => 0 + (1 - 0) / (tau1 - tau0) * (n - tau0)
  return (List.range widths.length).map fun i =>
    ((((scaled.filter fun x => decide (cum.getD i 0 < x)).filter
      fun x => decide (x ≤ cum.getD (i + 1) 0)).map
      fun x => (x - cum.getD i 0) / widths.getD i 0)).map
      fun x => tau0 + (tau1 - tau0) / (1 - 0) * (x - 0)

/-- What the residual functions read: the discretised problem, `_nlp_sw_params`, `grid_type`,
`_MAX_GRID_POINTS`, and `solution["x"]`. -/
structure Solved (K : Type) where
  disc : Disc K
  widths : List K
  gridType : List String
  maxGrid : Nat
  z : List K

namespace Solved
variable (e : Solved K)

/-- `self._nlp_sw_params[n * phase : n * (phase + 1)]`. -/
def phaseWidths (ph : Nat) : List K := phaseSlice e.disc.nSegments ph e.widths

/-- `get_residual_grid_taus` (mpopt.py:1152-1203). `x[:-1]` drops the last entry. -/
def residualGrid (ph : Nat) (gt : Option String) : Py (Option (List (List K))) := do
  let gt ← (match gt with
    | some g => .ok g
    | none => pyIdx e.gridType ph : Py String)
  let d := e.disc
  if gt == "fixed" then
    let n := max (d.orders.sum + 2) (e.maxGrid + 2)
    let taus ← interpTaus (linspace d.colloc.tau0 d.colloc.tau1 n) (e.phaseWidths ph)
      d.colloc.tau0 d.colloc.tau1
    let first ← pyIdx taus 0
    return some (taus.set 0 first.dropLast)
  else if gt == "mid-points" then
    return some (← d.orders.mapM fun p => do return Disc.midPoints (← d.colloc.taus p))
  else if gt == "spectral" then
    return some (← d.orders.mapM fun _ => do
      return ((← d.colloc.taus (e.maxGrid + 2)).drop 1).dropLast)
  else return none

/-- Result of `interpolate_single_phase` (mpopt.py:1544). -/
structure Interp (K : Type) where
  x : Mat K
  u : Mat K
  t : List K
  a : List K
  dx : Mat K
  du : Mat K
  taus : List (List K)
  t0 : K
  tf : K

/-- `interpolate_single_phase` (mpopt.py:1489-1544) with `grid_type=None` and no plot. When the second call
of `get_residual_grid_taus` also returns `None`, indexing it raises `TypeError`. -/
def interpolate (ph : Nat) (nodes : Option (List (List K))) : Py (Interp K) := do
  let d := e.disc
  let tr ← d.trajectories ph e.z e.widths
  let taus ← (match nodes with
    | some n => .ok n
    | none => do
      match ← e.residualGrid ph (some (← pyIdx e.gridType ph)) with
      | some n => .ok n
      | none => Except.error PyErr.type : Py (List (List K)))
  let ti ← timeGridAt tr.t taus d.orders d.colloc.tau0 d.colloc.tau1
  let I ← compInterpMatrix d.colloc taus d.orders
  let D ← compInterpDMatrix d.colloc taus d.orders 1
  return {
    x := ← I.mtimes tr.x
    u := ← I.mtimes tr.u
    t := ti.flatten
    a := tr.a
    dx := ← D.mtimes tr.x
    du := ← D.mtimes tr.u
    taus, t0 := tr.t0, tf := tr.tf }

/-- Dynamics at interpolated point `index` (mpopt.py:1458-1464, 1046-1052). -/
def dynAt (dyn : VFun (PArg K) K) (r : Interp K) (index : Nat) : Py (List K) := do
  let x ← divRow (r.x.row index) e.disc.ocp.scaleX
  let u ← divRow (r.u.row index) e.disc.ocp.scaleU
  let t ← pyIdx r.t index
  let a ← divRow r.a e.disc.ocp.scaleA
  return dyn.call ⟨x, u, t, e.disc.ocp.aArg a⟩

/-- `h_seg` (mpopt.py:1474, 1044). -/
def hSeg (ph seg : Nat) (r : Interp K) : Py K := do
  let w ← pyIdx (e.phaseWidths ph) seg
  if e.disc.colloc.tau1 = e.disc.colloc.tau0 then Except.error PyErr.zeroDivision
  return (r.tf - r.t0) / (e.disc.colloc.tau1 - e.disc.colloc.tau0) * w

/-- Times, residuals and dynamics of a phase, by segment. -/
structure PhaseRes (K : Type) where
  t : List (List K)
  res : List (SegResidual K)
  dyn : List (SegResidual K)

/-- `get_dynamics_residuals_single_phase` (mpopt.py:1428-1487). The running `index` equals the number of
earlier points, `start + i`. -/
def dynPhase (ph : Nat) (nodes : Option (List (List K))) : Py (PhaseRes K) := do
  let r ← e.interpolate ph nodes
  let dyn ← pyIdx e.disc.ocp.dynamics ph
  let n := r.taus.map List.length
  let segs ← (List.range e.disc.nSegments).mapM fun seg => do
    let taus ← pyIdx r.taus seg
    let start := (n.take seg).sum
    let f ← (List.range taus.length).mapM fun i => e.dynAt dyn r (start + i)
    let t ← (List.range taus.length).mapM fun i => pyIdx r.t (start + i)
    if taus.length = 0 then return (([], none, none) : List K × SegResidual K × SegResidual K)
    let h ← e.hSeg ph seg r
    let F ← f.mapM fun row => do return (← mulRow row e.disc.ocp.scaleX).map (h * ·)
    let res ← (List.range taus.length).mapM fun i => do
      let row ← pyIdx F i
      if row.length ≠ r.dx.cols then Except.error PyErr.shape
      return List.zipWith (· - ·) (r.dx.row (start + i)) row
    return (t, some res, some F)
  return ⟨segs.map (·.1), segs.map (·.2.1), segs.map (·.2.2)⟩

/-- `max_val` of a relative residual (mpopt.py:1401-1411, 1127-1137): largest absolute value of every
component over all segments, starting from zero. -/
def maxVal (nx : Nat) (segs : List (SegResidual K)) : List K :=
  (List.range nx).map fun j =>
    (segs.flatMap fun s => (s.getD []).map fun row => |row.getD j 0|).foldl max 0

/-- Division by `max_val` with the assertion (mpopt.py:1412-1415). A zero in `max_val` gives `inf` or `nan`,
which fail the comparison; without states `.max()` of an empty array raises `ValueError`. -/
def relative (m : List K) (segs : List (SegResidual K)) : Py (List (SegResidual K)) :=
  segs.mapM fun s => match s with
    | none => .ok none
    | some rows => do
      if m.length = 0 then Except.error PyErr.value
      let rows' ← rows.mapM fun row => divRow row m
      pyAssert (m.all (fun v => decide (v ≠ 0)) && rows'.all fun row => row.all fun v => decide (|v| ≤ 1))
      return some rows'

/-- The loop of `get_dynamics_residuals` over the phases from `ph` on (mpopt.py:1386-1415). The local
`grid_type` is assigned inside the loop, so it is carried along. -/
def dynLoop (nodes : Option (List (List (List K)))) (rel : Bool) :
    Nat → Nat → Option String → Py (List (List (List K) × List (SegResidual K)))
  | 0, _, _ => .ok []
  | n + 1, ph, gt => do
    let (gt, target) ← (match nodes with
      | none => do
        let g ← (match gt with
          | none => pyIdx e.gridType ph
          | some g => .ok g : Py String)
        return (some g, ← e.residualGrid ph (some g))
      | some l => do return (gt, some (← pyIdx l ph)) :
      Py (Option String × Option (List (List K))))
    let r ← e.dynPhase ph target
    let res ← (if rel then relative (maxVal e.disc.ocp.nx r.dyn) r.res else .ok r.res :
      Py (List (SegResidual K)))
    let rest ← dynLoop nodes rel n (ph + 1) gt
    return (r.t, res) :: rest

/-- `get_dynamics_residuals` (mpopt.py:1360-1426) without plot: times and residuals by phase and segment. -/
def dynResiduals (nodes : Option (List (List (List K)))) (gt : Option String) (rel : Bool) :
    Py (List (List (List K) × List (SegResidual K))) :=
  e.dynLoop nodes rel e.disc.ocp.nPhases 0 gt

/-- One segment of `compute_states_from_solution_dynamics`: times, integrated states, residuals. -/
structure StateRes (K : Type) where
  t : Option (List K)
  x : SegResidual K
  res : SegResidual K

/-- `compute_states_from_solution_dynamics` (mpopt.py:989-1076). The basis on the custom roots
`"c{seg}"` is the Lagrange basis on the target nodes of the segment. -/
def statePhase (ph : Nat) (nodes : Option (List (List K))) : Py (List (StateRes K)) := do
  let d := e.disc
  let tr ← d.trajectories ph e.z e.widths
  let target ← (match nodes with
    | some n => .ok (some n)
    | none => do e.residualGrid ph (some (← pyIdx e.gridType ph)) : Py (Option (List (List K))))
  let r ← e.interpolate ph target
  let dyn ← pyIdx d.ocp.dynamics ph
  let n := r.taus.map List.length
  (List.range d.nSegments).mapM fun seg => do
    let taus ← pyIdx r.taus seg
    let start := (n.take seg).sum
    let h ← e.hSeg ph seg r
    let f ← (List.range taus.length).mapM fun i => do
      mulRow (← e.dynAt dyn r (start + i)) d.ocp.scaleX
    let t ← (List.range taus.length).mapM fun i => pyIdx r.t (start + i)
    let x0 := tr.x.row (d.orders.take seg).sum
    let xs ← taus.mapM fun tau => do
      let q := quadWeights d.colloc.method taus d.colloc.tau0 tau
      if d.ocp.scaleX.length ≠ x0.length then Except.error PyErr.shape
      return (List.range x0.length).map fun j =>
        x0.getD j 0 + h * (List.zipWith (fun w row => w * row.getD j 0) q f).sum
    let res := List.zipWith (fun i x => List.zipWith (· - ·) (r.x.row (start + i)) x)
      (List.range taus.length) xs
    if taus.length = 0 then return ⟨none, none, none⟩
    return ⟨some t, some xs, some res⟩

/-- Interpolated controls of every segment, the second result of `compute_states_from_solution_dynamics`
(mpopt.py:1015-1017, 1052, 1074). The code fills them in the loop of `statePhase`. -/
def stateControls (ph : Nat) (nodes : Option (List (List K))) : Py (List (SegResidual K)) := do
  let target ← (match nodes with
    | some n => .ok (some n)
    | none => do e.residualGrid ph (some (← pyIdx e.gridType ph)) : Py (Option (List (List K))))
  let r ← e.interpolate ph target
  let n := r.taus.map List.length
  (List.range e.disc.nSegments).mapM fun seg => do
    let taus ← pyIdx r.taus seg
    let start := (n.take seg).sum
    if taus.length = 0 then return none
    return some ((List.range taus.length).map fun i => r.u.row (start + i))

/-- `target_nodes` of a phase in `get_states_residuals` (mpopt.py:1110-1115). -/
def stateTarget (nodes : Option (List (List (List K)))) (ph : Nat) : Py (Option (List (List K))) :=
  match nodes with
  | none => do e.residualGrid ph (some (← pyIdx e.gridType ph))
  | some l => do return some (← pyIdx l ph)

/-- Residuals of one phase in `get_states_residuals` (mpopt.py:1109-1142). Relative residuals are divided by the
largest integrated state; a zero there makes numpy continue with `nan` or `inf`. -/
def stateOne (nodes : Option (List (List (List K)))) (rel : Bool) (ph : Nat) : Py (List (StateRes K)) := do
  let target ← e.stateTarget nodes ph
  let segs ← e.statePhase ph target
  if rel then
    let m := maxVal e.disc.ocp.nx (segs.map (·.x))
    segs.mapM fun s => match s.res with
      | none => .ok s
      | some rows => do
        if m.any (fun v => decide (v = 0)) then Except.error PyErr.nonFinite
        return { s with res := some (← rows.mapM fun row => divRow row m) }
  else return segs

/-- `get_states_residuals` (mpopt.py:1078-1150), all phases, no plot, without the controls. -/
def stateResiduals (nodes : Option (List (List (List K)))) (rel : Bool) :
    Py (List (List (StateRes K))) :=
  (List.range e.disc.ocp.nPhases).mapM (e.stateOne nodes rel)

/-- `get_states_residuals` with `phases` (mpopt.py:1100-1150): an entry of the results for every phase, `None` for
those not asked for. The last component of an entry are the controls. -/
def stateResidualsOf (phases : Option (List Nat)) (nodes : Option (List (List (List K)))) (rel : Bool) :
    Py (List (Option (List (StateRes K) × List (SegResidual K)))) :=
  (phases.getD (List.range e.disc.ocp.nPhases)).foldlM (fun out ph => do
    let segs ← e.stateOne nodes rel ph
    let u ← e.stateControls ph (← e.stateTarget nodes ph)
    return out.set ph (some (segs, u))) (List.replicate e.disc.ocp.nPhases none)

/-- `get_state_second_derivative_single_phase` (mpopt.py:1285-1358) with `residual_type=None`: per segment
times, second derivatives of states and of controls. A `grid_type` argument would be ignored there. -/
def secondPhase (ph : Nat) (nodes : Option (List (List K))) :
    Py (List (Option (List K × List (List K) × List (List K)))) := do
  let d := e.disc
  let tr ← d.trajectories ph e.z e.widths
  let taus ← (match nodes with
    | some n => .ok n
    | none => do
      match ← e.residualGrid ph (some (← pyIdx e.gridType ph)) with
      | some n => .ok n
      | none => Except.error PyErr.type : Py (List (List K)))
  let ti := (← timeGridAt tr.t taus d.orders d.colloc.tau0 d.colloc.tau1).flatten
  let D ← compInterpDMatrix d.colloc taus d.orders 2
  let ddx ← D.mtimes tr.x
  let ddu ← D.mtimes tr.u
  let n := taus.map List.length
  (List.range d.nSegments).mapM fun seg => do
    let tau ← pyIdx taus seg
    let start := (n.take seg).sum
    let t ← (List.range tau.length).mapM fun i => pyIdx ti (start + i)
    if tau.length = 0 then return none
    return some (t, (List.range tau.length).map fun i => ddx.row (start + i),
      (List.range tau.length).map fun i => ddu.row (start + i))

/-- `get_state_second_derivative` (mpopt.py:1238-1283), no plot. -/
def secondDerivative (nodes : Option (List (List (List K)))) (gt : Option String) :
    Py (List (List (Option (List K × List (List K) × List (List K))))) :=
  (List.range e.disc.ocp.nPhases).mapM fun ph => do
    let target ← (match nodes with
      | none => e.residualGrid ph gt
      | some l => do return some (← pyIdx l ph) : Py (Option (List (List K))))
    e.secondPhase ph target

end Solved
end

/-- The residual part of `process_results` (mpopt.py:913-924): `resid_value` stored in the post-processor.
`rx`, `rdx` are the two computations, `wx`, `wdx` wrap them as dictionary values. -/
def residValue {V A B : Type} (residualX residualDx : Bool) (rx : Py A) (rdx : Py B) (wx : A → V)
    (wdx : B → V) : Py (Option (PyDict V)) := do
  let d : PyDict V := []
  let d ← (if residualX then do return d.set "t_x" (wx (← rx)) else return d : Py (PyDict V))
  if residualDx then return some (d.set "t_dx" (wdx (← rdx)))
  else return none

end MPOpt
