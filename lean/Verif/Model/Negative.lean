import Verif.Model.PostProcess
import Verif.Model.Adaptive

/-! # Phase numbers below zero

Python counts `-1`, `-2`, … from the end of a list. Phase numbers reach the code from outside in `ocp.phase_links`, in
`phases` of `get_data` and `get_states_residuals`, and in `phase` of the functions for one phase. The definitions here take
integers; `Model/Transcription`, `Model/Residual` and `Model/PostProcess` have the same functions for natural numbers. -/

set_option autoImplicit false
set_option linter.unusedVariables false

namespace MPOpt

/-- Position that Python's `l[i]` reads in a list of length `n`. CasADi follows the same rule. -/
def wrapIdx (n : Nat) (i : Int) : Py Nat :=
  if 0 ≤ i then if i < n then .ok i.toNat else .error .index
  else if 0 ≤ i + n then .ok (i + n).toNat else .error .index

/-- Python's `l[i]`. -/
def pyIdxZ {α : Type} (l : List α) (i : Int) : Py α := do pyIdx l (← wrapIdx l.length i)

/-- A bound of a Python slice of a list of length `n`: from the end when negative, then clipped. -/
def sliceBound (n : Nat) (i : Int) : Nat := if 0 ≤ i then min i.toNat n else (i + n).toNat

/-- Python's `l[a:b]`. -/
def pySlice {α : Type*} (l : List α) (a b : Int) : List α :=
  (l.drop (sliceBound l.length a)).take (sliceBound l.length b - sliceBound l.length a)

variable {K : Type}

section
variable [Field K]
namespace Disc
variable (d : Disc K)

/-- `get_event_constraints` (mpopt.py:464-521) with the given `phase_links`. -/
def eventBlockZ [LinearOrder K] (links : List (Int × Int)) : Py (Block K) :=
  if d.ocp.nPhases < 2 then .ok Block.empty
  else do
    let n := links.length
    let E0 ← links.mapM fun l => do
      let j ← wrapIdx d.ocp.nPhases l.2
      let i ← wrapIdx d.ocp.nPhases l.1
      return (List.range d.ocp.nx).map fun c => (fun σ => σ (.X j 0 c) - σ (.X i (d.N - 1) c) : SX K)
    let lo0 ← (List.range n).mapM fun k => do scaleRow (← pyIdx d.ocp.lbe k) d.ocp.scaleX
    let lo0 ← npConcat lo0
    let hi0 ← (List.range n).mapM fun k => do scaleRow (← pyIdx d.ocp.ube k) d.ocp.scaleX
    let hi0 ← npConcat hi0
    let E1 ← links.mapM fun l => do
      let j ← wrapIdx d.ocp.nPhases l.2
      let i ← wrapIdx d.ocp.nPhases l.1
      return (List.range d.ocp.nu).map fun c => (fun σ => σ (.U j 0 c) - σ (.U i (d.N - 1) c) : SX K)
    let b1 ← npConcat ((List.range n).map fun _ => List.replicate d.ocp.nu (Ext.fin (0 : K)))
    let E2 ← links.mapM fun l => do
      let j ← wrapIdx d.ocp.nPhases l.2
      let i ← wrapIdx d.ocp.nPhases l.1
      return (fun σ => σ (.T0 j) - σ (.Tf i) : SX K)
    let b2 := List.replicate n (Ext.fin (0 : K))
    return ⟨E0.flatten ++ (E1.flatten ++ E2), lo0 ++ (b1 ++ b2), hi0 ++ (b1 ++ b2)⟩

/-- `create_nlp` (mpopt.py:574-639) with the given `phase_links`, and the two methods that `mpopt_adaptive` overrides as
arguments. -/
def createNlpZ [LinearOrder K] (links : List (Int × Int))
    (vars : Nat → Py (List Sym × List (Ext K) × List (Ext K)))
    (discretize : Nat → Py (Block K × SX K)) : Py (NLP K) := do
  let phases ← (List.range d.ocp.nPhases).mapM fun ph => do
    let z ← vars ph
    let g ← discretize ph
    return (z, g)
  let ev ← d.eventBlockZ links
  let evs := if 1 < d.ocp.nPhases then [ev] else []
  let lbg ← npConcat (phases.map (·.2.1.lo) ++ evs.map (·.lo))
  let ubg ← npConcat (phases.map (·.2.1.hi) ++ evs.map (·.hi))
  let lbx ← npConcat (phases.map (·.1.2.1))
  let ubx ← npConcat (phases.map (·.1.2.2))
  return {
    f := fun σ => (phases.map fun zg => zg.2.2 σ).sum
    x := (phases.map (·.1.1)).flatten
    g := (phases.map (·.2.1.g) ++ evs.map (·.g)).flatten
    p := d.widthParams
    lbx, ubx, lbg, ubg }

/-- `init_trajectories(phase)` called with solution vector and segment widths (mpopt.py:857-882): `phase` is only used as
index. -/
def trajectoriesZ (ph : Int) (z h : List K) : Py (PhaseTraj K) := do
  d.trajectories (← wrapIdx d.ocp.nPhases ph) z h

end Disc

namespace Solved
variable [LinearOrder K] (e : Solved K)

/-- `self._nlp_sw_params[n * phase : n * (phase + 1)]`. -/
def phaseWidthsZ (ph : Int) : List K := pySlice e.widths (e.disc.nSegments * ph) (e.disc.nSegments * (ph + 1))

/-- `get_residual_grid_taus` (mpopt.py:1152-1203). -/
def residualGridZ (ph : Int) (gt : Option String) : Py (Option (List (List K))) := do
  let gt ← (match gt with
    | some g => .ok g
    | none => pyIdxZ e.gridType ph : Py String)
  let d := e.disc
  if gt == "fixed" then
    let n := max (d.orders.sum + 2) (e.maxGrid + 2)
    let taus ← interpTaus (linspace d.colloc.tau0 d.colloc.tau1 n) (e.phaseWidthsZ ph)
      d.colloc.tau0 d.colloc.tau1
    let first ← pyIdx taus 0
    return some (taus.set 0 first.dropLast)
  else if gt == "mid-points" then
    return some (← d.orders.mapM fun p => do return Disc.midPoints (← d.colloc.taus p))
  else if gt == "spectral" then
    return some (← d.orders.mapM fun _ => do
      return ((← d.colloc.taus (e.maxGrid + 2)).drop 1).dropLast)
  else return none

/-- `interpolate_single_phase` (mpopt.py:1489-1544). -/
def interpolateZ (ph : Int) (nodes : Option (List (List K))) : Py (Interp K) := do
  let d := e.disc
  let tr ← d.trajectoriesZ ph e.z e.widths
  let taus ← (match nodes with
    | some n => .ok n
    | none => do
      match ← e.residualGridZ ph (some (← pyIdxZ e.gridType ph)) with
      | some n => .ok n
      | none => Except.error PyErr.type : Py (List (List K)))
  let ti ← timeGridAt tr.t taus d.orders d.colloc.tau0 d.colloc.tau1
  let I ← compInterpMatrix d.colloc taus d.orders
  let D ← compInterpDMatrix d.colloc taus d.orders 1
  return {
    x := ← I.mtimes tr.x
    u := ← I.mtimes tr.u
    t := ti.flatten
    a := tr.a
    dx := ← D.mtimes tr.x
    du := ← D.mtimes tr.u
    taus, t0 := tr.t0, tf := tr.tf }

/-- `h_seg` (mpopt.py:1474, 1044). -/
def hSegZ (ph : Int) (seg : Nat) (r : Interp K) : Py K := do
  let w ← pyIdx (e.phaseWidthsZ ph) seg
  if e.disc.colloc.tau1 = e.disc.colloc.tau0 then Except.error PyErr.zeroDivision
  return (r.tf - r.t0) / (e.disc.colloc.tau1 - e.disc.colloc.tau0) * w

/-- `get_dynamics_residuals_single_phase` (mpopt.py:1428-1487). -/
def dynPhaseZ (ph : Int) (nodes : Option (List (List K))) : Py (PhaseRes K) := do
  let r ← e.interpolateZ ph nodes
  let dyn ← pyIdxZ e.disc.ocp.dynamics ph
  let n := r.taus.map List.length
  let segs ← (List.range e.disc.nSegments).mapM fun seg => do
    let taus ← pyIdx r.taus seg
    let start := (n.take seg).sum
    let f ← (List.range taus.length).mapM fun i => e.dynAt dyn r (start + i)
    let t ← (List.range taus.length).mapM fun i => pyIdx r.t (start + i)
    if taus.length = 0 then return (([], none, none) : List K × SegResidual K × SegResidual K)
    let h ← e.hSegZ ph seg r
    let F ← f.mapM fun row => do return (← mulRow row e.disc.ocp.scaleX).map (h * ·)
    let res ← (List.range taus.length).mapM fun i => do
      let row ← pyIdx F i
      if row.length ≠ r.dx.cols then Except.error PyErr.shape
      return List.zipWith (· - ·) (r.dx.row (start + i)) row
    return (t, some res, some F)
  return ⟨segs.map (·.1), segs.map (·.2.1), segs.map (·.2.2)⟩

/-- `compute_states_from_solution_dynamics` (mpopt.py:989-1076). -/
def statePhaseZ (ph : Int) (nodes : Option (List (List K))) : Py (List (StateRes K)) := do
  let d := e.disc
  let tr ← d.trajectoriesZ ph e.z e.widths
  let target ← (match nodes with
    | some n => .ok (some n)
    | none => do e.residualGridZ ph (some (← pyIdxZ e.gridType ph)) : Py (Option (List (List K))))
  let r ← e.interpolateZ ph target
  let dyn ← pyIdxZ d.ocp.dynamics ph
  let n := r.taus.map List.length
  (List.range d.nSegments).mapM fun seg => do
    let taus ← pyIdx r.taus seg
    let start := (n.take seg).sum
    let h ← e.hSegZ ph seg r
    let f ← (List.range taus.length).mapM fun i => do
      mulRow (← e.dynAt dyn r (start + i)) d.ocp.scaleX
    let t ← (List.range taus.length).mapM fun i => pyIdx r.t (start + i)
    let x0 := tr.x.row (d.orders.take seg).sum
    let xs ← taus.mapM fun tau => do
      let q := quadWeights d.colloc.method taus d.colloc.tau0 tau
      if d.ocp.scaleX.length ≠ x0.length then Except.error PyErr.shape
      return (List.range x0.length).map fun j =>
        x0.getD j 0 + h * (List.zipWith (fun w row => w * row.getD j 0) q f).sum
    let res := List.zipWith (fun i x => List.zipWith (· - ·) (r.x.row (start + i)) x)
      (List.range taus.length) xs
    if taus.length = 0 then return ⟨none, none, none⟩
    return ⟨some t, some xs, some res⟩

/-- The controls that `compute_states_from_solution_dynamics` returns (mpopt.py:1015-1017, 1052, 1074). -/
def stateControlsZ (ph : Int) (nodes : Option (List (List K))) : Py (List (SegResidual K)) := do
  let target ← (match nodes with
    | some n => .ok (some n)
    | none => do e.residualGridZ ph (some (← pyIdxZ e.gridType ph)) : Py (Option (List (List K))))
  let r ← e.interpolateZ ph target
  let n := r.taus.map List.length
  (List.range e.disc.nSegments).mapM fun seg => do
    let taus ← pyIdx r.taus seg
    let start := (n.take seg).sum
    if taus.length = 0 then return none
    return some ((List.range taus.length).map fun i => r.u.row (start + i))

/-- `target_nodes` of a phase in `get_states_residuals` (mpopt.py:1110-1115). -/
def stateTargetZ (nodes : Option (List (List (List K)))) (ph : Int) : Py (Option (List (List K))) :=
  match nodes with
  | none => do e.residualGridZ ph (some (← pyIdxZ e.gridType ph))
  | some l => do return some (← pyIdxZ l ph)

/-- Residuals of one phase in `get_states_residuals` (mpopt.py:1109-1142). -/
def stateOneZ (nodes : Option (List (List (List K)))) (rel : Bool) (ph : Int) : Py (List (StateRes K)) := do
  let target ← e.stateTargetZ nodes ph
  let segs ← e.statePhaseZ ph target
  if rel then
    let m := maxVal e.disc.ocp.nx (segs.map (·.x))
    segs.mapM fun s => match s.res with
      | none => .ok s
      | some rows => do
        if m.any (fun v => decide (v = 0)) then Except.error PyErr.nonFinite
        return { s with res := some (← rows.mapM fun row => divRow row m) }
  else return segs

/-- `get_states_residuals` (mpopt.py:1078-1150) with `phases`. -/
def stateResidualsOfZ (phases : List Int) (nodes : Option (List (List (List K)))) (rel : Bool) :
    Py (List (Option (List (StateRes K) × List (SegResidual K)))) :=
  phases.foldlM (fun out ph => do
    let segs ← e.stateOneZ nodes rel ph
    let u ← e.stateControlsZ ph (← e.stateTargetZ nodes ph)
    return out.set (← wrapIdx e.disc.ocp.nPhases ph) (some (segs, u))) (List.replicate e.disc.ocp.nPhases none)

/-- `get_state_second_derivative_single_phase` (mpopt.py:1285-1358) with `residual_type=None`. The slice of the widths
taken there is not used. -/
def secondPhaseZ (ph : Int) (nodes : Option (List (List K))) :
    Py (List (Option (List K × List (List K) × List (List K)))) := do
  let d := e.disc
  let tr ← d.trajectoriesZ ph e.z e.widths
  let taus ← (match nodes with
    | some n => .ok n
    | none => do
      match ← e.residualGridZ ph (some (← pyIdxZ e.gridType ph)) with
      | some n => .ok n
      | none => Except.error PyErr.type : Py (List (List K)))
  let ti := (← timeGridAt tr.t taus d.orders d.colloc.tau0 d.colloc.tau1).flatten
  let D ← compInterpDMatrix d.colloc taus d.orders 2
  let ddx ← D.mtimes tr.x
  let ddu ← D.mtimes tr.u
  let n := taus.map List.length
  (List.range d.nSegments).mapM fun seg => do
    let tau ← pyIdx taus seg
    let start := (n.take seg).sum
    let t ← (List.range tau.length).mapM fun i => pyIdx ti (start + i)
    if tau.length = 0 then return none
    return some (t, (List.range tau.length).map fun i => ddx.row (start + i),
      (List.range tau.length).map fun i => ddu.row (start + i))

end Solved

namespace Post
variable (p : Post K)

/-- `get_trajectories` (mpopt.py:1639-1667). `self.trajectories` has one function for every phase. -/
def getTrajectoriesZ (ph : Int) : Py (PostData K) := do
  let d := p.solved.disc
  let tr ← d.trajectoriesZ ph p.solved.z p.solved.widths
  if p.scaling then return ⟨tr.x, tr.u, tr.t, colMat tr.a⟩
  else return ⟨← tr.x.divCols d.ocp.scaleX, ← tr.u.divCols d.ocp.scaleU, tr.t,
    outerDiv tr.a d.ocp.scaleA⟩

/-- `get_original_data` (mpopt.py:1669-1692) with a non-empty list of phases. -/
def originalDataZ (phases : List Int) : Py (PostData K) := do
  let first ← p.getTrajectoriesZ (← pyIdx phases 0)
  phases.tail.foldlM (fun acc ph => do
    let q ← p.getTrajectoriesZ ph
    return ⟨← acc.x.vstack q.x, ← acc.u.vstack q.u, acc.t ++ q.t, ← acc.a.vstack q.a⟩) first

variable [LinearOrder K]

/-- Data of one phase at `taus` (mpopt.py:1806-1814, 1820-1824). -/
def phaseAtZ (I : Mat K) (taus : List (List K)) (ph : Int) : Py (PostData K) := do
  let d := p.solved.disc
  let o ← p.originalDataZ [ph]
  let x ← I.mtimes o.x
  let u ← I.mtimes o.u
  let t ← timeGridAt o.t taus d.orders d.colloc.tau0 d.colloc.tau1
  return ⟨x, u, t.flatten, o.a⟩

/-- `get_interpolated_data` (mpopt.py:1773-1831). -/
def interpolatedDataZ (phases : List Int) (taus : Option (List (List K))) : Py (PostData K) := do
  let d := p.solved.disc
  let taus ← (match taus with
    | some t => .ok t
    | none => p.interpNodes : Py (List (List K)))
  let I ← compInterpMatrix d.colloc taus d.orders
  let first ← p.phaseAtZ I taus (← pyIdx phases 0)
  phases.tail.foldlM (fun acc ph => do
    let q ← p.phaseAtZ I taus ph
    return ⟨← acc.x.vstack q.x, ← acc.u.vstack q.u, acc.t ++ q.t, ← acc.a.hstack q.a⟩) first

/-- `get_data` (mpopt.py:1833-1855) with a non-empty list of phases. -/
def getDataZ (phases : List Int) (interpolate : Bool) : Py (PostData K) :=
  if interpolate then p.interpolatedDataZ phases none else p.originalDataZ phases

end Post
end
end MPOpt
