import Verif.Model.Residual

/-!
# `mpopt_adaptive`: segment widths as decision variables (mpopt.py:2877-3276)

`create_variables`, `create_nlp`, `get_event_constraints` and the blocks not defined here are inherited
from `mpopt`. The running counter `index` of the residual loop (mpopt.py:3088, 3115) is written as
`sum(n_taus[:seg]) + i`.
-/

set_option autoImplicit false

namespace MPOpt
variable {K : Type} [Field K]

/-- An `mpopt_adaptive` object (mpopt.py:2900-2925): one `lbh`, `ubh`, `tol_residual` per phase. -/
structure Adapt (K : Type) where
  disc : Disc K
  lbh : List K
  ubh : List K
  tol : List K
  midResiduals : Bool

/-- `mpopt_adaptive.__init__` (mpopt.py:2896-2925): the defaults. -/
def mkAdapt (d : Disc K) : Adapt K where
  disc := d
  lbh := List.replicate d.ocp.nPhases (1 / 10000)
  ubh := List.replicate d.ocp.nPhases 1
  tol := List.replicate d.ocp.nPhases (1 / 1000)
  midResiduals := true

/-- `create_nlp` (mpopt.py:574-639) with the two methods that `mpopt_adaptive` overrides,
`get_nlp_variables` and `discretize_phase`, as arguments. -/
def Disc.createNlpWith [LinearOrder K] (d : Disc K)
    (vars : Nat → Py (List Sym × List (Ext K) × List (Ext K)))
    (discretize : Nat → Py (Disc.Block K × SX K)) : Py (Disc.NLP K) := do
  let phases ← (List.range d.ocp.nPhases).mapM fun ph => do
    let z ← vars ph
    let g ← discretize ph
    return (z, g)
  let ev ← d.eventBlock
  let evs := if 1 < d.ocp.nPhases then [ev] else []
  let lbg ← npConcat (phases.map (·.2.1.lo) ++ evs.map (·.lo))
  let ubg ← npConcat (phases.map (·.2.1.hi) ++ evs.map (·.hi))
  let lbx ← npConcat (phases.map (·.1.2.1))
  let ubx ← npConcat (phases.map (·.1.2.2))
  return {
    f := fun σ => (phases.map fun zg => zg.2.2 σ).sum
    x := (phases.map (·.1.1)).flatten
    g := (phases.map (·.2.1.g) ++ evs.map (·.g)).flatten
    p := d.widthParams
    lbx, ubx, lbg, ubg }

/-- `create_nlp` of the base class is an instance. -/
theorem Disc.createNlp_eq [LinearOrder K] (d : Disc K) :
    d.createNlp = d.createNlpWith d.nlpVariables d.discretizePhase := rfl

/-- Rows on midpoint values if some bound is finite (mpopt.py:3067-3082). -/
def boxBlock [LinearOrder K] (e : Mat (SX K)) (lo hi : List (Ext K)) (scale : List K) :
    Py (Disc.Block K) := do
  if lo.any (fun b => Ext.lt .ninf b) || hi.any (fun b => Ext.lt b .pinf) then
    let l ← scaleRow lo scale
    let h ← scaleRow hi scale
    return ⟨e.vec, l.flatMap (List.replicate e.rows), h.flatMap (List.replicate e.rows)⟩
  else return Disc.Block.empty

namespace Adapt
variable (ad : Adapt K)

/-- Variables of a phase (mpopt.py:2941-2948). -/
def phaseVars (ph : Nat) : List Sym :=
  ad.disc.phaseVars ph ++ (List.range ad.disc.nSegments).map fun s => Sym.H s ph

/-- `get_nlp_variables` (mpopt.py:2927-2979). -/
def nlpVariables [LinearOrder K] (ph : Nat) : Py (List Sym × List (Ext K) × List (Ext K)) := do
  let (_, lo, hi) ← ad.disc.nlpVariables ph
  let lbh ← pyIdx ad.lbh ph
  let ubh ← pyIdx ad.ubh ph
  return (ad.phaseVars ph, lo ++ List.replicate ad.disc.nSegments (.fin lbh),
    hi ++ List.replicate ad.disc.nSegments (.fin ubh))

/-- `ca.sum1(self.seg_widths[:, phase]) - 1.0` (mpopt.py:3038). -/
def widthSum (ph : Nat) : Py (SX K) := do
  let ws ← (List.range ad.disc.nSegments).mapM fun s => ad.disc.segWidth s ph
  return fun σ => (ws.map (· σ)).sum - 1

/-- `ti` (mpopt.py:3049-3055): midpoints of consecutive entries of `time_grid[phase]`. -/
def midTimes (grid : List (SX K)) : List (SX K) :=
  List.zipWith (fun a b σ => (a σ + b σ) / 2) grid grid.tail

/-- Residual rows of one segment (mpopt.py:3091-3122). Without midpoints the entry stays `None` and
`ca.vertcat` raises. -/
def residualSeg (dyn : VFun (PArg K) K) (taus : List (List K)) (xi ui dxi : Mat (SX K))
    (ti : List (SX K)) (ph seg : Nat) : Py (List (SX K)) := do
  let d := ad.disc
  let w ← d.segWidth seg ph
  let h : SX K := fun σ =>
    (σ (.Tf ph) - σ (.T0 ph)) / d.ocp.scaleT / (d.colloc.tau1 - d.colloc.tau0) * w σ
  let tau ← pyIdx taus seg
  let start := ((taus.map List.length).take seg).sum
  let a ← d.au ph
  let f ← (List.range tau.length).mapM fun i => do
    let x ← unscale d.ocp.nx d.ocp.scaleX fun j => xi.e (start + i) j
    let u ← unscale d.ocp.nu d.ocp.scaleU fun j => ui.e (start + i) j
    let t ← pyIdx ti (start + i)
    d.dynRow dyn ⟨x, u, t, d.ocp.aArg a, h⟩
  if tau.length = 0 then Except.error PyErr.type
  let F := Mat.ofRows d.ocp.nx f
  return (⟨tau.length, d.ocp.nx, fun i j σ => w σ * (dxi.e (start + i) j σ - F.e i j σ)⟩ :
    Mat (SX K)).vec

/-- `get_nlp_constrains_for_segment_widths` (mpopt.py:3034-3136). -/
def widthBlock [LinearOrder K] (ph : Nat) : Py (Disc.Block K) := do
  let d := ad.disc
  let sw ← ad.widthSum ph
  let taus ← d.orders.mapM fun p => do return Disc.midPoints (← d.colloc.taus p)
  let grid ← d.nodeGrid ph
  let ti := midTimes (grid.map (·.1))
  let I ← compInterpMatrix d.colloc taus d.orders
  let D ← compInterpDMatrix d.colloc taus d.orders 1
  let xi ← (Disc.constMat I).mtimes (d.matX ph)
  let ui ← (Disc.constMat I).mtimes (d.matU ph)
  let U ← boxBlock ui (← pyIdx d.ocp.lbu ph) (← pyIdx d.ocp.ubu ph) d.ocp.scaleU
  let X ← boxBlock xi (← pyIdx d.ocp.lbx ph) (← pyIdx d.ocp.ubx ph) d.ocp.scaleX
  let R ← (if ad.midResiduals then do
      let dyn ← pyIdx d.ocp.dynamics ph
      let dxi ← (Disc.constMat D).mtimes (d.matX ph)
      let segs ← (List.range d.nSegments).mapM (ad.residualSeg dyn taus xi ui dxi ti ph)
      let tol ← pyIdx ad.tol ph
      return Disc.Block.const segs.flatten (.fin (-tol)) (.fin tol)
    else return Disc.Block.empty : Py (Disc.Block K))
  return (Disc.Block.const [sw] (.fin 0) (.fin 0)).append (U.append (X.append R))

/-- `discretize_phase` (mpopt.py:3138-3174): no rows for `midu` and `du_continuity`. -/
def discretizePhase [LinearOrder K] (ph : Nat) : Py (Disc.Block K × SX K) := do
  let d := ad.disc
  let (f, c, q) ← d.discretized ph
  let F ← d.dynBlock f ph
  let pc ← pyIdx d.ocp.pathConstraints ph
  let C := Disc.pathBlock c (Disc.pathLen pc)
  let (TC, mayer) ← d.termBlock ph
  let DU ← d.slopeBlock ph
  let SW ← ad.widthBlock ph
  let lagrange ← d.quadCost q
  return (F.append (C.append (DU.append (TC.append SW))), fun σ => mayer σ + lagrange σ)

/-- `create_nlp`, inherited (mpopt.py:574-639). -/
def createNlp [LinearOrder K] : Py (Disc.NLP K) :=
  ad.disc.createNlpWith ad.nlpVariables ad.discretizePhase

/-- The problem handed to `nlpsol` (mpopt.py:3190-3192): without parameters. -/
def solverProblem [LinearOrder K] : Py (Disc.NLP K) := do
  return { (← ad.createNlp) with p := [] }

/-- `init_solution_per_phase` (mpopt.py:2981-3032). -/
def guessPhase [DecidableEq K] (ph : Nat) : Py (List (Ext K)) := do
  let z ← ad.disc.ocp.guessPhase ad.disc.N ph
  if ad.disc.nSegments = 0 then Except.error PyErr.zeroDivision
  return z ++ List.replicate ad.disc.nSegments (.fin (1 / (ad.disc.nSegments : K)))

/-- `initialize_solution`, inherited (mpopt.py:694-708). -/
def initialGuess [DecidableEq K] : Py (List (Ext K)) := do
  let z ← (List.range ad.disc.ocp.nPhases).mapM ad.guessPhase
  npConcat z

/-- `self.Z`: the variables of all phases. -/
def allVars : List Sym := (List.range ad.disc.ocp.nPhases).flatMap ad.phaseVars

/-- `_nlp_sw_params` after a solve (mpopt.py:3243-3244): the widths read from the solution. -/
def solvedWidths (z : List K) : Py (List K) :=
  if z.length = ad.allVars.length then
    .ok (ad.disc.widthParams.map (bindSyms ad.allVars z))
  else .error .shape

/-- `init_trajectories(phase)` called with solution and widths (mpopt.py:3249-3276): the second input is a
dummy of `n_segments * n_phases` symbols that occur nowhere. -/
def trajectories (ph : Nat) (z h : List K) : Py (PhaseTraj K) := do
  let d := ad.disc
  if d.ocp.nPhases ≤ ph then Except.error PyErr.index
  let grid ← d.nodeGrid ph
  if z.length ≠ ad.allVars.length ∨ h.length ≠ d.widthParams.length then Except.error PyErr.shape
  let σ := bindSyms ad.allVars z
  return {
    x := ⟨d.N, d.ocp.nx, fun i j => σ (.X ph i j)⟩
    u := ⟨d.N, d.ocp.nu, fun i j => σ (.U ph i j)⟩
    t := grid.map fun th => th.1 σ
    t0 := d.t0u ph σ
    tf := d.tfu ph σ
    a := (List.range d.ocp.na).map fun k => σ (.A k ph) }

end Adapt
end MPOpt
