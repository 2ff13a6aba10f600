import Verif.Model.OCP
import Verif.Model.Collocation
import Mathlib.Algebra.Ring.Pi

/-!
# `mpopt`: discretisation and transcription to an NLP (mpopt.py:56-639)

CasADi SX expressions are modelled by the function of the symbols' values that they denote.
-/

set_option autoImplicit false

namespace MPOpt

/-- Decision variables and parameters, i.e. the scalar symbols made by `create_variables`
(mpopt.py:114-118) and `init_segment_width` (mpopt.py:152). Node index before component index. -/
inductive Sym
  | X (ph node comp : Nat)
  | U (ph node comp : Nat)
  | T0 (ph : Nat)
  | Tf (ph : Nat)
  | A (k ph : Nat)
  | H (seg ph : Nat)
  deriving DecidableEq, Repr

/-- Values of all symbols. -/
abbrev Env (K : Type) := Sym → K

/-- An SX scalar expression. -/
abbrev SX (K : Type) := Env K → K

/-- The expression consisting of one symbol. -/
def sym {K : Type} (s : Sym) : SX K := fun σ => σ s

/-- An `mpopt` object after `compute_numerical_approximation` (mpopt.py:70-103). -/
structure Disc (K : Type) where
  ocp : OCP K
  nSegments : Nat
  orders : List Nat
  colloc : Colloc K
  compD : Mat K
  compW : List K

section
variable {K : Type} [Field K]

/-- The `poly_orders` argument of the constructor: one integer or a list (mpopt.py:60, 71-74). -/
inductive OrdersArg
  | int (p : Nat)
  | list (l : List Nat)

/-- `mpopt.__init__` and `reset_mpopt` (mpopt.py:70-84): `(poly_orders, _Npoints)`. -/
def initOrders (nSegments : Nat) (arg : OrdersArg) : Py (List Nat × Nat) := do
  let orders := match arg with
    | .int p => List.replicate nSegments p
    | .list l => l
  pyAssert (orders.length == nSegments)
  return (orders, orders.sum + 1)

/-- `reset_mpopt` and `compute_numerical_approximation` (mpopt.py:81-103). -/
def mkDisc (lib : NodeLib K) (m : Method) (lo hi : K) (ocp : OCP K) (nSegments : Nat)
    (orders : List Nat) (scheme : String) : Py (Disc K) := do
  pyAssert (orders.length == nSegments)
  let c ← mkColloc lib m lo hi orders scheme
  let D ← compDiffMatrix c orders 1
  let W ← compQuadWeights c orders
  return ⟨ocp, nSegments, orders, c, D, W⟩

/-- `self._Npoints` (mpopt.py:84). -/
def Disc.N (d : Disc K) : Nat := d.orders.sum + 1

/-- `self._optimization_vars_per_phase` (mpopt.py:130-134). -/
def Disc.varsPerPhase (d : Disc K) : Nat :=
  d.N * (d.ocp.nx + d.ocp.nu) + d.ocp.nPhases * d.ocp.na + 2

/-- `np.concatenate(list of arrays)`: raises `ValueError` on an empty list. -/
def npConcat {α : Type} (l : List (List α)) : Py (List α) :=
  if l.isEmpty then .error .value else .ok l.flatten

/-- Product of a row of numbers with a scale vector of the same length; other lengths raise (numpy's
broadcasting of length-one arrays is not modelled). -/
def mulRow (row : List K) (scale : List K) : Py (List K) :=
  if row.length = scale.length then .ok (List.zipWith (· * ·) row scale) else .error .shape

/-- `bounds_row * scale` (mpopt.py:546-569). -/
def scaleRow [LinearOrder K] (row : List (Ext K)) (scale : List K) : Py (List (Ext K)) :=
  if row.length = scale.length then .ok (List.zipWith Ext.mul row scale) else .error .shape

/-- `ca.mtimes(invScX, v)` for a diagonal scaling matrix: divides by the scales
(mpopt.py:121-128, 177, 196-197). The scales have to match the number of components. -/
def unscale (n : Nat) (scale : List K) (v : Nat → SX K) : Py (List (SX K)) :=
  if scale.length = n then
    .ok ((List.range n).map fun j => fun σ => v j σ / scale.getD j 0)
  else .error .shape

/-- A column of symbols or expressions as a list, evaluated. -/
def evalAll (l : List (SX K)) (σ : Env K) : List K := l.map (· σ)

/-- Symbolic call of dynamics / path constraints: the result is the list of expressions whose values are
the function's outputs at the argument values. -/
def VFun.traceP (F : VFun (PArg K) K) (x u : List (SX K)) (t : SX K) (a : Option (List (SX K))) :
    List (SX K) :=
  (List.range F.len).map fun i => fun σ =>
    F.f ⟨evalAll x σ, evalAll u σ, t σ, a.map (evalAll · σ)⟩ i

/-- Symbolic call of terminal constraints. -/
def VFun.traceT (F : VFun (TArg K) K) (xf : List (SX K)) (tf : SX K) (x0 : List (SX K)) (t0 : SX K)
    (a : Option (List (SX K))) : List (SX K) :=
  (List.range F.len).map fun i => fun σ =>
    F.f ⟨evalAll xf σ, tf σ, evalAll x0 σ, t0 σ, a.map (evalAll · σ)⟩ i

namespace Disc
variable (d : Disc K)

/-- `self.seg_widths[seg, phase]` (mpopt.py:152): `n_segments × n_phases` symbols. -/
def segWidth (seg ph : Nat) : Py (SX K) :=
  if seg < d.nSegments ∧ ph < d.ocp.nPhases then .ok (sym (.H seg ph)) else .error .index

/-- Unscaled times `self.t0[phase] / scale_t`, `self.tf[phase] / scale_t` (mpopt.py:175-176). -/
def t0u (ph : Nat) : SX K := fun σ => σ (.T0 ph) / d.ocp.scaleT

/-- See `t0u`. -/
def tfu (ph : Nat) : SX K := fun σ => σ (.Tf ph) / d.ocp.scaleT

/-- Unscaled state at a node (mpopt.py:196). -/
def xu (ph node : Nat) : Py (List (SX K)) :=
  unscale d.ocp.nx d.ocp.scaleX fun j => sym (.X ph node j)

/-- Unscaled control at a node (mpopt.py:197). -/
def uu (ph node : Nat) : Py (List (SX K)) :=
  unscale d.ocp.nu d.ocp.scaleU fun j => sym (.U ph node j)

/-- Unscaled parameters (mpopt.py:177). -/
def au (ph : Nat) : Py (List (SX K)) := unscale d.ocp.na d.ocp.scaleA fun k => sym (.A k ph)

/-- `(tf - t0) / (tau1 - tau0) * seg_widths[seg, phase]` (mpopt.py:184, 193-195). -/
def hSeg (ph seg : Nat) : Py (SX K) := do
  let w ← d.segWidth seg ph
  return fun σ => (d.tfu ph σ - d.t0u ph σ) / (d.colloc.tau1 - d.colloc.tau0) * w σ

/-- Variables carried by the loop over nodes (mpopt.py:180-184). -/
structure LoopState (K : Type) where
  seg : Nat
  point : Nat
  tSeg0 : SX K
  hSeg : SX K

/-- Body of the loop over nodes up to the computation of `t` (mpopt.py:190-198), including
`point += 1`. Returns the new state and `(t, h_seg)`. -/
def nodeStep (ph : Nat) (st : LoopState K) : Py (LoopState K × (SX K × SX K)) := do
  let p ← pyIdx d.orders st.seg
  let st ← (if st.point > p then do
      let h ← d.hSeg ph (st.seg + 1)
      return ⟨st.seg + 1, 1,
        fun σ => st.tSeg0 σ + st.hSeg σ * (d.colloc.tau1 - d.colloc.tau0), h⟩
    else return st : Py (LoopState K))
  let p' ← pyIdx d.orders st.seg
  let taus ← d.colloc.taus p'
  let tau ← pyIdx taus st.point
  return ({ st with point := st.point + 1 },
    (fun σ => st.tSeg0 σ + st.hSeg σ * (tau - d.colloc.tau0), st.hSeg))

/-- The loop over the remaining nodes. -/
def nodeLoop (ph : Nat) : Nat → LoopState K → Py (List (SX K × SX K))
  | 0, _ => .ok []
  | n + 1, st => do
    let (st', th) ← d.nodeStep ph st
    let rest ← nodeLoop ph n st'
    return th :: rest

/-- `(t, h_seg)` at all nodes of a phase; the times are `self.time_grid[phase]` (mpopt.py:180-209). -/
def nodeGrid (ph : Nat) : Py (List (SX K × SX K)) := do
  let h ← d.hSeg ph 0
  d.nodeLoop ph d.N ⟨0, 0, d.t0u ph, h⟩

/-- Argument tuple `(x, u, t, a)` at a node. -/
structure NodeArg (K : Type) where
  x : List (SX K)
  u : List (SX K)
  t : SX K
  a : Option (List (SX K))
  h : SX K

/-- Arguments at every node (mpopt.py:177, 196-198). -/
def nodeArgs (ph : Nat) : Py (List (NodeArg K)) := do
  let a ← d.au ph
  let grid ← d.nodeGrid ph
  grid.zipIdx.mapM fun (thi : (SX K × SX K) × Nat) => do
    let x ← d.xu ph thi.2
    let u ← d.uu ph thi.2
    return ⟨x, u, thi.1.1, d.ocp.aArg a, thi.1.2⟩

/-- `f[index] = h_seg * (scX @ dynamics(x,u,t,a)).T` (mpopt.py:201): a row of `nx` expressions. -/
def dynRow (dyn : VFun (PArg K) K) (n : NodeArg K) : Py (List (SX K)) :=
  let v := dyn.traceP n.x n.u n.t n.a
  if v.length = d.ocp.nx ∧ d.ocp.scaleX.length = d.ocp.nx then
    .ok ((List.range d.ocp.nx).map fun j => fun σ =>
      n.h σ * (d.ocp.scaleX.getD j 0 * (v.getD j fun _ => 0) σ))
  else .error .shape

/-- `get_discretized_dynamics_constraints_and_cost_matrices` (mpopt.py:154-211): `(f, c, q)`. -/
def discretized (ph : Nat) : Py (List (List (SX K)) × List (List (SX K)) × List (SX K)) := do
  let hasC ← d.ocp.hasPath ph
  let dyn ← pyIdx d.ocp.dynamics ph
  let pc ← pyIdx d.ocp.pathConstraints ph
  let rc ← pyIdx d.ocp.runningCosts ph
  let args ← d.nodeArgs ph
  let f ← args.mapM (d.dynRow dyn)
  let c := match pc with
    | some F => if hasC then args.map fun n => F.traceP n.x n.u n.t n.a else []
    | none => []
  let q := args.map fun n => (fun σ => n.h σ *
    rc ⟨evalAll n.x σ, evalAll n.u σ, n.t σ, n.a.map (evalAll · σ)⟩ : SX K)
  return (f, c, q)

/-- `ca.kron(ca.DM.eye(n), M) if n > 1 else M` (mpopt.py:227-231, 316-320, 405-407). -/
def blockDiag (n : Nat) (M : Mat K) : Mat K := if 1 < n then (Mat.eye n).kron M else M

/-- Numerical matrix as a matrix of constant expressions. -/
def constMat (M : Mat K) : Mat (SX K) := ⟨M.rows, M.cols, fun i j _ => M.e i j⟩

/-- `self.X[phase]`: `N × nx` symbols. -/
def matX (ph : Nat) : Mat (SX K) := ⟨d.N, d.ocp.nx, fun i j => sym (.X ph i j)⟩

/-- `self.U[phase]`: `N × nu` symbols. -/
def matU (ph : Nat) : Mat (SX K) := ⟨d.N, d.ocp.nu, fun i j => sym (.U ph i j)⟩

/-- Constraint block: expressions with lower and upper bounds. -/
structure Block (K : Type) where
  g : List (SX K)
  lo : List (Ext K)
  hi : List (Ext K)

/-- The empty block `([], [], [])`. -/
def Block.empty : Block K := ⟨[], [], []⟩

/-- `[lo] * n`, `[hi] * n` for the `n` expressions of a block. -/
def Block.const (g : List (SX K)) (lo hi : Ext K) : Block K :=
  ⟨g, List.replicate g.length lo, List.replicate g.length hi⟩

/-- `ca.mtimes(M, col)` with a column given as a list. -/
def mtimesCol (M : Mat (SX K)) (col : List (SX K)) : Py (List (SX K)) := do
  let r ← M.mtimes (Mat.ofCol col)
  return r.vec

/-- `a - b` of two columns. -/
def subCol (a b : List (SX K)) : Py (List (SX K)) :=
  if a.length = b.length then .ok (List.zipWith (fun x y σ => x σ - y σ) a b) else .error .shape

/-- `get_nlp_constraints_for_dynamics` (mpopt.py:213-237). -/
def dynBlock (f : List (List (SX K))) (ph : Nat) : Py (Block K) := do
  let lhs ← mtimesCol (constMat (blockDiag d.ocp.nx d.compD)) (d.matX ph).vec
  let F ← subCol lhs (Mat.ofRows d.ocp.nx f).vec
  return Block.const F (.fin 0) (.fin 0)

/-- `get_nlp_constraints_for_path_contraints` (mpopt.py:239-262). -/
def pathBlock (c : List (List (SX K))) (nc : Nat) : Block K :=
  if c.isEmpty then Block.empty
  else Block.const (Mat.ofRows nc c).vec .ninf (.fin 0)

/-- Arguments of the terminal functions (mpopt.py:277-281); `X[phase][-1, :]` is the last node. -/
def termArg (ph : Nat) :
    Py (List (SX K) × SX K × List (SX K) × SX K × Option (List (SX K))) := do
  let x0 ← d.xu ph 0
  let xf ← d.xu ph (d.N - 1)
  let a ← d.au ph
  return (xf, d.tfu ph, x0, d.t0u ph, d.ocp.aArg a)

/-- `get_nlp_constraints_for_terminal_contraints` (mpopt.py:264-300): block and Mayer term. -/
def termBlock (ph : Nat) : Py (Block K × SX K) := do
  let (xf, tf, x0, t0, a) ← d.termArg ph
  let hasT ← d.ocp.hasTerminal ph
  let tc ← pyIdx d.ocp.terminalConstraints ph
  let cost ← pyIdx d.ocp.terminalCosts ph
  let B := match tc with
    | some F => if hasT then Block.const (F.traceT xf tf x0 t0 a) (.fin 0) (.fin 0) else Block.empty
    | none => Block.empty
  return (B, fun σ => cost ⟨evalAll xf σ, tf σ, evalAll x0 σ, t0 σ, a.map (evalAll · σ)⟩)

/-- `get_nlp_constraints_for_control_input_slope` (mpopt.py:302-328). -/
def slopeBlock (ph : Nat) : Py (Block K) := do
  let on ← pyIdx d.ocp.diffU ph
  if on then
    let DU ← mtimesCol (constMat (blockDiag d.ocp.nu d.compD)) (d.matU ph).vec
    let lo ← pyIdx d.ocp.lbdu ph
    let hi ← pyIdx d.ocp.ubdu ph
    return Block.const DU lo hi
  else return Block.empty

/-- `mid_points` (mpopt.py:350-352): midpoints of consecutive entries. -/
def midPoints (tau : List K) : List K :=
  List.zipWith (fun a b => (a + b) / 2) tau tau.tail

/-- `get_nlp_constrains_for_control_input_at_mid_colloc_points` (mpopt.py:330-377). -/
def midBlock [LinearOrder K] (ph : Nat) : Py (Block K) := do
  let on ← pyIdx d.ocp.midu ph
  if on then
    let taus ← d.orders.mapM fun p => do return midPoints (← d.colloc.taus p)
    let I ← compInterpMatrix d.colloc taus d.orders
    let ui ← (constMat I).mtimes (d.matU ph)
    let lbu ← pyIdx d.ocp.lbu ph
    let ubu ← pyIdx d.ocp.ubu ph
    if lbu.any (fun b => Ext.lt .ninf b) || ubu.any (fun b => Ext.lt b .pinf) then
      let lo ← scaleRow lbu d.ocp.scaleU
      let hi ← scaleRow ubu d.ocp.scaleU
      return ⟨ui.vec, lo.flatMap (List.replicate ui.rows), hi.flatMap (List.replicate ui.rows)⟩
    else return Block.empty
  else return Block.empty

/-- `get_nlp_constrains_for_control_slope_continuity_across_segments` (mpopt.py:379-413): rows
`1, 3, …` minus rows `2, 4, …` of the derivative matrix at the segment ends. -/
def contBlock (ph : Nat) : Py (Block K) := do
  let on ← pyIdx d.ocp.duContinuity ph
  if d.nSegments = 1 ∨ on = false then return Block.empty
  else
    let taus := d.orders.map fun _ => [d.colloc.tau0, d.colloc.tau1]
    let D ← compInterpDMatrix d.colloc taus d.orders 1
    let C ← (D.everySecondRow 1 (D.rows - 1)).sub (D.everySecondRow 2 (D.rows - 1))
    let dU ← mtimesCol (constMat (blockDiag d.ocp.nu C)) (d.matU ph).vec
    return Block.const dU (.fin 0) (.fin 0)

/-- Stack blocks (mpopt.py:458-460). -/
def Block.append (a b : Block K) : Block K := ⟨a.g ++ b.g, a.lo ++ b.lo, a.hi ++ b.hi⟩

/-- `ca.mtimes(self._compW, ca.vertcat(*q))` (mpopt.py:455). -/
def quadCost (q : List (SX K)) : Py (SX K) :=
  if d.compW.length = q.length then
    .ok fun σ => (List.zipWith (fun w qi => w * qi σ) d.compW q).sum
  else .error .shape

/-- Number of path constraints of a phase: `c.shape[1]` (mpopt.py:249-258). -/
def pathLen (pc : Option (VFun (PArg K) K)) : Nat :=
  match pc with
  | some F => F.len
  | none => 0

/-- `discretize_phase` (mpopt.py:415-462): `(G, Gmin, Gmax)` and the objective. -/
def discretizePhase [LinearOrder K] (ph : Nat) : Py (Block K × SX K) := do
  let (f, c, q) ← d.discretized ph
  let F ← d.dynBlock f ph
  let pc ← pyIdx d.ocp.pathConstraints ph
  let C := pathBlock c (pathLen pc)
  let (TC, mayer) ← d.termBlock ph
  let DU ← d.slopeBlock ph
  let mU ← d.midBlock ph
  let dU ← d.contBlock ph
  let lagrange ← d.quadCost q
  return (F.append (C.append (DU.append (mU.append (dU.append TC)))),
    fun σ => mayer σ + lagrange σ)

/-- `get_event_constraints` (mpopt.py:464-521), the three blocks stacked. Indices of phases beyond
`n_phases` raise (negative indices: `Model/Negative`). -/
def eventBlock [LinearOrder K] : Py (Block K) :=
  if d.ocp.nPhases < 2 then .ok Block.empty
  else do
    let links := d.ocp.phaseLinks
    let n := links.length
    if links.any (fun l => decide (d.ocp.nPhases ≤ l.1) || decide (d.ocp.nPhases ≤ l.2)) then
      Except.error PyErr.index
    let E0 := links.flatMap fun l => (List.range d.ocp.nx).map fun j =>
      (fun σ => σ (.X l.2 0 j) - σ (.X l.1 (d.N - 1) j) : SX K)
    let lo0 ← (List.range n).mapM fun k => do scaleRow (← pyIdx d.ocp.lbe k) d.ocp.scaleX
    let lo0 ← npConcat lo0
    let hi0 ← (List.range n).mapM fun k => do scaleRow (← pyIdx d.ocp.ube k) d.ocp.scaleX
    let hi0 ← npConcat hi0
    let E1 := links.flatMap fun l => (List.range d.ocp.nu).map fun j =>
      (fun σ => σ (.U l.2 0 j) - σ (.U l.1 (d.N - 1) j) : SX K)
    let b1 ← npConcat ((List.range n).map fun _ => List.replicate d.ocp.nu (Ext.fin (0 : K)))
    let E2 := links.map fun l => (fun σ => σ (.T0 l.2) - σ (.Tf l.1) : SX K)
    let b2 := List.replicate n (Ext.fin (0 : K))
    return ⟨E0 ++ (E1 ++ E2), lo0 ++ (b1 ++ b2), hi0 ++ (b1 ++ b2)⟩

/-- The variable vector of a phase, `Z` (mpopt.py:537-543): column-major. -/
def phaseVars (ph : Nat) : List Sym :=
  ((List.range d.ocp.nx).flatMap fun j => (List.range d.N).map fun i => Sym.X ph i j) ++
  ((List.range d.ocp.nu).flatMap fun j => (List.range d.N).map fun i => Sym.U ph i j) ++
  [Sym.T0 ph, Sym.Tf ph] ++
  (List.range d.ocp.na).map fun k => Sym.A k ph

/-- Bounds on the states of a phase: `np.concatenate(np.array(xmin_vec).T)`, with the first node of
phase 0 replaced by `x00[0] * scale_x` (mpopt.py:546-551, 555). -/
def stateBounds (row : List (Ext K)) (first : List (Ext K)) : Py (List (Ext K)) :=
  npConcat ((List.range d.ocp.nx).map fun j => (List.range d.N).map fun i =>
    if i = 0 then first.getD j .nan else row.getD j .nan)

/-- One of `Zmin`, `Zmax` for a phase (mpopt.py:546-570). -/
def varBounds [LinearOrder K] (ph : Nat) (bx bu bt0 btf ba : List (List (Ext K))) :
    Py (List (Ext K)) := do
  let row ← scaleRow (← pyIdx bx ph) d.ocp.scaleX
  let first ← (if ph = 0 then do
      let x0 ← mulRow (← pyIdx d.ocp.x00 0) d.ocp.scaleX
      return x0.map Ext.fin
    else return row : Py (List (Ext K)))
  let xs ← d.stateBounds row first
  let us ← scaleRow (← pyIdx bu ph) d.ocp.scaleU
  let t0 := (← pyIdx bt0 ph).map (Ext.mul · d.ocp.scaleT)
  let tf := (← pyIdx btf ph).map (Ext.mul · d.ocp.scaleT)
  let as ← scaleRow (← pyIdx ba ph) d.ocp.scaleA
  return xs ++ us.flatMap (List.replicate d.N) ++ t0 ++ tf ++ as

/-- `get_nlp_variables` (mpopt.py:523-572): `(Z, Zmin, Zmax)`. -/
def nlpVariables [LinearOrder K] (ph : Nat) : Py (List Sym × List (Ext K) × List (Ext K)) := do
  let lo ← d.varBounds ph d.ocp.lbx d.ocp.lbu d.ocp.lbt0 d.ocp.lbtf d.ocp.lba
  let hi ← d.varBounds ph d.ocp.ubx d.ocp.ubu d.ocp.ubt0 d.ocp.ubtf d.ocp.uba
  return (d.phaseVars ph, lo, hi)

/-- The NLP handed to the solver (mpopt.py:631-637). -/
structure NLP (K : Type) where
  f : SX K
  x : List Sym
  g : List (SX K)
  p : List Sym
  lbx : List (Ext K)
  ubx : List (Ext K)
  lbg : List (Ext K)
  ubg : List (Ext K)

/-- `self.seg_widths[:]` (mpopt.py:631). -/
def widthParams : List Sym :=
  (List.range d.ocp.nPhases).flatMap fun ph => (List.range d.nSegments).map fun s => Sym.H s ph

/-- `create_nlp` (mpopt.py:574-639). -/
def createNlp [LinearOrder K] : Py (NLP K) := do
  let phases ← (List.range d.ocp.nPhases).mapM fun ph => do
    let z ← d.nlpVariables ph
    let g ← d.discretizePhase ph
    return (z, g)
  let ev ← d.eventBlock
  let evs := if 1 < d.ocp.nPhases then [ev] else []
  let lbg ← npConcat (phases.map (·.2.1.lo) ++ evs.map (·.lo))
  let ubg ← npConcat (phases.map (·.2.1.hi) ++ evs.map (·.hi))
  let lbx ← npConcat (phases.map (·.1.2.1))
  let ubx ← npConcat (phases.map (·.1.2.2))
  return {
    f := fun σ => (phases.map fun zg => zg.2.2 σ).sum
    x := (phases.map (·.1.1)).flatten
    g := (phases.map (·.2.1.g) ++ evs.map (·.g)).flatten
    p := d.widthParams
    lbx, ubx, lbg, ubg }

end Disc
end
end MPOpt
