import Verif.Model.Py

/-!
# `OCP` (mpopt.py:3378-3703)

Arrays are lists of rows. User callables are arbitrary functions with a fixed number of outputs:
CasADi calls them once with symbols, so the number of outputs (and whether the result is `None`) cannot
depend on the values. The parameter argument is absent (`none`) when `na = 0`
(`get_dynamics` etc., mpopt.py:3494-3571).
-/

set_option autoImplicit false

namespace MPOpt

/-- Arguments `(x, u, t, a)` of dynamics, path constraints and running cost. -/
structure PArg (K : Type) where
  x : List K
  u : List K
  t : K
  a : Option (List K)

/-- Arguments `(xf, tf, x0, t0, a)` of terminal constraints and terminal cost. -/
structure TArg (K : Type) where
  xf : List K
  tf : K
  x0 : List K
  t0 : K
  a : Option (List K)

/-- A callable returning a list of fixed length. -/
structure VFun (A K : Type) where
  len : Nat
  f : A → Nat → K

/-- Calling it with numbers. -/
def VFun.call {A K : Type} (F : VFun A K) (arg : A) : List K := (List.range F.len).map (F.f arg)

/-- Attributes of an `OCP` object (mpopt.py:3420-3486). Plot settings are left out. `t00`, `tf0`,
`lbt0`, … are `(n_phases, 1)` arrays. -/
structure OCP (K : Type) where
  nx : Nat
  nu : Nat
  na : Nat
  nPhases : Nat
  dynamics : List (VFun (PArg K) K)
  pathConstraints : List (Option (VFun (PArg K) K))
  terminalCosts : List (TArg K → K)
  runningCosts : List (PArg K → K)
  terminalConstraints : List (Option (VFun (TArg K) K))
  phaseLinks : List (Nat × Nat)
  scaleX : List K
  scaleU : List K
  scaleA : List K
  scaleT : K
  x00 : List (List K)
  xf0 : List (List K)
  u00 : List (List K)
  uf0 : List (List K)
  t00 : List (List K)
  tf0 : List (List K)
  a0 : List (List K)
  lbx : List (List (Ext K))
  ubx : List (List (Ext K))
  lbu : List (List (Ext K))
  ubu : List (List (Ext K))
  lba : List (List (Ext K))
  uba : List (List (Ext K))
  lbt0 : List (List (Ext K))
  ubt0 : List (List (Ext K))
  lbtf : List (List (Ext K))
  ubtf : List (List (Ext K))
  lbe : List (List (Ext K))
  ube : List (List (Ext K))
  diffU : List Bool
  lbdu : List (Ext K)
  ubdu : List (Ext K)
  midu : List Bool
  duContinuity : List Bool

variable {K : Type}

/-- The parameter argument passed to user callables: omitted when `na == 0`
(`get_dynamics`, `get_path_constraints`, …, mpopt.py:3494-3571). -/
def OCP.aArg {α : Type} (ocp : OCP K) (a : α) : Option α := if ocp.na = 0 then none else some a

/-- `OCP(n_states, n_controls, n_phases, n_params)` (mpopt.py:3399-3492). With `n_phases = 0` the
assignment `self.ubt0[0] = 0.0` raises `IndexError`. -/
def mkOCP [Field K] (nx nu nPhases na : Nat) : Py (OCP K) :=
  if nPhases = 0 then .error .index
  else .ok {
    nx, nu, na, nPhases
    dynamics := List.replicate nPhases ⟨nx, fun _ _ => 0⟩
    pathConstraints := List.replicate nPhases none
    terminalCosts := List.replicate nPhases fun _ => 0
    runningCosts := List.replicate nPhases fun _ => 0
    terminalConstraints := List.replicate nPhases none
    phaseLinks := (List.range (nPhases - 1)).map fun i => (i, i + 1)
    scaleX := List.replicate nx 1
    scaleU := List.replicate nu 1
    scaleA := List.replicate na 1
    scaleT := 1
    x00 := List.replicate nPhases (List.replicate nx 0)
    xf0 := List.replicate nPhases (List.replicate nx 0)
    u00 := List.replicate nPhases (List.replicate nu 0)
    uf0 := List.replicate nPhases (List.replicate nu 0)
    t00 := List.replicate nPhases [0]
    tf0 := List.replicate nPhases [1]
    a0 := List.replicate nPhases (List.replicate na 0)
    lbx := List.replicate nPhases (List.replicate nx .ninf)
    ubx := List.replicate nPhases (List.replicate nx .pinf)
    lbu := List.replicate nPhases (List.replicate nu .ninf)
    ubu := List.replicate nPhases (List.replicate nu .pinf)
    lba := List.replicate nPhases (List.replicate na .ninf)
    uba := List.replicate nPhases (List.replicate na .pinf)
    lbt0 := List.replicate nPhases [.fin 0]
    ubt0 := [.fin 0] :: List.replicate (nPhases - 1) [.pinf]
    lbtf := List.replicate nPhases [.fin 0]
    ubtf := List.replicate nPhases [.pinf]
    lbe := List.replicate (nPhases - 1) (List.replicate nx (.fin 0))
    ube := List.replicate (nPhases - 1) (List.replicate nx (.fin 0))
    diffU := List.replicate nPhases false
    lbdu := List.replicate nPhases (.fin (-15))
    ubdu := List.replicate nPhases (.fin 15)
    midu := List.replicate nPhases true
    duContinuity := List.replicate nPhases false }

/-- `has_path_constraints` (mpopt.py:3573-3594). -/
def OCP.hasPath (ocp : OCP K) (ph : Nat) : Py Bool := do
  let c ← pyIdx ocp.pathConstraints ph
  return c.isSome

/-- `has_terminal_constraints` (mpopt.py:3596-3626). -/
def OCP.hasTerminal (ocp : OCP K) (ph : Nat) : Py Bool := do
  let c ← pyIdx ocp.terminalConstraints ph
  return c.isSome

/-- `arr.shape == (r, c)` for a two-dimensional array given by its rows. -/
def shapeIs {α : Type} (arr : List (List α)) (r c : Nat) : Bool :=
  arr.length == r && arr.all (fun row => row.length == c)

/-- Comparison of one row of bounds, entry by entry (mpopt.py:3693-3703). -/
def rowLe [LE K] [DecidableRel (α := K) (· ≤ ·)] (n : Nat) (lo hi : List (List (Ext K))) (ph : Nat) :
    Py Unit := do
  let l ← pyIdx lo ph
  let u ← pyIdx hi ph
  (List.range n).forM fun i => do
    let li ← pyIdx l i
    let ui ← pyIdx u i
    pyAssert (Ext.le li ui)

/-- `OCP.validate` (mpopt.py:3628-3703). The costs being `not None` is part of their type here. -/
def OCP.validate [LE K] [DecidableRel (α := K) (· ≤ ·)] (ocp : OCP K) : Py Unit := do
  pyAssert (decide (0 < ocp.nPhases))
  pyAssert (ocp.dynamics.length == ocp.nPhases)
  pyAssert (ocp.runningCosts.length == ocp.nPhases)
  pyAssert (ocp.terminalCosts.length == ocp.nPhases)
  pyAssert (ocp.pathConstraints.length == ocp.nPhases)
  pyAssert (ocp.terminalConstraints.length == ocp.nPhases)
  (List.range ocp.nPhases).forM fun ph => do
    let _ ← pyIdx ocp.x00 ph
    let _ ← pyIdx ocp.u00 ph
    let _ ← pyIdx ocp.t00 ph
    let _ ← pyIdx ocp.a0 ph
    let dyn ← pyIdx ocp.dynamics ph
    let pc ← pyIdx ocp.pathConstraints ph
    let tc ← pyIdx ocp.terminalConstraints ph
    pyAssert (dyn.len == ocp.nx)
    match pc with
    | some c => pyAssert (decide (0 < c.len))
    | none => pure ()
    match tc with
    | some c => pyAssert (decide (0 < c.len))
    | none => pure ()
  pyAssert (ocp.scaleX.length == ocp.nx)
  pyAssert (ocp.scaleU.length == ocp.nu)
  pyAssert (ocp.scaleA.length == ocp.na)
  pyAssert (shapeIs ocp.x00 ocp.nPhases ocp.nx)
  pyAssert (shapeIs ocp.xf0 ocp.nPhases ocp.nx)
  pyAssert (shapeIs ocp.u00 ocp.nPhases ocp.nu)
  pyAssert (shapeIs ocp.uf0 ocp.nPhases ocp.nu)
  pyAssert (shapeIs ocp.a0 ocp.nPhases ocp.na)
  pyAssert (shapeIs ocp.t00 ocp.nPhases 1)
  pyAssert (shapeIs ocp.tf0 ocp.nPhases 1)
  pyAssert (shapeIs ocp.lbx ocp.nPhases ocp.nx)
  pyAssert (shapeIs ocp.ubx ocp.nPhases ocp.nx)
  pyAssert (shapeIs ocp.lbu ocp.nPhases ocp.nu)
  pyAssert (shapeIs ocp.ubu ocp.nPhases ocp.nu)
  pyAssert (shapeIs ocp.lba ocp.nPhases ocp.na)
  pyAssert (shapeIs ocp.uba ocp.nPhases ocp.na)
  pyAssert (shapeIs ocp.lbt0 ocp.nPhases 1)
  pyAssert (shapeIs ocp.ubt0 ocp.nPhases 1)
  pyAssert (shapeIs ocp.lbtf ocp.nPhases 1)
  pyAssert (shapeIs ocp.ubtf ocp.nPhases 1)
  pyAssert (ocp.lbe.length == ocp.nPhases - 1)
  pyAssert (ocp.ube.length == ocp.nPhases - 1)
  if 1 < ocp.nPhases then
    pyAssert (ocp.lbe.all fun r => r.length == ocp.nx)
    pyAssert (ocp.ube.all fun r => r.length == ocp.nx)
  (List.range ocp.nPhases).forM fun ph => do
    rowLe ocp.nx ocp.lbx ocp.ubx ph
    rowLe ocp.nu ocp.lbu ocp.ubu ph
    rowLe ocp.na ocp.lba ocp.uba ph
    rowLe 1 ocp.lbt0 ocp.ubt0 ph
    rowLe 1 ocp.lbtf ocp.ubtf ph
    if ph < ocp.nPhases - 1 then rowLe ocp.nx ocp.lbe ocp.ube ph

end MPOpt
