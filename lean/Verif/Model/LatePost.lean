import Verif.Model.PostProcess

/-! # `get_data` after the class settings changed

`get_interpolated_data` creates a new `Collocation` (mpopt.py:1791), which reads `CollocationRoots._TAU_MIN` and
`_TAU_MAX` and `Collocation.D_MATRIX_METHOD` when it is called; `self.tau0` and `self.tau1` are those stored in the options
when the problem was solved (mpopt.py:944-945, 1620-1632). `Model/PostProcess.lean` takes both to be the same. -/

set_option autoImplicit false

namespace MPOpt
variable {K : Type} [Field K] [LinearOrder K]

namespace Post
variable (p : Post K) (c : Colloc K)

/-- Interpolation nodes (mpopt.py:1790-1801): the new `Collocation` is only asked for the old nodes, which the method
"uniform" does not use. -/
def interpNodesIn : Py (List (List K)) := do
  let d := p.solved.disc.colloc
  let taus ← p.solved.disc.orders.mapM fun q => do
    let orig ← c.taus q
    return (← interpolationTaus d.tau0 d.tau1 50 (some orig) "uniform").drop 1
  let first ← pyIdx taus 0
  return taus.set 0 (d.tau0 :: first)

/-- `get_interpolated_data` (mpopt.py:1773-1831) with `Collocation(poly_orders, scheme)` being `c`. -/
def interpolatedDataIn (phases : List Nat) (taus : Option (List (List K))) : Py (PostData K) := do
  let d := p.solved.disc
  let taus ← (match taus with
    | some t => .ok t
    | none => p.interpNodesIn c : Py (List (List K)))
  let I ← compInterpMatrix c taus d.orders
  let first ← p.phaseAt I taus (← pyIdx phases 0)
  phases.tail.foldlM (fun acc ph => do
    let q ← p.phaseAt I taus ph
    return ⟨← acc.x.vstack q.x, ← acc.u.vstack q.u, acc.t ++ q.t, ← acc.a.hstack q.a⟩) first

/-- `get_data` (mpopt.py:1833-1855). -/
def getDataIn (phases : List Nat) (interpolate : Bool) : Py (PostData K) :=
  let phases := if phases.isEmpty then p.phases else phases
  if interpolate then p.interpolatedDataIn c phases none else p.originalData phases

end Post
end MPOpt
