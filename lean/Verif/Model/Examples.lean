import Verif.Model.OCP

/-!
# Problems of the shipped examples

Each is the `OCP` object at the end of the script: constructor (`mkOCP`) followed by the script's assignments. A scalar
assigned to a row fills it. Decimal literals are read as the exact rationals they denote.
-/

set_option autoImplicit false

namespace MPOpt
variable {K : Type} [Field K]

/-- examples/singlephase/ocp_with_solution.py:32-50 (Example 3.10 of Chachuat's lecture notes). -/
def scriptWithSolution : Py (OCP K) := do
  let o ← mkOCP 1 1 1 0
  return { o with
    dynamics := o.dynamics.set 0 ⟨1, fun p _ => 2 * (1 - p.u.getD 0 0)⟩
    runningCosts := o.runningCosts.set 0 fun p => 1 / 2 * p.u.getD 0 0 * p.u.getD 0 0 - p.x.getD 0 0
    x00 := o.x00.set 0 [1]
    lbtf := o.lbtf.set 0 [.fin 1]
    ubtf := o.ubtf.set 0 [.fin 1] }

/-- examples/singlephase/moon_lander.py:30-61. -/
def scriptMoonLander : Py (OCP K) := do
  let o ← mkOCP 2 1 1 0
  return { o with
    dynamics := o.dynamics.set 0 ⟨2, fun p j => if j = 0 then p.x.getD 1 0 else p.u.getD 0 0 - 3 / 2⟩
    runningCosts := o.runningCosts.set 0 fun p => p.u.getD 0 0
    terminalConstraints := o.terminalConstraints.set 0
      (some ⟨2, fun t j => if j = 0 then t.xf.getD 0 0 else t.xf.getD 1 0⟩)
    tf0 := o.tf0.set 0 [4]
    x00 := o.x00.set 0 [10, -2]
    lbx := o.lbx.set 0 [.fin 0, .fin (-20)]
    ubx := o.ubx.set 0 [.fin 20, .fin 20]
    lbu := o.lbu.set 0 [.fin 0]
    ubu := o.ubu.set 0 [.fin 3]
    lbtf := o.lbtf.set 0 [.fin 3]
    ubtf := o.ubtf.set 0 [.fin 5] }

/-- examples/singlephase/hyper_sensitive.py:31-39. -/
def scriptHyperSensitive : Py (OCP K) := do
  let o ← mkOCP 1 1 1 0
  return { o with
    dynamics := o.dynamics.set 0 ⟨1, fun p _ => -p.x.getD 0 0 * p.x.getD 0 0 * p.x.getD 0 0 + p.u.getD 0 0⟩
    runningCosts := o.runningCosts.set 0 fun p =>
      1 / 2 * (p.x.getD 0 0 * p.x.getD 0 0 + p.u.getD 0 0 * p.u.getD 0 0)
    terminalConstraints := o.terminalConstraints.set 0 (some ⟨1, fun t _ => t.xf.getD 0 0 - 1⟩)
    x00 := o.x00.set 0 [1]
    lbtf := o.lbtf.set 0 [.fin 1000]
    ubtf := o.ubtf.set 0 [.fin 1000]
    scaleT := 1 / 1000 }

/-- examples/Multi-phase/tpschwartz.py:30-65. -/
def scriptSchwartz : Py (OCP K) := do
  let o ← mkOCP 2 1 2 0
  let dyn : VFun (PArg K) K := ⟨2, fun p j => if j = 0 then p.x.getD 1 0 else
    p.u.getD 0 0 - 1 / 10 * (1 + 2 * p.x.getD 0 0 * p.x.getD 0 0) * p.x.getD 1 0⟩
  return { o with
    dynamics := [dyn, dyn]
    pathConstraints := o.pathConstraints.set 0 (some ⟨1, fun p _ =>
      1 - 9 * (p.x.getD 0 0 - 1) * (p.x.getD 0 0 - 1) -
        (p.x.getD 1 0 - 2 / 5) * (p.x.getD 1 0 - 2 / 5) / (3 / 10 * (3 / 10))⟩)
    terminalCosts := o.terminalCosts.set 1 fun t =>
      5 * (t.xf.getD 0 0 * t.xf.getD 0 0 + t.xf.getD 1 0 * t.xf.getD 1 0)
    x00 := (o.x00.set 0 [1, 1]).set 1 [1, 1]
    xf0 := (o.xf0.set 0 [1, 1]).set 1 [0, 0]
    lbx := o.lbx.set 0 ((o.lbx.getD 0 []).set 1 (.fin (-4 / 5)))
    lbu := o.lbu.set 0 [.fin (-1)]
    ubu := o.ubu.set 0 [.fin 1]
    lbt0 := o.lbt0.set 0 [.fin 0]
    ubt0 := o.ubt0.set 0 [.fin 0]
    lbtf := (o.lbtf.set 0 [.fin 1]).set 1 [.fin (29 / 10)]
    ubtf := (o.ubtf.set 0 [.fin 1]).set 1 [.fin (29 / 10)] }

end MPOpt
