import Verif.Model.OCP
import Mathlib.Data.Real.Basic

/-!
# The shipped Van der Pol example

As in `Verif.Model.Examples`.
-/

set_option autoImplicit false

namespace MPOpt

/-- examples/singlephase/dae_vdp.py:29-59. Assigning a number to a row (`ocp.lbu[0] = -1.0`) fills it. -/
noncomputable def scriptVdp : Py (OCP ℝ) := do
  let o ← mkOCP 2 1 1 1
  return { o with
    dynamics := o.dynamics.set 0 ⟨2, fun p j =>
      if j = 0 then (1 - p.x.getD 1 0 * p.x.getD 1 0) * p.x.getD 0 0 - p.x.getD 1 0 + p.u.getD 0 0 else p.x.getD 0 0⟩
    runningCosts := o.runningCosts.set 0 fun p =>
      p.x.getD 0 0 * p.x.getD 0 0 + p.x.getD 1 0 * p.x.getD 1 0 + p.u.getD 0 0 * p.u.getD 0 0
    pathConstraints := o.pathConstraints.set 0 (some ⟨1, fun p _ => (p.a.getD []).getD 0 0 - p.x.getD 1 0⟩)
    x00 := o.x00.set 0 [0, 1]
    lbu := o.lbu.set 0 [.fin (-1)]
    ubu := o.ubu.set 0 [.fin 1]
    lba := o.lba.set 0 [.fin (1 / 4)]
    uba := o.uba.set 0 [.fin (1 / 2)]
    lbx := o.lbx.set 0 ((o.lbx.getD 0 []).set 1 (.fin (-1 / 4)))
    lbtf := o.lbtf.set 0 [.fin 10]
    ubtf := o.ubtf.set 0 [.fin 10] }

end MPOpt
