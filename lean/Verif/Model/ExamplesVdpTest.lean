import Verif.Model.OCP
import Mathlib.Data.Real.Basic

/-!
# The Van der Pol problem of the test suite

As in `Verif.Model.Examples`.
-/

set_option autoImplicit false

namespace MPOpt

/-- tests/test_mpopt.py:206-227. -/
noncomputable def fixtureVdp : Py (OCP ℝ) := do
  let o ← mkOCP 2 1 1 0
  return { o with
    dynamics := o.dynamics.set 0 ⟨2, fun p j =>
      if j = 0 then (1 - p.x.getD 1 0 * p.x.getD 1 0) * p.x.getD 0 0 - p.x.getD 1 0 + p.u.getD 0 0 else p.x.getD 0 0⟩
    runningCosts := o.runningCosts.set 0 fun p =>
      p.x.getD 0 0 * p.x.getD 0 0 + p.x.getD 1 0 * p.x.getD 1 0 + p.u.getD 0 0 * p.u.getD 0 0
    x00 := o.x00.set 0 [0, 1]
    lbu := o.lbu.set 0 [.fin (-1)]
    ubu := o.ubu.set 0 [.fin 1]
    lbx := o.lbx.set 0 ((o.lbx.getD 0 []).set 1 (.fin (-1 / 4)))
    lbtf := o.lbtf.set 0 [.fin 10]
    ubtf := o.ubtf.set 0 [.fin 10] }

end MPOpt
