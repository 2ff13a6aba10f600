import Verif.Model.OCP
import Mathlib.Data.Real.Basic

/-!
# Problems of further shipped examples

As in `Verif.Model.Examples`.
-/

set_option autoImplicit false

namespace MPOpt

/-- examples/singlephase/mine_opt_wiki.py:31-51. The running cost divides by the state, whose lower bound is 0. CasADi then
yields an infinity or nan, which no number stands for; `atZero` (of the control) is what the model takes instead. -/
noncomputable def scriptMine (atZero : ℝ → ℝ) : Py (OCP ℝ) := do
  let o ← mkOCP 1 1 1 0
  return { o with
    dynamics := o.dynamics.set 0 ⟨1, fun p _ => -p.u.getD 0 0⟩
    runningCosts := o.runningCosts.set 0 fun p => if p.x.getD 0 0 = 0 then atZero (p.u.getD 0 0) else
      p.u.getD 0 0 * p.u.getD 0 0 / p.x.getD 0 0 - 1 * p.u.getD 0 0
    x00 := o.x00.set 0 [1]
    lbx := o.lbx.set 0 [.fin 0]
    ubx := o.ubx.set 0 [.fin 1]
    lbtf := o.lbtf.set 0 [.fin 1]
    ubtf := o.ubtf.set 0 [.fin 1] }

end MPOpt
