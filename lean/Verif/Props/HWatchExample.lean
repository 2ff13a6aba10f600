import Verif.Props.HWatch
import Verif.Props.HEndExample

/-! # Concrete watched runs for C85 -/

set_option autoImplicit false

namespace MPOpt

/-- Two iterations of the default method. -/
def watchedH (initial : Option (PyDict (List ℚ))) : HArgs (List ℚ) := ⟨initial, false, "ipopt", [], [], 2⟩

/-- `C85_unchanged` and `C85_figure`: the run returns, with four lines for each of the two solver calls. -/
theorem C85_example : ∃ s' ax' sol, hoptH.solveWatched outsideH (nlpsolC 0) [[0]] none (watchedH none) = (s', ax', .ok sol) ∧
    hoptH.solve outsideH (nlpsolC 0) (watchedH none) = (s', .ok sol) ∧
    (ax'.getD .empty).curves.map (·.label) = [some "Iter 0 ", none, none, none, some "Iter 1 ", none, none, none] ∧
    ((ax'.getD .empty).curves.map (·.y.max?)).getD 4 none = some (151 / 105) := by
  have hr : ∃ sol, (hoptH.solveWatched outsideH (nlpsolC 0) [[0]] none (watchedH none)).2.2 = .ok sol :=
    ⟨[("x", [0, 2, 0, 1, 1, 1, 0, 1])], by decide +kernel⟩
  obtain ⟨sol, hr⟩ := hr
  obtain ⟨u1, u2⟩ := C85_unchanged (w := outsideH) (nlpsol := nlpsolC 0) (s := hoptH) (groups := [[0]]) (by simp)
    (by simp [hoptH, ocpQ]) none (watchedH none) (fun _ => by simp [watchedH])
  refine ⟨_, _, sol, Prod.ext rfl (Prod.ext rfl hr), Prod.ext u1.symm (u2.symm.trans hr), ?_, ?_⟩ <;> decide +kernel

/-- A solution given by the caller is drawn as number 0, and the result of the first call as number 0 again. -/
example : ((hoptH.solveWatched outsideH (nlpsolC 0) [[0]] none (watchedH (some [("x", [0, 2, 0, 1, 1, 1, 0, 1])]))).2.1.getD
    .empty).curves.filterMap (·.label) = ["Iter 0 ", "Iter 0 ", "Iter 1 "] := by decide +kernel

/-- `C85_groups`: with two entries, `TypeError`. -/
example : (hoptH.solveWatched outsideH (nlpsolC 0) [[0], [0]] none (watchedH none)).2.2 = .error .type := by decide +kernel

/-- Two segments of order 2, with few check points. -/
def hoptS : HOpt ℚ (List ℚ) := { hoptH with orders := [2, 2], maxGrid := 1 }

/-- A solver that never settles: the control bends in the first segment and in the second, by turns. -/
def nlpsolS (k : Nat) (_ : SolverCall ℚ (List ℚ)) : Py (PyDict (List ℚ)) :=
  .ok [("x", if k % 2 = 0 then [0, 0, 0, 0, 0, 4, 16 / 9, 0, 0, 0, 0, 1] else [0, 0, 0, 0, 0, 0, 0, 0, 4 / 9, 4, 0, 1])]

def slopeH (n : Nat) : HArgs (List ℚ) := ⟨none, false, "ipopt", [], [("method", "control_slope")], n⟩

/-- `C85_markers`: 76 iterations of the control-slope method return, and raise `IndexError` when they are watched. -/
theorem C85_markers_example : (∃ sol, (hoptS.solve outsideH nlpsolS (slopeH 76)).2 = .ok sol) ∧
    (hoptS.solveWatched outsideH nlpsolS [[0]] none (slopeH 76)).2.2 = .error .index := by
  have hr : (hoptS.solve outsideH nlpsolS (slopeH 76)).2 = .ok [("x", [0, 0, 0, 0, 0, 0, 0, 0, 4 / 9, 4, 0, 1])] := by
    decide +kernel
  have hc : (do
      let E ← (hoptS.begun outsideH (slopeH 76)).1.env outsideH nlpsolS (hMethodDict (slopeH 76).method)
      return decide (75 < (E.solve none none 76).1.calls.length) : Py Bool) = .ok true := by decide +kernel
  obtain ⟨E, hE, hc⟩ := py_bind_eq_ok.1 hc
  have hc := of_decide_eq_true (py_pure_eq_ok.1 hc)
  exact ⟨⟨_, hr⟩, C85_markers (by simp) (by simp [hoptS, hoptH, ocpQ]) (by simp [hoptS, hoptH]) none (slopeH 76) rfl hE hr hc⟩

end MPOpt
