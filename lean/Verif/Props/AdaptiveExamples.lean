import Verif.Props.Adaptive
import Verif.Props.PostExamples

/-! # Concrete adaptive problems: hypotheses are met, feasible and infeasible points, C19 -/

set_option autoImplicit false

namespace MPOpt

/-- An `mpopt_adaptive` object over ℚ. -/
def adaptQ (ocp : OCP ℚ) (orders : List Nat) : Py (Adapt ℚ) := do
  return mkAdapt (← mkDisc libQ .numerical (-1) 1 ocp orders.length orders "LGR")

/-- Whether a vector meets bounds and constraints of the adaptive NLP. -/
def adaptFeasQ (ocp : OCP ℚ) (orders : List Nat) (z : List ℚ) : Py (Bool × Bool) := do
  let ad ← adaptQ ocp orders
  let nlp ← ad.solverProblem
  let σ := bindSyms nlp.x z
  return (holdsB (nlp.x.map σ) nlp.lbx nlp.ubx, holdsB (evalAll nlp.g σ) nlp.lbg nlp.ubg)

/-- All theorems of `Props/Adaptive.lean` apply to the two-phase problem. -/
theorem adaptQ2_ready : ∃ (ad : Adapt ℚ) (M : Mesh ℚ), adaptQ ocpQ2 [1, 2] = .ok ad ∧ ad.disc.OnMesh M ∧
    M.orders = [1, 2] ∧ ad.disc.ocp.validate = .ok () ∧ ValidOCP ad.disc.ocp ∧ ad.disc.ocp.SettingsOK ∧
    ad.disc.ocp.PosScales ∧ ad.Ready ∧ ad.midResiduals = true ∧
    (∀ ph < ad.disc.ocp.nPhases, ad.lbh.getD ph 0 ≤ ad.ubh.getD ph 0 ∧ 0 ≤ ad.tol.getD ph 0) ∧
    ∀ ph < ad.disc.ocp.nPhases, entry ad.disc.ocp.t00 ph 0 0 ≠ entry ad.disc.ocp.tf0 ph 0 0 := by
  obtain ⟨d, M, hd, h, he, ho, -⟩ := exampleDisc2
  obtain ⟨hval, hv, hs, hsc⟩ := ocpQ2_ready
  refine ⟨mkAdapt d, M, ?_, h, ho, ?_, ?_, ?_, ?_, mkAdapt_ready d, rfl, ?_, ?_⟩
  · unfold adaptQ
    rw [show ([1, 2] : List Nat).length = 2 from rfl, hd]; rfl
  all_goals (show _; simp only [mkAdapt, he])
  · exact hval
  · exact hv
  · exact hs
  · exact hsc
  · decide +kernel
  · decide +kernel

/-- `x' = 1/4` from 0 to 1 on `[0, 4]`, cut at `t = 1`: widths 1/4 and 3/4. -/
def zAd : List ℚ := [0, 1/2, 2, 1/4, 1/4, 1/4, 0, 4, 1/4, 3/4]

/-- That point is feasible. -/
example : adaptFeasQ ocpQ [1, 1] zAd = .ok (true, true) := by decide +kernel

/-- Widths that do not sum to one violate a constraint, even with matching states. -/
example : adaptFeasQ ocpQ [1, 1] [0, 1/2, 1, 1/4, 1/4, 1/4, 0, 4, 1/4, 1/4] = .ok (true, false) := by
  decide +kernel

/-- A width below `lbh` violates a bound. -/
example : adaptFeasQ ocpQ [1, 1] [0, 0, 2, 1/4, 1/4, 1/4, 0, 4, 0, 1] = .ok (false, true) := by
  decide +kernel

/-- A collocated point with a large defect half-way violates the residual rows. -/
example : adaptFeasQ ocpQ [1, 1] [0, 1/2, 2, 1/8, 1/8, 3/8, 0, 4, 1/2, 1/2] = .ok (true, false) := by
  decide +kernel

/-- Without the residual rows the same point is feasible. -/
example : (adaptQ ocpQ [1, 1] >>= fun ad => do
      let nlp ← { ad with midResiduals := false : Adapt ℚ }.createNlp
      let σ := bindSyms nlp.x [0, 1/2, 2, 1/8, 1/8, 3/8, 0, 4, 1/2, 1/2]
      return holdsB (evalAll nlp.g σ) nlp.lbg nlp.ubg) = .ok true := by decide +kernel

/-- Trajectory with the optimised widths: the middle node is at `t = 1`, whatever widths are passed. -/
example : (adaptQ ocpQ [1, 1] >>= fun ad => do
      let T ← ad.trajectories 0 zAd [1/2, 1/2]
      return (T.t, T.x.toRows, ← ad.solvedWidths zAd)) =
    .ok ([0, 1, 4], [[0], [1/2], [2]], [1/4, 3/4]) := by decide +kernel

/-- The default guess. -/
example : (adaptQ ocpQ [1, 1] >>= fun ad => ad.initialGuess) =
    .ok ([0, 1, 2, 0, 0, 0, 0, 1, 1/2, 1/2].map Ext.fin) := by decide +kernel

/-- **C19** is about two flags that do change the base problem. -/
example : (mkDisc libQ .numerical (-1) 1 ocpQ 2 [1, 1] "LGR" >>= fun d => do
      return ((← d.createNlp).g.length,
        (← { d with ocp := { d.ocp with duContinuity := [true], midu := [false] } : Disc ℚ }.createNlp).g.length)) =
    .ok (9, 8) := by decide +kernel

end MPOpt
