import Verif.Props.UnitChange
import Verif.Props.EndToEndExample

/-! # Concrete cases for C96 -/

set_option autoImplicit false

namespace MPOpt

/-- The state in thirds and from -1, the control in twentieths, time in sixtieths from -5, half the unit of costs. -/
def unitsE : UnitChange ℚ :=
  ⟨fun _ => 3, fun _ => 1, fun _ => 1 / 20, fun _ => -2, fun _ => 1, fun _ => 0, 60, 5, 2⟩

theorem unitsE_pos : unitsE.Positive := by
  refine ⟨fun _ => ?_, fun _ => ?_, fun _ => ?_, ?_, ?_⟩ <;> norm_num [unitsE]

/-- What the problem of `EndToEndExample` looks like in these units. -/
example : (ocpQ.inUnits unitsE).lbx = [[.fin (-14)]] ∧ (ocpQ.inUnits unitsE).ubtf = [[.pinf]] ∧
    (ocpQ.inUnits unitsE).lbu = [[.fin (-41 / 20)]] ∧ (ocpQ.inUnits unitsE).tf0 = [[65]] ∧
    (ocpQ.inUnits unitsE).scaleX = [2 / 3] ∧
    ((ocpQ.inUnits unitsE).dynamics.map fun F => F.f ⟨[4], [-39 / 20], 35, none⟩ 0) = [1 / 20] ∧
    ((ocpQ.inUnits unitsE).runningCosts.map fun L => L ⟨[4], [-39 / 20], 35, none⟩) = [1 / 30] := by decide +kernel

/-- The hypotheses of `C96_feasible` and `C96_optimal` are met by a run with a perfect solver: the cost is 4, twice the old one. -/
theorem C96_example : ∃ (nlpsol : SolverCall ℚ Nat → Py (List ℚ)) (out : _), (∀ c z, nlpsol c = .ok z → c.IsOptimal z) ∧
    mpSolve outsideQ nlpsol (ocpQ.inUnits unitsE) [[0]] 1 (.int 1) "LGR" argsE false true = .ok out ∧
    PhysCost (ocpQ.inUnits unitsE) meshE [1, 1] (trajE.inUnits unitsE) 4 := by
  classical
  obtain ⟨hv, hs, hsc⟩ := ocpQ_ready
  obtain ⟨hv', hs', hsc'⟩ := C96_ready unitsE_pos hv hs hsc
  have hpos := unitsE_pos
  have hg := meshE_for.good
  have hJ4 : PhysCost (ocpQ.inUnits unitsE) meshE [1, 1] (trajE.inUnits unitsE) 4 := by
    have := C96_cost hpos hv costE
    norm_num [unitsE] at this ⊢
    exact this
  obtain ⟨c, W, hW, hsol, hobj, hret⟩ := C52_solve_returns (V := Nat) (ocp := ocpQ.inUnits unitsE) (w := outsideQ) (a := argsE)
    (scheme := "LGR") (n := 1) (arg := .int 1) (M := meshE) (ptp := [[0]]) (rx := false) (rdx := true)
    hv' hs' hsc' meshE_for rfl (by norm_num [outsideQ]) (by decide +kernel) (by simp [GoodWidths, argsE])
    (by
      intro ph hp
      obtain rfl : ph = 0 := by simpa [OCP.inUnits, ocpQ] using hp
      norm_num [OCP.inUnits, ocpQ, entry, perColumn, unitsE]) (by simp)
  have hW' : W = [1, 1] := by
    have : compQuadWeights ⟨outsideQ.method, outsideQ.tau0, outsideQ.tau1,
        tausFn outsideQ.lib outsideQ.tau0 outsideQ.tau1 "LGR"⟩ meshE.orders = .ok [1, 1] := by decide +kernel
    rw [this] at hW; cases hW; rfl
  subst hW'
  have hwE : WidthsAre (ocpQ.inUnits unitsE) 1 argsE.widths (trajE.inUnits unitsE) := by
    intro ph _ s _; simp [trajE, Traj.inUnits]
  have hTE := (C96_solves hpos hg hv trajE).2 trajE_solves
  have hzs := (hsol _).2 ⟨_, hTE, hwE, rfl⟩
  have hz : c.IsOptimal ((ocpQ.inUnits unitsE).packVec meshE.N (trajE.inUnits unitsE)) := by
    refine ⟨hzs, fun z hz => ?_⟩
    obtain ⟨T, hT, hwT, rfl⟩ := (hsol z).1 hz
    rw [hobj _ _ hwE hJ4]
    rw [← Traj.inUnits_fromUnits hpos T] at hT hwT ⊢
    obtain ⟨v, hvs⟩ := exists_samples ocpQ meshE (T.fromUnits unitsE)
    have hJ : PhysCost ocpQ meshE [1, 1] (T.fromUnits unitsE) _ := ⟨v, hvs, rfl⟩
    rw [hobj _ _ hwT (C96_cost hpos hv hJ)]
    have := costE_ge ((C96_solves hpos hg hv _).1 hT)
      (by simpa using (widthsAre_inUnits.1 hwT : WidthsAre ocpQ 1 none (T.fromUnits unitsE)) 0 (by simp [ocpQ]) 0 (by simp)) hJ
    have hc : unitsE.c = 2 := rfl
    rw [hc]
    linarith
  obtain ⟨out, ho⟩ := hret
    (fun c => if c.IsOptimal ((ocpQ.inUnits unitsE).packVec meshE.N (trajE.inUnits unitsE)) then
      .ok ((ocpQ.inUnits unitsE).packVec meshE.N (trajE.inUnits unitsE)) else .error .assertion) _ (if_pos hz) hzs.1
  refine ⟨_, out, fun c' z h => ?_, ho, hJ4⟩
  split at h
  · cases h; assumption
  · cases h

/-- `ocpQ` with the duration as its terminal cost does not read the clock. -/
def ocpClockless : OCP ℚ := { ocpQ with terminalCosts := [fun t => t.tf - t.t0] }

theorem ocpClockless_autonomous : ocpClockless.Autonomous := by
  refine ⟨fun F hF p t => ?_, fun F hF p t => ?_, fun L hL p t => ?_, fun E hE e δ => ?_, fun F hF e δ => ?_⟩
  · obtain rfl : F = ⟨1, fun p _ => p.u.getD 0 0⟩ := by simpa [ocpClockless, ocpQ] using hF
    rfl
  · obtain rfl : F = ⟨1, fun p _ => p.x.getD 0 0 - 3⟩ := by simpa [ocpClockless, ocpQ] using hF
    rfl
  · obtain rfl : L = fun p => p.u.getD 0 0 * p.u.getD 0 0 := by simpa [ocpClockless, ocpQ] using hL
    rfl
  · obtain rfl : E = fun t => t.tf - t.t0 := by simpa [ocpClockless] using hE
    simp
  · obtain rfl : F = ⟨1, fun t _ => t.xf.getD 0 0 - 1⟩ := by simpa [ocpClockless, ocpQ] using hF
    rfl

/-- **C96** The condition on terminal functions cannot be left out: `ocpQ` itself, whose cost is the final time, costs more later. -/
theorem C96_later_false : ¬ ∀ W J, PhysCost ocpQ meshE W trajE J → PhysCost (ocpQ.later 1) meshE W (trajE.later 1) J := by
  intro h
  obtain ⟨v, hv, e⟩ := h _ _ costE
  have e1 : ∀ i, i = 0 ∨ i = 1 → v 0 i = 1 / 2 := by
    intro i hi
    have own : meshE.Owns 0 i := by rcases hi with rfl | rfl <;> simp [Mesh.Owns, meshE, Mesh.order]
    have := hv 0 (by simp [OCP.later, ocpQ]) (fun p => p.u.getD 0 0 * p.u.getD 0 0) rfl 0 i own
    have ei : meshE.idx 0 i = i := by simp [Mesh.idx, segStart, meshE]
    rw [meshE_half, ei] at this
    simpa [OCP.pArg, OCP.later, ocpQ, Traj.later, trajE] using this
  have e2 : TerminalCost (ocpQ.later 1) meshE (trajE.later 1) 0 = 2 := by decide +kernel
  rw [show (ocpQ.later 1).nPhases = 1 from rfl] at e
  simp [weightedSum, Finset.sum_range_succ, e1, e2] at e

end MPOpt
