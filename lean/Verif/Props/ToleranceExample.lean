import Verif.Props.Tolerance
import Verif.Props.EndToEndExample

/-! # A concrete run for C81: the problem of C52 with a solver that stops within `1/100` -/

set_option autoImplicit false

namespace MPOpt
open Polynomial

/-- A line that stops short of the target, with controls that are too small for it, and starts late. -/
def trajN : Traj ℚ :=
  { x := fun _ i _ => 99 / 100 * i, u := fun _ _ _ => 98 / 100, t0 := fun _ => 1 / 200, tf := fun _ => 1 + 1 / 200
    a := fun _ _ => 0, w := fun _ _ => 1 }

theorem trajN_solves : SolvesTo (1 / 100) (1 / 100) ocpQ meshE trajN := by
  refine ⟨fun ph hph => ?_, fun ph hph => ?_, fun ph hph => ?_, fun ph hph => ?_, fun ph hph h => ?_,
    fun ph hph _ => ?_, fun ph hph h => ?_, fun h => absurd h (by simp [ocpQ])⟩ <;>
    obtain rfl : ph = 0 := by simpa [ocpQ] using hph
  · refine ⟨fun _ j hj => ?_, fun i hi _ j hj => ?_, fun i _ j hj => ?_, ?_, ?_, fun k hk => ?_⟩
    · obtain rfl : j = 0 := by simpa [ocpQ] using hj
      norm_num [trajN, entry, ocpQ]
    · obtain rfl : j = 0 := by simpa [ocpQ] using hj
      have hi : i < 2 := hi
      rcases (by omega : i = 0 ∨ i = 1) with rfl | rfl <;>
        norm_num [entry, ocpQ, WithinTo, Ext.Below, Ext.Above, trajN]
    · obtain rfl : j = 0 := by simpa [ocpQ] using hj
      norm_num [entry, ocpQ, WithinTo, Ext.Below, Ext.Above, trajN]
    · norm_num [entry, ocpQ, WithinTo, Ext.Below, Ext.Above, trajN]
    · norm_num [entry, ocpQ, WithinTo, Ext.Below, Ext.Above, trajN]
    · simp [ocpQ] at hk
  · intro F hF j hj s i ho
    obtain rfl : j = 0 := by simpa [ocpQ] using hj
    obtain ⟨rfl, -⟩ := meshE_owns ho
    have hF : (⟨1, fun p _ => p.u.getD 0 0⟩ : VFun (PArg ℚ) ℚ) = F := by simpa [ocpQ] using hF
    rw [meshE_piece, meshE_half, ← hF]
    norm_num [trajN, OCP.pArg, ocpQ]
  · intro F hF s i ho c hc
    obtain ⟨rfl, hi⟩ := meshE_owns ho
    have hF : (⟨1, fun p _ => p.x.getD 0 0 - 3⟩ : VFun (PArg ℚ) ℚ) = F := by simpa [ocpQ] using hF
    rw [← hF]
    rcases hi with rfl | rfl <;> norm_num [trajN, OCP.pArg, ocpQ, Mesh.idx, segStart]
  · intro F hF c hc
    have hF : (⟨1, fun t _ => t.xf.getD 0 0 - 1⟩ : VFun (TArg ℚ) ℚ) = F := by simpa [ocpQ] using hF
    rw [← hF]
    norm_num [trajN, OCP.tArg, ocpQ, Mesh.N, meshE]
  · simp [ocpQ] at h
  · intro j hj s hs i hi
    obtain rfl : j = 0 := by simpa [ocpQ] using hj
    obtain rfl : s = 0 := by simpa [meshE] using hs
    rw [meshE_piece]
    norm_num [trajN, entry, ocpQ, WithinTo, Ext.Below, Ext.Above]
  · simp [ocpQ] at h

/-- It is not a solution, and not within half the tolerance either. -/
theorem trajN_not : ¬ SolvesOCP ocpQ meshE trajN ∧ ¬ SolvesTo (1 / 100) (1 / 200) ocpQ meshE trajN := by
  have h0 : (0 : Nat) < ocpQ.nPhases := by simp [ocpQ]
  constructor
  · intro h
    have := h.1.terminal 0 h0 ⟨1, fun t _ => t.xf.getD 0 0 - 1⟩ rfl 0 Nat.one_pos
    norm_num [trajN, OCP.tArg, ocpQ, Mesh.N, meshE] at this
  · intro h
    have := h.terminal 0 h0 ⟨1, fun t _ => t.xf.getD 0 0 - 1⟩ rfl 0 Nat.one_pos
    norm_num [trajN, OCP.tArg, ocpQ, Mesh.N, meshE] at this

theorem costN : PhysCost ocpQ meshE [1, 1] trajN (201 / 200 + 2401 / 2500) := by
  refine ⟨fun _ _ => 2401 / 5000, fun ph hph => ?_, ?_⟩
  · obtain rfl : ph = 0 := by simpa [ocpQ] using hph
    intro rc hrc s i ho
    obtain ⟨rfl, -⟩ := meshE_owns ho
    have hrc : (fun p : PArg ℚ => p.u.getD 0 0 * p.u.getD 0 0) = rc := by simpa [ocpQ] using hrc
    rw [meshE_half, ← hrc]
    norm_num [trajN, OCP.pArg, ocpQ]
  · rw [show ocpQ.nPhases = 1 from rfl]
    have : TerminalCost ocpQ meshE trajN 0 = 1 + 1 / 200 := rfl
    norm_num [weightedSum, Finset.sum_range_succ, this]

/-- The hypotheses of C81 are met by a run with a solver that has tolerances: what it returns is no solution of the
problem, and `solve` returns. -/
theorem exampleN : ∃ (nlpsol : SolverCall ℚ Nat → Py (List ℚ)) (out : _),
    (∀ c z, nlpsol c = .ok z → c.NearOptimal (1 / 100) (1 / 100) 0 z) ∧ (∃ c z, nlpsol c = .ok z ∧ ¬ c.IsSolution z) ∧
      mpSolve outsideQ nlpsol ocpQ [[0]] 1 (.int 1) "LGR" argsE false true = .ok out := by
  classical
  obtain ⟨hv, hs, hsc⟩ := ocpQ_ready
  obtain ⟨c, W, hW, hsol, hnear, hobj, hret⟩ := C81_solve_returns (V := Nat) (ocp := ocpQ) (w := outsideQ) (a := argsE)
    (scheme := "LGR") (n := 1) (arg := .int 1) (M := meshE) (ptp := [[0]]) (rx := false) (rdx := true)
    hv hs hsc meshE_for rfl (by norm_num [outsideQ]) (by decide +kernel) (by simp [GoodWidths, argsE])
    (by
      intro ph hp
      obtain rfl : ph = 0 := by simpa [ocpQ] using hp
      simp [ocpQ, entry]) (by simp)
  have hW' : W = [1, 1] := by
    have : compQuadWeights ⟨outsideQ.method, outsideQ.tau0, outsideQ.tau1,
        tausFn outsideQ.lib outsideQ.tau0 outsideQ.tau1 "LGR"⟩ meshE.orders = .ok [1, 1] := by decide +kernel
    rw [this] at hW; cases hW; rfl
  subst hW'
  have hwN : WidthsAre ocpQ 1 argsE.widths trajN := by
    intro ph _ s _; simp [trajN]
  have hzs : c.NearSolution (1 / 100) (1 / 100) (ocpQ.packVec meshE.N trajN) := (hnear _ _ _).2 ⟨trajN, trajN_solves, hwN, rfl⟩
  have hz : c.NearOptimal (1 / 100) (1 / 100) 0 (ocpQ.packVec meshE.N trajN) := by
    refine ⟨hzs, fun z hz => ?_⟩
    obtain ⟨T, hT, hwT, rfl⟩ := (hsol z).1 hz
    rw [hobj _ _ hwN costN]
    obtain ⟨v, hv'⟩ := exists_samples ocpQ meshE T
    have hJ : PhysCost ocpQ meshE [1, 1] T _ := ⟨v, hv', rfl⟩
    rw [hobj _ _ hwT hJ]
    have := costE_ge hT (by simpa using hwT 0 (by simp [ocpQ]) 0 (by simp)) hJ
    linarith
  have hnot : ¬ c.IsSolution (ocpQ.packVec meshE.N trajN) := by
    intro h
    obtain ⟨T, hT, hwT, e⟩ := (hsol _).1 h
    have := costE_ge hT (by simpa using hwT 0 (by simp [ocpQ]) 0 (by simp))
      (J := 201 / 200 + 2401 / 2500) (by
        obtain ⟨v, hv'⟩ := exists_samples ocpQ meshE T
        have hJ : PhysCost ocpQ meshE [1, 1] T _ := ⟨v, hv', rfl⟩
        have e1 := hobj _ _ hwT hJ
        rw [← e, hobj _ _ hwN costN] at e1
        rw [e1]; exact hJ)
    norm_num at this
  obtain ⟨out, ho⟩ := hret
    (fun c => if c.NearOptimal (1 / 100) (1 / 100) 0 (ocpQ.packVec meshE.N trajN) then .ok (ocpQ.packVec meshE.N trajN)
      else .error .assertion) _ _ _ (if_pos hz) hzs
  refine ⟨_, out, fun c' z h => ?_, ⟨c, _, if_pos hz, hnot⟩, ho⟩
  split at h
  · cases h; assumption
  · cases h

end MPOpt
