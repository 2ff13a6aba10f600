import Verif.Props.AdaptiveEnd
import Verif.Props.EndToEndExample

/-! # A concrete run for C54, C55: the problem of `EndToEndExample`, with the width of the segment free -/

set_option autoImplicit false

namespace MPOpt
open Polynomial

/-- `mpopt_adaptive(ocpQ, 1, 1, "LGR")` with the default settings. -/
def adaptE : AdaptOpt ℚ Nat :=
  ⟨ocpQ, 1, [1], "LGR", [1 / 10000], [1], [1 / 1000], true, ["fixed"], 15, false, none, none, none, none⟩

theorem adaptE_fresh : adaptE.Fresh ocpQ 1 (.int 1) "LGR" [1 / 10000] [1] [1 / 1000] true := by
  refine ⟨⟨adaptE, _, _, ?_, rfl⟩⟩
  unfold newAdapt
  rw [show initOrders 1 (.int 1) = .ok ([1], 2) by decide +kernel]
  rfl

theorem trajE_solvesAdaptive : SolvesAdaptive ocpQ meshE trajE [1 / 10000] [1] [1 / 1000] true := by
  obtain ⟨⟨h1, h2, h3, h4, h5, h6, h7⟩, h8⟩ := trajE_solves
  refine ⟨⟨h1, h2, h3, h4, fun ph hph => ?_, fun ph hph => ?_, fun ph hph => ?_, fun _ ph hph => ?_, h7⟩, h8⟩ <;>
    obtain rfl : ph = 0 := by simpa [ocpQ] using hph
  · refine ⟨by simp [meshE, trajE], fun s hs => ?_, fun s hs => ?_⟩ <;> norm_num [trajE]
  · exact h5 0 hph rfl
  · intro j hj s hs i hi
    obtain rfl : j = 0 := by simpa [ocpQ] using hj
    obtain rfl : s = 0 := by simpa [meshE] using hs
    obtain rfl : i = 0 := by simpa [meshE, Mesh.order] using hi
    rw [meshE_piece]
    norm_num [trajE, entry, ocpQ, Within, Ext.Below, Ext.Above, meshE, Mesh.node, Mesh.order]
  · intro F hF j hj s hs i hi
    obtain rfl : j = 0 := by simpa [ocpQ] using hj
    obtain rfl : s = 0 := by simpa [meshE] using hs
    have hF : (⟨1, fun p _ => p.u.getD 0 0⟩ : VFun (PArg ℚ) ℚ) = F := by simpa [ocpQ] using hF
    have e : ocpQ.defect meshE trajE F 0 0 ((meshE.node 0 i + meshE.node 0 (i + 1)) / 2) 0 = 0 := by
      unfold OCP.defect OCP.pArgAt
      rw [← hF, meshE_piece, meshE_half]
      simp only [ocpQ, meshE_piece, trajE]
      norm_num
    rw [e]
    norm_num [Within, Ext.Below, Ext.Above]

/-- The hypotheses of C54, C55 are met by a run with a perfect NLP solver. -/
theorem exampleAdaptive : ∃ (nlpsol : SolverCall ℚ Nat → Py (List ℚ)) (z : List ℚ) (out : _),
    (∀ c z, nlpsol c = .ok z → c.IsOptimal z) ∧ (adaptE.solve outsideQ nlpsol argsE).2 = .ok z ∧
      (adaptE.solve outsideQ nlpsol argsE).1.processResults outsideQ [[0]] false false true = .ok out := by
  classical
  obtain ⟨hv, hs, hsc⟩ := ocpQ_ready
  obtain ⟨c, W, hW, hsol, hobj, hret⟩ := C54_adaptive_returns (a := argsE) (ptp := [[0]]) (rx := false) (rdx := true)
    adaptE_fresh.ready hv hs hsc rfl rfl rfl meshE_for (by norm_num [outsideQ]) rfl (by decide +kernel)
    (by norm_num) (by
      intro ph hp
      obtain rfl : ph = 0 := by simpa [ocpQ] using hp
      simp [ocpQ, entry]) (by simp)
  have hW' : W = [1, 1] := by
    have : compQuadWeights ⟨outsideQ.method, outsideQ.tau0, outsideQ.tau1,
        tausFn outsideQ.lib outsideQ.tau0 outsideQ.tau1 "LGR"⟩ meshE.orders = .ok [1, 1] := by decide +kernel
    rw [this] at hW; cases hW; rfl
  subst hW'
  obtain ⟨z, hz, hf⟩ := hobj _ _ trajE_solvesAdaptive costE
  have hopt : c.IsOptimal z := by
    refine ⟨hz, fun z' hz' => ?_⟩
    obtain ⟨T, hT, hJ⟩ := hsol z' hz'
    rw [hf]
    have hw := (hT.1.widths 0 (by simp [ocpQ])).sum
    have hmu := hT.1.midControl
    refine costE_ge ⟨⟨hT.1.bounds, hT.1.dynamics, hT.1.path, hT.1.terminal, fun ph hp _ => hmu ph hp,
      fun ph hp h => ?_, hT.1.links⟩, hT.2⟩ (by simpa [meshE] using hw) hJ
    obtain rfl : ph = 0 := by simpa [ocpQ] using hp
    simp [ocpQ] at h
  obtain ⟨k1, out, k2⟩ := hret (fun c => if c.IsOptimal z then .ok z else .error .assertion) z (if_pos hopt) hz
  refine ⟨_, z, out, fun c' z' h => ?_, k1, k2⟩
  split at h
  · cases h; assumption
  · cases h

end MPOpt
