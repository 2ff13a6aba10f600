import Verif.Props.Accuracy
import Verif.Props.BestExample
import Mathlib.Analysis.SpecialFunctions.ExpDeriv

/-! # Concrete case for C101: `x' = a x` on segments of any order -/

set_option autoImplicit false

namespace MPOpt
open Polynomial

/-- Exponentials are as smooth as wanted. -/
theorem expAt_motionSmooth (a : ℝ) (p q : Nat) : MotionSmooth ocpDecay (expAt a) p q := by
  refine ⟨decay_one fun F hF j hj => ?_, decay_one ?_, decay_one fun _ j _ => contDiffOn_const⟩
  · have hF : decayF = F := by simpa [ocpDecay] using hF
    rw [← hF]
    have : (fun t => decayF.f (ocpDecay.cArg (expAt a) 0 t) j) = fun t => a * Real.exp (a * t) := by
      funext t; simp [expAt, OCP.cArg, ocpDecay, ocpR, decayF]
    rw [this]
    exact (ContDiff.mul contDiff_const (Real.contDiff_exp.comp (contDiff_const.mul contDiff_id))).contDiffOn
  · simp only [expAt_running]
    have h : ContDiff ℝ q fun t : ℝ => Real.exp (a * t) := Real.contDiff_exp.comp (contDiff_const.mul contDiff_id)
    exact (h.mul h).contDiffOn

/-- **C101** For every order `p ≥ 2` there is `c` such that, on any number `n` of equal LGR segments of order `p` and with any row tolerance
`ε` of at least `c / n ^ (p + 1)`: `solve` returns with some solver that keeps its promise, and with every such solver the cost it finds is at
most that of decay with rate 1, but for `η + c / n ^ (2 p - 1)`. -/
theorem C101_example {p : Nat} (hp : 2 ≤ p) : ∃ c, 0 ≤ c ∧ ∀ (n : Nat) (ε η : ℝ), 1 ≤ n → c / (n : ℝ) ^ (p + 1) ≤ ε → 0 < η →
    (∃ nlpsol out, (∀ c z, nlpsol c = .ok z → c.BestNear 0 ε η z) ∧
      mpSolve outsideR nlpsol ocpDecay [[0]] n (.list (List.replicate n p)) "LGR" argsR false true = .ok out) ∧
    ∀ nlpsol out, (∀ c z, nlpsol c = .ok z → c.BestNear 0 ε η z) →
      mpSolve outsideR nlpsol ocpDecay [[0]] n (.list (List.replicate n p)) "LGR" argsR false true = .ok out →
      ∃ M T W J, out.2.1.Shows ocpDecay M T ∧ SolvesTo 0 ε ocpDecay M T ∧
        compQuadWeights ⟨outsideR.method, -1, 1, tausFn outsideR.lib (-1) 1 "LGR"⟩ M.orders = .ok W ∧ PhysCost ocpDecay M W T J ∧
        J ≤ (1 - Real.exp (-2)) / 2 + c / (n : ℝ) ^ (2 * p - 1) + η := by
  classical
  obtain ⟨hv, hs, hsc⟩ := ocpDecay_ready
  have hj : ∀ q ∈ [p], IsJacobiRoots 1 0 (q - 1) (outsideR.lib.jroots (q - 1) 1 0) := fun q _ => libR_jacobi 1 0 (q - 1)
  have hdu := decay_one (P := fun ph => ocpDecay.duContinuity.getD ph false = false) rfl
  have hdf := decay_one (P := fun ph => ocpDecay.diffU.getD ph false = false) rfl
  have hsol := expAt_solves (a := -1) le_rfl (by norm_num)
  have hsm := expAt_motionSmooth (-1) p (2 * p - 1)
  obtain ⟨c1, c10, h1⟩ := C101_nodes hv hsc hsol (by omega : 1 ≤ p) hsm hs.linkRange hdu hdf (by norm_num : (-1 : ℝ) < 1)
    (tausFn outsideR.lib (-1) 1 "LGR") (P := [p]) (by simp)
  obtain ⟨c2, c20, h2⟩ := C101_solve (w := outsideR) hv hs hsc (by norm_num [outsideR]) hp (P := [p])
    (fun r hr => ⟨(List.mem_singleton.1 hr).ge, hj r hr⟩) hdu hdf hsol hsm
  refine ⟨c1 + c2, by positivity, fun n ε η hn1 hε hη => ?_⟩
  have hnr : (0 : ℝ) < n := by exact_mod_cast hn1
  obtain ⟨M, hM, ho⟩ := exists_lgr_mesh (List.replicate n p) (by simp; omega)
    (by intro q hq; rw [(List.mem_replicate.1 hq).2]; omega)
  have hlen : M.orders.length = n := by rw [ho]; simp
  rw [List.length_replicate] at hM
  have hmem : ∀ q ∈ M.orders, q ∈ [p] := by rw [ho]; intro q hq; simp [(List.mem_replicate.1 hq).2]
  have hI := hM.lgr_inside (by norm_num [outsideR]) (fun q hq => by rw [List.mem_singleton.1 (hmem q hq)]; exact hp)
    (fun q hq => hj q (hmem q hq))
  have hle : ∀ c ≤ c1 + c2, c / (n : ℝ) ^ (p + 1) ≤ ε := fun c hc =>
    (div_le_div_of_nonneg_right hc (by positivity)).trans hε
  refine ⟨?_, fun nlpsol out hopt hrun => ?_⟩
  · obtain ⟨T, hT, hw⟩ := exists_samples_of ocpDecay M (expAt (-1)) fun _ _ => 1 / (n : ℝ)
    have hTw : WidthsAre ocpDecay n none T := fun ph hp s hs => by rw [hw]
    have hTs : SolvesTo 0 ε ocpDecay M T := by
      have := h1 M T ⟨hM.good, hI, hM.tau0, hM.tau1, hmem, hM.nodes⟩ hT (fun ph hp s hs => by rw [hw, hlen])
      rw [hlen] at this
      exact this.mono hv hsc le_rfl (hle c1 (by linarith))
    obtain ⟨c, W, hWeq, -, hnear, hobj, hret⟩ := C81_solve_returns (V := Nat) (ocp := ocpDecay) (w := outsideR) (a := argsR)
      (scheme := "LGR") (n := n) (arg := .list (List.replicate n p)) (M := M) (ptp := [[0]]) (rx := false) (rdx := true)
      hv hs hsc hM hlen (by norm_num [outsideR]) rfl (by simp [GoodWidths, argsR])
      (decay_one (by simp [ocpDecay, ocpR, entry])) (by simp)
    obtain ⟨z, hz⟩ := exists_bestNear c (εb := 0) (ε := ε) (b := 0) hη ⟨_, (hnear 0 ε _).2 ⟨T, hTs, hTw, rfl⟩⟩
      (fun z hz => by
        obtain ⟨S, hS, hSw, rfl⟩ := (hnear 0 ε z).1 hz
        obtain ⟨J, hJ⟩ := exists_physCost ocpDecay M W S
        rw [hobj S J hSw hJ]
        obtain ⟨v, hv', rfl⟩ := hJ
        obtain ⟨t0, tf, -⟩ := decay_plan (hS.1 0 Nat.one_pos)
        rw [show ocpDecay.nPhases = 1 from rfl, Finset.sum_range_one]
        have e : TerminalCost ocpDecay M S 0 = 0 := by simp [TerminalCost, ocpDecay, ocpR]
        rw [e, zero_add]
        refine C67_lgr_nonneg outsideR.lib outsideR.method (-1) 1 (by norm_num)
          (fun q hq => by rw [List.mem_singleton.1 (hmem q hq)]; exact hp) (fun q hq => hj q (hmem q hq)) hWeq fun k _ hk => ?_
        obtain ⟨s, i, ho', rfl⟩ := M.exists_owner hM.good.nonempty (k := k) (by unfold Mesh.N; omega)
        rw [hv' 0 Nat.one_pos (fun p => p.x.getD 0 0 * p.x.getD 0 0) rfl s i ho']
        refine mul_nonneg ?_ (mul_self_nonneg _)
        have hs' : s < n := by rw [← hlen]; exact ho'.1
        rw [Mesh.halfWidth, t0, tf, show S.w s 0 = 1 / (n : ℝ) from hSw 0 Nat.one_pos s hs', hM.tau0, hM.tau1]
        norm_num [outsideR])
    obtain ⟨out, hout⟩ := hret (fun c => if h : ∃ z, c.BestNear 0 ε η z then .ok h.choose else .error .assertion) 0 ε
      (Exists.choose ⟨z, hz⟩) (dif_pos ⟨z, hz⟩) (Exists.choose_spec (⟨z, hz⟩ : ∃ z, c.BestNear 0 ε η z)).sol
    refine ⟨_, out, fun c' z' h => ?_, hout⟩
    split at h
    · rename_i h'
      cases h
      exact h'.choose_spec
    · cases h
  · obtain ⟨T, W, J, k1, k2, -, k4, k5, k6⟩ := h2 n _ M nlpsol [[0]] argsR false true out.1 out.2.1 out.2.2 0 ε η hrun hM hlen hmem rfl le_rfl
      (hle c2 (by linarith)) hopt
    refine ⟨M, T, W, J, k4, k2, k1, k5, ?_⟩
    rw [expAt_cost] at k6
    have : c2 / (n : ℝ) ^ (2 * p - 1) ≤ (c1 + c2) / (n : ℝ) ^ (2 * p - 1) :=
      div_le_div_of_nonneg_right (by linarith) (by positivity)
    linarith

end MPOpt
