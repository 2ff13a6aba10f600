import Verif.Props.ConsistencyFree
import Verif.Props.BestExample

/-! # Concrete case for C87 and C88: the problem of C84 with free segment widths -/

set_option autoImplicit false

namespace MPOpt
open Polynomial

/-- `mpopt_adaptive` with `n` LGR segments of order 2, none narrower than `1 / (2 n)` or wider than `2 / n`. -/
noncomputable def adaptD (n : Nat) : AdaptOpt ℝ Nat :=
  ⟨ocpDecay, n, List.replicate n 2, "LGR", [1 / (2 * n)], [2 / n], [1 / 1000], true, ["fixed"], 15, false, none, none, none, none⟩

theorem adaptD_ready (n : Nat) :
    (adaptD n).Ready outsideR ocpDecay n (.list (List.replicate n 2)) "LGR" [1 / (2 * n)] [2 / n] [1 / 1000] true :=
  ⟨rfl, rfl, rfl, by simp [adaptD], rfl, rfl, rfl, rfl, rfl, (fun _ _ _ h => nomatch h), (fun _ _ _ h => nomatch h), fun h => nomatch h⟩

theorem expAt_controls (a : ℝ) : SmoothControls ocpDecay (expAt a) :=
  decay_one fun _ _ => ⟨fun _ => 0, continuousOn_const, fun t _ => hasDerivWithinAt_const t _ (0 : ℝ)⟩

theorem expAt_rates {a : ℝ} (h : |a| ≤ 1) : RatesContinuous ocpDecay (expAt a) := by
  refine C88_lipschitz (L := 1) (fun j hj => ?_) zero_le_one (decay_one ?_)
  · obtain rfl : j = 0 := by simpa [ocpDecay, ocpR] using hj
    norm_num [ocpDecay, ocpR]
  · intro F hF t _ x u _ _ d hx _ j _
    have hF : decayF = F := by simpa [ocpDecay] using hF
    have h1 := hx 0 Nat.one_pos
    rw [show ocpDecay.scaleX.getD 0 0 = (2 : ℝ) by simp [ocpDecay, ocpR], abs_mul, abs_of_pos (by norm_num : (0 : ℝ) < 2)] at h1
    rw [← hF]
    have e : decayF.f { ocpDecay.cArg (expAt a) 0 t with x := x, u := u } j - decayF.f (ocpDecay.cArg (expAt a) 0 t) j =
        a * (x.getD 0 0 - (expAt a).x 0 0 t) := by
      simp [decayF, OCP.cArg, ocpDecay, ocpR, expAt]
      ring
    rw [e, abs_mul]
    have := mul_le_mul h (show |x.getD 0 0 - (expAt a).x 0 0 t| ≤ d by linarith [abs_nonneg (x.getD 0 0 - (expAt a).x 0 0 t)])
      (abs_nonneg _) zero_le_one
    linarith

/-- A mesh for `n` segments. -/
theorem exists_meshD {n : Nat} (hn : 1 ≤ n) : ∃ M, MeshFor outsideR "LGR" n (.list (List.replicate n 2)) M ∧ M.orders.length = n ∧
    (∀ q ∈ M.orders, q ∈ [2]) ∧ MeshOf (-1) 1 (tausFn outsideR.lib (-1) 1 "LGR") [2] M := by
  obtain ⟨M, hM, ho⟩ := exists_lgr_mesh (List.replicate n 2) (by simp; omega) (by intro p hp; simp [(List.mem_replicate.1 hp).2])
  rw [List.length_replicate] at hM
  have hmem : ∀ q ∈ M.orders, q ∈ [2] := by rw [ho]; intro q hq; simp [(List.mem_replicate.1 hq).2]
  have hI := hM.lgr_inside (by norm_num [outsideR]) (fun q hq => by rw [List.mem_singleton.1 (hmem q hq)])
    (fun q hq => decay_jacobi q (hmem q hq))
  exact ⟨M, hM, by rw [ho]; simp, hmem, hM.good, hI, hM.tau0, hM.tau1, hmem, hM.nodes⟩

/-- **C88** The hypotheses of `C88_fine` are met by motions that are not polynomials: with enough equal segments the node values of
`e^(a t)` solve the problem of `mpopt_adaptive` up to any fraction of `1 / n`. -/
theorem C88_fine_example {a : ℝ} (h : |a| ≤ 1) {ν : ℝ} (hν : 0 < ν) : ∃ N : Nat, ∀ n M, N ≤ n →
    MeshFor outsideR "LGR" n (.list (List.replicate n 2)) M → M.orders.length = n →
    MeshOf (-1) 1 (tausFn outsideR.lib (-1) 1 "LGR") [2] M →
      ∃ T, Samples ocpDecay M (expAt a) T ∧ WidthsAre ocpDecay n none T ∧
        SolvesAdaptiveTo 0 (ν / n) ocpDecay M T [1 / (2 * n)] [2 / n] [1 / 1000] true := by
  obtain ⟨hv, hs, hsc⟩ := ocpDecay_ready
  obtain ⟨ρ, h0, hρ⟩ := C88_fine hv hsc (expAt_solves (abs_le.1 h).1 (abs_le.1 h).2) (expAt_smooth a) (expAt_controls a) (expAt_rates h)
    hs.linkRange (decay_one (P := fun ph => ocpDecay.diffU.getD ph false = false) rfl) (lo := -1) (hi := 1) (by norm_num)
    (tausFn outsideR.lib (-1) 1 "LGR") [2] hν
  obtain ⟨N, hN⟩ := exists_nat_ge (1 / ρ)
  refine ⟨N, fun n M hn hM hlen hmesh => ?_⟩
  have hn0 : 0 < n := by rw [← hlen]; exact List.length_pos_iff.2 hM.good.nonempty
  have hnr : (0 : ℝ) < n := by exact_mod_cast hn0
  obtain ⟨T, hS, hw⟩ := exists_samples_of ocpDecay M (expAt a) fun _ _ => 1 / (n : ℝ)
  have hwid : WidthsAre ocpDecay n none T := fun ph hp s hs => by rw [hw]
  have hlast : ∀ ph < ocpDecay.nPhases, M.Lasts T ph (1 / n) := by
    intro ph hp s hs
    rw [hw, hS.t0 ph hp, hS.tf ph hp]
    simp [expAt]
  have c1 : 1 / ρ ≤ n := hN.trans (by exact_mod_cast hn)
  rw [div_le_iff₀ h0] at c1
  have c2 : 1 / (n : ℝ) ≤ ρ := by rw [div_le_iff₀ hnr]; linarith
  have := hρ M T (1 / n) [1 / (2 * n)] [2 / n] [1 / 1000] true ⟨hmesh, hS, fun ph hp => hwid.equal_full hlen hn0 hp,
    fun ph hp s hs => (hlast ph hp s hs).trans c2⟩ hlast c2 (decay_one fun s hs => ?_) (decay_one fun s hs => ?_)
    (fun _ => decay_one (by norm_num))
  · rw [mul_one_div] at this
    exact ⟨T, hS, hwid, this⟩
  · rw [hw]
    show 1 / (2 * (n : ℝ)) ≤ 1 / n
    exact one_div_le_one_div_of_le hnr (by linarith)
  · rw [hw]
    show 1 / (n : ℝ) ≤ 2 / n
    exact div_le_div_of_nonneg_right (by norm_num) hnr.le

/-- **C88** The hypotheses of `C88_limit` are met by every run of `mpopt_adaptive` on enough LGR segments of order 2 with any solver that
returns the best of the points within its tolerances but for `η0`, however the segment widths come out: flown to the end of its last
segment, the plan misses no constraint by more than `η`, and costs no more than decay with rate 1, but for `η0 + η`. -/
theorem C88_example {η : ℝ} (hη : 0 < η) : ∃ ν, 0 < ν ∧ ∃ N : Nat, ∀ n nlpsol η0 s' z p r, N ≤ n →
    (∀ c z, nlpsol c = .ok z → c.BestNear 0 (ν / n) η0 z) → (adaptD n).solve outsideR nlpsol argsR = (s', .ok z) →
    s'.processResults outsideR [[0]] false false true = .ok (p, r) →
    ∃ M T C, p.Shows ocpDecay M T ∧ Flies ocpDecay M (T.filled n) C ∧ NearlySolvesTo ocpDecay C (Slack.all η) ∧
      ocpDecay.trueCost C ≤ (1 - Real.exp (-2)) / 2 + η0 + η := by
  obtain ⟨hv, hs, hsc⟩ := ocpDecay_ready
  obtain ⟨D, A, -, hA0, hA⟩ := C83_bounds (-1) 1 (tausFn outsideR.lib (-1) 1 "LGR") [2]
  obtain ⟨Λ, hΛ⟩ := exists_lebesgue_of (-1) 1 (tausFn outsideR.lib (-1) 1 "LGR") [2]
  obtain ⟨δ, hδ, hlim⟩ := C88_limit outsideR hv hs hsc (by norm_num [outsideR]) (P := [2]) (by simp) decay_jacobi
    (decay_one (P := fun ph => ocpDecay.diffU.getD ph false = false) rfl) (expAt_solves le_rfl (by norm_num))
    (expAt_smooth (-1)) (expAt_controls (-1)) (expAt_rates (by norm_num)) (expAt_costs (-1)) (sizesDecay Λ A) hη
  set ν := min (δ / 8) (1 / 8) with hν
  have hν0 : 0 < ν := by positivity
  have hν1 : ν ≤ δ / 8 := min_le_left _ _
  have hν2 : ν ≤ 1 / 8 := min_le_right _ _
  obtain ⟨N, hN⟩ := hlim ν hν0
  obtain ⟨N', hN'⟩ := exists_nat_ge (2 / δ)
  refine ⟨ν, hν0, max (max N N') 2, fun n nlpsol η0 s' z p r hn hopt hrun hp => ?_⟩
  have hn2 : 2 ≤ n := (le_max_right _ _).trans hn
  have hn2' : (2 : ℝ) ≤ n := by exact_mod_cast hn2
  have hnr : (0 : ℝ) < n := by linarith
  have hnN : N ≤ n := (le_max_left _ _).trans ((le_max_left _ _).trans hn)
  have c1 : 2 / δ ≤ n := hN'.trans (by exact_mod_cast (le_max_right _ _).trans ((le_max_left _ _).trans hn))
  rw [div_le_iff₀ hδ] at c1
  have hνn : ν / n ≤ ν := div_le_self hν0.le (by linarith)
  have hνn0 : 0 < ν / n := div_pos hν0 hnr
  obtain ⟨M, hM, hlen, hmem, hmesh⟩ := exists_meshD (n := n) (by omega)
  obtain ⟨T, k1, k2, k3⟩ := hN n _ M nlpsol [[0]] _ _ _ true false true (adaptD n) s' [] argsR z p r 0 η0 hnN (adaptD_ready n) rfl rfl rfl
    hM hmem le_rfl (decay_one (by show (0 : ℝ) < 1 / (2 * n); positivity))
    (decay_one ⟨one_div_le_one_div_of_le hnr (by linarith), div_le_div_of_nonneg_right (by norm_num) hnr.le, by norm_num⟩) hopt hrun hp
  obtain ⟨t0, tf, ta, tu, tx⟩ := decay_plan (k1.1 0 Nat.one_pos)
  have hsum := abs_le.1 (k1.sum 0 Nat.one_pos)
  rw [hlen] at hsum
  have hlow : ∀ s < n, 1 / (2 * (n : ℝ)) ≤ T.w s 0 := fun s hs => by
    have := k1.lower 0 Nat.one_pos s (by omega)
    rw [sub_zero] at this
    exact this
  have hupp : ∀ s < n, T.w s 0 ≤ 2 / (n : ℝ) := fun s hs => by
    have := k1.upper 0 Nat.one_pos s (by omega)
    rw [add_zero] at this
    exact this
  have hS0 : (∑ s ∈ Finset.range n, T.w s 0) ≠ 0 := by
    have := hsum.1
    intro h
    rw [h] at this
    linarith
  have hends : EndsNear ocpDecay M T (ν / n) := by
    have := C87_ends_near (L := 0) (B := 1) hsc k1 le_rfl ⟨decay_one fun F hF => by simp [ocpDecay] at hF, decay_one fun g hg r t t' => by
      have hg : (fun _ : TArg ℝ => (0 : ℝ)) = g := by simpa [ocpDecay, ocpR] using hg
      rw [← hg]; simp⟩ (decay_one (by rw [t0, tf]; norm_num))
    rwa [show max ocpDecay.scaleT 0 * (ν / n * 1) = ν / (n : ℝ) by norm_num [ocpDecay, ocpR]] at this
  have htf : 0 < (T.filled M.orders.length).tf 0 ∧ (T.filled M.orders.length).tf 0 ≤ 2 := by
    have e : (T.filled M.orders.length).tf 0 = ∑ s ∈ Finset.range n, T.w s 0 := by
      simp [Traj.filled, t0, tf, hlen]
    rw [e]
    constructor <;> linarith [hsum.1, hsum.2]
  have hlast : M.Lasts (T.filled M.orders.length) 0 (2 / n) := by
    intro s hs
    have e : ((T.filled M.orders.length).tf 0 - (T.filled M.orders.length).t0 0) * (T.filled M.orders.length).w s 0 = T.w s 0 := by
      simp only [Traj.filled, t0, tf, hlen]
      field_simp
      ring
    rw [e]
    exact hupp s (by omega)
  have hsz := decay_sized (T := T.filled M.orders.length) (κ := 8 * ν) hM.good hmesh.inside (hΛ M hmesh) (hA M hmesh).2 hA0 t0 htf ta tu tx
    hlast (by positivity) (by rw [div_le_one hnr]; exact hn2') (by positivity) (by linarith)
  obtain ⟨C, d1, d2, d3⟩ := k3 (fun _ _ => -(5 * A + 18 * Λ * (11 * Λ + 1))) (fun _ _ => 5 * A + 18 * Λ * (11 * Λ + 1)) (fun _ _ => True)
    (2 / n) 0 (8 * ν) (ν / n) hends (decay_one fun s hs => by
      have h1 := hlow s (by omega)
      have e : M.halfWidth T 0 s = T.w s 0 / 2 := by
        rw [Mesh.halfWidth, t0, tf, hM.tau0, hM.tau1]
        norm_num [outsideR]
        ring
      rw [e]
      show ν / n + ν / n ≤ T.w s 0 / 2 * (8 * ν)
      have h2 : ν / n + ν / n = 1 / (2 * n) / 2 * (8 * ν) := by field_simp; ring
      rw [h2]
      exact mul_le_mul_of_nonneg_right (by linarith) (by positivity)) (decay_one hsz)
    (by rw [div_le_iff₀ hnr]; linarith) hδ.le (by linarith) (by linarith) (by linarith) (by linarith)
  rw [expAt_cost] at d3
  rw [hlen] at d1
  exact ⟨M, T, C, k2, d1, d2, d3⟩

/-- **C88** There are such runs, for any number of segments that is large enough and any `η0 > 0`. -/
theorem C88_example_runs {ν η0 : ℝ} (hν : 0 < ν) (hη0 : 0 < η0) : ∃ N : Nat, ∀ n, N ≤ n →
    ∃ nlpsol s' z out, (∀ c z, nlpsol c = .ok z → c.BestNear 0 (ν / n) η0 z) ∧
      (adaptD n).solve outsideR nlpsol argsR = (s', .ok z) ∧ s'.processResults outsideR [[0]] false false true = .ok out := by
  classical
  obtain ⟨hv, hs, hsc⟩ := ocpDecay_ready
  obtain ⟨N, hN⟩ := C88_fine_example (a := -1) (by norm_num) hν
  obtain ⟨N', hN'⟩ := exists_nat_gt (ν * 1000000)
  refine ⟨max (max N N') 1, fun n hn => ?_⟩
  have hn1 : 1 ≤ n := (le_max_right _ _).trans hn
  have hnr : (0 : ℝ) < n := by exact_mod_cast hn1
  have hc1 : ν * 1000000 < n := hN'.trans_le (by exact_mod_cast (le_max_right _ _).trans ((le_max_left _ _).trans hn))
  obtain ⟨M, hM, hlen, hmem, hmesh⟩ := exists_meshD hn1
  obtain ⟨c, W, hWeq, hnear, hobj, hret⟩ := C86_adaptive_returns (a := argsR) (ptp := [[0]]) (rx := false) (rdx := true)
    (adaptD_ready n) hv hs hsc rfl rfl rfl hM (by norm_num [outsideR]) rfl rfl
    (decay_one (by simp [ocpDecay, ocpR, entry])) (by simp)
  obtain ⟨T, -, -, hT⟩ := hN n M ((le_max_left _ _).trans ((le_max_left _ _).trans hn)) hM hlen hmesh
  obtain ⟨z, hz⟩ := exists_bestNear c (εb := 0) (ε := ν / n) (b := 0) hη0 ⟨_, (hnear 0 (ν / n) _).2 ⟨T, hT, rfl⟩⟩
    (fun z hz => by
      obtain ⟨S, hS, rfl⟩ := (hnear 0 (ν / n) z).1 hz
      obtain ⟨J, hJ⟩ := exists_physCost ocpDecay M W S
      rw [hobj S J hJ]
      obtain ⟨v, hv', rfl⟩ := hJ
      obtain ⟨t0, tf, -⟩ := decay_plan (hS.1 0 Nat.one_pos)
      rw [show ocpDecay.nPhases = 1 from rfl, Finset.sum_range_one]
      have e : TerminalCost ocpDecay M S 0 = 0 := by simp [TerminalCost, ocpDecay, ocpR]
      rw [e, zero_add]
      refine C67_lgr_nonneg outsideR.lib outsideR.method (-1) 1 (by norm_num)
        (fun q hq => by rw [List.mem_singleton.1 (hmem q hq)]) (fun q hq => decay_jacobi q (hmem q hq)) hWeq fun k _ hk => ?_
      obtain ⟨s, i, ho', rfl⟩ := M.exists_owner hM.good.nonempty (k := k) (by unfold Mesh.N; omega)
      rw [hv' 0 Nat.one_pos (fun p => p.x.getD 0 0 * p.x.getD 0 0) rfl s i ho']
      refine mul_nonneg ?_ (mul_self_nonneg _)
      have h1 : 0 < S.w s 0 := hS.width_pos (decay_one (by show (0 : ℝ) < 1 / (2 * n); positivity)) Nat.one_pos ho'.1
      rw [Mesh.halfWidth, t0, tf, hM.tau0, hM.tau1]
      norm_num [outsideR]
      exact h1.le)
  set sol : SolverCall ℝ Nat → Py (List ℝ) := fun c => if h : ∃ z, c.BestNear 0 (ν / n) η0 z then .ok h.choose else .error .assertion
    with hsol
  have hb := Exists.choose_spec (⟨z, hz⟩ : ∃ z, c.BestNear 0 (ν / n) η0 z)
  obtain ⟨S, hS, e⟩ := (hnear 0 (ν / n) _).1 hb.sol
  obtain ⟨r1, -, r3⟩ := hret sol 0 (ν / n) S hS (by rw [← e]; exact dif_pos ⟨z, hz⟩)
  obtain ⟨out, hout⟩ := r3 (by
    intro v hv
    obtain rfl : v = 1 / (2 * (n : ℝ)) := by simpa using hv
    positivity) (by rw [div_lt_iff₀ hnr]; linarith)
  refine ⟨sol, _, _, out, fun c' z' h => ?_, Prod.ext rfl r1, hout⟩
  rw [hsol] at h
  simp only at h
  split at h
  · rename_i h'
    cases h
    exact h'.choose_spec
  · cases h

end MPOpt
