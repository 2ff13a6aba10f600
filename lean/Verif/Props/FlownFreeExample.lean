import Verif.Props.FlownFree
import Verif.Props.ConsistencyFreeExample
import Verif.Props.ExactFreeExample

/-! # Concrete case for C87: the problem of C84 with `mpopt_h_adaptive` -/

set_option autoImplicit false

namespace MPOpt
open Polynomial

/-- `mpopt_h_adaptive` with `n` LGR segments of order 2 and the default settings. -/
noncomputable def hoptD (n : Nat) : HOpt ℝ (List ℝ) :=
  ⟨ocpDecay, n, List.replicate n 2, "LGR", [1 / 100000], [1], [1 / 100], ["fixed"], 15, 1 / 10, 1 / 20, false, none, none, none, 0, []⟩

theorem hoptD_ready (n : Nat) :
    (hoptD n).Ready outsideRH ocpDecay n (.list (List.replicate n 2)) "LGR" [1 / 100000] [1] [1 / 100] :=
  ⟨rfl, rfl, rfl, by simp [hoptD], rfl, rfl, rfl, rfl, (fun _ _ _ h => nomatch h), (fun _ _ _ h => nomatch h), fun h => nomatch h⟩

theorem callsR_own : OwnStarts callsR := by
  intro c hc x
  simp only [callsR, List.mem_cons, List.not_mem_nil, or_false] at hc
  rcases hc with rfl | rfl <;> simp

theorem expAt_still (n : Nat) (w : Nat → Nat → ℝ) : RatesVary ocpDecay (expAt 0) n w 0 0 ∧ ControlsBend ocpDecay (expAt 0) n w 0 0 := by
  refine ⟨fun F hF j _ s _ t t' _ _ => ?_, fun j _ s _ t _ => ⟨0, fun t' _ => ?_⟩⟩
  · have hF : decayF = F := by simpa [ocpDecay] using hF
    rw [← hF]
    simp [decayF, OCP.cArg, ocpDecay, ocpR, expAt]
  · simp [expAt]

theorem expAt_still_cost : ocpDecay.trueCost (expAt 0) = 1 := by
  unfold OCP.trueCost
  rw [show ocpDecay.nPhases = 1 from rfl, Finset.sum_range_one]
  simp only [expAt_running]
  simp [ocpDecay, ocpR, expAt]

/-- The state that stays at 1 meets all constraints exactly, whatever the segment widths. -/
theorem decay_still {n : Nat} {M : Mesh ℝ} (hlen : M.orders.length = n)
    (hmesh : MeshOf (-1) 1 (tausFn outsideR.lib (-1) 1 "LGR") [2] M) {p : List ℝ} (hp : ValidWidths n 1 p) {ε : ℝ} (hε : 0 ≤ ε) :
    ∃ T, SolvesTo 0 ε ocpDecay M T ∧ ocpDecay.packWidths n T = p := by
  obtain ⟨hv, hs, hsc⟩ := ocpDecay_ready
  obtain ⟨D, A, -, -, hA⟩ := C83_bounds (-1) 1 (tausFn outsideR.lib (-1) 1 "LGR") [2]
  obtain ⟨hD, hA⟩ := hA M hmesh
  obtain ⟨T, hS, hw⟩ := exists_samples_of ocpDecay M (expAt 0) fun s _ => p.getD s 0
  have hl : p.length = n := by simpa using hp.1
  have hpk : ocpDecay.packWidths n T = p := by
    have e : ocpDecay.packWidths n T = (List.range n).map fun s => p.getD s 0 := by
      simp [OCP.packWidths, hw, ocpDecay, ocpR, List.range_succ]
    rw [e]
    refine List.ext_getElem (by simp [hl]) fun i h1 h2 => ?_
    simp [List.getElem?_eq_getElem h2]
  have hfull : ∀ ph < ocpDecay.nPhases, FullWidths M T ph := fun ph hp' => ValidWidths.full hlen hp (by rw [hlen, hpk]) hp'
  refine ⟨T, C83_consistent (H := 1) hv hsc hmesh.good hmesh.inside (expAt_solves (by norm_num) (by norm_num)) hs.linkRange hS hfull hD hA
    (decay_one (expAt_still _ _).1) (decay_one fun _ => (expAt_still _ _).2) (decay_one fun s hs => ?_) le_rfl (by simpa using hε)
    (fun _ => by simpa using hε) (decay_one rfl) (decay_one rfl), hpk⟩
  rw [hS.t0 0 Nat.one_pos, hS.tf 0 Nat.one_pos]
  have := (hfull 0 Nat.one_pos).le_one hs
  simpa [expAt] using this

/-- **C87** The hypotheses of `C87_h_flown` and `C87_h_best` are met by every run of `mpopt_h_adaptive` on LGR segments of order 2 with any
solver that returns the best of the points within its tolerances but for `η0`, as long as no segment ends up narrower than twice the
tolerance: the plan can be flown, and costs no more than to stay at the initial state, but for `η0` and the sizes of the changes within a
segment. -/
theorem C87_h_example : ∃ Λ A : ℝ, ∀ (n : Nat) (ε η0 : ℝ) nlpsol s' sol sw p r, 1 ≤ n → 0 ≤ ε →
    (∀ i k c sol, nlpsol i k c = .ok sol → ∃ z, Returned outsideRH sol z ∧ c.BestNear 0 ε η0 z) →
    (hoptD n).run outsideRH nlpsol callsR 0 none = (s', some sol) → s'.widths = some sw → ValidWidths n 1 sw →
    (∀ v ∈ sw, 2 * ε ≤ v) → s'.processResults outsideRH sol [[0]] false false true = .ok (p, r) →
    ∃ M T C, p.Shows ocpDecay M T ∧ sw = ocpDecay.packWidths n T ∧ Flies ocpDecay M T C ∧
      NearlySolvesTo ocpDecay C (Sizes.slack { sizesDecay Λ A with H := 1, e := 0, tol := 1 } 0 ε) ∧
      ocpDecay.trueCost C ≤ 1 + η0 + 2 * Sizes.change { sizesDecay Λ A with H := 1, e := 0, tol := 1 } := by
  obtain ⟨hv, hs, hsc⟩ := ocpDecay_ready
  obtain ⟨D, A, -, hA0, hA⟩ := C83_bounds (-1) 1 (tausFn outsideR.lib (-1) 1 "LGR") [2]
  obtain ⟨Λ, hΛ⟩ := exists_lebesgue_of (-1) 1 (tausFn outsideR.lib (-1) 1 "LGR") [2]
  refine ⟨Λ, A, fun n ε η0 nlpsol s' sol sw p r hn hε hopt hrun hsw hval hlow hp => ?_⟩
  obtain ⟨M, hM', hlen, hmem, hmesh⟩ := exists_meshD hn
  have hM : MeshFor outsideRH.toOutside "LGR" n (.list (List.replicate n 2)) M := ⟨hM'.good, hM'.orders, hM'.tau0, hM'.tau1, hM'.nodes⟩
  obtain ⟨T, k1, k2, k3, k4⟩ := C87_h_best (hoptD_ready n) hv hs hsc hM (by norm_num [outsideRH])
    (fun q hq => by rw [List.mem_singleton.1 (hmem q hq)]) (fun q hq => libR_jacobi 1 0 (q - 1)) hopt le_rfl
    (decay_one rfl) (decay_one rfl) callsR_own hrun hsw hval hp
  obtain ⟨t0, tf, ta, tu, tx⟩ := decay_plan (k1.bounds 0 Nat.one_pos)
  have hfull : FullWidths M T 0 := ValidWidths.full (ocp := ocpDecay) hlen hval (by rw [hlen]; exact k3) Nat.one_pos
  have hwT : ∀ s < n, T.w s 0 ∈ sw := fun s hs => by
    rw [k3]
    simp only [OCP.packWidths]
    simp [ocpDecay, ocpR, List.range_succ]
    exact ⟨s, hs, rfl⟩
  obtain ⟨C, d1, d2, d3⟩ := k4 (fun _ _ => -(5 * A + 18 * Λ * (11 * Λ + 1))) (fun _ _ => 5 * A + 18 * Λ * (11 * Λ + 1)) (fun _ _ => True)
    { sizesDecay Λ A with H := 1, e := 0, tol := 1 } (decay_one fun s hs => by
      have e : M.halfWidth T 0 s = T.w s 0 / 2 := by
        rw [Mesh.halfWidth, t0, tf, hM.tau0, hM.tau1]
        norm_num [outsideRH]
        ring
      rw [e]
      have := hlow _ (hwT s (by omega))
      show ε ≤ T.w s 0 / 2 * 1
      linarith)
    (decay_one (decay_sized hM.good hmesh.inside (hΛ M hmesh) (hA M hmesh).2 hA0 t0 (by rw [tf]; norm_num) ta tu tx
      (fun s hs => by rw [t0, tf]; simpa using hfull.le_one hs) zero_le_one le_rfl zero_le_one le_rfl))
  have := d3 (expAt 0) D A 0 0 1 0 (expAt_solves (by norm_num) (by norm_num)) (hA M hmesh).1 (hA M hmesh).2 le_rfl
    (decay_one (expAt_still _ _).1) (decay_one fun _ => (expAt_still _ _).2) (decay_one fun s hs => by
      simpa [expAt] using hfull.le_one (hlen ▸ hs)) (by simpa using hε) (fun _ => by simpa using hε) (expAt_costs 0)
    (decay_one fun t _ t' _ _ => by rw [expAt_running, expAt_running]; simp)
  rw [expAt_still_cost, zero_mul, show ocpDecay.nPhases = 1 from rfl] at this
  refine ⟨M, T, C, k2, k3, d1, d2, this.trans (le_of_eq ?_)⟩
  simp only [sizesDecay]
  push_cast
  ring

/-- **C87** There are such runs, for every number of segments, every tolerance and every `η0 > 0`. -/
theorem C87_h_example_runs {n : Nat} (hn : 1 ≤ n) {ε η0 : ℝ} (hε : 0 ≤ ε) (hη0 : 0 < η0) :
    ∃ nlpsol s' sol sw out, (∀ i k c sol, nlpsol i k c = .ok sol → ∃ z, Returned outsideRH sol z ∧ c.BestNear 0 ε η0 z) ∧
      (hoptD n).run outsideRH nlpsol callsR 0 none = (s', some sol) ∧ s'.widths = some sw ∧ ValidWidths n 1 sw ∧
      s'.processResults outsideRH sol [[0]] false false true = .ok out := by
  classical
  obtain ⟨hv, hs, hsc⟩ := ocpDecay_ready
  obtain ⟨M, hM', hlen, hmem, hmesh⟩ := exists_meshD hn
  have hM : MeshFor outsideRH.toOutside "LGR" n (.list (List.replicate n 2)) M := ⟨hM'.good, hM'.orders, hM'.tau0, hM'.tau1, hM'.nodes⟩
  have hord : ∀ q ∈ M.orders, 2 ≤ q := fun q hq => by rw [List.mem_singleton.1 (hmem q hq)]
  have hj : ∀ q ∈ M.orders, IsJacobiRoots 1 0 (q - 1) (outsideRH.lib.jroots (q - 1) 1 0) := fun q _ => libR_jacobi 1 0 (q - 1)
  have hlt : outsideRH.tau0 < outsideRH.tau1 := by norm_num [outsideRH]
  obtain ⟨d, honM, h1, h2, hWeq, hc⟩ := (hoptD_ready n).coherent hM
  set nlpsol : Nat → Nat → SolverCall ℝ (List ℝ) → Py (PyDict (List ℝ)) := fun _ _ c =>
    if h : ∃ z, c.BestNear 0 ε η0 z then .ok [("x", h.choose)] else .error .assertion with hsol
  have hopt : ∀ i k c sol, nlpsol i k c = .ok sol → ∃ z, Returned outsideRH sol z ∧ c.BestNear 0 ε η0 z := by
    intro i k c sol h
    simp only [nlpsol] at h
    split at h
    · rename_i h'
      cases h; exact ⟨_, ⟨_, rfl, rfl⟩, h'.choose_spec⟩
    · cases h
  have hans : ∀ {c}, Asked outsideRH (hoptD n) c → ∃ T, SolvesTo 0 ε ocpDecay M T ∧ ocpDecay.packWidths n T = c.p ∧
      ∀ i k, nlpsol i k c = .ok [("x", ocpDecay.packVec M.N T)] := by
    intro c h
    obtain ⟨d', k1, k2, k3, k4⟩ := h
    obtain rfl : d = d' := Except.ok.inj (hc.disc.symm.trans k1)
    have hcl : c.p.length = d.widthParams.length := by
      rw [k4.1]; unfold Disc.widthParams; rw [h1, h2]; simp [hoptD, ocpDecay, ocpR]
    have hnear := call_near_trajectories (req := some c.p) honM (by rw [h1]; exact hv) (by rw [h1]; exact hs)
      (by rw [h1]; exact hsc) k2 k3 hcl rfl 0 ε
    obtain ⟨-, hobj⟩ := call_trajectories (req := some c.p) honM (by rw [h1]; exact hv) (by rw [h1]; exact hs)
      (by rw [h1]; exact hsc) k2 k3 hcl rfl
    rw [h1, h2] at hobj
    simp only [h1, h2] at hnear
    obtain ⟨T, hT, hTp⟩ := decay_still hlen hmesh k4 hε
    obtain ⟨z, hz⟩ := exists_bestNear c (εb := 0) (ε := ε) (b := 0) hη0 ⟨_, (hnear _).2 ⟨T, hT, hTp, rfl⟩⟩
      (fun z hz => by
        obtain ⟨S, hS, hSw, rfl⟩ := (hnear z).1 hz
        obtain ⟨J, hJ⟩ := exists_physCost ocpDecay M d.compW S
        rw [hobj S J hSw hJ]
        obtain ⟨v, hv', rfl⟩ := hJ
        obtain ⟨t0, tf, -⟩ := decay_plan (hS.bounds 0 Nat.one_pos)
        rw [show ocpDecay.nPhases = 1 from rfl, Finset.sum_range_one]
        have e : TerminalCost ocpDecay M S 0 = 0 := by simp [TerminalCost, ocpDecay, ocpR]
        rw [e, zero_add]
        refine C67_lgr_nonneg outsideRH.lib outsideRH.method (-1) 1 (by norm_num) hord hj hWeq fun k _ hk => ?_
        obtain ⟨s, i, ho', rfl⟩ := M.exists_owner hM.good.nonempty (k := k) (by unfold Mesh.N; omega)
        rw [hv' 0 Nat.one_pos (fun p => p.x.getD 0 0 * p.x.getD 0 0) rfl s i ho']
        refine mul_nonneg ?_ (mul_self_nonneg _)
        have hSf : FullWidths M S 0 := ValidWidths.full (ocp := ocpDecay) hlen k4 (by rw [hlen]; exact hSw.symm) Nat.one_pos
        rw [Mesh.halfWidth, t0, tf, hM.tau0, hM.tau1]
        norm_num [outsideRH]
        exact (hSf.pos s ho'.1).le)
    have hb := Exists.choose_spec (⟨z, hz⟩ : ∃ z, c.BestNear 0 ε η0 z)
    obtain ⟨S, hS, hSw, e⟩ := (hnear _).1 hb.sol
    refine ⟨S, hS, hSw, fun i k => ?_⟩
    rw [← e]
    exact dif_pos ⟨z, hz⟩
  obtain ⟨s', sol, p, r1, r2, r3, out, r4⟩ := C62_h_returns (ptp := [[0]]) (rx := false) (rdx := true)
    (nlpsol := nlpsol) (hoptD_ready n) hv hs hsc hM hlt (fun q hq => by
      obtain ⟨r, hr, hsp⟩ := C01_lgr_nodes outsideRH.lib outsideRH.tau0 outsideRH.tau1 hlt q
        (by have := hord q hq; omega) (fun _ => hj q hq)
      rw [hM.nodes q hq] at hr
      obtain rfl : M.nodes q = r := by injection hr
      exact hsp.sorted) rfl rfl rfl rfl (by norm_num [hoptD]) (fun _ h => nomatch h) (by
      intro ph l u hl hu
      match ph with
      | 0 => cases hl; cases hu; norm_num
      | ph + 1 => cases hl) (fun l => abs_nonneg _)
      (decay_one (P := fun ph => entry ocpDecay.t00 ph 0 0 ≠ entry ocpDecay.tf0 ph 0 0) (by simp [ocpDecay, ocpR, entry]))
      (calls := callsR) (by simp [callsR]) callsR_own (by
      intro c hc
      simp only [callsR, List.mem_cons, List.not_mem_nil, or_false] at hc
      rcases hc with rfl | rfl <;> exact ⟨by simp, rfl⟩) (fun i k c hc => by
      obtain ⟨T, hT, hTp, hk⟩ := hans hc
      obtain ⟨t0, tf, -⟩ := decay_plan (hT.bounds 0 Nat.one_pos)
      refine ⟨_, hk i k, ⟨⟨T, ⟨⟨_, rfl, rfl⟩, ?_⟩, fun _ => decay_one (P := fun ph => T.t0 ph < T.tf ph) ?_⟩, ?_⟩⟩
      · rw [hlen]; exact hTp.symm
      · rw [t0, tf]; norm_num
      · rintro ⟨c, hc, hm, hsub⟩
        exfalso
        simp only [callsR, List.mem_cons, List.not_mem_nil, or_false] at hc
        rcases hc with rfl | rfl
        · exact absurd hsub (by decide +kernel)
        · exact absurd hm (by decide +kernel)) (by simp)
  exact ⟨nlpsol, s', sol, p, out, hopt, r1, r2, r3, r4⟩

end MPOpt
