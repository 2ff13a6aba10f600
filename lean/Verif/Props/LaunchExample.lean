import Verif.Props.LaunchEnd

/-! # Runs that meet the hypotheses of C109: the launcher held on the ground -/

set_option autoImplicit false
set_option linter.unusedSectionVars false

namespace MPOpt
open Polynomial

namespace Launch

/-- The launcher stays where it is and burns its propellant. -/
noncomputable def held (ph : Nat) : VFun (PArg ℝ) ℝ := ⟨7, fun _ j => if j = 6 then -mdot ph else 0⟩

theorem held_burns : Burns held := ⟨fun _ => rfl, fun _ _ => rfl⟩

noncomputable def startMass : Nat → ℝ
  | 0 => m0
  | 1 => mass1
  | 2 => mass2
  | _ => mass3

noncomputable def startTime : Nat → ℝ
  | 0 => 0
  | 1 => t1
  | 2 => t2
  | _ => t3

noncomputable def endTime : Nat → ℝ
  | 0 => t1
  | 1 => t2
  | 2 => t3
  | _ => 824

noncomputable def pad : CTraj :=
  ⟨fun ph j t => if j = 6 then startMass ph - mdot ph * (t - startTime ph) else x0.getD j 0,
    fun _ j _ => if j = 0 then 1 else 0, startTime, endTime, fun _ _ => 0⟩

theorem pad_deriv (ph j : Nat) (t : ℝ) : HasDerivAt (pad.x ph j) (if j = 6 then -mdot ph else 0) t := by
  by_cases hj : j = 6
  · have := ((((hasDerivAt_id t).sub_const (startTime ph)).const_mul (mdot ph)).const_sub (startMass ph))
    simpa [pad, hj] using this
  · simpa [pad, hj] using hasDerivAt_const t (x0.getD j 0)

theorem ground : Real.sqrt (Re * Real.cos lat0 * (Re * Real.cos lat0) + 0 * 0 + Re * Real.sin lat0 * (Re * Real.sin lat0)) = Re := by
  have : Re * Real.cos lat0 * (Re * Real.cos lat0) + 0 * 0 + Re * Real.sin lat0 * (Re * Real.sin lat0) = Re ^ 2 := by
    linear_combination Re ^ 2 * Real.cos_sq_add_sin_sq lat0
  rw [this, Real.sqrt_sq (by norm_num [Re])]

theorem pad_box (j : Nat) (hj : j < 6) (l u : ℝ) :
    Within ((lower l).getD j .nan) ((upper u).getD j .nan) (x0.getD j 0) := by
  have c1 := Real.cos_le_one lat0
  have c2 := Real.neg_one_le_cos lat0
  have s1 := Real.sin_le_one lat0
  have s2 := Real.neg_one_le_sin lat0
  have hRe : Re = 6378145 := rfl
  interval_cases j <;> simp [lower, upper, x0, Within, Ext.Below, Ext.Above, hRe, omegaE] <;> constructor <;> linarith

theorem pad_mass {ph : Nat} (hp : ph < 4) {t : ℝ} (h1 : startTime ph ≤ t) (h2 : t ≤ endTime ph) :
    Within (entry (ocp held none).lbx ph 6 .nan) (entry (ocp held none).ubx ph 6 .nan)
      (startMass ph - mdot ph * (t - startTime ph)) := by
  interval_cases ph <;>
    simp only [startMass, startTime, endTime, mdot, mass3, mass2f, mass2, mass1f, mass1, mass0f, m0, mf, mdrySrb, mdryFirst,
      mdrySecond, t1, t2, t3, entry, ocp, lower, upper, Within, Ext.Below, Ext.Above, List.getD_cons_zero,
      List.getD_cons_succ] at h1 h2 ⊢ <;>
    norm_num at h1 h2 ⊢ <;> constructor <;> linarith

theorem pad_links {ph : Nat} (hp : ph < 3) :
    startMass (ph + 1) - (startMass ph - mdot ph * (endTime ph - startTime ph)) = drop ph := by
  interval_cases ph <;>
    simp only [startMass, startTime, endTime, mdot, drop, mass3, mass2f, mass2, mass1f, mass1, mass0f, m0, mdrySrb, mdryFirst,
      t1, t2, t3] <;> norm_num

theorem pad_solves : SolvesContinuously (ocp held none) pad := by
  have link : ∀ k p q : Nat, (ocp held none).phaseLinks[k]? = some (p, q) → k < 3 ∧ p = k ∧ q = k + 1 := by
    intro k p q h
    have hk : k < 3 := (List.getElem?_eq_some_iff.1 h).1
    refine ⟨hk, ?_⟩
    interval_cases k <;> (simp [ocp] at h; omega)
  refine ⟨fun ph hp => ?_, fun k p q h j hj => ?_, fun _ _ _ _ _ _ => rfl, fun k p q h => ?_⟩
  · have hp4 : ph < 4 := hp
    have hF' : ∀ F, (ocp held none).dynamics[ph]? = some F → F = held ph := by
      intro F hF
      interval_cases ph <;> simpa [ocp] using hF.symm
    refine ⟨?_, ⟨?_, ?_, fun j _ t _ => (pad_deriv ph j t).continuousAt.continuousWithinAt⟩, ?_, ?_, ?_, ?_, ?_, ?_, ?_, ?_⟩
    · interval_cases ph <;> simp only [pad, startTime, endTime, t1, t2, t3] <;> norm_num
    · intro F hF j _ t _ _
      rw [hF' F hF]
      exact (pad_deriv ph j t).hasDerivWithinAt
    · intro F hF j _
      rw [hF' F hF]
      exact (pad_deriv ph j _).hasDerivWithinAt
    · intro F hF c hc t _
      have hF : F = path := by interval_cases ph <;> simpa [ocp] using hF.symm
      subst hF
      have hRe : Re ≠ 0 := by norm_num [Re]
      have hc : c < 3 := hc
      interval_cases c
      · simp [path, OCP.cArg, ocp, pad, List.range_succ]
      · simp [path, OCP.cArg, ocp, pad, List.range_succ]
      · have := ground
        simp only [mul_zero, add_zero] at this
        simp [path, OCP.cArg, ocp, pad, List.range_succ, x0, this, neg_div, hRe]
    · intro F hF
      interval_cases ph <;> simp [ocp] at hF
    · rintro rfl j hj
      have hj : j < 7 := hj
      by_cases h6 : j = 6
      · subst h6
        simp [pad, startMass, startTime, ocp, entry, x0]
      · simp only [pad, if_neg h6]
        rfl
    · intro t ht _ j hj
      by_cases h6 : j = 6
      · subst h6
        exact pad_mass hp4 ht.1 ht.2
      · have hj : j < 6 := by have : j < 7 := hj; omega
        simp only [pad, if_neg h6]
        interval_cases ph <;> exact pad_box j hj _ _
    · intro t _ j hj
      have hj : j < 3 := hj
      interval_cases ph <;> interval_cases j <;> simp [pad, ocp, entry, Within, Ext.Below, Ext.Above]
    · interval_cases ph <;> simp [pad, startTime, ocp, entry, Within, Ext.Below, Ext.Above]
    · interval_cases ph <;> simp [pad, endTime, ocp, entry, Within, Ext.Below, Ext.Above, t4] <;> norm_num
    · intro k hk
      simp [ocp] at hk
  · obtain ⟨hk, rfl, rfl⟩ := link k p q h
    by_cases h6 : j = 6
    · subst h6
      have e : pad.x (p + 1) 6 (pad.t0 (p + 1)) - pad.x p 6 (pad.tf p) = drop p := by
        rw [← pad_links hk]
        simp [pad]
      rw [e]
      interval_cases p <;> exact ⟨le_refl _, le_refl _⟩
    · have hj : j < 6 := by have : j < 7 := hj; omega
      have e : pad.x (p + 1) j (pad.t0 (p + 1)) - pad.x p j (pad.tf p) = 0 := by simp [pad, h6]
      rw [e]
      interval_cases p <;> interval_cases j <;> exact ⟨le_refl (0 : ℝ), le_refl (0 : ℝ)⟩
  · obtain ⟨hk, rfl, rfl⟩ := link k p q h
    interval_cases p <;> rfl

theorem held_cts : CtsOCP (ocp held none) := by
  refine ⟨fun F hF j _ => ?_, fun F hF c _ => ?_, fun F hF => ?_, fun r hr => ?_, fun r hr => ?_⟩
  · have : ∃ ph, F = held ph := by
      simp only [ocp, List.mem_cons, List.not_mem_nil, or_false] at hF
      rcases hF with h | h | h | h <;> exact ⟨_, h⟩
    obtain ⟨ph, rfl⟩ := this
    exact PCts.const _
  · have hF : F = path := by simpa [ocp] using hF
    subst hF
    have hu : ∀ i, PCts (ocp held none) fun p => p.u.getD i 0 := PCts.u
    have hx : ∀ i, PCts (ocp held none) fun p => p.x.getD i 0 := PCts.x
    by_cases h0 : c = 0
    · simp only [path, h0, if_true]
      exact ((((hu 0).mul (hu 0)).add ((hu 1).mul (hu 1))).add ((hu 2).mul (hu 2))).sub (PCts.const 1)
    · by_cases h1 : c = 1
      · simp only [path, h1, one_ne_zero, if_false, if_true]
        exact (((((hu 0).neg).mul (hu 0)).sub ((hu 1).mul (hu 1))).sub ((hu 2).mul (hu 2))).add (PCts.const 1)
      · simp only [path, h0, h1, if_false]
        have := (((hx 0).mul (hx 0)).add ((hx 1).mul (hx 1))).add ((hx 2).mul (hx 2))
        have h2 : PCts (ocp held none) fun p => Real.sqrt (p.x.getD 0 0 * p.x.getD 0 0 + p.x.getD 1 0 * p.x.getD 1 0 +
            p.x.getD 2 0 * p.x.getD 2 0) := Real.continuous_sqrt.comp this
        simp only [div_eq_mul_inv]
        exact ((h2.neg).mul (PCts.const _)).add (PCts.const 1)
  · simp [ocp] at hF
  · have : r = fun _ => 0 := by simpa [ocp] using hr
    rw [this]
    exact PCts.const 0
  · have : r = (fun _ => 0) ∨ r = cost := by
      simp only [ocp, List.mem_cons, List.not_mem_nil, or_false] at hr
      tauto
    rcases this with rfl | rfl
    · exact TCts.const 0
    · unfold cost
      have h : TCts (ocp held none) fun t => (-1 / m0) * t.xf.getD 6 0 := (TCts.const _).mul (TCts.xf 6)
      have e : (fun t : TArg ℝ => -t.xf.getD 6 0 / m0) = fun t => (-1 / m0) * t.xf.getD 6 0 := by
        funext t; ring
      rw [e]
      exact h

theorem held_finite : FiniteBounds (ocp held none) := by
  refine ⟨fun ph hp j hj => ?_, fun ph hp j hj => ?_, fun ph hp => ?_, fun ph hp => ?_, fun ph _ k hk => ?_⟩
  · have hp : ph < 4 := hp
    have hj : j < 7 := hj
    interval_cases ph <;> interval_cases j <;> exact ⟨⟨_, rfl⟩, ⟨_, rfl⟩⟩
  · have hp : ph < 4 := hp
    have hj : j < 3 := hj
    interval_cases ph <;> interval_cases j <;> exact ⟨⟨_, rfl⟩, ⟨_, rfl⟩⟩
  · have hp : ph < 4 := hp
    interval_cases ph <;> exact ⟨⟨_, rfl⟩, ⟨_, rfl⟩⟩
  · have hp : ph < 4 := hp
    interval_cases ph <;> exact ⟨⟨_, rfl⟩, ⟨_, rfl⟩⟩
  · simp [ocp] at hk

end Launch

open Launch

/-- `mpopt(ocp, n, p).solve()` on the launcher held on the ground, for every number of segments and every order of at
least 2: it returns, and the burnout is at the earliest time the script admits. -/
theorem exampleLaunch {n p : Nat} (hn : 0 < n) (hp : 2 ≤ p) {nlpsol : SolverCall ℝ Nat → Py (List ℝ)} (hperf : Perfect nlpsol) :
    ∃ M s q r T, MeshFor outsideR "LGR" n (.int p) M ∧
      mpSolve outsideR nlpsol (ocp held none) [[0, 1, 2, 3]] n (.int p) "LGR" argsR false true = .ok (s, q, r) ∧
      q.Shows (ocp held none) M T ∧ T.tf 3 = 824 ∧ T.x 3 (M.N - 1) 6 = 23464 - 16820 / 700 * 563 := by
  obtain ⟨hv, hs, hsc⟩ := ready (tgt := none) held_burns (fun F h => nomatch h)
  obtain ⟨M, hM, ho⟩ := exists_lgr_int (n := n) (p := p) hn hp
  have hlen : M.orders.length = n := by rw [ho]; simp
  have hord : ∀ q ∈ M.orders, 2 ≤ q := by
    rw [ho]; intro q hq; rw [(List.mem_replicate.1 hq).2]; exact hp
  obtain ⟨W, hW, -⟩ := compQuadWeights_spec ⟨.numerical, -1, 1, tausFn libR (-1) 1 "LGR"⟩ M.orders hM.good.nonempty M.nodes
    (fun p hp => ⟨hM.nodes p hp, hM.good.length p hp, hM.good.nodup p hp⟩)
  obtain ⟨hI, -⟩ := C57_lgr_integrates hM (by norm_num [outsideR]) hord (fun q _ => libR_jacobi 1 0 (q - 1)) hW
  obtain ⟨L, hL, hLw⟩ := exists_samples_of (ocp held none) M pad fun _ _ => 1 / (n : ℝ)
  have hLa : WidthsAre (ocp held none) n argsR.widths L := by intro ph _ s _; rw [hLw]
  have hgood : GoodWidths (ocp held none) n argsR.widths := by simp [GoodWidths, argsR]
  have hfull : ∀ ph < (ocp held none).nPhases, FullWidths M L ph := by
    intro ph hp
    have := hLa.fills hn hgood ph hp
    rw [← hlen] at this
    exact ⟨this.1, this.2⟩
  have hLs : SolvesOCP (ocp held none) M L := by
    refine C56_exact_feasible hM.good hI pad_solves hs.linkRange hL hfull (fun ph _ j _ s hs => ?_) (fun ph _ _ j _ s hs => ?_)
      (four rfl rfl rfl rfl) (four rfl rfl rfl rfl)
    · have h2 := hord _ (hM.good.order_mem hs)
      by_cases h6 : j = 6
      · refine ⟨C (-mdot ph) * X + C (startMass ph + mdot ph * startTime ph), natDegree_linear_le.trans (by omega), fun t _ => ?_⟩
        simp [pad, h6]
        ring
      · exact ⟨C (x0.getD j 0), by simp, fun t _ => by simp [pad, h6]⟩
    · exact ⟨C (if j = 0 then 1 else 0), by rw [natDegree_C]; exact Nat.zero_le _, fun t _ => by rw [eval_C]; rfl⟩
  obtain ⟨s, q, r, -, -, -, hout, -⟩ := C70_solve_box (V := Nat) (ocp := ocp held none) (w := outsideR) (a := argsR)
    (scheme := "LGR") (n := n) (arg := .int p) (M := M) (ptp := [[0, 1, 2, 3]]) (rx := false) (rdx := true)
    hv hs hsc hM hlen (by norm_num [outsideR]) rfl hgood (by
      refine four ?_ ?_ ?_ ?_ <;> simp [ocp, entry, t1, t2, t3, t4] <;> norm_num) (by simp) held_cts held_finite
      ⟨L, hLs, hLa⟩ hperf
  obtain ⟨T, W, -, h2, h3, h4, -, h6⟩ := C109_solve (tgt := none) held_burns (fun F h => nomatch h) hout hM hperf.sound hgood
  have hT : T.tf 3 ≤ 824 := by
    have := h6 L hLs hLa
    rwa [hL.tf 3 (by norm_num [ocp])] at this
  have hT' : 824 ≤ T.tf 3 := (timed (fun ph hp => (h2.1.bounds ph hp).t0) fun ph hp => (h2.1.bounds ph hp).tf).2.2.2.2.2.2.2.1
  have e : T.tf 3 = 824 := le_antisymm hT hT'
  refine ⟨M, s, q, r, T, hM, hout, h3, e, ?_⟩
  rw [h4, e]
  norm_num [finalMass]

/-- The script's own mesh: one segment of order 11. -/
example : ∃ (nlpsol : SolverCall ℝ Nat → Py (List ℝ)) (out : _), Perfect nlpsol ∧
    mpSolve outsideR nlpsol (ocp held none) [[0, 1, 2, 3]] 1 (.int 11) "LGR" argsR false true = .ok out := by
  obtain ⟨nlpsol, h⟩ := exists_perfect (V := Nat)
  obtain ⟨M, s, q, r, T, -, h2, -⟩ := exampleLaunch (n := 1) (p := 11) (by norm_num) (by norm_num) h
  exact ⟨nlpsol, _, h, h2⟩

/-- The script itself builds a valid problem of this kind, with and without drag. -/
theorem C109_script (param : ℝ) : ∃ o, script param = .ok o ∧ o.validate = .ok () ∧ Ready o ∧
    o.Staged 6 (fun ph => -mdot ph) drop := by
  have h := ready (tgt := some target) (dynamics_burns param) target_len
  exact ⟨_, script_eq param, (C40_validate_iff _).2 h.1, h, staged (dynamics_burns param)⟩

end MPOpt
