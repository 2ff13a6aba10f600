import Verif.Spec.FineMesh
import Verif.Props.ChebWeights
import Verif.Props.ExactExample

/-! # C78: the running cost on fine meshes -/

set_option autoImplicit false

namespace MPOpt
open Polynomial

variable {ocp : OCP ℝ} {M : Mesh ℝ} {T : Traj ℝ} {ph : Nat} {m : Method} {lo hi : ℝ} {taus : Nat → Py (List ℝ)}
  {P : List Nat}

theorem MeshOf.goodNodes (h : MeshOf lo hi taus P M) : GoodNodes ⟨m, lo, hi, taus⟩ M.orders M.nodes :=
  fun p hp => ⟨h.nodes p hp, h.good.length p hp, h.good.nodup p hp⟩

/-- The weights of a rule with distinct nodes sum to the length of the interval. -/
theorem sum_quadWeights {r : List ℝ} {d : Nat} (hn : r.Nodup) (hl : r.length = d + 1) (m : Method) (lo hi : ℝ) :
    ∑ i ∈ Finset.range d, (quadWeights m r lo hi).getD (i + 1) 0 = hi - lo - (quadWeights m r lo hi).getD 0 0 := by
  have h := C05_quadrature_exact m r hn d hl lo hi Polynomial.X (by simp) (fun _ => 1) (fun j hj => by simp)
  simp only [weightedSum, length_quadWeights, hl, mul_one, eval_X] at h
  rw [Finset.sum_range_succ'] at h
  linarith

/-- The composite rule applied to values that are close, on each segment, to a function of time. Each segment contributes the integral
of the function times the share of the weights of its nodes without the first. -/
theorem quadrature_close (h : MeshOf lo hi taus P M) (ht : T.t0 ph < T.tf ph) (hw : FullWidths M T ph) {g : ℝ → ℝ}
    (hg : ContinuousOn g (Set.Icc (T.t0 ph) (T.tf ph))) {v : Nat → ℝ} {V : Nat → Nat → ℝ}
    (hv : ∀ s i, M.Owns s i → v (M.idx s i) = M.halfWidth T ph s * V s i) {W : List ℝ}
    (hW : compQuadWeights ⟨m, lo, hi, taus⟩ M.orders = .ok W) {ε A : ℝ} (hε0 : 0 ≤ ε)
    (hε : ∀ s < M.orders.length, ∀ i, 1 ≤ i → i ≤ M.order s →
      ∀ t ∈ Set.Icc (M.time T ph s lo) (M.time T ph s hi), |V s i - g t| ≤ ε)
    (hA : ∀ p ∈ M.orders, ∑ i ∈ Finset.range p, |(quadWeights m (M.nodes p) lo hi).getD (i + 1) 0| ≤ A * (hi - lo)) :
    |weightedSum W v - ∑ s ∈ Finset.range M.orders.length,
        (1 - (quadWeights m (M.nodes (M.order s)) lo hi).getD 0 0 / (hi - lo)) *
          ∫ t in (M.time T ph s lo)..(M.time T ph s hi), g t| ≤
      A * ε * (T.tf ph - T.t0 ph) +
        M.halfWidth T ph 0 * |(quadWeights m (M.nodes (M.order 0)) lo hi).getD 0 0| * |V 0 0| := by
  have hM := h.good
  have hI : M.Inside := h.inside
  have hlt : lo < hi := by have := hI.tau_lt hM; rwa [h.tau0, h.tau1] at this
  have hΔ : 0 < hi - lo := sub_pos.2 hlt
  have h0 : 0 < M.orders.length := List.length_pos_iff.2 hM.nonempty
  obtain ⟨W', hW', hlen, hw0, hws⟩ := compQuadWeights_spec ⟨m, lo, hi, taus⟩ M.orders hM.nonempty M.nodes h.goodNodes
  rw [hW] at hW'
  cases hW'
  have hends := C13_segment_ends hM T ph
  rw [h.tau0, h.tau1] at hends
  have htb := fun s hs => time_bounds (s := s) hM hI ht hw hs
  -- the first node
  have hv0 : v 0 = M.halfWidth T ph 0 * V 0 0 := by
    have := hv 0 0 ⟨h0, Nat.zero_le _, Or.inl rfl⟩
    simpa [Mesh.idx, segStart_zero] using this
  have e0 : (0 : Nat) < M.orders.length ∧ M.orders.getD 0 0 = M.order 0 := by
    refine ⟨h0, ?_⟩
    rw [List.getD_eq_getElem _ _ h0, Mesh.order_eq h0]
  set q : Nat → List ℝ := fun s => quadWeights m (M.nodes (M.order s)) lo hi with hq
  have hsum : weightedSum W v = (q 0).getD 0 0 * v 0 + ∑ s ∈ Finset.range M.orders.length,
      ∑ i ∈ Finset.range (M.order s), (q s).getD (i + 1) 0 *
        (M.halfWidth T ph s * V s (i + 1)) := by
    unfold weightedSum
    rw [hlen, sum_by_segments, hw0, e0.2]
    congr 1
    apply Finset.sum_congr rfl
    intro s hs
    have hs := Finset.mem_range.1 hs
    rw [List.getD_eq_getElem _ _ hs, ← Mesh.order_eq hs]
    apply Finset.sum_congr rfl
    intro i hi'
    have hi' := Finset.mem_range.1 hi'
    rw [hws s hs i (by rw [← Mesh.order_eq hs]; exact hi')]
    rw [← hv s (i + 1) ⟨hs, by omega, Or.inr (by omega)⟩]
    simp only [hq, Mesh.order_eq hs]
    rfl
  -- one segment
  have hseg : ∀ s < M.orders.length,
      |∑ i ∈ Finset.range (M.order s), (q s).getD (i + 1) 0 *
          (M.halfWidth T ph s * V s (i + 1)) -
        (1 - (q s).getD 0 0 / (hi - lo)) * ∫ t in (M.time T ph s lo)..(M.time T ph s hi), g t| ≤
      A * ε * ((T.tf ph - T.t0 ph) * T.w s ph) := by
    intro s hs
    obtain ⟨b1, b2, b3⟩ := htb s hs
    rw [h.tau0] at b2
    rw [h.tau1] at b3
    set d := (T.tf ph - T.t0 ph) * T.w s ph with hd
    have hdur : M.time T ph s hi - M.time T ph s lo = d := by
      simp only [Mesh.time, Mesh.halfWidth, h.tau0, h.tau1]
      rw [hd]
      have := hΔ.ne'
      field_simp
      ring
    have hdh : M.halfWidth T ph s * (hi - lo) = d := by
      rw [← hdur]; unfold Mesh.time; rw [h.tau0]; ring
    have hd0 : 0 < d := by rw [← hdh]; exact mul_pos b1 hΔ
    have hmono : ∀ a b, a ≤ b → M.time T ph s a ≤ M.time T ph s b := by
      intro a b hab; unfold Mesh.time; nlinarith
    have hsub : Set.Icc (M.time T ph s lo) (M.time T ph s hi) ⊆ Set.Icc (T.t0 ph) (T.tf ph) := fun t htt =>
      ⟨(b2 _ le_rfl).trans htt.1, htt.2.trans (b3 _ le_rfl)⟩
    have hle : M.time T ph s lo ≤ M.time T ph s hi := hmono _ _ hlt.le
    have hint : IntervalIntegrable g MeasureTheory.volume (M.time T ph s lo) (M.time T ph s hi) :=
      ContinuousOn.intervalIntegrable (by rw [Set.uIcc_of_le hle]; exact hg.mono hsub)
    have hp : M.order s ∈ M.orders := hM.order_mem hs
    have hκ := sum_quadWeights (hM.nodup _ hp) (hM.length _ hp) m lo hi
    have e1 : 1 - (q s).getD 0 0 / (hi - lo) =
        ∑ i ∈ Finset.range (M.order s), (q s).getD (i + 1) 0 / (hi - lo) := by
      rw [← Finset.sum_div, hq]
      beta_reduce
      rw [hκ]
      field_simp
    rw [e1, Finset.sum_mul, ← Finset.sum_sub_distrib]
    have hterm : ∀ i ∈ Finset.range (M.order s), |(q s).getD (i + 1) 0 *
          (M.halfWidth T ph s * V s (i + 1)) -
        (q s).getD (i + 1) 0 / (hi - lo) * ∫ t in (M.time T ph s lo)..(M.time T ph s hi), g t| ≤
          |(q s).getD (i + 1) 0| / (hi - lo) * (ε * d) := by
      intro i hi'
      have hi' := Finset.mem_range.1 hi'
      set τ := V s (i + 1) with hτ
      have e2 : (q s).getD (i + 1) 0 * (M.halfWidth T ph s * τ) -
          (q s).getD (i + 1) 0 / (hi - lo) * ∫ t in (M.time T ph s lo)..(M.time T ph s hi), g t =
          (q s).getD (i + 1) 0 / (hi - lo) * ∫ t in (M.time T ph s lo)..(M.time T ph s hi), (τ - g t) := by
        rw [intervalIntegral.integral_sub intervalIntegrable_const hint, intervalIntegral.integral_const, hdur, ← hdh,
          smul_eq_mul]
        field_simp
      rw [e2, abs_mul, abs_div, abs_of_pos hΔ]
      refine mul_le_mul_of_nonneg_left ?_ (div_nonneg (abs_nonneg _) hΔ.le)
      have := intervalIntegral.norm_integral_le_of_norm_le_const (a := M.time T ph s lo) (b := M.time T ph s hi)
        (C := ε) (f := fun t => τ - g t) (by
          intro t htt
          rw [Set.uIoc_of_le hle] at htt
          rw [Real.norm_eq_abs]
          exact hε s hs (i + 1) (by omega) (by omega) t ⟨htt.1.le, htt.2⟩)
      rw [hdur, abs_of_pos hd0, Real.norm_eq_abs] at this
      exact this
    refine (Finset.abs_sum_le_sum_abs _ _).trans ((Finset.sum_le_sum hterm).trans ?_)
    rw [← Finset.sum_mul, ← Finset.sum_div]
    have hA' := hA _ hp
    have : (∑ i ∈ Finset.range (M.order s), |(q s).getD (i + 1) 0|) / (hi - lo) ≤ A := (div_le_iff₀ hΔ).2 hA'
    calc _ ≤ A * (ε * d) := mul_le_mul_of_nonneg_right this (mul_nonneg hε0 hd0.le)
      _ = _ := by ring
  rw [hsum, hv0]
  have hrest : |∑ s ∈ Finset.range M.orders.length, (∑ i ∈ Finset.range (M.order s), (q s).getD (i + 1) 0 *
        (M.halfWidth T ph s * V s (i + 1)) -
      (1 - (q s).getD 0 0 / (hi - lo)) * ∫ t in (M.time T ph s lo)..(M.time T ph s hi), g t)| ≤
      A * ε * (T.tf ph - T.t0 ph) := by
    refine (Finset.abs_sum_le_sum_abs _ _).trans
      ((Finset.sum_le_sum fun s hs => hseg s (Finset.mem_range.1 hs)).trans ?_)
    rw [← Finset.mul_sum, ← Finset.mul_sum, hw.sum, mul_one]
  rw [Finset.sum_sub_distrib] at hrest
  have hfirst : |(q 0).getD 0 0 * (M.halfWidth T ph 0 * V 0 0)| =
      M.halfWidth T ph 0 * |(q 0).getD 0 0| * |V 0 0| := by
    rw [abs_mul, abs_mul, abs_of_pos (htb 0 h0).1]; ring
  rw [← hfirst]
  refine le_trans (le_of_eq ?_) ((abs_add_le _ _).trans (add_le_add hrest le_rfl))
  congr 1
  ring

/-- **C78** The running cost of samples of a continuous function of time. Each segment contributes its integral times the share of
the weights of its nodes without the first; the rest is bounded by how much the integrand varies over the length of a segment, and
by the weight of the very first node. -/
theorem C78_bound (h : MeshOf lo hi taus P M) (ht : T.t0 ph < T.tf ph) (hw : FullWidths M T ph) {g : ℝ → ℝ}
    (hg : ContinuousOn g (Set.Icc (T.t0 ph) (T.tf ph))) {v : Nat → ℝ} (hv : TimeSamples M T ph g v) {W : List ℝ}
    (hW : compQuadWeights ⟨m, lo, hi, taus⟩ M.orders = .ok W) {H ε A : ℝ} (hH : M.Lasts T ph H)
    (hε : ∀ t ∈ Set.Icc (T.t0 ph) (T.tf ph), ∀ t' ∈ Set.Icc (T.t0 ph) (T.tf ph), |t - t'| ≤ H → |g t - g t'| ≤ ε)
    (hA : ∀ p ∈ M.orders, ∑ i ∈ Finset.range p, |(quadWeights m (M.nodes p) lo hi).getD (i + 1) 0| ≤ A * (hi - lo)) :
    |weightedSum W v - ∑ s ∈ Finset.range M.orders.length,
        (1 - (quadWeights m (M.nodes (M.order s)) lo hi).getD 0 0 / (hi - lo)) *
          ∫ t in (M.time T ph s lo)..(M.time T ph s hi), g t| ≤
      A * ε * (T.tf ph - T.t0 ph) +
        M.halfWidth T ph 0 * |(quadWeights m (M.nodes (M.order 0)) lo hi).getD 0 0| * |g (T.t0 ph)| := by
  have hM := h.good
  have hI : M.Inside := h.inside
  have h0 : 0 < M.orders.length := List.length_pos_iff.2 hM.nonempty
  have hends := C13_segment_ends hM T ph
  rw [h.tau0, h.tau1] at hends
  have hd : ∀ s < M.orders.length, M.time T ph s hi - M.time T ph s lo ≤ H := by
    intro s hs
    refine le_trans (le_of_eq ?_) (hH s hs)
    have := (sub_pos.2 (hI.tau_lt hM)).ne'
    rw [h.tau0, h.tau1] at this
    simp only [Mesh.time, Mesh.halfWidth, h.tau0, h.tau1]
    field_simp
    ring
  have := quadrature_close h ht hw hg (V := fun s i => g (M.time T ph s (M.node s i))) hv hW (ε := ε)
    ((abs_nonneg _).trans (hε (T.t0 ph) ⟨le_rfl, ht.le⟩ (T.t0 ph) ⟨le_rfl, ht.le⟩ (by
      rw [sub_self, abs_zero]
      exact (mul_pos (sub_pos.2 ht) (hw.pos 0 h0)).le.trans (hH 0 h0)))) (fun s hs i h1 h2 t htt => by
      obtain ⟨b1, b2, b3⟩ := time_bounds hM hI ht hw hs
      obtain ⟨n1, n2⟩ := hI.node hM hs h2
      have hmono : ∀ a b, a ≤ b → M.time T ph s a ≤ M.time T ph s b := by
        intro a b hab; unfold Mesh.time; nlinarith
      have m1 := hmono _ _ n1
      have m2 := hmono _ _ n2
      have b2' := b2 _ le_rfl
      have b3' := b3 _ le_rfl
      have := hd s hs
      rw [h.tau0] at m1 b2'
      rw [h.tau1] at m2 b3'
      refine hε _ ⟨b2'.trans m1, m2.trans b3'⟩ _ ⟨b2'.trans htt.1, htt.2.trans b3'⟩ ?_
      rw [abs_le]
      exact ⟨by linarith [htt.1, htt.2], by linarith [htt.1, htt.2]⟩) hA
  simpa only [hM.node_first h0, h.tau0, hends.1] using this

/-- The integrals over the segments add up to the integral over the phase. -/
theorem sum_segment_integrals (h : MeshOf lo hi taus P M) (ht : T.t0 ph < T.tf ph) (hw : FullWidths M T ph) {g : ℝ → ℝ}
    (hg : ContinuousOn g (Set.Icc (T.t0 ph) (T.tf ph))) :
    ∑ s ∈ Finset.range M.orders.length, ∫ t in (M.time T ph s lo)..(M.time T ph s hi), g t =
      ∫ t in (T.t0 ph)..(T.tf ph), g t := by
  have hM := h.good
  have hI : M.Inside := h.inside
  have hlt : lo < hi := by have := hI.tau_lt hM; rwa [h.tau0, h.tau1] at this
  have hends := C13_segment_ends hM T ph
  rw [h.tau0, h.tau1] at hends
  have hlast : M.time T ph M.orders.length lo = T.tf ph := by
    have h0 : 0 < M.orders.length := List.length_pos_iff.2 hM.nonempty
    have := hends.2.2.1 (M.orders.length - 1)
    rw [Nat.sub_add_cancel h0] at this
    rw [this, hends.2.2.2 hw.sum]
  rw [← hends.1, ← hlast, ← intervalIntegral.sum_integral_adjacent_intervals (a := fun s => M.time T ph s lo)]
  · apply Finset.sum_congr rfl
    intro s _
    rw [hends.2.2.1]
  · intro s hs
    obtain ⟨b1, b2, b3⟩ := time_bounds hM hI ht hw hs
    rw [h.tau0] at b2
    rw [h.tau1] at b3
    rw [hends.2.2.1]
    have hle : M.time T ph s lo ≤ M.time T ph s hi := by unfold Mesh.time; nlinarith
    refine ContinuousOn.intervalIntegrable ?_
    rw [Set.uIcc_of_le hle]
    exact hg.mono fun t htt => ⟨(b2 _ le_rfl).trans htt.1, htt.2.trans (b3 _ le_rfl)⟩

/-- **C78** On fine meshes the running cost tends to `κ` times the integral, where `1 - κ` is the share of the weight of the first
node of each segment. -/
theorem C78_limit {κ : ℝ} (hlt : lo < hi)
    (hκ : ∀ p ∈ P, ∀ r, taus p = .ok r → 1 - (quadWeights m r lo hi).getD 0 0 / (hi - lo) = κ)
    {t0 tf : ℝ} {g : ℝ → ℝ} (hg : ContinuousOn g (Set.Icc t0 tf)) {η : ℝ} (hη : 0 < η) :
    ∃ ρ, 0 < ρ ∧ ∀ (M : Mesh ℝ) (T : Traj ℝ) (ph : Nat) (W : List ℝ) (v : Nat → ℝ), MeshOf lo hi taus P M →
      T.t0 ph = t0 → T.tf ph = tf → t0 < tf → FullWidths M T ph → M.Lasts T ph ρ → TimeSamples M T ph g v →
      compQuadWeights ⟨m, lo, hi, taus⟩ M.orders = .ok W → |weightedSum W v - κ * ∫ t in t0..tf, g t| ≤ η := by
  have hΔ : 0 < hi - lo := sub_pos.2 hlt
  -- a bound on the weights of the orders allowed
  obtain ⟨A, hA0, hA⟩ : ∃ A : ℝ, 0 ≤ A ∧ ∀ p ∈ P, ∀ r, taus p = .ok r →
      ∑ i ∈ Finset.range p, |(quadWeights m r lo hi).getD (i + 1) 0| ≤ A * (hi - lo) := by
    clear hκ
    induction P with
    | nil => exact ⟨0, le_rfl, by simp⟩
    | cons p l ih =>
      obtain ⟨A, hA0, hA⟩ := ih
      by_cases hr : ∃ r, taus p = .ok r
      · obtain ⟨r, hr⟩ := hr
        have hB0 : 0 ≤ (∑ i ∈ Finset.range p, |(quadWeights m r lo hi).getD (i + 1) 0|) / (hi - lo) :=
          div_nonneg (Finset.sum_nonneg fun _ _ => abs_nonneg _) hΔ.le
        refine ⟨A + (∑ i ∈ Finset.range p, |(quadWeights m r lo hi).getD (i + 1) 0|) / (hi - lo), by positivity, ?_⟩
        intro p' hp' r' hr'
        rw [add_mul, div_mul_cancel₀ _ hΔ.ne']
        rcases List.mem_cons.1 hp' with rfl | hp'
        · rw [hr] at hr'; cases hr'
          have := mul_nonneg hA0 hΔ.le
          linarith
        · have := hA p' hp' r' hr'
          have := mul_nonneg hB0 hΔ.le
          rw [div_mul_cancel₀ _ hΔ.ne'] at this
          linarith
      · refine ⟨A, hA0, fun p' hp' r' hr' => ?_⟩
        rcases List.mem_cons.1 hp' with rfl | hp'
        · exact absurd ⟨r', hr'⟩ hr
        · exact hA p' hp' r' hr'
  by_cases hdur : t0 < tf
  swap
  · exact ⟨1, one_pos, fun M T ph W v _ _ _ h => absurd h hdur⟩
  have hd : 0 < tf - t0 := sub_pos.2 hdur
  -- uniform continuity
  have huc := isCompact_Icc.uniformContinuousOn_of_continuous hg
  set ε := η / 2 / ((A + 1) * (tf - t0)) with hε
  have hε0 : 0 < ε := by positivity
  obtain ⟨δ, hδ0, hδ⟩ := Metric.uniformContinuousOn_iff.1 huc ε hε0
  set G := |1 - κ| * |g t0| + 1 with hG
  have hG0 : 0 < G := by positivity
  refine ⟨min (δ / 2) (η / 2 / G), lt_min (by linarith) (by positivity), ?_⟩
  intro M T ph W v h e0 ef ht hw hH hv hW
  have hM := h.good
  have h0 : 0 < M.orders.length := List.length_pos_iff.2 hM.nonempty
  subst e0 ef
  have hb := C78_bound (m := m) h ht hw hg hv hW hH (ε := ε) (A := A) (fun t htt t' htt' hc => by
    have : dist t t' < δ := by
      rw [Real.dist_eq]; exact lt_of_le_of_lt (hc.trans (min_le_left _ _)) (by linarith)
    have := hδ t htt t' htt' this
    rw [Real.dist_eq] at this
    exact this.le) (fun p hp => hA p (h.allowed p hp) _ (h.nodes p hp))
  have e : ∑ s ∈ Finset.range M.orders.length,
        (1 - (quadWeights m (M.nodes (M.order s)) lo hi).getD 0 0 / (hi - lo)) *
          ∫ t in (M.time T ph s lo)..(M.time T ph s hi), g t = κ * ∫ t in (T.t0 ph)..(T.tf ph), g t := by
    rw [← sum_segment_integrals h ht hw hg, Finset.mul_sum]
    apply Finset.sum_congr rfl
    intro s hs
    have hp := hM.order_mem (Finset.mem_range.1 hs)
    rw [hκ _ (h.allowed _ hp) _ (h.nodes _ hp)]
  rw [e] at hb
  refine hb.trans ?_
  have h1 : A * ε * (T.tf ph - T.t0 ph) ≤ η / 2 := by
    have : A * ε * (T.tf ph - T.t0 ph) = A / (A + 1) * (η / 2) := by
      rw [hε]; field_simp
    rw [this]
    have : A / (A + 1) ≤ 1 := (div_le_one (by linarith)).2 (by linarith)
    have hη2 : 0 ≤ η / 2 := by linarith
    simpa using mul_le_mul_of_nonneg_right this hη2
  have h2 : M.halfWidth T ph 0 * |(quadWeights m (M.nodes (M.order 0)) lo hi).getD 0 0| * |g (T.t0 ph)| ≤ η / 2 := by
    have hp := hM.order_mem h0
    have hq0 : (quadWeights m (M.nodes (M.order 0)) lo hi).getD 0 0 = (1 - κ) * (hi - lo) := by
      have := hκ _ (h.allowed _ hp) _ (h.nodes _ hp)
      rw [← this]; field_simp; ring
    have hdh : M.halfWidth T ph 0 * (hi - lo) = (T.tf ph - T.t0 ph) * T.w 0 ph := by
      simp only [Mesh.halfWidth, h.tau0, h.tau1]; field_simp
    have hH0 : (T.tf ph - T.t0 ph) * T.w 0 ph ≤ η / 2 / G := (hH 0 h0).trans (min_le_right _ _)
    rw [hq0, abs_mul, abs_of_pos hΔ]
    calc _ = (M.halfWidth T ph 0 * (hi - lo)) * (|1 - κ| * |g (T.t0 ph)|) := by ring
      _ ≤ η / 2 / G * (|1 - κ| * |g (T.t0 ph)|) := by
          rw [hdh]; exact mul_le_mul_of_nonneg_right hH0 (by positivity)
      _ ≤ η / 2 / G * G := by
          refine mul_le_mul_of_nonneg_left ?_ (by positivity)
          rw [hG]; linarith
      _ = η / 2 := by field_simp
  linarith

/-! ## The cost of the samples of a trajectory -/

/-- Terminal costs plus `κ` times the integrals of the running costs. -/
noncomputable def OCP.weighedCost (ocp : OCP ℝ) (C : CTraj) (κ : ℝ) : ℝ :=
  ∑ ph ∈ Finset.range ocp.nPhases, (ocp.terminalCosts.getD ph (fun _ => 0) (ocp.cEnd C ph) +
    κ * ∫ t in (C.t0 ph)..(C.tf ph), ocp.runningCosts.getD ph (fun _ => 0) (ocp.cArg C ph t))

theorem OCP.weighedCost_one (ocp : OCP ℝ) (C : CTraj) : ocp.weighedCost C 1 = ocp.trueCost C := by
  simp [OCP.weighedCost, OCP.trueCost]

/-- A mesh, with segments lasting at most `ρ`, and node values of a trajectory on it. -/
structure FineSamples (ocp : OCP ℝ) (lo hi : ℝ) (taus : Nat → Py (List ℝ)) (P : List Nat) (ρ : ℝ) (C : CTraj) (M : Mesh ℝ)
    (T : Traj ℝ) : Prop where
  mesh : MeshOf lo hi taus P M
  samples : Samples ocp M C T
  widths : ∀ ph < ocp.nPhases, FullWidths M T ph
  lasts : ∀ ph < ocp.nPhases, M.Lasts T ph ρ

/-- Phases that last, and running costs that are continuous functions of time. -/
structure ContinuousCosts (ocp : OCP ℝ) (C : CTraj) : Prop where
  count : ocp.runningCosts.length = ocp.nPhases
  order : ∀ ph < ocp.nPhases, C.t0 ph < C.tf ph
  continuous : ∀ ph < ocp.nPhases, ContinuousOn
    (fun t => ocp.runningCosts.getD ph (fun _ => 0) (ocp.cArg C ph t)) (Set.Icc (C.t0 ph) (C.tf ph))

/-- **C78** The cost of the node values of a fixed trajectory, on fine meshes: terminal costs plus `κ` times the integrals. -/
theorem C78_cost {κ : ℝ} (hlt : lo < hi)
    (hκ : ∀ p ∈ P, ∀ r, taus p = .ok r → 1 - (quadWeights m r lo hi).getD 0 0 / (hi - lo) = κ) {C : CTraj}
    (hC : ContinuousCosts ocp C) {η : ℝ} (hη : 0 < η) :
    ∃ ρ, 0 < ρ ∧ ∀ (M : Mesh ℝ) (T : Traj ℝ) (W : List ℝ) (J : ℝ), FineSamples ocp lo hi taus P ρ C M T →
      compQuadWeights ⟨m, lo, hi, taus⟩ M.orders = .ok W → PhysCost ocp M W T J →
      |J - ocp.weighedCost C κ| ≤ η := by
  set n := ocp.nPhases with hn
  have hn1 : (0 : ℝ) < n + 1 := by positivity
  have hex : ∀ ph, ∃ ρ, 0 < ρ ∧ (ph < n → ∀ (M : Mesh ℝ) (T : Traj ℝ) (W : List ℝ) (v : Nat → ℝ),
      MeshOf lo hi taus P M → T.t0 ph = C.t0 ph → T.tf ph = C.tf ph → FullWidths M T ph → M.Lasts T ph ρ →
      TimeSamples M T ph (fun t => ocp.runningCosts.getD ph (fun _ => 0) (ocp.cArg C ph t)) v →
      compQuadWeights ⟨m, lo, hi, taus⟩ M.orders = .ok W →
      |weightedSum W v - κ * ∫ t in (C.t0 ph)..(C.tf ph),
        ocp.runningCosts.getD ph (fun _ => 0) (ocp.cArg C ph t)| ≤ η / (n + 1)) := by
    intro ph
    by_cases hp : ph < n
    · obtain ⟨ρ, h0, h⟩ := C78_limit hlt hκ (hC.continuous ph hp) (div_pos hη hn1)
      exact ⟨ρ, h0, fun _ M T W v a b c d e f g => h M T ph W v a b c (hC.order ph hp) d e f g⟩
    · exact ⟨1, one_pos, fun h => absurd h hp⟩
  choose R hR0 hR using hex
  obtain ⟨ρ, hρ0, hρ⟩ : ∃ ρ, 0 < ρ ∧ ∀ ph < n, ρ ≤ R ph := by
    clear hR
    generalize n = k
    induction k with
    | zero => exact ⟨1, one_pos, by simp⟩
    | succ k ih =>
      obtain ⟨ρ, h0, h⟩ := ih
      refine ⟨min ρ (R k), lt_min h0 (hR0 k), fun ph hp => ?_⟩
      rcases Nat.lt_succ_iff_lt_or_eq.1 hp with h1 | rfl
      · exact (min_le_left _ _).trans (h ph h1)
      · exact min_le_right _ _
  refine ⟨ρ, hρ0, ?_⟩
  rintro M T W J ⟨hmesh, hS, hfw, hlast⟩ hW ⟨v, hv, rfl⟩
  unfold OCP.weighedCost
  rw [← Finset.sum_sub_distrib]
  refine (Finset.abs_sum_le_sum_abs _ _).trans ((Finset.sum_le_sum (g := fun _ => η / (n + 1)) fun ph hp => ?_).trans ?_)
  · have hp := Finset.mem_range.1 hp
    have e : TerminalCost ocp M T ph = ocp.terminalCosts.getD ph (fun _ => 0) (ocp.cEnd C ph) := by
      unfold TerminalCost; rw [hS.tArg hmesh.good hp (hfw ph hp)]
    rw [e, add_sub_add_left_eq_sub]
    refine hR ph hp M T W (v ph) hmesh (hS.t0 ph hp) (hS.tf ph hp) (hfw ph hp)
      (fun s hs => (hlast ph hp s hs).trans (hρ ph hp)) (fun s i ho => ?_) hW
    have hl : ph < ocp.runningCosts.length := by rw [hC.count]; exact hp
    rw [hv ph hp _ (List.getElem?_eq_getElem hl) s i ho, hS.pArg hp ho]
    simp only [List.getD_eq_getElem _ _ hl]
  · rw [Finset.sum_const, Finset.card_range, nsmul_eq_mul, ← hn, ← mul_div_assoc, div_le_iff₀ hn1]
    linarith

/-! ## LGR: the true cost in the limit -/

/-- With LGR and orders at least 2 nothing is lost. -/
theorem lgr_share (lib : NodeLib ℝ) (m : Method) (hlt : lo < hi) (hord : ∀ p ∈ P, 2 ≤ p)
    (hj : ∀ p ∈ P, IsJacobiRoots 1 0 (p - 1) (lib.jroots (p - 1) 1 0)) :
    ∀ p ∈ P, ∀ r, tausFn lib lo hi "LGR" p = .ok r → 1 - (quadWeights m r lo hi).getD 0 0 / (hi - lo) = 1 := by
  intro p hp r hr
  obtain ⟨r', hr', hz⟩ := C05_lgr_first_weight_zero lib m lo hi hlt p (hord p hp) (hj p hp)
  rw [hr] at hr'
  cases hr'
  rw [List.getD_eq_getElem?_getD, ← List.head?_eq_getElem?, hz]
  simp

/-- **C78** With LGR, orders out of any list of numbers at least 2: on fine meshes the cost of the node values of a trajectory is
as close as wanted to its true cost. -/
theorem C78_lgr (lib : NodeLib ℝ) (m : Method) (hlt : lo < hi) (hord : ∀ p ∈ P, 2 ≤ p)
    (hj : ∀ p ∈ P, IsJacobiRoots 1 0 (p - 1) (lib.jroots (p - 1) 1 0)) {C : CTraj} (hC : ContinuousCosts ocp C) {η : ℝ}
    (hη : 0 < η) :
    ∃ ρ, 0 < ρ ∧ ∀ (M : Mesh ℝ) (T : Traj ℝ) (W : List ℝ) (J : ℝ),
      FineSamples ocp lo hi (tausFn lib lo hi "LGR") P ρ C M T →
      compQuadWeights ⟨m, lo, hi, tausFn lib lo hi "LGR"⟩ M.orders = .ok W → PhysCost ocp M W T J →
      |J - ocp.trueCost C| ≤ η := by
  rw [← ocp.weighedCost_one C]
  exact C78_cost hlt (lgr_share lib m hlt hord hj) hC hη

/-! ## LGL and CGL: a fixed share of the integral is lost -/

/-- The share `κ` of a positive rule of order at least 1. -/
theorem PositiveRule.share {p : Nat} (hlt : lo < hi) (hp : 1 ≤ p) (h : PositiveRule m lo hi taus [p]) :
    ∃ κ : ℝ, 0 < κ ∧ κ < 1 ∧
      ∀ q ∈ [p], ∀ r, taus q = .ok r → 1 - (quadWeights m r lo hi).getD 0 0 / (hi - lo) = κ := by
  obtain ⟨r, hr, hs, hpos⟩ := h p (by simp)
  have hΔ : 0 < hi - lo := sub_pos.2 hlt
  have hget : ∀ i ≤ p, 0 < (quadWeights m r lo hi).getD i 0 := by
    intro i hi'
    have hl : i < (quadWeights m r lo hi).length := by rw [length_quadWeights, hs.length]; omega
    rw [List.getD_eq_getElem _ _ hl]
    exact hpos _ (List.getElem_mem _)
  have hsum := sum_quadWeights (hs.sorted.imp fun h => h.ne) hs.length m lo hi
  have hrest : 0 < ∑ i ∈ Finset.range p, (quadWeights m r lo hi).getD (i + 1) 0 :=
    Finset.sum_pos (fun i hi' => hget _ (by have := Finset.mem_range.1 hi'; omega)) ⟨0, Finset.mem_range.2 hp⟩
  refine ⟨1 - (quadWeights m r lo hi).getD 0 0 / (hi - lo), ?_, ?_, ?_⟩
  · rw [sub_pos, div_lt_one hΔ]; linarith
  · have := div_pos (hget 0 (Nat.zero_le _)) hΔ
    linarith
  · intro q hq r' hr'
    obtain rfl : q = p := by simpa using hq
    rw [hr] at hr'
    cases hr'
    rfl

/-- **C78** With LGL or CGL and one order for all segments there is a number `κ` strictly between 0 and 1, belonging to the nodes
alone, such that on fine meshes the cost of the node values of any trajectory is close to the terminal costs plus `κ` times the
integrals: refining the mesh does not recover the rest. -/
theorem C78_share_lost {p : Nat} (hlt : lo < hi) (hp : 1 ≤ p) (h : PositiveRule m lo hi taus [p]) :
    ∃ κ : ℝ, 0 < κ ∧ κ < 1 ∧ ∀ (ocp : OCP ℝ) (C : CTraj), ContinuousCosts ocp C → ∀ η, 0 < η →
      ∃ ρ, 0 < ρ ∧ ∀ (M : Mesh ℝ) (T : Traj ℝ) (W : List ℝ) (J : ℝ), FineSamples ocp lo hi taus [p] ρ C M T →
        compQuadWeights ⟨m, lo, hi, taus⟩ M.orders = .ok W → PhysCost ocp M W T J →
        |J - ocp.weighedCost C κ| ≤ η := by
  obtain ⟨κ, h0, h1, hκ⟩ := h.share hlt hp
  exact ⟨κ, h0, h1, fun ocp C hC η hη => C78_cost hlt hκ hC hη⟩

/-- Meshes with any number of segments of one order, with nodes spanning the interval. -/
theorem exists_meshOf {p n : Nat} (hp : 1 ≤ p) (hn : 0 < n) {r : List ℝ} (hr : taus p = .ok r)
    (hs : NodesSpan lo hi p r) : ∃ M, MeshOf lo hi taus [p] M ∧ M.orders = List.replicate n p := by
  have hne : r ≠ [] := by intro e; have := hs.length; rw [e] at this; simp at this
  have hmem : ∀ q, q ∈ List.replicate n p → q = p := fun q hq => (List.mem_replicate.1 hq).2
  have hl := hs.length
  have hf : r[0]? = some lo := by rw [← List.head?_eq_getElem?]; exact hs.first
  have hla : r[p]? = some hi := by
    have := hs.last
    rw [List.getLast?_eq_getElem?, hl, Nat.add_sub_cancel] at this
    exact this
  refine ⟨⟨List.replicate n p, fun _ => r, lo, hi⟩, ⟨?_, ?_, rfl, rfl, ?_, ?_⟩, rfl⟩
  · constructor
    · intro e; have := congrArg List.length e; simp at this; omega
    · intro q hq; rw [hmem q hq]; exact hp
    · intro q hq; rw [hmem q hq]; exact hl
    · intro q hq; exact hs.sorted.imp fun h => h.ne
    · intro q hq; exact hf
    · intro q hq; rw [hmem q hq]; exact hla
  · intro q hq v hv
    change v ∈ r at hv
    obtain ⟨k, hk, rfl⟩ := List.getElem_of_mem hv
    have hmono : ∀ i j (hi : i < r.length) (hj : j < r.length), i ≤ j → r[i] ≤ r[j] := by
      intro i j hi hj hij
      rcases Nat.eq_or_lt_of_le hij with rfl | h
      · exact le_rfl
      · exact (List.pairwise_iff_getElem.1 hs.sorted i j hi hj h).le
    rw [List.getElem?_eq_getElem (by omega)] at hf hla
    change lo ≤ r[k] ∧ r[k] ≤ hi
    rw [← Option.some.inj hf, ← Option.some.inj hla]
    exact ⟨hmono _ _ _ _ (Nat.zero_le _), hmono _ _ _ _ (by omega)⟩
  · intro q hq; rw [hmem q hq]; simp
  · intro q hq; rw [hmem q hq]; exact hr

/-- Node values on equal segments, as fine as wanted. -/
theorem exists_fineSamples {p : Nat} (hp : 1 ≤ p) {r : List ℝ} (hr : taus p = .ok r) (hs : NodesSpan lo hi p r) (C : CTraj)
    {ρ : ℝ} (hρ : 0 < ρ) : ∃ M T, FineSamples ocp lo hi taus [p] ρ C M T := by
  obtain ⟨B, hB0, hB⟩ : ∃ B : ℝ, 0 < B ∧ ∀ ph < ocp.nPhases, C.tf ph - C.t0 ph ≤ B := by
    generalize ocp.nPhases = k
    induction k with
    | zero => exact ⟨1, one_pos, by simp⟩
    | succ k ih =>
      obtain ⟨B, h0, h⟩ := ih
      refine ⟨max B (C.tf k - C.t0 k), lt_max_of_lt_left h0, fun ph hp => ?_⟩
      rcases Nat.lt_succ_iff_lt_or_eq.1 hp with h1 | rfl
      · exact (h ph h1).trans (le_max_left _ _)
      · exact le_max_right _ _
  obtain ⟨n, hn⟩ := exists_nat_gt (B / ρ)
  have hnr : (0 : ℝ) < n := (div_pos hB0 hρ).trans hn
  have hn0 : 0 < n := Nat.cast_pos.1 hnr
  obtain ⟨M, hM, ho⟩ := exists_meshOf hp hn0 hr hs
  have hlen : M.orders.length = n := by rw [ho]; simp
  obtain ⟨T, hT, hw⟩ := exists_samples_of ocp M C fun _ _ => 1 / (n : ℝ)
  refine ⟨M, T, hM, hT, fun ph _ => ⟨fun s _ => by rw [hw]; positivity, ?_⟩, fun ph hp s _ => ?_⟩
  · rw [hlen, hw, Finset.sum_const, Finset.card_range, nsmul_eq_mul]
    field_simp
  · rw [hw, hT.t0 ph hp, hT.tf ph hp, mul_one_div, div_le_iff₀ hnr]
    have := (div_lt_iff₀ hρ).1 hn
    linarith [hB ph hp]

/-- **C78** So the collocated problem can prefer the wrong trajectory on every fine mesh: if the costs with the integrals weighed
by `κ` are in the other order, so are the costs of the node values. -/
theorem C78_wrong_preference {κ : ℝ} (hlt : lo < hi)
    (hκ : ∀ p ∈ P, ∀ r, taus p = .ok r → 1 - (quadWeights m r lo hi).getD 0 0 / (hi - lo) = κ) {C D : CTraj}
    (hC : ContinuousCosts ocp C) (hD : ContinuousCosts ocp D) (hless : ocp.weighedCost D κ < ocp.weighedCost C κ) :
    ∃ ρ, 0 < ρ ∧ ∀ (M M' : Mesh ℝ) (T T' : Traj ℝ) (W W' : List ℝ) (J J' : ℝ),
      FineSamples ocp lo hi taus P ρ C M T → FineSamples ocp lo hi taus P ρ D M' T' →
      compQuadWeights ⟨m, lo, hi, taus⟩ M.orders = .ok W → compQuadWeights ⟨m, lo, hi, taus⟩ M'.orders = .ok W' →
      PhysCost ocp M W T J → PhysCost ocp M' W' T' J' → J' < J := by
  have hη : 0 < (ocp.weighedCost C κ - ocp.weighedCost D κ) / 3 := by linarith
  obtain ⟨ρ, h0, h⟩ := C78_cost hlt hκ hC hη
  obtain ⟨ρ', h0', h'⟩ := C78_cost hlt hκ hD hη
  refine ⟨min ρ ρ', lt_min h0 h0', ?_⟩
  intro M M' T T' W W' J J' hT hT' hW hW' hJ hJ'
  have a := abs_le.1 (h M T W J ⟨hT.mesh, hT.samples, hT.widths, fun ph hp s hs =>
    (hT.lasts ph hp s hs).trans (min_le_left _ _)⟩ hW hJ)
  have b := abs_le.1 (h' M' T' W' J' ⟨hT'.mesh, hT'.samples, hT'.widths, fun ph hp s hs =>
    (hT'.lasts ph hp s hs).trans (min_le_right _ _)⟩ hW' hJ')
  linarith [a.1, b.2]

/-! ## A problem whose optimum is missed on every fine CGL mesh -/

/-- `x' = u`, `-1 ≤ u`, `tf` in `[1, 2]`, cost `∫ 1 dt - k tf`. -/
noncomputable def ocpWait (k : ℝ) : OCP ℝ :=
  { ocpR with
    pathConstraints := [none]
    terminalCosts := [fun t => -k * t.tf]
    runningCosts := [fun _ => 1]
    terminalConstraints := [none]
    lbtf := [[.fin 1]], ubtf := [[.fin 2]] }

/-- Wait until `e`. -/
noncomputable def waitUntil (e : ℝ) : CTraj := ⟨fun _ _ _ => 0, fun _ _ _ => 0, fun _ => 0, fun _ => e, fun _ _ => 0⟩

theorem waitUntil_solves {k e : ℝ} (h1 : 1 ≤ e) (h2 : e ≤ 2) : SolvesContinuously (ocpWait k) (waitUntil e) := by
  refine ⟨fun ph hph => ?_, by simp [ocpWait, ocpR], by simp [ocpWait, ocpR], by simp [ocpWait, ocpR]⟩
  obtain rfl : ph = 0 := by simpa [ocpWait, ocpR] using hph
  constructor
  · simp [waitUntil]; linarith
  · constructor
    · intro F hF j hj t _ _
      simp only [ocpWait, ocpR, List.getElem?_cons_zero, Option.some.injEq] at hF
      subst hF
      simpa [waitUntil, OCP.cArg, ocpWait, ocpR] using hasDerivWithinAt_const t (Set.Iic t) (0 : ℝ)
    · intro F hF j hj
      simp only [ocpWait, ocpR, List.getElem?_cons_zero, Option.some.injEq] at hF
      subst hF
      simpa [waitUntil, OCP.cArg, ocpWait, ocpR] using hasDerivWithinAt_const (0 : ℝ) (Set.Ici 0) (0 : ℝ)
    · exact fun j _ => continuousOn_const
  · intro F hF; simp [ocpWait] at hF
  · intro F hF; simp [ocpWait] at hF
  · intro _ j hj
    obtain rfl : j = 0 := by simpa [ocpWait, ocpR] using hj
    simp [waitUntil, ocpWait, ocpR, entry]
  · intro t _ _ j hj
    obtain rfl : j = 0 := by simpa [ocpWait, ocpR] using hj
    norm_num [waitUntil, ocpWait, ocpR, entry, Within, Ext.Below, Ext.Above]
  · intro t _ j hj
    obtain rfl : j = 0 := by simpa [ocpWait, ocpR] using hj
    norm_num [waitUntil, ocpWait, ocpR, entry, Within, Ext.Below, Ext.Above]
  · norm_num [waitUntil, ocpWait, ocpR, entry, Within, Ext.Below, Ext.Above]
  · simpa [waitUntil, ocpWait, ocpR, entry, Within, Ext.Below, Ext.Above] using ⟨h1, h2⟩
  · intro j hj; simp [ocpWait, ocpR] at hj

theorem waitUntil_cost (k κ e : ℝ) : (ocpWait k).weighedCost (waitUntil e) κ = (κ - k) * e := by
  simp [OCP.weighedCost, ocpWait, ocpR, waitUntil, OCP.cEnd]
  ring

theorem waitUntil_continuous (k : ℝ) {e : ℝ} (he : 0 < e) : ContinuousCosts (ocpWait k) (waitUntil e) := by
  refine ⟨by simp [ocpWait, ocpR], fun ph _ => by simpa [waitUntil] using he, fun ph hp => ?_⟩
  obtain rfl : ph = 0 := by simpa [ocpWait, ocpR] using hp
  simpa [ocpWait] using continuousOn_const

/-- **C78** For CGL nodes of any order: a problem and two feasible trajectories, the first truly cheaper, such that on every mesh
fine enough, whatever its number of segments and their widths, the second is cheaper for the collocated problem. There are such
meshes. -/
theorem C78_example (p : Nat) (hp : 1 ≤ p) : ∃ (ocp : OCP ℝ) (C D : CTraj), SolvesContinuously ocp C ∧
    SolvesContinuously ocp D ∧ ocp.trueCost C < ocp.trueCost D ∧ ∃ ρ, 0 < ρ ∧
      (∃ M M' T T', FineSamples ocp (-1) 1 (tausFn libR (-1) 1 "CGL") [p] ρ C M T ∧
        FineSamples ocp (-1) 1 (tausFn libR (-1) 1 "CGL") [p] ρ D M' T') ∧
      ∀ (M M' : Mesh ℝ) (T T' : Traj ℝ) (W W' : List ℝ) (J J' : ℝ),
        FineSamples ocp (-1) 1 (tausFn libR (-1) 1 "CGL") [p] ρ C M T →
        FineSamples ocp (-1) 1 (tausFn libR (-1) 1 "CGL") [p] ρ D M' T' →
        compQuadWeights ⟨.numerical, -1, 1, tausFn libR (-1) 1 "CGL"⟩ M.orders = .ok W →
        compQuadWeights ⟨.numerical, -1, 1, tausFn libR (-1) 1 "CGL"⟩ M'.orders = .ok W' →
        PhysCost ocp M W T J → PhysCost ocp M' W' T' J' → J' < J := by
  have hlt : (-1 : ℝ) < 1 := by norm_num
  have hrule : PositiveRule .numerical (-1) 1 (tausFn libR (-1) 1 "CGL") [p] :=
    cgl_positive libR libR_cosine .numerical hlt (by simpa using hp)
  obtain ⟨κ, h0, h1, hκ⟩ := hrule.share hlt hp
  obtain ⟨r, hr, hs, -⟩ := hrule p (by simp)
  obtain ⟨ρ, hρ0, hρ⟩ := C78_wrong_preference (m := .numerical) hlt hκ
    (waitUntil_continuous ((1 + κ) / 2) (e := 1) one_pos) (waitUntil_continuous ((1 + κ) / 2) (e := 2) two_pos) (by
      rw [waitUntil_cost, waitUntil_cost]; linarith)
  obtain ⟨M, T, hT⟩ := exists_fineSamples (ocp := ocpWait ((1 + κ) / 2)) hp hr hs (waitUntil 1) hρ0
  obtain ⟨M', T', hT'⟩ := exists_fineSamples (ocp := ocpWait ((1 + κ) / 2)) hp hr hs (waitUntil 2) hρ0
  refine ⟨ocpWait ((1 + κ) / 2), waitUntil 1, waitUntil 2, waitUntil_solves le_rfl (by norm_num),
    waitUntil_solves (by norm_num) le_rfl, ?_, ρ, hρ0, ⟨M, M', T, T', hT, hT'⟩, hρ⟩
  rw [← OCP.weighedCost_one, ← OCP.weighedCost_one, waitUntil_cost, waitUntil_cost]
  linarith

/-- The meshes of a run are among those above. -/
theorem MeshFor.meshOf {V : Type} {w : Outside ℝ V} {scheme : String} {n : Nat} {arg : OrdersArg}
    (h : MeshFor w scheme n arg M) (hI : M.Inside) :
    MeshOf w.tau0 w.tau1 (tausFn w.lib w.tau0 w.tau1 scheme) M.orders M :=
  ⟨h.good, hI, h.tau0, h.tau1, fun _ h => h, h.nodes⟩

/-- The hypotheses of `C78_lgr` are met: the straight line on LGR meshes of any order at least 2, as fine as wanted, has node
values whose cost is near 1/16. -/
example (p : Nat) (hp : 2 ≤ p) {η : ℝ} (hη : 0 < η) : ∃ M T W J,
    Samples ocpR M lineR T ∧ M.Good ∧ compQuadWeights ⟨.numerical, -1, 1, tausFn libR (-1) 1 "LGR"⟩ M.orders = .ok W ∧
      PhysCost ocpR M W T J ∧ |J - 1 / 16| ≤ η := by
  have hlt : (-1 : ℝ) < 1 := by norm_num
  have hC : ContinuousCosts ocpR lineR := by
    refine ⟨rfl, fun ph _ => by norm_num [lineR], fun ph hp => ?_⟩
    obtain rfl : ph = 0 := by simpa [ocpR] using hp
    simpa [ocpR, lineR, OCP.cArg] using continuousOn_const
  obtain ⟨ρ, hρ0, hρ⟩ := C78_lgr (P := [p]) libR .numerical hlt (by simpa using hp) (fun _ _ => libR_jacobi 1 0 _) hC hη
  obtain ⟨r, hr, hs⟩ := C01_lgr_nodes libR (-1) 1 hlt p (by omega) (fun _ => libR_jacobi 1 0 _)
  obtain ⟨M, T, hT⟩ := exists_fineSamples (ocp := ocpR) (by omega) hr hs lineR hρ0
  obtain ⟨W, hW, -⟩ := compQuadWeights_spec ⟨.numerical, -1, 1, tausFn libR (-1) 1 "LGR"⟩ M.orders hT.mesh.good.nonempty M.nodes
    hT.mesh.goodNodes
  obtain ⟨v, hv⟩ := exists_samples ocpR M T
  have := hρ M T W _ hT hW ⟨v, hv, rfl⟩
  rw [lineR_cost] at this
  exact ⟨M, T, W, _, hT.samples, hT.mesh.good, hW, ⟨v, hv, rfl⟩, this⟩

/-- `C78_share_lost` applies to LGL too. -/
example (p : Nat) (hp : 2 ≤ p) : PositiveRule .numerical (-1) 1 (tausFn libR (-1) 1 "LGL") [p] :=
  lgl_positive libR .numerical (by norm_num) (by simpa using hp) fun _ _ => libR_jacobi 1 1 _

end MPOpt
