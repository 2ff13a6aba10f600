import Mathlib.MeasureTheory.Integral.IntervalIntegral.FundThmCalculus
import Verif.Spec.Flown
import Verif.Props.CostLimit
import Verif.Props.ResponseExists
import Verif.Props.PostInterp

/-! # C80: a collocated plan, given to the real system -/

set_option autoImplicit false

namespace MPOpt
open Polynomial

variable {ocp : OCP ℝ} {M : Mesh ℝ} {T : Traj ℝ} {F : VFun (PArg ℝ) ℝ} {ph : Nat} {X : Nat → ℝ → ℝ}
  {S U : List ℝ → Prop} {lo hi : Nat → ℝ} {K : Sizes}

/-- Every time of the phase lies in a segment. -/
theorem exists_instant (hM : M.Good) (hI : M.Inside) (ht : T.t0 ph < T.tf ph) (hw : FullWidths M T ph) {t : ℝ}
    (htt : t ∈ Set.Icc (T.t0 ph) (T.tf ph)) :
    ∃ s < M.orders.length, ∃ tau ∈ Set.Icc M.tau0 M.tau1, M.time T ph s tau = t := by
  have hends := C13_segment_ends hM T ph
  have hfind : ∀ n ≤ M.orders.length, t ≤ M.time T ph n M.tau0 → 0 < n →
      ∃ s < n, t ∈ Set.Icc (M.time T ph s M.tau0) (M.time T ph s M.tau1) := by
    intro n
    induction n with
    | zero => intro _ _ h; omega
    | succ n ih =>
      intro hn hle _
      by_cases h : M.time T ph n M.tau0 ≤ t
      · exact ⟨n, by omega, h, by rwa [hends.2.2.1] at hle⟩
      · rcases Nat.eq_zero_or_pos n with rfl | hn0
        · rw [hends.1] at h; exact absurd htt.1 h
        · obtain ⟨s, hs, h'⟩ := ih (by omega) (not_le.1 h).le hn0
          exact ⟨s, by omega, h'⟩
  obtain ⟨s, hs, hst⟩ := hfind _ le_rfl (by rw [time_last hM hw]; exact htt.2) (List.length_pos_iff.2 hM.nonempty)
  have hh := (time_bounds hM hI ht hw hs).1
  exact ⟨s, hs, _, clockInv_mem hh hst, time_clockInv hh t⟩

/-- The pieces through node values, one after the other, as one continuous function of time. -/
theorem exists_glued (hM : M.Good) (hI : M.Inside) (ht : T.t0 ph < T.tf ph) (hw : FullWidths M T ph) (v : Nat → ℝ) :
    ∃ f : ℝ → ℝ, ContinuousOn f (Set.Icc (T.t0 ph) (T.tf ph)) ∧
      ∀ s < M.orders.length, ∀ tau ∈ Set.Icc M.tau0 M.tau1, f (M.time T ph s tau) = (M.piece v s).eval tau := by
  have hends := C13_segment_ends hM T ph
  have hlt := hI.tau_lt hM
  set g : Nat → ℝ → ℝ := fun s t => (M.piece v s).eval (M.clockInv T ph s t) with hg
  have hgc : ∀ s, Continuous (g s) := fun s => (Polynomial.continuous _).comp (by unfold Mesh.clockInv; fun_prop)
  have hmono : ∀ s < M.orders.length, M.time T ph s M.tau0 ≤ M.time T ph s M.tau1 := fun s hs => by
    have := (time_bounds hM hI ht hw hs).1
    unfold Mesh.time; nlinarith
  have hmatch : ∀ s, s + 1 < M.orders.length → g s (M.time T ph (s + 1) M.tau0) = g (s + 1) (M.time T ph (s + 1) M.tau0) := by
    intro s hs
    have hs' : s < M.orders.length := by omega
    simp only [hg]
    rw [clockInv_time (time_bounds hM hI ht hw hs).1, hends.2.2.1, clockInv_time (time_bounds hM hI ht hw hs').1]
    have e1 := hM.piece_eval_node v hs (Nat.zero_le _)
    have e2 := hM.piece_eval_node v hs' le_rfl
    rw [hM.node_first hs] at e1
    rw [hM.node_last hs'] at e2
    rw [e1, e2]
    unfold Mesh.idx
    rw [segStart_succ _ hs', Mesh.order_eq hs', Nat.add_zero]
  have key : ∀ n, n < M.orders.length → ∃ f : ℝ → ℝ,
      ContinuousOn f (Set.Icc (T.t0 ph) (M.time T ph (n + 1) M.tau0)) ∧
      (∀ s ≤ n, ∀ t ∈ Set.Icc (M.time T ph s M.tau0) (M.time T ph s M.tau1), f t = g s t) := by
    intro n
    induction n with
    | zero =>
      intro _
      exact ⟨g 0, (hgc 0).continuousOn, fun s hs t _ => by rw [Nat.le_zero.1 hs]⟩
    | succ n ih =>
      intro hn
      obtain ⟨f, hf, hfg⟩ := ih (by omega)
      have hb0 : T.t0 ph ≤ M.time T ph (n + 1) M.tau0 := (time_bounds hM hI ht hw hn).2.1 _ le_rfl
      have hb1 : M.time T ph (n + 1) M.tau0 ≤ M.time T ph (n + 2) M.tau0 := by
        rw [hends.2.2.1 (n + 1)]; exact hmono _ hn
      have hval : f (M.time T ph (n + 1) M.tau0) = g (n + 1) (M.time T ph (n + 1) M.tau0) := by
        rw [← hmatch n hn, hends.2.2.1]
        exact hfg n le_rfl _ ⟨hmono n (by omega), le_rfl⟩
      refine ⟨glueAt (M.time T ph (n + 1) M.tau0) f (g (n + 1)), ?_, ?_⟩
      · rw [← Set.Icc_union_Icc_eq_Icc hb0 hb1]
        refine ContinuousOn.union_of_isClosed ?_ ?_ isClosed_Icc isClosed_Icc
        · exact hf.congr fun t htt => glueAt_left _ _ _ htt.2
        · exact (hgc _).continuousOn.congr fun t htt => glueAt_right hval htt.1
      · intro s hs t htt
        rcases Nat.lt_or_ge s (n + 1) with h1 | h1
        · rw [glueAt_left]
          · exact hfg s (by omega) t htt
          · refine htt.2.trans ?_
            rw [← hends.2.2.1]
            have : ∀ m, s + 1 + m ≤ n + 1 → M.time T ph (s + 1) M.tau0 ≤ M.time T ph (s + 1 + m) M.tau0 := by
              intro m
              induction m with
              | zero => intro _; exact le_rfl
              | succ m ihm =>
                intro hm
                refine (ihm (by omega)).trans ?_
                rw [show s + 1 + (m + 1) = (s + 1 + m) + 1 from rfl, hends.2.2.1]
                exact hmono _ (by omega)
            have := this (n - s) (by omega)
            rwa [show s + 1 + (n - s) = n + 1 by omega] at this
        · obtain rfl : s = n + 1 := by omega
          exact glueAt_right hval htt.1
  have h0 : 0 < M.orders.length := List.length_pos_iff.2 hM.nonempty
  obtain ⟨f, hf, hfg⟩ := key (M.orders.length - 1) (by omega)
  rw [Nat.sub_add_cancel h0, time_last hM hw] at hf
  refine ⟨f, hf, fun s hs tau htau => ?_⟩
  obtain ⟨b1, -, -⟩ := time_bounds hM hI ht hw hs
  rw [hfg s (by omega) _ ⟨by unfold Mesh.time; nlinarith [htau.1], by unfold Mesh.time; nlinarith [htau.2]⟩]
  simp only [hg]
  rw [clockInv_time b1]

/-- A scalar function is continuous along continuous states and controls that stay where it is Lipschitz. -/
theorem LipschitzScalar.continuousOn {g : PArg ℝ → ℝ} {I : Set ℝ} {a : Nat → ℝ} {Qx Qu Qt : ℝ}
    (h : LipschitzScalar ocp g S U I a Qx Qu Qt) {C : CTraj} (ha : C.a ph = a) (hx : ∀ j < ocp.nx, ContinuousOn (C.x ph j) I) (hu : ∀ j < ocp.nu, ContinuousOn (C.u ph j) I)
    (hS : ∀ t ∈ I, S (ocp.cArg C ph t).x) (hU : ∀ t ∈ I, U (ocp.cArg C ph t).u) :
    ContinuousOn (fun t => g (ocp.cArg C ph t)) I := by
  subst ha
  intro t ht
  set G : ℝ → ℝ := fun r =>
    Qx * (∑ k ∈ Finset.range ocp.nx, |ocp.scaleX.getD k 0 * (C.x ph k r - C.x ph k t)|) +
    Qu * (∑ k ∈ Finset.range ocp.nu, |ocp.scaleU.getD k 0 * (C.u ph k r - C.u ph k t)|) + Qt * |r - t| with hG
  have hGc : ContinuousWithinAt G I t := by
    refine ((continuousWithinAt_const.mul (tendsto_finsetSum _ fun k hk => ?_)).add
      (continuousWithinAt_const.mul (tendsto_finsetSum _ fun k hk => ?_))).add
      (continuousWithinAt_const.mul (continuousWithinAt_id.sub continuousWithinAt_const).abs)
    · exact (continuousWithinAt_const.mul ((hx k (Finset.mem_range.1 hk) t ht).sub continuousWithinAt_const)).abs
    · exact (continuousWithinAt_const.mul ((hu k (Finset.mem_range.1 hk) t ht).sub continuousWithinAt_const)).abs
  have hG0 : G t = 0 := by simp [hG]
  rw [ContinuousWithinAt, tendsto_iff_dist_tendsto_zero]
  refine squeeze_zero' (Filter.Eventually.of_forall fun _ => dist_nonneg) (g := G) ?_ ?_
  · filter_upwards [self_mem_nhdsWithin] with r hr
    rw [Real.dist_eq]
    refine h (ocp.cArg C ph r) (ocp.cArg C ph t) (hS r hr) (hS t ht) (hU r hr) (hU t ht) hr ht rfl rfl _ _
      (fun k hk => ?_) (fun k hk => ?_)
    · have e : ∀ t, (ocp.cArg C ph t).x.getD k 0 = C.x ph k t := fun t => getD_range_map _ hk
      rw [e, e]
      exact Finset.single_le_sum (f := fun k => |ocp.scaleX.getD k 0 * (C.x ph k r - C.x ph k t)|)
        (fun _ _ => abs_nonneg _) (Finset.mem_range.2 hk)
    · have e : ∀ t, (ocp.cArg C ph t).u.getD k 0 = C.u ph k t := fun t => getD_range_map _ hk
      rw [e, e]
      exact Finset.single_le_sum (f := fun k => |ocp.scaleU.getD k 0 * (C.u ph k r - C.u ph k t)|)
        (fun _ _ => abs_nonneg _) (Finset.mem_range.2 hk)
  · have := hGc.tendsto
    rwa [hG0] at this

/-- Lipschitz dynamics, component by component. -/
theorem LipschitzIn.scalar {I : Set ℝ} {a : Nat → ℝ} {Lx Lu Lt : ℝ} (h : LipschitzIn ocp F S U I a Lx Lu Lt) {j : Nat} (hj : j < ocp.nx)
    (hpos : 0 < ocp.scaleX.getD j 0) :
    LipschitzScalar ocp (fun p => F.f p j) S U I a (Lx / ocp.scaleX.getD j 0) (Lu / ocp.scaleX.getD j 0)
      (Lt / ocp.scaleX.getD j 0) := by
  intro p q h1 h2 h3 h4 h5 h6 h7 h7' dx du h8 h9
  have := h p q h1 h2 h3 h4 h5 h6 h7 h7' dx du h8 h9 j hj
  rw [abs_mul, abs_of_pos hpos] at this
  have e : Lx / ocp.scaleX.getD j 0 * dx + Lu / ocp.scaleX.getD j 0 * du + Lt / ocp.scaleX.getD j 0 * |p.t - q.t| =
      (Lx * dx + Lu * du + Lt * |p.t - q.t|) / ocp.scaleX.getD j 0 := by ring
  rw [e, le_div_iff₀ hpos, mul_comm]
  exact this

/-- A continuous function whose derivative from the right is a continuous function has that derivative. -/
theorem hasDeriv_of_right {f g : ℝ → ℝ} {a b : ℝ} (hab : a < b) (hf : ContinuousOn f (Set.Icc a b))
    (hg : ContinuousOn g (Set.Icc a b)) (hd : ∀ t ∈ Set.Ico a b, HasDerivWithinAt f (g t) (Set.Ici t) t) :
    ∀ t ∈ Set.Icc a b, HasDerivWithinAt f (g t) (Set.Icc a b) t := by
  have hint : ∀ t ∈ Set.Icc a b, ∫ r in a..t, g r = f t - f a := by
    intro t ht
    refine intervalIntegral.integral_eq_sub_of_hasDeriv_right_of_le ht.1 (hf.mono (Set.Icc_subset_Icc_right ht.2))
      (fun r hr => (hd r ⟨hr.1.le, hr.2.trans_le ht.2⟩).mono Set.Ioi_subset_Ici_self) ?_
    exact (hg.mono (by rw [Set.uIcc_of_le ht.1]; exact Set.Icc_subset_Icc_right ht.2)).intervalIntegrable
  -- extend `g` to a continuous function
  set G : ℝ → ℝ := Set.IccExtend hab.le ((Set.Icc a b).domRestrict g) with hG
  have hGc : Continuous G := (continuousOn_iff_continuous_domRestrict.1 hg).Icc_extend'
  have hGg : ∀ t ∈ Set.Icc a b, G t = g t := fun t ht => by
    rw [hG, Set.IccExtend_of_mem _ _ ht]; rfl
  intro t ht
  have h1 : HasDerivAt (fun t => (∫ r in a..t, G r) + f a) (G t) t :=
    (intervalIntegral.integral_hasDerivAt_right (hGc.intervalIntegrable _ _) (hGc.stronglyMeasurableAtFilter _ _)
      hGc.continuousAt).add_const _
  have h2 : ∀ t ∈ Set.Icc a b, f t = (∫ r in a..t, G r) + f a := by
    intro t ht
    rw [intervalIntegral.integral_congr (g := g) (fun r hr => hGg r (by
      rw [Set.uIcc_of_le ht.1] at hr; exact ⟨hr.1, hr.2.trans ht.2⟩)), hint t ht]
    ring
  rw [← hGg t ht]
  exact h1.hasDerivWithinAt.congr (fun r hr => h2 r hr) (h2 t ht)

/-! ## One phase -/

theorem Sized.nonneg (h : Sized ocp M T ph lo hi U K) (hM : M.Good) (hI : M.Inside) (hw : FullWidths M T ph)
    (hF : ocp.dynamics[ph]? = some F) :
    0 ≤ K.C ∧ 0 ≤ K.H ∧ 0 ≤ K.dur ∧ 0 ≤ K.rate ∧ 0 ≤ K.drift ∧ K.drift ≤ K.gap := by
  have ht := h.tame F hF
  have hC0 : 0 ≤ K.C := zero_le_one.trans (ht.lebesgue.one_le hM hI)
  have h00 : 0 < M.orders.length := List.length_pos_iff.2 hM.nonempty
  have hH0 : 0 ≤ K.H := (mul_pos (sub_pos.2 h.order) (hw.pos 0 h00)).le.trans (ht.lasts 0 h00)
  have hd0 : 0 ≤ K.dur := (sub_pos.2 h.order).le.trans h.length
  have hE : 0 ≤ K.rate := by
    have h1 := mul_nonneg ht.Lx (mul_nonneg (mul_nonneg hC0 (add_nonneg ht.B h.tol)) hH0)
    have h2 := mul_nonneg ht.Lu ht.e
    have h3 := mul_nonneg ht.Lt hH0
    exact mul_nonneg hC0 (by linarith [h.tol])
  refine ⟨hC0, hH0, hd0, hE, mul_nonneg (mul_nonneg hE hd0) (Real.exp_pos _).le, ?_⟩
  have := mul_nonneg (mul_nonneg hC0 (add_nonneg ht.B h.tol)) hH0
  unfold Sizes.gap; linarith

/-- For shorter times the distance is at most `K.drift`. -/
theorem Sizes.le_drift (K : Sizes) (hE : 0 ≤ K.rate) (hL : 0 ≤ K.Lx) {d : ℝ} (hd0 : 0 ≤ d) (hd : d ≤ K.dur) :
    K.rate * d * Real.exp (K.Lx * d) ≤ K.drift := by
  unfold Sizes.drift
  exact mul_le_mul (mul_le_mul_of_nonneg_left hd hE) (Real.exp_le_exp.2 (mul_le_mul_of_nonneg_left hd hL))
    (Real.exp_pos _).le (mul_nonneg hE (hd0.trans hd))

theorem Sized.shadow (h : Sized ocp M T ph lo hi U K) (hM : M.Good) (hI : M.Inside) (hw : FullWidths M T ph)
    (hpos : ∀ j < ocp.nx, 0 < ocp.scaleX.getD j 0) (hC : CollocationRate K.tol ocp M T ph) (hF : ocp.dynamics[ph]? = some F) :
    ∃ X, Shadow ocp M T F ph (ocp.InBox lo hi) K.rate K.Lx X := by
  obtain ⟨h1, h2, h3, h4, h5, h6⟩ := h.nonneg hM hI hw hF
  exact C82_fine hM hI h.order hw hpos h.tol hC hF (h.tame F hF) h.keeps
    (K.le_drift h4 (h.tame F hF).Lx (sub_pos.2 h.order).le h.length)

/-- Collocation equations that hold exactly hold up to any tolerance. -/
theorem CollocationOK.rate_le (hC : CollocationOK ocp M T ph) (hM : M.Good) (hI : M.Inside) (ht : T.t0 ph < T.tf ph)
    (hw : FullWidths M T ph) {κ : ℝ} (hκ : 0 ≤ κ) : CollocationRate κ ocp M T ph := by
  intro F hF j hj s i ho
  rw [hC F hF j hj s i ho, sub_self, mul_zero, abs_zero]
  exact mul_nonneg (time_bounds hM hI ht hw ho.1).1.le hκ

/-- What is known of the motion in one phase. -/
structure PhaseFlown (ocp : OCP ℝ) (M : Mesh ℝ) (T : Traj ℝ) (C : CTraj) (ph : Nat) (lo hi : Nat → ℝ) (U : List ℝ → Prop)
    (K : Sizes) : Prop where
  t0 : C.t0 = T.t0
  tf : C.tf = T.tf
  a : C.a = T.a
  u : ∀ j < ocp.nu, ∀ s < M.orders.length, ∀ tau ∈ Set.Icc M.tau0 M.tau1,
    C.u ph j (M.time T ph s tau) = M.controlAt T ph s tau j
  contX : ∀ j < ocp.nx, ContinuousOn (C.x ph j) (Set.Icc (T.t0 ph) (T.tf ph))
  contU : ∀ j < ocp.nu, ContinuousOn (C.u ph j) (Set.Icc (T.t0 ph) (T.tf ph))
  shadow : ∃ F, ocp.dynamics[ph]? = some F ∧ Shadow ocp M T F ph (ocp.InBox lo hi) K.rate K.Lx (C.x ph)

section
variable {C : CTraj}

theorem PhaseFlown.arg (h : PhaseFlown ocp M T C ph lo hi U K) {s : Nat} (hs : s < M.orders.length) {tau : ℝ}
    (htau : tau ∈ Set.Icc M.tau0 M.tau1) :
    ocp.cArg C ph (M.time T ph s tau) = ocp.argWith M T ph s tau fun k => C.x ph k (M.time T ph s tau) := by
  unfold OCP.cArg OCP.argWith OCP.pArgAt
  simp only [h.a]
  rw [List.map_congr_left (l := List.range ocp.nu) fun j hj => h.u j (List.mem_range.1 hj) s hs tau htau]
  rfl

theorem PhaseFlown.inBox (h : PhaseFlown ocp M T C ph lo hi U K) (hK : Sized ocp M T ph lo hi U K) (hM : M.Good) (hI : M.Inside)
    (hw : FullWidths M T ph) {t : ℝ} (ht : t ∈ Set.Icc (T.t0 ph) (T.tf ph)) :
    ocp.InBox lo hi (ocp.cArg C ph t).x ∧ U (ocp.cArg C ph t).u := by
  obtain ⟨s, hs, tau, htau, rfl⟩ := exists_instant hM hI hK.order hw ht
  obtain ⟨F, hF, hX⟩ := h.shadow
  rw [h.arg hs htau]
  exact ⟨hX.stays s hs tau htau, (hK.tame F hF).controls s hs tau htau⟩

/-- Distance from the plan. -/
theorem PhaseFlown.drift (h : PhaseFlown ocp M T C ph lo hi U K) (hK : Sized ocp M T ph lo hi U K) (hM : M.Good) (hI : M.Inside)
    (hw : FullWidths M T ph) {s : Nat} (hs : s < M.orders.length) {tau : ℝ} (htau : tau ∈ Set.Icc M.tau0 M.tau1) {j : Nat}
    (hj : j < ocp.nx) :
    |ocp.scaleX.getD j 0 * (M.stateAt T ph s tau j - C.x ph j (M.time T ph s tau))| ≤ K.drift := by
  obtain ⟨F, hF, hX⟩ := h.shadow
  obtain ⟨h1, h2, h3, h4, h5, h6⟩ := hK.nonneg hM hI hw hF
  obtain ⟨b1, b2, b3⟩ := time_bounds hM hI hK.order hw hs
  exact (hX.close s hs tau htau j hj).trans (K.le_drift h4 (hK.tame F hF).Lx (sub_nonneg.2 (b2 _ htau.1))
    ((sub_le_sub_right (b3 _ htau.2) _).trans hK.length))

theorem stateAt_node (hM : M.Good) {s i : Nat} (hs : s < M.orders.length) (hi : i ≤ M.order s) (j : Nat) :
    M.stateAt T ph s (M.node s i) j = T.x ph (M.idx s i) j := hM.piece_eval_node _ hs hi

theorem controlAt_node (hM : M.Good) {s i : Nat} (hs : s < M.orders.length) (hi : i ≤ M.order s) (j : Nat) :
    M.controlAt T ph s (M.node s i) j = T.u ph (M.idx s i) j := hM.piece_eval_node _ hs hi

/-- Distance from any node of the same segment. -/
theorem PhaseFlown.near (h : PhaseFlown ocp M T C ph lo hi U K) (hK : Sized ocp M T ph lo hi U K) (hM : M.Good) (hI : M.Inside)
    (hw : FullWidths M T ph) (hC : CollocationRate K.tol ocp M T ph) {s : Nat} (hs : s < M.orders.length) {tau : ℝ}
    (htau : tau ∈ Set.Icc M.tau0 M.tau1) {i : Nat} (hi : i ≤ M.order s) {j : Nat} (hj : j < ocp.nx) :
    |ocp.scaleX.getD j 0 * (C.x ph j (M.time T ph s tau) - T.x ph (M.idx s i) j)| ≤ K.gap := by
  obtain ⟨F, hF, hX⟩ := h.shadow
  have ht := hK.tame F hF
  obtain ⟨h1, -⟩ := hK.nonneg hM hI hw hF
  have a1 := h.drift hK hM hI hw hs htau hj
  have a2 := state_varies hM hI hC hF ht.lebesgue ht.rates ht.B hK.tol ht.lasts h1 hs (time_bounds hM hI hK.order hw hs).1.le htau
    (hI.node hM hs hi) hj
  rw [stateAt_node hM hs hi] at a2
  unfold Sizes.gap
  rw [abs_le] at a1 a2 ⊢
  constructor <;> nlinarith [a1.1, a1.2, a2.1, a2.2]

theorem PhaseFlown.nearU (h : PhaseFlown ocp M T C ph lo hi U K) (hK : Sized ocp M T ph lo hi U K) (hM : M.Good) (hI : M.Inside)
    {s : Nat} (hs : s < M.orders.length) {tau : ℝ} (htau : tau ∈ Set.Icc M.tau0 M.tau1) {i : Nat} (hi : i ≤ M.order s) {j : Nat}
    (hj : j < ocp.nu) :
    |ocp.scaleU.getD j 0 * (C.u ph j (M.time T ph s tau) - T.u ph (M.idx s i) j)| ≤ K.e := by
  obtain ⟨F, hF, hX⟩ := h.shadow
  rw [h.u j hj s hs tau htau, ← controlAt_node hM hs hi]
  exact (hK.tame F hF).varies s hs tau htau _ (hI.node hM hs hi) j hj

/-- Path constraints and running costs change little within a segment. -/
theorem PhaseFlown.change (h : PhaseFlown ocp M T C ph lo hi U K) (hK : Sized ocp M T ph lo hi U K) (hM : M.Good) (hI : M.Inside)
    (hw : FullWidths M T ph) (hC : CollocationRate K.tol ocp M T ph) {g : PArg ℝ → ℝ}
    (hg : LipschitzScalar ocp g (ocp.InBox lo hi) U (Set.Icc (T.t0 ph) (T.tf ph)) (T.a ph) K.Qx K.Qu K.Qt)
    {s : Nat} (hs : s < M.orders.length) {tau : ℝ} (htau : tau ∈ Set.Icc M.tau0 M.tau1) {i : Nat} (hi : i ≤ M.order s) :
    |g (ocp.cArg C ph (M.time T ph s tau)) - g (ocp.pArg T ph (M.idx s i) (M.time T ph s (M.node s i)))| ≤ K.change := by
  obtain ⟨F, hF, hX⟩ := h.shadow
  have ht := hK.tame F hF
  obtain ⟨b1, b2, b3⟩ := time_bounds hM hI hK.order hw hs
  have hn := hI.node hM hs hi
  have hbox := h.inBox hK hM hI hw ⟨b2 _ htau.1, b3 _ htau.2⟩
  have hx' := ht.states s hs _ hn
  have hu' := ht.controls s hs _ hn
  rw [List.map_congr_left (l := List.range ocp.nx) fun j _ => stateAt_node hM hs hi j] at hx'
  rw [List.map_congr_left (l := List.range ocp.nu) fun j _ => controlAt_node hM hs hi j] at hu'
  have := hg (ocp.cArg C ph (M.time T ph s tau)) (ocp.pArg T ph (M.idx s i) (M.time T ph s (M.node s i)))
    hbox.1 hx' hbox.2 hu' ⟨b2 _ htau.1, b3 _ htau.2⟩ ⟨b2 _ hn.1, b3 _ hn.2⟩ (by simp [OCP.cArg, OCP.paramArg, h.a]) rfl K.gap K.e
    (fun k hk => by
      have e1 : (ocp.cArg C ph (M.time T ph s tau)).x.getD k 0 = C.x ph k (M.time T ph s tau) := getD_range_map _ hk
      have e2 : (ocp.pArg T ph (M.idx s i) (M.time T ph s (M.node s i))).x.getD k 0 = T.x ph (M.idx s i) k :=
        getD_range_map _ hk
      rw [e1, e2]; exact h.near hK hM hI hw hC hs htau hi hk)
    (fun k hk => by
      have e1 : (ocp.cArg C ph (M.time T ph s tau)).u.getD k 0 = C.u ph k (M.time T ph s tau) := getD_range_map _ hk
      have e2 : (ocp.pArg T ph (M.idx s i) (M.time T ph s (M.node s i))).u.getD k 0 = T.u ph (M.idx s i) k :=
        getD_range_map _ hk
      rw [e1, e2]; exact h.nearU hK hM hI hs htau hi hk)
  refine this.trans ?_
  unfold Sizes.change
  have hdt : |M.time T ph s tau - M.time T ph s (M.node s i)| ≤ K.H := by
    refine le_trans ?_ (ht.lasts s hs)
    have hΔ := sub_pos.2 (hI.tau_lt hM)
    have e : M.time T ph s tau - M.time T ph s (M.node s i) = M.halfWidth T ph s * (tau - M.node s i) := by
      unfold Mesh.time; ring
    have e2 : (T.tf ph - T.t0 ph) * T.w s ph = M.halfWidth T ph s * (M.tau1 - M.tau0) := by
      unfold Mesh.halfWidth; field_simp
    rw [e, e2, abs_mul, abs_of_pos b1]
    refine mul_le_mul_of_nonneg_left ?_ b1.le
    rw [abs_le]
    exact ⟨by linarith [htau.1, hn.2], by linarith [htau.2, hn.1]⟩
  have : (ocp.cArg C ph (M.time T ph s tau)).t = M.time T ph s tau := rfl
  have e' : (ocp.pArg T ph (M.idx s i) (M.time T ph s (M.node s i))).t = M.time T ph s (M.node s i) := rfl
  rw [this, e']
  have := mul_le_mul_of_nonneg_left hdt hK.Qt
  linarith

theorem PhaseFlown.final (h : PhaseFlown ocp M T C ph lo hi U K) (hK : Sized ocp M T ph lo hi U K) (hM : M.Good) (hI : M.Inside)
    (hw : FullWidths M T ph) {j : Nat} (hj : j < ocp.nx) :
    |ocp.scaleX.getD j 0 * (C.x ph j (T.tf ph) - T.x ph (M.N - 1) j)| ≤ K.drift := by
  have h0 : 0 < M.orders.length := List.length_pos_iff.2 hM.nonempty
  have hs : M.orders.length - 1 < M.orders.length := by omega
  have := h.drift hK hM hI hw hs (tau := M.tau1) ⟨(hI.tau_lt hM).le, le_rfl⟩ hj
  rw [(C13_segment_ends hM T ph).2.2.2 hw.sum, ← hM.node_last hs, stateAt_node hM hs le_rfl,
    Mesh.last_idx (by omega), ← abs_neg] at this
  refine le_trans (le_of_eq ?_) this
  congr 1; ring

theorem PhaseFlown.start (h : PhaseFlown ocp M T C ph lo hi U K) {j : Nat} (hj : j < ocp.nx) :
    C.x ph j (T.t0 ph) = T.x ph 0 j := by
  obtain ⟨F, hF, hX⟩ := h.shadow
  exact hX.start j hj

theorem PhaseFlown.endArg (h : PhaseFlown ocp M T C ph lo hi U K) (hK : Sized ocp M T ph lo hi U K) (hM : M.Good) (hI : M.Inside)
    (hw : FullWidths M T ph) {g : TArg ℝ → ℝ} (hg : LipschitzEnd ocp g (ocp.InBox lo hi) (ocp.tArg T ph M.N) K.Px) :
    |g (ocp.cEnd C ph) - g (ocp.tArg T ph M.N)| ≤ K.Px * K.drift := by
  obtain ⟨F, hF, hX⟩ := h.shadow
  have h0 : 0 < M.orders.length := List.length_pos_iff.2 hM.nonempty
  have hs : M.orders.length - 1 < M.orders.length := by omega
  have hx' := (hK.tame F hF).states _ hs _ (hI.node hM hs le_rfl)
  rw [List.map_congr_left (l := List.range ocp.nx) fun j _ => stateAt_node hM hs le_rfl j, Mesh.last_idx (by omega)] at hx'
  have e : ocp.cEnd C ph = { ocp.tArg T ph M.N with xf := (ocp.cEnd C ph).xf } := by
    simp only [OCP.cEnd, OCP.tArg, h.t0, h.tf, h.a, TArg.mk.injEq, true_and, and_true]
    exact List.map_congr_left fun k hk => h.start (List.mem_range.1 hk)
  rw [e]
  refine hg _ (ocp.tArg T ph M.N).xf ?_ hx' _ fun k hk => ?_
  · have := (h.inBox hK hM hI hw (t := T.tf ph) ⟨hK.order.le, le_rfl⟩).1
    unfold OCP.cEnd; rw [h.tf]; exact this
  · have e1 : (ocp.cEnd C ph).xf.getD k 0 = C.x ph k (T.tf ph) := by rw [← h.tf]; exact getD_range_map _ hk
    have e2 : (ocp.tArg T ph M.N).xf.getD k 0 = T.x ph (M.N - 1) k := getD_range_map _ hk
    rw [e1, e2]
    exact h.final hK hM hI hw hk

theorem PhaseFlown.dynamics (h : PhaseFlown ocp M T C ph lo hi U K) (hK : Sized ocp M T ph lo hi U K) (hM : M.Good) (hI : M.Inside)
    (hw : FullWidths M T ph) (hpos : ∀ j < ocp.nx, 0 < ocp.scaleX.getD j 0) : DynamicsHold ocp C ph := by
  obtain ⟨F, hF, hX⟩ := h.shadow
  have key : ∀ j < ocp.nx, ∀ t ∈ Set.Icc (T.t0 ph) (T.tf ph),
      HasDerivWithinAt (C.x ph j) (F.f (ocp.cArg C ph t) j) (Set.Icc (T.t0 ph) (T.tf ph)) t := by
    intro j hj
    refine hasDeriv_of_right (g := fun t => F.f (ocp.cArg C ph t) j) hK.order (h.contX j hj) ?_ ?_
    · exact ((hK.tame F hF).lipschitz.scalar hj (hpos j hj)).continuousOn (congrFun h.a ph) h.contX h.contU
        (fun t ht => (h.inBox hK hM hI hw ht).1) (fun t ht => (h.inBox hK hM hI hw ht).2)
    · intro t ht
      obtain ⟨s, hs, tau, htau, e⟩ : ∃ s < M.orders.length, ∃ tau ∈ Set.Ico M.tau0 M.tau1, M.time T ph s tau = t := by
        obtain ⟨s, hs, tau, htau, e⟩ := exists_instant hM hI hK.order hw ⟨ht.1, ht.2.le⟩
        rcases htau.2.lt_or_eq with h1 | rfl
        · exact ⟨s, hs, tau, ⟨htau.1, h1⟩, e⟩
        · have hends := C13_segment_ends hM T ph
          refine ⟨s + 1, ?_, M.tau0, ⟨le_rfl, hI.tau_lt hM⟩, by rw [hends.2.2.1, e]⟩
          by_contra hcon
          have e1 : s = M.orders.length - 1 := by omega
          rw [e1, hends.2.2.2 hw.sum] at e
          exact ht.2.ne e.symm
      have := hX.response.ode s hs tau htau j hj
      rw [← h.arg hs ⟨htau.1, htau.2.le⟩, e] at this
      exact this
  have hF' : ∀ F', ocp.dynamics[ph]? = some F' → F' = F := fun F' h' => by
    rw [hF] at h'; exact (Option.some.inj h').symm
  constructor
  · intro F' hF'' j hj t h1 h2
    rw [hF' F' hF'']
    rw [h.t0] at h1
    rw [h.tf] at h2
    refine (key j hj t ⟨h1.le, h2⟩).mono_of_mem_nhdsWithin ?_
    refine Filter.mem_of_superset (Ioc_mem_nhdsLE h1) fun r hr => ⟨hr.1.le, hr.2.trans h2⟩
  · intro F' hF'' j hj
    rw [hF' F' hF'', h.t0]
    refine (key j hj _ ⟨le_rfl, hK.order.le⟩).mono_of_mem_nhdsWithin ?_
    exact Filter.mem_of_superset (Ico_mem_nhdsGE hK.order) fun r hr => ⟨hr.1, hr.2.le⟩
  · intro j hj
    rw [h.t0, h.tf]
    exact h.contX j hj

theorem PhaseFlown.nearly (h : PhaseFlown ocp M T C ph lo hi U K) (hK : Sized ocp M T ph lo hi U K) (hM : M.Good) (hI : M.Inside)
    (hw : FullWidths M T ph) (hpos : ∀ j < ocp.nx, 0 < ocp.scaleX.getD j 0) (hB : BoundsOK ocp M T ph)
    (hC : CollocationRate K.tol ocp M T ph) (hP : PathOK ocp M T ph) (hT : TerminalOK ocp M T ph) :
    PhaseNearly ocp C ph K.gap K.e K.change (K.Px * K.drift) := by
  have hN : ∀ s < M.orders.length, M.idx s (M.order s) < M.N := fun s hs => by
    exact Mesh.idx_lt hs le_rfl
  have hI1 : ∀ s < M.orders.length, M.idx s (M.order s) ≠ 0 := fun s hs => by
    have := hM.order_pos hs
    unfold Mesh.idx; omega
  constructor
  case order => rw [h.t0, h.tf]; exact hK.order
  case dynamics => exact h.dynamics hK hM hI hw hpos
  case path =>
    intro F hF c hc t ht
    rw [h.t0, h.tf] at ht
    obtain ⟨s, hs, tau, htau, rfl⟩ := exists_instant hM hI hK.order hw ht
    have h1 := h.change hK hM hI hw hC (hK.path F hF c hc) hs htau le_rfl
    have h2 := hP F hF s (M.order s) ⟨hs, le_rfl, Or.inr (hM.order_pos hs)⟩ c hc
    linarith [(abs_le.1 h1).2]
  case terminal =>
    intro F hF c hc
    have h1 := h.endArg hK hM hI hw (hK.terminal F hF c hc)
    rwa [hT F hF c hc, sub_zero] at h1
  case x0 =>
    rintro rfl j hj
    rw [h.t0, h.start hj]
    exact hB.x0 rfl j hj
  case x =>
    intro t ht j hj
    rw [h.t0, h.tf] at ht
    obtain ⟨s, hs, tau, htau, rfl⟩ := exists_instant hM hI hK.order hw ht
    exact ⟨_, hB.x _ (hN s hs) (fun h => hI1 s hs h.2) j hj, h.near hK hM hI hw hC hs htau le_rfl hj⟩
  case u =>
    intro t ht j hj
    rw [h.t0, h.tf] at ht
    obtain ⟨s, hs, tau, htau, rfl⟩ := exists_instant hM hI hK.order hw ht
    exact ⟨_, hB.u _ (hN s hs) j hj, h.nearU hK hM hI hs htau le_rfl hj⟩
  case t0 => rw [h.t0]; exact hB.t0
  case tf => rw [h.tf]; exact hB.tf
  case a => rw [h.a]; exact hB.a

end

/-! ## All phases -/

section
variable {lo hi : Nat → Nat → ℝ} {U : Nat → List ℝ → Prop}

theorem exists_flown (hv : ValidOCP ocp) (hsc : ocp.PosScales) (hM : M.Good) (hI : M.Inside)
    (hC : ∀ ph < ocp.nPhases, CollocationRate K.tol ocp M T ph) (hw : ∀ ph < ocp.nPhases, FullWidths M T ph)
    (hK : ∀ ph < ocp.nPhases, Sized ocp M T ph (lo ph) (hi ph) (U ph) K) :
    ∃ C, ∀ ph < ocp.nPhases, PhaseFlown ocp M T C ph (lo ph) (hi ph) (U ph) K := by
  have hpos : ∀ j < ocp.nx, 0 < ocp.scaleX.getD j 0 := fun j hj => by
    rw [List.getD_eq_getElem _ _ (by rw [hv.scaleX]; exact hj)]; exact hsc.x _ (List.getElem_mem _)
  have hex : ∀ ph, ∃ (X : Nat → ℝ → ℝ) (V : Nat → ℝ → ℝ), ph < ocp.nPhases →
      (∃ F, ocp.dynamics[ph]? = some F ∧ Shadow ocp M T F ph (ocp.InBox (lo ph) (hi ph)) K.rate K.Lx X) ∧
      (∀ j, ContinuousOn (V j) (Set.Icc (T.t0 ph) (T.tf ph)) ∧
        ∀ s < M.orders.length, ∀ tau ∈ Set.Icc M.tau0 M.tau1, V j (M.time T ph s tau) = M.controlAt T ph s tau j) := by
    intro ph
    by_cases hp : ph < ocp.nPhases
    · have hd : ph < ocp.dynamics.length := by rw [hv.dynamics]; exact hp
      have hF : ocp.dynamics[ph]? = some ocp.dynamics[ph] := List.getElem?_eq_getElem hd
      obtain ⟨X, hX⟩ := (hK ph hp).shadow hM hI (hw ph hp) hpos (hC ph hp) hF
      choose V hV using fun j : Nat => exists_glued hM hI (hK ph hp).order (hw ph hp) fun k => T.u ph k j
      exact ⟨X, V, fun _ => ⟨⟨_, hF, hX⟩, hV⟩⟩
    · exact ⟨fun _ _ => 0, fun _ _ => 0, fun h => absurd h hp⟩
  choose X V hXV using hex
  exact ⟨⟨X, V, T.t0, T.tf, T.a⟩, fun ph hp =>
    ⟨rfl, rfl, rfl, fun j _ => ((hXV ph hp).2 j).2, fun j hj => by
      obtain ⟨F, -, hX⟩ := (hXV ph hp).1
      exact hX.response.cont j hj, fun j _ => ((hXV ph hp).2 j).1, (hXV ph hp).1⟩⟩

theorem flown_all (hv : ValidOCP ocp) (hs : ocp.SettingsOK) (hsc : ocp.PosScales) (hM : M.Good) (hI : M.Inside) (hT : PhysFeasible ocp M T)
    (hw : ∀ ph < ocp.nPhases, FullWidths M T ph)
    (hK : ∀ ph < ocp.nPhases, Sized ocp M T ph (lo ph) (hi ph) (U ph) K) :
    ∃ C, Flies ocp M T C ∧ NearlySolves ocp C K.gap K.e K.change (K.Px * K.drift) ∧
      ∀ ph < ocp.nPhases, PhaseFlown ocp M T C ph (lo ph) (hi ph) (U ph) K := by
  have hpos : ∀ j < ocp.nx, 0 < ocp.scaleX.getD j 0 := fun j hj => by
    rw [List.getD_eq_getElem _ _ (by rw [hv.scaleX]; exact hj)]; exact hsc.x _ (List.getElem_mem _)
  have hcol : ∀ ph < ocp.nPhases, CollocationRate K.tol ocp M T ph := fun ph hp =>
    (hT.dynamics ph hp).rate_le hM hI (hK ph hp).order (hw ph hp) (hK ph hp).tol
  obtain ⟨C, hC⟩ := exists_flown hv hsc hM hI hcol hw hK
  have h0 := hC 0 hv.phases
  have hlast : ∀ p < ocp.nPhases, ∀ j < ocp.nu, C.u p j (C.tf p) = T.u p (M.N - 1) j := by
    intro p hp j hj
    have hl : 0 < M.orders.length := List.length_pos_iff.2 hM.nonempty
    have hs : M.orders.length - 1 < M.orders.length := by omega
    have := (hC p hp).u j hj _ hs M.tau1 ⟨(hI.tau_lt hM).le, le_rfl⟩
    rw [(C13_segment_ends hM T p).2.2.2 (hw p hp).sum, ← hM.node_last hs, controlAt_node hM hs le_rfl,
      Mesh.last_idx (by omega)] at this
    rw [h0.tf, this]
  have hfirst : ∀ p < ocp.nPhases, ∀ j < ocp.nu, C.u p j (C.t0 p) = T.u p 0 j := by
    intro p hp j hj
    have hl : 0 < M.orders.length := List.length_pos_iff.2 hM.nonempty
    have := (hC p hp).u j hj 0 hl M.tau0 ⟨le_rfl, (hI.tau_lt hM).le⟩
    rw [(C13_segment_ends hM T p).1, ← hM.node_first hl, controlAt_node hM hl (Nat.zero_le _)] at this
    rw [h0.t0, this]
    simp [Mesh.idx, segStart_zero]
  refine ⟨C, ⟨h0.t0, h0.tf, h0.a, fun ph hp => (hC ph hp).u, fun ph hp j hj => by rw [h0.t0]; exact (hC ph hp).start hj⟩,
    ⟨fun ph hp => (hC ph hp).nearly (hK ph hp) hM hI (hw ph hp) hpos (hT.bounds ph hp) (hcol ph hp)
      (hT.path ph hp) (hT.terminal ph hp), ?_, ?_, ?_⟩, hC⟩
  · intro h2 k p q hk j hj
    obtain ⟨hp, hq⟩ := hs.linkRange _ (List.mem_of_getElem? hk)
    refine ⟨_, (hT.links h2).x k p q hk j hj, ?_⟩
    have hd : p < ocp.dynamics.length := by rw [hv.dynamics]; exact hp
    have hF : ocp.dynamics[p]? = some ocp.dynamics[p] := List.getElem?_eq_getElem hd
    have := (hC p hp).final (hK p hp) hM hI (hw p hp) hj
    rw [h0.t0, (hC q hq).start hj, h0.tf]
    refine le_trans (le_of_eq ?_) (this.trans ((hK p hp).nonneg hM hI (hw p hp) hF).2.2.2.2.2)
    rw [← abs_neg]
    congr 1; ring
  · intro h2 k p q hk j hj
    obtain ⟨hp, hq⟩ := hs.linkRange _ (List.mem_of_getElem? hk)
    rw [hfirst q hq j hj, hlast p hp j hj]
    exact (hT.links h2).u k p q hk j hj
  · intro h2 k p q hk
    rw [h0.t0, h0.tf]
    exact (hT.links h2).t k p q hk

/-- **C80** A collocated solution whose sizes are known is a plan that can be flown: there is a motion with exactly the controls, times,
parameters and initial states of the plan that obeys the dynamics exactly, and all other constraints but for tolerances that are given
by these sizes. -/
theorem C80_flown (hv : ValidOCP ocp) (hs : ocp.SettingsOK) (hsc : ocp.PosScales) (hM : M.Good) (hI : M.Inside) (hT : PhysFeasible ocp M T)
    (hw : ∀ ph < ocp.nPhases, FullWidths M T ph)
    (hK : ∀ ph < ocp.nPhases, Sized ocp M T ph (lo ph) (hi ph) (U ph) K) :
    ∃ C, Flies ocp M T C ∧ NearlySolves ocp C K.gap K.e K.change (K.Px * K.drift) := by
  obtain ⟨C, h1, h2, -⟩ := flown_all hv hs hsc hM hI hT hw hK
  exact ⟨C, h1, h2⟩

/-! ## The cost -/

section
variable {m : Method} {a b : ℝ} {taus : Nat → Py (List ℝ)} {P : List Nat} {C : CTraj}

theorem PhaseFlown.cost {lo hi : Nat → ℝ} {U : List ℝ → Prop} (h : PhaseFlown ocp M T C ph lo hi U K)
    (hK : Sized ocp M T ph lo hi U K) (hm : MeshOf a b taus P M) (hw : FullWidths M T ph) (hC : CollocationRate K.tol ocp M T ph)
    {κ A : ℝ} (hκ : ∀ p ∈ P, ∀ r, taus p = .ok r → 1 - (quadWeights m r a b).getD 0 0 / (b - a) = κ)
    (hA : ∀ p ∈ M.orders, ∑ i ∈ Finset.range p, |(quadWeights m (M.nodes p) a b).getD (i + 1) 0| ≤ A * (b - a)) {W : List ℝ}
    (hW : compQuadWeights ⟨m, a, b, taus⟩ M.orders = .ok W) {g : PArg ℝ → ℝ}
    (hg : ocp.runningCosts[ph]? = some g) {v : Nat → ℝ} (hv : RunningSamples ocp M T ph v) :
    |weightedSum W v - κ * ∫ t in (T.t0 ph)..(T.tf ph), g (ocp.cArg C ph t)| ≤
      A * K.change * K.dur + |1 - κ| * K.H * |g (ocp.pArg T ph 0 (T.t0 ph))| := by
  have hM := hm.good
  have hI : M.Inside := hm.inside
  have h0 : 0 < M.orders.length := List.length_pos_iff.2 hM.nonempty
  have hlt : a < b := by have := hI.tau_lt hM; rwa [hm.tau0, hm.tau1] at this
  have hΔ : 0 < b - a := sub_pos.2 hlt
  have hgl := hK.cost g hg
  have hgc : ContinuousOn (fun t => g (ocp.cArg C ph t)) (Set.Icc (T.t0 ph) (T.tf ph)) :=
    hgl.continuousOn (congrFun h.a ph) h.contX h.contU (fun t ht => (h.inBox hK hM hI hw ht).1) (fun t ht => (h.inBox hK hM hI hw ht).2)
  have hch : ∀ s < M.orders.length, ∀ i, i ≤ M.order s → ∀ t ∈ Set.Icc (M.time T ph s a) (M.time T ph s b),
      |g (ocp.pArg T ph (M.idx s i) (M.time T ph s (M.node s i))) - g (ocp.cArg C ph t)| ≤ K.change := by
    intro s hs i hi t ht
    have hh := (time_bounds hM hI hK.order hw hs).1
    rw [← hm.tau0, ← hm.tau1] at ht
    have := h.change hK hM hI hw hC hgl hs (clockInv_mem hh ht) hi
    rw [time_clockInv hh, abs_sub_comm] at this
    exact this
  have hch0 : 0 ≤ K.change := (abs_nonneg _).trans (hch 0 h0 0 (Nat.zero_le _) _ ⟨le_rfl, by
    have := (time_bounds hM hI hK.order hw h0).1
    unfold Mesh.time; nlinarith⟩)
  have hq := quadrature_close hm hK.order hw hgc
    (V := fun s i => g (ocp.pArg T ph (M.idx s i) (M.time T ph s (M.node s i)))) (hv g hg) hW hch0
    (fun s hs i _ hi => hch s hs i hi) hA
  have e : ∑ s ∈ Finset.range M.orders.length,
        (1 - (quadWeights m (M.nodes (M.order s)) a b).getD 0 0 / (b - a)) *
          ∫ t in (M.time T ph s a)..(M.time T ph s b), g (ocp.cArg C ph t) =
      κ * ∫ t in (T.t0 ph)..(T.tf ph), g (ocp.cArg C ph t) := by
    rw [← sum_segment_integrals hm hK.order hw hgc, Finset.mul_sum]
    apply Finset.sum_congr rfl
    intro s hs
    have hp := hM.order_mem (Finset.mem_range.1 hs)
    rw [hκ _ (hm.allowed _ hp) _ (hm.nodes _ hp)]
  rw [e] at hq
  refine hq.trans (add_le_add ?_ ?_)
  · have hA0 : 0 ≤ A := by
      have := (Finset.sum_nonneg fun _ _ => abs_nonneg _).trans (hA _ (hM.order_mem h0))
      exact nonneg_of_mul_nonneg_left this hΔ
    exact mul_le_mul_of_nonneg_left hK.length (mul_nonneg hA0 hch0)
  · have hp := hM.order_mem h0
    have hq0 : (quadWeights m (M.nodes (M.order 0)) a b).getD 0 0 = (1 - κ) * (b - a) := by
      have := hκ _ (hm.allowed _ hp) _ (hm.nodes _ hp)
      rw [← this]; field_simp; ring
    have hdh : M.halfWidth T ph 0 * (b - a) = (T.tf ph - T.t0 ph) * T.w 0 ph := by
      simp only [Mesh.halfWidth, hm.tau0, hm.tau1]; field_simp
    obtain ⟨F, hF, -⟩ := h.shadow
    have hH0 := (hK.tame F hF).lasts 0 h0
    have e1 : M.idx 0 0 = 0 := by simp [Mesh.idx, segStart_zero]
    rw [hM.node_first h0, (C13_segment_ends hM T ph).1, e1, hq0, abs_mul, abs_of_pos hΔ]
    calc _ = (M.halfWidth T ph 0 * (b - a)) * (|1 - κ| * |g (ocp.pArg T ph 0 (T.t0 ph))|) := by ring
      _ ≤ K.H * (|1 - κ| * |g (ocp.pArg T ph 0 (T.t0 ph))|) := by
          rw [hdh]; exact mul_le_mul_of_nonneg_right hH0 (by positivity)
      _ = _ := by ring

/-- The cost that the plan claims is close to the terminal costs plus `κ` times the integrals of the running costs along the motion. -/
theorem flown_cost (hv : ValidOCP ocp) (hm : MeshOf a b taus P M) (hC : ∀ ph < ocp.nPhases, CollocationRate K.tol ocp M T ph)
    (hw : ∀ ph < ocp.nPhases, FullWidths M T ph) (hK : ∀ ph < ocp.nPhases, Sized ocp M T ph (lo ph) (hi ph) (U ph) K)
    (h3 : ∀ ph < ocp.nPhases, PhaseFlown ocp M T C ph (lo ph) (hi ph) (U ph) K)
    {κ A : ℝ} (hκ : ∀ p ∈ P, ∀ r, taus p = .ok r → 1 - (quadWeights m r a b).getD 0 0 / (b - a) = κ)
    (hA : ∀ p ∈ M.orders, ∑ i ∈ Finset.range p, |(quadWeights m (M.nodes p) a b).getD (i + 1) 0| ≤ A * (b - a)) {W : List ℝ}
    (hW : compQuadWeights ⟨m, a, b, taus⟩ M.orders = .ok W) {J : ℝ} (hJ : PhysCost ocp M W T J) :
    |J - ocp.weighedCost C κ| ≤ ∑ ph ∈ Finset.range ocp.nPhases, (K.Px * K.drift + (A * K.change * K.dur +
      |1 - κ| * K.H * |ocp.runningCosts.getD ph (fun _ => 0) (ocp.pArg T ph 0 (T.t0 ph))|)) := by
  obtain ⟨v, hvs, rfl⟩ := hJ
  unfold OCP.weighedCost
  rw [← Finset.sum_sub_distrib]
  refine (Finset.abs_sum_le_sum_abs _ _).trans (Finset.sum_le_sum fun ph hp => ?_)
  have hp := Finset.mem_range.1 hp
  have hr : ph < ocp.runningCosts.length := by rw [hv.runningCosts]; exact hp
  have ht : ph < ocp.terminalCosts.length := by rw [hv.terminalCosts]; exact hp
  have c1 := (h3 ph hp).cost (hK ph hp) hm (hw ph hp) (hC ph hp) hκ hA hW (List.getElem?_eq_getElem hr) (hvs ph hp)
  have c2 := (h3 ph hp).endArg (hK ph hp) hm.good hm.inside (hw ph hp)
    ((hK ph hp).endCost _ (List.getElem?_eq_getElem ht))
  unfold TerminalCost
  rw [List.getD_eq_getElem _ _ hr, List.getD_eq_getElem _ _ ht, (h3 ph hp).t0, (h3 ph hp).tf]
  rw [abs_sub_comm] at c2
  refine le_trans (le_of_eq ?_) ((abs_add_le _ _).trans (add_le_add c2 c1))
  congr 1
  ring

/-- **C80** What the plan costs when it is flown. If the nodes of each segment but the first have the share `κ` of the weights, the cost
that the plan claims is close to the terminal costs plus `κ` times the integrals of the running costs along the motion. -/
theorem C80_cost (hv : ValidOCP ocp) (hs : ocp.SettingsOK) (hsc : ocp.PosScales) (hm : MeshOf a b taus P M) (hT : PhysFeasible ocp M T)
    (hw : ∀ ph < ocp.nPhases, FullWidths M T ph) (hK : ∀ ph < ocp.nPhases, Sized ocp M T ph (lo ph) (hi ph) (U ph) K)
    {κ A : ℝ} (hκ : ∀ p ∈ P, ∀ r, taus p = .ok r → 1 - (quadWeights m r a b).getD 0 0 / (b - a) = κ)
    (hA : ∀ p ∈ M.orders, ∑ i ∈ Finset.range p, |(quadWeights m (M.nodes p) a b).getD (i + 1) 0| ≤ A * (b - a)) {W : List ℝ}
    (hW : compQuadWeights ⟨m, a, b, taus⟩ M.orders = .ok W) {J : ℝ} (hJ : PhysCost ocp M W T J) :
    ∃ C, Flies ocp M T C ∧ NearlySolves ocp C K.gap K.e K.change (K.Px * K.drift) ∧
      |J - ocp.weighedCost C κ| ≤ ∑ ph ∈ Finset.range ocp.nPhases, (K.Px * K.drift + (A * K.change * K.dur +
        |1 - κ| * K.H * |ocp.runningCosts.getD ph (fun _ => 0) (ocp.pArg T ph 0 (T.t0 ph))|)) := by
  obtain ⟨C, h1, h2, h3⟩ := flown_all hv hs hsc hm.good hm.inside hT hw hK
  exact ⟨C, h1, h2, flown_cost hv hm (fun ph hp => (hT.dynamics ph hp).rate_le hm.good hm.inside (hK ph hp).order (hw ph hp)
    (hK ph hp).tol) hw hK h3 hκ hA hW hJ⟩

/-- The absolute values of the LGR weights sum to the length of the interval. -/
theorem lgr_sum_abs (lib : NodeLib ℝ) (m : Method) (hlt : a < b) {p : Nat} (hp : 2 ≤ p)
    (hj : IsJacobiRoots 1 0 (p - 1) (lib.jroots (p - 1) 1 0)) {r : List ℝ} (hr : tausFn lib a b "LGR" p = .ok r) :
    ∑ i ∈ Finset.range p, |(quadWeights m r a b).getD (i + 1) 0| = b - a := by
  obtain ⟨r', hr', ws, e, hl, hpos⟩ := C67_lgr lib m a b hlt p hp hj
  rw [hr] at hr'
  cases hr'
  obtain ⟨r', hr', hspan⟩ := C01_lgr_nodes lib a b hlt p (by omega) (fun _ => hj)
  rw [hr] at hr'
  cases hr'
  have hs := sum_quadWeights (m := m) (hspan.sorted.imp fun h => h.ne) hspan.length a b
  rw [e] at hs ⊢
  rw [List.getD_cons_zero, sub_zero] at hs
  rw [← hs]
  refine Finset.sum_congr rfl fun i hi => abs_of_pos ?_
  have : i < ws.length := by rw [hl]; exact Finset.mem_range.1 hi
  rw [List.getD_cons_succ, List.getD_eq_getElem _ _ this]
  exact hpos _ (List.getElem_mem _)

/-- **C80** With LGR and orders at least 2 the cost claimed is the true cost of the motion, but for the size of the changes within a
segment. -/
theorem C80_lgr (lib : NodeLib ℝ) (m : Method) (hv : ValidOCP ocp) (hs : ocp.SettingsOK) (hsc : ocp.PosScales)
    (hm : MeshOf a b (tausFn lib a b "LGR") P M) (hord : ∀ p ∈ P, 2 ≤ p)
    (hj : ∀ p ∈ P, IsJacobiRoots 1 0 (p - 1) (lib.jroots (p - 1) 1 0)) (hT : PhysFeasible ocp M T)
    (hw : ∀ ph < ocp.nPhases, FullWidths M T ph) (hK : ∀ ph < ocp.nPhases, Sized ocp M T ph (lo ph) (hi ph) (U ph) K)
    {W : List ℝ} (hW : compQuadWeights ⟨m, a, b, tausFn lib a b "LGR"⟩ M.orders = .ok W) {J : ℝ} (hJ : PhysCost ocp M W T J) :
    ∃ C, Flies ocp M T C ∧ NearlySolves ocp C K.gap K.e K.change (K.Px * K.drift) ∧
      |J - ocp.trueCost C| ≤ ocp.nPhases * (K.Px * K.drift + K.change * K.dur) := by
  have hlt : a < b := by
    have hI : M.Inside := hm.inside
    have := hI.tau_lt hm.good; rwa [hm.tau0, hm.tau1] at this
  obtain ⟨C, h1, h2, h3⟩ := C80_cost (m := m) (κ := 1) (A := 1) hv hs hsc hm hT hw hK (lgr_share lib m hlt hord hj) (fun p hp => by
    rw [lgr_sum_abs lib m hlt (hord p (hm.allowed p hp)) (hj p (hm.allowed p hp)) (hm.nodes p hp), one_mul]) hW hJ
  refine ⟨C, h1, h2, ?_⟩
  rw [ocp.weighedCost_one] at h3
  rw [mul_add]
  simpa using h3

end

end

/-! ## Tolerances -/

section
variable {C : CTraj} {εx εu εc εf δx δu δc δf : ℝ}

theorem NearWithin.mono {sc d d' v : ℝ} {lo hi : Ext ℝ} (h : NearWithin sc lo hi d v) (hd : d ≤ d') : NearWithin sc lo hi d' v := by
  obtain ⟨v', h1, h2⟩ := h
  exact ⟨v', h1, h2.trans hd⟩

theorem NearWithin.within {sc v : ℝ} {lo hi : Ext ℝ} (hsc : 0 < sc) (h : NearWithin sc lo hi 0 v) : Within lo hi v := by
  obtain ⟨v', h1, h2⟩ := h
  have := abs_eq_zero.1 (le_antisymm h2 (abs_nonneg _))
  have := (mul_eq_zero.1 this).resolve_left hsc.ne'
  obtain rfl : v = v' := by linarith
  exact h1

theorem NearlySolves.mono (h : NearlySolves ocp C εx εu εc εf) (h1 : εx ≤ δx) (h2 : εu ≤ δu) (h3 : εc ≤ δc) (h4 : εf ≤ δf) :
    NearlySolves ocp C δx δu δc δf := by
  refine ⟨fun ph hp => ?_, fun a k p q hk j hj => (h.linkX a k p q hk j hj).mono h1, h.linkU, h.linkT⟩
  have k := h.phase ph hp
  exact ⟨k.order, k.dynamics, fun F hF c hc t ht => (k.path F hF c hc t ht).trans h3,
    fun F hF c hc => (k.terminal F hF c hc).trans h4, k.x0, fun t ht j hj => (k.x t ht j hj).mono h1,
    fun t ht j hj => (k.u t ht j hj).mono h2, k.t0, k.tf, k.a⟩

/-- With tolerances 0 nothing is left out: this is the continuous-time problem. -/
theorem NearlySolves.exact (hv : ValidOCP ocp) (hsc : ocp.PosScales) (hl : ocp.nPhases = 1 → ocp.phaseLinks = [])
    (h : NearlySolves ocp C 0 0 0 0) : SolvesContinuously ocp C := by
  have hx : ∀ j < ocp.nx, 0 < ocp.scaleX.getD j 0 := fun j hj => by
    rw [List.getD_eq_getElem _ _ (by rw [hv.scaleX]; exact hj)]; exact hsc.x _ (List.getElem_mem _)
  have hu : ∀ j < ocp.nu, 0 < ocp.scaleU.getD j 0 := fun j hj => by
    rw [List.getD_eq_getElem _ _ (by rw [hv.scaleU]; exact hj)]; exact hsc.u _ (List.getElem_mem _)
  have h2 : ∀ (k p q : Nat), ocp.phaseLinks[k]? = some (p, q) → 2 ≤ ocp.nPhases := by
    intro k p q hk
    by_contra hcon
    have := hv.phases
    rw [hl (by omega)] at hk
    simp at hk
  refine ⟨fun ph hp => ?_, fun k p q hk j hj => (h.linkX (h2 k p q hk) k p q hk j hj).within (hx j hj),
    fun k p q hk => h.linkU (h2 k p q hk) k p q hk, fun k p q hk => h.linkT (h2 k p q hk) k p q hk⟩
  have k := h.phase ph hp
  exact ⟨k.order, k.dynamics, k.path, fun F hF c hc => abs_eq_zero.1 (le_antisymm (k.terminal F hF c hc) (abs_nonneg _)), k.x0,
    fun t ht _ j hj => (k.x t ht j hj).within (hx j hj), fun t ht j hj => (k.u t ht j hj).within (hu j hj), k.t0, k.tf, k.a⟩

end

/-- Drift, gap and change are at most linear in the length of the longest segment, the variation of the controls and the tolerance. -/
theorem Sizes.small (K : Sizes) : ∃ G, 0 ≤ G ∧ ∀ H e κ, 0 ≤ H → 0 ≤ e → 0 ≤ κ → κ ≤ 1 →
    { K with H := H, e := e, tol := κ }.drift ≤ G * (H + e + κ) ∧ { K with H := H, e := e, tol := κ }.gap ≤ G * (H + e + κ) ∧
    { K with H := H, e := e, tol := κ }.change ≤ G * (H + e + κ) ∧ e ≤ G * (H + e + κ) ∧
    K.Px * { K with H := H, e := e, tol := κ }.drift ≤ G * (H + e + κ) ∧ { K with H := H, e := e, tol := κ }.change * K.dur ≤ G * (H + e + κ) := by
  -- coefficients of `H` and of `e` in the drift
  set E := K.dur * Real.exp (K.Lx * K.dur) with hE
  set d1 := |K.C * K.Lx * K.C * E| * (|K.B| + 1) + |K.C * K.Lt * E| + |K.C * K.Lu * E| + |K.C * E| with hd1
  have hd0 : 0 ≤ d1 := by positivity
  set g1 := |K.C| * (|K.B| + 1) + d1 with hg1
  have hg0 : 0 ≤ g1 := by positivity
  set c1 := |K.Qx| * g1 + |K.Qu| + |K.Qt| with hc1
  have hc0 : 0 ≤ c1 := by positivity
  refine ⟨d1 + g1 + c1 + 1 + |K.Px| * d1 + c1 * |K.dur|, by positivity, fun H e κ hH he hκ hκ1 => ?_⟩
  have hs : 0 ≤ H + e + κ := by linarith
  have hle : ∀ {x y : ℝ}, 0 ≤ x → 0 ≤ y → x * (H + e + κ) ≤ (x + y) * (H + e + κ) := fun _ hy =>
    mul_le_mul_of_nonneg_right (by linarith) hs
  have hB : |(K.B + κ) * H| ≤ (|K.B| + 1) * (H + e + κ) := by
    rw [abs_mul, abs_of_nonneg hH]
    refine mul_le_mul ((abs_add_le _ _).trans ?_) (by linarith) hH (by positivity)
    rw [abs_of_nonneg hκ]; linarith
  have drift : |({ K with H := H, e := e, tol := κ } : Sizes).drift| ≤ d1 * (H + e + κ) := by
    have e1 : ({ K with H := H, e := e, tol := κ } : Sizes).drift =
        K.C * K.Lx * K.C * E * ((K.B + κ) * H) + K.C * K.Lt * E * H + K.C * K.Lu * E * e + K.C * E * κ := by
      unfold Sizes.drift Sizes.rate; rw [hE]; ring
    rw [e1, hd1]
    simp only [add_mul _ _ (H + e + κ)]
    refine (abs_add_le _ _).trans (add_le_add ((abs_add_le _ _).trans (add_le_add ((abs_add_le _ _).trans (add_le_add ?_ ?_)) ?_)) ?_)
    · rw [abs_mul _ ((K.B + κ) * H), mul_assoc |_|]
      exact mul_le_mul_of_nonneg_left hB (abs_nonneg _)
    · rw [abs_mul _ H, abs_of_nonneg hH]
      exact mul_le_mul_of_nonneg_left (by linarith) (abs_nonneg _)
    · rw [abs_mul _ e, abs_of_nonneg he]
      exact mul_le_mul_of_nonneg_left (by linarith) (abs_nonneg _)
    · rw [abs_mul _ κ, abs_of_nonneg hκ]
      exact mul_le_mul_of_nonneg_left (by linarith) (abs_nonneg _)
  have gap : |({ K with H := H, e := e, tol := κ } : Sizes).gap| ≤ g1 * (H + e + κ) := by
    unfold Sizes.gap
    refine (abs_add_le _ _).trans ?_
    rw [hg1, add_mul]
    refine add_le_add ?_ drift
    simp only
    rw [mul_assoc, abs_mul, mul_assoc]
    exact mul_le_mul_of_nonneg_left hB (abs_nonneg _)
  have change : |({ K with H := H, e := e, tol := κ } : Sizes).change| ≤ c1 * (H + e + κ) := by
    unfold Sizes.change
    refine (abs_add_le _ _).trans ((add_le_add (abs_add_le _ _) le_rfl).trans ?_)
    simp only [abs_mul]
    rw [abs_of_nonneg hH, abs_of_nonneg he, hc1, add_mul, add_mul]
    refine add_le_add (add_le_add ?_ ?_) ?_
    · rw [mul_assoc]; exact mul_le_mul_of_nonneg_left gap (abs_nonneg _)
    · exact mul_le_mul_of_nonneg_left (by linarith) (abs_nonneg _)
    · exact mul_le_mul_of_nonneg_left (by linarith) (abs_nonneg _)
  have p1 : 0 ≤ |K.Px| * d1 := by positivity
  have p2 : 0 ≤ c1 * |K.dur| := by positivity
  refine ⟨(le_abs_self _).trans (drift.trans ?_), (le_abs_self _).trans (gap.trans ?_),
    (le_abs_self _).trans (change.trans ?_), ?_, (le_abs_self _).trans ?_, (le_abs_self _).trans ?_⟩
  · exact mul_le_mul_of_nonneg_right (by linarith) hs
  · exact mul_le_mul_of_nonneg_right (by linarith) hs
  · exact mul_le_mul_of_nonneg_right (by linarith) hs
  · have := mul_le_mul_of_nonneg_right (show (1 : ℝ) ≤ d1 + g1 + c1 + 1 + |K.Px| * d1 + c1 * |K.dur| by linarith) hs
    linarith
  · rw [abs_mul]
    refine (mul_le_mul_of_nonneg_left drift (abs_nonneg _)).trans ?_
    rw [← mul_assoc]
    exact mul_le_mul_of_nonneg_right (by linarith) hs
  · rw [abs_mul]
    refine (mul_le_mul_of_nonneg_right change (abs_nonneg _)).trans ?_
    rw [mul_assoc, mul_comm (H + e + κ), ← mul_assoc]
    exact mul_le_mul_of_nonneg_right (by linarith) hs

section
variable {P : List Nat} {a b : ℝ}

/-- **C80** So on fine LGR meshes, with controls that vary little within a segment, the plan can be flown so that every constraint holds
but for as little as wanted, at the cost claimed but for as little as wanted. `K` holds the constants of the problem, and `δ` depends on
nothing else but `ε`. -/
theorem C80_fine (lib : NodeLib ℝ) (m : Method) (hv : ValidOCP ocp) (hs : ocp.SettingsOK) (hsc : ocp.PosScales)
    (hord : ∀ p ∈ P, 2 ≤ p) (hj : ∀ p ∈ P, IsJacobiRoots 1 0 (p - 1) (lib.jroots (p - 1) 1 0)) (K : Sizes) {ε : ℝ} (hε : 0 < ε) :
    ∃ δ, 0 < δ ∧ ∀ (M : Mesh ℝ) (T : Traj ℝ) (W : List ℝ) (J H e : ℝ) (lo hi : Nat → Nat → ℝ) (U : Nat → List ℝ → Prop),
      MeshOf a b (tausFn lib a b "LGR") P M → PhysFeasible ocp M T → (∀ ph < ocp.nPhases, FullWidths M T ph) →
      (∀ ph < ocp.nPhases, Sized ocp M T ph (lo ph) (hi ph) (U ph) { K with H := H, e := e, tol := 0 }) →
      compQuadWeights ⟨m, a, b, tausFn lib a b "LGR"⟩ M.orders = .ok W → PhysCost ocp M W T J → H ≤ δ → e ≤ δ →
      ∃ C, Flies ocp M T C ∧ NearlySolves ocp C ε ε ε ε ∧ |J - ocp.trueCost C| ≤ ε := by
  obtain ⟨G, hG, hsmall⟩ := K.small
  have hn0 : (0 : ℝ) ≤ ocp.nPhases := by positivity
  set D := (2 * G * (2 * ocp.nPhases + 1) + 1) with hD
  have hD0 : 0 < D := by positivity
  refine ⟨ε / D, by positivity, fun M T W J H e lo hi U hm hT hw hK hW hJ hH he => ?_⟩
  obtain ⟨C, h1, h2, h3⟩ := C80_lgr lib m hv hs hsc hm hord hj hT hw hK hW hJ
  have hF : ocp.dynamics[0]? = some (ocp.dynamics[0]'(by rw [hv.dynamics]; exact hv.phases)) :=
    List.getElem?_eq_getElem _
  have hH0 : 0 ≤ H := ((hK 0 hv.phases).nonneg hm.good hm.inside (hw 0 hv.phases) hF).2.1
  have he0 : 0 ≤ e := ((hK 0 hv.phases).tame _ hF).e
  obtain ⟨s1, s2, s3, s4, s5, s6⟩ := hsmall H e 0 hH0 he0 le_rfl zero_le_one
  rw [add_zero] at s1 s2 s3 s4 s5 s6
  have hGe : G * (H + e) ≤ ε / D * (2 * G) := by
    have := mul_le_mul_of_nonneg_left (add_le_add hH he) hG
    linarith
  have hb : ε / D * (2 * G) * (2 * ocp.nPhases + 1) ≤ ε := by
    rw [mul_assoc, div_mul_eq_mul_div, div_le_iff₀ hD0]
    exact mul_le_mul_of_nonneg_left (by rw [hD]; linarith) hε.le
  have hq0 : 0 ≤ ε / D * (2 * G) := by positivity
  have hb1 : ε / D * (2 * G) ≤ ε := by nlinarith
  refine ⟨C, h1, h2.mono (s2.trans (hGe.trans hb1)) (s4.trans (hGe.trans hb1)) (s3.trans (hGe.trans hb1))
    (s5.trans (hGe.trans hb1)), h3.trans ?_⟩
  have h5 := s5.trans hGe
  have h6 := s6.trans hGe
  have := mul_le_mul_of_nonneg_left (add_le_add h5 h6) hn0
  refine this.trans ?_
  nlinarith

end

/-! ## The module-level `solve` -/

section
variable {V : Type} {w : Outside ℝ V} {ptp : List (List Nat)} {n : Nat} {arg : OrdersArg} {a : SolveArgs ℝ V} {rx rdx : Bool}

theorem MeshFor.lgr_inside (hM : MeshFor w "LGR" n arg M) (hlt : w.tau0 < w.tau1) (hord : ∀ q ∈ M.orders, 2 ≤ q)
    (hj : ∀ q ∈ M.orders, IsJacobiRoots 1 0 (q - 1) (w.lib.jroots (q - 1) 1 0)) : M.Inside := by
  intro p hp v hv
  obtain ⟨r, hr, hspan⟩ := C01_lgr_nodes w.lib w.tau0 w.tau1 hlt p (by have := hord p hp; omega) (fun _ => hj p hp)
  rw [hM.nodes p hp] at hr
  cases hr
  rw [hM.tau0, hM.tau1]
  exact hspan.inside v hv

/-- **C80** The module-level `solve` with LGR nodes of order at least 2, `n` segments of equal width and a sound solver: what is shown
are the node values of a plan; if its sizes are known, it can be flown, with these tolerances and at this cost. -/
theorem C80_solve {nlpsol : SolverCall ℝ V → Py (List ℝ)} {s : Session ℝ V} {p : Post ℝ}
    {r : Option (PyDict (ResidVal ℝ))} (hrun : mpSolve w nlpsol ocp ptp n arg "LGR" a rx rdx = .ok (s, p, r))
    (hv : ValidOCP ocp) (hs : ocp.SettingsOK) (hsc : ocp.PosScales) (hM : MeshFor w "LGR" n arg M)
    (hn : M.orders.length = n) (hlt : w.tau0 < w.tau1) (hord : ∀ q ∈ M.orders, 2 ≤ q)
    (hj : ∀ q ∈ M.orders, IsJacobiRoots 1 0 (q - 1) (w.lib.jroots (q - 1) 1 0)) (hnone : a.widths = none)
    (hsound : ∀ c z, nlpsol c = .ok z → c.IsSolution z) :
    ∃ T, SolvesOCP ocp M T ∧ p.Shows ocp M T ∧ ∀ (W : List ℝ) (J : ℝ) (lo hi : Nat → Nat → ℝ) (U : Nat → List ℝ → Prop) (K : Sizes),
      compQuadWeights ⟨w.method, w.tau0, w.tau1, tausFn w.lib w.tau0 w.tau1 "LGR"⟩ M.orders = .ok W → PhysCost ocp M W T J →
      (∀ ph < ocp.nPhases, Sized ocp M T ph (lo ph) (hi ph) (U ph) K) →
      ∃ C, Flies ocp M T C ∧ NearlySolves ocp C K.gap K.e K.change (K.Px * K.drift) ∧
        |J - ocp.trueCost C| ≤ ocp.nPhases * (K.Px * K.drift + K.change * K.dur) := by
  obtain ⟨T, hT, hw, hsh⟩ := C52_solve_feasible hrun hv hs hsc hM hsound
  rw [hnone] at hw
  have hn0 : 0 < n := by rw [← hn]; exact List.length_pos_iff.2 hM.good.nonempty
  refine ⟨T, hT, hsh, fun W J lo hi U K hW hJ hK => ?_⟩
  exact C80_lgr w.lib w.method hv hs hsc (hM.meshOf (hM.lgr_inside hlt hord hj)) hord hj hT.1
    (fun ph hp => hw.equal_full hn hn0 hp) hK hW hJ

/-- **C80** With a solver that returns global minimisers the motion is also nearly the cheapest: it costs no more than any solution of the
continuous-time problem that is a piecewise polynomial of the orders of the mesh, but for the same tolerance. -/
theorem C80_solve_best {nlpsol : SolverCall ℝ V → Py (List ℝ)} {s : Session ℝ V} {p : Post ℝ}
    {r : Option (PyDict (ResidVal ℝ))} (hrun : mpSolve w nlpsol ocp ptp n arg "LGR" a rx rdx = .ok (s, p, r))
    (hv : ValidOCP ocp) (hs : ocp.SettingsOK) (hsc : ocp.PosScales) (hM : MeshFor w "LGR" n arg M)
    (hn : M.orders.length = n) (hlt : w.tau0 < w.tau1) (hord : ∀ q ∈ M.orders, 2 ≤ q)
    (hj : ∀ q ∈ M.orders, IsJacobiRoots 1 0 (q - 1) (w.lib.jroots (q - 1) 1 0)) (hnone : a.widths = none)
    (hopt : ∀ c z, nlpsol c = .ok z → c.IsOptimal z)
    (hdu : ∀ ph < ocp.nPhases, ocp.duContinuity.getD ph false = false)
    (hdf : ∀ ph < ocp.nPhases, ocp.diffU.getD ph false = false) :
    ∃ T, SolvesOCP ocp M T ∧ p.Shows ocp M T ∧ ∀ (lo hi : Nat → Nat → ℝ) (U : Nat → List ℝ → Prop) (K : Sizes),
      (∀ ph < ocp.nPhases, Sized ocp M T ph (lo ph) (hi ph) (U ph) K) →
      ∃ C, Flies ocp M T C ∧ NearlySolves ocp C K.gap K.e K.change (K.Px * K.drift) ∧
      ∀ D T', SolvesContinuously ocp D → Samples ocp M D T' → WidthsAre ocp n none T' →
        (∀ ph < ocp.nPhases, ∀ j < ocp.nx,
          PiecewisePoly M.orders.length M.order (D.breakTime T'.w ph) (D.x ph j)) →
        (∀ ph < ocp.nPhases, ocp.midu.getD ph false = true → ∀ j < ocp.nu,
          PiecewisePoly M.orders.length M.order (D.breakTime T'.w ph) (D.u ph j)) →
        (∀ ph < ocp.nPhases, LeftPiecewisePoly M.orders.length (fun s => 2 * M.order s - 2) (D.breakTime T'.w ph)
          fun t => ocp.runningCosts.getD ph (fun _ => 0) (ocp.cArg D ph t)) →
        ocp.trueCost C ≤ ocp.trueCost D + ocp.nPhases * (K.Px * K.drift + K.change * K.dur) := by
  obtain ⟨T, W, J, h1, h2, h3, h4, h5, h6⟩ := C57_solve_beats hrun hv hs hsc hM hlt hord hj hopt hdu hdf
  rw [hnone] at h3 h6
  have hn0 : 0 < n := by rw [← hn]; exact List.length_pos_iff.2 hM.good.nonempty
  refine ⟨T, h2, h4, fun lo hi U K hK => ?_⟩
  obtain ⟨C, c1, c2, c3⟩ := C80_lgr w.lib w.method hv hs hsc (hM.meshOf (hM.lgr_inside hlt hord hj)) hord hj h2.1
    (fun ph hp => h3.equal_full hn hn0 hp) hK h1 h5
  refine ⟨C, c1, c2, fun D T' hD hS hw' hx hu hc => ?_⟩
  have := h6 D T' hD hS hw' (fun ph hp => hw'.equal_full hn hn0 hp) hx hu hc
  linarith [(abs_le.1 c3).1]

end

end MPOpt
