import Verif.Spec.Accuracy
import Verif.Props.Best
import Verif.Props.Mayer
import Mathlib.Analysis.Calculus.Taylor
import Mathlib.Analysis.Calculus.ContDiff.FTaylorSeries

/-! # C101: segments of higher order gain powers of the segment length -/

set_option autoImplicit false

namespace MPOpt
open Polynomial

/-- Taylor's theorem with polynomials. -/
theorem taylor_segment {p : Nat} {a b : ℝ} {g : ℝ → ℝ} {K H : ℝ} (hK : 0 ≤ K) (hab : a ≤ b) (hH : b - a ≤ H)
    (h1 : ContDiffOn ℝ (p + 1 : Nat) g (Set.Icc a b))
    (h2 : ∀ t ∈ Set.Icc a b, |iteratedDerivWithin (p + 1) g (Set.Icc a b) t| ≤ K) :
    ∃ Q : ℝ[X], Q.natDegree ≤ p ∧ ∀ t ∈ Set.Icc a b, |g t - Q.eval t| ≤ K * H ^ (p + 1) / p.factorial := by
  set I := Set.Icc a b with hI
  refine ⟨∑ k ∈ Finset.range (p + 1), Polynomial.C ((k.factorial : ℝ)⁻¹ * iteratedDerivWithin k g I a) *
    (X - Polynomial.C a) ^ k, ?_, fun t ht => ?_⟩
  · refine natDegree_sum_le_of_forall_le _ _ fun k hk => ?_
    refine (natDegree_C_mul_le _ _).trans (natDegree_pow_le.trans ?_)
    rw [natDegree_X_sub_C, mul_one]
    have := Finset.mem_range.1 hk
    omega
  · have := taylor_mean_remainder_bound (n := p) hab (by exact_mod_cast h1) ht (C := K)
      (fun y hy => by rw [Real.norm_eq_abs]; exact h2 y hy)
    rw [taylor_within_apply, Real.norm_eq_abs] at this
    have e : (∑ k ∈ Finset.range (p + 1), Polynomial.C ((k.factorial : ℝ)⁻¹ * iteratedDerivWithin k g I a) *
        (X - Polynomial.C a) ^ k).eval t =
        ∑ k ∈ Finset.range (p + 1), ((k.factorial : ℝ)⁻¹ * (t - a) ^ k) • iteratedDerivWithin k g I a := by
      rw [eval_finsetSum]
      refine Finset.sum_congr rfl fun k _ => ?_
      simp only [eval_mul, eval_C, eval_pow, eval_sub, eval_X, smul_eq_mul]
      ring
    rw [e]
    refine this.trans ?_
    refine div_le_div_of_nonneg_right (mul_le_mul_of_nonneg_left ?_ hK) (by positivity)
    exact pow_le_pow_left₀ (sub_nonneg.2 ht.1) (by linarith [ht.2]) _

/-- **C101** Taylor: functions with `p + 1` derivatives fit polynomials of degree `p` up to the power `p + 1` of the length. -/
theorem C101_taylor {n p : Nat} {b : Nat → ℝ} {f : ℝ → ℝ} {K H : ℝ} (hK : 0 ≤ K) (hf : SmoothPieces n (p + 1) b f K)
    {deg : Nat → Nat} (hdeg : ∀ s < n, p ≤ deg s) (hb : ∀ s < n, b s ≤ b (s + 1)) (hH : ∀ s < n, b (s + 1) - b s ≤ H) :
    Fits n deg b f (K * H ^ (p + 1) / p.factorial) := by
  intro s hs
  obtain ⟨g, h1, h2, h3⟩ := hf s hs
  obtain ⟨Q, q1, q2⟩ := taylor_segment hK (hb s hs) (hH s hs) h1 h2
  exact ⟨Q, q1.trans (hdeg s hs), fun t ht => by rw [h3 t ht]; exact q2 t ⟨ht.1, ht.2.1⟩⟩

/-- A function with continuous derivatives on the whole interval has them on the segments, with common bounds. -/
theorem smooth_pieces {p : Nat} {a c : ℝ} (hac : a < c) {f : ℝ → ℝ} (hf : ContDiffOn ℝ p f (Set.Icc a c)) :
    ∃ K, 0 ≤ K ∧ ∀ (n : Nat) (b : Nat → ℝ), (∀ s < n, b s < b (s + 1)) → (∀ s ≤ n, b s ∈ Set.Icc a c) →
      SmoothPieces n p b f K ∧ ∀ s < n, ContDiffOn ℝ p f (Set.Icc (b s) (b (s + 1))) ∧
        ∀ t ∈ Set.Icc (b s) (b (s + 1)), |iteratedDerivWithin p f (Set.Icc (b s) (b (s + 1))) t| ≤ K := by
  obtain ⟨K, hK⟩ := isCompact_Icc.exists_bound_of_continuousOn
    (hf.continuousOn_iteratedDerivWithin le_rfl (uniqueDiffOn_Icc hac))
  refine ⟨|K|, abs_nonneg K, fun n b hb hin => ?_⟩
  have key : ∀ s < n, ContDiffOn ℝ p f (Set.Icc (b s) (b (s + 1))) ∧
      ∀ t ∈ Set.Icc (b s) (b (s + 1)), |iteratedDerivWithin p f (Set.Icc (b s) (b (s + 1))) t| ≤ |K| := by
    intro s hs
    have hsub : Set.Icc (b s) (b (s + 1)) ⊆ Set.Icc a c := Set.Icc_subset_Icc (hin s hs.le).1 (hin (s + 1) hs).2
    refine ⟨hf.mono hsub, fun t ht => ?_⟩
    have e : iteratedDerivWithin p f (Set.Icc (b s) (b (s + 1))) t = iteratedDerivWithin p f (Set.Icc a c) t := by
      rw [iteratedDerivWithin_eq_iteratedFDerivWithin, iteratedDerivWithin_eq_iteratedFDerivWithin,
        iteratedFDerivWithin_subset hsub (uniqueDiffOn_Icc (hb s hs)) (uniqueDiffOn_Icc hac) hf ht]
    rw [e]
    have := hK t (hsub ht)
    rw [Real.norm_eq_abs] at this
    exact this.trans (le_abs_self K)
  exact ⟨fun s hs => ⟨f, (key s hs).1, (key s hs).2, fun _ _ => rfl⟩, key⟩

/-- Finitely many bounds have a common one. -/
theorem exists_uniform {n : Nat} {p : Nat → ℝ → Prop} (hm : ∀ k K K', K ≤ K' → p k K → p k K')
    (h : ∀ k < n, ∃ K, 0 ≤ K ∧ p k K) : ∃ K, 0 ≤ K ∧ ∀ k < n, p k K := by
  induction n with
  | zero => exact ⟨0, le_rfl, by simp⟩
  | succ n ih =>
    obtain ⟨K, h0, h1⟩ := ih fun k hk => h k (by omega)
    obtain ⟨K', h0', h1'⟩ := h n (by omega)
    refine ⟨max K K', h0.trans (le_max_left _ _), fun k hk => ?_⟩
    rcases Nat.lt_succ_iff_lt_or_eq.1 hk with hk | rfl
    · exact hm _ _ _ (le_max_left _ _) (h1 k hk)
    · exact hm _ _ _ (le_max_right _ _) h1'

/-- Breaks of `n` segments within an interval, none longer than `H`. -/
def BreaksIn (a c : ℝ) (n : Nat) (H : ℝ) (b : Nat → ℝ) : Prop :=
  (∀ s < n, b s < b (s + 1) ∧ b (s + 1) - b s ≤ H) ∧ ∀ s ≤ n, b s ∈ Set.Icc a c

/-- A function with `p + 1` continuous derivatives fits polynomials of degree `p`, ends of segments included. -/
theorem smooth_fits {p : Nat} {a c : ℝ} (hac : a < c) {f : ℝ → ℝ} (hf : ContDiffOn ℝ (p + 1 : Nat) f (Set.Icc a c)) :
    ∃ K, 0 ≤ K ∧ ∀ (n : Nat) (b : Nat → ℝ) (H : ℝ) (deg : Nat → Nat), BreaksIn a c n H b → (∀ s < n, p ≤ deg s) →
      FitsClosed n deg b f (K * H ^ (p + 1)) := by
  obtain ⟨K, h0, h⟩ := smooth_pieces hac hf
  refine ⟨K / p.factorial, by positivity, fun n b H deg hb hdeg s hs => ?_⟩
  obtain ⟨h1, h2⟩ := (h n b (fun s hs => (hb.1 s hs).1) hb.2).2 s hs
  obtain ⟨Q, q1, q2⟩ := taylor_segment h0 (hb.1 s hs).1.le (hb.1 s hs).2 h1 h2
  refine ⟨Q, q1.trans (hdeg s hs), fun t ht => (q2 t ht).trans (le_of_eq ?_)⟩
  ring

theorem FitsClosed.mono {n : Nat} {deg : Nat → Nat} {b : Nat → ℝ} {f : ℝ → ℝ} {ω ω' : ℝ} (h : FitsClosed n deg b f ω)
    (hω : ω ≤ ω') : FitsClosed n deg b f ω' := by
  intro s hs
  obtain ⟨Q, h1, h2⟩ := h s hs
  exact ⟨Q, h1, fun t ht => (h2 t ht).trans hω⟩

theorem FitsClosed.fits {n : Nat} {deg : Nat → Nat} {b : Nat → ℝ} {f : ℝ → ℝ} {ω : ℝ} (h : FitsClosed n deg b f ω) :
    Fits n deg b f ω := by
  intro s hs
  obtain ⟨Q, h1, h2⟩ := h s hs
  exact ⟨Q, h1, fun t ht => h2 t ⟨ht.1, ht.2.1⟩⟩

variable {M : Mesh ℝ} {ocp : OCP ℝ} {C : CTraj} {T : Traj ℝ} {ph : Nat}

/-- A piece is a polynomial of at most its order plus the interpolant of the rest. -/
theorem Mesh.Good.piece_split (hM : M.Good) {s : Nat} (hs : s < M.orders.length) (v : Nat → ℝ) {P : ℝ[X]}
    (hP : P.natDegree ≤ M.order s) :
    M.piece v s = P + Lagrange.interpolate (Finset.range (M.order s + 1)) (M.node s)
      fun k => v (M.idx s k) - P.eval (M.node s k) := by
  have hi := hM.node_injOn hs
  refine hM.piece_eq hs v _ ?_ fun k hk => ?_
  · refine (degree_add_le _ _).trans_lt (max_lt ?_ ?_)
    · refine degree_le_natDegree.trans_lt ?_
      exact_mod_cast (by omega : P.natDegree < M.order s + 1)
    · have := Lagrange.degree_interpolate_lt (s := Finset.range (M.order s + 1)) (v := M.node s)
        (fun k => v (M.idx s k) - P.eval (M.node s k)) hi
      rwa [Finset.card_range] at this
  · rw [eval_add, Lagrange.eval_interpolate_at_node _ hi (Finset.mem_range.2 (by omega))]
    ring

/-- Breaks of a phase. -/
theorem segment_breaks (hM : M.Good) (hI : M.Inside) (hT : Samples ocp M C T) (hp : ph < ocp.nPhases) (ht : C.t0 ph < C.tf ph)
    (hw : FullWidths M T ph) : (∀ s < M.orders.length, C.breakTime T.w ph s < C.breakTime T.w ph (s + 1)) ∧
      ∀ s ≤ M.orders.length, C.breakTime T.w ph s ∈ Set.Icc (C.t0 ph) (C.tf ph) := by
  have hlt := sub_pos.2 (hI.tau_lt hM)
  have h1 : ∀ s < M.orders.length, C.breakTime T.w ph s < C.breakTime T.w ph (s + 1) ∧
      C.t0 ph ≤ C.breakTime T.w ph s ∧ C.breakTime T.w ph (s + 1) ≤ C.tf ph := by
    intro s hs
    obtain ⟨b0, b1⟩ := breakTime_eq hM (hT.t0 ph hp) (hT.tf ph hp) s
    obtain ⟨hh, ht0, ht1⟩ := time_bounds (s := s) hM hI (by rw [hT.t0 ph hp, hT.tf ph hp]; exact ht) hw hs
    rw [b0, b1, ← hT.t0 ph hp, ← hT.tf ph hp]
    refine ⟨?_, ht0 _ le_rfl, ht1 _ le_rfl⟩
    have := mul_pos hh hlt
    unfold Mesh.time; linarith
  refine ⟨fun s hs => (h1 s hs).1, fun s hs => ?_⟩
  rcases Nat.eq_or_lt_of_le hs with rfl | hs
  · have h0 : 0 < M.orders.length := List.length_pos_iff.2 hM.nonempty
    have h2 := h1 (M.orders.length - 1) (by omega)
    rw [Nat.sub_add_cancel h0] at h2
    exact ⟨h2.2.1.trans h2.1.le, h2.2.2⟩
  · exact ⟨(h1 s hs).2.1, (h1 s hs).1.le.trans (h1 s hs).2.2⟩

/-- **C101** Along a motion whose scaled rates on each segment are polynomials of degree below the order, but for `ω`, the node values
fail the collocation equations by at most `(D (tau1 - tau0) + 1) ω` per unit of time. -/
theorem C101_rate (hM : M.Good) (hI : M.Inside) (hT : Samples ocp M C T) (hp : ph < ocp.nPhases) (ht : C.t0 ph < C.tf ph)
    (hw : FullWidths M T ph) (hsc : ∀ j < ocp.nx, 0 < ocp.scaleX.getD j 0) (hC : DynamicsHold ocp C ph) {D ω : ℝ}
    (hD : M.DerivBound D)
    (hω : ∀ F, ocp.dynamics[ph]? = some F → ∀ j < ocp.nx, Fits M.orders.length (fun s => M.order s - 1) (C.breakTime T.w ph)
      (fun t => ocp.scaleX.getD j 0 * F.f (ocp.cArg C ph t) j) ω) :
    CollocationRate ((D * (M.tau1 - M.tau0) + 1) * ω) ocp M T ph := by
  intro F hF j hj s i ho
  have hs := ho.1
  have hlt := sub_pos.2 (hI.tau_lt hM)
  obtain ⟨b0, b1⟩ := breakTime_eq hM (hT.t0 ph hp) (hT.tf ph hp) s
  obtain ⟨hh, ht0, ht1⟩ := time_bounds (s := s) hM hI (by rw [hT.t0 ph hp, hT.tf ph hp]; exact ht) hw hs
  obtain ⟨hbs, hbin⟩ := segment_breaks hM hI hT hp ht hw
  obtain ⟨Q, hQd, hQ⟩ := hω F hF j hj s hs
  beta_reduce at hQd
  set sc := ocp.scaleX.getD j 0 with hsc'
  have hs0 : 0 < sc := hsc j hj
  set b := C.breakTime T.w ph with hb
  obtain ⟨R, hR, hRd⟩ := exists_antiderivative Q
  -- the node's own time
  have hown : OwnTime b s (M.time T ph s (M.node s i)) := by
    obtain ⟨n0, n1⟩ := hI.node hM hs ho.2.1
    unfold OwnTime
    rw [b0, b1]
    refine ⟨by unfold Mesh.time; nlinarith, by unfold Mesh.time; nlinarith, ho.2.2.imp id fun h => ?_⟩
    have := mul_pos hh (sub_pos.2 (hI.node_pos hM hs ho.2.1 h))
    unfold Mesh.time; linarith
  have hω0 : 0 ≤ ω := (abs_nonneg _).trans (hQ _ hown)
  -- the scaled state is the antiderivative up to a constant, nearly
  set c := sc * C.x ph j (b s) - R.eval (b s) with hc
  have near : ∀ t ∈ Set.Icc (b s) (b (s + 1)), |sc * C.x ph j t - (R.eval t + c)| ≤ ω * (b (s + 1) - b s) := by
    intro t ht'
    have := left_mvt (f := fun r => sc * C.x ph j r - R.eval r) (f' := fun r => sc * F.f (ocp.cArg C ph r) j - Q.eval r)
      (c := ω) ht'.1
      (by
        refine (continuousOn_const.mul ((hC.continuous j hj).mono ?_)).sub R.continuous.continuousOn
        exact Set.Icc_subset_Icc (hbin s hs.le).1 (ht'.2.trans (hbin (s + 1) hs).2))
      (fun r hr hr' => by
        have h4 := hC.left F hF j hj r (lt_of_le_of_lt (hbin s hs.le).1 hr) (hr'.trans (ht'.2.trans (hbin (s + 1) hs).2))
        have h5 := (R.hasDerivAt r).hasDerivWithinAt (s := Set.Iic r)
        rw [hR] at h5
        exact (h4.const_mul sc).sub h5)
      (fun r hr hr' => hQ r ⟨hr.le, hr'.trans ht'.2, .inr hr⟩)
    refine le_trans (le_of_eq ?_) (this.trans (mul_le_mul_of_nonneg_left (by linarith [ht'.2]) hω0))
    congr 1
    rw [hc]; ring
  have hlen : b (s + 1) - b s = M.halfWidth T ph s * (M.tau1 - M.tau0) := by
    rw [b0, b1]; unfold Mesh.time; ring
  -- the interpolant
  set P : ℝ[X] := (Polynomial.C sc⁻¹ * (R + Polynomial.C c)).comp (M.clockPoly T ph s) with hP
  have hPd : P.natDegree ≤ M.order s := by
    have hpos := hM.order_pos hs
    refine (M.clockPoly_comp T ph s _ 0).2.2.trans ((natDegree_C_mul_le _ _).trans ?_)
    refine (natDegree_add_le _ _).trans (max_le (hRd.trans ?_) (by simp))
    omega
  have hPv : ∀ tau, P.eval tau = sc⁻¹ * (R.eval (M.time T ph s tau) + c) := by
    intro tau
    rw [hP, (M.clockPoly_comp T ph s _ tau).1]; simp
  have hPs : ∀ tau, (derivative P).eval tau = M.halfWidth T ph s * (sc⁻¹ * Q.eval (M.time T ph s tau)) := by
    intro tau
    rw [hP, (M.clockPoly_comp T ph s _ tau).2.1]
    simp [hR]
  have hE : ∀ k < M.order s + 1, |T.x ph (M.idx s k) j - P.eval (M.node s k)| ≤
      ω * (M.halfWidth T ph s * (M.tau1 - M.tau0)) / sc := by
    intro k hk
    obtain ⟨n0, n1⟩ := hI.node hM hs (i := k) (by omega)
    rw [samples_all hM (v := fun q => T.x ph q j) (hT.x ph hp j hj) hs (by omega : k ≤ M.order s), hPv, le_div_iff₀ hs0,
      ← hlen]
    refine le_trans (le_of_eq ?_) (near (M.time T ph s (M.node s k)) ?_)
    · conv_lhs => rw [← abs_of_pos hs0, ← abs_mul]
      congr 1
      rw [abs_of_pos hs0]
      field_simp
    · rw [b0, b1]
      exact ⟨by unfold Mesh.time; nlinarith, by unfold Mesh.time; nlinarith⟩
  have hsl : |(derivative (M.piece (fun k => T.x ph k j) s)).eval (M.node s i) -
      M.halfWidth T ph s * (sc⁻¹ * Q.eval (M.time T ph s (M.node s i)))| ≤
      D * (ω * (M.halfWidth T ph s * (M.tau1 - M.tau0)) / sc) := by
    rw [hM.piece_split hs (fun k => T.x ph k j) hPd, Lagrange.interpolate_apply, derivative_add, eval_add, hPs,
      add_sub_cancel_left]
    simp only [derivative_mul, derivative_C, derivative_sum, eval_mul, eval_C, eval_finsetSum, zero_mul, zero_add]
    exact abs_sum_mul_le hE (by positivity) (hD s hs i ho.2.1)
  rw [hT.pArg hp ho, abs_mul, abs_of_pos hs0]
  set S := (derivative (M.piece (fun k => T.x ph k j) s)).eval (M.node s i) with hS
  set ti := M.time T ph s (M.node s i) with hti
  have h2 := hQ ti hown
  have h3 : |M.halfWidth T ph s * (sc⁻¹ * Q.eval ti) - M.halfWidth T ph s * F.f (ocp.cArg C ph ti) j| ≤
      M.halfWidth T ph s * (ω / sc) := by
    rw [← mul_sub, abs_mul, abs_of_pos hh]
    refine mul_le_mul_of_nonneg_left ?_ hh.le
    rw [le_div_iff₀ hs0]
    refine le_trans (le_of_eq ?_) h2
    conv_lhs => rw [← abs_of_pos hs0, ← abs_mul]
    rw [abs_of_pos hs0, abs_sub_comm]
    congr 1
    field_simp
  calc sc * |S - M.halfWidth T ph s * F.f (ocp.cArg C ph ti) j|
      ≤ sc * (D * (ω * (M.halfWidth T ph s * (M.tau1 - M.tau0)) / sc) + M.halfWidth T ph s * (ω / sc)) := by
        refine mul_le_mul_of_nonneg_left ?_ hs0.le
        refine (abs_sub_le _ (M.halfWidth T ph s * (sc⁻¹ * Q.eval ti)) _).trans (add_le_add hsl h3)
    _ = M.halfWidth T ph s * ((D * (M.tau1 - M.tau0) + 1) * ω) := by field_simp

/-- Controls between nodes, for controls near polynomials of the segment's order. -/
theorem control_fits (hM : M.Good) (hI : M.Inside) (hT : Samples ocp M C T) (hp : ph < ocp.nPhases) (ht : C.t0 ph < C.tf ph)
    (hw : FullWidths M T ph) {A e : ℝ} (hA : M.ValueBound A) {j : Nat} (hj : j < ocp.nu) (hsc : 0 < ocp.scaleU.getD j 0)
    (he : FitsClosed M.orders.length M.order (C.breakTime T.w ph) (fun t => ocp.scaleU.getD j 0 * C.u ph j t) e) {s : Nat}
    (hs : s < M.orders.length) {tau : ℝ} (htau : tau ∈ Set.Icc M.tau0 M.tau1) :
    |(M.piece (fun k => T.u ph k j) s).eval tau - C.u ph j (M.time T ph s tau)| ≤ (A + 1) * (e / ocp.scaleU.getD j 0) := by
  obtain ⟨b0, b1⟩ := breakTime_eq hM (hT.t0 ph hp) (hT.tf ph hp) s
  obtain ⟨hh, ht0, ht1⟩ := time_bounds (s := s) hM hI (by rw [hT.t0 ph hp, hT.tf ph hp]; exact ht) hw hs
  have hin : ∀ q ∈ Set.Icc M.tau0 M.tau1,
      M.time T ph s q ∈ Set.Icc (C.breakTime T.w ph s) (C.breakTime T.w ph (s + 1)) := by
    intro q hq
    rw [b0, b1]
    exact ⟨by unfold Mesh.time; nlinarith [hq.1], by unfold Mesh.time; nlinarith [hq.2]⟩
  set sc := ocp.scaleU.getD j 0 with hsc'
  obtain ⟨Q, hQd, hQ⟩ := he s hs
  have he0 : 0 ≤ e := (abs_nonneg _).trans (hQ _ (hin tau htau))
  set P : ℝ[X] := (Polynomial.C sc⁻¹ * Q).comp (M.clockPoly T ph s) with hP
  have hPd : P.natDegree ≤ M.order s := (M.clockPoly_comp T ph s _ 0).2.2.trans ((natDegree_C_mul_le _ _).trans hQd)
  have hPv : ∀ q, P.eval q = sc⁻¹ * Q.eval (M.time T ph s q) := by
    intro q
    rw [hP, (M.clockPoly_comp T ph s _ q).1]; simp
  have near : ∀ q ∈ Set.Icc M.tau0 M.tau1, |C.u ph j (M.time T ph s q) - P.eval q| ≤ e / sc := by
    intro q hq
    rw [hPv, le_div_iff₀ hsc]
    refine le_trans (le_of_eq ?_) (hQ _ (hin q hq))
    conv_lhs => rw [← abs_of_pos hsc, ← abs_mul]
    rw [abs_of_pos hsc]
    congr 1
    field_simp
  have h1 : |(M.piece (fun k => T.u ph k j) s).eval tau - P.eval tau| ≤ A * (e / sc) := by
    rw [hM.piece_split hs (fun k => T.u ph k j) hPd, Lagrange.interpolate_apply, eval_add, add_sub_cancel_left]
    simp only [eval_mul, eval_C, eval_finsetSum]
    refine abs_sum_mul_le (fun k hk => ?_) (by positivity) (hA s hs tau htau)
    rw [samples_all hM (v := fun q => T.u ph q j) (hT.u ph hp j hj) hs (by omega : k ≤ M.order s)]
    exact near _ (hI.node hM hs (by omega))
  have h2 := near tau htau
  rw [abs_sub_comm] at h2
  calc _ ≤ A * (e / sc) + e / sc := (abs_sub_le _ (P.eval tau) _).trans (add_le_add h1 h2)
    _ = (A + 1) * (e / sc) := by ring

/-- **C101** Node values of a solution of the continuous-time problem solve the collocated problem, exactly but for the dynamics and the
controls between nodes; these hold up to how well polynomials fit: rates of degree below the segment's order, controls of the order. -/
theorem C101_consistent (hv : ValidOCP ocp) (hsc : ocp.PosScales) (hM : M.Good) (hI : M.Inside) (hC : SolvesContinuously ocp C)
    (hl : ∀ l ∈ ocp.phaseLinks, l.1 < ocp.nPhases ∧ l.2 < ocp.nPhases)
    (hT : Samples ocp M C T) (hw : ∀ ph < ocp.nPhases, FullWidths M T ph) {D A ω e H ε : ℝ} (hD : M.DerivBound D)
    (hA : M.ValueBound A)
    (hω : ∀ ph < ocp.nPhases, ∀ F, ocp.dynamics[ph]? = some F → ∀ j < ocp.nx,
      Fits M.orders.length (fun s => M.order s - 1) (C.breakTime T.w ph)
        (fun t => ocp.scaleX.getD j 0 * F.f (ocp.cArg C ph t) j) ω)
    (he : ∀ ph < ocp.nPhases, ocp.midu.getD ph false = true → ∀ j < ocp.nu,
      FitsClosed M.orders.length M.order (C.breakTime T.w ph) (fun t => ocp.scaleU.getD j 0 * C.u ph j t) e)
    (hH : ∀ ph < ocp.nPhases, M.Lasts T ph H) (h0 : 0 ≤ ω) (hε : (D + 1 / (M.tau1 - M.tau0)) * ω * H ≤ ε)
    (hε' : (∃ ph < ocp.nPhases, ocp.midu.getD ph false = true) → (A + 1) * e ≤ ε)
    (hdu : ∀ ph < ocp.nPhases, ocp.duContinuity.getD ph false = false)
    (hdf : ∀ ph < ocp.nPhases, ocp.diffU.getD ph false = false) : SolvesTo 0 ε ocp M T := by
  have px : ∀ j < ocp.nx, 0 < ocp.scaleX.getD j 0 := fun j hj => getD_mem_ne hv.scaleX hsc.x hj
  have pu : ∀ j < ocp.nu, 0 < ocp.scaleU.getD j 0 := fun j hj => getD_mem_ne hv.scaleU hsc.u hj
  have hlt := sub_pos.2 (hI.tau_lt hM)
  have hD0 : 0 ≤ D := by
    have h1 : 0 < M.orders.length := List.length_pos_iff.2 hM.nonempty
    exact (Finset.sum_nonneg fun _ _ => abs_nonneg _).trans (hD 0 h1 0 (Nat.zero_le _))
  have hH0 : 0 ≤ H := by
    have h1 : 0 < M.orders.length := List.length_pos_iff.2 hM.nonempty
    refine le_trans ?_ (hH 0 hv.phases 0 h1)
    refine mul_nonneg ?_ ((hw 0 hv.phases).pos 0 h1).le
    rw [hT.t0 0 hv.phases, hT.tf 0 hv.phases]
    exact (sub_pos.2 (hC.phase 0 hv.phases).order).le
  have hε0 : 0 ≤ ε := le_trans (by positivity) hε
  obtain ⟨k1, k3, k4, k5⟩ := samples_nodes hM hI hC hl hT hw
  have hex : ∀ v : ℝ, |v| ≤ 0 ↔ v = 0 := fun v => abs_nonpos_iff
  refine ⟨fun ph hp => ?_, fun ph hp F hF j hj s i ho => ?_, fun ph hp F hF s i ho c hc => ?_, fun ph hp F hF c hc => ?_,
    fun ph hp hd => ?_, fun ph hp hm j hj s hs i hi => ?_, fun ph hp hd => ?_, fun _ => ?_⟩
  · obtain ⟨b1, b2, b3, b4, b5, b6⟩ := k1 ph hp
    refine ⟨?_, ?_, ?_, ?_, ?_, ?_⟩ <;> simp only [zero_div, withinTo_exact, hex, sub_eq_zero] <;> assumption
  · have h1 := C101_rate hM hI hT hp (hC.phase ph hp).order (hw ph hp) px (hC.phase ph hp).dynamics hD (hω ph hp)
    refine (h1.to px (by positivity) (H := H / (M.tau1 - M.tau0)) (fun s hs => ?_) F hF j hj s i ho).trans ?_
    · rw [le_div_iff₀ hlt]
      refine le_trans (le_of_eq ?_) (hH ph hp s hs)
      unfold Mesh.halfWidth
      field_simp
    · refine div_le_div_of_nonneg_right (le_trans (le_of_eq ?_) hε) (px j hj).le
      field_simp
  · exact (k3 ph hp F hF s i ho c hc).trans hε0
  · rw [k4 ph hp F hF c hc, abs_zero]; exact hε0
  · rw [hdf ph hp] at hd; cases hd
  · obtain ⟨m1, m2⟩ := hI.mid hM hs hi
    obtain ⟨-, ht0, ht1⟩ := time_bounds (s := s) hM hI
      (by rw [hT.t0 ph hp, hT.tf ph hp]; exact (hC.phase ph hp).order) (hw ph hp) hs
    have h1 := control_fits hM hI hT hp (hC.phase ph hp).order (hw ph hp) hA hj (pu j hj) (he ph hp hm j hj) hs ⟨m1.le, m2⟩
    have h2 := (hC.phase ph hp).u (M.time T ph s ((M.node s i + M.node s (i + 1)) / 2))
      ⟨by rw [← hT.t0 ph hp]; exact ht0 _ m1.le, by rw [← hT.tf ph hp]; exact ht1 _ m2⟩ j hj
    have h2' : WithinTo (0 / ocp.scaleU.getD j 0) (entry ocp.lbu ph j .nan) (entry ocp.ubu ph j .nan)
        (C.u ph j (M.time T ph s ((M.node s i + M.node s (i + 1)) / 2))) := by
      rw [zero_div, withinTo_exact]; exact h2
    have h3 : (A + 1) * (e / ocp.scaleU.getD j 0) ≤ ε / ocp.scaleU.getD j 0 := by
      rw [← mul_div_assoc]
      exact div_le_div_of_nonneg_right (hε' ⟨ph, hp, hm⟩) (pu j hj).le
    have := h2'.shift (pu j hj) (v' := (M.piece (fun k => T.u ph k j) s).eval ((M.node s i + M.node s (i + 1)) / 2)) (d := ε) ?_
    · simpa using this
    · rw [abs_mul, abs_of_pos (pu j hj)]
      have := mul_le_mul_of_nonneg_left (h1.trans h3) (pu j hj).le
      rwa [mul_div_cancel₀ _ (pu j hj).ne'] at this
  · rw [hdu ph hp] at hd; cases hd
  · obtain ⟨b1, b2, b3⟩ := k5
    refine ⟨fun k p q h j hj => ?_, fun k p q h j hj => ?_, fun k p q h => ?_⟩
    · exact ((withinTo_exact _ _ _).2 (b1 k p q h j hj)).mono (div_nonneg hε0 (px j hj).le)
    · rw [b2 k p q h j hj, sub_self, abs_zero]; exact div_nonneg hε0 (pu j hj).le
    · rw [b3 k p q h, sub_self, abs_zero]; exact div_nonneg hε0 hsc.t.le

/-! ## Cost -/

/-- Nonnegative weights: values within `d` of each other have sums within the sum of `d`. -/
theorem weightedSum_near {W : List ℝ} (hW : ∀ x ∈ W, 0 ≤ x) {v v' d : Nat → ℝ} (h : ∀ k < W.length, |v k - v' k| ≤ d k) :
    |weightedSum W v - weightedSum W v'| ≤ weightedSum W d := by
  unfold weightedSum
  rw [← Finset.sum_sub_distrib]
  refine (Finset.abs_sum_le_sum_abs _ _).trans (Finset.sum_le_sum fun k hk => ?_)
  have hk := Finset.mem_range.1 hk
  have h0 : 0 ≤ W.getD k 0 := by rw [List.getD_eq_getElem _ _ hk]; exact hW _ (List.getElem_mem hk)
  rw [← mul_sub, abs_mul, abs_of_nonneg h0]
  exact mul_le_mul_of_nonneg_left (h k hk) h0

/-- **C101** With nonnegative weights that integrate degree `deg s` on segment `s`, the cost of the node values is the true cost of the
motion but for twice how well polynomials of these degrees fit the running costs. -/
theorem C101_cost (hM : M.Good) (hI : M.Inside) {W : List ℝ} {deg : Nat → Nat} (hW : M.Integrates W deg)
    (hW0 : ∀ x ∈ W, 0 ≤ x) (hWl : W.length = M.N) (hrc : ocp.runningCosts.length = ocp.nPhases)
    (hT : Samples ocp M C T) (hw : ∀ ph < ocp.nPhases, FullWidths M T ph)
    (ht : ∀ ph < ocp.nPhases, C.t0 ph < C.tf ph)
    (hint : ∀ ph < ocp.nPhases, IntervalIntegrable (fun t => ocp.runningCosts.getD ph (fun _ => 0) (ocp.cArg C ph t))
      MeasureTheory.volume (C.t0 ph) (C.tf ph)) {q : ℝ}
    (hq : ∀ ph < ocp.nPhases, Fits M.orders.length deg (C.breakTime T.w ph)
      (fun t => ocp.runningCosts.getD ph (fun _ => 0) (ocp.cArg C ph t)) q) {J : ℝ} (hJ : PhysCost ocp M W T J) :
    |J - ocp.trueCost C| ≤ 2 * q * ∑ ph ∈ Finset.range ocp.nPhases, (C.tf ph - C.t0 ph) := by
  obtain ⟨v, hv, rfl⟩ := hJ
  unfold OCP.trueCost
  rw [← Finset.sum_sub_distrib, Finset.mul_sum]
  refine (Finset.abs_sum_le_sum_abs _ _).trans (Finset.sum_le_sum fun ph hp => ?_)
  have hp := Finset.mem_range.1 hp
  have e : TerminalCost ocp M T ph = ocp.terminalCosts.getD ph (fun _ => 0) (ocp.cEnd C ph) := by
    unfold TerminalCost; rw [hT.tArg hM hp (hw ph hp)]
  rw [e, add_sub_add_left_eq_sub]
  set g : ℝ → ℝ := fun t => ocp.runningCosts.getD ph (fun _ => 0) (ocp.cArg C ph t) with hg
  have htb := fun s hs => time_bounds (s := s) hM hI
    (by rw [hT.t0 ph hp, hT.tf ph hp]; exact ht ph hp) (hw ph hp) hs
  have hbr := fun s => breakTime_eq hM (hT.t0 ph hp) (hT.tf ph hp) s
  obtain ⟨hb, hbin⟩ := segment_breaks hM hI hT hp (ht ph hp) (hw ph hp)
  have hlt := sub_pos.2 (hI.tau_lt hM)
  -- antiderivatives in time
  have hex : ∀ s, ∃ Q : ℝ[X], s < M.orders.length → (derivative Q).natDegree ≤ deg s ∧
      ∀ t, OwnTime (C.breakTime T.w ph) s t → |g t - (derivative Q).eval t| ≤ q := by
    intro s
    by_cases hs : s < M.orders.length
    · obtain ⟨P, h1, h2⟩ := hq ph hp s hs
      obtain ⟨Q, rfl, -⟩ := exists_antiderivative P
      exact ⟨Q, fun _ => ⟨h1, h2⟩⟩
    · exact ⟨0, fun h => absurd h hs⟩
  choose Q hQ using hex
  have hown : ∀ s i, M.Owns s i → OwnTime (C.breakTime T.w ph) s (M.time T ph s (M.node s i)) := by
    intro s i ho
    obtain ⟨n0, n1⟩ := hI.node hM ho.1 ho.2.1
    have hh := (htb s ho.1).1
    unfold OwnTime
    rw [(hbr s).1, (hbr s).2]
    refine ⟨by unfold Mesh.time; nlinarith, by unfold Mesh.time; nlinarith, ho.2.2.imp id fun h => ?_⟩
    have := mul_pos hh (sub_pos.2 (hI.node_pos hM ho.1 ho.2.1 h))
    unfold Mesh.time; linarith
  -- samples of the fits, and of the constant 1
  obtain ⟨v', hv'⟩ := exists_owned M fun s i => M.halfWidth T ph s * (derivative (Q s)).eval (M.time T ph s (M.node s i))
  obtain ⟨d, hd⟩ := exists_owned M fun s _ => M.halfWidth T ph s * q
  have hnode : ∀ s (hs : s < M.orders.length) i, (M.nodes M.orders[s]).getD i 0 = M.node s i := by
    intro s hs i
    unfold Mesh.node; rw [Mesh.order_eq hs]
  have h1 : weightedSum W v' = ∑ s ∈ Finset.range M.orders.length,
      ((Q s).eval (C.breakTime T.w ph (s + 1)) - (Q s).eval (C.breakTime T.w ph s)) := by
    rw [hW (fun s => Polynomial.C (M.halfWidth T ph s)⁻¹ * (Q s).comp (M.clockPoly T ph s)) (M.halfWidth T ph) v']
    · apply Finset.sum_congr rfl
      intro s hs
      have hs := Finset.mem_range.1 hs
      have hne := (htb s hs).1.ne'
      simp only [eval_mul, eval_C, (M.clockPoly_comp T ph s (Q s) _).1, ← (hbr s).1, ← (hbr s).2]
      field_simp
    · intro s hs
      have hne := (htb s hs).1.ne'
      have : derivative (Polynomial.C (M.halfWidth T ph s)⁻¹ * (Q s).comp (M.clockPoly T ph s)) =
          (derivative (Q s)).comp (M.clockPoly T ph s) := by
        apply Polynomial.funext
        intro r
        rw [derivative_C_mul, eval_mul, eval_C, (M.clockPoly_comp T ph s (Q s) r).2.1,
          (M.clockPoly_comp T ph s _ r).1]
        field_simp
      rw [this]
      exact (M.clockPoly_comp T ph s (derivative (Q s)) 0).2.2.trans (hQ s hs).1
    · intro s hs i hi ho
      have hi : i ≤ M.order s := by rw [Mesh.order_eq hs]; exact hi
      have hne := (htb s hs).1.ne'
      change v' (M.idx s i) = _
      rw [hv' s i ⟨hs, hi, ho⟩, hnode s hs]
      beta_reduce
      rw [derivative_C_mul, eval_mul, eval_C, (M.clockPoly_comp T ph s (Q s) _).2.1]
      field_simp
  have h2 : weightedSum W d = q * (C.tf ph - C.t0 ph) := by
    rw [hW (fun s => Polynomial.C q * X) (M.halfWidth T ph) d]
    · simp only [eval_mul, eval_C, eval_X]
      have : ∀ s ∈ Finset.range M.orders.length, M.halfWidth T ph s * (q * M.tau1 - q * M.tau0) =
          q * (C.breakTime T.w ph (s + 1) - C.breakTime T.w ph s) := by
        intro s _
        rw [(hbr s).1, (hbr s).2]; unfold Mesh.time; ring
      rw [Finset.sum_congr rfl this, ← Finset.mul_sum, Finset.sum_range_sub (C.breakTime T.w ph)]
      unfold CTraj.breakTime
      rw [(hw ph hp).sum]; simp
    · intro s hs
      simp
    · intro s hs i hi ho
      have hi : i ≤ M.order s := by rw [Mesh.order_eq hs]; exact hi
      change d (M.idx s i) = _
      rw [hd s i ⟨hs, hi, ho⟩]
      simp
  have h3 : |weightedSum W (v ph) - weightedSum W v'| ≤ q * (C.tf ph - C.t0 ph) := by
    rw [← h2]
    refine weightedSum_near hW0 fun k hk => ?_
    obtain ⟨s, i, ho, rfl⟩ := M.exists_owner hM.nonempty (hWl ▸ hk)
    have hl : ph < ocp.runningCosts.length := by omega
    rw [hv ph hp _ (List.getElem?_eq_getElem hl) s i ho, hv' s i ho, hd s i ho, hT.pArg hp ho, ← mul_sub, abs_mul,
      abs_of_pos (htb s ho.1).1]
    refine mul_le_mul_of_nonneg_left ?_ (htb s ho.1).1.le
    have := (hQ s ho.1).2 _ (hown s i ho)
    simp only [hg, List.getD_eq_getElem _ _ hl] at this
    exact this
  -- the integral
  have e0 : C.breakTime T.w ph 0 = C.t0 ph := by simp [CTraj.breakTime]
  have e1 : C.breakTime T.w ph M.orders.length = C.tf ph := by
    unfold CTraj.breakTime; rw [(hw ph hp).sum]; ring
  have hgi : ∀ s < M.orders.length, IntervalIntegrable g MeasureTheory.volume (C.breakTime T.w ph s) (C.breakTime T.w ph (s + 1)) := by
    intro s hs
    refine (hint ph hp).mono_set ?_
    rw [Set.uIcc_of_le (hb s hs).le, Set.uIcc_of_le (ht ph hp).le]
    exact Set.Icc_subset_Icc (hbin s hs.le).1 (hbin (s + 1) hs).2
  have h4 : |weightedSum W v' - ∫ t in (C.t0 ph)..(C.tf ph), g t| ≤ q * (C.tf ph - C.t0 ph) := by
    rw [h1, ← e0, ← e1, ← intervalIntegral.sum_integral_adjacent_intervals hgi, ← Finset.sum_sub_distrib]
    refine (Finset.abs_sum_le_sum_abs _ _).trans ?_
    rw [← Finset.sum_range_sub (C.breakTime T.w ph), Finset.mul_sum]
    refine Finset.sum_le_sum fun s hs => ?_
    have hs := Finset.mem_range.1 hs
    have e2 : (Q s).eval (C.breakTime T.w ph (s + 1)) - (Q s).eval (C.breakTime T.w ph s) =
        ∫ t in (C.breakTime T.w ph s)..(C.breakTime T.w ph (s + 1)), (derivative (Q s)).eval t := by
      rw [intervalIntegral.integral_eq_sub_of_hasDerivAt (f := fun t => (Q s).eval t) (fun x _ => (Q s).hasDerivAt x)
        ((derivative (Q s)).continuous.intervalIntegrable _ _)]
    rw [e2, ← intervalIntegral.integral_sub ((derivative (Q s)).continuous.intervalIntegrable _ _) (hgi s hs)]
    have := intervalIntegral.norm_integral_le_of_norm_le_const (a := C.breakTime T.w ph s) (b := C.breakTime T.w ph (s + 1))
      (f := fun t => (derivative (Q s)).eval t - g t) (C := q) (fun t ht' => by
        rw [Set.uIoc_of_le (hb s hs).le] at ht'
        rw [Real.norm_eq_abs, abs_sub_comm]
        exact (hQ s hs).2 t ⟨ht'.1.le, ht'.2, .inr ht'.1⟩)
    rwa [Real.norm_eq_abs, abs_of_pos (sub_pos.2 (hb s hs))] at this
  calc |weightedSum W (v ph) - ∫ t in (C.t0 ph)..(C.tf ph), g t|
      ≤ q * (C.tf ph - C.t0 ph) + q * (C.tf ph - C.t0 ph) := (abs_sub_le _ (weightedSum W v') _).trans (add_le_add h3 h4)
    _ = 2 * q * (C.tf ph - C.t0 ph) := by ring

/-! ## Powers of the number of segments -/

/-- `n` segments of equal width. -/
theorem equal_breaks (hM : M.Good) (hI : M.Inside) (hT : Samples ocp M C T) (hp : ph < ocp.nPhases) (ht : C.t0 ph < C.tf ph)
    (hw : ∀ s < M.orders.length, T.w s ph = 1 / (M.orders.length : ℝ)) {B : ℝ} (hB : C.tf ph - C.t0 ph ≤ B) :
    FullWidths M T ph ∧ M.Lasts T ph (B / M.orders.length) ∧
      BreaksIn (C.t0 ph) (C.tf ph) M.orders.length (B / M.orders.length) (C.breakTime T.w ph) := by
  have hn0 : 0 < M.orders.length := List.length_pos_iff.2 hM.nonempty
  have hnr : (0 : ℝ) < M.orders.length := by exact_mod_cast hn0
  have hf : FullWidths M T ph := by
    refine ⟨fun s hs => by rw [hw s hs]; positivity, ?_⟩
    rw [Finset.sum_congr rfl fun s hs => hw s (Finset.mem_range.1 hs), Finset.sum_const, Finset.card_range, nsmul_eq_mul]
    field_simp
  obtain ⟨h1, h2⟩ := segment_breaks hM hI hT hp ht hf
  have hlast : M.Lasts T ph (B / M.orders.length) := by
    intro s hs
    rw [hw s hs, mul_one_div, hT.t0 ph hp, hT.tf ph hp]
    exact div_le_div_of_nonneg_right hB hnr.le
  refine ⟨hf, hlast, fun s hs => ⟨h1 s hs, ?_⟩, h2⟩
  have e : C.breakTime T.w ph (s + 1) - C.breakTime T.w ph s = (T.tf ph - T.t0 ph) * T.w s ph := by
    unfold CTraj.breakTime
    rw [Finset.sum_range_succ, hT.t0 ph hp, hT.tf ph hp]; ring
  rw [e]
  exact hlast s hs

/-- **C101** On `n` segments of equal width and of order at least `p`, nodes of any scheme, the node values of a solution of the
continuous-time problem solve the collocated problem up to `c / n ^ (p + 1)`, when rates along it have `p` continuous derivatives. -/
theorem C101_nodes (hv : ValidOCP ocp) (hsc : ocp.PosScales) (hC : SolvesContinuously ocp C) {p q : Nat} (hp1 : 1 ≤ p)
    (hS : MotionSmooth ocp C p q) (hl : ∀ l ∈ ocp.phaseLinks, l.1 < ocp.nPhases ∧ l.2 < ocp.nPhases)
    (hdu : ∀ ph < ocp.nPhases, ocp.duContinuity.getD ph false = false)
    (hdf : ∀ ph < ocp.nPhases, ocp.diffU.getD ph false = false) {lo hi : ℝ} (hlt : lo < hi) (taus : Nat → Py (List ℝ))
    {P : List Nat} (hP : ∀ r ∈ P, p ≤ r) :
    ∃ c, 0 ≤ c ∧ ∀ (M : Mesh ℝ) (T : Traj ℝ), MeshOf lo hi taus P M → Samples ocp M C T →
      (∀ ph < ocp.nPhases, ∀ s < M.orders.length, T.w s ph = 1 / (M.orders.length : ℝ)) →
      SolvesTo 0 (c / (M.orders.length : ℝ) ^ (p + 1)) ocp M T := by
  obtain ⟨D, A, hD0, hA0, hDA⟩ := C83_bounds lo hi taus P
  obtain ⟨B, hB0, hB⟩ := exists_longest ocp C
  obtain ⟨p, rfl⟩ : ∃ k, p = k + 1 := ⟨p - 1, by omega⟩
  -- rates
  obtain ⟨K1, k10, k1⟩ : ∃ K, 0 ≤ K ∧ ∀ ph < ocp.nPhases, ∀ F, ocp.dynamics[ph]? = some F → ∀ j < ocp.nx,
      ∀ (n : Nat) (b : Nat → ℝ) (H : ℝ) (deg : Nat → Nat), 0 ≤ H → BreaksIn (C.t0 ph) (C.tf ph) n H b → (∀ s < n, p ≤ deg s) →
        FitsClosed n deg b (fun t => ocp.scaleX.getD j 0 * F.f (ocp.cArg C ph t) j) (K * H ^ (p + 1)) := by
    refine exists_uniform (fun ph K K' hK h F hF j hj n b H deg hH hb hd => (h F hF j hj n b H deg hH hb hd).mono
      (mul_le_mul_of_nonneg_right hK (by positivity))) fun ph hp => ?_
    have hF : ocp.dynamics[ph]? = some (ocp.dynamics[ph]'(by rw [hv.dynamics]; exact hp)) := List.getElem?_eq_getElem _
    obtain ⟨K, h0, h⟩ := exists_uniform (n := ocp.nx) (p := fun j K => ∀ (n : Nat) (b : Nat → ℝ) (H : ℝ) (deg : Nat → Nat), 0 ≤ H →
      BreaksIn (C.t0 ph) (C.tf ph) n H b → (∀ s < n, p ≤ deg s) →
        FitsClosed n deg b (fun t => ocp.scaleX.getD j 0 *
          (ocp.dynamics[ph]'(by rw [hv.dynamics]; exact hp)).f (ocp.cArg C ph t) j) (K * H ^ (p + 1)))
      (fun j K K' hK h n b H deg hH hb hd => (h n b H deg hH hb hd).mono (mul_le_mul_of_nonneg_right hK (by positivity)))
      (fun j hj => by
        obtain ⟨K, h0, h⟩ := smooth_fits (hC.phase ph hp).order
          (contDiffOn_const (c := ocp.scaleX.getD j 0) |>.mul (hS.rates ph hp _ hF j hj))
        exact ⟨K, h0, fun n b H deg _ hb hd => h n b H deg hb hd⟩)
    refine ⟨K, h0, fun F hF' j hj => ?_⟩
    rw [hF] at hF'
    cases hF'
    exact h j hj
  -- controls
  obtain ⟨K2, k20, k2⟩ : ∃ K, 0 ≤ K ∧ ∀ ph < ocp.nPhases, ocp.midu.getD ph false = true → ∀ j < ocp.nu,
      ∀ (n : Nat) (b : Nat → ℝ) (H : ℝ) (deg : Nat → Nat), 0 ≤ H → BreaksIn (C.t0 ph) (C.tf ph) n H b →
        (∀ s < n, p + 1 ≤ deg s) →
        FitsClosed n deg b (fun t => ocp.scaleU.getD j 0 * C.u ph j t) (K * H ^ (p + 1 + 1)) := by
    refine exists_uniform (fun ph K K' hK h hm j hj n b H deg hH hb hd => (h hm j hj n b H deg hH hb hd).mono
      (mul_le_mul_of_nonneg_right hK (by positivity))) fun ph hp => ?_
    by_cases hm : ocp.midu.getD ph false = true
    · obtain ⟨K, h0, h⟩ := exists_uniform (n := ocp.nu) (p := fun j K => ∀ (n : Nat) (b : Nat → ℝ) (H : ℝ) (deg : Nat → Nat), 0 ≤ H →
        BreaksIn (C.t0 ph) (C.tf ph) n H b → (∀ s < n, p + 1 ≤ deg s) →
          FitsClosed n deg b (fun t => ocp.scaleU.getD j 0 * C.u ph j t) (K * H ^ (p + 1 + 1)))
        (fun j K K' hK h n b H deg hH hb hd => (h n b H deg hH hb hd).mono (mul_le_mul_of_nonneg_right hK (by positivity)))
        (fun j hj => by
          obtain ⟨K, h0, h⟩ := smooth_fits (hC.phase ph hp).order
            (contDiffOn_const (c := ocp.scaleU.getD j 0) |>.mul (hS.controls ph hp hm j hj))
          exact ⟨K, h0, fun n b H deg _ hb hd => h n b H deg hb hd⟩)
      exact ⟨K, h0, fun _ => h⟩
    · exact ⟨0, le_rfl, fun h => absurd h hm⟩
  have hlt' := sub_pos.2 hlt
  set c1 := (D + 1 / (hi - lo)) * K1 * B ^ (p + 2) with hc1
  set c2 := (A + 1) * K2 * B ^ (p + 2) with hc2
  have hc10 : 0 ≤ c1 := by positivity
  have hc20 : 0 ≤ c2 := by positivity
  refine ⟨c1 + c2, add_nonneg hc10 hc20, fun M T hm hT hw => ?_⟩
  have hM := hm.good
  have hI : M.Inside := hm.inside
  set n := M.orders.length with hn
  have hn0 : 0 < n := List.length_pos_iff.2 hM.nonempty
  have hnr : (0 : ℝ) < n := by exact_mod_cast hn0
  have hbr := fun ph hp => equal_breaks hM hI hT hp (hC.phase ph hp).order (hw ph hp) (hB ph hp)
  have hord : ∀ s < n, p + 1 ≤ M.order s := fun s hs => hP _ (hm.allowed _ (hM.order_mem hs))
  have hH0 : 0 ≤ B / n := by positivity
  refine C101_consistent hv hsc hM hI hC hl hT (fun ph hp => (hbr ph hp).1) (hDA M hm).1 (hDA M hm).2
    (ω := K1 * (B / n) ^ (p + 1)) (e := K2 * (B / n) ^ (p + 1 + 1)) (H := B / n)
    (fun ph hp F hF j hj => (k1 ph hp F hF j hj n _ _ _ hH0 (hbr ph hp).2.2 fun s hs => ?_).fits)
    (fun ph hp hmid j hj => k2 ph hp hmid j hj n _ _ _ hH0 (hbr ph hp).2.2 hord)
    (fun ph hp => (hbr ph hp).2.1) (by positivity) ?_ (fun _ => ?_) hdu hdf
  · have := hord s hs
    omega
  · have : (D + 1 / (M.tau1 - M.tau0)) * (K1 * (B / n) ^ (p + 1)) * (B / n) = c1 / (n : ℝ) ^ (p + 2) := by
      rw [hm.tau0, hm.tau1, hc1, div_pow, show p + 2 = p + 1 + 1 from rfl, pow_succ _ (p + 1), pow_succ _ (p + 1)]; field_simp
    rw [this]
    exact div_le_div_of_nonneg_right (by linarith) (by positivity)
  · have : (A + 1) * (K2 * (B / n) ^ (p + 1 + 1)) = c2 / (n : ℝ) ^ (p + 2) := by
      rw [hc2, div_pow, show p + 1 + 1 = p + 2 from rfl]; ring
    rw [this]
    exact div_le_div_of_nonneg_right (by linarith) (by positivity)

/-- **C101** With LGR nodes of order at least `p`, and at least 2, the cost of these node values is the true cost up to
`c / n ^ (2 p - 1)`, when running costs along the motion have `2 p - 1` continuous derivatives. -/
theorem C101_lgr_cost (hv : ValidOCP ocp) {p : Nat} (hp1 : 1 ≤ p) (ht : ∀ ph < ocp.nPhases, C.t0 ph < C.tf ph)
    (hS : ∀ ph < ocp.nPhases, ContDiffOn ℝ (2 * p - 1 : Nat)
      (fun t => ocp.runningCosts.getD ph (fun _ => 0) (ocp.cArg C ph t)) (Set.Icc (C.t0 ph) (C.tf ph)))
    {V : Type} {w : Outside ℝ V} (hlt : w.tau0 < w.tau1) :
    ∃ c, 0 ≤ c ∧ ∀ (n : Nat) (arg : OrdersArg) (M : Mesh ℝ) (T : Traj ℝ) (W : List ℝ) (J : ℝ), MeshFor w "LGR" n arg M →
      (∀ r ∈ M.orders, 2 ≤ r ∧ p ≤ r ∧ IsJacobiRoots 1 0 (r - 1) (w.lib.jroots (r - 1) 1 0)) → Samples ocp M C T →
      (∀ ph < ocp.nPhases, ∀ s < M.orders.length, T.w s ph = 1 / (M.orders.length : ℝ)) →
      compQuadWeights ⟨w.method, w.tau0, w.tau1, tausFn w.lib w.tau0 w.tau1 "LGR"⟩ M.orders = .ok W → PhysCost ocp M W T J →
      |J - ocp.trueCost C| ≤ c / (M.orders.length : ℝ) ^ (2 * p - 1) := by
  obtain ⟨B, hB0, hB⟩ := exists_longest ocp C
  obtain ⟨k, hk⟩ : ∃ k, 2 * p - 1 = k + 1 := ⟨2 * p - 2, by omega⟩
  obtain ⟨K, k0, hK⟩ := exists_uniform (n := ocp.nPhases) (p := fun ph K => ∀ (n : Nat) (b : Nat → ℝ) (H : ℝ) (deg : Nat → Nat), 0 ≤ H →
      BreaksIn (C.t0 ph) (C.tf ph) n H b → (∀ s < n, k ≤ deg s) →
        FitsClosed n deg b (fun t => ocp.runningCosts.getD ph (fun _ => 0) (ocp.cArg C ph t)) (K * H ^ (k + 1)))
      (fun j K K' hK h n b H deg hH hb hd => (h n b H deg hH hb hd).mono (mul_le_mul_of_nonneg_right hK (by positivity)))
      (fun ph hp => by
        have := hS ph hp
        rw [hk] at this
        obtain ⟨K, h0, h⟩ := smooth_fits (ht ph hp) this
        exact ⟨K, h0, fun n b H deg _ hb hd => h n b H deg hb hd⟩)
  have hS0 : 0 ≤ ∑ ph ∈ Finset.range ocp.nPhases, (C.tf ph - C.t0 ph) :=
    Finset.sum_nonneg fun ph hp => (sub_pos.2 (ht ph (Finset.mem_range.1 hp))).le
  refine ⟨2 * (K * B ^ (k + 1)) * ∑ ph ∈ Finset.range ocp.nPhases, (C.tf ph - C.t0 ph), by positivity,
    fun n arg M T W J hM hr hT hw hW hJ => ?_⟩
  obtain ⟨hI, hint⟩ := C57_lgr_integrates hM hlt (fun r h => (hr r h).1) (fun r h => (hr r h).2.2) hW
  obtain ⟨ws, hWe, hWl, hWp⟩ := C67_lgr_composite w.lib w.method w.tau0 w.tau1 hlt (fun r h => (hr r h).1)
    (fun r h => (hr r h).2.2) hW
  set m := M.orders.length with hm
  have hm0 : 0 < m := List.length_pos_iff.2 hM.good.nonempty
  have hmr : (0 : ℝ) < m := by exact_mod_cast hm0
  have hbr := fun ph hp => equal_breaks hM.good hI hT hp (ht ph hp) (hw ph hp) (hB ph hp)
  have := C101_cost hM.good hI hint (by
      rw [hWe]; intro x hx
      rcases List.mem_cons.1 hx with rfl | hx
      · exact le_rfl
      · exact (hWp x hx).le) (by rw [hWe, List.length_cons, hWl]; rfl) hv.runningCosts hT (fun ph hp => (hbr ph hp).1) ht
    (fun ph hp => ContinuousOn.intervalIntegrable (by
      rw [Set.uIcc_of_le (ht ph hp).le]; exact (hS ph hp).continuousOn))
    (q := K * (B / m) ^ (k + 1))
    (fun ph hp => (hK ph hp m _ _ _ (by positivity) (hbr ph hp).2.2 fun s hs => by
      have := (hr _ (hM.good.order_mem hs)).2.1
      omega).fits) hJ
  refine this.trans (le_of_eq ?_)
  rw [hk, div_pow]
  ring

section
variable {V : Type} {w : Outside ℝ V}

/-- **C101** The module-level `solve` with `n` equal LGR segments of order at least `p ≥ 2`, and a solver that returns the best of the points
within its tolerances but for `η`: once the row tolerance is at least `c / n ^ (p + 1)`, the cost found exceeds that of a given smooth solution
of the continuous-time problem by at most `η + c / n ^ (2 p - 1)`, for every `n`. -/
theorem C101_solve (hv : ValidOCP ocp) (hs : ocp.SettingsOK) (hsc : ocp.PosScales) (hlt : w.tau0 < w.tau1) {p : Nat} (hp2 : 2 ≤ p)
    {P : List Nat} (hP : ∀ r ∈ P, p ≤ r ∧ IsJacobiRoots 1 0 (r - 1) (w.lib.jroots (r - 1) 1 0))
    (hdu : ∀ ph < ocp.nPhases, ocp.duContinuity.getD ph false = false)
    (hdf : ∀ ph < ocp.nPhases, ocp.diffU.getD ph false = false) (hC : SolvesContinuously ocp C)
    (hS : MotionSmooth ocp C p (2 * p - 1)) :
    ∃ c, 0 ≤ c ∧ ∀ (n : Nat) (arg : OrdersArg) (M : Mesh ℝ) (nlpsol : SolverCall ℝ V → Py (List ℝ))
      (ptp : List (List Nat)) (a : SolveArgs ℝ V) (rx rdx : Bool) (s : Session ℝ V) (o : Post ℝ)
      (r : Option (PyDict (ResidVal ℝ))) (εb ε η : ℝ),
      mpSolve w nlpsol ocp ptp n arg "LGR" a rx rdx = .ok (s, o, r) → MeshFor w "LGR" n arg M → M.orders.length = n →
      (∀ q ∈ M.orders, q ∈ P) → a.widths = none → 0 ≤ εb → c / (n : ℝ) ^ (p + 1) ≤ ε →
      (∀ c z, nlpsol c = .ok z → c.BestNear εb ε η z) →
      ∃ T W J, compQuadWeights ⟨w.method, w.tau0, w.tau1, tausFn w.lib w.tau0 w.tau1 "LGR"⟩ M.orders = .ok W ∧
        SolvesTo εb ε ocp M T ∧ WidthsAre ocp n none T ∧ o.Shows ocp M T ∧ PhysCost ocp M W T J ∧
        J ≤ ocp.trueCost C + c / (n : ℝ) ^ (2 * p - 1) + η := by
  obtain ⟨c1, c10, h1⟩ := C101_nodes hv hsc hC (by omega : 1 ≤ p) hS hs.linkRange hdu hdf hlt (tausFn w.lib w.tau0 w.tau1 "LGR")
    (P := P) fun r hr => (hP r hr).1
  obtain ⟨c2, c20, h2⟩ := C101_lgr_cost hv (by omega : 1 ≤ p) (fun ph hp => (hC.phase ph hp).order) hS.costs hlt
  refine ⟨c1 + c2, by positivity, fun n arg M nlpsol ptp a rx rdx s o r εb ε η hrun hM hn hord hnone hb hε hopt => ?_⟩
  obtain ⟨T, W, J, k1, k2, k3, k4, k5, k6⟩ := C84_solve_best hrun hv hs hsc hM hopt
  rw [hnone] at k3 k6
  refine ⟨T, W, J, k1, k2, k3, k4, k5, ?_⟩
  have hr : ∀ r ∈ M.orders, 2 ≤ r ∧ p ≤ r ∧ IsJacobiRoots 1 0 (r - 1) (w.lib.jroots (r - 1) 1 0) := fun r h =>
    ⟨hp2.trans (hP r (hord r h)).1, hP r (hord r h)⟩
  have hI := hM.lgr_inside hlt (fun q hq => (hr q hq).1) (fun q hq => (hr q hq).2.2)
  have hn0 : 0 < n := by rw [← hn]; exact List.length_pos_iff.2 hM.good.nonempty
  have hnr : (0 : ℝ) < n := by exact_mod_cast hn0
  obtain ⟨T', hT', hw'⟩ := exists_samples_of ocp M C fun _ _ => 1 / (n : ℝ)
  have hwid : WidthsAre ocp n none T' := fun ph hp s hs => by rw [hw']
  have hnear := h1 M T' ⟨hM.good, hI, hM.tau0, hM.tau1, hord, hM.nodes⟩ hT' (fun ph hp s hs => by rw [hw', hn])
  rw [hn] at hnear
  obtain ⟨J', hJ'⟩ : ∃ J', PhysCost ocp M W T' J' := exists_physCost ocp M W T'
  have hnear' : SolvesTo εb ε ocp M T' := hnear.mono hv hsc hb
    (le_trans (div_le_div_of_nonneg_right (by linarith) (by positivity)) hε)
  have l1 := k6 T' J' hnear' hwid hJ'
  have l2 := h2 n arg M T' W J' hM hr hT' (fun ph hp s hs => by rw [hw', hn]) k1 hJ'
  rw [hn] at l2
  have l3 : c2 / (n : ℝ) ^ (2 * p - 1) ≤ (c1 + c2) / (n : ℝ) ^ (2 * p - 1) :=
    div_le_div_of_nonneg_right (by linarith) (by positivity)
  linarith [(abs_le.1 l2).2]

end

end MPOpt
