import Verif.Spec.Consistency
import Verif.Props.FlownTo
import Mathlib.Analysis.Calculus.MeanValue

/-! # C83: node values of any smooth solution nearly solve the collocated problem -/

set_option autoImplicit false

namespace MPOpt
open Polynomial

/-- The mean value inequality with derivatives from the left. -/
theorem left_mvt {f f' : ℝ → ℝ} {a b c : ℝ} (hab : a ≤ b) (hf : ContinuousOn f (Set.Icc a b))
    (hd : ∀ t, a < t → t ≤ b → HasDerivWithinAt f (f' t) (Set.Iic t) t) (hc : ∀ t, a < t → t ≤ b → |f' t| ≤ c) :
    |f b - f a| ≤ c * (b - a) := by
  have hg : ContinuousOn (fun r => f (-r)) (Set.Icc (-b) (-a)) :=
    hf.comp continuous_neg.continuousOn fun r hr => ⟨by linarith [hr.2], by linarith [hr.1]⟩
  have := norm_image_sub_le_of_norm_deriv_right_le_segment (f' := fun r => -f' (-r)) (C := c) hg (fun r hr => by
    have h1 := hd (-r) (by linarith [hr.2]) (by linarith [hr.1])
    have h2 : HasDerivWithinAt (fun r : ℝ => -r) (-1) (Set.Ici r) r := (hasDerivAt_neg r).hasDerivWithinAt
    have h3 := h1.comp r h2 fun q hq => by simpa using hq
    simpa [Function.comp_def] using h3) (fun r hr => by
      rw [Real.norm_eq_abs, abs_neg]
      exact hc _ (by linarith [hr.2]) (by linarith [hr.1])) (-a) ⟨by linarith, le_rfl⟩
  simp only [neg_neg, Real.norm_eq_abs] at this
  rw [abs_sub_comm]
  convert this using 2
  ring

variable {M : Mesh ℝ}

/-- A piece is its straight line through node values plus an interpolant of the rest. -/
theorem Mesh.Good.piece_line (hM : M.Good) {s : Nat} (hs : s < M.orders.length) (v : Nat → ℝ) (c d tau : ℝ) :
    M.piece v s = Polynomial.C d * (X - Polynomial.C tau) + Polynomial.C c +
      Lagrange.interpolate (Finset.range (M.order s + 1)) (M.node s)
        fun k => v (M.idx s k) - (c + d * (M.node s k - tau)) := by
  have hp := hM.order_pos hs
  have hi := hM.node_injOn hs
  refine hM.piece_eq hs v _ ?_ fun k hk => ?_
  · refine (degree_add_le _ _).trans_lt (max_lt ?_ ?_)
    · have : (Polynomial.C d * (X - Polynomial.C tau) + Polynomial.C c : ℝ[X]) =
          Polynomial.C d * X + Polynomial.C (c - d * tau) := by simp; ring
      rw [this]
      refine degree_linear_le.trans_lt ?_
      exact_mod_cast (by omega : 1 < M.order s + 1)
    · have := Lagrange.degree_interpolate_lt (s := Finset.range (M.order s + 1)) (v := M.node s)
        (fun k => v (M.idx s k) - (c + d * (M.node s k - tau))) hi
      rwa [Finset.card_range] at this
  · rw [eval_add, Lagrange.eval_interpolate_at_node _ hi (Finset.mem_range.2 (by omega))]
    simp; ring

theorem abs_sum_mul_le {n : Nat} {a b : Nat → ℝ} {D E : ℝ} (hE : ∀ k < n, |a k| ≤ E) (h0 : 0 ≤ E)
    (hD : ∑ k ∈ Finset.range n, |b k| ≤ D) : |∑ k ∈ Finset.range n, a k * b k| ≤ D * E := by
  refine (Finset.abs_sum_le_sum_abs _ _).trans ?_
  calc ∑ k ∈ Finset.range n, |a k * b k| ≤ ∑ k ∈ Finset.range n, E * |b k| := by
        refine Finset.sum_le_sum fun k hk => ?_
        rw [abs_mul]
        exact mul_le_mul_of_nonneg_right (hE k (Finset.mem_range.1 hk)) (abs_nonneg _)
    _ = E * ∑ k ∈ Finset.range n, |b k| := by rw [Finset.mul_sum]
    _ ≤ E * D := mul_le_mul_of_nonneg_left hD h0
    _ = D * E := mul_comm _ _

/-- Slope of a piece at a node: that of a straight line, when the node values are near it. -/
theorem Mesh.Good.piece_slope (hM : M.Good) {D : ℝ} (hD : M.DerivBound D) {s i : Nat} (hs : s < M.orders.length)
    (hi : i ≤ M.order s) {v : Nat → ℝ} {d E : ℝ} (h0 : 0 ≤ E)
    (hE : ∀ k ≤ M.order s, |v (M.idx s k) - v (M.idx s i) - d * (M.node s k - M.node s i)| ≤ E) :
    |(derivative (M.piece v s)).eval (M.node s i) - d| ≤ D * E := by
  rw [hM.piece_line hs v (v (M.idx s i)) d (M.node s i), Lagrange.interpolate_apply]
  simp only [derivative_add, derivative_mul, derivative_C, derivative_sub, derivative_X, derivative_sum, eval_add, eval_mul,
    eval_C, eval_finsetSum, zero_mul, zero_add, sub_zero, mul_one, add_zero]
  rw [add_sub_cancel_left]
  refine abs_sum_mul_le (fun k hk => ?_) h0 (hD s hs i hi)
  rw [← sub_sub]
  exact hE k (by omega)

/-- Value of a piece: that of a straight line, when the node values are near it. -/
theorem Mesh.Good.piece_value (hM : M.Good) {A : ℝ} (hA : M.ValueBound A) {s : Nat} (hs : s < M.orders.length) {tau : ℝ}
    (htau : tau ∈ Set.Icc M.tau0 M.tau1) {v : Nat → ℝ} {c d E : ℝ} (h0 : 0 ≤ E)
    (hE : ∀ k ≤ M.order s, |v (M.idx s k) - c - d * (M.node s k - tau)| ≤ E) :
    |(M.piece v s).eval tau - c| ≤ A * E := by
  rw [hM.piece_line hs v c d tau, Lagrange.interpolate_apply]
  simp only [eval_add, eval_mul, eval_C, eval_finsetSum, eval_sub, eval_X, sub_self, mul_zero, zero_add]
  rw [add_sub_cancel_left]
  refine abs_sum_mul_le (fun k hk => ?_) h0 (hA s hs tau htau)
  rw [← sub_sub]
  exact hE k (by omega)

/-- **C83** For given nodes there are such bounds for all meshes with orders out of `P`, however many segments they have. -/
theorem C83_bounds (lo hi : ℝ) (taus : Nat → Py (List ℝ)) (P : List Nat) :
    ∃ D A, 0 ≤ D ∧ 0 ≤ A ∧ ∀ M : Mesh ℝ, MeshOf lo hi taus P M → M.DerivBound D ∧ M.ValueBound A := by
  set nd : Nat → Nat → ℝ := fun p i => (match taus p with
    | .ok l => l
    | .error _ => []).getD i 0 with hnd
  have hb : ∀ p, ∃ c, ∀ tau ∈ Set.Icc lo hi, ‖∑ k ∈ Finset.range (p + 1),
      |(derivative (Lagrange.basis (Finset.range (p + 1)) (nd p) k)).eval tau|‖ ≤ c := fun p =>
    isCompact_Icc.exists_bound_of_continuousOn
      (continuous_finsetSum _ fun i _ => (Polynomial.continuous _).abs).continuousOn
  have hb' : ∀ p, ∃ c, ∀ tau ∈ Set.Icc lo hi, ‖∑ k ∈ Finset.range (p + 1),
      |(Lagrange.basis (Finset.range (p + 1)) (nd p) k).eval tau|‖ ≤ c := fun p =>
    isCompact_Icc.exists_bound_of_continuousOn
      (continuous_finsetSum _ fun i _ => (Polynomial.continuous _).abs).continuousOn
  choose c hc using hb
  choose c' hc' using hb'
  have hsum : ∀ g : Nat → ℝ, 0 ≤ (P.map fun p => |g p|).sum := fun g =>
    List.sum_nonneg (by simp only [List.mem_map]; rintro _ ⟨p, -, rfl⟩; exact abs_nonneg _)
  have hle : ∀ (g : Nat → ℝ), ∀ p ∈ P, |g p| ≤ (P.map fun p => |g p|).sum := fun g p hp =>
    List.single_le_sum (by simp only [List.mem_map]; rintro _ ⟨p, -, rfl⟩; exact abs_nonneg _) _
      (List.mem_map.2 ⟨p, hp, rfl⟩)
  refine ⟨_, _, hsum c, hsum c', fun M h => ?_⟩
  have hn : ∀ s < M.orders.length, M.node s = nd (M.order s) ∧ M.order s ∈ P := by
    intro s hs
    have hm := h.good.order_mem hs
    refine ⟨?_, h.allowed _ hm⟩
    funext i
    simp only [hnd, h.nodes _ hm, Mesh.node]
  refine ⟨fun s hs i hi => ?_, fun s hs tau htau => ?_⟩
  · obtain ⟨e, hP⟩ := hn s hs
    have hI : M.Inside := h.inside
    have hin := hI.node h.good hs hi
    rw [h.tau0, h.tau1] at hin
    have := (le_abs_self _).trans ((hc (M.order s) _ hin).trans ((le_abs_self _).trans (hle c _ hP)))
    rwa [← e] at this
  · obtain ⟨e, hP⟩ := hn s hs
    rw [h.tau0, h.tau1] at htau
    have := (le_abs_self _).trans ((hc' (M.order s) _ htau).trans ((le_abs_self _).trans (hle c' _ hP)))
    rwa [← e] at this

variable {ocp : OCP ℝ} {C : CTraj} {T : Traj ℝ} {ph : Nat}

/-- Node values of a motion stay near its tangent at a time of the segment. -/
theorem near_tangent (hM : M.Good) (hI : M.Inside) (hT : Samples ocp M C T) (hp : ph < ocp.nPhases) (ht : C.t0 ph < C.tf ph)
    (hw : FullWidths M T ph) (hsc : ∀ j < ocp.nx, 0 < ocp.scaleX.getD j 0) (hC : DynamicsHold ocp C ph) {ω : ℝ}
    (hω : RatesVary ocp C M.orders.length T.w ph ω) {F : VFun (PArg ℝ) ℝ} (hF : ocp.dynamics[ph]? = some F) {j : Nat}
    (hj : j < ocp.nx) {s : Nat} (hs : s < M.orders.length) {tau : ℝ} (htau : tau ∈ Set.Icc M.tau0 M.tau1)
    (ho : s = 0 ∨ M.tau0 < tau) :
    0 ≤ ω ∧ ∀ k ≤ M.order s, |T.x ph (M.idx s k) j - C.x ph j (M.time T ph s tau) -
      M.halfWidth T ph s * F.f (ocp.cArg C ph (M.time T ph s tau)) j * (M.node s k - tau)| ≤
        ω * (M.halfWidth T ph s * (M.tau1 - M.tau0)) / ocp.scaleX.getD j 0 := by
  obtain ⟨b0, b1⟩ := breakTime_eq hM (hT.t0 ph hp) (hT.tf ph hp) s
  obtain ⟨hh, ht0, ht1⟩ := time_bounds (s := s) hM hI (by rw [hT.t0 ph hp, hT.tf ph hp]; exact ht) hw hs
  have hlt := sub_pos.2 (hI.tau_lt hM)
  set sc := ocp.scaleX.getD j 0 with hsc'
  have hs0 : 0 < sc := hsc j hj
  set b := C.breakTime T.w ph with hb
  set ti := M.time T ph s tau with hti
  have hown : OwnTime b s ti := by
    unfold OwnTime
    rw [b0, b1, hti]
    refine ⟨by unfold Mesh.time; nlinarith [htau.1], by unfold Mesh.time; nlinarith [htau.2], ho.imp id fun h => ?_⟩
    have := mul_pos hh (sub_pos.2 h)
    unfold Mesh.time; linarith
  have hω0 : 0 ≤ ω := by
    have := hω F hF j hj s hs _ _ hown hown
    exact (abs_nonneg _).trans this
  have hb0 : C.t0 ph ≤ b s := by
    rw [b0, ← hT.t0 ph hp]; exact ht0 _ le_rfl
  have hb1 : b (s + 1) ≤ C.tf ph := by
    rw [b1, ← hT.tf ph hp]; exact ht1 _ le_rfl
  -- the scaled state minus its tangent
  set fi := F.f (ocp.cArg C ph ti) j with hfi
  have key : ∀ t t', b s ≤ t → t ≤ t' → t' ≤ b (s + 1) →
      |sc * (C.x ph j t' - C.x ph j t - fi * (t' - t))| ≤ ω * (t' - t) := by
    intro t t' h1 h2 h3
    have := left_mvt (f := fun r => sc * (C.x ph j r - fi * r)) (f' := fun r => sc * (F.f (ocp.cArg C ph r) j - fi)) (c := ω) h2
      (by
        refine continuousOn_const.mul (((hC.continuous j hj).mono ?_).sub (continuousOn_const.mul continuousOn_id))
        exact Set.Icc_subset_Icc (hb0.trans h1) (h3.trans hb1))
      (fun r hr hr' => by
        have h4 := hC.left F hF j hj r (lt_of_le_of_lt (hb0.trans h1) hr) (hr'.trans (h3.trans hb1))
        have h5 : HasDerivWithinAt (fun r : ℝ => fi * r) fi (Set.Iic r) r := by
          simpa using (hasDerivAt_id r).const_mul fi |>.hasDerivWithinAt (s := Set.Iic r)
        exact (h4.sub h5).const_mul sc)
      (fun r hr hr' => hω F hF j hj s hs _ _ ⟨h1.trans hr.le, hr'.trans h3, .inr (lt_of_le_of_lt h1 hr)⟩ hown)
    convert this using 2
    ring
  have key' : ∀ t, b s ≤ t → t ≤ b (s + 1) → |sc * (C.x ph j t - C.x ph j ti - fi * (t - ti))| ≤ ω * |t - ti| := by
    intro t h1 h2
    rcases le_total t ti with h | h
    · have := key t ti h1 h hown.2.1
      rw [abs_sub_comm t ti, abs_of_nonneg (sub_nonneg.2 h), ← abs_neg]
      convert this using 2
      ring
    · have := key ti t hown.1 h h2
      rwa [abs_of_nonneg (sub_nonneg.2 h)]
  refine ⟨hω0, fun k hk => ?_⟩
  have e1 := samples_all hM (v := fun q => T.x ph q j) (hT.x ph hp j hj) hs hk
  obtain ⟨n0, n1⟩ := hI.node hM hs hk
  have ed : M.time T ph s (M.node s k) - ti = M.halfWidth T ph s * (M.node s k - tau) := by
    rw [hti]; unfold Mesh.time; ring
  have h1 := key' (M.time T ph s (M.node s k)) (by rw [b0]; unfold Mesh.time; nlinarith)
    (by rw [b1]; unfold Mesh.time; nlinarith)
  rw [e1, le_div_iff₀ hs0]
  rw [ed] at h1
  have h2 : |M.halfWidth T ph s * (M.node s k - tau)| ≤ M.halfWidth T ph s * (M.tau1 - M.tau0) := by
    rw [abs_mul, abs_of_pos hh]
    refine mul_le_mul_of_nonneg_left ?_ hh.le
    rw [abs_le]; constructor <;> linarith [htau.1, htau.2]
  refine le_trans (le_of_eq ?_) (h1.trans (mul_le_mul_of_nonneg_left h2 hω0))
  rw [abs_mul, abs_of_pos hs0, mul_comm]
  congr 2
  ring

/-- **C83** Along a motion whose rates vary by at most `ω` within a segment, the node values fail the collocation equations by at most
`D ω (tau1 - tau0)` per unit of time. -/
theorem C83_rate (hM : M.Good) (hI : M.Inside) (hT : Samples ocp M C T) (hp : ph < ocp.nPhases) (ht : C.t0 ph < C.tf ph)
    (hw : FullWidths M T ph) (hsc : ∀ j < ocp.nx, 0 < ocp.scaleX.getD j 0) (hC : DynamicsHold ocp C ph) {D ω : ℝ}
    (hD : M.DerivBound D) (hω : RatesVary ocp C M.orders.length T.w ph ω) :
    CollocationRate (D * ω * (M.tau1 - M.tau0)) ocp M T ph := by
  intro F hF j hj s i ho
  have hs0 := hsc j hj
  have hlt := sub_pos.2 (hI.tau_lt hM)
  have hh := (time_bounds (s := s) hM hI (by rw [hT.t0 ph hp, hT.tf ph hp]; exact ht) hw ho.1).1
  obtain ⟨hω0, hE⟩ := near_tangent hM hI hT hp ht hw hsc hC hω hF hj ho.1 (hI.node hM ho.1 ho.2.1)
    (ho.2.2.imp id fun h => hI.node_pos hM ho.1 ho.2.1 h)
  rw [← samples_all hM (v := fun q => T.x ph q j) (hT.x ph hp j hj) ho.1 ho.2.1] at hE
  have hE0 : 0 ≤ ω * (M.halfWidth T ph s * (M.tau1 - M.tau0)) / ocp.scaleX.getD j 0 := by positivity
  have := hM.piece_slope (v := fun q => T.x ph q j) hD ho.1 ho.2.1 hE0 hE
  rw [hT.pArg hp ho, abs_mul, abs_of_pos hs0]
  calc ocp.scaleX.getD j 0 * |(derivative (M.piece (fun k => T.x ph k j) s)).eval (M.node s i) -
        M.halfWidth T ph s * F.f (ocp.cArg C ph (M.time T ph s (M.node s i))) j|
      ≤ ocp.scaleX.getD j 0 * (D * (ω * (M.halfWidth T ph s * (M.tau1 - M.tau0)) / ocp.scaleX.getD j 0)) :=
        mul_le_mul_of_nonneg_left this hs0.le
    _ = M.halfWidth T ph s * (D * ω * (M.tau1 - M.tau0)) := by field_simp

theorem CollocationRate.to {κ H : ℝ} (h : CollocationRate κ ocp M T ph) (hsc : ∀ j < ocp.nx, 0 < ocp.scaleX.getD j 0)
    (hκ : 0 ≤ κ) (hH : ∀ s < M.orders.length, M.halfWidth T ph s ≤ H) : CollocationTo (H * κ) ocp M T ph := by
  intro F hF j hj s i ho
  have h1 := h F hF j hj s i ho
  rw [abs_mul, abs_of_pos (hsc j hj)] at h1
  rw [le_div_iff₀ (hsc j hj), mul_comm]
  exact h1.trans (mul_le_mul_of_nonneg_right (hH s ho.1) hκ)

/-- Controls between nodes. -/
theorem control_between (hM : M.Good) (hI : M.Inside) (hT : Samples ocp M C T) (hp : ph < ocp.nPhases) (ht : C.t0 ph < C.tf ph)
    (hw : FullWidths M T ph) {A e : ℝ} (hA : M.ValueBound A) (he : ControlsBend ocp C M.orders.length T.w ph e) {j : Nat}
    (hj : j < ocp.nu) (hsc : 0 < ocp.scaleU.getD j 0) {s : Nat} (hs : s < M.orders.length) {tau : ℝ}
    (htau : tau ∈ Set.Icc M.tau0 M.tau1) :
    |(M.piece (fun k => T.u ph k j) s).eval tau - C.u ph j (M.time T ph s tau)| ≤ A * (e / ocp.scaleU.getD j 0) := by
  obtain ⟨b0, b1⟩ := breakTime_eq hM (hT.t0 ph hp) (hT.tf ph hp) s
  obtain ⟨hh, ht0, ht1⟩ := time_bounds (s := s) hM hI (by rw [hT.t0 ph hp, hT.tf ph hp]; exact ht) hw hs
  have hin : ∀ q ∈ Set.Icc M.tau0 M.tau1,
      M.time T ph s q ∈ Set.Icc (C.breakTime T.w ph s) (C.breakTime T.w ph (s + 1)) := by
    intro q hq
    rw [b0, b1]
    exact ⟨by unfold Mesh.time; nlinarith [hq.1], by unfold Mesh.time; nlinarith [hq.2]⟩
  obtain ⟨d, hd⟩ := he j hj s hs _ (hin tau htau)
  have he0 : 0 ≤ e := (abs_nonneg _).trans (hd _ (hin tau htau))
  refine hM.piece_value (d := M.halfWidth T ph s * d) hA hs htau (by positivity) fun k hk => ?_
  have e1 := samples_all hM (v := fun q => T.u ph q j) (hT.u ph hp j hj) hs hk
  have h1 := hd _ (hin _ (hI.node hM hs hk))
  rw [e1, le_div_iff₀ hsc]
  refine le_trans (le_of_eq ?_) h1
  rw [abs_mul, abs_of_pos hsc, mul_comm]
  congr 2
  unfold Mesh.time
  ring

/-- **C83** Node values of a solution of the continuous-time problem solve the collocated problem, exactly but for the dynamics and
the controls between nodes. With rates that vary by at most `ω` within a segment and segments lasting at most `H`, the collocation
equations hold up to `D ω H`; with controls that stay within `e` of straight lines, control bounds half-way between nodes hold up to
`A e`. `D` and `A` depend on the nodes only. Bounds on control slopes and slope continuity are off. -/
theorem C83_consistent (hv : ValidOCP ocp) (hsc : ocp.PosScales) (hM : M.Good) (hI : M.Inside) (hC : SolvesContinuously ocp C)
    (hl : ∀ l ∈ ocp.phaseLinks, l.1 < ocp.nPhases ∧ l.2 < ocp.nPhases)
    (hT : Samples ocp M C T) (hw : ∀ ph < ocp.nPhases, FullWidths M T ph) {D A ω e H ε : ℝ} (hD : M.DerivBound D)
    (hA : M.ValueBound A) (hω : ∀ ph < ocp.nPhases, RatesVary ocp C M.orders.length T.w ph ω)
    (he : ∀ ph < ocp.nPhases, ocp.midu.getD ph false = true → ControlsBend ocp C M.orders.length T.w ph e)
    (hH : ∀ ph < ocp.nPhases, M.Lasts T ph H) (h0 : 0 ≤ ω) (hε : D * ω * H ≤ ε)
    (hε' : (∃ ph < ocp.nPhases, ocp.midu.getD ph false = true) → A * e ≤ ε)
    (hdu : ∀ ph < ocp.nPhases, ocp.duContinuity.getD ph false = false)
    (hdf : ∀ ph < ocp.nPhases, ocp.diffU.getD ph false = false) : SolvesTo 0 ε ocp M T := by
  have px : ∀ j < ocp.nx, 0 < ocp.scaleX.getD j 0 := fun j hj => getD_mem_ne hv.scaleX hsc.x hj
  have pu : ∀ j < ocp.nu, 0 < ocp.scaleU.getD j 0 := fun j hj => getD_mem_ne hv.scaleU hsc.u hj
  have hlt := sub_pos.2 (hI.tau_lt hM)
  have hD0 : 0 ≤ D := by
    have h1 : 0 < M.orders.length := List.length_pos_iff.2 hM.nonempty
    exact (Finset.sum_nonneg fun _ _ => abs_nonneg _).trans (hD 0 h1 0 (Nat.zero_le _))
  have hH0 : 0 ≤ H := by
    have h1 : 0 < M.orders.length := List.length_pos_iff.2 hM.nonempty
    refine le_trans ?_ (hH 0 hv.phases 0 h1)
    refine mul_nonneg ?_ ((hw 0 hv.phases).pos 0 h1).le
    rw [hT.t0 0 hv.phases, hT.tf 0 hv.phases]
    exact (sub_pos.2 (hC.phase 0 hv.phases).order).le
  have hε0 : 0 ≤ ε := le_trans (by positivity) hε
  obtain ⟨k1, k3, k4, k5⟩ := samples_nodes hM hI hC hl hT hw
  have hex : ∀ v : ℝ, |v| ≤ 0 ↔ v = 0 := fun v => abs_nonpos_iff
  refine ⟨fun ph hp => ?_, fun ph hp F hF j hj s i ho => ?_, fun ph hp F hF s i ho c hc => ?_, fun ph hp F hF c hc => ?_,
    fun ph hp hd => ?_, fun ph hp hm j hj s hs i hi => ?_, fun ph hp hd => ?_, fun _ => ?_⟩
  · obtain ⟨b1, b2, b3, b4, b5, b6⟩ := k1 ph hp
    refine ⟨?_, ?_, ?_, ?_, ?_, ?_⟩ <;> simp only [zero_div, withinTo_exact, hex, sub_eq_zero] <;> assumption
  · have h1 := C83_rate hM hI hT hp (hC.phase ph hp).order (hw ph hp) px (hC.phase ph hp).dynamics hD (hω ph hp)
    refine (h1.to px (by positivity) (H := H / (M.tau1 - M.tau0)) (fun s hs => ?_) F hF j hj s i ho).trans ?_
    · rw [le_div_iff₀ hlt]
      refine le_trans (le_of_eq ?_) (hH ph hp s hs)
      unfold Mesh.halfWidth
      field_simp
    · refine div_le_div_of_nonneg_right (le_trans (le_of_eq ?_) hε) (px j hj).le
      field_simp
  · exact (k3 ph hp F hF s i ho c hc).trans hε0
  · rw [k4 ph hp F hF c hc, abs_zero]; exact hε0
  · rw [hdf ph hp] at hd; cases hd
  · obtain ⟨m1, m2⟩ := hI.mid hM hs hi
    obtain ⟨-, ht0, ht1⟩ := time_bounds (s := s) hM hI
      (by rw [hT.t0 ph hp, hT.tf ph hp]; exact (hC.phase ph hp).order) (hw ph hp) hs
    have h1 := control_between hM hI hT hp (hC.phase ph hp).order (hw ph hp) hA (he ph hp hm) hj (pu j hj) hs ⟨m1.le, m2⟩
    have h2 := (hC.phase ph hp).u (M.time T ph s ((M.node s i + M.node s (i + 1)) / 2))
      ⟨by rw [← hT.t0 ph hp]; exact ht0 _ m1.le, by rw [← hT.tf ph hp]; exact ht1 _ m2⟩ j hj
    have h2' : WithinTo (0 / ocp.scaleU.getD j 0) (entry ocp.lbu ph j .nan) (entry ocp.ubu ph j .nan)
        (C.u ph j (M.time T ph s ((M.node s i + M.node s (i + 1)) / 2))) := by
      rw [zero_div, withinTo_exact]; exact h2
    have h3 : A * (e / ocp.scaleU.getD j 0) ≤ ε / ocp.scaleU.getD j 0 := by
      rw [← mul_div_assoc]
      exact div_le_div_of_nonneg_right (hε' ⟨ph, hp, hm⟩) (pu j hj).le
    have := h2'.shift (pu j hj) (v' := (M.piece (fun k => T.u ph k j) s).eval ((M.node s i + M.node s (i + 1)) / 2)) (d := ε) ?_
    · simpa using this
    · rw [abs_mul, abs_of_pos (pu j hj)]
      have := mul_le_mul_of_nonneg_left (h1.trans h3) (pu j hj).le
      rwa [mul_div_cancel₀ _ (pu j hj).ne'] at this
  · rw [hdu ph hp] at hd; cases hd
  · obtain ⟨b1, b2, b3⟩ := k5
    refine ⟨fun k p q h j hj => ?_, fun k p q h j hj => ?_, fun k p q h => ?_⟩
    · exact ((withinTo_exact _ _ _).2 (b1 k p q h j hj)).mono (div_nonneg hε0 (px j hj).le)
    · rw [b2 k p q h j hj, sub_self, abs_zero]; exact div_nonneg hε0 (pu j hj).le
    · rw [b3 k p q h, sub_self, abs_zero]; exact div_nonneg hε0 hsc.t.le

/-! ## Fine meshes -/

/-- A continuous function of time varies little over short times. -/
theorem varies_little {g : ℝ → ℝ} {a b : ℝ} (hg : ContinuousOn g (Set.Icc a b)) {ν : ℝ} (hν : 0 < ν) :
    ∃ ρ, 0 < ρ ∧ ∀ t ∈ Set.Icc a b, ∀ t' ∈ Set.Icc a b, |t - t'| ≤ ρ → |g t - g t'| ≤ ν := by
  obtain ⟨δ, h0, h⟩ := Metric.uniformContinuousOn_iff.1 (isCompact_Icc.uniformContinuousOn_of_continuous hg) ν hν
  refine ⟨δ / 2, by positivity, fun t ht t' ht' hd => ?_⟩
  have := h t ht t' ht' (by rw [Real.dist_eq]; linarith)
  rw [Real.dist_eq] at this
  exact this.le

/-- The smallest of finitely many positive numbers. -/
theorem exists_least {n : Nat} {p : Nat → ℝ → Prop} (h : ∀ k < n, ∃ ρ, 0 < ρ ∧ ∀ r, 0 < r → r ≤ ρ → p k r) :
    ∃ ρ, 0 < ρ ∧ ∀ k < n, ∀ r, 0 < r → r ≤ ρ → p k r := by
  induction n with
  | zero => exact ⟨1, one_pos, by simp⟩
  | succ n ih =>
    obtain ⟨ρ, h0, h1⟩ := ih fun k hk => h k (by omega)
    obtain ⟨ρ', h0', h1'⟩ := h n (by omega)
    refine ⟨min ρ ρ', lt_min h0 h0', fun k hk r hr hr' => ?_⟩
    rcases Nat.lt_succ_iff_lt_or_eq.1 hk with hk | rfl
    · exact h1 k hk r hr (hr'.trans (min_le_left _ _))
    · exact h1' r hr (hr'.trans (min_le_right _ _))

/-- Segments of fine samples. -/
theorem segment_times (hM : M.Good) (hI : M.Inside) (hT : Samples ocp M C T) (hp : ph < ocp.nPhases) (ht : C.t0 ph < C.tf ph)
    (hw : FullWidths M T ph) {H : ℝ} (hH : M.Lasts T ph H) {s : Nat} (hs : s < M.orders.length) {t t' : ℝ}
    (h : t ∈ Set.Icc (C.breakTime T.w ph s) (C.breakTime T.w ph (s + 1)))
    (h' : t' ∈ Set.Icc (C.breakTime T.w ph s) (C.breakTime T.w ph (s + 1))) :
    t ∈ Set.Icc (C.t0 ph) (C.tf ph) ∧ |t - t'| ≤ H := by
  obtain ⟨b0, b1⟩ := breakTime_eq hM (hT.t0 ph hp) (hT.tf ph hp) s
  obtain ⟨hh, ht0, ht1⟩ := time_bounds (s := s) hM hI (by rw [hT.t0 ph hp, hT.tf ph hp]; exact ht) hw hs
  have e : C.breakTime T.w ph (s + 1) - C.breakTime T.w ph s = (T.tf ph - T.t0 ph) * T.w s ph := by
    unfold CTraj.breakTime
    rw [Finset.sum_range_succ, hT.t0 ph hp, hT.tf ph hp]; ring
  have := hH s hs
  refine ⟨⟨?_, ?_⟩, ?_⟩
  · refine le_trans ?_ h.1
    rw [b0, ← hT.t0 ph hp]; exact ht0 _ le_rfl
  · refine h.2.trans ?_
    rw [b1, ← hT.tf ph hp]; exact ht1 _ le_rfl
  · rw [abs_le]; constructor <;> linarith [h.1, h.2, h'.1, h'.2]

/-- A smooth motion changes little within short segments. -/
theorem SmoothMotion.fine (hv : ValidOCP ocp) (hsc : ocp.PosScales) (hC : ∀ ph < ocp.nPhases, C.t0 ph < C.tf ph)
    (hS : SmoothMotion ocp C) (lo hi : ℝ) (taus : Nat → Py (List ℝ)) (P : List Nat) {ω q : ℝ} (hω0 : 0 < ω) (hq0 : 0 < q) :
    ∃ ρ, 0 < ρ ∧ ∀ (M : Mesh ℝ) (T : Traj ℝ) (H : ℝ), FineSamples ocp lo hi taus P ρ C M T →
      (∀ ph < ocp.nPhases, M.Lasts T ph H) → 0 ≤ H ∧ (∀ ph < ocp.nPhases, RatesVary ocp C M.orders.length T.w ph ω) ∧
      ∀ ph < ocp.nPhases, ocp.midu.getD ph false = true → ControlsBend ocp C M.orders.length T.w ph (q * H) := by
  have px : ∀ j < ocp.nx, 0 < ocp.scaleX.getD j 0 := fun j hj => getD_mem_ne hv.scaleX hsc.x hj
  have pu : ∀ j < ocp.nu, 0 < ocp.scaleU.getD j 0 := fun j hj => getD_mem_ne hv.scaleU hsc.u hj
  -- rates
  obtain ⟨ρ1, r10, r1⟩ : ∃ ρ, 0 < ρ ∧ ∀ ph < ocp.nPhases, ∀ r, 0 < r → r ≤ ρ → ∀ F, ocp.dynamics[ph]? = some F → ∀ j < ocp.nx,
      ∀ t ∈ Set.Icc (C.t0 ph) (C.tf ph), ∀ t' ∈ Set.Icc (C.t0 ph) (C.tf ph), |t - t'| ≤ r →
        |ocp.scaleX.getD j 0 * (F.f (ocp.cArg C ph t) j - F.f (ocp.cArg C ph t') j)| ≤ ω := by
    refine exists_least fun ph hp => ?_
    have hF : ocp.dynamics[ph]? = some (ocp.dynamics[ph]'(by rw [hv.dynamics]; exact hp)) := List.getElem?_eq_getElem _
    obtain ⟨ρ, h0, h⟩ := exists_least (n := ocp.nx) (p := fun j r => ∀ t ∈ Set.Icc (C.t0 ph) (C.tf ph),
      ∀ t' ∈ Set.Icc (C.t0 ph) (C.tf ph), |t - t'| ≤ r →
        |ocp.scaleX.getD j 0 * ((ocp.dynamics[ph]'(by rw [hv.dynamics]; exact hp)).f (ocp.cArg C ph t) j -
          (ocp.dynamics[ph]'(by rw [hv.dynamics]; exact hp)).f (ocp.cArg C ph t') j)| ≤ ω) (fun j hj => by
      obtain ⟨ρ, h0, h⟩ := varies_little (hS.rates ph hp _ hF j hj) (div_pos hω0 (px j hj))
      refine ⟨ρ, h0, fun r hr hr' t ht t' ht' hd => ?_⟩
      have := h t ht t' ht' (hd.trans hr')
      rw [abs_mul, abs_of_pos (px j hj), mul_comm]
      rwa [le_div_iff₀ (px j hj)] at this)
    refine ⟨ρ, h0, fun r hr hr' F hF' j hj => ?_⟩
    rw [hF] at hF'
    cases hF'
    exact h j hj r hr hr'
  -- controls
  obtain ⟨ρ2, r20, r2⟩ : ∃ ρ, 0 < ρ ∧ ∀ ph < ocp.nPhases, ∀ r, 0 < r → r ≤ ρ → ocp.midu.getD ph false = true → ∀ j < ocp.nu,
      ∃ d : ℝ → ℝ, (∀ t ∈ Set.Icc (C.t0 ph) (C.tf ph),
        HasDerivWithinAt (C.u ph j) (d t) (Set.Icc (C.t0 ph) (C.tf ph)) t) ∧
      ∀ t ∈ Set.Icc (C.t0 ph) (C.tf ph), ∀ t' ∈ Set.Icc (C.t0 ph) (C.tf ph), |t - t'| ≤ r →
        |ocp.scaleU.getD j 0 * (d t - d t')| ≤ q := by
    refine exists_least fun ph hp => ?_
    by_cases hm : ocp.midu.getD ph false = true
    · obtain ⟨ρ, h0, h⟩ := exists_least (n := ocp.nu) (p := fun j r => ∃ d : ℝ → ℝ, (∀ t ∈ Set.Icc (C.t0 ph) (C.tf ph),
          HasDerivWithinAt (C.u ph j) (d t) (Set.Icc (C.t0 ph) (C.tf ph)) t) ∧
        ∀ t ∈ Set.Icc (C.t0 ph) (C.tf ph), ∀ t' ∈ Set.Icc (C.t0 ph) (C.tf ph), |t - t'| ≤ r →
          |ocp.scaleU.getD j 0 * (d t - d t')| ≤ q) (fun j hj => by
        obtain ⟨d, hd, hd'⟩ := hS.controls ph hp hm j hj
        obtain ⟨ρ, h0, h⟩ := varies_little hd (div_pos hq0 (pu j hj))
        refine ⟨ρ, h0, fun r hr hr' => ⟨d, hd', fun t ht t' ht' hd => ?_⟩⟩
        have := h t ht t' ht' (hd.trans hr')
        rw [abs_mul, abs_of_pos (pu j hj), mul_comm]
        rwa [le_div_iff₀ (pu j hj)] at this)
      exact ⟨ρ, h0, fun r hr hr' _ j hj => h j hj r hr hr'⟩
    · exact ⟨1, one_pos, fun _ _ _ h => absurd h hm⟩
  refine ⟨min ρ1 ρ2, lt_min r10 r20, ?_⟩
  rintro M T H ⟨hm, hT, hw, hρ⟩ hH
  have hM := hm.good
  have hI : M.Inside := hm.inside
  have hord := hC
  have hρ0 : 0 < min ρ1 ρ2 := lt_min r10 r20
  have hH0 : 0 ≤ H := by
    have h1 : 0 < M.orders.length := List.length_pos_iff.2 hM.nonempty
    refine le_trans ?_ (hH 0 hv.phases 0 h1)
    refine mul_nonneg ?_ ((hw 0 hv.phases).pos 0 h1).le
    rw [hT.t0 0 hv.phases, hT.tf 0 hv.phases]
    exact (sub_pos.2 (hord 0 hv.phases)).le
  refine ⟨hH0, ?_, ?_⟩
  · intro ph hp F hF j hj s hs t t' ht ht'
    obtain ⟨a1, a2⟩ := segment_times hM hI hT hp (hord ph hp) (hw ph hp) (hρ ph hp) hs ⟨ht.1, ht.2.1⟩ ⟨ht'.1, ht'.2.1⟩
    obtain ⟨a3, -⟩ := segment_times hM hI hT hp (hord ph hp) (hw ph hp) (hρ ph hp) hs ⟨ht'.1, ht'.2.1⟩ ⟨ht.1, ht.2.1⟩
    exact r1 ph hp _ hρ0 (min_le_left _ _) F hF j hj t a1 t' a3 a2
  · intro ph hp hmid j hj s hs t ht
    obtain ⟨d, d1, d2⟩ := r2 ph hp _ hρ0 (min_le_right _ _) hmid j hj
    refine ⟨d t, fun t' ht' => ?_⟩
    obtain ⟨a1, -⟩ := segment_times hM hI hT hp (hord ph hp) (hw ph hp) (hρ ph hp) hs ht ht'
    obtain ⟨a3, -⟩ := segment_times hM hI hT hp (hord ph hp) (hw ph hp) (hρ ph hp) hs ht' ht
    obtain ⟨-, a2⟩ := segment_times hM hI hT hp (hord ph hp) (hw ph hp) (hH ph hp) hs ht ht'
    -- mean value inequality on the segment
    set I := Set.Icc (C.breakTime T.w ph s) (C.breakTime T.w ph (s + 1)) with hI'
    have hsub : I ⊆ Set.Icc (C.t0 ph) (C.tf ph) := fun r hr =>
      (segment_times hM hI hT hp (hord ph hp) (hw ph hp) (hρ ph hp) hs hr hr).1
    have := (convex_Icc (C.breakTime T.w ph s) (C.breakTime T.w ph (s + 1))).norm_image_sub_le_of_norm_hasDerivWithin_le
      (f := fun r => ocp.scaleU.getD j 0 * (C.u ph j r - d t * r)) (f' := fun r => ocp.scaleU.getD j 0 * (d r - d t)) (C := q)
      (fun r hr => by
        have h5 : HasDerivWithinAt (fun r : ℝ => d t * r) (d t) I r := by
          simpa using (hasDerivAt_id r).const_mul (d t) |>.hasDerivWithinAt (s := I)
        exact (((d1 r (hsub hr)).mono hsub).sub h5).const_mul _)
      (fun r hr => by
        rw [Real.norm_eq_abs]
        exact d2 r (hsub hr) t a1 (segment_times hM hI hT hp (hord ph hp) (hw ph hp) (hρ ph hp) hs hr ht).2) ht ht'
    rw [Real.norm_eq_abs, Real.norm_eq_abs] at this
    refine le_trans (le_of_eq ?_) (this.trans (mul_le_mul_of_nonneg_left ?_ hq0.le))
    · congr 1; ring
    · rw [abs_sub_comm]; exact a2

/-- **C83** On fine meshes the node values of a smooth solution of the continuous-time problem solve the collocated one up to any
fraction `ν` of the length of the longest segment. -/
theorem C83_fine (hv : ValidOCP ocp) (hsc : ocp.PosScales) (hC : SolvesContinuously ocp C) (hS : SmoothMotion ocp C)
    (hl : ∀ l ∈ ocp.phaseLinks, l.1 < ocp.nPhases ∧ l.2 < ocp.nPhases)
    (hdu : ∀ ph < ocp.nPhases, ocp.duContinuity.getD ph false = false)
    (hdf : ∀ ph < ocp.nPhases, ocp.diffU.getD ph false = false) (lo hi : ℝ) (taus : Nat → Py (List ℝ)) (P : List Nat) {ν : ℝ}
    (hν : 0 < ν) :
    ∃ ρ, 0 < ρ ∧ ∀ (M : Mesh ℝ) (T : Traj ℝ) (H : ℝ), FineSamples ocp lo hi taus P ρ C M T →
      (∀ ph < ocp.nPhases, M.Lasts T ph H) → SolvesTo 0 (ν * H) ocp M T := by
  obtain ⟨D, A, hD0, hA0, hDA⟩ := C83_bounds lo hi taus P
  set ω := ν / (D + 1) with hω
  set q := ν / (A + 1) with hq
  have hω0 : 0 < ω := by positivity
  have hq0 : 0 < q := by positivity
  have hωD : D * ω ≤ ν := by
    rw [hω, ← mul_div_assoc, div_le_iff₀ (by positivity)]; nlinarith
  have hqA : A * q ≤ ν := by
    rw [hq, ← mul_div_assoc, div_le_iff₀ (by positivity)]; nlinarith
  obtain ⟨ρ, h0, h⟩ := hS.fine hv hsc (fun ph hp => (hC.phase ph hp).order) lo hi taus P hω0 hq0
  refine ⟨ρ, h0, fun M T H hF hH => ?_⟩
  obtain ⟨hH0, hr, hu⟩ := h M T H hF hH
  obtain ⟨hm, hT, hw, hρ⟩ := hF
  exact C83_consistent hv hsc hm.good hm.inside hC hl hT hw (D := D) (A := A) (ω := ω) (e := q * H) (H := H) (hDA M hm).1
    (hDA M hm).2 hr hu hH hω0.le (mul_le_mul_of_nonneg_right hωD hH0)
    (fun _ => by rw [← mul_assoc]; exact mul_le_mul_of_nonneg_right hqA hH0) hdu hdf

end MPOpt
