import Verif.Spec.Response
import Verif.Props.Exact
import Mathlib.Analysis.ODE.Gronwall

/-! # C73: how far a solution is from the exact response to its controls -/

set_option autoImplicit false

namespace MPOpt
open Polynomial

theorem gronwallBound_le {δ K ε x : ℝ} (hK : 0 ≤ K) (hε : 0 ≤ ε) :
    gronwallBound δ K ε x ≤ (δ + ε * x) * Real.exp (K * x) := by
  rcases hK.eq_or_lt with rfl | hK
  · rw [gronwallBound_K0]; simp
  · rw [gronwallBound_of_K_ne_0 hK.ne']
    have h1 : Real.exp (K * x) - 1 ≤ K * x * Real.exp (K * x) := by
      have h2 := Real.add_one_le_exp (-(K * x))
      have h3 : Real.exp (-(K * x)) * Real.exp (K * x) = 1 := by rw [← Real.exp_add]; simp
      nlinarith [Real.exp_pos (K * x)]
    have h4 : ε / K * (Real.exp (K * x) - 1) ≤ ε / K * (K * x * Real.exp (K * x)) :=
      mul_le_mul_of_nonneg_left h1 (div_nonneg hε hK.le)
    have h5 : ε / K * (K * x * Real.exp (K * x)) = ε * x * Real.exp (K * x) := by field_simp
    rw [add_mul, ← h5]
    linarith

variable {ocp : OCP ℝ} {M : Mesh ℝ} {T : Traj ℝ} {F : VFun (PArg ℝ) ℝ} {ph : Nat} {X : Nat → ℝ → ℝ}
  {S : List ℝ → Prop} {L D : ℝ}

/-- One segment. -/
theorem segment_error {s : Nat} (hs : s < M.orders.length)
    (hh : 0 < M.halfWidth T ph s)
    (h0 : ∀ tau, M.tau0 ≤ tau → T.t0 ph ≤ M.time T ph s tau)
    (h1 : ∀ tau, tau ≤ M.tau1 → M.time T ph s tau ≤ T.tf ph)
    (hpos : ∀ j < ocp.nx, 0 < ocp.scaleX.getD j 0)
    (hX : Response ocp M T F ph X) (hL : 0 ≤ L) (hlip : LipschitzDynamics ocp M T F ph S L)
    (hSx : ∀ tau ∈ Set.Ico M.tau0 M.tau1, S ((List.range ocp.nx).map (M.stateAt T ph s tau)))
    (hSX : ∀ tau ∈ Set.Ico M.tau0 M.tau1, S ((List.range ocp.nx).map fun k => X k (M.time T ph s tau)))
    (hD0 : 0 ≤ D)
    (hD : ∀ tau ∈ Set.Ico M.tau0 M.tau1, ∀ j < ocp.nx,
      |ocp.scaleX.getD j 0 * ocp.defect M T F ph s tau j| ≤ D) {δ : ℝ} (hδ0 : 0 ≤ δ)
    (hδ : ocp.CloseBy (M.stateAt T ph s M.tau0) (fun k => X k (M.time T ph s M.tau0)) δ)
    {tau : ℝ} (ht : tau ∈ Set.Icc M.tau0 M.tau1) :
    ocp.CloseBy (M.stateAt T ph s tau) (fun k => X k (M.time T ph s tau))
      ((δ + D * (tau - M.tau0)) * Real.exp (L * (M.time T ph s tau - M.time T ph s M.tau0))) := by
  set sc : Nat → ℝ := fun j => ocp.scaleX.getD j 0 with hsc
  set h := M.halfWidth T ph s with hhd
  let ext : (Fin ocp.nx → ℝ) → Nat → ℝ := fun z k => if hk : k < ocp.nx then z ⟨k, hk⟩ / sc k else 0
  let f : ℝ → Fin ocp.nx → ℝ := fun t j => sc j * M.stateAt T ph s t j
  let g : ℝ → Fin ocp.nx → ℝ := fun t j => sc j * X j (M.time T ph s t)
  let v : ℝ → (Fin ocp.nx → ℝ) → Fin ocp.nx → ℝ :=
    fun t z j => sc j * (h * F.f (ocp.argWith M T ph s t (ext z)) j)
  have hext : ∀ (p : Nat → ℝ), ∀ k < ocp.nx, ext (fun j => sc j * p j) k = p k := by
    intro p k hk
    simp only [ext, dif_pos hk]
    have := (hpos k hk).ne'
    simp only [sc]; field_simp
  have hmap : ∀ (p : Nat → ℝ), (List.range ocp.nx).map (ext fun j => sc j * p j) = (List.range ocp.nx).map p :=
    fun p => List.map_congr_left fun k hk => hext p k (List.mem_range.1 hk)
  have harg : ∀ t (p : Nat → ℝ), ocp.argWith M T ph s t (ext fun j => sc j * p j) = ocp.argWith M T ph s t p := by
    intro t p
    unfold OCP.argWith
    simp only [hmap]
  have hargx : ∀ t, ocp.argWith M T ph s t (M.stateAt T ph s t) = ocp.pArgAt M T ph s t := fun t => rfl
  have htime : ∀ t, HasDerivAt (fun t => M.time T ph s t) h t := by
    intro t
    have e : (fun t => M.time T ph s t) = fun t => h * t + M.time T ph s 0 := by
      funext t; simp only [Mesh.time, ← hhd]; ring
    rw [e]
    simpa using ((hasDerivAt_id t).const_mul h).add_const (M.time T ph s 0)
  have hmono : ∀ {a b}, a ≤ b → M.time T ph s a ≤ M.time T ph s b := by
    intro a b hab
    have := mul_le_mul_of_nonneg_left hab hh.le
    simp only [Mesh.time]
    linarith
  have key := dist_le_of_approx_trajectories_ODE_of_mem (f := f) (g := g) (v := v) (a := M.tau0) (b := M.tau1)
    (s := fun _ => {z | S ((List.range ocp.nx).map (ext z))}) (K := (h * L).toNNReal) (εf := D) (εg := 0) (δ := δ)
    (f' := fun t j => sc j * (derivative (M.piece (fun k => T.x ph k j) s)).eval t)
    (g' := fun t j => sc j * (h * F.f (ocp.argWith M T ph s t fun k => X k (M.time T ph s t)) j))
    ?_ ?_ ?_ ?_ ?_ ?_ ?_ ?_ ?_ ?_ tau ht
  · have hK : ((h * L).toNNReal : ℝ) = h * L := Real.coe_toNNReal _ (mul_nonneg hh.le hL)
    rw [hK, add_zero] at key
    have hb := key.trans (gronwallBound_le (mul_nonneg hh.le hL) hD0)
    have he : h * L * (tau - M.tau0) = L * (M.time T ph s tau - M.time T ph s M.tau0) := by
      simp only [Mesh.time, ← hhd]; ring
    rw [he] at hb
    intro k hk
    have := (dist_le_pi_dist (f tau) (g tau) ⟨k, hk⟩).trans hb
    rw [Real.dist_eq] at this
    simpa only [f, g, ← mul_sub, sc] using this
  · intro t htt
    apply LipschitzOnWith.of_dist_le_mul
    intro y hy z hz
    have hK : ((h * L).toNNReal : ℝ) = h * L := Real.coe_toNNReal _ (mul_nonneg hh.le hL)
    rw [hK, dist_pi_le_iff (by positivity)]
    intro j
    have hc : ocp.CloseBy (ext y) (ext z) (dist y z) := by
      intro k hk
      have h2 := dist_le_pi_dist y z ⟨k, hk⟩
      have e : ocp.scaleX.getD k 0 * (ext y k - ext z k) = y ⟨k, hk⟩ - z ⟨k, hk⟩ := by
        simp only [ext, dif_pos hk]
        have := (hpos k hk).ne'
        simp only [sc]; field_simp
      rw [e, ← Real.dist_eq]; exact h2
    have h3 := hlip s hs t htt _ _ _ hy hz hc j j.2
    rw [Real.dist_eq]
    simp only [v]
    have e : sc j * (h * F.f (ocp.argWith M T ph s t (ext y)) j) - sc j * (h * F.f (ocp.argWith M T ph s t (ext z)) j)
        = h * (sc j * (F.f (ocp.argWith M T ph s t (ext y)) j - F.f (ocp.argWith M T ph s t (ext z)) j)) := by ring
    rw [e, abs_mul, abs_of_pos hh, mul_assoc]
    exact mul_le_mul_of_nonneg_left h3 hh.le
  · apply continuousOn_pi.2
    intro j
    exact (continuous_const.mul (Polynomial.continuous _)).continuousOn
  · intro t _
    apply hasDerivWithinAt_pi.2
    intro j
    exact (((M.piece (fun k => T.x ph k j) s).hasDerivAt t).const_mul (sc j)).hasDerivWithinAt
  · intro t htt
    rw [dist_pi_le_iff hD0]
    intro j
    rw [Real.dist_eq]
    have := hD t htt j j.2
    simp only [v, f, harg, hargx]
    rw [← mul_sub]
    exact this
  · intro t htt
    simp only [f, Set.mem_ofPred_eq, hmap]; exact hSx t htt
  · apply continuousOn_pi.2
    intro j
    refine continuousOn_const.mul ?_
    refine (hX.cont j j.2).comp (fun t _ => (htime t).continuousAt.continuousWithinAt) ?_
    intro t htt
    exact ⟨h0 t htt.1, h1 t htt.2⟩
  · intro t htt
    apply hasDerivWithinAt_pi.2
    intro j
    have h4 := hX.ode s hs t htt j j.2
    have h5 := HasDerivWithinAt.scomp (h := fun t => M.time T ph s t) (h' := h) (s := Set.Ici t) t h4
      (htime t).hasDerivWithinAt (fun r hr => hmono hr)
    simpa [smul_eq_mul, Function.comp_def] using h5.const_mul (sc j)
  · intro t htt
    rw [dist_pi_le_iff le_rfl]
    intro j
    simp only [v, g]
    rw [harg t fun k => X k (M.time T ph s t), dist_self]
  · intro t htt
    simp only [g, Set.mem_ofPred_eq, hmap fun k => X k (M.time T ph s t)]; exact hSX t htt
  · rw [dist_pi_le_iff hδ0]
    intro j
    rw [Real.dist_eq]
    have := hδ j j.2
    simpa only [f, g, ← mul_sub, sc] using this

/-- Both trajectories stay in `S`. -/
structure StayIn (ocp : OCP ℝ) (M : Mesh ℝ) (T : Traj ℝ) (ph : Nat) (X : Nat → ℝ → ℝ) (S : List ℝ → Prop) : Prop where
  solution : ∀ s < M.orders.length, ∀ tau ∈ Set.Ico M.tau0 M.tau1, S ((List.range ocp.nx).map (M.stateAt T ph s tau))
  response : ∀ s < M.orders.length, ∀ tau ∈ Set.Ico M.tau0 M.tau1,
    S ((List.range ocp.nx).map fun k => X k (M.time T ph s tau))

/-- **C73** If the scaled defect of a trajectory is at most `D` at all instants of a phase, the trajectory is close to
the exact response to its own controls: after `s + 1` segments the scaled states differ by at most
`(δ + (s + 1) (tau1 - tau0) D) exp (L (t - t0))`, with `δ` the difference at the start of the phase and `L` the
Lipschitz constant of the dynamics. -/
theorem C73_error (hM : M.Good) (hI : M.Inside) (ht : T.t0 ph < T.tf ph) (hw : FullWidths M T ph)
    (hpos : ∀ j < ocp.nx, 0 < ocp.scaleX.getD j 0)
    (hX : Response ocp M T F ph X) (hL : 0 ≤ L) (hlip : LipschitzDynamics ocp M T F ph S L)
    (hS : StayIn ocp M T ph X S) (hD0 : 0 ≤ D)
    (hD : ∀ s < M.orders.length, ∀ tau ∈ Set.Ico M.tau0 M.tau1, ∀ j < ocp.nx,
      |ocp.scaleX.getD j 0 * ocp.defect M T F ph s tau j| ≤ D) {δ : ℝ} (hδ0 : 0 ≤ δ)
    (hδ : ocp.CloseBy (fun k => T.x ph 0 k) (fun k => X k (T.t0 ph)) δ) {s : Nat} (hs : s < M.orders.length)
    {tau : ℝ} (htau : tau ∈ Set.Icc M.tau0 M.tau1) :
    ocp.CloseBy (M.stateAt T ph s tau) (fun k => X k (M.time T ph s tau))
      ((δ + (s + 1) * (M.tau1 - M.tau0) * D) * Real.exp (L * (M.time T ph s tau - T.t0 ph))) := by
  have hlt := hI.tau_lt hM
  have hends := C13_segment_ends hM T ph
  -- from the start of a segment to its other instants
  have step : ∀ s < M.orders.length,
      ocp.CloseBy (M.stateAt T ph s M.tau0) (fun k => X k (M.time T ph s M.tau0))
        ((δ + s * (M.tau1 - M.tau0) * D) * Real.exp (L * (M.time T ph s M.tau0 - T.t0 ph))) →
      ∀ tau ∈ Set.Icc M.tau0 M.tau1, ocp.CloseBy (M.stateAt T ph s tau) (fun k => X k (M.time T ph s tau))
        ((δ + (s + 1) * (M.tau1 - M.tau0) * D) * Real.exp (L * (M.time T ph s tau - T.t0 ph))) := by
    intro s hs h0 tau htau k hk
    obtain ⟨b1, b2, b3⟩ := time_bounds hM hI ht hw hs
    have hA : 0 ≤ δ + s * (M.tau1 - M.tau0) * D :=
      add_nonneg hδ0 (mul_nonneg (mul_nonneg (Nat.cast_nonneg _) (sub_pos.2 hlt).le) hD0)
    have h1 := segment_error hs b1 b2 b3 hpos hX hL hlip (hS.solution s hs) (hS.response s hs) hD0 (hD s hs)
      (mul_nonneg hA (Real.exp_pos _).le) h0 htau k hk
    refine h1.trans ?_
    have hE : 1 ≤ Real.exp (L * (M.time T ph s M.tau0 - T.t0 ph)) :=
      Real.one_le_exp (mul_nonneg hL (sub_nonneg.2 (b2 _ le_rfl)))
    have e : Real.exp (L * (M.time T ph s tau - T.t0 ph)) =
        Real.exp (L * (M.time T ph s M.tau0 - T.t0 ph)) * Real.exp (L * (M.time T ph s tau - M.time T ph s M.tau0)) := by
      rw [← Real.exp_add]; congr 1; ring
    rw [e, ← mul_assoc]
    refine mul_le_mul_of_nonneg_right ?_ (Real.exp_pos _).le
    have h2 : D * (tau - M.tau0) ≤ (M.tau1 - M.tau0) * D := by
      rw [mul_comm]; exact mul_le_mul_of_nonneg_right (by linarith [htau.2]) hD0
    have h3 : (M.tau1 - M.tau0) * D ≤ (M.tau1 - M.tau0) * D * Real.exp (L * (M.time T ph s M.tau0 - T.t0 ph)) :=
      le_mul_of_one_le_right (mul_nonneg (sub_pos.2 hlt).le hD0) hE
    calc _ ≤ (δ + s * (M.tau1 - M.tau0) * D) * Real.exp (L * (M.time T ph s M.tau0 - T.t0 ph)) +
          (M.tau1 - M.tau0) * D * Real.exp (L * (M.time T ph s M.tau0 - T.t0 ph)) := by linarith
      _ = _ := by ring
  have starts : ∀ s < M.orders.length,
      ocp.CloseBy (M.stateAt T ph s M.tau0) (fun k => X k (M.time T ph s M.tau0))
        ((δ + s * (M.tau1 - M.tau0) * D) * Real.exp (L * (M.time T ph s M.tau0 - T.t0 ph))) := by
    intro s
    induction s with
    | zero =>
      intro hs k hk
      have h1 : M.stateAt T ph 0 M.tau0 k = T.x ph 0 k := by
        unfold Mesh.stateAt
        have := hM.piece_eval_node (fun i => T.x ph i k) hs (Nat.zero_le _)
        rw [hM.node_first hs] at this
        rw [this]; rfl
      have := hδ k hk
      rw [h1, hends.1]
      simpa using this
    | succ s ih =>
      intro hs k hk
      have hs' : s < M.orders.length := by omega
      have h1 : M.stateAt T ph (s + 1) M.tau0 k = M.stateAt T ph s M.tau1 k := by
        unfold Mesh.stateAt
        have e1 := hM.piece_eval_node (fun i => T.x ph i k) hs (Nat.zero_le _)
        have e2 := hM.piece_eval_node (fun i => T.x ph i k) hs' le_rfl
        rw [hM.node_first hs] at e1
        rw [hM.node_last hs'] at e2
        rw [e1, e2]
        unfold Mesh.idx
        rw [segStart_succ _ hs', Mesh.order_eq hs', Nat.add_zero]
      have := step s hs' (ih hs') M.tau1 ⟨hlt.le, le_rfl⟩ k hk
      rw [h1, hends.2.2.1]
      simpa using this
  exact step s hs (starts s hs) tau htau

/-- **C73** With no defect at any instant and the same initial state, the trajectory is the exact response. -/
theorem C73_exact (hM : M.Good) (hI : M.Inside) (ht : T.t0 ph < T.tf ph) (hw : FullWidths M T ph)
    (hpos : ∀ j < ocp.nx, 0 < ocp.scaleX.getD j 0)
    (hX : Response ocp M T F ph X) (hL : 0 ≤ L) (hlip : LipschitzDynamics ocp M T F ph S L)
    (hS : StayIn ocp M T ph X S)
    (hD : ∀ s < M.orders.length, ∀ tau ∈ Set.Ico M.tau0 M.tau1, ∀ j < ocp.nx, ocp.defect M T F ph s tau j = 0)
    (h0 : ∀ j < ocp.nx, T.x ph 0 j = X j (T.t0 ph)) {s : Nat} (hs : s < M.orders.length)
    {tau : ℝ} (htau : tau ∈ Set.Icc M.tau0 M.tau1) {j : Nat} (hj : j < ocp.nx) :
    M.stateAt T ph s tau j = X j (M.time T ph s tau) := by
  have := C73_error hM hI ht hw hpos hX hL hlip hS le_rfl
    (fun s hs tau htau j hj => by rw [hD s hs tau htau j hj]; simp) le_rfl
    (fun j hj => by simp [h0 j hj]) hs htau j hj
  simp only [mul_zero, add_zero, zero_mul, abs_nonpos_iff, mul_eq_zero, (hpos j hj).ne', false_or, sub_eq_zero] at this
  exact this

end MPOpt
