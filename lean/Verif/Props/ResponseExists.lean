import Mathlib.Analysis.Complex.ExponentialBounds
import Verif.Lemmas.GlobalODE
import Verif.Props.Convergence

/-! # C79: collocated solutions on fine meshes are shadowed by exact motions of the system -/

set_option autoImplicit false

namespace MPOpt
open Polynomial

variable {ocp : OCP ℝ} {M : Mesh ℝ} {T : Traj ℝ} {F : VFun (PArg ℝ) ℝ} {ph : Nat} {X : Nat → ℝ → ℝ}
  {S U : List ℝ → Prop} {L C : ℝ}

/-- Physical states from a vector of scaled ones. -/
noncomputable def OCP.unscaled (ocp : OCP ℝ) (y : Fin ocp.nx → ℝ) (k : Nat) : ℝ :=
  if h : k < ocp.nx then y ⟨k, h⟩ / ocp.scaleX.getD k 0 else 0

theorem OCP.unscaled_lt (ocp : OCP ℝ) (y : Fin ocp.nx → ℝ) {k : Nat} (h : k < ocp.nx) :
    ocp.unscaled y k = y ⟨k, h⟩ / ocp.scaleX.getD k 0 := dif_pos h

theorem unscaled_close (hpos : ∀ j < ocp.nx, 0 < ocp.scaleX.getD j 0) (y z : Fin ocp.nx → ℝ) :
    ocp.CloseBy (ocp.unscaled y) (ocp.unscaled z) ‖y - z‖ := by
  intro k hk
  rw [ocp.unscaled_lt _ hk, ocp.unscaled_lt _ hk]
  have e : ocp.scaleX.getD k 0 * (y ⟨k, hk⟩ / ocp.scaleX.getD k 0 - z ⟨k, hk⟩ / ocp.scaleX.getD k 0) =
      (y - z) ⟨k, hk⟩ := by
    have := (hpos k hk).ne'
    simp only [Pi.sub_apply]
    field_simp
  rw [e, ← Real.norm_eq_abs]
  exact norm_le_pi_norm _ _

/-- The instant `tau` of segment `s` at time `t`. -/
noncomputable def Mesh.clockInv (M : Mesh ℝ) (T : Traj ℝ) (ph s : Nat) (t : ℝ) : ℝ :=
  M.tau0 + (t - M.time T ph s M.tau0) / M.halfWidth T ph s

theorem clockInv_time {s : Nat} (hh : 0 < M.halfWidth T ph s) (tau : ℝ) : M.clockInv T ph s (M.time T ph s tau) = tau := by
  unfold Mesh.clockInv Mesh.time
  have := hh.ne'
  field_simp
  ring

theorem time_clockInv {s : Nat} (hh : 0 < M.halfWidth T ph s) (t : ℝ) : M.time T ph s (M.clockInv T ph s t) = t := by
  have e : M.time T ph s (M.clockInv T ph s t) =
      M.time T ph s M.tau0 + M.halfWidth T ph s * ((t - M.time T ph s M.tau0) / M.halfWidth T ph s) := by
    unfold Mesh.clockInv Mesh.time; ring
  rw [e, mul_div_cancel₀ _ hh.ne']
  ring

theorem clockInv_mem {s : Nat} (hh : 0 < M.halfWidth T ph s) {t : ℝ}
    (ht : t ∈ Set.Icc (M.time T ph s M.tau0) (M.time T ph s M.tau1)) : M.clockInv T ph s t ∈ Set.Icc M.tau0 M.tau1 := by
  have e := time_clockInv hh t
  refine ⟨?_, ?_⟩
  · unfold Mesh.clockInv
    have := div_nonneg (sub_nonneg.2 ht.1) hh.le
    linarith
  · by_contra hcon
    have : M.time T ph s M.tau1 < M.time T ph s (M.clockInv T ph s t) := by
      unfold Mesh.time
      have := mul_lt_mul_of_pos_left (sub_lt_sub_right (not_le.1 hcon) M.tau0) hh
      linarith
    rw [e] at this
    exact absurd ht.2 (not_le.2 this)

/-- Scaled dynamics of segment `s` as a field on vectors of scaled states. -/
noncomputable def OCP.field (ocp : OCP ℝ) (M : Mesh ℝ) (T : Traj ℝ) (F : VFun (PArg ℝ) ℝ) (ph s : Nat) (t : ℝ)
    (y : Fin ocp.nx → ℝ) : Fin ocp.nx → ℝ :=
  fun j => ocp.scaleX.getD j 0 * F.f (ocp.argWith M T ph s (M.clockInv T ph s t) (ocp.unscaled y)) j

theorem time_last (hM : M.Good) (hw : FullWidths M T ph) : M.time T ph M.orders.length M.tau0 = T.tf ph := by
  have h0 : 0 < M.orders.length := List.length_pos_iff.2 hM.nonempty
  have := (C13_segment_ends hM T ph).2.2.1 (M.orders.length - 1)
  rw [Nat.sub_add_cancel h0] at this
  rw [this, (C13_segment_ends hM T ph).2.2.2 hw.sum]

/-- **C79** Dynamics that are Lipschitz in the states, and continuous in time along the controls, have an exact response from any
initial state, on the whole phase. -/
theorem C79_exists (hM : M.Good) (hI : M.Inside) (ht : T.t0 ph < T.tf ph) (hw : FullWidths M T ph)
    (hpos : ∀ j < ocp.nx, 0 < ocp.scaleX.getD j 0) (hL : 0 ≤ L)
    (hlip : ∀ s < M.orders.length, ∀ tau ∈ Set.Icc M.tau0 M.tau1, ∀ p q d, ocp.CloseBy p q d → ∀ j < ocp.nx,
      |ocp.scaleX.getD j 0 * (F.f (ocp.argWith M T ph s tau p) j - F.f (ocp.argWith M T ph s tau q) j)| ≤ L * d)
    (hcont : ∀ s < M.orders.length, ∀ p, ∀ j < ocp.nx,
      ContinuousOn (fun tau => F.f (ocp.argWith M T ph s tau p) j) (Set.Icc M.tau0 M.tau1)) (x0 : Nat → ℝ) :
    ∃ X, Response ocp M T F ph X ∧ ∀ k < ocp.nx, X k (T.t0 ph) = x0 k := by
  have hlt := hI.tau_lt hM
  have hends := C13_segment_ends hM T ph
  have htb := fun s hs => time_bounds (s := s) hM hI ht hw hs
  obtain ⟨Y, hY0, hYc, hY⟩ := exists_rightSol_pieces (f := ocp.field M T F ph) (b := fun s => M.time T ph s M.tau0) hL
    M.orders.length (fun s hs => by
      rw [hends.2.2.1]
      have := (htb s hs).1
      unfold Mesh.time; nlinarith)
    (fun s hs t htt y z => by
      rw [hends.2.2.1] at htt
      rw [pi_norm_le_iff_of_nonneg (mul_nonneg hL (norm_nonneg _))]
      intro j
      have := hlip s hs _ (clockInv_mem (htb s hs).1 htt) _ _ _ (unscaled_close hpos y z) j j.2
      rw [Real.norm_eq_abs, Pi.sub_apply]
      unfold OCP.field
      rw [← mul_sub]
      exact this)
    (fun s hs y => by
      rw [hends.2.2.1]
      refine continuousOn_pi.2 fun j => continuousOn_const.mul ?_
      refine (hcont s hs (ocp.unscaled y) j j.2).comp (f := M.clockInv T ph s) ?_ fun t htt => clockInv_mem (htb s hs).1 htt
      unfold Mesh.clockInv
      fun_prop)
    (fun k => ocp.scaleX.getD k 0 * x0 k)
  rw [time_last hM hw] at hYc
  rw [hends.1] at hYc hY0
  refine ⟨fun k t => ocp.unscaled (Y t) k, ⟨fun j hj => ?_, fun s hs tau htau j hj => ?_⟩, fun k hk => ?_⟩
  · simp only [ocp.unscaled_lt _ hj]
    exact (continuousOn_pi.1 hYc ⟨j, hj⟩).div_const _
  · have h1 := (hY s hs).2 (M.time T ph s tau) (by
      rw [hends.2.2.1]
      have := (htb s hs).1
      exact ⟨by unfold Mesh.time; nlinarith [htau.1], by unfold Mesh.time; nlinarith [htau.2]⟩)
    have h2 := (hasDerivWithinAt_pi.1 h1 ⟨j, hj⟩).div_const (ocp.scaleX.getD j 0)
    simp only [ocp.unscaled_lt _ hj]
    refine h2.congr_deriv ?_
    simp only [OCP.field, clockInv_time (htb s hs).1]
    rw [mul_div_cancel_left₀ _ (hpos j hj).ne']
  · simp only [ocp.unscaled_lt _ hk]
    rw [hY0, mul_div_cancel_left₀ _ (hpos k hk).ne']

/-- **C79** Two responses that stay where the dynamics are Lipschitz, from the same state, are equal. -/
theorem C79_unique (hM : M.Good) (hI : M.Inside) (ht : T.t0 ph < T.tf ph) (hw : FullWidths M T ph)
    (hpos : ∀ j < ocp.nx, 0 < ocp.scaleX.getD j 0) (hL : 0 ≤ L) (hlip : LipschitzDynamics ocp M T F ph S L)
    {X' : Nat → ℝ → ℝ} (hX : Response ocp M T F ph X) (hX' : Response ocp M T F ph X')
    (hS : ∀ s < M.orders.length, ∀ tau ∈ Set.Ico M.tau0 M.tau1, S ((List.range ocp.nx).map fun k => X k (M.time T ph s tau)))
    (hS' : ∀ s < M.orders.length, ∀ tau ∈ Set.Ico M.tau0 M.tau1,
      S ((List.range ocp.nx).map fun k => X' k (M.time T ph s tau)))
    (h0 : ∀ k < ocp.nx, X k (T.t0 ph) = X' k (T.t0 ph)) :
    ∀ k < ocp.nx, ∀ t ∈ Set.Icc (T.t0 ph) (T.tf ph), X k t = X' k t := by
  have hlt := hI.tau_lt hM
  have hends := C13_segment_ends hM T ph
  have htb := fun s hs => time_bounds (s := s) hM hI ht hw hs
  set sc : (Nat → ℝ → ℝ) → ℝ → Fin ocp.nx → ℝ := fun X t k => ocp.scaleX.getD k 0 * X k t with hsc
  have hunsc : ∀ (X : Nat → ℝ → ℝ) t k, k < ocp.nx → ocp.unscaled (sc X t) k = X k t := by
    intro X t k hk
    rw [ocp.unscaled_lt _ hk]
    simp only [hsc]
    rw [mul_div_cancel_left₀ _ (hpos k hk).ne']
  have hmap : ∀ (X : Nat → ℝ → ℝ) t, (List.range ocp.nx).map (ocp.unscaled (sc X t)) =
      (List.range ocp.nx).map fun k => X k t := fun X t =>
    List.map_congr_left fun k hk => hunsc X t k (List.mem_range.1 hk)
  have harg : ∀ (X : Nat → ℝ → ℝ) t s tau, ocp.argWith M T ph s tau (ocp.unscaled (sc X t)) =
      ocp.argWith M T ph s tau fun k => X k t := by
    intro X t s tau
    unfold OCP.argWith
    rw [hmap]
  -- what a response says in scaled vectors
  have hsol : ∀ X, Response ocp M T F ph X → ∀ s < M.orders.length,
      RightSol (ocp.field M T F ph s) (M.time T ph s M.tau0) (M.time T ph s M.tau1) (sc X) := by
    intro X hX s hs
    refine ⟨continuousOn_pi.2 fun j => continuousOn_const.mul ((hX.cont j j.2).mono fun t htt =>
      ⟨((htb s hs).2.1 _ le_rfl).trans htt.1, htt.2.trans ((htb s hs).2.2 _ le_rfl)⟩), fun t htt => ?_⟩
    have hm := clockInv_mem (htb s hs).1 ⟨htt.1, htt.2.le⟩
    have hm' : M.clockInv T ph s t ∈ Set.Ico M.tau0 M.tau1 := by
      refine ⟨hm.1, lt_of_le_of_ne hm.2 fun e => ?_⟩
      have := time_clockInv (htb s hs).1 t
      rw [e] at this
      exact htt.2.ne this.symm
    refine hasDerivWithinAt_pi.2 fun j => ?_
    have := (hX.ode s hs _ hm' j j.2).const_mul (ocp.scaleX.getD j 0)
    rw [time_clockInv (htb s hs).1] at this
    simp only [OCP.field, harg]
    exact this
  have key : ∀ s < M.orders.length, sc X (M.time T ph s M.tau0) = sc X' (M.time T ph s M.tau0) →
      Set.EqOn (sc X) (sc X') (Set.Icc (M.time T ph s M.tau0) (M.time T ph s M.tau1)) := by
    intro s hs he
    refine ODE_solution_unique_of_mem_Icc_right (v := ocp.field M T F ph s)
      (s := fun _ => {y | S ((List.range ocp.nx).map (ocp.unscaled y))}) (K := ⟨L, hL⟩) (fun t htt => ?_)
      (hsol X hX s hs).1 (hsol X hX s hs).2 (fun t htt => ?_) (hsol X' hX' s hs).1 (hsol X' hX' s hs).2 (fun t htt => ?_) he
    all_goals
      have hm := clockInv_mem (htb s hs).1 ⟨htt.1, htt.2.le⟩
      have hm' : M.clockInv T ph s t ∈ Set.Ico M.tau0 M.tau1 := by
        refine ⟨hm.1, lt_of_le_of_ne hm.2 fun e => ?_⟩
        have := time_clockInv (htb s hs).1 t
        rw [e] at this
        exact htt.2.ne this.symm
    · refine LipschitzOnWith.of_dist_le_mul fun y hy z hz => ?_
      rw [dist_eq_norm, dist_eq_norm]
      change _ ≤ L * _
      rw [pi_norm_le_iff_of_nonneg (mul_nonneg hL (norm_nonneg _))]
      intro j
      have := hlip s hs _ hm' _ _ _ hy hz (unscaled_close hpos y z) j j.2
      rw [Real.norm_eq_abs, Pi.sub_apply]
      unfold OCP.field
      rw [← mul_sub]
      exact this
    · change S _
      rw [hmap]
      have := hS s hs _ hm'
      rwa [time_clockInv (htb s hs).1] at this
    · change S _
      rw [hmap]
      have := hS' s hs _ hm'
      rwa [time_clockInv (htb s hs).1] at this
  have hstart : ∀ s ≤ M.orders.length, sc X (M.time T ph s M.tau0) = sc X' (M.time T ph s M.tau0) := by
    intro s
    induction s with
    | zero =>
      intro _
      funext k
      simp only [hsc, hends.1, h0 k k.2]
    | succ s ih =>
      intro hs
      rw [hends.2.2.1]
      refine key s (by omega) (ih (by omega)) ⟨?_, le_rfl⟩
      have := (htb s (by omega)).1
      unfold Mesh.time; nlinarith
  intro k hk t htt
  -- the segment of `t`
  obtain ⟨s, hs, hts⟩ : ∃ s < M.orders.length, t ∈ Set.Icc (M.time T ph s M.tau0) (M.time T ph s M.tau1) := by
    have hfind : ∀ n ≤ M.orders.length, t ≤ M.time T ph n M.tau0 → 0 < n →
        ∃ s < n, t ∈ Set.Icc (M.time T ph s M.tau0) (M.time T ph s M.tau1) := by
      intro n
      induction n with
      | zero => intro _ _ h; omega
      | succ n ih =>
        intro hn hle _
        by_cases h : M.time T ph n M.tau0 ≤ t
        · exact ⟨n, by omega, h, by rwa [hends.2.2.1] at hle⟩
        · rcases Nat.eq_zero_or_pos n with rfl | hn0
          · rw [hends.1] at h; exact absurd htt.1 h
          · obtain ⟨s, hs, h'⟩ := ih (by omega) (not_le.1 h).le hn0
            exact ⟨s, by omega, h'⟩
    exact hfind _ le_rfl (by rw [time_last hM hw]; exact htt.2) (List.length_pos_iff.2 hM.nonempty)
  have := congrFun (key s hs (hstart s hs.le) hts) ⟨k, hk⟩
  simp only [hsc] at this
  exact mul_left_cancel₀ (hpos k hk).ne' this

/-! ## Dynamics that are Lipschitz on a region only -/

/-- Dynamics with the states first moved into `S`. -/
noncomputable def OCP.confine (ocp : OCP ℝ) (F : VFun (PArg ℝ) ℝ) (ret : (Nat → ℝ) → Nat → ℝ) : VFun (PArg ℝ) ℝ :=
  ⟨F.len, fun p => F.f { p with x := (List.range ocp.nx).map (ret fun k => p.x.getD k 0) }⟩

theorem getD_range_map {n k : Nat} (f : Nat → ℝ) (h : k < n) : ((List.range n).map f).getD k 0 = f k := by
  simp [List.getD_eq_getElem?_getD, h]

theorem closeBy_congr {p p' q q' : Nat → ℝ} (hp : ∀ k < ocp.nx, p k = p' k) (hq : ∀ k < ocp.nx, q k = q' k) {d : ℝ}
    (h : ocp.CloseBy p q d) : ocp.CloseBy p' q' d := fun k hk => by rw [← hp k hk, ← hq k hk]; exact h k hk

theorem Retraction.same {ret : (Nat → ℝ) → Nat → ℝ} (h : Retraction ocp S ret) {p q : Nat → ℝ}
    (e : ∀ k < ocp.nx, p k = q k) : ∀ k < ocp.nx, ocp.scaleX.getD k 0 * (ret p k - ret q k) = 0 := by
  intro k hk
  have := h.near p q 0 (fun k hk => by rw [e k hk]; simp) k hk
  exact abs_eq_zero.1 (le_antisymm this (abs_nonneg _))

/-- Confined dynamics at a state. -/
theorem confine_argWith {ret : (Nat → ℝ) → Nat → ℝ} (h : Retraction ocp S ret)
    (hpos : ∀ j < ocp.nx, 0 < ocp.scaleX.getD j 0) (s : Nat) (tau : ℝ) (p : Nat → ℝ) :
    (ocp.confine F ret).f (ocp.argWith M T ph s tau p) = F.f (ocp.argWith M T ph s tau (ret p)) := by
  unfold OCP.confine OCP.argWith
  simp only
  congr 2
  refine List.map_congr_left fun k hk => ?_
  have hk := List.mem_range.1 hk
  have := h.same (p := fun k => ((List.range ocp.nx).map p).getD k 0) (q := p) (fun k hk => getD_range_map p hk) k hk
  have := (mul_eq_zero.1 this).resolve_left (hpos k hk).ne'
  linarith

/-- On `S` the confined dynamics are the dynamics. -/
theorem confine_of_mem {ret : (Nat → ℝ) → Nat → ℝ} (h : Retraction ocp S ret)
    (hpos : ∀ j < ocp.nx, 0 < ocp.scaleX.getD j 0) (s : Nat) (tau : ℝ) {p : Nat → ℝ} (hp : S ((List.range ocp.nx).map p)) :
    (ocp.confine F ret).f (ocp.argWith M T ph s tau p) = F.f (ocp.argWith M T ph s tau p) := by
  rw [confine_argWith h hpos]
  unfold OCP.argWith
  rw [List.map_congr_left (l := List.range ocp.nx) fun k hk => h.fixes p hp k (List.mem_range.1 hk)]

/-- With Lipschitz dynamics the right-hand side is continuous along the controls. -/
theorem field_continuous (hM : M.Good) (hI : M.Inside) (ht : T.t0 ph < T.tf ph) (hw : FullWidths M T ph)
    (hpos : ∀ j < ocp.nx, 0 < ocp.scaleX.getD j 0) {Lx Lu Lt : ℝ}
    (hlip : LipschitzIn ocp F S U (Set.Icc (T.t0 ph) (T.tf ph)) (T.a ph) Lx Lu Lt)
    (hU : ∀ s < M.orders.length, ∀ tau ∈ Set.Icc M.tau0 M.tau1, U ((List.range ocp.nu).map (M.controlAt T ph s tau)))
    {s : Nat} (hs : s < M.orders.length) {p : Nat → ℝ} (hp : S ((List.range ocp.nx).map p)) {j : Nat} (hj : j < ocp.nx) :
    ContinuousOn (fun tau => F.f (ocp.argWith M T ph s tau p) j) (Set.Icc M.tau0 M.tau1) := by
  obtain ⟨b1, b2, b3⟩ := time_bounds hM hI ht hw hs
  intro tau htau
  set G : ℝ → ℝ := fun r => Lu * (∑ k ∈ Finset.range ocp.nu,
      |ocp.scaleU.getD k 0 * (M.controlAt T ph s r k - M.controlAt T ph s tau k)|) +
    Lt * |M.time T ph s r - M.time T ph s tau| with hG
  have hGc : Continuous G := by
    have h1 : ∀ k, Continuous fun r => M.controlAt T ph s r k := fun k => Polynomial.continuous _
    have h2 : Continuous fun r => M.time T ph s r := by unfold Mesh.time; fun_prop
    exact (continuous_const.mul (continuous_finsetSum _ fun k _ =>
      (continuous_const.mul ((h1 k).sub continuous_const)).abs)).add
      (continuous_const.mul (h2.sub continuous_const).abs)
  have hG0 : G tau = 0 := by simp [hG]
  have hbound : ∀ r ∈ Set.Icc M.tau0 M.tau1,
      |F.f (ocp.argWith M T ph s r p) j - F.f (ocp.argWith M T ph s tau p) j| ≤ G r / ocp.scaleX.getD j 0 := by
    intro r hr
    rw [le_div_iff₀ (hpos j hj), mul_comm, ← abs_of_pos (hpos j hj), ← abs_mul]
    have hgu : ∀ t, ∀ k < ocp.nu, (ocp.argWith M T ph s t p).u.getD k 0 = M.controlAt T ph s t k := by
      intro t k hk
      simp [OCP.argWith, OCP.pArgAt, Mesh.controlAt, List.getD_eq_getElem?_getD, hk]
    have := hlip (ocp.argWith M T ph s r p) (ocp.argWith M T ph s tau p) hp hp (hU s hs r hr) (hU s hs tau htau)
      ⟨b2 _ hr.1, b3 _ hr.2⟩ ⟨b2 _ htau.1, b3 _ htau.2⟩ rfl rfl 0
      (∑ k ∈ Finset.range ocp.nu, |ocp.scaleU.getD k 0 * (M.controlAt T ph s r k - M.controlAt T ph s tau k)|)
      (fun k hk => by simp [OCP.argWith]) (fun k hk => by
        rw [hgu r k hk, hgu tau k hk]
        exact Finset.single_le_sum (f := fun k => |ocp.scaleU.getD k 0 *
          (M.controlAt T ph s r k - M.controlAt T ph s tau k)|) (fun _ _ => abs_nonneg _) (Finset.mem_range.2 hk)) j hj
    rw [mul_zero, zero_add] at this
    exact this
  rw [ContinuousWithinAt, tendsto_iff_dist_tendsto_zero]
  refine squeeze_zero' (Filter.Eventually.of_forall fun _ => dist_nonneg) (g := fun r => G r / ocp.scaleX.getD j 0) ?_ ?_
  · filter_upwards [self_mem_nhdsWithin] with r hr
    rw [Real.dist_eq]
    exact hbound r hr
  · have := (hGc.div_const (ocp.scaleX.getD j 0)).continuousAt (x := tau)
    have h3 := this.tendsto
    rw [hG0, zero_div] at h3
    exact h3.mono_left nhdsWithin_le_nhds

section
variable {B Lx Lu Lt H e E r : ℝ} {ret : (Nat → ℝ) → Nat → ℝ}

/-- **C79** A trajectory whose states nearly satisfy the dynamics is shadowed by an exact motion of the system. If the dynamics are
Lipschitz on a region of states onto which one can retract, every state within `r` (in scaled components) of the trajectory is in the
region, and `E (tf - t0) e^(Lx (tf - t0)) ≤ r` where `E` bounds by how much the trajectory fails the dynamics, then the exact response
to the controls of the trajectory exists on the whole phase, and stays within that bound. -/
theorem C79_shadow (hM : M.Good) (hI : M.Inside) (ht : T.t0 ph < T.tf ph) (hw : FullWidths M T ph)
    (hpos : ∀ j < ocp.nx, 0 < ocp.scaleX.getD j 0) (hLx : 0 ≤ Lx)
    (hlip : LipschitzIn ocp F S U (Set.Icc (T.t0 ph) (T.tf ph)) (T.a ph) Lx Lu Lt)
    (hU : ∀ s < M.orders.length, ∀ tau ∈ Set.Icc M.tau0 M.tau1, U ((List.range ocp.nu).map (M.controlAt T ph s tau)))
    (hE : 0 ≤ E) (hdefect : ∀ s < M.orders.length, ∀ tau ∈ Set.Ico M.tau0 M.tau1, ∀ j < ocp.nx,
      |ocp.scaleX.getD j 0 * ocp.defect M T F ph s tau j| ≤ M.halfWidth T ph s * E)
    (hret : Retraction ocp S ret)
    (hroom : ∀ s < M.orders.length, ∀ tau ∈ Set.Icc M.tau0 M.tau1, ∀ p, ocp.CloseBy (M.stateAt T ph s tau) p r →
      S ((List.range ocp.nx).map p))
    (hsmall : E * (T.tf ph - T.t0 ph) * Real.exp (Lx * (T.tf ph - T.t0 ph)) ≤ r) :
    ∃ X, Shadow ocp M T F ph S E Lx X := by
  have hr0 : 0 ≤ r := le_trans (mul_nonneg (mul_nonneg hE (sub_pos.2 ht).le) (Real.exp_pos _).le) hsmall
  -- the dynamics are Lipschitz on `S`
  have hlipS : ∀ s < M.orders.length, ∀ tau ∈ Set.Icc M.tau0 M.tau1, ∀ p q d, S ((List.range ocp.nx).map p) →
      S ((List.range ocp.nx).map q) → ocp.CloseBy p q d → ∀ j < ocp.nx,
      |ocp.scaleX.getD j 0 * (F.f (ocp.argWith M T ph s tau p) j - F.f (ocp.argWith M T ph s tau q) j)| ≤ Lx * d := by
    intro s hs tau htau p q d hp hq hpq j hj
    obtain ⟨b1, b2, b3⟩ := time_bounds hM hI ht hw hs
    have := hlip (ocp.argWith M T ph s tau p) (ocp.argWith M T ph s tau q) hp hq
      (hU s hs _ htau) (hU s hs _ htau) ⟨b2 _ htau.1, b3 _ htau.2⟩ ⟨b2 _ htau.1, b3 _ htau.2⟩ rfl rfl d 0
      (fun k hk => by
        have e1 : (ocp.argWith M T ph s tau p).x.getD k 0 = p k := getD_range_map p hk
        have e2 : (ocp.argWith M T ph s tau q).x.getD k 0 = q k := getD_range_map q hk
        rw [e1, e2]; exact hpq k hk)
      (fun k hk => by simp [OCP.argWith]) j hj
    simpa [OCP.argWith] using this
  set F' := ocp.confine F ret with hF'
  -- the response of the confined dynamics
  obtain ⟨X, hX, hX0⟩ := C79_exists (F := F') hM hI ht hw hpos hLx
    (fun s hs tau htau p q d hpq j hj => by
      rw [hF', confine_argWith hret hpos, confine_argWith hret hpos]
      exact hlipS s hs tau htau _ _ d (hret.into p) (hret.into q) (hret.near p q d hpq) j hj)
    (fun s hs p j hj => by
      simp only [hF', confine_argWith hret hpos]
      exact field_continuous hM hI ht hw hpos hlip hU hs (hret.into p) hj)
    (fun j => T.x ph 0 j)
  have hdefect' : ∀ s < M.orders.length, ∀ tau ∈ Set.Ico M.tau0 M.tau1, ∀ j < ocp.nx,
      |ocp.scaleX.getD j 0 * ocp.defect M T F' ph s tau j| ≤ M.halfWidth T ph s * E := by
    intro s hs tau htau j hj
    have e1 : ocp.defect M T F' ph s tau j = ocp.defect M T F ph s tau j := by
      unfold OCP.defect
      have hst : S ((List.range ocp.nx).map (M.stateAt T ph s tau)) :=
        hroom s hs tau ⟨htau.1, htau.2.le⟩ _ fun k hk => by simpa using hr0
      have := confine_of_mem (F := F) (M := M) (T := T) (ph := ph) hret hpos s tau hst
      have e2 : ocp.argWith M T ph s tau (M.stateAt T ph s tau) = ocp.pArgAt M T ph s tau := rfl
      rw [e2] at this
      rw [hF', this]
    rw [e1]
    exact hdefect s hs tau htau j hj
  have hclose : ∀ s < M.orders.length, ∀ tau ∈ Set.Icc M.tau0 M.tau1,
      ocp.CloseBy (M.stateAt T ph s tau) (fun k => X k (M.time T ph s tau))
        (E * (M.time T ph s tau - T.t0 ph) * Real.exp (Lx * (M.time T ph s tau - T.t0 ph))) := by
    intro s hs tau htau
    have := rate_error (δ := 0) (S := fun _ => True) hM hI ht hw hpos hX hLx
      (fun s hs tau htau p q d _ _ hpq j hj => by
        rw [hF', confine_argWith hret hpos, confine_argWith hret hpos]
        exact hlipS s hs tau ⟨htau.1, htau.2.le⟩ _ _ d (hret.into p) (hret.into q) (hret.near p q d hpq) j hj)
      ⟨fun _ _ _ _ => trivial, fun _ _ _ _ => trivial⟩ hE hdefect' le_rfl
      (fun k hk => by simp [hX0 k hk]) hs htau
    rwa [zero_add] at this
  have hr : ∀ s < M.orders.length, ∀ tau ∈ Set.Icc M.tau0 M.tau1,
      S ((List.range ocp.nx).map fun k => X k (M.time T ph s tau)) := by
    intro s hs tau htau
    obtain ⟨b1, b2, b3⟩ := time_bounds hM hI ht hw hs
    have d0 : 0 ≤ M.time T ph s tau - T.t0 ph := sub_nonneg.2 (b2 _ htau.1)
    have d1 : M.time T ph s tau - T.t0 ph ≤ T.tf ph - T.t0 ph := sub_le_sub_right (b3 _ htau.2) _
    refine hroom s hs tau htau _ fun k hk => (hclose s hs tau htau k hk).trans (le_trans ?_ hsmall)
    exact mul_le_mul (mul_le_mul_of_nonneg_left d1 hE)
      (Real.exp_le_exp.2 (mul_le_mul_of_nonneg_left d1 hLx)) (Real.exp_pos _).le (mul_nonneg hE (d0.trans d1))
  have hXF : Response ocp M T F ph X := by
    refine ⟨hX.cont, fun s hs tau htau j hj => ?_⟩
    have := hX.ode s hs tau htau j hj
    rwa [hF', confine_of_mem hret hpos s tau (hr s hs tau ⟨htau.1, htau.2.le⟩)] at this
  refine ⟨X, hXF, hX0, hr, fun s hs tau htau j hj => hclose s hs tau htau j hj, fun X' hX' h0' hS' => ?_⟩
  exact C79_unique hM hI ht hw hpos hLx
    (fun s hs tau htau p q d hp hq hpq j hj => hlipS s hs tau ⟨htau.1, htau.2.le⟩ p q d hp hq hpq j hj) hX' hXF hS'
    (fun s hs tau htau => hr s hs tau ⟨htau.1, htau.2.le⟩) (fun k hk => by rw [h0' k hk, hX0 k hk])

/-! ### Boxes of states -/

theorem box_retraction {lo hi : Nat → ℝ} (hb : ∀ k < ocp.nx, lo k ≤ hi k) :
    Retraction ocp (ocp.InBox lo hi) fun p k => max (lo k) (min (hi k) (p k)) := by
  refine ⟨fun p k hk => ?_, fun p q d h k hk => ?_, fun p hp k hk => ?_⟩
  · rw [getD_range_map _ hk]
    exact ⟨le_max_left _ _, max_le (hb k hk) (min_le_left _ _)⟩
  · refine le_trans ?_ (h k hk)
    rw [abs_mul, abs_mul]
    refine mul_le_mul_of_nonneg_left ?_ (abs_nonneg _)
    refine (abs_max_sub_max_le_max _ _ _ _).trans ?_
    refine max_le (by simp) ((abs_min_sub_min_le_max _ _ _ _).trans (max_le (by simp) le_rfl))
  · have := hp k hk
    rw [getD_range_map _ hk] at this
    rw [min_eq_right this.2, max_eq_right this.1]

theorem OCP.KeepsOff.room {lo hi : Nat → ℝ} (h : ocp.KeepsOff M T ph lo hi r)
    (hpos : ∀ j < ocp.nx, 0 < ocp.scaleX.getD j 0) : ∀ s < M.orders.length, ∀ tau ∈ Set.Icc M.tau0 M.tau1, ∀ p,
      ocp.CloseBy (M.stateAt T ph s tau) p r → ocp.InBox lo hi ((List.range ocp.nx).map p) := by
  intro s hs tau htau p hp k hk
  rw [getD_range_map _ hk]
  have h1 := h s hs tau htau k hk
  have h2 := abs_le.1 (hp k hk)
  rw [mul_sub] at h2
  constructor <;> refine le_of_mul_le_mul_left ?_ (hpos k hk) <;> linarith [h1.1, h1.2, h2.1, h2.2]

/-- A trajectory that keeps off the sides of a box can be in it only if the box has an inside. -/
theorem OCP.KeepsOff.box (hM : M.Good) (hI : M.Inside) {lo hi : Nat → ℝ} (h : ocp.KeepsOff M T ph lo hi r) (hr : 0 ≤ r)
    (hpos : ∀ j < ocp.nx, 0 < ocp.scaleX.getD j 0) : ∀ k < ocp.nx, lo k ≤ hi k := by
  intro k hk
  have := h 0 (List.length_pos_iff.2 hM.nonempty) M.tau0 ⟨le_rfl, (hI.tau_lt hM).le⟩ k hk
  refine le_of_mul_le_mul_left ?_ (hpos k hk)
  linarith [this.1, this.2]

/-- **C82** Beforehand: if the dynamics are Lipschitz on a box of states, a trajectory that is collocated up to `κ` per unit of time keeps a distance `r` from its sides, and
the bound of C82 is at most `r`, then the exact response to the controls of the solution exists on the whole phase, and is within that
bound of it. Nothing is assumed about the response. -/
theorem C82_fine {κ : ℝ} {lo hi : Nat → ℝ} (hM : M.Good) (hI : M.Inside) (ht : T.t0 ph < T.tf ph) (hw : FullWidths M T ph)
    (hpos : ∀ j < ocp.nx, 0 < ocp.scaleX.getD j 0) (hκ : 0 ≤ κ) (hC : CollocationRate κ ocp M T ph) (hF : ocp.dynamics[ph]? = some F)
    (h : Tame ocp M T F ph (ocp.InBox lo hi) U C B Lx Lu Lt H e) (hroom : ocp.KeepsOff M T ph lo hi r)
    (hsmall : C * (Lx * (C * (B + κ) * H) + Lu * e + Lt * H + κ) * (T.tf ph - T.t0 ph) * Real.exp (Lx * (T.tf ph - T.t0 ph)) ≤ r) :
    ∃ X, Shadow ocp M T F ph (ocp.InBox lo hi) (C * (Lx * (C * (B + κ) * H) + Lu * e + Lt * H + κ)) Lx X := by
  have hC0 : 0 ≤ C := zero_le_one.trans (h.lebesgue.one_le hM hI)
  have h00 : 0 < M.orders.length := List.length_pos_iff.2 hM.nonempty
  have hH0 : 0 ≤ H := (mul_pos (sub_pos.2 ht) (hw.pos 0 h00)).le.trans (h.lasts 0 h00)
  have hE : 0 ≤ C * (Lx * (C * (B + κ) * H) + Lu * e + Lt * H + κ) := by
    have h1 := mul_nonneg h.Lx (mul_nonneg (mul_nonneg hC0 (add_nonneg h.B hκ)) hH0)
    have h2 := mul_nonneg h.Lu h.e
    have h3 := mul_nonneg h.Lt hH0
    exact mul_nonneg hC0 (by linarith)
  have hr0 : 0 ≤ r := le_trans (mul_nonneg (mul_nonneg hE (sub_pos.2 ht).le) (Real.exp_pos _).le) hsmall
  exact C79_shadow hM hI ht hw hpos h.Lx h.lipschitz h.controls hE
    (fun s hs tau htau j hj => C82_small_defect hM hI ht hw hκ hC hF h hs ⟨htau.1, htau.2.le⟩ hj)
    (box_retraction (hroom.box hM hI hr0 hpos)) (hroom.room hpos) hsmall

/-- **C82** Dynamics that are Lipschitz everywhere: the exact response to the controls of a trajectory that is
collocated up to `κ` per unit of time always exists. -/
theorem C82_global {κ : ℝ} (hM : M.Good) (hI : M.Inside) (ht : T.t0 ph < T.tf ph) (hw : FullWidths M T ph)
    (hpos : ∀ j < ocp.nx, 0 < ocp.scaleX.getD j 0) (hκ : 0 ≤ κ) (hC : CollocationRate κ ocp M T ph) (hF : ocp.dynamics[ph]? = some F)
    (h : Tame ocp M T F ph (fun _ => True) U C B Lx Lu Lt H e) :
    ∃ X, Shadow ocp M T F ph (fun _ => True) (C * (Lx * (C * (B + κ) * H) + Lu * e + Lt * H + κ)) Lx X := by
  have hC0 : 0 ≤ C := zero_le_one.trans (h.lebesgue.one_le hM hI)
  have h00 : 0 < M.orders.length := List.length_pos_iff.2 hM.nonempty
  have hH0 : 0 ≤ H := (mul_pos (sub_pos.2 ht) (hw.pos 0 h00)).le.trans (h.lasts 0 h00)
  have hE : 0 ≤ C * (Lx * (C * (B + κ) * H) + Lu * e + Lt * H + κ) := by
    have h1 := mul_nonneg h.Lx (mul_nonneg (mul_nonneg hC0 (add_nonneg h.B hκ)) hH0)
    have h2 := mul_nonneg h.Lu h.e
    have h3 := mul_nonneg h.Lt hH0
    exact mul_nonneg hC0 (by linarith)
  exact C79_shadow hM hI ht hw hpos h.Lx h.lipschitz h.controls hE
    (fun s hs tau htau j hj => C82_small_defect hM hI ht hw hκ hC hF h hs ⟨htau.1, htau.2.le⟩ hj)
    (ret := fun p => p) ⟨fun _ => trivial, fun _ _ _ h => h, fun _ _ _ _ => rfl⟩ (fun _ _ _ _ _ _ => trivial) le_rfl

/-- **C79** Beforehand: if the dynamics are Lipschitz on a box of states, a collocated solution keeps a distance `r` from its sides, and
the bound of C77 is at most `r`, then the exact response to the controls of the solution exists on the whole phase, and is within that
bound of it. Nothing is assumed about the response. -/
theorem C79_fine {lo hi : Nat → ℝ} (hM : M.Good) (hI : M.Inside) (ht : T.t0 ph < T.tf ph) (hw : FullWidths M T ph)
    (hpos : ∀ j < ocp.nx, 0 < ocp.scaleX.getD j 0) (hC : CollocationOK ocp M T ph) (hF : ocp.dynamics[ph]? = some F)
    (h : Tame ocp M T F ph (ocp.InBox lo hi) U C B Lx Lu Lt H e) (hroom : ocp.KeepsOff M T ph lo hi r)
    (hsmall : C * (Lx * (C * B * H) + Lu * e + Lt * H) * (T.tf ph - T.t0 ph) * Real.exp (Lx * (T.tf ph - T.t0 ph)) ≤ r) :
    ∃ X, Shadow ocp M T F ph (ocp.InBox lo hi) (C * (Lx * (C * B * H) + Lu * e + Lt * H)) Lx X := by
  have := C82_fine hM hI ht hw hpos le_rfl hC.rate hF h hroom (by rwa [add_zero, add_zero])
  rwa [add_zero, add_zero] at this

/-- **C79** Dynamics that are Lipschitz everywhere: the exact response always exists. -/
theorem C79_global (hM : M.Good) (hI : M.Inside) (ht : T.t0 ph < T.tf ph) (hw : FullWidths M T ph)
    (hpos : ∀ j < ocp.nx, 0 < ocp.scaleX.getD j 0) (hC : CollocationOK ocp M T ph) (hF : ocp.dynamics[ph]? = some F)
    (h : Tame ocp M T F ph (fun _ => True) U C B Lx Lu Lt H e) :
    ∃ X, Shadow ocp M T F ph (fun _ => True) (C * (Lx * (C * B * H) + Lu * e + Lt * H)) Lx X := by
  have := C82_global hM hI ht hw hpos le_rfl hC.rate hF h
  rwa [add_zero, add_zero] at this

end

section
variable {V : Type} {w : Outside ℝ V} {ptp : List (List Nat)} {n : Nat} {arg : OrdersArg} {scheme : String}
  {a : SolveArgs ℝ V} {rx rdx : Bool}

/-- **C79** The module-level `solve` with `n` segments of equal width and a sound solver. What is shown are the node values of a
trajectory; where the dynamics are Lipschitz on a box, off the sides of which the trajectory keeps by the bound of C77, the system
given the controls that are shown really does move within that bound of the states that are shown. -/
theorem C79_solve {nlpsol : SolverCall ℝ V → Py (List ℝ)} {s : Session ℝ V} {p : Post ℝ}
    {r : Option (PyDict (ResidVal ℝ))} (hrun : mpSolve w nlpsol ocp ptp n arg scheme a rx rdx = .ok (s, p, r))
    (hv : ValidOCP ocp) (hs : ocp.SettingsOK) (hsc : ocp.PosScales) (hM : MeshFor w scheme n arg M)
    (hn : M.orders.length = n) (hI : M.Inside) (hnone : a.widths = none)
    (hsound : ∀ c z, nlpsol c = .ok z → c.IsSolution z) :
    ∃ T, SolvesOCP ocp M T ∧ p.Shows ocp M T ∧ ∀ ph < ocp.nPhases, T.t0 ph < T.tf ph → ∀ F, ocp.dynamics[ph]? = some F →
      ∀ lo hi U C B Lx Lu Lt e ρ, Tame ocp M T F ph (ocp.InBox lo hi) U C B Lx Lu Lt ((T.tf ph - T.t0 ph) / n) e →
      ocp.KeepsOff M T ph lo hi ρ →
      C * (Lx * (C * B * ((T.tf ph - T.t0 ph) / n)) + Lu * e + Lt * ((T.tf ph - T.t0 ph) / n)) * (T.tf ph - T.t0 ph) *
        Real.exp (Lx * (T.tf ph - T.t0 ph)) ≤ ρ →
      ∃ X, Shadow ocp M T F ph (ocp.InBox lo hi)
        (C * (Lx * (C * B * ((T.tf ph - T.t0 ph) / n)) + Lu * e + Lt * ((T.tf ph - T.t0 ph) / n))) Lx X := by
  obtain ⟨T, hT, hw, hsh⟩ := C52_solve_feasible hrun hv hs hsc hM hsound
  rw [hnone] at hw
  have hn0 : 0 < n := by rw [← hn]; exact List.length_pos_iff.2 hM.good.nonempty
  refine ⟨T, hT, hsh, fun ph hp ht F hF lo hi U C B Lx Lu Lt e ρ htame hroom hsmall => ?_⟩
  exact C79_fine hM.good hI ht (hw.equal_full hn hn0 hp) (fun j hj => by
    rw [List.getD_eq_getElem _ _ (by rw [hv.scaleX]; exact hj)]; exact hsc.x _ (List.getElem_mem _))
    (hT.1.dynamics ph hp) hF htame hroom hsmall

end

/-! ### A concrete case: `x' = u + x²/100`, which is Lipschitz on bounded sets only -/

/-- The dynamics. -/
noncomputable def boxF : VFun (PArg ℝ) ℝ := ⟨1, fun p _ => p.u.getD 0 0 + p.x.getD 0 0 ^ 2 / 100⟩

/-- `ocpR` with these dynamics. -/
noncomputable def ocpBox : OCP ℝ := { ocpR with dynamics := [boxF] }

/-- States `0, 1/2, 1/2` as in `trajStep`, with the controls that the collocation equations then demand. -/
noncomputable def trajBox : Traj ℝ :=
  { trajStep with u := fun _ i _ => if i = 0 then 1 else if i = 1 then 399 / 400 else -1 / 400 }

theorem boxPieces : meshGrow.piece (fun k => trajBox.x 0 k 0) 0 = Polynomial.C (1 / 4) * Polynomial.X + Polynomial.C (1 / 4) ∧
    meshGrow.piece (fun k => trajBox.x 0 k 0) 1 = Polynomial.C (1 / 2) ∧
    meshGrow.piece (fun k => trajBox.u 0 k 0) 0 = Polynomial.C (-1 / 800) * Polynomial.X + Polynomial.C (799 / 800) ∧
    meshGrow.piece (fun k => trajBox.u 0 k 0) 1 = Polynomial.C (-1 / 2) * Polynomial.X + Polynomial.C (199 / 400) := by
  refine ⟨stepPieces.1, stepPieces.2.1, ?_, ?_⟩ <;> apply meshGrow_good.piece_eq (by simp [meshGrow]) <;>
    first
    | exact degree_linear_le.trans_lt (by simp [meshGrow, Mesh.order])
    | (intro i hi
       have : i ≤ 1 := hi
       interval_cases i <;> norm_num [meshGrow, Mesh.node, Mesh.order, Mesh.idx, segStart, trajBox])

/-- The hypotheses of `C79_fine` are met, with the box `[-4, 4]`: there is an exact motion that ends within `6` scaled units, that is
within `3`, of the value `1/2` that is shown. -/
theorem C79_example : CollocationOK ocpBox meshGrow trajBox 0 ∧ FullWidths meshGrow trajBox 0 ∧
    Tame ocpBox meshGrow trajBox boxF 0 (ocpBox.InBox (fun _ => -4) fun _ => 4) (fun _ => True) 1 2 (2 / 25) 2 0 (1 / 2) 1 ∧
    ocpBox.KeepsOff meshGrow trajBox 0 (fun _ => -4) (fun _ => 4) 7 ∧
    ∃ X, Response ocpBox meshGrow trajBox boxF 0 X ∧ X 0 0 = 0 ∧ |1 / 2 - X 0 1| ≤ 3 := by
  have hcol : CollocationOK ocpBox meshGrow trajBox 0 := by
    intro F hF j hj s i hi
    obtain rfl : j = 0 := by simpa [ocpBox, ocpR] using hj
    have hF : boxF = F := by simpa [ocpBox] using hF
    rw [← hF]
    obtain ⟨h1, h2, h3⟩ := hi
    have h1 : s < 2 := h1
    interval_cases s
    · have h2 : i ≤ 1 := h2
      rw [boxPieces.1]
      interval_cases i <;>
        norm_num [OCP.pArg, ocpBox, ocpR, Mesh.idx, segStart, trajBox, trajStep, meshGrow, Mesh.halfWidth, boxF]
    · have h2 : i ≤ 1 := h2
      obtain rfl : i = 1 := by omega
      rw [boxPieces.2.1]
      norm_num [OCP.pArg, ocpBox, ocpR, Mesh.idx, segStart, trajBox, trajStep, meshGrow, Mesh.halfWidth, boxF]
  have hwid : FullWidths meshGrow trajBox 0 := by
    refine ⟨fun _ _ => by norm_num [trajBox, trajStep], ?_⟩
    simp [meshGrow, trajBox, trajStep]
  have hord : ∀ s < meshGrow.orders.length, meshGrow.order s = 1 := by
    intro s hs
    have hs : s < 2 := hs
    interval_cases s <;> rfl
  have hstate : ∀ s < meshGrow.orders.length, ∀ tau ∈ Set.Icc meshGrow.tau0 meshGrow.tau1,
      0 ≤ meshGrow.stateAt trajBox 0 s tau 0 ∧ meshGrow.stateAt trajBox 0 s tau 0 ≤ 1 / 2 := by
    intro s hs tau htau
    have hs : s < 2 := hs
    obtain ⟨a1, a2⟩ := htau
    simp only [meshGrow] at a1 a2
    unfold Mesh.stateAt
    interval_cases s
    · rw [boxPieces.1]; simp; constructor <;> linarith
    · rw [boxPieces.2.1]; norm_num
  have hsx : ocpBox.scaleX.getD 0 0 = (2 : ℝ) := by simp [ocpBox, ocpR]
  have hnx : ∀ {j : Nat}, j < ocpBox.nx → j = 0 := fun hj => by simpa [ocpBox, ocpR] using hj
  have hkeep : ocpBox.KeepsOff meshGrow trajBox 0 (fun _ => -4) (fun _ => 4) 7 := by
    intro s hs tau htau k hk
    obtain rfl := hnx hk
    rw [hsx]
    have := hstate s hs tau htau
    constructor <;> linarith [this.1, this.2]
  have htame : Tame ocpBox meshGrow trajBox boxF 0 (ocpBox.InBox (fun _ => -4) fun _ => 4) (fun _ => True) 1 2 (2 / 25) 2 0
      (1 / 2) 1 := by
    constructor
    case lebesgue =>
      intro s hs tau _
      rw [hord s hs]
      simp
    case rates =>
      intro s i hi j hj
      obtain rfl := hnx hj
      rw [hsx]
      simp only [boxF, ocpBox, ocpR, OCP.pArg, trajBox, trajStep]
      simp only [List.range_one, List.map_cons, List.map_nil, List.getD_cons_zero]
      split
      · norm_num
      · split <;> norm_num
    case lipschitz =>
      intro p q hp hq _ _ _ _ _ _ dx du hx hu j hj
      obtain rfl := hnx hj
      have h1 := hx 0 (by simp [ocpBox, ocpR])
      have h2 := hu 0 (by simp [ocpBox, ocpR])
      have h3 := hp 0 (by simp [ocpBox, ocpR])
      have h4 := hq 0 (by simp [ocpBox, ocpR])
      have hsu : ocpBox.scaleU.getD 0 0 = (1 : ℝ) := by simp [ocpBox, ocpR]
      rw [hsx] at h1 ⊢
      rw [hsu, one_mul] at h2
      simp only [boxF]
      set x := p.x.getD 0 0
      set y := q.x.getD 0 0
      have e : 2 * (p.u.getD 0 0 + x ^ 2 / 100 - (q.u.getD 0 0 + y ^ 2 / 100)) =
          2 * (p.u.getD 0 0 - q.u.getD 0 0) + (x + y) / 100 * (2 * (x - y)) := by ring
      rw [e]
      refine (abs_add_le _ _).trans ?_
      rw [abs_mul 2, abs_of_pos (by norm_num : (0 : ℝ) < 2), abs_mul]
      have h5 : |(x + y) / 100| ≤ 2 / 25 := by rw [abs_le]; constructor <;> linarith [h3.1, h3.2, h4.1, h4.2]
      have := mul_le_mul h5 h1 (abs_nonneg _) (by norm_num)
      linarith
    case lasts => intro s hs; norm_num [trajBox, trajStep]
    case varies =>
      intro s hs tau ht tau' ht' k hk
      obtain rfl : k = 0 := by simpa [ocpBox, ocpR] using hk
      have hs : s < 2 := hs
      have e : ocpBox.scaleU.getD 0 0 = (1 : ℝ) := by simp [ocpBox, ocpR]
      obtain ⟨a1, a2⟩ := ht
      obtain ⟨a3, a4⟩ := ht'
      simp only [meshGrow] at a1 a2 a3 a4
      rw [e, one_mul]
      unfold Mesh.controlAt
      interval_cases s
      · rw [boxPieces.2.2.1, abs_le]; simp; constructor <;> linarith
      · rw [boxPieces.2.2.2, abs_le]; simp; constructor <;> linarith
    case states =>
      intro s hs tau htau k hk
      obtain rfl := hnx hk
      rw [getD_range_map _ hk]
      have := hstate s hs tau htau
      constructor <;> linarith [this.1, this.2]
    all_goals norm_num
  have hF : ocpBox.dynamics[0]? = some boxF := by simp [ocpBox]
  have hexp : Real.exp (2 / 25) ≤ 2.8 := by
    have h1 : Real.exp (2 / 25) ≤ Real.exp 1 := Real.exp_le_exp.2 (by norm_num)
    linarith [Real.exp_one_lt_d9]
  obtain ⟨X, hX⟩ := C79_fine (r := 7) meshGrow_good meshGrow_inside (by norm_num [trajBox, trajStep]) hwid
    (fun j hj => by obtain rfl := hnx hj; rw [hsx]; norm_num) hcol hF htame hkeep (by
      have e : (trajBox.tf 0 - trajBox.t0 0 : ℝ) = 1 := by norm_num [trajBox, trajStep]
      rw [e]; norm_num at hexp ⊢; linarith)
  refine ⟨hcol, hwid, htame, hkeep, X, hX.response, ?_, ?_⟩
  · have := hX.start 0 (by simp [ocpBox, ocpR])
    simpa [trajBox, trajStep] using this
  · have h1 := hX.close 1 (by simp [meshGrow]) 1 (by norm_num [meshGrow]) 0 (by simp [ocpBox, ocpR])
    have e1 : meshGrow.time trajBox 0 1 1 = 1 := by
      have := stepTime 1 1
      have e : meshGrow.time trajBox 0 1 1 = meshGrow.time trajStep 0 1 1 := rfl
      rw [e, this]; norm_num
    have e2 : meshGrow.stateAt trajBox 0 1 1 0 = 1 / 2 := by
      unfold Mesh.stateAt; rw [boxPieces.2.1]; simp
    have e3 : trajBox.t0 0 = (0 : ℝ) := rfl
    rw [e1, e2, hsx, e3, abs_mul] at h1
    norm_num at h1 hexp ⊢
    linarith

end MPOpt
