import Verif.Lemmas.Clock
import Verif.Spec.Continuous
import Verif.Props.EndToEnd
import Verif.Props.Scaling
import Mathlib.Analysis.Calculus.Deriv.Polynomial
import Mathlib.Analysis.Calculus.Deriv.Mul
import Mathlib.MeasureTheory.Integral.IntervalIntegral.FundThmCalculus

/-! # C56–C58: exact solutions of the continuous-time problem and the transcription -/

set_option autoImplicit false

namespace MPOpt
open Polynomial

variable {ocp : OCP ℝ} {M : Mesh ℝ} {C : CTraj} {T : Traj ℝ}

/-- Nodes lie between the ends of the collocation interval. -/
def Mesh.Inside (M : Mesh ℝ) : Prop := ∀ p ∈ M.orders, ∀ v ∈ M.nodes p, M.tau0 ≤ v ∧ v ≤ M.tau1

theorem Mesh.Inside.node (hI : M.Inside) (hM : M.Good) {s i : Nat} (hs : s < M.orders.length)
    (hi : i ≤ M.order s) : M.tau0 ≤ M.node s i ∧ M.node s i ≤ M.tau1 := by
  have hp := hM.order_mem hs
  apply hI _ hp
  unfold Mesh.node
  have hl := hM.length _ hp
  rw [List.getD_eq_getElem _ _ (by omega)]
  exact List.getElem_mem _

theorem Mesh.Inside.tau_lt (hI : M.Inside) (hM : M.Good) : M.tau0 < M.tau1 := by
  have h0 : 0 < M.orders.length := List.length_pos_iff.2 hM.nonempty
  have h := (hI.node hM h0 (Nat.zero_le _)).2
  rw [hM.node_first h0] at h
  exact lt_of_le_of_ne h fun e => hM.tau_ne (by rw [e, sub_self])

theorem Mesh.Inside.node_pos (hI : M.Inside) (hM : M.Good) {s i : Nat} (hs : s < M.orders.length)
    (hi : i ≤ M.order s) (h1 : 1 ≤ i) : M.tau0 < M.node s i := by
  refine lt_of_le_of_ne (hI.node hM hs hi).1 fun e => ?_
  have := @Mesh.Good.node_injOn ℝ _ M hM s hs i (by simp; omega) 0 (by simp)
    (by rw [hM.node_first hs, e])
  omega

/-- Widths of phase `ph`: positive, with sum 1. -/
structure FullWidths (M : Mesh ℝ) (T : Traj ℝ) (ph : Nat) : Prop where
  pos : ∀ s < M.orders.length, 0 < T.w s ph
  sum : ∑ s ∈ Finset.range M.orders.length, T.w s ph = 1

/-- The times of one segment. -/
theorem time_bounds (hM : M.Good) (hI : M.Inside) {ph s : Nat} (ht : T.t0 ph < T.tf ph) (hw : FullWidths M T ph)
    (hs : s < M.orders.length) :
    0 < M.halfWidth T ph s ∧ (∀ tau, M.tau0 ≤ tau → T.t0 ph ≤ M.time T ph s tau) ∧
      ∀ tau, tau ≤ M.tau1 → M.time T ph s tau ≤ T.tf ph := by
  have hh : 0 < M.halfWidth T ph s :=
    mul_pos (div_pos (sub_pos.2 ht) (sub_pos.2 (hI.tau_lt hM))) (hw.pos s hs)
  have hn : ∀ n ≤ M.orders.length, 0 ≤ ∑ r ∈ Finset.range n, T.w r ph ∧ ∑ r ∈ Finset.range n, T.w r ph ≤ 1 := by
    intro n hn
    refine ⟨Finset.sum_nonneg fun r hr => (hw.pos r (by have := Finset.mem_range.1 hr; omega)).le, ?_⟩
    rw [← hw.sum]
    apply Finset.sum_le_sum_of_subset_of_nonneg
    · intro r hr; have := Finset.mem_range.1 hr; exact Finset.mem_range.2 (by omega)
    · intro r hr _; exact (hw.pos r (Finset.mem_range.1 hr)).le
  refine ⟨hh, fun tau htau => ?_, fun tau htau => ?_⟩
  · have h1 := mul_nonneg (sub_pos.2 ht).le (hn s hs.le).1
    have h2 := mul_nonneg hh.le (sub_nonneg.2 htau)
    unfold Mesh.time; linarith
  · have h1 : M.time T ph s tau ≤ M.time T ph s M.tau1 := by
      unfold Mesh.time
      have := mul_le_mul_of_nonneg_left (sub_le_sub_right htau M.tau0) hh.le
      linarith
    rw [(C13_segment_ends hM T ph).2.1 s] at h1
    have h2 := mul_le_mul_of_nonneg_left (hn (s + 1) hs).2 (sub_pos.2 ht).le
    linarith

/-- Samples at all nodes, also at the shared one seen from the right. -/
theorem samples_all (hM : M.Good) {f : ℝ → ℝ} {v : Nat → ℝ} {ph : Nat}
    (h : ∀ s i, M.Owns s i → v (M.idx s i) = f (M.time T ph s (M.node s i))) {s i : Nat}
    (hs : s < M.orders.length) (hi : i ≤ M.order s) : v (M.idx s i) = f (M.time T ph s (M.node s i)) := by
  by_cases ho : s = 0 ∨ 1 ≤ i
  · exact h s i ⟨hs, hi, ho⟩
  · obtain ⟨s, rfl⟩ : ∃ r, s = r + 1 := ⟨s - 1, by omega⟩
    obtain rfl : i = 0 := by omega
    have hs' : s < M.orders.length := by omega
    have e : M.idx (s + 1) 0 = M.idx s (M.order s) := by
      unfold Mesh.idx
      rw [segStart_succ _ hs', Mesh.order_eq hs', Nat.add_zero]
    rw [e, h s (M.order s) ⟨hs', le_rfl, Or.inr (hM.order_pos hs')⟩, hM.node_first hs, hM.node_last hs',
      (C13_segment_ends hM T ph).2.2.1]

/-- Break times in terms of the sampled trajectory. -/
theorem breakTime_eq (hM : M.Good) {ph : Nat} (h0 : T.t0 ph = C.t0 ph) (hf : T.tf ph = C.tf ph) (s : Nat) :
    C.breakTime T.w ph s = M.time T ph s M.tau0 ∧ C.breakTime T.w ph (s + 1) = M.time T ph s M.tau1 := by
  refine ⟨?_, ?_⟩
  · unfold CTraj.breakTime Mesh.time; rw [h0, hf]; ring
  · rw [(C13_segment_ends hM T ph).2.1]; unfold CTraj.breakTime; rw [h0, hf]

/-- On a segment the interpolant of the samples of a polynomial is that polynomial. -/
theorem piece_of_poly (hM : M.Good) (hI : M.Inside) {f : ℝ → ℝ} {v : Nat → ℝ} {ph s : Nat}
    (hh : 0 < M.halfWidth T ph s) (hs : s < M.orders.length)
    (h : ∀ s i, M.Owns s i → v (M.idx s i) = f (M.time T ph s (M.node s i))) {P : ℝ[X]}
    (hP : P.natDegree ≤ M.order s)
    (hf : ∀ t ∈ Set.Icc (M.time T ph s M.tau0) (M.time T ph s M.tau1), f t = P.eval t) :
    M.piece v s = P.comp (M.clockPoly T ph s) := by
  apply hM.piece_eq hs
  · refine degree_le_natDegree.trans_lt ?_
    have := (M.clockPoly_comp T ph s P 0).2.2
    exact_mod_cast (by omega : (P.comp (M.clockPoly T ph s)).natDegree < M.order s + 1)
  · intro i hi
    rw [(M.clockPoly_comp T ph s P _).1, samples_all hM h hs hi, hf]
    obtain ⟨h1, h2⟩ := hI.node hM hs hi
    exact ⟨by unfold Mesh.time; nlinarith, by unfold Mesh.time; nlinarith⟩

/-- A polynomial that agrees with `f` to the left of `t` has the left derivative of `f`. -/
theorem deriv_left {f : ℝ → ℝ} {P : ℝ[X]} {a t d : ℝ} (hat : a < t) (hd : HasDerivWithinAt f d (Set.Iic t) t)
    (he : ∀ r ∈ Set.Icc a t, f r = P.eval r) : (derivative P).eval t = d := by
  have h1 : HasDerivWithinAt f d (Set.Icc a t) t := hd.mono fun r hr => hr.2
  have h2 : HasDerivWithinAt f ((derivative P).eval t) (Set.Icc a t) t :=
    (P.hasDerivAt t).hasDerivWithinAt.congr he (he t ⟨hat.le, le_rfl⟩)
  exact (uniqueDiffOn_Icc hat t ⟨hat.le, le_rfl⟩).eq_deriv _ h2 h1

theorem deriv_right {f : ℝ → ℝ} {P : ℝ[X]} {b t d : ℝ} (hat : t < b) (hd : HasDerivWithinAt f d (Set.Ici t) t)
    (he : ∀ r ∈ Set.Icc t b, f r = P.eval r) : (derivative P).eval t = d := by
  have h1 : HasDerivWithinAt f d (Set.Icc t b) t := hd.mono fun r hr => hr.1
  have h2 : HasDerivWithinAt f ((derivative P).eval t) (Set.Icc t b) t :=
    (P.hasDerivAt t).hasDerivWithinAt.congr he (he t ⟨le_rfl, hat.le⟩)
  exact (uniqueDiffOn_Icc hat t ⟨le_rfl, hat.le⟩).eq_deriv _ h2 h1

theorem Samples.pArg (h : Samples ocp M C T) {ph : Nat} (hp : ph < ocp.nPhases) {s i : Nat} (ho : M.Owns s i) :
    ocp.pArg T ph (M.idx s i) (M.time T ph s (M.node s i)) = ocp.cArg C ph (M.time T ph s (M.node s i)) := by
  have e1 : (List.range ocp.nx).map (T.x ph (M.idx s i)) =
      (List.range ocp.nx).map fun j => C.x ph j (M.time T ph s (M.node s i)) :=
    List.map_congr_left fun j hj => h.x ph hp j (List.mem_range.1 hj) s i ho
  have e2 : (List.range ocp.nu).map (T.u ph (M.idx s i)) =
      (List.range ocp.nu).map fun j => C.u ph j (M.time T ph s (M.node s i)) :=
    List.map_congr_left fun j hj => h.u ph hp j (List.mem_range.1 hj) s i ho
  have e3 : (List.range ocp.na).map (T.a ph) = (List.range ocp.na).map (C.a ph) :=
    List.map_congr_left fun k hk => h.a ph hp k (List.mem_range.1 hk)
  unfold OCP.pArg OCP.cArg
  rw [e1, e2, e3]

/-- First and last node. -/
theorem Samples.ends (h : Samples ocp M C T) (hM : M.Good) {ph : Nat} (hp : ph < ocp.nPhases)
    (hw : FullWidths M T ph) : (∀ j < ocp.nx, T.x ph 0 j = C.x ph j (C.t0 ph)) ∧
      (∀ j < ocp.nx, T.x ph (M.N - 1) j = C.x ph j (C.tf ph)) ∧
      (∀ j < ocp.nu, T.u ph 0 j = C.u ph j (C.t0 ph)) ∧ (∀ j < ocp.nu, T.u ph (M.N - 1) j = C.u ph j (C.tf ph)) := by
  have h0 : 0 < M.orders.length := List.length_pos_iff.2 hM.nonempty
  have o0 : M.Owns 0 0 := ⟨h0, Nat.zero_le _, Or.inl rfl⟩
  have i0 : M.idx 0 0 = 0 := by simp [Mesh.idx, segStart_zero]
  have t0 : M.time T ph 0 (M.node 0 0) = C.t0 ph := by
    rw [hM.node_first h0, (C13_segment_ends hM T ph).1, h.t0 ph hp]
  have hl : M.orders.length - 1 < M.orders.length := by omega
  have o1 : M.Owns (M.orders.length - 1) (M.order (M.orders.length - 1)) :=
    ⟨hl, le_rfl, Or.inr (hM.order_pos hl)⟩
  have i1 : M.idx (M.orders.length - 1) (M.order (M.orders.length - 1)) = M.N - 1 := by
    have := segStart_succ M.orders hl
    rw [Nat.sub_add_cancel h0, segStart_length] at this
    unfold Mesh.idx Mesh.N
    rw [Mesh.order_eq hl]; omega
  have t1 : M.time T ph (M.orders.length - 1) (M.node (M.orders.length - 1) (M.order (M.orders.length - 1))) =
      C.tf ph := by
    rw [hM.node_last hl, (C13_segment_ends hM T ph).2.2.2 hw.sum, h.tf ph hp]
  refine ⟨fun j hj => ?_, fun j hj => ?_, fun j hj => ?_, fun j hj => ?_⟩
  · have := h.x ph hp j hj 0 0 o0; rwa [i0, t0] at this
  · have := h.x ph hp j hj _ _ o1; rwa [i1, t1] at this
  · have := h.u ph hp j hj 0 0 o0; rwa [i0, t0] at this
  · have := h.u ph hp j hj _ _ o1; rwa [i1, t1] at this

theorem Samples.tArg (h : Samples ocp M C T) (hM : M.Good) {ph : Nat} (hp : ph < ocp.nPhases)
    (hw : FullWidths M T ph) : ocp.tArg T ph M.N = ocp.cEnd C ph := by
  obtain ⟨e0, e1, -, -⟩ := h.ends hM hp hw
  have a0 : (List.range ocp.nx).map (T.x ph 0) = (List.range ocp.nx).map fun j => C.x ph j (C.t0 ph) :=
    List.map_congr_left fun j hj => e0 j (List.mem_range.1 hj)
  have a1 : (List.range ocp.nx).map (T.x ph (M.N - 1)) = (List.range ocp.nx).map fun j => C.x ph j (C.tf ph) :=
    List.map_congr_left fun j hj => e1 j (List.mem_range.1 hj)
  have a2 : (List.range ocp.na).map (T.a ph) = (List.range ocp.na).map (C.a ph) :=
    List.map_congr_left fun k hk => h.a ph hp k (List.mem_range.1 hk)
  unfold OCP.tArg OCP.cEnd
  rw [a0, a1, a2, h.t0 ph hp, h.tf ph hp]

/-- Node values of any functions of time exist. -/
theorem exists_samples_of (ocp : OCP ℝ) (M : Mesh ℝ) (C : CTraj) (w : Nat → Nat → ℝ) :
    ∃ T, Samples ocp M C T ∧ T.w = w := by
  classical
  let tm : Nat → Nat → Nat → ℝ → ℝ := fun ph s _ tau =>
    M.time ⟨fun _ _ _ => 0, fun _ _ _ => 0, C.t0, C.tf, C.a, w⟩ ph s tau
  let at' : Nat → Nat → ℝ := fun ph k => if hk : ∃ s i, M.Owns s i ∧ M.idx s i = k then
    tm ph hk.choose 0 (M.node hk.choose hk.choose_spec.choose) else 0
  have hat : ∀ ph s i, M.Owns s i → at' ph (M.idx s i) = tm ph s 0 (M.node s i) := by
    intro ph s i ho
    have hk : ∃ s' i', M.Owns s' i' ∧ M.idx s' i' = M.idx s i := ⟨s, i, ho, rfl⟩
    have h1 := hk.choose_spec.choose_spec
    obtain ⟨e1, e2⟩ := M.owner_unique h1.1 ho h1.2
    simp only [at', dif_pos hk]
    rw [e2, e1]
  refine ⟨⟨fun ph k j => C.x ph j (at' ph k), fun ph k j => C.u ph j (at' ph k), C.t0, C.tf, C.a, w⟩,
    ⟨fun _ _ => rfl, fun _ _ => rfl, fun _ _ _ _ => rfl, fun ph _ j _ s i ho => ?_, fun ph _ j _ s i ho => ?_⟩, rfl⟩
  · simp only [hat ph s i ho]; rfl
  · simp only [hat ph s i ho]; rfl

/-- A solution of the differential equation that the pieces can represent satisfies the collocation equations. -/
theorem collocation_of_dynamics (hM : M.Good) (hI : M.Inside) (hT : Samples ocp M C T) {ph : Nat}
    (hp : ph < ocp.nPhases) (ht : C.t0 ph < C.tf ph) (hw : FullWidths M T ph)
    (hx : ∀ j < ocp.nx, PiecewisePoly M.orders.length M.order (C.breakTime T.w ph) (C.x ph j))
    (hD : DynamicsHold ocp C ph) : CollocationOK ocp M T ph := by
  have htb := fun s hs => time_bounds (s := s) hM hI
    (by rw [hT.t0 ph hp, hT.tf ph hp]; exact ht) hw hs
  intro F hF j hj s i ho
  obtain ⟨P, hdeg, hPe⟩ := hx j hj s ho.1
  obtain ⟨b0, b1⟩ := breakTime_eq hM (hT.t0 ph hp) (hT.tf ph hp) s
  rw [b0, b1] at hPe
  rw [piece_of_poly hM hI (htb s ho.1).1 ho.1 (hT.x ph hp j hj) hdeg hPe,
    (M.clockPoly_comp T ph s P _).2.1, hT.pArg hp ho]
  congr 1
  have hle : M.time T ph s (M.node s i) ≤ M.time T ph s M.tau1 := by
    have := mul_le_mul_of_nonneg_left (sub_le_sub_right (hI.node hM ho.1 ho.2.1).2 M.tau0)
      (htb s ho.1).1.le
    unfold Mesh.time; linarith
  by_cases h1 : 1 ≤ i
  · have hlt : M.time T ph s M.tau0 < M.time T ph s (M.node s i) := by
      have := mul_pos (htb s ho.1).1 (sub_pos.2 (hI.node_pos hM ho.1 ho.2.1 h1))
      unfold Mesh.time; linarith
    refine deriv_left hlt (hD.left F hF j hj _ ?_ (by rw [← hT.tf ph hp]; exact (htb s ho.1).2.2 _ (hI.node hM ho.1 ho.2.1).2))
      fun r hr => hPe r ⟨hr.1, hr.2.trans hle⟩
    have := (htb s ho.1).2.1 M.tau0 le_rfl
    rw [hT.t0 ph hp] at this
    linarith
  · obtain rfl : s = 0 := by have := ho.2.2; omega
    obtain rfl : i = 0 := by omega
    have e : M.time T ph 0 (M.node 0 0) = C.t0 ph := by
      rw [hM.node_first ho.1, (C13_segment_ends hM T ph).1, hT.t0 ph hp]
    have e' : M.time T ph 0 M.tau0 = C.t0 ph := by rw [(C13_segment_ends hM T ph).1, hT.t0 ph hp]
    rw [e]
    rw [e'] at hPe
    refine deriv_right ?_ (hD.start F hF j hj) hPe
    have := mul_pos (htb 0 ho.1).1 (sub_pos.2 (hI.tau_lt hM))
    rw [← e']; unfold Mesh.time; linarith

/-- Bounds at the nodes, path and terminal constraints and phase links for the node values of a solution. -/
theorem samples_nodes (hM : M.Good) (hI : M.Inside) (hC : SolvesContinuously ocp C)
    (hl : ∀ l ∈ ocp.phaseLinks, l.1 < ocp.nPhases ∧ l.2 < ocp.nPhases)
    (hT : Samples ocp M C T) (hw : ∀ ph < ocp.nPhases, FullWidths M T ph) :
    (∀ ph < ocp.nPhases, BoundsOK ocp M T ph) ∧
    (∀ ph < ocp.nPhases, PathOK ocp M T ph) ∧ (∀ ph < ocp.nPhases, TerminalOK ocp M T ph) ∧ LinksOK ocp M T := by
  have hord : ∀ ph < ocp.nPhases, T.t0 ph < T.tf ph := fun ph hp => by
    rw [hT.t0 ph hp, hT.tf ph hp]; exact (hC.phase ph hp).order
  have htb := fun ph hp s hs => time_bounds (s := s) hM hI (hord ph hp) (hw ph hp) hs
  have hin : ∀ ph < ocp.nPhases, ∀ s i, M.Owns s i →
      M.time T ph s (M.node s i) ∈ Set.Icc (C.t0 ph) (C.tf ph) := by
    intro ph hp s i ho
    obtain ⟨h1, h2⟩ := hI.node hM ho.1 ho.2.1
    rw [← hT.t0 ph hp, ← hT.tf ph hp]
    exact ⟨(htb ph hp s ho.1).2.1 _ h1, (htb ph hp s ho.1).2.2 _ h2⟩
  have hlate : ∀ ph < ocp.nPhases, ∀ s i, M.Owns s i → 1 ≤ i →
      M.time T ph s M.tau0 < M.time T ph s (M.node s i) := by
    intro ph hp s i ho h1
    have := mul_pos (htb ph hp s ho.1).1 (sub_pos.2 (hI.node_pos hM ho.1 ho.2.1 h1))
    unfold Mesh.time; linarith
  refine ⟨fun ph hp => ?_, fun ph hp => ?_, fun ph hp => ?_, ?_⟩
  · have hP := hC.phase ph hp
    refine ⟨?_, ?_, ?_, ?_, ?_, ?_⟩
    · rintro rfl j hj
      rw [(hT.ends hM hp (hw 0 hp)).1 j hj]; exact hP.x0 rfl j hj
    · intro k hk hne j hj
      obtain ⟨s, i, ho, rfl⟩ := M.exists_owner hM.nonempty hk
      rw [hT.x ph hp j hj s i ho]
      refine hP.x _ (hin ph hp s i ho) ?_ j hj
      rintro ⟨rfl, e⟩
      apply hne
      refine ⟨rfl, ?_⟩
      by_contra hk0
      have h1 : 1 ≤ i := by
        rcases ho.2.2 with rfl | h
        · by_contra hi
          obtain rfl : i = 0 := by omega
          exact hk0 (by simp [Mesh.idx, segStart_zero])
        · exact h
      have := (htb 0 hp s ho.1).2.1 M.tau0 le_rfl
      have h3 := hlate 0 hp s i ho h1
      rw [hT.t0 0 hp] at this
      linarith
    · intro k hk j hj
      obtain ⟨s, i, ho, rfl⟩ := M.exists_owner hM.nonempty hk
      rw [hT.u ph hp j hj s i ho]
      exact hP.u _ (hin ph hp s i ho) j hj
    · rw [hT.t0 ph hp]; exact hP.t0
    · rw [hT.tf ph hp]; exact hP.tf
    · intro k hk; rw [hT.a ph hp k hk]; exact hP.a k hk
  · intro F hF s i ho c hc
    rw [hT.pArg hp ho]
    exact (hC.phase ph hp).path F hF c hc _ (hin ph hp s i ho)
  · intro F hF c hc
    rw [hT.tArg hM hp (hw ph hp)]
    exact (hC.phase ph hp).terminal F hF c hc
  · have hr : ∀ {k p q : Nat}, ocp.phaseLinks[k]? = some (p, q) → p < ocp.nPhases ∧ q < ocp.nPhases :=
      fun h => hl _ (List.mem_of_getElem? h)
    refine ⟨fun k p q h j hj => ?_, fun k p q h j hj => ?_, fun k p q h => ?_⟩
    · rw [(hT.ends hM (hr h).2 (hw _ (hr h).2)).1 j hj, (hT.ends hM (hr h).1 (hw _ (hr h).1)).2.1 j hj]
      exact hC.linkX k p q h j hj
    · rw [(hT.ends hM (hr h).2 (hw _ (hr h).2)).2.2.1 j hj, (hT.ends hM (hr h).1 (hw _ (hr h).1)).2.2.2 j hj]
      exact hC.linkU k p q h j hj
    · rw [hT.t0 _ (hr h).2, hT.tf _ (hr h).1]
      exact hC.linkT k p q h

/-- The same with the collocation equations, for a solution whose states are polynomials of the segment's order on every
segment. -/
theorem exact_nodes (hM : M.Good) (hI : M.Inside) (hC : SolvesContinuously ocp C)
    (hl : ∀ l ∈ ocp.phaseLinks, l.1 < ocp.nPhases ∧ l.2 < ocp.nPhases)
    (hT : Samples ocp M C T) (hw : ∀ ph < ocp.nPhases, FullWidths M T ph)
    (hx : ∀ ph < ocp.nPhases, ∀ j < ocp.nx,
      PiecewisePoly M.orders.length M.order (C.breakTime T.w ph) (C.x ph j)) :
    (∀ ph < ocp.nPhases, BoundsOK ocp M T ph) ∧ (∀ ph < ocp.nPhases, CollocationOK ocp M T ph) ∧
    (∀ ph < ocp.nPhases, PathOK ocp M T ph) ∧ (∀ ph < ocp.nPhases, TerminalOK ocp M T ph) ∧ LinksOK ocp M T := by
  obtain ⟨k1, k2, k3, k4⟩ := samples_nodes hM hI hC hl hT hw
  exact ⟨k1, fun ph hp => collocation_of_dynamics hM hI hT hp (hC.phase ph hp).order (hw ph hp) (hx ph hp)
    (hC.phase ph hp).dynamics, k2, k3, k4⟩

/-- A point strictly inside a segment: its time, and the polynomials through the node values there. -/
theorem exact_inner (hM : M.Good) (hI : M.Inside) (hT : Samples ocp M C T) {ph : Nat} (hp : ph < ocp.nPhases)
    (ht : C.t0 ph < C.tf ph) (hw : FullWidths M T ph) {s : Nat} (hs : s < M.orders.length) {tau : ℝ}
    (h0 : M.tau0 < tau) (h1 : tau ≤ M.tau1) :
    M.time T ph s M.tau0 < M.time T ph s tau ∧ C.t0 ph < M.time T ph s tau ∧ M.time T ph s tau ≤ C.tf ph ∧
    (∀ j < ocp.nu, PiecewisePoly M.orders.length M.order (C.breakTime T.w ph) (C.u ph j) →
      (M.piece (fun k => T.u ph k j) s).eval tau = C.u ph j (M.time T ph s tau)) ∧
    (∀ j < ocp.nx, PiecewisePoly M.orders.length M.order (C.breakTime T.w ph) (C.x ph j) →
      (M.piece (fun k => T.x ph k j) s).eval tau = C.x ph j (M.time T ph s tau)) := by
  have htb := time_bounds (s := s) hM hI (by rw [hT.t0 ph hp, hT.tf ph hp]; exact ht) hw hs
  have hlt : M.time T ph s M.tau0 < M.time T ph s tau := by
    have := mul_pos htb.1 (sub_pos.2 h0)
    unfold Mesh.time; linarith
  have hle : M.time T ph s tau ≤ M.time T ph s M.tau1 := by
    have := mul_le_mul_of_nonneg_left h1 htb.1.le
    unfold Mesh.time; linarith
  have hf : T.t0 ph ≤ M.time T ph s M.tau0 := htb.2.1 _ le_rfl
  refine ⟨hlt, by rw [← hT.t0 ph hp]; linarith, by rw [← hT.tf ph hp]; exact htb.2.2 _ h1,
    fun j hj hu => ?_, fun j hj hx => ?_⟩
  · obtain ⟨P, hdeg, hPe⟩ := hu s hs
    obtain ⟨b0, b1⟩ := breakTime_eq hM (hT.t0 ph hp) (hT.tf ph hp) s
    rw [b0, b1] at hPe
    rw [piece_of_poly hM hI htb.1 hs (hT.u ph hp j hj) hdeg hPe, (M.clockPoly_comp T ph s P _).1,
      ← hPe _ ⟨hlt.le, hle⟩]
  · obtain ⟨P, hdeg, hPe⟩ := hx s hs
    obtain ⟨b0, b1⟩ := breakTime_eq hM (hT.t0 ph hp) (hT.tf ph hp) s
    rw [b0, b1] at hPe
    rw [piece_of_poly hM hI htb.1 hs (hT.x ph hp j hj) hdeg hPe, (M.clockPoly_comp T ph s P _).1,
      ← hPe _ ⟨hlt.le, hle⟩]

/-- Mid-points of consecutive nodes lie inside the segment. -/
theorem Mesh.Inside.mid (hI : M.Inside) (hM : M.Good) {s i : Nat} (hs : s < M.orders.length) (hi : i < M.order s) :
    M.tau0 < (M.node s i + M.node s (i + 1)) / 2 ∧ (M.node s i + M.node s (i + 1)) / 2 ≤ M.tau1 := by
  obtain ⟨n1, n2⟩ := hI.node hM hs (i := i) (by omega)
  obtain ⟨m1, m2⟩ := hI.node hM hs (i := i + 1) (by omega)
  have := hI.node_pos hM hs (i := i + 1) (by omega) (by omega)
  constructor <;> linarith

/-- **C56** The transcription loses no exact solution it can represent: node values of any solution of the
continuous-time problem whose states are polynomials of the segment's order on every segment solve the collocated
problem (states may have kinks, controls may jump at segment boundaries). With `midu` also the controls have to be
such piecewise polynomials. Bounds on control slopes and slope continuity are off. -/
theorem C56_exact_feasible (hM : M.Good) (hI : M.Inside) (hC : SolvesContinuously ocp C)
    (hl : ∀ l ∈ ocp.phaseLinks, l.1 < ocp.nPhases ∧ l.2 < ocp.nPhases)
    (hT : Samples ocp M C T) (hw : ∀ ph < ocp.nPhases, FullWidths M T ph)
    (hx : ∀ ph < ocp.nPhases, ∀ j < ocp.nx,
      PiecewisePoly M.orders.length M.order (C.breakTime T.w ph) (C.x ph j))
    (hu : ∀ ph < ocp.nPhases, ocp.midu.getD ph false = true → ∀ j < ocp.nu,
      PiecewisePoly M.orders.length M.order (C.breakTime T.w ph) (C.u ph j))
    (hdu : ∀ ph < ocp.nPhases, ocp.duContinuity.getD ph false = false)
    (hdf : ∀ ph < ocp.nPhases, ocp.diffU.getD ph false = false) : SolvesOCP ocp M T := by
  obtain ⟨k1, k2, k3, k4, k5⟩ := exact_nodes hM hI hC hl hT hw hx
  refine ⟨⟨k1, k2, k3, k4, fun ph hp hm j hj s hs i hi => ?_, fun ph hp hd => ?_, fun _ => k5⟩, fun ph hp hd => ?_⟩
  · obtain ⟨m1, m2⟩ := hI.mid hM hs hi
    obtain ⟨-, t1, t2, hu', -⟩ := exact_inner hM hI hT hp (hC.phase ph hp).order (hw ph hp) hs m1 m2
    rw [hu' j hj (hu ph hp hm j hj)]
    exact (hC.phase ph hp).u _ ⟨t1.le, t2⟩ j hj
  · rw [hdu ph hp] at hd; cases hd
  · rw [hdf ph hp] at hd; cases hd

/-! ### Cost -/

/-- Quadrature weights `W` integrate piecewise polynomials of degree `deg s` on segment `s`, given by antiderivatives. -/
def Mesh.Integrates (M : Mesh ℝ) (W : List ℝ) (deg : Nat → Nat) : Prop :=
  ∀ (Q : Nat → ℝ[X]) (h v : Nat → ℝ), (∀ s < M.orders.length, (derivative (Q s)).natDegree ≤ deg s) →
    OwnedSamples M.orders M.nodes (fun s => derivative (Q s)) h v →
    weightedSum W v = ∑ s ∈ Finset.range M.orders.length, h s * ((Q s).eval M.tau1 - (Q s).eval M.tau0)

/-- The integral of a left-continuous piecewise polynomial. -/
theorem integral_pieces {n : Nat} {b : Nat → ℝ} (hb : ∀ s < n, b s < b (s + 1)) {f : ℝ → ℝ} {Q : Nat → ℝ[X]}
    (hf : ∀ s < n, ∀ t ∈ Set.Icc (b s) (b (s + 1)), s = 0 ∨ b s < t → f t = (derivative (Q s)).eval t) :
    ∫ t in (b 0)..(b n), f t = ∑ s ∈ Finset.range n, ((Q s).eval (b (s + 1)) - (Q s).eval (b s)) := by
  have hae : ∀ s < n, ∀ t ∈ Set.uIoc (b s) (b (s + 1)), (derivative (Q s)).eval t = f t := by
    intro s hs t ht
    rw [Set.uIoc_of_le (hb s hs).le] at ht
    exact (hf s hs t ⟨ht.1.le, ht.2⟩ (Or.inr ht.1)).symm
  rw [← intervalIntegral.sum_integral_adjacent_intervals]
  · apply Finset.sum_congr rfl
    intro s hs
    have hs := Finset.mem_range.1 hs
    have e : ∫ t in (b s)..(b (s + 1)), f t = ∫ t in (b s)..(b (s + 1)), (derivative (Q s)).eval t :=
      intervalIntegral.integral_congr_ae (Filter.Eventually.of_forall fun t ht => (hae s hs t ht).symm)
    rw [e]
    apply intervalIntegral.integral_eq_sub_of_hasDerivAt (f := fun t => (Q s).eval t)
    · intro x _; exact (Q s).hasDerivAt x
    · exact (derivative (Q s)).continuous.intervalIntegrable _ _
  · intro s hs
    exact ((derivative (Q s)).continuous.intervalIntegrable _ _).congr (fun t ht => hae s hs t ht)

/-- **C57** The cost of the node values is the true cost (terminal costs plus integrals) whenever the running cost
along the trajectory is, on every segment, a polynomial in time of a degree the weights integrate. -/
theorem C57_cost (hM : M.Good) (hI : M.Inside) {W : List ℝ} {deg : Nat → Nat} (hW : M.Integrates W deg)
    (hrc : ocp.runningCosts.length = ocp.nPhases)
    (hT : Samples ocp M C T) (hw : ∀ ph < ocp.nPhases, FullWidths M T ph)
    (ht : ∀ ph < ocp.nPhases, C.t0 ph < C.tf ph)
    (hpoly : ∀ ph < ocp.nPhases, LeftPiecewisePoly M.orders.length deg (C.breakTime T.w ph)
      fun t => ocp.runningCosts.getD ph (fun _ => 0) (ocp.cArg C ph t)) :
    PhysCost ocp M W T (ocp.trueCost C) := by
  obtain ⟨v, hv⟩ := exists_samples ocp M T
  refine ⟨v, hv, Finset.sum_congr rfl fun ph hp => ?_⟩
  have hp := Finset.mem_range.1 hp
  unfold TerminalCost
  rw [hT.tArg hM hp (hw ph hp)]
  congr 1
  have htb := fun s hs => time_bounds (s := s) hM hI
    (by rw [hT.t0 ph hp, hT.tf ph hp]; exact ht ph hp) (hw ph hp) hs
  have hbr := fun s => breakTime_eq hM (hT.t0 ph hp) (hT.tf ph hp) s
  -- antiderivatives in time
  have hex : ∀ s, ∃ Q : ℝ[X], s < M.orders.length → (derivative Q).natDegree ≤ deg s ∧
      ∀ t ∈ Set.Icc (C.breakTime T.w ph s) (C.breakTime T.w ph (s + 1)), s = 0 ∨ C.breakTime T.w ph s < t →
        ocp.runningCosts.getD ph (fun _ => 0) (ocp.cArg C ph t) = (derivative Q).eval t := by
    intro s
    by_cases hs : s < M.orders.length
    · obtain ⟨P, h1, h2⟩ := hpoly ph hp s hs
      obtain ⟨Q, rfl, -⟩ := exists_antiderivative P
      exact ⟨Q, fun _ => ⟨h1, h2⟩⟩
    · exact ⟨0, fun h => absurd h hs⟩
  choose Q hQ using hex
  have hb : ∀ s < M.orders.length, C.breakTime T.w ph s < C.breakTime T.w ph (s + 1) := by
    intro s hs
    rw [(hbr s).1, (hbr s).2]
    have := mul_pos (htb s hs).1 (sub_pos.2 (hI.tau_lt hM))
    unfold Mesh.time; linarith
  have e0 : C.breakTime T.w ph 0 = C.t0 ph := by simp [CTraj.breakTime]
  have e1 : C.breakTime T.w ph M.orders.length = C.tf ph := by
    unfold CTraj.breakTime; rw [(hw ph hp).sum]; ring
  have key := integral_pieces hb (fun s hs => (hQ s hs).2)
  rw [e0, e1] at key
  rw [key, hW (fun s => Polynomial.C (M.halfWidth T ph s)⁻¹ * (Q s).comp (M.clockPoly T ph s)) (M.halfWidth T ph)
    (v ph)]
  · apply Finset.sum_congr rfl
    intro s hs
    have hs := Finset.mem_range.1 hs
    have hne := (htb s hs).1.ne'
    simp only [eval_mul, eval_C, (M.clockPoly_comp T ph s (Q s) _).1, ← (hbr s).1, ← (hbr s).2]
    field_simp
  · intro s hs
    have hne := (htb s hs).1.ne'
    have : derivative (Polynomial.C (M.halfWidth T ph s)⁻¹ * (Q s).comp (M.clockPoly T ph s)) =
        (derivative (Q s)).comp (M.clockPoly T ph s) := by
      apply Polynomial.funext
      intro r
      rw [derivative_C_mul, eval_mul, eval_C, (M.clockPoly_comp T ph s (Q s) r).2.1,
        (M.clockPoly_comp T ph s _ r).1]
      field_simp
    rw [this]
    exact (M.clockPoly_comp T ph s (derivative (Q s)) 0).2.2.trans (hQ s hs).1
  · intro s hs i hi ho
    have hi : i ≤ M.order s := by rw [Mesh.order_eq hs]; exact hi
    have hown : M.Owns s i := ⟨hs, hi, ho⟩
    have hne := (htb s hs).1.ne'
    have hl : ph < ocp.runningCosts.length := by omega
    have h1 := hv ph hp _ (List.getElem?_eq_getElem hl) s i hown
    rw [hT.pArg hp hown] at h1
    have hnode : (M.nodes M.orders[s]).getD i 0 = M.node s i := by unfold Mesh.node; rw [Mesh.order_eq hs]
    obtain ⟨n1, n2⟩ := hI.node hM hs hi
    have hh := (htb s hs).1
    have h2 := (hQ s hs).2 (M.time T ph s (M.node s i)) (by
      rw [(hbr s).1, (hbr s).2]
      exact ⟨by unfold Mesh.time; nlinarith, by unfold Mesh.time; nlinarith⟩) (by
      rcases ho with h | h
      · exact Or.inl h
      · right
        rw [(hbr s).1]
        have := mul_pos hh (sub_pos.2 (hI.node_pos hM hs hi h))
        unfold Mesh.time; linarith)
    rw [List.getD_eq_getElem _ _ hl] at h2
    change v ph (M.idx s i) = _
    rw [h1, h2, hnode]
    beta_reduce
    rw [derivative_C_mul, eval_mul, eval_C, (M.clockPoly_comp T ph s (Q s) _).2.1]
    field_simp

/-- **C57** The weights of the LGR scheme with all orders at least 2: degree `2 p - 2` on a segment of order `p`. -/
theorem C57_lgr_integrates {V : Type} {w : Outside ℝ V} {n : Nat} {arg : OrdersArg}
    (hM : MeshFor w "LGR" n arg M) (hlt : w.tau0 < w.tau1) (hord : ∀ p ∈ M.orders, 2 ≤ p)
    (hj : ∀ p ∈ M.orders, IsJacobiRoots 1 0 (p - 1) (w.lib.jroots (p - 1) 1 0)) {W : List ℝ}
    (hW : compQuadWeights ⟨w.method, w.tau0, w.tau1, tausFn w.lib w.tau0 w.tau1 "LGR"⟩ M.orders = .ok W) :
    M.Inside ∧ M.Integrates W fun s => 2 * M.order s - 2 := by
  refine ⟨fun p hp v hv => ?_, fun Q h v hQ hv => ?_⟩
  · obtain ⟨r, hr, hs⟩ := C01_lgr_nodes w.lib w.tau0 w.tau1 hlt p (by have := hord p hp; omega) (fun _ => hj p hp)
    rw [hM.nodes p hp] at hr
    obtain rfl : M.nodes p = r := by injection hr
    obtain ⟨k, hk, rfl⟩ := List.getElem_of_mem hv
    have hlen := hs.length
    have hmono : ∀ i j (hi : i < (M.nodes p).length) (hj : j < (M.nodes p).length), i ≤ j →
        (M.nodes p)[i] ≤ (M.nodes p)[j] := by
      intro i j hi hj hij
      rcases Nat.eq_or_lt_of_le hij with rfl | h
      · exact le_rfl
      · exact (List.pairwise_iff_getElem.1 hs.sorted i j hi hj h).le
    have h0 := hM.good.first p hp
    have h1 := hM.good.last p hp
    rw [List.getElem?_eq_getElem (by omega)] at h0 h1
    rw [← Option.some.inj h0, ← Option.some.inj h1]
    exact ⟨hmono _ _ _ _ (Nat.zero_le _), hmono _ _ _ _ (by omega)⟩
  · obtain ⟨W', hW', e⟩ := C07_lgr_gauss w.lib w.method w.tau0 w.tau1 hlt M.orders hM.good.nonempty hord hj M.nodes
      hM.nodes Q (fun s hs => by have := hQ s hs; beta_reduce at this; rwa [Mesh.order_eq hs] at this) h v hv
    rw [hW] at hW'
    obtain rfl : W = W' := by injection hW'
    rw [e, hM.tau0, hM.tau1]

/-- **C57** Lower bound for `solve` with LGR nodes of order at least 2 and a globally optimal NLP solver: the cost of
the returned trajectory is at most the true cost of every solution of the continuous-time problem whose states are
polynomials of the segment's order `p` and whose running cost is a polynomial of degree at most `2 p - 2` on every
segment. -/
theorem C57_solve_beats {V : Type} {w : Outside ℝ V} {nlpsol : SolverCall ℝ V → Py (List ℝ)}
    {ptp : List (List Nat)} {n : Nat} {arg : OrdersArg} {a : SolveArgs ℝ V} {rx rdx : Bool} {s : Session ℝ V}
    {p : Post ℝ} {r : Option (PyDict (ResidVal ℝ))}
    (hrun : mpSolve w nlpsol ocp ptp n arg "LGR" a rx rdx = .ok (s, p, r))
    (hv : ValidOCP ocp) (hs : ocp.SettingsOK) (hsc : ocp.PosScales) (hM : MeshFor w "LGR" n arg M)
    (hlt : w.tau0 < w.tau1) (hord : ∀ q ∈ M.orders, 2 ≤ q)
    (hj : ∀ q ∈ M.orders, IsJacobiRoots 1 0 (q - 1) (w.lib.jroots (q - 1) 1 0))
    (hopt : ∀ c z, nlpsol c = .ok z → c.IsOptimal z)
    (hdu : ∀ ph < ocp.nPhases, ocp.duContinuity.getD ph false = false)
    (hdf : ∀ ph < ocp.nPhases, ocp.diffU.getD ph false = false) :
    ∃ T W J, compQuadWeights ⟨w.method, w.tau0, w.tau1, tausFn w.lib w.tau0 w.tau1 "LGR"⟩ M.orders = .ok W ∧
      SolvesOCP ocp M T ∧ WidthsAre ocp n a.widths T ∧ p.Shows ocp M T ∧ PhysCost ocp M W T J ∧
      ∀ C T', SolvesContinuously ocp C → Samples ocp M C T' → WidthsAre ocp n a.widths T' →
        (∀ ph < ocp.nPhases, FullWidths M T' ph) →
        (∀ ph < ocp.nPhases, ∀ j < ocp.nx,
          PiecewisePoly M.orders.length M.order (C.breakTime T'.w ph) (C.x ph j)) →
        (∀ ph < ocp.nPhases, ocp.midu.getD ph false = true → ∀ j < ocp.nu,
          PiecewisePoly M.orders.length M.order (C.breakTime T'.w ph) (C.u ph j)) →
        (∀ ph < ocp.nPhases, LeftPiecewisePoly M.orders.length (fun s => 2 * M.order s - 2) (C.breakTime T'.w ph)
          fun t => ocp.runningCosts.getD ph (fun _ => 0) (ocp.cArg C ph t)) →
        J ≤ ocp.trueCost C := by
  obtain ⟨T, W, J, h1, h2, h3, h4, h5, h6⟩ := C53_solve_optimal hrun hv hs hsc hM hopt
  obtain ⟨hI, hW⟩ := C57_lgr_integrates hM hlt hord hj h1
  refine ⟨T, W, J, h1, h2, h3, h4, h5, fun C T' hC hT' hw' hf hx hu hc => h6 T' _ ?_ hw' ?_⟩
  · exact C56_exact_feasible hM.good hI hC hs.linkRange hT' hf hx hu hdu hdf
  · exact C57_cost hM.good hI hW hv.runningCosts hT' hf (fun ph hp => (hC.phase ph hp).order) hc

/-! ### When collocation is exact -/

/-- Number of nodes of segment `s` at which the dynamics are imposed: the first node of a later segment belongs to
its left neighbour. -/
def Mesh.collocated (M : Mesh ℝ) (s : Nat) : Nat := if s = 0 then M.order s + 1 else M.order s

/-- Every time after the start lies in `(b s, b (s+1)]` for some segment. -/
theorem exists_segment {n : Nat} {b : Nat → ℝ} {t : ℝ} (h0 : b 0 < t) (h1 : t ≤ b n) :
    ∃ s < n, b s < t ∧ t ≤ b (s + 1) := by
  induction n with
  | zero => exact absurd h1 (not_le.2 h0)
  | succ n ih =>
    by_cases h : t ≤ b n
    · obtain ⟨s, hs, h2⟩ := ih h
      exact ⟨s, by omega, h2⟩
    · exact ⟨n, by omega, not_le.1 h, h1⟩

theorem PiecewisePoly.continuousOn {n : Nat} {deg : Nat → Nat} {b : Nat → ℝ} {f : ℝ → ℝ} (h : PiecewisePoly n deg b f)
    (hb : ∀ s < n, b s < b (s + 1)) : b 0 ≤ b n ∧ ContinuousOn f (Set.Icc (b 0) (b n)) := by
  induction n with
  | zero => exact ⟨le_rfl, by rw [Set.Icc_self]; exact continuousOn_singleton f (b 0)⟩
  | succ n ih =>
    obtain ⟨h0, hc⟩ := ih (fun s hs => h s (by omega)) fun s hs => hb s (by omega)
    obtain ⟨P, -, hP⟩ := h n (by omega)
    have h1 := hb n (by omega)
    refine ⟨h0.trans h1.le, ?_⟩
    rw [← Set.Icc_union_Icc_eq_Icc h0 h1.le]
    exact hc.union_of_isClosed (P.continuous.continuousOn.congr hP) isClosed_Icc isClosed_Icc

/-- **C58** Along piecewise polynomials (states of the segment's order) whose right-hand side is, on every segment, a
polynomial in time of degree less than the number of collocated nodes, the collocation equations at the nodes are
equivalent to the differential equation at all times. -/
theorem C58_collocation_exact (hM : M.Good) (hI : M.Inside) (hT : Samples ocp M C T) {ph : Nat}
    (hp : ph < ocp.nPhases) (ht : C.t0 ph < C.tf ph) (hw : FullWidths M T ph)
    (hx : ∀ j < ocp.nx, PiecewisePoly M.orders.length M.order (C.breakTime T.w ph) (C.x ph j))
    (hf : ∀ F, ocp.dynamics[ph]? = some F → ∀ j < ocp.nx, LeftPiecewisePoly M.orders.length
      (fun s => M.collocated s - 1) (C.breakTime T.w ph) fun t => F.f (ocp.cArg C ph t) j) :
    CollocationOK ocp M T ph ↔ DynamicsHold ocp C ph := by
  refine ⟨fun hc => ?_, collocation_of_dynamics hM hI hT hp ht hw hx⟩
  have htb := fun s hs => time_bounds (s := s) hM hI
    (by rw [hT.t0 ph hp, hT.tf ph hp]; exact ht) hw hs
  have hbr := fun s => breakTime_eq hM (hT.t0 ph hp) (hT.tf ph hp) s
  have e0 : C.breakTime T.w ph 0 = C.t0 ph := by simp [CTraj.breakTime]
  have e1 : C.breakTime T.w ph M.orders.length = C.tf ph := by
    unfold CTraj.breakTime; rw [hw.sum]; ring
  have hb : ∀ s < M.orders.length, C.breakTime T.w ph s < C.breakTime T.w ph (s + 1) := by
    intro s hs
    rw [(hbr s).1, (hbr s).2]
    have := mul_pos (htb s hs).1 (sub_pos.2 (hI.tau_lt hM))
    unfold Mesh.time; linarith
  -- on every segment the derivative of the state polynomial is the right-hand side
  have key : ∀ F, ocp.dynamics[ph]? = some F → ∀ j < ocp.nx, ∀ s < M.orders.length, ∃ P : ℝ[X],
      (∀ t ∈ Set.Icc (C.breakTime T.w ph s) (C.breakTime T.w ph (s + 1)), C.x ph j t = P.eval t) ∧
      ∀ t ∈ Set.Icc (C.breakTime T.w ph s) (C.breakTime T.w ph (s + 1)), s = 0 ∨ C.breakTime T.w ph s < t →
        F.f (ocp.cArg C ph t) j = (derivative P).eval t := by
    intro F hF j hj s hs
    obtain ⟨P, hPd, hP⟩ := hx j hj s hs
    obtain ⟨G, hGd, hG⟩ := hf F hF j hj s hs
    beta_reduce at hGd hG
    refine ⟨P, hP, fun t h1 h2 => ?_⟩
    rw [hG t h1 h2]
    have hop := hM.order_pos hs
    have hh := (htb s hs).1
    -- collocated node number `k` of the segment
    let off := if s = 0 then 0 else 1
    have hown : ∀ k < M.collocated s, M.Owns s (k + off) := by
      intro k hk
      simp only [Mesh.collocated, off] at *
      split at hk <;> rename_i h0
      · rw [if_pos h0]; exact ⟨hs, by omega, Or.inl h0⟩
      · rw [if_neg h0]; exact ⟨hs, by omega, Or.inr (by omega)⟩
    have hz : derivative P - G = 0 := by
      have hcol : 0 < M.collocated s := by unfold Mesh.collocated; split <;> omega
      apply eq_zero_of_natDegree_lt_card_of_eval_eq_zero (derivative P - G)
        (f := fun k : Fin (M.collocated s) => M.time T ph s (M.node s (k + off)))
      · intro k k' hkk
        beta_reduce at hkk
        have : M.node s (k + off) = M.node s (k' + off) := by
          have : M.halfWidth T ph s * (M.node s (k + off) - M.node s (k' + off)) = 0 := by
            unfold Mesh.time at hkk; linarith
          rcases mul_eq_zero.1 this with h | h
          · exact absurd h hh.ne'
          · linarith
        have := hM.node_injOn hs (by have := (hown k k.2).2.1; simp; omega)
          (by have := (hown k' k'.2).2.1; simp; omega) this
        exact Fin.ext (by omega)
      · intro k
        have ho := hown k k.2
        have h3 := hc F hF j hj s _ ho
        have hP' := hP
        rw [(hbr s).1, (hbr s).2] at hP'
        rw [piece_of_poly hM hI hh hs (hT.x ph hp j hj) hPd hP', (M.clockPoly_comp T ph s P _).2.1,
          hT.pArg hp ho] at h3
        have h4 := mul_left_cancel₀ hh.ne' h3
        obtain ⟨n1, n2⟩ := hI.node hM hs ho.2.1
        rw [eval_sub, h4, ← hG, sub_self]
        · rw [(hbr s).1, (hbr s).2]
          exact ⟨by unfold Mesh.time; nlinarith, by unfold Mesh.time; nlinarith⟩
        · rcases ho.2.2 with h | h
          · exact Or.inl h
          · right
            rw [(hbr s).1]
            have := mul_pos hh (sub_pos.2 (hI.node_pos hM hs ho.2.1 h))
            unfold Mesh.time; linarith
      · rw [Fintype.card_fin]
        refine (natDegree_sub_le _ _).trans_lt (max_lt ?_ ?_)
        · have := natDegree_derivative_le P
          unfold Mesh.collocated; split <;> omega
        · omega
    rw [sub_eq_zero.1 hz]
  refine ⟨fun F hF j hj t h1 h2 => ?_, fun F hF j hj => ?_, fun j hj => by
    rw [← e0, ← e1]; exact ((hx j hj).continuousOn hb).2⟩
  · obtain ⟨s, hs, h3, h4⟩ := exists_segment (b := C.breakTime T.w ph) (by rw [e0]; exact h1) (by rw [e1]; exact h2)
    obtain ⟨P, hP, hP'⟩ := key F hF j hj s hs
    rw [hP' t ⟨h3.le, h4⟩ (Or.inr h3)]
    refine (P.hasDerivAt t).hasDerivWithinAt.congr_of_eventuallyEq ?_ (hP t ⟨h3.le, h4⟩)
    filter_upwards [Icc_mem_nhdsLE h3] with r hr
    exact hP r ⟨hr.1, hr.2.trans h4⟩
  · have h0 : 0 < M.orders.length := List.length_pos_iff.2 hM.nonempty
    obtain ⟨P, hP, hP'⟩ := key F hF j hj 0 h0
    have hb0 := hb 0 h0
    rw [e0] at hP hP' hb0
    rw [hP' _ ⟨le_rfl, hb0.le⟩ (Or.inl rfl)]
    refine (P.hasDerivAt _).hasDerivWithinAt.congr_of_eventuallyEq ?_ (hP _ ⟨le_rfl, hb0.le⟩)
    filter_upwards [Icc_mem_nhdsGE hb0] with r hr
    exact hP r hr

end MPOpt
