import Verif.Spec.Split
import Verif.Props.Mayer

/-! # C99: one phase, or two linked phases -/

set_option autoImplicit false
set_option linter.unusedSectionVars false

namespace MPOpt
open Polynomial

variable {K : Type} [Field K] [LinearOrder K] [IsStrictOrderedRing K] {o : OCP K} {M : Mesh K} {T S : Traj K}

/-! ### The doubled mesh -/

theorem Mesh.twice_length : M.twice.orders.length = M.orders.length + M.orders.length := by simp [Mesh.twice]

theorem Mesh.twice_order {s : Nat} (hs : s < M.orders.length) : M.twice.order s = M.order s := by
  simp [Mesh.twice, Mesh.order, List.getD_eq_getElem?_getD, List.getElem?_append_left hs]

theorem Mesh.twice_order_right (s : Nat) : M.twice.order (M.orders.length + s) = M.order s := by
  simp [Mesh.twice, Mesh.order, List.getD_eq_getElem?_getD, List.getElem?_append_right]

theorem Mesh.twice_idx {s : Nat} (hs : s ≤ M.orders.length) (i : Nat) : M.twice.idx s i = M.idx s i := by
  simp [Mesh.twice, Mesh.idx, segStart, List.take_append_of_le_length hs]

theorem Mesh.twice_idx_right (s i : Nat) : M.twice.idx (M.orders.length + s) i = M.N - 1 + M.idx s i := by
  simp [Mesh.twice, Mesh.idx, segStart, Mesh.N, List.take_length_add_append, add_assoc]

theorem Mesh.twice_N : M.twice.N = M.N - 1 + M.N := by
  simp [Mesh.twice, Mesh.N]; omega

theorem Mesh.twice_node {s : Nat} (hs : s < M.orders.length) (i : Nat) : M.twice.node s i = M.node s i := by
  unfold Mesh.node; rw [Mesh.twice_order hs]; rfl

theorem Mesh.twice_node_right (s i : Nat) : M.twice.node (M.orders.length + s) i = M.node s i := by
  unfold Mesh.node; rw [Mesh.twice_order_right]; rfl

theorem Mesh.Good.twice (hM : M.Good) : M.twice.Good where
  nonempty := by simp [Mesh.twice, hM.nonempty]
  pos p hp := hM.pos p (by simpa [Mesh.twice] using hp)
  length p hp := hM.length p (by simpa [Mesh.twice] using hp)
  nodup p hp := hM.nodup p (by simpa [Mesh.twice] using hp)
  first p hp := hM.first p (by simpa [Mesh.twice] using hp)
  last p hp := hM.last p (by simpa [Mesh.twice] using hp)

theorem Mesh.twice_piece {v v' : Nat → K} (h : ∀ k < M.N, v k = v' k) {s : Nat} (hs : s < M.orders.length) :
    M.twice.piece v s = M.piece v' s := by
  rw [← Mesh.piece_congr hs h]
  unfold Mesh.piece
  rw [Mesh.twice_order hs]
  congr 1
  · congr 1; funext i; exact Mesh.twice_node hs i
  · funext i; rw [Mesh.twice_idx hs.le]

theorem Mesh.twice_piece_right {v v' : Nat → K} (h : ∀ k < M.N, v (M.N - 1 + k) = v' k) {s : Nat} (hs : s < M.orders.length) :
    M.twice.piece v (M.orders.length + s) = M.piece v' s := by
  rw [← Mesh.piece_congr (v := fun k => v (M.N - 1 + k)) hs h]
  unfold Mesh.piece
  rw [Mesh.twice_order_right]
  congr 1
  · congr 1; funext i; exact Mesh.twice_node_right s i
  · funext i; rw [Mesh.twice_idx_right]

/-- Nodes of the doubled mesh: those of the first half, and those of the second half but its first. -/
theorem Mesh.twice_owns (hM : M.Good) {s i : Nat} : M.twice.Owns s i ↔
    M.Owns s i ∨ ∃ r, s = M.orders.length + r ∧ r < M.orders.length ∧ i ≤ M.order r ∧ 1 ≤ i := by
  have h0 := List.length_pos_iff.2 hM.nonempty
  unfold Mesh.Owns
  rw [Mesh.twice_length]
  by_cases hs : s < M.orders.length
  · rw [Mesh.twice_order hs]
    constructor
    · rintro ⟨-, h2, h3⟩; exact .inl ⟨hs, h2, h3⟩
    · rintro (⟨-, h2, h3⟩ | ⟨r, rfl, -⟩)
      · exact ⟨by omega, h2, h3⟩
      · omega
  · obtain ⟨r, rfl⟩ := Nat.exists_eq_add_of_le (not_lt.1 hs)
    rw [Mesh.twice_order_right]
    constructor
    · rintro ⟨h1, h2, h3⟩; exact .inr ⟨r, rfl, by omega, h2, by omega⟩
    · rintro (⟨h1, -⟩ | ⟨r', h, h1, h2, h3⟩)
      · omega
      · obtain rfl : r = r' := by omega
        exact ⟨by omega, h2, .inr h3⟩

/-! ### The two trajectories -/

section
variable (h : SameCut o M T S)
include h

theorem SameCut.half {s : Nat} (hs : s < M.orders.length) : M.twice.halfWidth T 0 s = M.halfWidth S 0 s := by
  have := h.w0 s hs
  unfold Mesh.halfWidth
  show (T.tf 0 - T.t0 0) / (M.tau1 - M.tau0) * _ = _
  rw [div_mul_eq_mul_div, div_mul_eq_mul_div, this]

theorem SameCut.half_right {s : Nat} (hs : s < M.orders.length) :
    M.twice.halfWidth T 0 (M.orders.length + s) = M.halfWidth S 1 s := by
  have := h.w1 s hs
  unfold Mesh.halfWidth
  show (T.tf 0 - T.t0 0) / (M.tau1 - M.tau0) * _ = _
  rw [div_mul_eq_mul_div, div_mul_eq_mul_div, this]

theorem SameCut.time {s : Nat} (hs : s < M.orders.length) (tau : K) : M.twice.time T 0 s tau = M.time S 0 s tau := by
  unfold Mesh.time
  rw [h.half hs, h.t0, Finset.mul_sum, Finset.mul_sum]
  congr 2
  exact Finset.sum_congr rfl fun r hr => by
    have := h.w0 r (by have := Finset.mem_range.1 hr; omega)
    rwa [h.t0] at this

theorem SameCut.time_right {s : Nat} (hs : s < M.orders.length) (tau : K) :
    M.twice.time T 0 (M.orders.length + s) tau = M.time S 1 s tau := by
  have e : (T.tf 0 - T.t0 0) * ∑ r ∈ Finset.range (M.orders.length + s), T.w r 0 =
      (S.tf 0 - S.t0 0) + (S.tf 1 - S.t0 1) * ∑ r ∈ Finset.range s, S.w r 1 := by
    rw [Finset.sum_range_add, mul_add, Finset.mul_sum, Finset.mul_sum, Finset.mul_sum]
    congr 1
    · rw [← mul_one (S.tf 0 - S.t0 0), ← h.sum, Finset.mul_sum]
      exact Finset.sum_congr rfl fun r hr => h.w0 r (Finset.mem_range.1 hr)
    · exact Finset.sum_congr rfl fun r hr => h.w1 r (by have := Finset.mem_range.1 hr; omega)
  unfold Mesh.time
  rw [h.half_right hs, e, h.t0, ← h.tm]
  show _ + _ * (tau - M.tau0) = _
  ring

theorem SameCut.pArg (hna : o.na = 0) {k : Nat} (hk : k < M.N) (t : K) : o.pArg T 0 k t = o.pArg S 0 k t := by
  unfold OCP.pArg
  rw [if_pos hna, if_pos hna]
  congr 1
  · exact List.map_congr_left fun j hj => h.x0 k hk j (List.mem_range.1 hj)
  · exact List.map_congr_left fun j hj => h.u0 k hk j (List.mem_range.1 hj)

theorem SameCut.pArg_right (hna : o.na = 0) {k : Nat} (hk : k < M.N) (t : K) :
    o.pArg T 0 (M.N - 1 + k) t = o.pArg S 1 k t := by
  unfold OCP.pArg
  rw [if_pos hna, if_pos hna]
  congr 1
  · exact List.map_congr_left fun j hj => h.x1 k hk j (List.mem_range.1 hj)
  · exact List.map_congr_left fun j hj => h.u1 k hk j (List.mem_range.1 hj)

/-- The second phase starts where the first one ends. -/
theorem SameCut.joint_x {j : Nat} (hj : j < o.nx) : S.x 1 0 j = S.x 0 (M.N - 1) j := by
  have h0 : 0 < M.N := Nat.succ_pos _
  rw [← h.x1 0 h0 j hj, ← h.x0 (M.N - 1) (by omega) j hj, Nat.add_zero]

theorem SameCut.joint_u {j : Nat} (hj : j < o.nu) : S.u 1 0 j = S.u 0 (M.N - 1) j := by
  have h0 : 0 < M.N := Nat.succ_pos _
  rw [← h.u1 0 h0 j hj, ← h.u0 (M.N - 1) (by omega) j hj, Nat.add_zero]

/-- The time of the junction, seen from both sides. -/
theorem SameCut.time_joint (hM : M.Good) :
    M.time S 0 (M.orders.length - 1) (M.node (M.orders.length - 1) (M.order (M.orders.length - 1))) = S.tf 0 := by
  have h0 := List.length_pos_iff.2 hM.nonempty
  have hs : M.orders.length - 1 < M.orders.length := by omega
  have e := h.sum
  rw [← Nat.sub_add_cancel h0, Finset.sum_range_succ] at e
  unfold Mesh.time Mesh.halfWidth
  rw [hM.node_last hs, mul_right_comm, div_mul_cancel₀ _ hM.tau_ne, add_assoc, ← mul_add, e]
  ring

end

theorem get0_append {α : Type} {l l' : List α} (h : l.length = 1) : (l ++ l')[0]? = l[0]? := by
  rw [List.getElem?_append_left (by omega)]

theorem get1_append {α : Type} {l l' : List α} (h : l.length = 1) : (l ++ l')[1]? = l'[0]? := by
  rw [List.getElem?_append_right (by omega), h]

theorem entry0_append {α : Type} {l l' : List (List α)} (h : l.length = 1) (j : Nat) (d : α) :
    entry (l ++ l') 0 j d = entry l 0 j d := by
  unfold entry; rw [List.getD_eq_getElem?_getD, List.getD_eq_getElem?_getD, get0_append h]; rfl

theorem entry1_append {α : Type} {l l' : List (List α)} (h : l.length = 1) (j : Nat) (d : α) :
    entry (l ++ l') 1 j d = entry l' 0 j d := by
  unfold entry; rw [List.getD_eq_getElem?_getD, List.getD_eq_getElem?_getD, get1_append h]; rfl

theorem getD0_append {α : Type} {l l' : List α} (h : l.length = 1) (d : α) : (l ++ l').getD 0 d = l.getD 0 d := by
  rw [List.getD_eq_getElem?_getD, List.getD_eq_getElem?_getD, get0_append h]

theorem getD1_append {α : Type} {l l' : List α} (h : l.length = 1) (d : α) : (l ++ l').getD 1 d = l'.getD 0 d := by
  rw [List.getD_eq_getElem?_getD, List.getD_eq_getElem?_getD, get1_append h]

/-! ### Constraint by constraint -/

section
variable {lo hi : Ext K} {tm : K} (h : SameCut o M T S) (hp : o.nPhases = 1)
include h hp

theorem SameCut.dynamics_iff (hv : ValidOCP o) (hna : o.na = 0) (hM : M.Good) :
    (CollocationOK (o.cut lo hi tm) M S 0 ∧ CollocationOK (o.cut lo hi tm) M S 1) ↔
      CollocationOK o M.twice T 0 ∧ JointDynamics o M S := by
  have h0 := List.length_pos_iff.2 hM.nonempty
  have hd : o.dynamics.length = 1 := hv.dynamics.trans hp
  have c0 : (o.cut lo hi tm).dynamics[0]? = o.dynamics[0]? := get0_append hd
  have c1 : (o.cut lo hi tm).dynamics[1]? = o.dynamics[0]? := get1_append hd
  have left : ∀ (F : VFun (PArg K) K) (j : Nat), j < o.nx → ∀ s i, s < M.orders.length → i ≤ M.order s →
      ((derivative (M.twice.piece (fun k => T.x 0 k j) s)).eval (M.twice.node s i) = M.twice.halfWidth T 0 s *
        F.f (o.pArg T 0 (M.twice.idx s i) (M.twice.time T 0 s (M.twice.node s i))) j ↔
      (derivative (M.piece (fun k => S.x 0 k j) s)).eval (M.node s i) = M.halfWidth S 0 s *
        F.f (o.pArg S 0 (M.idx s i) (M.time S 0 s (M.node s i))) j) := by
    intro F j hj s i hs hi
    rw [Mesh.twice_piece (fun k hk => h.x0 k hk j hj) hs, Mesh.twice_node hs, h.half hs, h.time hs, Mesh.twice_idx hs.le,
      h.pArg hna (Mesh.idx_lt hs hi)]
  have right : ∀ (F : VFun (PArg K) K) (j : Nat), j < o.nx → ∀ s i, s < M.orders.length → i ≤ M.order s →
      ((derivative (M.twice.piece (fun k => T.x 0 k j) (M.orders.length + s))).eval (M.twice.node (M.orders.length + s) i) =
        M.twice.halfWidth T 0 (M.orders.length + s) * F.f (o.pArg T 0 (M.twice.idx (M.orders.length + s) i)
          (M.twice.time T 0 (M.orders.length + s) (M.twice.node (M.orders.length + s) i))) j ↔
      (derivative (M.piece (fun k => S.x 1 k j) s)).eval (M.node s i) = M.halfWidth S 1 s *
        F.f (o.pArg S 1 (M.idx s i) (M.time S 1 s (M.node s i))) j) := by
    intro F j hj s i hs hi
    rw [Mesh.twice_piece_right (fun k hk => h.x1 k hk j hj) hs, Mesh.twice_node_right, h.half_right hs, h.time_right hs,
      Mesh.twice_idx_right, h.pArg_right hna (Mesh.idx_lt hs hi)]
  have t1 : M.time S 1 0 M.tau0 = S.t0 1 := by simp [Mesh.time]
  have i1 : M.idx 0 0 = 0 := by simp [Mesh.idx, segStart]
  constructor
  · rintro ⟨a, b⟩
    refine ⟨fun F hF j hj s i ho => ?_, fun F hF j hj => ?_⟩
    · rcases (Mesh.twice_owns hM).1 ho with ho | ⟨r, rfl, h1, h2, h3⟩
      · exact (left F j hj s i ho.1 ho.2.1).2 (a F (c0.trans hF) j hj s i ho)
      · exact (right F j hj r i h1 h2).2 (b F (c1.trans hF) j hj r i ⟨h1, h2, .inr h3⟩)
    · have := b F (c1.trans hF) j hj 0 0 ⟨h0, Nat.zero_le _, .inl rfl⟩
      rw [hM.node_first h0, t1, i1] at this
      exact this
  · rintro ⟨a, b⟩
    refine ⟨fun F hF j hj s i ho => ?_, fun F hF j hj s i ho => ?_⟩
    · exact (left F j hj s i ho.1 ho.2.1).1 (a F (c0.symm.trans hF) j hj s i ((Mesh.twice_owns hM).2 (.inl ho)))
    · rcases Nat.eq_zero_or_pos i with rfl | hi
      · obtain rfl : s = 0 := by have := ho.2.2; omega
        rw [hM.node_first h0, t1, i1]
        exact b F (c1.symm.trans hF) j hj
      · exact (right F j hj s i ho.1 ho.2.1).1 (a F (c1.symm.trans hF) j hj _ i
          ((Mesh.twice_owns hM).2 (.inr ⟨s, rfl, ho.1, ho.2.1, hi⟩)))

theorem SameCut.path_iff (hv : ValidOCP o) (hna : o.na = 0) (hM : M.Good) :
    (PathOK (o.cut lo hi tm) M S 0 ∧ PathOK (o.cut lo hi tm) M S 1) ↔ PathOK o M.twice T 0 := by
  have h0 := List.length_pos_iff.2 hM.nonempty
  have hd : o.pathConstraints.length = 1 := hv.pathConstraints.trans hp
  have c0 : (o.cut lo hi tm).pathConstraints[0]? = o.pathConstraints[0]? := get0_append hd
  have c1 : (o.cut lo hi tm).pathConstraints[1]? = o.pathConstraints[0]? := get1_append hd
  have left : ∀ s i, s < M.orders.length → i ≤ M.order s →
      o.pArg T 0 (M.twice.idx s i) (M.twice.time T 0 s (M.twice.node s i)) =
        o.pArg S 0 (M.idx s i) (M.time S 0 s (M.node s i)) := by
    intro s i hs hi
    rw [Mesh.twice_node hs, h.time hs, Mesh.twice_idx hs.le, h.pArg hna (Mesh.idx_lt hs hi)]
  have right : ∀ s i, s < M.orders.length → i ≤ M.order s →
      o.pArg T 0 (M.twice.idx (M.orders.length + s) i)
          (M.twice.time T 0 (M.orders.length + s) (M.twice.node (M.orders.length + s) i)) =
        o.pArg S 1 (M.idx s i) (M.time S 1 s (M.node s i)) := by
    intro s i hs hi
    rw [Mesh.twice_node_right, h.time_right hs, Mesh.twice_idx_right, h.pArg_right hna (Mesh.idx_lt hs hi)]
  constructor
  · rintro ⟨a, b⟩ F hF s i ho c hc
    rcases (Mesh.twice_owns hM).1 ho with ho | ⟨r, rfl, h1, h2, h3⟩
    · rw [left s i ho.1 ho.2.1]; exact a F (c0.trans hF) s i ho c hc
    · rw [right r i h1 h2]; exact b F (c1.trans hF) r i ⟨h1, h2, .inr h3⟩ c hc
  · intro a
    refine ⟨fun F hF s i ho c hc => ?_, fun F hF s i ho c hc => ?_⟩
    · have := a F (c0.symm.trans hF) s i ((Mesh.twice_owns hM).2 (.inl ho)) c hc
      rwa [left s i ho.1 ho.2.1] at this
    · rcases Nat.eq_zero_or_pos i with rfl | hi
      · obtain rfl : s = 0 := by have := ho.2.2; omega
        have hl : M.orders.length - 1 < M.orders.length := by omega
        have := a F (c1.symm.trans hF) _ _ ((Mesh.twice_owns hM).2 (.inl ⟨hl, le_rfl, .inr (hM.order_pos hl)⟩)) c hc
        rw [left _ _ hl le_rfl, h.time_joint hM, Mesh.idx_end hM.nonempty] at this
        have e : (o.cut lo hi tm).pArg S 1 (M.idx 0 0) (M.time S 1 0 (M.node 0 0)) = o.pArg S 0 (M.N - 1) (S.tf 0) := by
          have i1 : M.idx 0 0 = 0 := by simp [Mesh.idx, segStart]
          rw [hM.node_first h0, i1, show M.time S 1 0 M.tau0 = S.t0 1 by simp [Mesh.time], ← h.tm]
          show o.pArg S 1 0 (S.tf 0) = _
          unfold OCP.pArg
          rw [if_pos hna, if_pos hna]
          congr 1
          · exact List.map_congr_left fun j hj => h.joint_x (List.mem_range.1 hj)
          · exact List.map_congr_left fun j hj => h.joint_u (List.mem_range.1 hj)
        rw [e]; exact this
      · have := a F (c1.symm.trans hF) _ i ((Mesh.twice_owns hM).2 (.inr ⟨s, rfl, ho.1, ho.2.1, hi⟩)) c hc
        rwa [right s i ho.1 ho.2.1] at this

theorem SameCut.tArg (hna : o.na = 0) :
    (o.tArg T 0 M.twice.N).xf = (o.tArg S 1 M.N).xf ∧ (o.tArg T 0 M.twice.N).tf = (o.tArg S 1 M.N).tf ∧
      (o.tArg T 0 M.twice.N).a = (o.tArg S 1 M.N).a := by
  have h1 : 1 ≤ M.N := Nat.succ_pos _
  refine ⟨List.map_congr_left fun j hj => ?_, h.tf, by unfold OCP.tArg; rw [if_pos hna, if_pos hna]⟩
  rw [Mesh.twice_N, Nat.add_sub_assoc h1]
  exact h.x1 _ (by omega) j (List.mem_range.1 hj)

theorem SameCut.terminal_iff (hna : o.na = 0) (he : o.EndOnly) :
    (TerminalOK (o.cut lo hi tm) M S 0 ∧ TerminalOK (o.cut lo hi tm) M S 1) ↔ TerminalOK o M.twice T 0 := by
  obtain ⟨e1, e2, e3⟩ := h.tArg hp hna
  have key : ∀ F, o.terminalConstraints[0]? = some (some F) → F.f (o.tArg T 0 M.twice.N) = F.f (o.tArg S 1 M.N) :=
    fun F hF => he.con F (List.mem_of_getElem? hF) _ _ e1 e2 e3
  constructor
  · rintro ⟨-, b⟩ F hF c hc
    rw [key F hF]; exact b F hF c hc
  · intro a
    refine ⟨fun F hF => ?_, fun F hF c hc => ?_⟩
    · simp [OCP.cut] at hF
    · have hF : o.terminalConstraints[0]? = some (some F) := hF
      have := a F hF c hc
      rwa [key F hF] at this

theorem SameCut.bounds_iff (hv : ValidOCP o) (hna : o.na = 0) (hM : M.Good) :
    (BoundsOK (o.cut lo hi tm) M S 0 ∧ BoundsOK (o.cut lo hi tm) M S 1) ↔
      BoundsOK o M.twice T 0 ∧ Within lo hi (S.tf 0) := by
  have hl : ∀ {α : Type} {l : List (List α)} {r c : Nat}, HasShape l r c → r = o.nPhases → l.length = 1 :=
    fun h e => h.1.trans (e.trans hp)
  have h1 : 1 ≤ M.N := Nat.succ_pos _
  have hN : 1 < M.N := by
    have h0 := List.length_pos_iff.2 hM.nonempty
    have := Mesh.idx_lt (M := M) h0 le_rfl
    have := hM.order_pos h0
    unfold Mesh.idx at *; omega
  constructor
  · rintro ⟨a, b⟩
    have ax : ∀ i < M.N, ¬ (0 = 0 ∧ i = 0) → ∀ j < o.nx,
        Within (entry (o.lbx ++ o.lbx) 0 j .nan) (entry (o.ubx ++ o.ubx) 0 j .nan) (S.x 0 i j) := a.x
    have bx : ∀ i < M.N, ¬ (1 = 0 ∧ i = 0) → ∀ j < o.nx,
        Within (entry (o.lbx ++ o.lbx) 1 j .nan) (entry (o.ubx ++ o.ubx) 1 j .nan) (S.x 1 i j) := b.x
    have au : ∀ i < M.N, ∀ j < o.nu,
        Within (entry (o.lbu ++ o.lbu) 0 j .nan) (entry (o.ubu ++ o.ubu) 0 j .nan) (S.u 0 i j) := a.u
    have bu : ∀ i < M.N, ∀ j < o.nu,
        Within (entry (o.lbu ++ o.lbu) 1 j .nan) (entry (o.ubu ++ o.ubu) 1 j .nan) (S.u 1 i j) := b.u
    have at0 : Within (entry (o.lbt0 ++ [[lo]]) 0 0 .nan) (entry (o.ubt0 ++ [[hi]]) 0 0 .nan) (S.t0 0) := a.t0
    have a0 : ∀ j < o.nx, S.x 0 0 j = entry (o.x00 ++ o.x00) 0 j 0 := a.x0 rfl
    refine ⟨⟨fun _ j hj => ?_, fun i hi hne j hj => ?_, fun i hi j hj => ?_, ?_, ?_, fun k hk => ?_⟩, a.tf⟩
    · rw [h.x0 0 h1 j hj, a0 j hj, entry0_append (hl hv.x00 rfl)]
    · rw [Mesh.twice_N] at hi
      by_cases hlt : i < M.N
      · have := ax i hlt hne j hj
        rw [entry0_append (hl hv.lbx rfl), entry0_append (hl hv.ubx rfl)] at this
        rwa [h.x0 i hlt j hj]
      · obtain ⟨k, rfl⟩ := Nat.exists_eq_add_of_le (show M.N - 1 ≤ i by omega)
        have := bx k (by omega) (by omega) j hj
        rw [entry1_append (hl hv.lbx rfl), entry1_append (hl hv.ubx rfl)] at this
        rwa [h.x1 k (by omega) j hj]
    · rw [Mesh.twice_N] at hi
      by_cases hlt : i < M.N
      · have := au i hlt j hj
        rw [entry0_append (hl hv.lbu rfl), entry0_append (hl hv.ubu rfl)] at this
        rwa [h.u0 i hlt j hj]
      · obtain ⟨k, rfl⟩ := Nat.exists_eq_add_of_le (show M.N - 1 ≤ i by omega)
        have := bu k (by omega) j hj
        rw [entry1_append (hl hv.lbu rfl), entry1_append (hl hv.ubu rfl)] at this
        rwa [h.u1 k (by omega) j hj]
    · rw [entry0_append (hl hv.lbt0 rfl), entry0_append (hl hv.ubt0 rfl)] at at0
      rwa [h.t0]
    · rw [h.tf]; exact b.tf
    · omega
  · rintro ⟨a, b⟩
    refine ⟨⟨fun _ j hj => ?_, fun i hi hne j hj => ?_, fun i hi j hj => ?_, ?_, b, fun k hk => ?_⟩,
      ⟨fun h => by omega, fun i hi _ j hj => ?_, fun i hi j hj => ?_, ?_, ?_, fun k hk => ?_⟩⟩
    · show _ = entry (o.x00 ++ o.x00) 0 j 0
      rw [entry0_append (hl hv.x00 rfl), ← a.x0 rfl j hj, h.x0 0 h1 j hj]
    · show Within (entry (o.lbx ++ o.lbx) 0 j .nan) (entry (o.ubx ++ o.ubx) 0 j .nan) _
      rw [entry0_append (hl hv.lbx rfl), entry0_append (hl hv.ubx rfl), ← h.x0 i hi j hj]
      exact a.x i (by rw [Mesh.twice_N]; omega) hne j hj
    · show Within (entry (o.lbu ++ o.lbu) 0 j .nan) (entry (o.ubu ++ o.ubu) 0 j .nan) _
      rw [entry0_append (hl hv.lbu rfl), entry0_append (hl hv.ubu rfl), ← h.u0 i hi j hj]
      exact a.u i (by rw [Mesh.twice_N]; omega) j hj
    · show Within (entry (o.lbt0 ++ [[lo]]) 0 0 .nan) (entry (o.ubt0 ++ [[hi]]) 0 0 .nan) (S.t0 0)
      rw [entry0_append (hl hv.lbt0 rfl), entry0_append (hl hv.ubt0 rfl), ← h.t0]
      exact a.t0
    · have hk : k < o.na := hk
      omega
    · show Within (entry (o.lbx ++ o.lbx) 1 j .nan) (entry (o.ubx ++ o.ubx) 1 j .nan) _
      rw [entry1_append (hl hv.lbx rfl), entry1_append (hl hv.ubx rfl), ← h.x1 i hi j hj]
      exact a.x _ (by rw [Mesh.twice_N]; omega) (by omega) j hj
    · show Within (entry (o.lbu ++ o.lbu) 1 j .nan) (entry (o.ubu ++ o.ubu) 1 j .nan) _
      rw [entry1_append (hl hv.lbu rfl), entry1_append (hl hv.ubu rfl), ← h.u1 i hi j hj]
      exact a.u _ (by rw [Mesh.twice_N]; omega) j hj
    · show Within (entry (o.lbt0 ++ [[lo]]) 1 0 .nan) (entry (o.ubt0 ++ [[hi]]) 1 0 .nan) (S.t0 1)
      rw [entry1_append (hl hv.lbt0 rfl), entry1_append (hl hv.ubt0 rfl), ← h.tm]
      exact b
    · rw [← h.tf]; exact a.tf
    · have hk : k < o.na := hk
      omega

theorem SameCut.mid_iff (hv : ValidOCP o) :
    (MidControlOK (o.cut lo hi tm) M S 0 ∧ MidControlOK (o.cut lo hi tm) M S 1) ↔ MidControlOK o M.twice T 0 := by
  have hlb : o.lbu.length = 1 := hv.lbu.1.trans hp
  have hub : o.ubu.length = 1 := hv.ubu.1.trans hp
  have l0 : ∀ j, entry (o.cut lo hi tm).lbu 0 j .nan = entry o.lbu 0 j .nan := fun j => entry0_append hlb j _
  have l1 : ∀ j, entry (o.cut lo hi tm).lbu 1 j .nan = entry o.lbu 0 j .nan := fun j => entry1_append hlb j _
  have u0 : ∀ j, entry (o.cut lo hi tm).ubu 0 j .nan = entry o.ubu 0 j .nan := fun j => entry0_append hub j _
  have u1 : ∀ j, entry (o.cut lo hi tm).ubu 1 j .nan = entry o.ubu 0 j .nan := fun j => entry1_append hub j _
  unfold MidControlOK
  constructor
  · rintro ⟨a, b⟩ j hj s hs i hi
    by_cases hlt : s < M.orders.length
    · rw [Mesh.twice_order hlt] at hi
      rw [Mesh.twice_piece (fun k hk => h.u0 k hk j hj) hlt, Mesh.twice_node hlt, Mesh.twice_node hlt, ← l0, ← u0]
      exact a j hj s hlt i hi
    · obtain ⟨r, rfl⟩ := Nat.exists_eq_add_of_le (not_lt.1 hlt)
      rw [Mesh.twice_length] at hs
      have hr : r < M.orders.length := by omega
      rw [Mesh.twice_order_right] at hi
      rw [Mesh.twice_piece_right (fun k hk => h.u1 k hk j hj) hr, Mesh.twice_node_right, Mesh.twice_node_right, ← l1, ← u1]
      exact b j hj r hr i hi
  · intro a
    refine ⟨fun j hj s hs i hi => ?_, fun j hj s hs i hi => ?_⟩
    · have := a j hj s (by rw [Mesh.twice_length]; omega) i (by rwa [Mesh.twice_order hs])
      rwa [Mesh.twice_piece (fun k hk => h.u0 k hk j hj) hs, Mesh.twice_node hs, Mesh.twice_node hs, ← l0, ← u0] at this
    · have := a j hj (M.orders.length + s) (by rw [Mesh.twice_length]; omega) i (by rwa [Mesh.twice_order_right])
      rwa [Mesh.twice_piece_right (fun k hk => h.u1 k hk j hj) hs, Mesh.twice_node_right, Mesh.twice_node_right, ← l1,
        ← u1] at this

theorem SameCut.slope_iff (hs : o.SettingsOK) (hM : M.Good) (sc : Nat → K) :
    (SlopeBounded (o.cut lo hi tm) M S sc 0 ∧ SlopeBounded (o.cut lo hi tm) M S sc 1) ↔
      SlopeBounded o M.twice T sc 0 ∧ ∀ j < o.nu, Within (o.lbdu.getD 0 .nan) (o.ubdu.getD 0 .nan)
        (sc j * (derivative (M.piece (fun k => S.u 1 k j) 0)).eval M.tau0) := by
  have h0 := List.length_pos_iff.2 hM.nonempty
  have hlb : o.lbdu.length = 1 := hs.lbdu.trans hp
  have hub : o.ubdu.length = 1 := hs.ubdu.trans hp
  have l0 : (o.cut lo hi tm).lbdu.getD 0 .nan = o.lbdu.getD 0 .nan := getD0_append hlb _
  have l1 : (o.cut lo hi tm).lbdu.getD 1 .nan = o.lbdu.getD 0 .nan := getD1_append hlb _
  have u0 : (o.cut lo hi tm).ubdu.getD 0 .nan = o.ubdu.getD 0 .nan := getD0_append hub _
  have u1 : (o.cut lo hi tm).ubdu.getD 1 .nan = o.ubdu.getD 0 .nan := getD1_append hub _
  unfold SlopeBounded
  rw [l0, l1, u0, u1]
  constructor
  · rintro ⟨a, b⟩
    refine ⟨fun j hj s i ho => ?_, fun j hj => ?_⟩
    · rcases (Mesh.twice_owns hM).1 ho with ho | ⟨r, rfl, h1, h2, h3⟩
      · rw [Mesh.twice_piece (fun k hk => h.u0 k hk j hj) ho.1, Mesh.twice_node ho.1]
        exact a j hj s i ho
      · rw [Mesh.twice_piece_right (fun k hk => h.u1 k hk j hj) h1, Mesh.twice_node_right]
        exact b j hj r i ⟨h1, h2, .inr h3⟩
    · have := b j hj 0 0 ⟨h0, Nat.zero_le _, .inl rfl⟩
      rwa [hM.node_first h0] at this
  · rintro ⟨a, b⟩
    refine ⟨fun j hj s i ho => ?_, fun j hj s i ho => ?_⟩
    · have := a j hj s i ((Mesh.twice_owns hM).2 (.inl ho))
      rwa [Mesh.twice_piece (fun k hk => h.u0 k hk j hj) ho.1, Mesh.twice_node ho.1] at this
    · rcases Nat.eq_zero_or_pos i with rfl | hi
      · obtain rfl : s = 0 := by have := ho.2.2; omega
        rw [hM.node_first h0]
        exact b j hj
      · have := a j hj _ i ((Mesh.twice_owns hM).2 (.inr ⟨s, rfl, ho.1, ho.2.1, hi⟩))
        rwa [Mesh.twice_piece_right (fun k hk => h.u1 k hk j hj) ho.1, Mesh.twice_node_right] at this

theorem SameCut.cont_iff (hM : M.Good) :
    ((SlopeContinuous (o.cut lo hi tm) M S 0 ∧ SlopeContinuous (o.cut lo hi tm) M S 1) ∧ ∀ j < o.nu,
      (derivative (M.piece (fun k => S.u 0 k j) (M.orders.length - 1))).eval M.tau1 =
        (derivative (M.piece (fun k => S.u 1 k j) 0)).eval M.tau0) ↔ SlopeContinuous o M.twice T 0 := by
  have h0 := List.length_pos_iff.2 hM.nonempty
  have e1 : M.twice.tau1 = M.tau1 := rfl
  have e0 : M.twice.tau0 = M.tau0 := rfl
  constructor
  · rintro ⟨⟨a, b⟩, c⟩ j hj s hs
    rw [Mesh.twice_length] at hs
    rw [e1, e0]
    by_cases hlt : s + 1 < M.orders.length
    · rw [Mesh.twice_piece (fun k hk => h.u0 k hk j hj) (by omega), Mesh.twice_piece (fun k hk => h.u0 k hk j hj) hlt]
      exact a j hj s hlt
    · obtain ⟨r, hr⟩ := Nat.exists_eq_add_of_le (not_lt.1 hlt)
      rw [hr, Mesh.twice_piece_right (fun k hk => h.u1 k hk j hj) (by omega)]
      rcases Nat.eq_zero_or_pos r with rfl | hr0
      · obtain rfl : s = M.orders.length - 1 := by omega
        rw [Mesh.twice_piece (fun k hk => h.u0 k hk j hj) (by omega)]
        exact c j hj
      · obtain ⟨q, rfl⟩ := Nat.exists_eq_add_of_le' hr0
        obtain rfl : s = M.orders.length + q := by omega
        rw [Mesh.twice_piece_right (fun k hk => h.u1 k hk j hj) (by omega)]
        exact b j hj q (by omega)
  · intro a
    refine ⟨⟨fun j hj s hs => ?_, fun j hj s hs => ?_⟩, fun j hj => ?_⟩
    · have := a j hj s (by rw [Mesh.twice_length]; omega)
      rwa [Mesh.twice_piece (fun k hk => h.u0 k hk j hj) (by omega), Mesh.twice_piece (fun k hk => h.u0 k hk j hj) hs] at this
    · have := a j hj (M.orders.length + s) (by rw [Mesh.twice_length]; omega)
      rwa [Mesh.twice_piece_right (fun k hk => h.u1 k hk j hj) (by omega), add_assoc,
        Mesh.twice_piece_right (fun k hk => h.u1 k hk j hj) hs] at this
    · have := a j hj (M.orders.length - 1) (by rw [Mesh.twice_length]; omega)
      rw [Nat.sub_add_cancel h0] at this
      have e := Mesh.twice_piece_right (v := fun k => T.u 0 k j) (fun k hk => h.u1 k hk j hj) h0
      rw [Nat.add_zero] at e
      rwa [Mesh.twice_piece (fun k hk => h.u0 k hk j hj) (by omega), e] at this

/-- **C99** One phase on the doubled mesh, or two linked phases: the two-phase problem asks in addition for the dynamics (and the
slope bounds of `diff_u`) at the junction from the right, and does not ask for equal control slopes there. -/
theorem C99_cut (hv : ValidOCP o) (hs : o.SettingsOK) (hna : o.na = 0) (he : o.EndOnly) (hM : M.Good) :
    SolvesOCP (o.cut lo hi tm) M S ∧ JointSlopeContinuous o M S ↔
      SolvesOCP o M.twice T ∧ JointDynamics o M S ∧ JointSlopeBounded o M S ∧ Within lo hi (S.tf 0) := by
  have hmu : o.midu.length = 1 := hs.midu.trans hp
  have hdc : o.duContinuity.length = 1 := hs.duContinuity.trans hp
  have hdu : o.diffU.length = 1 := hs.diffU.trans hp
  have m0 : (o.cut lo hi tm).midu.getD 0 false = o.midu.getD 0 false := getD0_append hmu _
  have m1 : (o.cut lo hi tm).midu.getD 1 false = o.midu.getD 0 false := getD1_append hmu _
  have d0 : (o.cut lo hi tm).duContinuity.getD 0 false = o.duContinuity.getD 0 false := getD0_append hdc _
  have d1 : (o.cut lo hi tm).duContinuity.getD 1 false = o.duContinuity.getD 0 false := getD1_append hdc _
  have f0 : (o.cut lo hi tm).diffU.getD 0 false = o.diffU.getD 0 false := getD0_append hdu _
  have f1 : (o.cut lo hi tm).diffU.getD 1 false = o.diffU.getD 0 false := getD1_append hdu _
  have p0 : (0 : Nat) < (o.cut lo hi tm).nPhases := Nat.succ_pos _
  have p1 : (1 : Nat) < (o.cut lo hi tm).nPhases := Nat.lt_succ_self _
  have two : ∀ {P : Nat → Prop}, P 0 → P 1 → ∀ ph < (o.cut lo hi tm).nPhases, P ph := by
    intro P a b ph hph
    have hph : ph < 2 := hph
    interval_cases ph
    exacts [a, b]
  have one : ∀ {P : Nat → Prop}, P 0 → ∀ ph < o.nPhases, P ph := by
    intro P a ph hph
    obtain rfl : ph = 0 := by omega
    exact a
  have q0 : 0 < o.nPhases := by omega
  constructor
  · rintro ⟨⟨a, b⟩, c⟩
    obtain ⟨g1, g2⟩ := (h.bounds_iff hp hv hna hM).1 ⟨a.bounds 0 p0, a.bounds 1 p1⟩
    obtain ⟨g3, g4⟩ := (h.dynamics_iff hp hv hna hM).1 ⟨a.dynamics 0 p0, a.dynamics 1 p1⟩
    refine ⟨⟨⟨one g1, one g3, one ((h.path_iff hp hv hna hM).1 ⟨a.path 0 p0, a.path 1 p1⟩),
      one ((h.terminal_iff hp hna he).1 ⟨a.terminal 0 p0, a.terminal 1 p1⟩),
      one fun hm => (h.mid_iff hp hv).1 ⟨a.mid 0 p0 (m0.trans hm), a.mid 1 p1 (m1.trans hm)⟩,
      one fun hm => (h.cont_iff hp hM).1 ⟨⟨a.cont 0 p0 (d0.trans hm), a.cont 1 p1 (d1.trans hm)⟩, c hm⟩,
      fun h2 => by omega⟩, one fun hd => ?_⟩, g4, fun hd => ?_, g2⟩
    · exact ((h.slope_iff hp hs hM _).1 ⟨b 0 p0 (f0.trans hd), b 1 p1 (f1.trans hd)⟩).1
    · exact ((h.slope_iff hp hs hM _).1 ⟨b 0 p0 (f0.trans hd), b 1 p1 (f1.trans hd)⟩).2
  · rintro ⟨⟨a, b⟩, c, d, e⟩
    obtain ⟨g1, g2⟩ := (h.bounds_iff (tm := tm) hp hv hna hM).2 ⟨a.bounds 0 q0, e⟩
    obtain ⟨g3, g4⟩ := (h.dynamics_iff (lo := lo) (hi := hi) (tm := tm) hp hv hna hM).2 ⟨a.dynamics 0 q0, c⟩
    obtain ⟨g5, g6⟩ := (h.path_iff (lo := lo) (hi := hi) (tm := tm) hp hv hna hM).2 (a.path 0 q0)
    obtain ⟨g7, g8⟩ := (h.terminal_iff (lo := lo) (hi := hi) (tm := tm) hp hna he).2 (a.terminal 0 q0)
    refine ⟨⟨⟨two g1 g2, two g3 g4, two g5 g6, two g7 g8, two (fun hm => ?_) (fun hm => ?_), two (fun hm => ?_) (fun hm => ?_),
      fun _ => ⟨?_, ?_, ?_⟩⟩, two (fun hm => ?_) (fun hm => ?_)⟩, fun hm => ?_⟩
    · exact ((h.mid_iff hp hv).2 (a.mid 0 q0 (m0.symm.trans hm))).1
    · exact ((h.mid_iff hp hv).2 (a.mid 0 q0 (m1.symm.trans hm))).2
    · exact ((h.cont_iff hp hM).2 (a.cont 0 q0 (d0.symm.trans hm))).1.1
    · exact ((h.cont_iff hp hM).2 (a.cont 0 q0 (d1.symm.trans hm))).1.2
    · intro k p q hk j hj
      have hj : j < o.nx := hj
      match k, hk with
      | 0, hk =>
        obtain ⟨rfl, rfl⟩ : 0 = p ∧ 1 = q := by simpa [OCP.cut] using hk
        rw [h.joint_x hj, sub_self]
        simp [OCP.cut, entry, hj, Within, Ext.Below, Ext.Above]
    · intro k p q hk j hj
      match k, hk with
      | 0, hk =>
        obtain ⟨rfl, rfl⟩ : 0 = p ∧ 1 = q := by simpa [OCP.cut] using hk
        exact h.joint_u hj
    · intro k p q hk
      match k, hk with
      | 0, hk =>
        obtain ⟨rfl, rfl⟩ : 0 = p ∧ 1 = q := by simpa [OCP.cut] using hk
        exact h.tm.symm
    · exact ((h.slope_iff hp hs hM _).2 ⟨b 0 q0 (f0.symm.trans hm), d (f0.symm.trans hm)⟩).1
    · exact ((h.slope_iff hp hs hM _).2 ⟨b 0 q0 (f1.symm.trans hm), d (f1.symm.trans hm)⟩).2
    · exact ((h.cont_iff (lo := lo) (hi := hi) (tm := tm) hp hM).2 (a.cont 0 q0 hm)).2

end
end MPOpt
