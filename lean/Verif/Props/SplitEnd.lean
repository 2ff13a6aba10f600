import Verif.Props.Split
import Verif.Props.MayerEnd

/-! # C99, continued: counterparts, costs, and runs of the library -/

set_option autoImplicit false
set_option linter.unusedSectionVars false

namespace MPOpt
open Polynomial

variable {K : Type} [Field K] [LinearOrder K] [IsStrictOrderedRing K] {o : OCP K} {M : Mesh K} {T S : Traj K}
variable {lo hi : Ext K} {tm : K}

/-! ### Every trajectory has its counterpart -/

/-- Two linked phases, joined. -/
theorem SolvesOCP.join (hT : SolvesOCP (o.cut lo hi tm) M S) (hw : ∑ s ∈ Finset.range M.orders.length, S.w s 0 = 1)
    (ht : S.t0 0 ≠ S.tf 1) : ∃ T, SameCut o M T S ∧ (∀ s < M.orders.length,
      T.w s 0 = (S.tf 0 - S.t0 0) * S.w s 0 / (S.tf 1 - S.t0 0)) ∧ ∀ s < M.orders.length,
      T.w (M.orders.length + s) 0 = (S.tf 1 - S.t0 1) * S.w s 1 / (S.tf 1 - S.t0 0) := by
  have hd : S.tf 1 - S.t0 0 ≠ 0 := sub_ne_zero.2 ht.symm
  obtain ⟨lx, lu, lt⟩ := hT.1.links le_rfl
  have hx : ∀ j < o.nx, S.x 1 0 j = S.x 0 (M.N - 1) j := by
    intro j hj
    have := lx 0 0 1 rfl j hj
    simp [OCP.cut, entry, hj, Within, Ext.Below, Ext.Above] at this
    linarith [this.1, this.2]
  have hu : ∀ j < o.nu, S.u 1 0 j = S.u 0 (M.N - 1) j := fun j hj => lu 0 0 1 rfl j hj
  have hN : 1 ≤ M.N := Nat.succ_pos _
  refine ⟨⟨fun _ k j => if k < M.N then S.x 0 k j else S.x 1 (k - (M.N - 1)) j,
    fun _ k j => if k < M.N then S.u 0 k j else S.u 1 (k - (M.N - 1)) j, fun _ => S.t0 0, fun _ => S.tf 1, S.a,
    fun s _ => if s < M.orders.length then (S.tf 0 - S.t0 0) * S.w s 0 / (S.tf 1 - S.t0 0) else
      (S.tf 1 - S.t0 1) * S.w (s - M.orders.length) 1 / (S.tf 1 - S.t0 0)⟩,
    ⟨fun k hk j _ => if_pos hk, fun k hk j hj => ?_, fun k hk j _ => if_pos hk, fun k hk j hj => ?_, rfl, (lt 0 0 1 rfl).symm,
      rfl, fun s hs => ?_, fun s hs => ?_, hw⟩, fun s hs => if_pos hs, fun s hs => ?_⟩
  · show (if M.N - 1 + k < M.N then _ else _) = _
    rcases Nat.eq_zero_or_pos k with rfl | hk0
    · rw [if_pos (by omega), hx j hj, Nat.add_zero]
    · rw [if_neg (by omega), Nat.add_sub_cancel_left]
  · show (if M.N - 1 + k < M.N then _ else _) = _
    rcases Nat.eq_zero_or_pos k with rfl | hk0
    · rw [if_pos (by omega), hu j hj, Nat.add_zero]
    · rw [if_neg (by omega), Nat.add_sub_cancel_left]
  · show _ * (if s < M.orders.length then _ else _) = _
    rw [if_pos hs]
    field_simp
  · show _ * (if M.orders.length + s < M.orders.length then _ else _) = _
    rw [if_neg (by omega), Nat.add_sub_cancel_left]
    field_simp
  · show (if M.orders.length + s < M.orders.length then _ else _) = _
    rw [if_neg (by omega), Nat.add_sub_cancel_left]

/-- One phase on the doubled mesh, cut in two where the first half of the segments ends. -/
theorem exists_cut (o : OCP K) (M : Mesh K) (T : Traj K) (h0 : ∑ s ∈ Finset.range M.orders.length, T.w s 0 ≠ 0)
    (h1 : ∑ s ∈ Finset.range M.orders.length, T.w (M.orders.length + s) 0 ≠ 0)
    (hsum : ∑ s ∈ Finset.range M.twice.orders.length, T.w s 0 = 1) :
    ∃ S, SameCut o M T S ∧ S.tf 0 = T.t0 0 + (T.tf 0 - T.t0 0) * ∑ s ∈ Finset.range M.orders.length, T.w s 0 ∧
      (∀ s < M.orders.length, S.w s 0 = T.w s 0 / ∑ s ∈ Finset.range M.orders.length, T.w s 0) ∧
      ∀ s < M.orders.length, S.w s 1 =
        T.w (M.orders.length + s) 0 / ∑ s ∈ Finset.range M.orders.length, T.w (M.orders.length + s) 0 := by
  set A := ∑ s ∈ Finset.range M.orders.length, T.w s 0 with hA
  set B := ∑ s ∈ Finset.range M.orders.length, T.w (M.orders.length + s) 0 with hB
  have hAB : A + B = 1 := by rw [← hsum, Mesh.twice_length, Finset.sum_range_add]
  refine ⟨⟨fun ph k j => if ph = 0 then T.x 0 k j else T.x 0 (M.N - 1 + k) j,
    fun ph k j => if ph = 0 then T.u 0 k j else T.u 0 (M.N - 1 + k) j,
    fun ph => if ph = 0 then T.t0 0 else T.t0 0 + (T.tf 0 - T.t0 0) * A,
    fun ph => if ph = 0 then T.t0 0 + (T.tf 0 - T.t0 0) * A else T.tf 0, T.a,
    fun s ph => if ph = 0 then T.w s 0 / A else T.w (M.orders.length + s) 0 / B⟩,
    ⟨fun _ _ _ _ => rfl, fun _ _ _ _ => rfl, fun _ _ _ _ => rfl, fun _ _ _ _ => rfl, rfl, rfl, rfl, fun s hs => ?_,
      fun s hs => ?_, ?_⟩, rfl, fun _ _ => rfl, fun _ _ => rfl⟩
  · show _ = (T.t0 0 + (T.tf 0 - T.t0 0) * A - T.t0 0) * (T.w s 0 / A)
    field_simp; ring
  · show _ = (T.tf 0 - (T.t0 0 + (T.tf 0 - T.t0 0) * A)) * (T.w (M.orders.length + s) 0 / B)
    rw [show T.tf 0 - (T.t0 0 + (T.tf 0 - T.t0 0) * A) = (T.tf 0 - T.t0 0) * B by rw [← sub_eq_iff_eq_add'.2 hAB.symm]; ring]
    field_simp
  · show ∑ s ∈ Finset.range M.orders.length, T.w s 0 / A = 1
    rw [← Finset.sum_div, ← hA, div_self h0]

/-! ### Costs -/

/-- Quadrature weights of the doubled mesh. -/
theorem twice_weights {c : Colloc K} {l : List Nat} {W : List K} (hW : compQuadWeights c l = .ok W) :
    compQuadWeights c (l ++ l) = .ok (W ++ W.tail) := by
  unfold compQuadWeights at hW ⊢
  obtain ⟨ws, h1, h2⟩ := py_bind_eq_ok.1 hW
  obtain ⟨w0, h3, h4⟩ := py_bind_eq_ok.1 h2
  obtain ⟨f, h5, h6⟩ := py_bind_eq_ok.1 h4
  have h6 := py_pure_eq_ok.1 h6
  have e : (l ++ l).mapM (fun p => do
      let roots ← c.taus p
      return quadWeights c.method roots c.tau0 c.tau1) = .ok (ws ++ ws) := by
    rw [List.mapM_append, h1]; rfl
  have e0 : pyIdx (ws ++ ws) 0 = .ok w0 := by
    unfold pyIdx at h3 ⊢
    cases ws with
    | nil => cases h3
    | cons a l => exact h3
  rw [e, py_bind_ok, e0, py_bind_ok, h5, py_bind_ok, ← h6]
  simp
  rfl

theorem weightedSum_twice {W : List K} {N : Nat} (hW : W.length = N + 1) {V v0 v1 : Nat → K} (h0 : ∀ k < N + 1, V k = v0 k)
    (h1 : ∀ k < N + 1, 1 ≤ k → V (N + k) = v1 k) :
    weightedSum (W ++ W.tail) V = weightedSum W v0 + (weightedSum W v1 - W.getD 0 0 * v1 0) := by
  unfold weightedSum
  rw [List.length_append, List.length_tail, hW, Nat.add_sub_cancel, Finset.sum_range_add, Finset.sum_range_succ' (fun j => W.getD j 0 * v1 j),
    add_sub_cancel_right]
  congr 1
  · refine Finset.sum_congr rfl fun j hj => ?_
    have hj := Finset.mem_range.1 hj
    rw [h0 j hj, List.getD_append _ _ _ _ (by omega)]
  · refine Finset.sum_congr rfl fun j hj => ?_
    have hj := Finset.mem_range.1 hj
    rw [show N + 1 + j = N + (j + 1) by omega, h1 (j + 1) (by omega) (by omega), List.getD_append_right _ _ _ _ (by omega), hW]
    congr 1
    rw [show N + (j + 1) - (N + 1) = j by omega]
    cases W with
    | nil => simp at hW
    | cons a l => simp

/-- **C99** The two-phase cost is the one-phase cost plus the first quadrature weight times the running cost at the junction:
the doubled mesh leaves that weight out. -/
theorem C99_cost (h : SameCut o M T S) (hp : o.nPhases = 1) (hv : ValidOCP o) (hna : o.na = 0) (he : o.EndOnly) (hM : M.Good)
    {W : List K} (hW : W.length = M.N) {rc : PArg K → K} (hrc : o.runningCosts[0]? = some rc) {J I : K}
    (hI : PhysCost (o.cut lo hi tm) M W S I) (hJ : PhysCost o M.twice (W ++ W.tail) T J) :
    I = J + W.getD 0 0 * (M.halfWidth S 1 0 * rc (o.pArg S 1 0 (S.t0 1))) := by
  have h0 := List.length_pos_iff.2 hM.nonempty
  obtain ⟨v, hv', rfl⟩ := hI
  have hr : o.runningCosts.length = 1 := hv.runningCosts.trans hp
  have r0 := hv' 0 (Nat.succ_pos _) rc ((get0_append hr).trans hrc)
  have r1 := hv' 1 (Nat.lt_succ_self _) rc ((get1_append hr).trans hrc)
  have i1 : M.idx 0 0 = 0 := by simp [Mesh.idx, segStart]
  have hV : PhysCost o M.twice (W ++ W.tail) T (TerminalCost o M.twice T 0 +
      weightedSum (W ++ W.tail) fun k => if k < M.N then v 0 k else v 1 (k - (M.N - 1))) := by
    refine ⟨fun _ k => if k < M.N then v 0 k else v 1 (k - (M.N - 1)), fun ph hph => ?_, by rw [hp, Finset.sum_range_one]⟩
    obtain rfl : ph = 0 := by omega
    intro rc' hrc' s i ho
    obtain rfl : rc = rc' := Option.some.inj (hrc.symm.trans hrc')
    rcases (Mesh.twice_owns hM).1 ho with ho | ⟨r, rfl, h1, h2, h3⟩
    · beta_reduce
      rw [Mesh.twice_idx ho.1.le, if_pos (Mesh.idx_lt ho.1 ho.2.1), r0 s i ho, h.half ho.1, h.time ho.1, Mesh.twice_node ho.1,
        h.pArg hna (Mesh.idx_lt ho.1 ho.2.1)]
      rfl
    · have hlt : 1 ≤ M.idx r i := by unfold Mesh.idx; omega
      have := Mesh.idx_lt h1 h2
      beta_reduce
      rw [Mesh.twice_idx_right, if_neg (by omega), Nat.add_sub_cancel_left, r1 r i ⟨h1, h2, .inr h3⟩, h.half_right h1,
        h.time_right h1, Mesh.twice_node_right, h.pArg_right hna this]
      rfl
  have hlen : (W ++ W.tail).length = M.twice.N := by
    rw [List.length_append, List.length_tail, hW, Mesh.twice_N]; omega
  rw [hJ.unique hM.twice hlen hv.runningCosts hV]
  have hN : M.N - 1 + 1 = M.N := Nat.sub_add_cancel (Nat.succ_pos _)
  rw [weightedSum_twice (N := M.N - 1) (v0 := v 0) (v1 := v 1) (by rw [hW, hN]) (fun k hk => if_pos (by omega)) (fun k hk hk1 => by
    rw [if_neg (by omega), Nat.add_sub_cancel_left])]
  have ht : TerminalCost (o.cut lo hi tm) M S 1 = TerminalCost o M.twice T 0 := by
    obtain ⟨e1, e2, e3⟩ := h.tArg hp hna
    have hl : 0 < o.terminalCosts.length := by rw [hv.terminalCosts, hp]; exact Nat.one_pos
    have hm : o.terminalCosts.getD 0 (fun _ => 0) ∈ o.terminalCosts := by
      rw [List.getD_eq_getElem _ _ hl]; exact List.getElem_mem hl
    unfold TerminalCost
    rw [he.cost _ hm _ _ e1 e2 e3]
    rfl
  have ht0 : TerminalCost (o.cut lo hi tm) M S 0 = 0 := rfl
  have hv1 : v 1 0 = M.halfWidth S 1 0 * rc (o.pArg S 1 0 (S.t0 1)) := by
    have := r1 0 0 ⟨h0, Nat.zero_le _, .inl rfl⟩
    rw [i1, hM.node_first h0, show M.time S 1 0 M.tau0 = S.t0 1 by simp [Mesh.time]] at this
    exact this
  rw [show (o.cut lo hi tm).nPhases = 2 from rfl, Finset.sum_range_succ, Finset.sum_range_one, ht, ht0, ← hv1]
  ring

/-- With LGR nodes of order at least 2 the first weight is zero. -/
theorem lgr_first_zero {V : Type} {w : Outside K V} {n : Nat} {arg : OrdersArg} (hM : MeshFor w "LGR" n arg M)
    (hlt : w.tau0 < w.tau1) (hord : ∀ p ∈ M.orders, 2 ≤ p)
    (hj : ∀ p ∈ M.orders, IsJacobiRoots 1 0 (p - 1) (w.lib.jroots (p - 1) 1 0)) {W : List K}
    (hW : compQuadWeights ⟨w.method, w.tau0, w.tau1, tausFn w.lib w.tau0 w.tau1 "LGR"⟩ M.orders = .ok W) : W.getD 0 0 = 0 := by
  obtain ⟨W', hW', -, e, -⟩ := compQuadWeights_spec ⟨w.method, w.tau0, w.tau1, tausFn w.lib w.tau0 w.tau1 "LGR"⟩ M.orders
    hM.good.nonempty M.nodes hM.goodNodes
  rw [hW] at hW'
  cases hW'
  have h0 := List.length_pos_iff.2 hM.good.nonempty
  have hp := hM.good.order_mem h0
  obtain ⟨r, hr, hz⟩ := C05_lgr_first_weight_zero w.lib w.method w.tau0 w.tau1 hlt (M.order 0) (hord _ hp) (hj _ hp)
  rw [hM.nodes _ hp] at hr
  cases hr
  rw [e, List.getD_eq_getElem?_getD, ← List.head?_eq_getElem?]
  show (Option.getD (quadWeights w.method (M.nodes (M.order 0)) w.tau0 w.tau1).head? 0) = 0
  rw [hz]; rfl

/-! ### The two-phase problem is a proper one -/

theorem rowOrdered_append {a b c d : List (List (Ext K))} (h : a.length = b.length) (h1 : ∀ ph, RowOrdered a b ph)
    (h2 : ∀ ph, RowOrdered c d ph) (ph : Nat) : RowOrdered (a ++ c) (b ++ d) ph := by
  intro l u hl hu
  by_cases hlt : ph < a.length
  · rw [List.getElem?_append_left hlt] at hl
    rw [List.getElem?_append_left (by omega)] at hu
    exact h1 ph l u hl hu
  · rw [List.getElem?_append_right (by omega)] at hl
    rw [List.getElem?_append_right (by omega), ← h] at hu
    exact h2 _ l u hl hu

theorem hasShape_append {α : Type} {a b : List (List α)} {n m c : Nat} (ha : HasShape a n c) (hb : HasShape b m c) :
    HasShape (a ++ b) (n + m) c :=
  ⟨by rw [List.length_append, ha.1, hb.1], fun r hr => (List.mem_append.1 hr).elim (ha.2 r) (hb.2 r)⟩

theorem OCP.cut_valid (hv : ValidOCP o) (hp : o.nPhases = 1) (hb : Ext.le lo hi = true) : ValidOCP (o.cut lo hi tm) := by
  have two : ∀ {α : Type} {l : List (List α)} {c : Nat}, HasShape l o.nPhases c → HasShape (l ++ l) 2 c := by
    intro α l c h; rw [hp] at h; exact hasShape_append h h
  have one : ∀ {α : Type} (x : α), HasShape [[x]] 1 1 := fun x => ⟨rfl, by simp⟩
  have right : ∀ {α : Type} {l : List (List α)} (x : α), HasShape l o.nPhases 1 → HasShape (l ++ [[x]]) 2 1 := by
    intro α l x h; rw [hp] at h; exact hasShape_append h (one x)
  have left : ∀ {α : Type} {l : List (List α)} (x : α), HasShape l o.nPhases 1 → HasShape ([x] :: l) 2 1 := by
    intro α l x h; rw [hp] at h; exact hasShape_append (one x) h
  have len : ∀ {α : Type} {l : List α}, l.length = o.nPhases → (l ++ l).length = 2 := by
    intro α l h; rw [List.length_append, h, hp]
  have ord : ∀ ph, RowOrdered [[lo]] [[hi]] ph := fun ph l u hl hu i x y hx hy => by
    have h1 := List.mem_of_getElem? hl
    have h2 := List.mem_of_getElem? hu
    rw [List.mem_singleton] at h1 h2
    subst h1 h2
    have h1 := List.mem_of_getElem? hx
    have h2 := List.mem_of_getElem? hy
    rw [List.mem_singleton] at h1 h2
    rw [h1, h2, hb]
  exact
    { phases := Nat.succ_pos _
      dynamics := len hv.dynamics
      runningCosts := len hv.runningCosts
      terminalCosts := by show o.terminalCosts.length + 1 = 2; rw [hv.terminalCosts, hp]
      pathConstraints := len hv.pathConstraints
      terminalConstraints := by show o.terminalConstraints.length + 1 = 2; rw [hv.terminalConstraints, hp]
      dynLen := fun F hF => hv.dynLen F (by simpa [OCP.cut] using hF)
      pathLen := fun F hF => hv.pathLen F (by simpa [OCP.cut] using hF)
      termLen := fun F hF => hv.termLen F (by simpa [OCP.cut] using hF)
      scaleX := hv.scaleX, scaleU := hv.scaleU, scaleA := hv.scaleA
      x00 := two hv.x00, xf0 := two hv.xf0, u00 := two hv.u00, uf0 := two hv.uf0, a0 := two hv.a0
      t00 := right _ hv.t00, tf0 := left _ hv.tf0
      lbx := two hv.lbx, ubx := two hv.ubx, lbu := two hv.lbu, ubu := two hv.ubu, lba := two hv.lba, uba := two hv.uba
      lbt0 := right _ hv.lbt0, ubt0 := right _ hv.ubt0, lbtf := left _ hv.lbtf, ubtf := left _ hv.ubtf
      lbe := ⟨rfl, by simp [OCP.cut]⟩, ube := ⟨rfl, by simp [OCP.cut]⟩
      ordX := rowOrdered_append (hv.lbx.1.trans hv.ubx.1.symm) hv.ordX hv.ordX
      ordU := rowOrdered_append (hv.lbu.1.trans hv.ubu.1.symm) hv.ordU hv.ordU
      ordA := rowOrdered_append (hv.lba.1.trans hv.uba.1.symm) hv.ordA hv.ordA
      ordT0 := rowOrdered_append (hv.lbt0.1.trans hv.ubt0.1.symm) hv.ordT0 ord
      ordTf := rowOrdered_append (a := [[lo]]) (b := [[hi]]) rfl ord hv.ordTf
      ordE := by
        intro ph l u hl hu i a b ha hb
        have hm : ∀ {r : List (Ext K)}, ([List.replicate o.nx (.fin 0)] : List (List (Ext K)))[ph]? = some r → ∀ {c}, r[i]? = some c →
            c = .fin 0 := by
          intro r hr c hc
          have := List.mem_of_getElem? hr
          rw [List.mem_singleton] at this
          subst this
          exact List.eq_of_mem_replicate (List.mem_of_getElem? hc)
        rw [hm hl ha, hm hu hb]
        simp [Ext.le] }

theorem OCP.cut_settings (hs : o.SettingsOK) (hp : o.nPhases = 1) : (o.cut lo hi tm).SettingsOK := by
  have len : ∀ {α : Type} {l : List α}, l.length = o.nPhases → (l ++ l).length = 2 := by
    intro α l h; rw [List.length_append, h, hp]
  refine ⟨hs.nx, len hs.diffU, len hs.midu, len hs.duContinuity, len hs.lbdu, len hs.ubdu, hs.nu.imp_right ?_,
    fun _ => by simp [OCP.cut], fun _ => by simp [OCP.cut], by simp [OCP.cut]⟩
  rintro ⟨a, b⟩
  exact ⟨fun x hx => a x (by simpa [OCP.cut] using hx), fun x hx => b x (by simpa [OCP.cut] using hx)⟩

/-! ### Runs -/

/-- The polynomial orders of the doubled mesh: a number stays, a list is repeated. -/
def OrdersArg.twice : OrdersArg → OrdersArg
  | .int p => .int p
  | .list l => .list (l ++ l)

section
variable {V : Type} {w : Outside K V} {n : Nat} {arg : OrdersArg} {scheme : String}

theorem MeshFor.twice (hM : MeshFor w scheme n arg M) : MeshFor w scheme (n + n) arg.twice M.twice where
  good := hM.good.twice
  orders := by
    have := hM.orders
    cases arg with
    | int p => show M.orders ++ M.orders = _; rw [show M.orders = _ from this, List.replicate_append_replicate]
    | list l => show M.orders ++ M.orders = _; rw [show M.orders = _ from this]
  tau0 := hM.tau0
  tau1 := hM.tau1
  nodes p hp := hM.nodes p (by simpa [Mesh.twice] using hp)

/-- The problem leaves no choice of times: the phase is `[a, b]`. -/
structure OCP.TimesFixed (o : OCP K) (a b : K) : Prop where
  t0 : ∀ t, Within (entry o.lbt0 0 0 .nan) (entry o.ubt0 0 0 .nan) t → t = a
  tf : ∀ t, Within (entry o.lbtf 0 0 .nan) (entry o.ubtf 0 0 .nan) t → t = b

variable {a b : K}

theorem widths_default {n : Nat} (h : WidthsAre o n none T) {ph : Nat} (hp : ph < o.nPhases) (hn : 0 < n) :
    ∑ s ∈ Finset.range n, T.w s ph = 1 := by
  rw [Finset.sum_congr rfl fun s hs => h ph hp s (Finset.mem_range.1 hs)]
  have : (n : K) ≠ 0 := by exact_mod_cast hn.ne'
  simp [this]

theorem cut_times (hS : SolvesOCP (o.cut (.fin ((a + b) / 2)) (.fin ((a + b) / 2)) tm) M S) (hv : ValidOCP o) (hp : o.nPhases = 1)
    (ht : o.TimesFixed a b) : S.t0 0 = a ∧ S.tf 0 = (a + b) / 2 ∧ S.t0 1 = (a + b) / 2 ∧ S.tf 1 = b := by
  have b0 := hS.1.bounds 0 (Nat.succ_pos _)
  have b1 := hS.1.bounds 1 (Nat.lt_succ_self _)
  have l0 : o.lbt0.length = 1 := hv.lbt0.1.trans hp
  have l1 : o.ubt0.length = 1 := hv.ubt0.1.trans hp
  have e : S.tf 0 = (a + b) / 2 := by
    have : Within (.fin ((a + b) / 2)) (.fin ((a + b) / 2)) (S.tf 0) := b0.tf
    exact le_antisymm this.2 this.1
  refine ⟨ht.t0 _ ?_, e, ?_, ht.tf _ b1.tf⟩
  · have : Within (entry (o.lbt0 ++ [[_]]) 0 0 .nan) (entry (o.ubt0 ++ [[_]]) 0 0 .nan) (S.t0 0) := b0.t0
    rwa [entry0_append l0, entry0_append l1] at this
  · rw [← e]; exact (hS.1.links le_rfl).t 0 0 1 rfl

/-- **C99** A phase of fixed length on `2 n` equal segments, or cut in the middle into two linked phases of `n` segments: with a
rule whose first weight is zero and without `du_continuity`, the second run cannot find a cheaper solution than the first. It finds
one as cheap if the first solution also meets the dynamics from the right at the junction. -/
theorem C99_runs {nlpsol nlpsol' : SolverCall K V → Py (List K)} {ptp ptp' : List (List Nat)} {α α' : SolveArgs K V} {rx rdx rx' rdx' : Bool}
    {s s' : Session K V} {p p' : Post K} {r r' : Option (PyDict (ResidVal K))}
    (hrun : mpSolve w nlpsol o ptp (n + n) arg.twice scheme α rx rdx = .ok (s, p, r))
    (hrun' : mpSolve w nlpsol' (o.cut (.fin ((a + b) / 2)) (.fin ((a + b) / 2)) tm) ptp' n arg scheme α' rx' rdx' = .ok (s', p', r'))
    (hα : α.widths = none) (hα' : α'.widths = none) (hv : ValidOCP o) (hs : o.SettingsOK) (hsc : o.PosScales) (hp : o.nPhases = 1)
    (hna : o.na = 0) (he : o.EndOnly) (hdc : o.duContinuity.getD 0 false = false) (ht : o.TimesFixed a b) (hab : a < b)
    (hM : MeshFor w scheme n arg M) (hn : M.orders.length = n)
    {W : List K} (hW : compQuadWeights ⟨w.method, w.tau0, w.tau1, tausFn w.lib w.tau0 w.tau1 scheme⟩ M.orders = .ok W)
    (hW0 : W.getD 0 0 = 0) (hopt : ∀ c z, nlpsol c = .ok z → c.IsOptimal z) (hopt' : ∀ c z, nlpsol' c = .ok z → c.IsOptimal z) :
    ∃ T S J I, SolvesOCP o M.twice T ∧ p.Shows o M.twice T ∧ PhysCost o M.twice (W ++ W.tail) T J ∧
      SolvesOCP (o.cut (.fin ((a + b) / 2)) (.fin ((a + b) / 2)) tm) M S ∧
      p'.Shows (o.cut (.fin ((a + b) / 2)) (.fin ((a + b) / 2)) tm) M S ∧
      PhysCost (o.cut (.fin ((a + b) / 2)) (.fin ((a + b) / 2)) tm) M W S I ∧ J ≤ I ∧
      ∀ S', SameCut o M T S' → JointDynamics o M S' → JointSlopeBounded o M S' → I = J := by
  have hn0 : 0 < n := by rw [← hn]; exact List.length_pos_iff.2 hM.good.nonempty
  have hnK : (n : K) ≠ 0 := by exact_mod_cast hn0.ne'
  have hba : b - a ≠ 0 := (sub_pos.2 hab).ne'
  have hv' : ValidOCP (o.cut (.fin ((a + b) / 2)) (.fin ((a + b) / 2)) tm) := o.cut_valid hv hp (by simp [Ext.le])
  have hs' := o.cut_settings (lo := .fin ((a + b) / 2)) (hi := .fin ((a + b) / 2)) (tm := tm) hs hp
  have hsc' : (o.cut (.fin ((a + b) / 2)) (.fin ((a + b) / 2)) tm).PosScales := ⟨hsc.x, hsc.u, hsc.a, hsc.t⟩
  obtain ⟨T, W1, J, k1, k2, k3, k4, k5, k6⟩ := C53_solve_optimal hrun hv hs hsc hM.twice hopt
  obtain ⟨S, W2, I, l1, l2, l3, l4, l5, l6⟩ := C53_solve_optimal hrun' hv' hs' hsc' hM hopt'
  obtain rfl : W1 = W ++ W.tail := by
    have := k1.symm.trans (twice_weights hW); injection this
  obtain rfl : W2 = W := by
    have := l1.symm.trans hW; injection this
  have hWl : W2.length = M.N := hM.weights_length hW
  rw [hα] at k3 k6
  rw [hα'] at l3 l6
  obtain ⟨rc, hrc⟩ : ∃ rc, o.runningCosts[0]? = some rc :=
    ⟨_, List.getElem?_eq_getElem (by rw [hv.runningCosts, hp]; exact Nat.one_pos)⟩
  have hc1 : ∀ S' : Traj K, JointSlopeContinuous o M S' := fun S' h => by rw [hdc] at h; cases h
  have hJI : J ≤ I := by
    obtain ⟨t1, t2, t3, t4⟩ := cut_times l2 hv hp ht
    obtain ⟨T', hT', w0, w1⟩ := l2.join (by rw [hn]; exact widths_default l3 (Nat.succ_pos _) hn0) (by rw [t1, t4]; exact hab.ne)
    have hsol := ((C99_cut hT' hp hv hs hna he hM.good).1 ⟨l2, hc1 S⟩).1
    obtain ⟨v, hvs⟩ := exists_samples o M.twice T'
    have hJ' : PhysCost o M.twice (W2 ++ W2.tail) T' _ := ⟨v, hvs, rfl⟩
    have hle := k6 T' _ hsol ?_ hJ'
    · rw [C99_cost hT' hp hv hna he hM.good hWl hrc l5 hJ', hW0, zero_mul, add_zero]
      exact hle
    · intro ph hph s hs1
      obtain rfl : ph = 0 := by omega
      by_cases hlt : s < n
      · rw [w0 s (by rw [hn]; exact hlt), l3 0 (Nat.succ_pos _) s hlt, t1, t2, t4]
        push_cast
        field_simp
        ring
      · obtain ⟨q, rfl⟩ := Nat.exists_eq_add_of_le (not_lt.1 hlt)
        have := w1 q (by rw [hn]; omega)
        rw [hn] at this
        rw [this, l3 1 (Nat.lt_succ_self _) q (by omega), t1, t3, t4]
        push_cast
        field_simp
        ring
  refine ⟨T, S, J, I, k2, k4, k5, l2, l4, l5, hJI, fun S' hS' hd hb => le_antisymm ?_ hJI⟩
  have b0 := k2.1.bounds 0 (by omega)
  have e0 := ht.t0 _ b0.t0
  have e1 := ht.tf _ b0.tf
  have wT : ∀ s < n + n, T.w s 0 = 1 / ((n + n : Nat) : K) := fun s hs => k3 0 (by omega) s hs
  have q0 : ∀ s < n, (b - a) * (1 / ((n + n : Nat) : K)) = (S'.tf 0 - a) * S'.w s 0 := fun s hs => by
    have := hS'.w0 s (by rw [hn]; exact hs)
    rwa [e0, e1, wT s (by omega), ← hS'.t0, e0] at this
  have q1 : ∀ s < n, (b - a) * (1 / ((n + n : Nat) : K)) = (b - S'.tf 0) * S'.w s 1 := fun s hs => by
    have := hS'.w1 s (by rw [hn]; exact hs)
    rwa [e0, e1, hn, wT _ (by omega), ← hS'.tf, e1, ← hS'.tm] at this
  have hm : S'.tf 0 = (a + b) / 2 := by
    have := hS'.sum
    rw [hn] at this
    have e : ∑ s ∈ Finset.range n, (b - a) * (1 / ((n + n : Nat) : K)) =
        (S'.tf 0 - a) * ∑ s ∈ Finset.range n, S'.w s 0 := by
      rw [Finset.mul_sum]
      exact Finset.sum_congr rfl fun s hs => q0 s (Finset.mem_range.1 hs)
    rw [this, Finset.sum_const, Finset.card_range, nsmul_eq_mul] at e
    push_cast at e
    field_simp at e
    linarith
  have hsol := ((C99_cut (lo := .fin ((a + b) / 2)) (hi := .fin ((a + b) / 2)) (tm := tm) hS' hp hv hs hna he hM.good).2
    ⟨k2, hd, hb, by rw [hm]; exact ⟨le_rfl, le_rfl⟩⟩).1
  obtain ⟨v, hvs⟩ := exists_samples (o.cut (.fin ((a + b) / 2)) (.fin ((a + b) / 2)) tm) M S'
  have hI' : PhysCost (o.cut (.fin ((a + b) / 2)) (.fin ((a + b) / 2)) tm) M W2 S' _ := ⟨v, hvs, rfl⟩
  have hle := l6 S' _ hsol ?_ hI'
  · rw [C99_cost hS' hp hv hna he hM.good hWl hrc hI' k5, hW0, zero_mul, add_zero] at hle
    exact hle
  · intro ph hph s hs1
    have hph : ph < 2 := hph
    interval_cases ph
    · have := q0 s hs1
      rw [hm] at this
      push_cast at this
      field_simp at this ⊢
      have h2 : (b - a) * (S'.w s 0 * n - 1) = 0 := by linarith
      have := (mul_eq_zero.1 h2).resolve_left hba
      linarith
    · have := q1 s hs1
      rw [hm] at this
      push_cast at this
      field_simp at this ⊢
      have h2 : (b - a) * (S'.w s 1 * n - 1) = 0 := by linarith
      have := (mul_eq_zero.1 h2).resolve_left hba
      linarith

end
end MPOpt
