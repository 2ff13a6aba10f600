import Verif.Spec.Ready
import Verif.Lemmas.PyM
import Verif.Lemmas.Composite
import Mathlib.Tactic.FieldSimp
import Mathlib.Tactic.Ring

/-! # The node loop of the transcription in closed form -/

set_option autoImplicit false
set_option linter.unusedSectionVars false

namespace MPOpt
open Polynomial

variable {K : Type}

namespace Mesh

theorem order_eq {M : Mesh K} {s : Nat} (hs : s < M.orders.length) : M.order s = M.orders[s] := by
  unfold order; rw [List.getD_eq_getElem _ _ hs]

theorem idx_lt {M : Mesh K} {s i : Nat} (hs : s < M.orders.length) (hi : i ≤ M.order s) :
    M.idx s i < M.N := by
  have := segStart_add_le hs (Nat.lt_iff_add_one_le.1 hs)
  rw [segStart_length] at this
  rw [order_eq hs] at hi
  unfold idx N; omega

/-- Every node index belongs to exactly one segment. -/
theorem exists_owner (M : Mesh K) (hne : M.orders ≠ []) {k : Nat} (hk : k < M.N) :
    ∃ s i, M.Owns s i ∧ M.idx s i = k := by
  have hlen : 0 < M.orders.length := List.length_pos_iff.2 hne
  rcases Nat.eq_zero_or_pos k with rfl | hpos
  · exact ⟨0, 0, ⟨hlen, by omega, Or.inl rfl⟩, by simp [idx, segStart_zero]⟩
  have key : ∀ n ≤ M.orders.length, ∀ k, 1 ≤ k → k ≤ segStart M.orders n →
      ∃ s i, M.Owns s i ∧ M.idx s i = k := by
    intro n
    induction n with
    | zero => intro _ k h1 h2; rw [segStart_zero] at h2; omega
    | succ n ih =>
      intro hn k h1 h2
      rcases Nat.lt_or_ge (segStart M.orders n) k with h | h
      · have hn' : n < M.orders.length := by omega
        rw [segStart_succ _ hn'] at h2
        refine ⟨n, k - segStart M.orders n, ⟨hn', ?_, Or.inr (by omega)⟩, ?_⟩
        · rw [order_eq hn']; omega
        · unfold idx; omega
      · exact ih (by omega) k h1 h
  refine key M.orders.length le_rfl k hpos ?_
  rw [segStart_length]; unfold N at hk; omega

theorem owner_unique {M : Mesh K} {s i s' i' : Nat} (h : M.Owns s i)
    (h' : M.Owns s' i') (e : M.idx s i = M.idx s' i') : s = s' ∧ i = i' := by
  have main : ∀ {s i s' i' : Nat}, M.Owns s i → M.Owns s' i' → M.idx s i = M.idx s' i' →
      ¬ s < s' := by
    intro s i s' i' h h' e hlt
    have h2 := h.2.1
    rw [order_eq h.1] at h2
    have := segStart_add_le h.1 (Nat.lt_iff_add_one_le.1 hlt)
    have := h'.2.2
    unfold idx at e
    omega
  have h1 := main h h' e
  have h2 := main h' h e.symm
  obtain rfl : s = s' := by omega
  unfold idx at e
  exact ⟨rfl, by omega⟩

section Good
variable [Field K] {M : Mesh K} (hM : M.Good)
include hM

theorem Good.getD {p : Nat} (hp : p ∈ M.orders) {i : Nat} (hi : i ≤ p) :
    (M.nodes p)[i]? = some ((M.nodes p).getD i 0) := by
  have : i < (M.nodes p).length := by rw [hM.length p hp]; omega
  rw [List.getElem?_eq_getElem this, List.getD_eq_getElem _ _ this]

theorem Good.order_mem {s : Nat} (hs : s < M.orders.length) : M.order s ∈ M.orders := by
  rw [order_eq hs]; exact List.getElem_mem hs

theorem Good.order_pos {s : Nat} (hs : s < M.orders.length) : 1 ≤ M.order s :=
  hM.pos _ (hM.order_mem hs)

theorem Good.node_first {s : Nat} (hs : s < M.orders.length) : M.node s 0 = M.tau0 := by
  have := hM.first _ (hM.order_mem hs)
  rw [hM.getD (hM.order_mem hs) (Nat.zero_le _)] at this
  exact Option.some.inj this

theorem Good.node_last {s : Nat} (hs : s < M.orders.length) : M.node s (M.order s) = M.tau1 := by
  have := hM.last _ (hM.order_mem hs)
  rw [hM.getD (hM.order_mem hs) le_rfl] at this
  exact Option.some.inj this

theorem Good.node_injOn {s : Nat} (hs : s < M.orders.length) :
    Set.InjOn (M.node s) (Finset.range (M.order s + 1) : Finset Nat) := by
  intro i hi j hj e
  have hi : i < M.order s + 1 := by simpa using hi
  have hj : j < M.order s + 1 := by simpa using hj
  have hl := hM.length _ (hM.order_mem hs)
  have hi' : i < (M.nodes (M.order s)).length := by omega
  have hj' : j < (M.nodes (M.order s)).length := by omega
  unfold node at e
  rw [List.getD_eq_getElem _ _ hi', List.getD_eq_getElem _ _ hj'] at e
  exact (List.Nodup.getElem_inj_iff (hM.nodup _ (hM.order_mem hs))).1 e

theorem Good.tau_ne : M.tau1 - M.tau0 ≠ 0 := by
  have h0 : 0 < M.orders.length := List.length_pos_iff.2 hM.nonempty
  have hp := hM.order_pos h0
  intro h
  have := @Good.node_injOn K _ M hM 0 h0 (M.order 0) (by simp) 0 (by simp)
    (by rw [hM.node_last h0, hM.node_first h0]; exact sub_eq_zero.1 h)
  omega

/-- The piece through node values takes these values. -/
theorem Good.piece_samples (v : Nat → K) :
    PiecewiseSamples M.orders M.nodes (M.piece v) v := by
  intro s hs i hi
  have e := order_eq (M := M) hs
  have := Lagrange.eval_interpolate_at_node (s := Finset.range (M.order s + 1))
    (v := M.node s) (fun i => v (M.idx s i)) (hM.node_injOn hs) (i := i) (by simp; omega)
  unfold piece
  rw [← e]
  rw [← e] at hi
  exact this.symm

theorem Good.piece_degrees (v : Nat → K) : PieceDegrees M.orders (M.piece v) := by
  intro s hs
  have h := Lagrange.degree_interpolate_lt (s := Finset.range (M.order s + 1))
    (v := M.node s) (fun i => v (M.idx s i)) (hM.node_injOn hs)
  have e := order_eq (M := M) hs
  rw [← e]
  rw [Finset.card_range] at h
  unfold piece
  exact natDegree_le_of_degree_le (Order.le_of_lt_succ (by exact_mod_cast h))

theorem Good.piece_eval_node (v : Nat → K) {s i : Nat} (hs : s < M.orders.length)
    (hi : i ≤ M.order s) : (M.piece v s).eval (M.node s i) = v (M.idx s i) := by
  have e := order_eq (M := M) hs
  have := hM.piece_samples v s hs i (by rw [← e]; exact hi)
  unfold idx node
  rw [e]
  exact this.symm

end Good

/-- The piece is linear in the samples. -/
theorem piece_smul [Field K] (M : Mesh K) (v : Nat → K) (c : K) (s : Nat) :
    M.piece (fun k => c * v k) s = C c * M.piece v s := by
  unfold piece
  have := (Lagrange.interpolate (Finset.range (M.order s + 1)) (M.node s)).map_smul c
    (fun i => v (M.idx s i))
  rw [← Polynomial.smul_eq_C_mul, ← this]
  rfl

end Mesh

section
variable [Field K]

/-- Pieces that sample `v` with the right degrees are the pieces through `v`. -/
theorem Mesh.Good.piece_unique {M : Mesh K} (hM : M.Good) {P : Nat → K[X]} {v : Nat → K}
    (hd : PieceDegrees M.orders P) (hv : PiecewiseSamples M.orders M.nodes P v) {s : Nat}
    (hs : s < M.orders.length) : P s = M.piece v s := by
  have e := Mesh.order_eq (M := M) hs
  refine Lagrange.eq_interpolate_of_eval_eq (s := Finset.range (M.order s + 1)) (v := M.node s)
    (fun i => v (M.idx s i)) (hM.node_injOn hs) ?_ ?_
  · rw [Finset.card_range]
    refine lt_of_le_of_lt degree_le_natDegree ?_
    have := hd s hs
    rw [← e] at this
    exact_mod_cast Nat.lt_succ_of_le this
  · intro i hi
    have hi : i < M.order s + 1 := by simpa using hi
    have := hv s hs i (by omega)
    rw [← e] at this
    exact this.symm

variable {d : Disc K} {M : Mesh K}

namespace Disc.OnMesh
variable (h : d.OnMesh M)
include h

theorem goodNodes : GoodNodes d.colloc d.orders M.nodes := by
  intro p hp
  have hp' : p ∈ M.orders := by rw [h.orders]; exact hp
  exact ⟨h.taus p hp, h.good.length p hp', h.good.nodup p hp'⟩

theorem N_eq : M.N = d.N := by unfold Mesh.N Disc.N; rw [h.orders]

theorem segLen : M.orders.length = d.nSegments := by rw [h.orders, h.segments]

omit h in
/-- Width symbol of segment `s`. -/
theorem hSeg_eq {ph s : Nat} (hs : s < d.nSegments) (hph : ph < d.ocp.nPhases) :
    d.hSeg ph s = .ok fun σ => (d.tfu ph σ - d.t0u ph σ) / (d.colloc.tau1 - d.colloc.tau0) *
      σ (.H s ph) := by
  unfold hSeg segWidth
  rw [if_pos ⟨hs, hph⟩]; rfl

/-- What a carried loop state means: `t_seg0`, `h_seg` belong to segment `seg`. -/
structure LoopInv (d : Disc K) (M : Mesh K) (ph k : Nat) (st : LoopState K) : Prop where
  seg : st.seg < M.orders.length
  point : st.point ≤ M.order st.seg + 1
  index : segStart M.orders st.seg + st.point = k
  own : st.seg = 0 ∨ 1 ≤ st.point
  time : ∀ σ, st.tSeg0 σ = M.time (physOf d.ocp σ) ph st.seg M.tau0
  width : ∀ σ, st.hSeg σ = M.halfWidth (physOf d.ocp σ) ph st.seg

/-- One iteration produces the time and width of the node's owner. -/
theorem nodeStep_spec {ph k : Nat} (hph : ph < d.ocp.nPhases) (st : LoopState K)
    (hk : k < M.N) (hinv : LoopInv d M ph k st) :
    ∃ st' th s i, d.nodeStep ph st = .ok (st', th) ∧ LoopInv d M ph (k + 1) st' ∧
      M.Owns s i ∧ M.idx s i = k ∧
      (∀ σ, th.1 σ = M.time (physOf d.ocp σ) ph s (M.node s i)) ∧
      (∀ σ, th.2 σ = M.halfWidth (physOf d.ocp σ) ph s) := by
  have hseg := hinv.seg
  have hidx : ∀ s (hs : s < M.orders.length), pyIdx d.orders s = .ok (M.order s) := by
    intro s hs
    have hs' : s < d.orders.length := by rw [← h.orders]; exact hs
    rw [pyIdx_ok hs', Mesh.order_eq hs]
    simp only [h.orders]
  have htau : ∀ s, s < M.orders.length → d.colloc.taus (M.order s) = .ok (M.nodes (M.order s)) := by
    intro s hs
    exact h.taus _ (by rw [← h.orders]; exact h.good.order_mem hs)
  have hnode : ∀ s i, s < M.orders.length → i ≤ M.order s →
      pyIdx (M.nodes (M.order s)) i = .ok (M.node s i) := by
    intro s i hs hi
    rw [pyIdx_eq_ok]
    exact h.good.getD (h.good.order_mem hs) hi
  by_cases hp : st.point > M.order st.seg
  · -- move to the next segment
    have hpt : st.point = M.order st.seg + 1 := by have := hinv.point; omega
    have hnext : st.seg + 1 < M.orders.length := by
      by_contra hcon
      have hlast : st.seg + 1 = M.orders.length := by omega
      have h1 := hinv.index
      have h2 := segStart_succ M.orders hseg
      rw [hlast, segStart_length] at h2
      rw [Mesh.order_eq hseg] at hpt
      unfold Mesh.N at hk
      omega
    have hw := Disc.OnMesh.hSeg_eq (d := d) (ph := ph) (s := st.seg + 1)
      (by rw [← h.segLen]; exact hnext) hph
    have hpos := h.good.order_pos hnext
    refine ⟨⟨st.seg + 1, 1 + 1, fun σ => st.tSeg0 σ + st.hSeg σ * (d.colloc.tau1 - d.colloc.tau0),
        fun σ => (d.tfu ph σ - d.t0u ph σ) / (d.colloc.tau1 - d.colloc.tau0) *
          σ (.H (st.seg + 1) ph)⟩,
      (fun σ => (st.tSeg0 σ + st.hSeg σ * (d.colloc.tau1 - d.colloc.tau0)) +
          (d.tfu ph σ - d.t0u ph σ) / (d.colloc.tau1 - d.colloc.tau0) * σ (.H (st.seg + 1) ph) *
            (M.node (st.seg + 1) 1 - d.colloc.tau0),
        fun σ => (d.tfu ph σ - d.t0u ph σ) / (d.colloc.tau1 - d.colloc.tau0) *
          σ (.H (st.seg + 1) ph)), st.seg + 1, 1, ?_, ?_, ⟨hnext, hpos, Or.inr le_rfl⟩, ?_, ?_, ?_⟩
    · unfold nodeStep
      simp only [hidx _ hseg, py_bind_ok, if_pos hp, hw, pure, Except.pure, hidx _ hnext,
        htau _ hnext, hnode _ 1 hnext hpos]
    · refine ⟨hnext, ?_, ?_, Or.inr (by simp), ?_, ?_⟩
      · simp only; omega
      · have h1 := hinv.index
        have h2 := segStart_succ M.orders hseg
        rw [Mesh.order_eq hseg] at hpt
        simp only [h2]; omega
      · intro σ
        simp only [hinv.time, hinv.width, ← h.tau0, ← h.tau1]
        simp only [Mesh.time, Mesh.halfWidth, Finset.sum_range_succ, sub_self, mul_zero, add_zero]
        have := h.good.tau_ne
        field_simp
        ring
      · intro σ
        simp only [Mesh.halfWidth, ← h.tau0, ← h.tau1]
        rfl
    · have h1 := hinv.index
      have h2 := segStart_succ M.orders hseg
      rw [Mesh.order_eq hseg] at hpt
      unfold Mesh.idx
      rw [h2]; omega
    · intro σ
      simp only [hinv.time, hinv.width, ← h.tau0, ← h.tau1]
      simp only [Mesh.time, Mesh.halfWidth, Finset.sum_range_succ, sub_self, mul_zero, add_zero]
      have := h.good.tau_ne
      simp only [physOf, Disc.tfu, Disc.t0u]
      field_simp
      ring
    · intro σ
      simp only [Mesh.halfWidth, ← h.tau0, ← h.tau1]
      rfl
  · have hp' : st.point ≤ M.order st.seg := by omega
    refine ⟨{ st with point := st.point + 1 },
      (fun σ => st.tSeg0 σ + st.hSeg σ * (M.node st.seg st.point - d.colloc.tau0), st.hSeg),
      st.seg, st.point, ?_, ?_, ⟨hseg, hp', hinv.own⟩, hinv.index, ?_, ?_⟩
    · unfold nodeStep
      simp only [hidx _ hseg, py_bind_ok, if_neg hp, pure, Except.pure,
        htau _ hseg, hnode _ _ hseg hp']
    · refine ⟨hseg, ?_, ?_, Or.inr (by simp), hinv.time, hinv.width⟩
      · simp only; omega
      · have := hinv.index
        simp only; omega
    · intro σ
      simp only [hinv.time, hinv.width, ← h.tau0]
      simp only [Mesh.time]
      ring
    · exact hinv.width

theorem nodeLoop_spec {ph : Nat} (hph : ph < d.ocp.nPhases) :
    ∀ (n k : Nat) (st : LoopState K), k + n ≤ M.N → LoopInv d M ph k st →
      ∃ g, d.nodeLoop ph n st = .ok g ∧ g.length = n ∧
        ∀ (s i : Nat), M.Owns s i → ∀ j, M.idx s i = k + j → ∀ th, g[j]? = some th →
          (∀ σ, th.1 σ = M.time (physOf d.ocp σ) ph s (M.node s i)) ∧
          (∀ σ, th.2 σ = M.halfWidth (physOf d.ocp σ) ph s) := by
  intro n
  induction n with
  | zero =>
    intro k st _ _
    exact ⟨[], rfl, rfl, by intro s i _ j _ th hth; simp at hth⟩
  | succ n ih =>
    intro k st hk hinv
    obtain ⟨st', th, s, i, hst, hinv', ho, hi, h1, h2⟩ := h.nodeStep_spec hph st (by omega) hinv
    obtain ⟨g, hg, hlen, hspec⟩ := ih (k + 1) st' (by omega) hinv'
    refine ⟨th :: g, ?_, by simp [hlen], ?_⟩
    · unfold nodeLoop
      simp only [hst, py_bind_ok, hg, pure, Except.pure]
    · intro s' i' ho' j hj th' hth'
      cases j with
      | zero =>
        simp only [List.getElem?_cons_zero, Option.some.injEq] at hth'
        subst hth'
        obtain ⟨rfl, rfl⟩ := Mesh.owner_unique ho ho' (by rw [hi, hj]; rfl)
        exact ⟨h1, h2⟩
      | succ j =>
        simp only [List.getElem?_cons_succ] at hth'
        exact hspec s' i' ho' j (by omega) th' hth'

/-- The loop over the nodes of a phase in closed form. -/
theorem nodeGrid_spec {ph : Nat} (hph : ph < d.ocp.nPhases) :
    ∃ g, d.nodeGrid ph = .ok g ∧ g.length = M.N ∧
      ∀ (s i : Nat), M.Owns s i → ∃ th, g[M.idx s i]? = some th ∧
        (∀ σ, th.1 σ = M.time (physOf d.ocp σ) ph s (M.node s i)) ∧
        (∀ σ, th.2 σ = M.halfWidth (physOf d.ocp σ) ph s) := by
  have h0 : 0 < M.orders.length := List.length_pos_iff.2 h.good.nonempty
  have hw := Disc.OnMesh.hSeg_eq (d := d) (ph := ph) (s := 0) (by rw [← h.segLen]; exact h0) hph
  obtain ⟨g, hg, hlen, hspec⟩ := h.nodeLoop_spec hph d.N 0 ⟨0, 0, d.t0u ph,
      fun σ => (d.tfu ph σ - d.t0u ph σ) / (d.colloc.tau1 - d.colloc.tau0) * σ (.H 0 ph)⟩
    (by rw [h.N_eq]; omega) (by
      refine ⟨h0, by simp, by simp [segStart_zero], Or.inl rfl, ?_, ?_⟩
      · intro σ
        simp [Mesh.time, physOf, Disc.t0u]
      · intro σ
        simp only [Mesh.halfWidth, h.tau0, h.tau1]
        exact rfl)
  refine ⟨g, ?_, by rw [hlen, h.N_eq], fun s i ho => ?_⟩
  · unfold nodeGrid
    rw [hw, py_bind_ok]; exact hg
  · have hlt : M.idx s i < g.length := by
      rw [hlen, ← h.N_eq]; exact Mesh.idx_lt ho.1 ho.2.1
    exact ⟨_, List.getElem?_eq_getElem hlt,
      hspec s i ho _ (by omega) _ (List.getElem?_eq_getElem hlt)⟩

end Disc.OnMesh
end
end MPOpt
