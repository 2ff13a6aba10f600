import Verif.Lemmas.Nlp

/-! # Lower bounds are below upper bounds -/

set_option autoImplicit false
set_option linter.unusedSectionVars false

namespace MPOpt
open Disc (Block)

variable {K : Type} [Field K] [LinearOrder K]

/-- Entry by entry `lo ≤ hi` (in the IEEE sense, so no `nan`). -/
def BoundsOrdered (lo hi : List (Ext K)) : Prop :=
  ∀ (i : Nat) (a b : Ext K), lo[i]? = some a → hi[i]? = some b → Ext.le a b = true

theorem ordered_nil : BoundsOrdered ([] : List (Ext K)) [] := by
  intro i a b ha; simp at ha

theorem ordered_replicate (n : Nat) {a b : Ext K} (h : Ext.le a b = true) :
    BoundsOrdered (List.replicate n a) (List.replicate n b) := by
  intro i x y hx hy
  rw [(List.mem_replicate.1 (List.mem_of_getElem? hx)).2, (List.mem_replicate.1 (List.mem_of_getElem? hy)).2]
  exact h

theorem ordered_append {a b a' b' : List (Ext K)} (hl : a.length = b.length)
    (h : BoundsOrdered a b) (h' : BoundsOrdered a' b') : BoundsOrdered (a ++ a') (b ++ b') := by
  intro i x y hx hy
  rcases Nat.lt_or_ge i a.length with hi | hi
  · rw [List.getElem?_append_left hi] at hx
    rw [List.getElem?_append_left (by omega)] at hy
    exact h i x y hx hy
  · rw [List.getElem?_append_right hi] at hx
    rw [List.getElem?_append_right (by omega), ← hl] at hy
    exact h' _ x y hx hy

theorem ordered_map {α : Type} (l : List α) (f g : α → Ext K)
    (h : ∀ a ∈ l, Ext.le (f a) (g a) = true) : BoundsOrdered (l.map f) (l.map g) := by
  intro i x y hx hy
  rw [List.getElem?_map, Option.map_eq_some_iff] at hx hy
  obtain ⟨a, ha, rfl⟩ := hx
  obtain ⟨b, hb, rfl⟩ := hy
  rw [ha] at hb; cases hb
  exact h a (List.mem_of_getElem? ha)

theorem ordered_flatten (bs : List (Block K)) (hs : ∀ b ∈ bs, b.Sized)
    (h : ∀ b ∈ bs, BoundsOrdered b.lo b.hi) :
    BoundsOrdered (bs.map (·.lo)).flatten (bs.map (·.hi)).flatten := by
  induction bs with
  | nil => exact ordered_nil
  | cons b bs ih =>
    simp only [List.map_cons, List.flatten_cons]
    have hb := hs b (by simp)
    exact ordered_append (hb.1.symm.trans hb.2) (h b (by simp))
      (ih (fun b hb => hs b (by simp [hb])) fun b hb => h b (by simp [hb]))

theorem ordered_const (g : List (SX K)) {a b : Ext K} (h : Ext.le a b = true) :
    BoundsOrdered (Block.const g a b).lo (Block.const g a b).hi := ordered_replicate _ h

theorem le_zero_zero : Ext.le (.fin (0 : K)) (.fin 0) = true := by simp [Ext.le]

variable [IsStrictOrderedRing K] {d : Disc K} {M : Mesh K}

theorem ext_le_mul {a b : Ext K} {s : K} (hs : 0 < s) (h : Ext.le a b = true) :
    Ext.le (Ext.mul a s) (Ext.mul b s) = true := by
  cases a <;> cases b <;> simp_all [Ext.le, Ext.mul]

theorem rowOrdered_entry {lo hi : List (List (Ext K))} {r c : Nat} (h1 : HasShape lo r c)
    (h2 : HasShape hi r c) {ph j : Nat} (hph : ph < r) (hj : j < c) (h : RowOrdered lo hi ph) :
    Ext.le (entry lo ph j .nan) (entry hi ph j .nan) = true := by
  have l1 : ph < lo.length := by rw [h1.1]; exact hph
  have l2 : ph < hi.length := by rw [h2.1]; exact hph
  have r1 : j < lo[ph].length := by rw [h1.2 _ (List.getElem_mem l1)]; exact hj
  have r2 : j < hi[ph].length := by rw [h2.2 _ (List.getElem_mem l2)]; exact hj
  rw [entry_eq l1, entry_eq l2, List.getD_eq_getElem _ _ r1, List.getD_eq_getElem _ _ r2]
  exact h _ _ (List.getElem?_eq_getElem l1) (List.getElem?_eq_getElem l2) j _ _
    (List.getElem?_eq_getElem r1) (List.getElem?_eq_getElem r2)

theorem scaled_le (hv : ValidOCP d.ocp) (hsc : d.ocp.PosScales) {s : Sym} {N : Nat}
    (hs : IsDecisionVar d.ocp N s) : Ext.le (scaledLower d.ocp s) (scaledUpper d.ocp s) = true := by
  cases s with
  | X ph i j =>
    obtain ⟨hph, -, hj⟩ := hs
    simp only [scaledLower, scaledUpper, scaledBound]
    split
    · simp [Ext.le]
    · exact ext_le_mul (getD_mem_ne hv.scaleX hsc.x hj)
        (rowOrdered_entry hv.lbx hv.ubx hph hj (hv.ordX ph))
  | U ph i j =>
    obtain ⟨hph, -, hj⟩ := hs
    exact ext_le_mul (getD_mem_ne hv.scaleU hsc.u hj)
      (rowOrdered_entry hv.lbu hv.ubu hph hj (hv.ordU ph))
  | T0 ph =>
    exact ext_le_mul hsc.t (rowOrdered_entry hv.lbt0 hv.ubt0 hs Nat.one_pos (hv.ordT0 ph))
  | Tf ph =>
    exact ext_le_mul hsc.t (rowOrdered_entry hv.lbtf hv.ubtf hs Nat.one_pos (hv.ordTf ph))
  | A k ph =>
    exact ext_le_mul (getD_mem_ne hv.scaleA hsc.a hs.2)
      (rowOrdered_entry hv.lba hv.uba hs.1 hs.2 (hv.ordA ph))
  | H s ph => exact hs.elim

theorem ordered_scaleRow {lo hi lo' hi' : List (Ext K)} {sc : List K} (hsc : ∀ s ∈ sc, 0 < s)
    (h1 : scaleRow lo sc = .ok lo') (h2 : scaleRow hi sc = .ok hi')
    (h : ∀ (i : Nat) (a b : Ext K), lo[i]? = some a → hi[i]? = some b → Ext.le a b = true) :
    BoundsOrdered lo' hi' := by
  unfold scaleRow at h1 h2
  split at h1 <;> split at h2 <;> cases h1 <;> cases h2
  intro i a b ha hb
  simp only [List.getElem?_zipWith_eq_some] at ha hb
  obtain ⟨x, s, hx, hs, rfl⟩ := ha
  obtain ⟨y, s', hy, hs', rfl⟩ := hb
  rw [hs] at hs'; cases hs'
  exact ext_le_mul (hsc _ (List.mem_of_getElem? hs)) (h i x y hx hy)

theorem scaleRow_length {r r' : List (Ext K)} {sc : List K} (h : scaleRow r sc = .ok r') :
    r'.length = r.length := by
  unfold scaleRow at h
  split at h
  · rename_i hl
    injection h with h
    rw [← h]; simp [hl]
  · cases h

theorem ordered_repeat {lo hi : List (Ext K)} (n : Nat) (hl : lo.length = hi.length)
    (h : BoundsOrdered lo hi) :
    BoundsOrdered (lo.flatMap (List.replicate n)) (hi.flatMap (List.replicate n)) := by
  induction lo generalizing hi with
  | nil => cases hi with
    | nil => exact ordered_nil
    | cons b hi => simp at hl
  | cons a lo ih => cases hi with
    | nil => simp at hl
    | cons b hi =>
      simp only [List.flatMap_cons]
      refine ordered_append (by simp) (ordered_replicate n (h 0 a b rfl rfl)) (ih (by simpa using hl) ?_)
      intro i x y hx hy
      exact h (i + 1) x y (by simpa using hx) (by simpa using hy)

theorem Disc.ordered_dyn {f : List (List (SX K))} {ph : Nat} {F : Block K}
    (hF : d.dynBlock f ph = .ok F) : BoundsOrdered F.lo F.hi ∧ F.lo.length = F.hi.length := by
  unfold dynBlock at hF
  simp only [py_bind_eq_ok, py_pure_eq_ok] at hF
  obtain ⟨_, -, G, -, rfl⟩ := hF
  exact ⟨ordered_const _ le_zero_zero, by simp [Block.const]⟩

theorem Disc.ordered_path (c : List (List (SX K))) (n : Nat) : BoundsOrdered (Disc.pathBlock c n).lo (Disc.pathBlock c n).hi ∧
    (Disc.pathBlock c n).lo.length = (Disc.pathBlock c n).hi.length := by
  unfold Disc.pathBlock
  split
  · exact ⟨ordered_nil, rfl⟩
  · exact ⟨ordered_const _ (by simp [Ext.le]), by simp [Block.const]⟩

theorem Disc.ordered_term {ph : Nat} {TC : Block K} {m : SX K} (hT : d.termBlock ph = .ok (TC, m)) :
    BoundsOrdered TC.lo TC.hi ∧ TC.lo.length = TC.hi.length := by
  unfold termBlock at hT
  simp only [py_bind_eq_ok, py_pure_eq_ok] at hT
  obtain ⟨⟨xf, tf, x0, t0, a⟩, -, hasT, -, tc, -, cost, -, hT⟩ := hT
  cases hT
  cases tc with
  | none => exact ⟨ordered_nil, rfl⟩
  | some F =>
    dsimp only
    split
    · exact ⟨ordered_const _ le_zero_zero, by simp [Block.const]⟩
    · exact ⟨ordered_nil, rfl⟩

theorem Disc.ordered_slope {ph : Nat}
    (hdu : d.ocp.diffU[ph]? = some true → ∀ a b, d.ocp.lbdu[ph]? = some a →
      d.ocp.ubdu[ph]? = some b → Ext.le a b = true) {DU : Block K} (hDU : d.slopeBlock ph = .ok DU) :
    BoundsOrdered DU.lo DU.hi ∧ DU.lo.length = DU.hi.length := by
  unfold slopeBlock at hDU
  rw [py_bind_eq_ok] at hDU
  obtain ⟨on, hon, hDU⟩ := hDU
  rw [pyIdx_eq_ok] at hon
  cases on with
  | false =>
    simp only [Bool.false_eq_true, if_false, py_pure_eq_ok] at hDU
    subst hDU; exact ⟨ordered_nil, rfl⟩
  | true =>
    simp only [if_true, py_bind_eq_ok, py_pure_eq_ok, pyIdx_eq_ok] at hDU
    obtain ⟨_, -, lo, hlo, hi, hhi, rfl⟩ := hDU
    exact ⟨ordered_const _ (hdu hon _ _ hlo hhi), by simp [Block.const]⟩

theorem Disc.ordered_mid (hv : ValidOCP d.ocp) (hsc : d.ocp.PosScales) {ph : Nat} {mU : Block K}
    (hmU : d.midBlock ph = .ok mU) : BoundsOrdered mU.lo mU.hi ∧ mU.lo.length = mU.hi.length := by
  unfold midBlock at hmU
  rw [py_bind_eq_ok] at hmU
  obtain ⟨on, hon, hmU⟩ := hmU
  cases on with
  | false =>
    simp only [Bool.false_eq_true, if_false, py_pure_eq_ok] at hmU
    subst hmU; exact ⟨ordered_nil, rfl⟩
  | true =>
    simp only [if_true, py_bind_eq_ok, pyIdx_eq_ok] at hmU
    obtain ⟨_, -, I, -, ui, -, lbu, hlbu, ubu, hubu, hmU⟩ := hmU
    split at hmU
    · simp only [py_bind_eq_ok, py_pure_eq_ok] at hmU
      obtain ⟨lo, hlo, hi, hhi, rfl⟩ := hmU
      have ho := ordered_scaleRow hsc.u hlo hhi (hv.ordU ph _ _ hlbu hubu)
      have hl : lo.length = hi.length := by
        have a1 := hv.lbu.2 _ (List.mem_of_getElem? hlbu)
        have a2 := hv.ubu.2 _ (List.mem_of_getElem? hubu)
        rw [scaleRow_length hlo, scaleRow_length hhi, a1, a2]
      exact ⟨ordered_repeat _ hl ho, by simp [List.length_flatMap, hl]⟩
    · rw [py_pure_eq_ok] at hmU
      subst hmU; exact ⟨ordered_nil, rfl⟩

theorem Disc.ordered_cont {ph : Nat} {dU : Block K} (hdU : d.contBlock ph = .ok dU) :
    BoundsOrdered dU.lo dU.hi ∧ dU.lo.length = dU.hi.length := by
  unfold contBlock at hdU
  rw [py_bind_eq_ok] at hdU
  obtain ⟨on, hon, hdU⟩ := hdU
  split at hdU
  · rw [py_pure_eq_ok] at hdU
    subst hdU; exact ⟨ordered_nil, rfl⟩
  · simp only [py_bind_eq_ok, py_pure_eq_ok] at hdU
    obtain ⟨_, -, _, -, _, -, rfl⟩ := hdU
    exact ⟨ordered_const _ le_zero_zero, by simp [Block.const]⟩

/-- Rows of a phase: ordered bounds. -/
theorem Disc.ordered_phase (hv : ValidOCP d.ocp) (hsc : d.ocp.PosScales) {ph : Nat}
    (hdu : d.ocp.diffU[ph]? = some true → ∀ a b, d.ocp.lbdu[ph]? = some a →
      d.ocp.ubdu[ph]? = some b → Ext.le a b = true)
    {B : Block K} {J : SX K} (hB : d.discretizePhase ph = .ok (B, J)) :
    BoundsOrdered B.lo B.hi := by
  unfold discretizePhase at hB
  simp only [py_bind_eq_ok, py_pure_eq_ok] at hB
  obtain ⟨⟨f, c, q⟩, hd, F, hF, pc, -, ⟨TC, m⟩, hT, DU, hDU, mU, hmU, dU, hdU, J', -, hB⟩ := hB
  cases hB
  have oF := ordered_dyn hF
  have oC := ordered_path c
  have oDU := ordered_slope hdu hDU
  have omU := ordered_mid hv hsc hmU
  have odU := ordered_cont hdU
  exact ordered_append oF.2 oF.1 (ordered_append (oC _).2 (oC _).1 (ordered_append oDU.2 oDU.1
    (ordered_append omU.2 omU.1 (ordered_append odU.2 odU.1 (ordered_term hT).1))))

theorem ordered_flatten2 {ι : Type} (l : List ι) (f g : ι → List (Ext K))
    (hl : ∀ i ∈ l, (f i).length = (g i).length) (h : ∀ i ∈ l, BoundsOrdered (f i) (g i)) :
    BoundsOrdered (l.map f).flatten (l.map g).flatten := by
  induction l with
  | nil => exact ordered_nil
  | cons i l ih =>
    simp only [List.map_cons, List.flatten_cons]
    exact ordered_append (hl i (by simp)) (h i (by simp)) (ih (fun j hj => hl j (by simp [hj]))
      fun j hj => h j (by simp [hj]))

/-- Linking rows: ordered bounds. -/
theorem Disc.ordered_event (hv : ValidOCP d.ocp) (hsc : d.ocp.PosScales) {B : Block K}
    (hB : d.eventBlock = .ok B) : BoundsOrdered B.lo B.hi := by
  unfold eventBlock at hB
  split at hB
  · cases hB; exact ordered_nil
  · simp only [] at hB
    split at hB
    · simp only [bind, Except.bind] at hB; cases hB
    · simp only [py_bind_eq_ok, py_pure_eq_ok] at hB
      obtain ⟨lo0, hlo0, lo, hlo, hi0, hhi0, hi, hhi, b1, hb1, rfl⟩ := hB
      have hcat : ∀ {l : List (List (Ext K))} {r}, npConcat l = .ok r → r = l.flatten := by
        intro l r hr
        unfold npConcat at hr
        split at hr <;> cases hr
        rfl
      have hlen1 := mapM_length hlo0
      have hlen2 := mapM_length hhi0
      have hent : ∀ k (h1 : k < lo0.length) (h2 : k < hi0.length),
          lo0[k].length = hi0[k].length ∧ BoundsOrdered lo0[k] hi0[k] := by
        intro k h1 h2
        have e1 := mapM_getElem hlo0 k (by omega) h1
        have e2 := mapM_getElem hhi0 k (by omega) h2
        simp only [List.getElem_range, py_bind_eq_ok, pyIdx_eq_ok] at e1 e2
        obtain ⟨l, hl, e1⟩ := e1
        obtain ⟨u, hu, e2⟩ := e2
        refine ⟨?_, ordered_scaleRow hsc.x e1 e2 (hv.ordE k _ _ hl hu)⟩
        have a1 := hv.lbe.2 _ (List.mem_of_getElem? hl)
        have a2 := hv.ube.2 _ (List.mem_of_getElem? hu)
        rw [scaleRow_length e1, scaleRow_length e2, a1, a2]
      have hl0 : lo0 = (List.range lo0.length).map fun k => lo0.getD k [] := by
        apply List.ext_getElem
        · simp
        · intro i h1 h2; simp [h1]
      have hh0 : hi0 = (List.range lo0.length).map fun k => hi0.getD k [] := by
        apply List.ext_getElem
        · simp; omega
        · intro i h1 h2; simp [h1]
      have hord : BoundsOrdered lo hi ∧ lo.length = hi.length := by
        rw [hcat hlo, hcat hhi]
        have key : ∀ k ∈ List.range lo0.length, (lo0.getD k []).length = (hi0.getD k []).length ∧
            BoundsOrdered (lo0.getD k []) (hi0.getD k []) := by
          intro k hk
          have hk : k < lo0.length := by simpa using hk
          rw [List.getD_eq_getElem _ _ hk, List.getD_eq_getElem _ _ (by omega)]
          exact hent k hk (by omega)
        constructor
        · rw [hl0, hh0]
          exact ordered_flatten2 _ _ _ (fun k hk => (key k hk).1) fun k hk => (key k hk).2
        · rw [List.length_flatten, List.length_flatten, hl0, hh0, List.map_map, List.map_map]
          congr 1
          exact List.map_congr_left fun k hk => (key k hk).1
      refine ordered_append hord.2 hord.1 (ordered_append rfl ?_ (ordered_replicate _ le_zero_zero))
      have hb : b1 = (List.replicate b1.length (Ext.fin (0 : K))) := by
        rw [List.eq_replicate_iff]
        refine ⟨rfl, ?_⟩
        rw [hcat hb1]
        intro x hx
        simp only [List.mem_flatten, List.mem_map] at hx
        obtain ⟨_, ⟨k, -, rfl⟩, hx⟩ := hx
        exact (List.mem_replicate.1 hx).2
      rw [hb]
      exact ordered_replicate _ le_zero_zero

end MPOpt
