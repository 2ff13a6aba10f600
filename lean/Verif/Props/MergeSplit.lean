import Verif.Model.Widths
import Verif.Spec.Runs
import Verif.Lemmas.PyM
import Mathlib.Data.List.SplitBy
import Mathlib.Algebra.Order.Field.Basic
import Mathlib.Algebra.Order.BigOperators.Group.List
import Mathlib.Tactic.FieldSimp
import Mathlib.Tactic.Ring
import Mathlib.Algebra.Group.Action.Defs
import Mathlib.Data.Rat.Defs
import Mathlib.Algebra.Field.Rat
import Mathlib.Algebra.Order.Ring.Rat

/-! # C31: merging and splitting segments -/

set_option autoImplicit false
set_option linter.unusedSectionVars false

namespace MPOpt
variable {K : Type} [Field K] [LinearOrder K] [IsStrictOrderedRing K]

/-! ### Facts about runs -/

theorem evenSplit_sum (rs : List (Run K)) (h : ∀ r ∈ rs, 1 ≤ r.parts) :
    (evenSplit rs).sum = (rs.flatMap (·.widths)).sum := by
  induction rs with
  | nil => rfl
  | cons r rs ih =>
    have hr := h r (by simp)
    have h0 : (r.parts : K) ≠ 0 := by exact_mod_cast Nat.one_le_iff_ne_zero.1 hr
    have e1 : evenSplit (r :: rs) = List.replicate r.parts (r.widths.sum / (r.parts : K)) ++ evenSplit rs := by
      simp [evenSplit]
    rw [e1, List.sum_append, ih fun r hr => h r (by simp [hr]), List.flatMap_cons, List.sum_append,
      List.sum_replicate, nsmul_eq_mul, mul_div_cancel₀ _ h0]

theorem evenSplit_length (rs : List (Run K)) : (evenSplit rs).length = (rs.map (·.parts)).sum := by
  unfold evenSplit
  rw [List.length_flatMap]
  congr 1
  simp

theorem evenSplit_pos (rs : List (Run K)) (h : ∀ r ∈ rs, 1 ≤ r.parts) (hne : ∀ r ∈ rs, r.widths ≠ [])
    (hpos : ∀ v ∈ rs.flatMap (·.widths), 0 < v) : ∀ v ∈ evenSplit rs, 0 < v := by
  intro v hv
  unfold evenSplit at hv
  obtain ⟨r, hr, hv⟩ := List.mem_flatMap.1 hv
  rw [List.mem_replicate] at hv
  rw [hv.2]
  have h0 : 0 < (r.parts : K) := by exact_mod_cast h r hr
  apply div_pos _ h0
  apply List.sum_pos _ _ (hne r hr)
  intro v hv
  exact hpos v (List.mem_flatMap.2 ⟨r, hr, hv⟩)

/-- A change of flag happens between two runs. -/
theorem run_boundary (rs : List (Run K)) (k : Nat) (a b : Bool)
    (ha : (rs.flatMap fun r => List.replicate r.widths.length r.good)[k]? = some a)
    (hb : (rs.flatMap fun r => List.replicate r.widths.length r.good)[k + 1]? = some b) (hab : a ≠ b) :
    ∃ l r, rs = l ++ r ∧ (l.flatMap (·.widths)).length = k + 1 := by
  induction rs generalizing k with
  | nil => simp at ha
  | cons r rs ih =>
    rw [List.flatMap_cons] at ha hb
    by_cases h1 : k + 1 < r.widths.length
    · rw [List.getElem?_append_left (by simpa using (by omega : k < r.widths.length))] at ha
      rw [List.getElem?_append_left (by simpa using h1)] at hb
      rw [List.getElem?_replicate, if_pos (by omega)] at ha
      rw [List.getElem?_replicate, if_pos h1] at hb
      cases ha; cases hb
      exact absurd rfl hab
    · by_cases h2 : k + 1 = r.widths.length
      · exact ⟨[r], rs, rfl, by simp [h2]⟩
      · rw [List.getElem?_append_right (by simp; omega)] at ha hb
        rw [List.length_replicate] at ha hb
        obtain ⟨l, q, e1, e2⟩ := ih (k - r.widths.length) ha (by
          rw [show k - r.widths.length + 1 = k + 1 - r.widths.length by omega]; exact hb)
        exact ⟨r :: l, q, by rw [e1]; rfl, by rw [List.flatMap_cons, List.length_append, e2]; omega⟩

/-- Splitting runs evenly keeps the boundaries between them. -/
theorem evenSplit_break (l r : List (Run K)) (h : ∀ x ∈ l ++ r, 1 ≤ x.parts) :
    IsBreak (evenSplit (l ++ r)) ((l.flatMap (·.widths)).sum) := by
  have e : evenSplit (l ++ r) = evenSplit l ++ evenSplit r := by simp [evenSplit]
  refine ⟨(evenSplit l).length, ?_, ?_⟩
  · rw [e, List.length_append]; omega
  · rw [e, List.take_left]
    exact evenSplit_sum l fun x hx => h x (by simp [hx])

/-! ### The code -/

/-- Runs described by the groups, divided as the loop does. -/
def runsOf (w : List K) (lens : List Nat) : List (List (Bool × Nat)) → Nat → List (Run K)
  | [], _ => []
  | g :: gs, f =>
    if groupKey g then ⟨true, g.map fun p => w.getD p.2 0, 1⟩ :: runsOf w lens gs f
    else ⟨false, g.map fun p => w.getD p.2 0, lens.getD f 0⟩ :: runsOf w lens gs (f + 1)

theorem splitLoop_eq (w : List K) (lens : List Nat) (gs : List (List (Bool × Nat))) (f : Nat) :
    splitLoop w lens gs f = evenSplit (runsOf w lens gs f) := by
  induction gs generalizing f with
  | nil => rfl
  | cons g gs ih =>
    unfold splitLoop runsOf
    by_cases hk : groupKey g = true
    · simp only [hk, if_true]
      rw [ih]
      simp [evenSplit]
    · simp only [hk, Bool.false_eq_true, if_false]
      rw [ih]
      simp [evenSplit]

theorem runsOf_widths (w : List K) (lens : List Nat) (gs : List (List (Bool × Nat))) (f : Nat) :
    (runsOf w lens gs f).flatMap (·.widths) = gs.flatten.map fun p => w.getD p.2 0 := by
  induction gs generalizing f with
  | nil => rfl
  | cons g gs ih =>
    unfold runsOf
    split
    · rw [List.flatMap_cons, ih]; simp
    · rw [List.flatMap_cons, ih]; simp

theorem groupKey_const {g : List (Bool × Nat)} (h : g.IsChain fun a b => (a.1 == b.1) = true) :
    ∀ p ∈ g, p.1 = groupKey g := by
  induction g with
  | nil => intro p hp; cases hp
  | cons a g ih =>
    intro p hp
    rcases List.mem_cons.1 hp with rfl | hp
    · rfl
    · cases g with
      | nil => cases hp
      | cons b g =>
        rw [List.isChain_cons_cons] at h
        have h1 := ih h.2 p hp
        have h2 : a.1 = b.1 := by simpa using h.1
        rw [h1]
        show b.1 = a.1
        exact h2.symm

theorem map_key_eq_replicate {g : List (Bool × Nat)} (h : ∀ p ∈ g, p.1 = groupKey g) :
    List.replicate g.length (groupKey g) = g.map (·.1) := by
  symm
  rw [List.eq_replicate_iff]
  refine ⟨by simp, fun b hb => ?_⟩
  obtain ⟨p, hp, rfl⟩ := List.mem_map.1 hb
  exact h p hp

theorem runsOf_flags (w : List K) (lens : List Nat) (gs : List (List (Bool × Nat)))
    (h : ∀ g ∈ gs, ∀ p ∈ g, p.1 = groupKey g) (f : Nat) :
    (runsOf w lens gs f).flatMap (fun r => List.replicate r.widths.length r.good) =
      gs.flatten.map (·.1) := by
  induction gs generalizing f with
  | nil => rfl
  | cons g gs ih =>
    have hg := map_key_eq_replicate (h g (by simp))
    unfold runsOf
    split
    · rename_i hk
      rw [List.flatMap_cons, ih fun g hg => h g (by simp [hg])]
      simp only [List.length_map, List.flatten_cons, List.map_append]
      rw [← hg, hk]
    · rename_i hk
      have hk' : groupKey g = false := by simpa using hk
      rw [List.flatMap_cons, ih fun g hg => h g (by simp [hg])]
      simp only [List.length_map, List.flatten_cons, List.map_append]
      rw [← hg, hk']

theorem runsOf_mem (w : List K) (lens : List Nat) (gs : List (List (Bool × Nat))) (f : Nat) :
    ∀ r ∈ runsOf w lens gs f, ∃ g ∈ gs, r.widths = g.map (fun p => w.getD p.2 0) ∧ r.good = groupKey g ∧
      (r.good = true → r.parts = 1) := by
  induction gs generalizing f with
  | nil => intro r hr; cases hr
  | cons g gs ih =>
    intro r hr
    unfold runsOf at hr
    split at hr
    · rename_i hk
      rcases List.mem_cons.1 hr with rfl | hr
      · exact ⟨g, by simp, rfl, hk.symm, fun _ => rfl⟩
      · obtain ⟨g', h1, h2⟩ := ih f r hr
        exact ⟨g', by simp [h1], h2⟩
    · rename_i hk
      rcases List.mem_cons.1 hr with rfl | hr
      · exact ⟨g, by simp, rfl, by simpa using hk, fun h => by cases h⟩
      · obtain ⟨g', h1, h2⟩ := ih _ r hr
        exact ⟨g', by simp [h1], h2⟩

theorem runsOf_chain (w : List K) (lens : List Nat) (gs : List (List (Bool × Nat)))
    (h : gs.IsChain fun a b => groupKey a ≠ groupKey b) (f : Nat) :
    (runsOf w lens gs f).IsChain fun a b => a.good ≠ b.good := by
  have hgood : ∀ (gs : List (List (Bool × Nat))) (f : Nat),
      (runsOf w lens gs f).map (·.good) = gs.map groupKey := by
    intro gs
    induction gs with
    | nil => intro f; rfl
    | cons g gs ih =>
      intro f
      unfold runsOf
      split
      · rename_i hk; simp [ih, hk]
      · rename_i hk; simp [ih, hk]
  have h1 : ((runsOf w lens gs f).map (·.good)).IsChain (· ≠ ·) := by
    rw [hgood, List.isChain_map]; exact h
  rw [List.isChain_map] at h1
  exact h1

/-- Parts of the runs add up to the good groups plus the remaining lengths. -/
theorem runsOf_parts (w : List K) (lens : List Nat) (gs : List (List (Bool × Nat))) (f : Nat)
    (hf : f + (gs.filter fun g => !groupKey g).length = lens.length) :
    ((runsOf w lens gs f).map (·.parts)).sum =
      (gs.filter groupKey).length + (lens.drop f).sum := by
  induction gs generalizing f with
  | nil =>
    have : lens.length ≤ f := by simpa using hf.ge
    simp [runsOf, List.drop_eq_nil_of_le this]
  | cons g gs ih =>
    unfold runsOf
    by_cases hk : groupKey g = true
    · simp only [hk, if_true, List.map_cons, List.sum_cons]
      rw [List.filter_cons_of_neg (by simp [hk])] at hf
      rw [ih f hf, List.filter_cons_of_pos hk, List.length_cons]
      omega
    · simp only [hk, List.map_cons, List.sum_cons, Bool.false_eq_true, if_false]
      rw [List.filter_cons_of_pos (by simp [hk]), List.length_cons] at hf
      rw [ih (f + 1) (by omega), List.filter_cons_of_neg hk]
      have hlt : f < lens.length := by omega
      rw [List.drop_eq_getElem_cons hlt, List.sum_cons, List.getD_eq_getElem _ _ hlt]
      omega

theorem runsOf_parts_pos (w : List K) (lens : List Nat) (gs : List (List (Bool × Nat))) (f : Nat)
    (hf : f + (gs.filter fun g => !groupKey g).length = lens.length) (hl : ∀ n ∈ lens, 1 ≤ n) :
    ∀ r ∈ runsOf w lens gs f, 1 ≤ r.parts := by
  induction gs generalizing f with
  | nil => intro r hr; cases hr
  | cons g gs ih =>
    intro r hr
    unfold runsOf at hr
    split at hr
    · rename_i hk
      rw [List.filter_cons_of_neg (by simp [hk])] at hf
      rcases List.mem_cons.1 hr with rfl | hr
      · exact le_refl 1
      · exact ih f hf r hr
    · rename_i hk
      rw [List.filter_cons_of_pos (by simp [hk]), List.length_cons] at hf
      rcases List.mem_cons.1 hr with rfl | hr
      · have hlt : f < lens.length := by omega
        show 1 ≤ lens.getD f 0
        rw [List.getD_eq_getElem _ _ hlt]
        exact hl _ (List.getElem_mem hlt)
      · exact ih (f + 1) (by omega) r hr

/-- Distribution of the freed segments: their number adds up. -/
theorem lens_sum (nFalse nFree : Nat) (h : 0 < nFalse) :
    ((List.range nFalse).map fun k =>
      1 + nFree / nFalse + if k = nFalse - 1 then nFree % nFalse else 0).sum = nFalse + nFree := by
  obtain ⟨m, rfl⟩ : ∃ m, nFalse = m + 1 := ⟨nFalse - 1, by omega⟩
  rw [List.range_succ, List.map_append, List.sum_append]
  have h1 : ((List.range m).map fun k =>
      1 + nFree / (m + 1) + if k = m + 1 - 1 then nFree % (m + 1) else 0) =
      List.replicate m (1 + nFree / (m + 1)) := by
    rw [List.eq_replicate_iff]
    refine ⟨by simp, fun b hb => ?_⟩
    obtain ⟨k, hk, rfl⟩ := List.mem_map.1 hb
    rw [List.mem_range] at hk
    rw [if_neg (by omega), Nat.add_zero]
  rw [h1, List.sum_replicate]
  simp only [List.map_cons, List.map_nil, List.sum_cons, List.sum_nil, Nat.add_sub_cancel, if_true,
    smul_eq_mul, add_zero]
  have h2 := Nat.div_add_mod nFree (m + 1)
  generalize nFree / (m + 1) = q at *
  generalize nFree % (m + 1) = r at *
  rw [← h2]; ring

/-- Flags of the segments: residual below tolerance. -/
def meets (residuals : List K) (tol : K) (n : Nat) : List Bool :=
  (residuals.take n).map fun r => decide (r < tol)

theorem groupSegments_ok (res : List K) (tol : K) (ns : Nat) (h : ns ≤ res.length) :
    ∃ gs, groupSegments res tol ns = .ok gs ∧ gs.flatten.map (·.1) = meets res tol ns ∧
      gs.flatten.map (·.2) = List.range ns ∧ [] ∉ gs ∧
      (∀ g ∈ gs, ∀ p ∈ g, p.1 = groupKey g) ∧ gs.IsChain (fun a b => groupKey a ≠ groupKey b) := by
  have hd : ((List.range ns).mapM fun seg => do
      return (decide ((← pyIdx res seg) < tol), seg) : Py (List (Bool × Nat))) =
      .ok ((List.range ns).map fun seg => (decide (res.getD seg 0 < tol), seg)) := by
    rw [mapM_eq_ok, List.forall₂_map_right_iff, List.forall₂_same]
    intro seg hs
    rw [List.mem_range] at hs
    have hlt : seg < res.length := by omega
    have : pyIdx res seg = .ok (res.getD seg 0) := by
      rw [pyIdx_eq_ok, List.getElem?_eq_getElem hlt, List.getD_eq_getElem _ _ hlt]
    rw [this]; rfl
  refine ⟨_, by unfold groupSegments; rw [hd]; rfl, ?_, ?_, List.nil_notMem_splitBy _ _, ?_, ?_⟩
  · rw [List.flatten_splitBy, List.map_map]
    unfold meets
    apply List.ext_getElem
    · simp; omega
    · intro i h1 h2
      simp only [List.length_map, List.length_range] at h1
      simp [List.getElem?_eq_getElem (by omega : i < res.length)]
  · rw [List.flatten_splitBy, List.map_map]
    exact List.map_id _
  · intro g hg
    exact groupKey_const (List.isChain_of_mem_splitBy hg)
  · have h1 := List.isChain_getLast_head_splitBy (fun a b : Bool × Nat => a.1 == b.1)
      ((List.range ns).map fun seg => (decide (res.getD seg 0 < tol), seg))
    have h2 : ∀ g ∈ List.splitBy (fun a b : Bool × Nat => a.1 == b.1)
      ((List.range ns).map fun seg => (decide (res.getD seg 0 < tol), seg)),
        ∀ p ∈ g, p.1 = groupKey g := fun g hg => groupKey_const (List.isChain_of_mem_splitBy hg)
    refine List.IsChain.imp_of_mem_imp ?_ h1
    rintro a b ha hb ⟨na, nb, hab⟩
    rw [← h2 a ha _ (List.getLast_mem na), ← h2 b hb _ (List.head_mem nb)]
    simpa using hab

/-- **C31** For every residual vector and every width vector, merge/split returns as many widths with the
same total; positive widths stay positive; a breakpoint between a segment that meets the tolerance and one
that does not is kept; and when a segment fails and some maximal run has two or more segments, every run
that meets the tolerance becomes one segment and every failing run is divided evenly. Otherwise
nothing changes. -/
theorem C31_merge_split (res w : List K) (tol : K) (hlen : w.length ≤ res.length) :
    ∃ w', mergeSplit res w tol = .ok w' ∧ w'.length = w.length ∧ w'.sum = w.sum ∧
      ((∀ v ∈ w, 0 < v) → ∀ v ∈ w', 0 < v) ∧
      (∀ (k : Nat) (a b : Bool), (meets res tol w.length)[k]? = some a →
        (meets res tol w.length)[k + 1]? = some b → a ≠ b → IsBreak w' (w.take (k + 1)).sum) ∧
      ∃ rs, MaximalRuns (meets res tol w.length) w rs ∧
        (((∀ r ∈ rs, r.good = true) ∨ (∀ r ∈ rs, r.widths.length = 1)) → w' = w) ∧
        (¬ ((∀ r ∈ rs, r.good = true) ∨ (∀ r ∈ rs, r.widths.length = 1)) → w' = evenSplit rs ∧
          (∀ r ∈ rs, 1 ≤ r.parts ∧ (r.good = true → r.parts = 1))) := by
  obtain ⟨gs, hgs, e1, e2, e3, e4, e5⟩ := groupSegments_ok res tol w.length hlen
  have hsame : ∀ (k : Nat) (a b : Bool), (meets res tol w.length)[k]? = some a →
      (meets res tol w.length)[k + 1]? = some b → a ≠ b → IsBreak w (w.take (k + 1)).sum := by
    intro k a b _ hb _
    have : k + 1 < (meets res tol w.length).length := by
      by_contra hh
      rw [List.getElem?_eq_none (by omega)] at hb
      cases hb
    exact ⟨k + 1, by simp [meets] at this; omega, rfl⟩
  have hw : gs.flatten.map (fun p => w.getD p.2 0) = w := by
    have : gs.flatten.map (fun p => w.getD p.2 0) = (gs.flatten.map (·.2)).map fun i => w.getD i 0 := by
      rw [List.map_map]; rfl
    rw [this, e2]
    apply List.ext_getElem
    · simp
    · intro i h1 h2
      simp [List.getElem?_eq_getElem h2]
  have hruns : ∀ lens : List Nat, MaximalRuns (meets res tol w.length) w (runsOf w lens gs 0) := by
    intro lens
    refine ⟨by rw [runsOf_widths, hw], by rw [runsOf_flags w lens gs e4, e1], fun r hr => ?_,
      runsOf_chain w lens gs e5 0⟩
    obtain ⟨g, hg, h1, -, -⟩ := runsOf_mem w lens gs 0 r hr
    rw [h1]
    intro hh
    rw [List.map_eq_nil_iff] at hh
    exact e3 (hh ▸ hg)
  have hcount : ∀ lens : List Nat, (runsOf w lens gs 0).length = gs.length := by
    intro lens
    have : ∀ (gs : List (List (Bool × Nat))) (f : Nat), (runsOf w lens gs f).length = gs.length := by
      intro gs
      induction gs with
      | nil => intro f; rfl
      | cons g gs ih => intro f; unfold runsOf; split <;> simp [ih]
    exact this gs 0
  have hsingle : ∀ lens : List Nat,
      gs.length = w.length ↔ ∀ r ∈ runsOf w lens gs 0, r.widths.length = 1 := by
    intro lens
    have hR := hruns lens
    have key : ∀ rs : List (Run K), (∀ r ∈ rs, r.widths ≠ []) →
        (rs.length ≤ (rs.flatMap (·.widths)).length ∧
        (rs.length = (rs.flatMap (·.widths)).length ↔ ∀ r ∈ rs, r.widths.length = 1)) := by
      intro rs
      induction rs with
      | nil => intro _; simp
      | cons r rs ih =>
        intro h
        obtain ⟨i1, i2⟩ := ih fun r hr => h r (by simp [hr])
        have h0 : 0 < r.widths.length := List.length_pos_iff.2 (h r (by simp))
        rw [List.flatMap_cons, List.length_append, List.length_cons]
        refine ⟨by omega, ?_⟩
        rw [List.forall_mem_cons, ← i2]
        omega
    rw [← hcount lens, ← (key _ hR.nonempty).2, hR.widths]
  have hgood : ∀ lens : List Nat,
      (gs.filter fun g => !groupKey g).length = 0 ↔ ∀ r ∈ runsOf w lens gs 0, r.good = true := by
    intro lens
    rw [List.length_eq_zero_iff, List.filter_eq_nil_iff]
    have : ∀ (gs : List (List (Bool × Nat))) (f : Nat),
        (∀ g ∈ gs, ¬ (!groupKey g) = true) ↔ ∀ r ∈ runsOf w lens gs f, r.good = true := by
      intro gs
      induction gs with
      | nil => intro f; simp [runsOf]
      | cons g gs ih =>
        intro f
        unfold runsOf
        split
        · rename_i hk
          rw [List.forall_mem_cons, List.forall_mem_cons, ih f]
          simp [hk]
        · rename_i hk
          rw [List.forall_mem_cons, List.forall_mem_cons]
          simp [hk]
    exact this gs 0
  unfold mergeSplit
  simp only [hgs, py_bind_ok]
  by_cases c1 : gs.length = w.length
  · rw [if_pos c1]
    refine ⟨w, rfl, rfl, rfl, fun h => h, hsame, runsOf w [] gs 0, hruns _, fun _ => rfl, fun h => ?_⟩
    exact absurd (Or.inr ((hsingle []).1 c1)) h
  rw [if_neg c1]
  by_cases c2 : (gs.filter fun g => !groupKey g).length = 0
  · rw [if_pos c2]
    refine ⟨w, rfl, rfl, rfl, fun h => h, hsame, runsOf w [] gs 0, hruns _, fun _ => rfl, fun h => ?_⟩
    exact absurd (Or.inl ((hgood []).1 c2)) h
  rw [if_neg c2]
  generalize hnf : (gs.filter fun g => !groupKey g).length = nf at *
  set nfree := w.length - gs.length with hnfree
  set lens := (List.range nf).map fun k =>
    1 + nfree / nf + if k = nf - 1 then nfree % nf else 0 with hlens
  have hR := hruns lens
  have hle : gs.length ≤ w.length := by
    have : gs.length ≤ gs.flatten.length := by
      have key : ∀ gs : List (List (Bool × Nat)), [] ∉ gs → gs.length ≤ gs.flatten.length := by
        intro gs
        induction gs with
        | nil => intro _; simp
        | cons g gs ih =>
          intro h
          rw [List.mem_cons, not_or] at h
          have := ih h.2
          have : 0 < g.length := List.length_pos_iff.2 fun hh => h.1 hh.symm
          simp only [List.length_cons, List.flatten_cons, List.length_append]
          omega
      exact key gs e3
    have h2 : gs.flatten.length = w.length := by
      have := congrArg List.length e2
      rwa [List.length_map, List.length_range] at this
    omega
  have hll : lens.length = nf := by simp [hlens]
  have hparts : ((runsOf w lens gs 0).map (·.parts)).sum = w.length := by
    rw [runsOf_parts w lens gs 0 (by rw [hnf, hll]; omega), List.drop_zero, hlens,
      lens_sum nf nfree (by omega)]
    have hsplit : (gs.filter groupKey).length + (gs.filter fun g => !groupKey g).length =
        gs.length := by
      rw [← List.countP_eq_length_filter, ← List.countP_eq_length_filter]
      have := List.length_eq_countP_add_countP groupKey (l := gs)
      simp only [Bool.not_eq_true, Bool.decide_eq_false] at this
      omega
    omega
  have hpos : ∀ r ∈ runsOf w lens gs 0, 1 ≤ r.parts := by
    apply runsOf_parts_pos w lens gs 0 (by rw [hnf, hll]; omega)
    intro n hn
    rw [hlens] at hn
    obtain ⟨k, -, rfl⟩ := List.mem_map.1 hn
    rw [Nat.add_assoc]
    exact Nat.le_add_right _ _
  have hout : splitLoop w lens gs 0 = evenSplit (runsOf w lens gs 0) := splitLoop_eq _ _ _ _
  have hlo : (splitLoop w lens gs 0).length = w.length := by
    rw [hout, evenSplit_length, hparts]
  rw [if_neg (by omega), if_neg (by omega)]
  refine ⟨_, rfl, hlo, ?_, ?_, ?_, runsOf w lens gs 0, hR, fun h => ?_, fun _ => ⟨hout, fun r hr => ⟨hpos r hr, ?_⟩⟩⟩
  · rw [hout, evenSplit_sum _ hpos, hR.widths]
  · intro hw v hv
    rw [hout] at hv
    exact evenSplit_pos _ hpos hR.nonempty (by rw [hR.widths]; exact hw) v hv
  · intro k a b ha hb hab
    rw [← hR.flags] at ha hb
    obtain ⟨l, r, h1, h2⟩ := run_boundary _ k a b ha hb hab
    rw [hout, h1]
    have h3 : (l.flatMap (·.widths)).sum = (w.take (k + 1)).sum := by
      have : w = l.flatMap (·.widths) ++ r.flatMap (·.widths) := by
        rw [← hR.widths, h1, List.flatMap_append]
      rw [this, ← h2, List.take_left]
    rw [← h3]
    exact evenSplit_break l r fun x hx => hpos x (by rw [h1]; exact hx)
  · rcases h with h | h
    · exact absurd ((hgood lens).2 h) c2
    · exact absurd ((hsingle lens).2 h) c1
  · exact (runsOf_mem w lens gs 0 r hr).elim fun g h => h.2.2.2

/-- Two good segments are merged; the failing run of two gets the freed segment. -/
example : mergeSplit ([1, 1, 5, 5] : List ℚ) [1 / 4, 1 / 4, 1 / 4, 1 / 4] 2 =
    .ok [1 / 2, 1 / 6, 1 / 6, 1 / 6] := by decide +kernel

end MPOpt
