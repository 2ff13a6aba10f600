import Verif.Spec.Piecewise
import Verif.Props.Basis
import Verif.Lemmas.PyM
import Mathlib.Algebra.BigOperators.Intervals

/-! # The composite-matrix loops in closed form -/

set_option autoImplicit false

namespace MPOpt
open Polynomial

/-- Invariant rule for `foldlM` over an enumerated list in `Except`. -/
theorem foldlM_zipIdx_inv {α β : Type} (f : β → α × Nat → Py β) (Inv : Nat → β → Prop) (l : List α) :
    ∀ (k : Nat) (b : β), Inv k b →
    (∀ (i : Nat) (hi : i < l.length) (b : β), Inv (k + i) b →
      ∃ b', f b (l[i], k + i) = .ok b' ∧ Inv (k + i + 1) b') →
    ∃ b', (l.zipIdx k).foldlM f b = .ok b' ∧ Inv (k + l.length) b' := by
  induction l with
  | nil => intro k b h _; exact ⟨b, rfl, by simpa using h⟩
  | cons a l ih =>
    intro k b h hstep
    obtain ⟨b1, hb1, h1⟩ := hstep 0 (by simp) b (by simpa using h)
    obtain ⟨b2, hb2, h2⟩ := ih (k + 1) b1 (by simpa using h1) (by
      intro i hi b' hb'
      have := hstep (i + 1) (by simpa using hi) b' (by convert hb' using 1; omega)
      obtain ⟨b'', e, h''⟩ := this
      refine ⟨b'', ?_, ?_⟩
      · rw [← e]; simp only [List.getElem_cons_succ]; congr 2; omega
      · convert h'' using 1; omega)
    refine ⟨b2, ?_, ?_⟩
    · rw [List.zipIdx_cons, List.foldlM_cons]
      simp only [List.getElem_cons_zero, Nat.add_zero] at hb1
      rw [hb1]; exact hb2
    · convert h2 using 1; simp; omega

theorem segStart_zero (l : List Nat) : segStart l 0 = 0 := by simp [segStart]

theorem segStart_succ (l : List Nat) {s : Nat} (hs : s < l.length) :
    segStart l (s + 1) = segStart l s + l[s] := by
  unfold segStart
  rw [List.take_succ_eq_append_getElem hs, List.sum_append]
  simp

theorem segStart_length (l : List Nat) : segStart l l.length = l.sum := by simp [segStart]

theorem segStart_mono (l : List Nat) {s t : Nat} (h : s ≤ t) : segStart l s ≤ segStart l t := by
  induction h with
  | refl => exact le_rfl
  | @step t _ ih =>
    refine ih.trans ?_
    by_cases ht : t < l.length
    · rw [segStart_succ l ht]; omega
    · simp only [segStart]
      rw [List.take_of_length_le (by omega), List.take_of_length_le (by omega)]

theorem segStart_le_sum (l : List Nat) (s : Nat) : segStart l s ≤ l.sum := by
  rw [← segStart_length]
  by_cases hs : s ≤ l.length
  · exact segStart_mono l hs
  · simp only [segStart]
    rw [List.take_of_length_le (by omega), List.take_of_length_le le_rfl]

theorem segStart_add_le {l : List Nat} {s t : Nat} (hs : s < l.length) (h : s < t) :
    segStart l s + l[s] ≤ segStart l t := by
  rw [← segStart_succ l hs]; exact segStart_mono l h

theorem pyIdx_ok {α : Type*} {l : List α} {i : Nat} (h : i < l.length) : pyIdx l i = .ok l[i] := by
  simp [pyIdx, h]

variable {K : Type} [Field K]

omit [Field K] in
theorem setBlock_ok (M B : Mat K) (r0 nr c0 nc : Nat) (hr : B.rows = nr) (hc : B.cols = nc) :
    ∃ M', M.setBlock r0 nr c0 nc B = .ok M' ∧ M'.rows = M.rows ∧ M'.cols = M.cols ∧
      ∀ i j, M'.e i j = if r0 ≤ i ∧ i < r0 + nr ∧ c0 ≤ j ∧ j < c0 + nc then
        B.e (i - r0) (j - c0) else M.e i j := by
  unfold Mat.setBlock
  rw [if_pos ⟨hr, hc⟩]
  exact ⟨_, rfl, rfl, rfl, fun _ _ => rfl⟩

/-- Closed form of `compBlocks`. -/
theorem compBlocks_spec (orders : List Nat) (taus : List (List K)) (blk : Nat → Nat → Py (Mat K))
    (hlen : taus.length = orders.length) (B : Nat → Mat K)
    (hB : ∀ (i : Nat) (hi : i < orders.length), blk i orders[i] = .ok (B i) ∧
      (B i).rows = (taus.getD i []).length ∧ (B i).cols = orders[i] + 1) :
    ∃ M, compBlocks orders taus blk = .ok M ∧ M.rows = (taus.map List.length).sum ∧
      M.cols = orders.sum + 1 ∧
      ∀ (s : Nat) (hs : s < orders.length) (i j : Nat), i < (taus.getD s []).length →
        M.e (segStart (taus.map List.length) s + i) j =
          if segStart orders s ≤ j ∧ j ≤ segStart orders s + orders[s] then
            (B s).e i (j - segStart orders s) else 0 := by
  have hnt : ∀ (i : Nat) (h : i < (taus.map List.length).length),
      (taus.map List.length)[i] = (taus.getD i []).length := by
    intro i h
    have h' : i < taus.length := by simpa using h
    rw [List.getElem_map, List.getD_eq_getElem _ _ h']
  let n := taus.map List.length
  have hn : n.length = orders.length := by simp [n, hlen]
  let Inv : Nat → Mat K → Prop := fun k M =>
    M.rows = n.sum ∧ M.cols = orders.sum + 1 ∧
    (∀ (s : Nat) (hs : s < orders.length), s < k → ∀ i j : Nat, i < (taus.getD s []).length →
        M.e (segStart n s + i) j =
          if segStart orders s ≤ j ∧ j ≤ segStart orders s + orders[s] then
            (B s).e i (j - segStart orders s) else 0) ∧
    (∀ r j, segStart n k ≤ r → M.e r j = 0)
  have key := foldlM_zipIdx_inv (fun M (pi : Nat × Nat) => do
    let (p, i) := pi
    let B ← blk i p
    let nt ← pyIdx n i
    if nt = 0 then return M
    else
      M.setBlock ((n.take i).sum) nt ((orders.take i).sum) (1 + p) B) Inv orders 0
    (Mat.zeros n.sum (orders.sum + 1)) ?_ ?_
  · obtain ⟨M, hM, h1, h2, h3, -⟩ := key
    exact ⟨M, hM, h1, h2, fun s hs i j hi => h3 s hs (by omega) i j hi⟩
  · refine ⟨rfl, rfl, fun s hs h => absurd h (Nat.not_lt_zero s), fun r j _ => rfl⟩
  · intro i hi M hInv
    simp only [Nat.zero_add] at hInv ⊢
    obtain ⟨h1, h2, h3, h4⟩ := hInv
    obtain ⟨hb, hr, hc⟩ := hB i hi
    have hin : i < n.length := by omega
    have hni : n[i] = (taus.getD i []).length := hnt i hin
    by_cases h0 : n[i] = 0
    · refine ⟨M, ?_, h1, h2, ?_, ?_⟩
      · simp only [hb, pyIdx_ok hin, py_bind_ok]
        rw [if_pos h0]; rfl
      · intro s hs hsi i' j hi'
        rcases Nat.lt_succ_iff_lt_or_eq.1 hsi with h | rfl
        · exact h3 s hs h i' j hi'
        · rw [← hni, h0] at hi'; exact absurd hi' (Nat.not_lt_zero _)
      · intro r j hrj
        rw [segStart_succ n hin, h0] at hrj
        exact h4 r j hrj
    · obtain ⟨M', hM', hr', hc', he'⟩ := setBlock_ok M (B i) (segStart n i) n[i] (segStart orders i)
        (1 + orders[i]) (by rw [hr, hni]) (by rw [hc]; omega)
      refine ⟨M', ?_, hr'.trans h1, hc'.trans h2, ?_, ?_⟩
      · simp only [hb, pyIdx_ok hin, py_bind_ok]
        rw [if_neg h0]
        exact hM'
      · intro s hs hsi i' j hi'
        rcases Nat.lt_succ_iff_lt_or_eq.1 hsi with h | rfl
        · have hsn : s < n.length := by omega
          have h5 := segStart_add_le hsn h
          have h6 : n[s] = (taus.getD s []).length := hnt s hsn
          rw [← h3 s hs h i' j hi', he', if_neg (by omega)]
        · rw [he']
          by_cases hj : segStart orders s ≤ j ∧ j ≤ segStart orders s + orders[s]
          · rw [if_pos (by omega), if_pos hj]
            congr 1; omega
          · rw [if_neg (by omega), if_neg hj]
            exact h4 _ _ (by omega)
      · intro r j hrj
        rw [segStart_succ n hin] at hrj
        rw [he', if_neg (by omega)]
        exact h4 r j (by omega)

/-- Closed form of the composite differentiation matrix: at the rows owned by segment `s` it is that
segment's matrix, placed on the segment's columns. -/
theorem compDiffMatrix_spec (c : Colloc K) (orders : List Nat) (order : Nat) (D : Nat → Mat K)
    (hD : ∀ p ∈ orders, ∃ r, c.taus p = .ok r ∧ diffMatrix c.method r r order = .ok (D p) ∧
      (D p).rows = p + 1 ∧ (D p).cols = p + 1) :
    ∃ M, compDiffMatrix c orders order = .ok M ∧ M.rows = orders.sum + 1 ∧
      M.cols = orders.sum + 1 ∧
      ∀ (s : Nat) (hs : s < orders.length) (i j : Nat), i ≤ orders[s] → (s = 0 ∨ 1 ≤ i) →
        M.e (segStart orders s + i) j =
          if segStart orders s ≤ j ∧ j ≤ segStart orders s + orders[s] then
            (D orders[s]).e i (j - segStart orders s) else 0 := by
  let Inv : Nat → Mat K → Prop := fun k M =>
    M.rows = orders.sum + 1 ∧ M.cols = orders.sum + 1 ∧
    (∀ (s : Nat) (hs : s < orders.length), s < k → ∀ i j : Nat, i ≤ orders[s] → (s = 0 ∨ 1 ≤ i) →
        M.e (segStart orders s + i) j =
          if segStart orders s ≤ j ∧ j ≤ segStart orders s + orders[s] then
            (D orders[s]).e i (j - segStart orders s) else 0) ∧
    (∀ r j, segStart orders k + (if k = 0 then 0 else 1) ≤ r → M.e r j = 0)
  have key := foldlM_zipIdx_inv (fun M (pi : Nat × Nat) => do
    let (p, i) := pi
    let roots ← c.taus p
    let D ← diffMatrix c.method roots roots order
    if i = 0 then M.setBlock 0 (p + 1) 0 (p + 1) D
    else
      let start := (orders.take i).sum
      M.setBlock (start + 1) p start (1 + p) (D.dropRows 1)) Inv orders 0
    (Mat.zeros (orders.sum + 1) (orders.sum + 1)) ?_ ?_
  · obtain ⟨M, hM, h1, h2, h3, -⟩ := key
    exact ⟨M, hM, h1, h2, fun s hs i j hi => h3 s hs (by omega) i j hi⟩
  · refine ⟨rfl, rfl, fun s hs h => absurd h (Nat.not_lt_zero s), fun r j _ => rfl⟩
  · intro k hk M hInv
    simp only [Nat.zero_add] at hInv ⊢
    obtain ⟨h1, h2, h3, h4⟩ := hInv
    obtain ⟨r, ht, hd, hr, hc⟩ := hD orders[k] (List.getElem_mem hk)
    by_cases h0 : k = 0
    · subst h0
      obtain ⟨M', hM', hr', hc', he'⟩ := setBlock_ok M (D orders[0]) 0 (orders[0] + 1) 0
        (orders[0] + 1) hr hc
      refine ⟨M', ?_, hr'.trans h1, hc'.trans h2, ?_, ?_⟩
      · simp only [ht, hd, py_bind_ok]
        exact hM'
      · intro s hs hsi i' j hi' _
        obtain rfl : s = 0 := by omega
        rw [he']
        simp only [segStart_zero, Nat.zero_le, Nat.zero_add, true_and, Nat.sub_zero]
        by_cases hj : j ≤ orders[0]
        · rw [if_pos (by omega), if_pos hj]
        · rw [if_neg (by omega), if_neg hj]
          exact h4 _ _ (by simp [segStart_zero])
      · intro r j hrj
        rw [segStart_succ orders hk, segStart_zero] at hrj
        rw [he', if_neg (by simp at hrj; omega)]
        exact h4 r j (by simp [segStart_zero])
    · rw [if_neg h0] at h4
      obtain ⟨M', hM', hr', hc', he'⟩ := setBlock_ok M ((D orders[k]).dropRows 1)
        (segStart orders k + 1) orders[k] (segStart orders k) (1 + orders[k])
        (by simp [Mat.dropRows, hr]) (by simp [Mat.dropRows, hc, add_comm])
      refine ⟨M', ?_, hr'.trans h1, hc'.trans h2, ?_, ?_⟩
      · simp only [ht, hd, py_bind_ok]
        rw [if_neg h0]
        exact hM'
      · intro s hs hsi i' j hi' hor
        rcases Nat.lt_succ_iff_lt_or_eq.1 hsi with h | rfl
        · have h5 := segStart_add_le hs h
          rw [← h3 s hs h i' j hi' hor, he', if_neg (by omega)]
        · have hi1 : 1 ≤ i' := by omega
          rw [he']
          simp only [Mat.dropRows]
          by_cases hj : segStart orders s ≤ j ∧ j ≤ segStart orders s + orders[s]
          · rw [if_pos (by omega), if_pos hj]
            congr 1; omega
          · rw [if_neg (by omega), if_neg hj]
            exact h4 _ _ (by omega)
      · intro r j hrj
        rw [segStart_succ orders hk, if_neg (by omega)] at hrj
        rw [he', if_neg (by omega)]
        exact h4 r j (by omega)

/-- A row supported on the columns of one segment. -/
theorem rowDot_segment (M : Mat K) (row : Nat) (orders : List Nat) (s : Nat) (hs : s < orders.length)
    (hc : M.cols = orders.sum + 1) (B : Nat → K)
    (he : ∀ j, M.e row j = if segStart orders s ≤ j ∧ j ≤ segStart orders s + orders[s] then
      B (j - segStart orders s) else 0) (v : Nat → K) :
    M.rowDot row v = ∑ i ∈ Finset.range (orders[s] + 1), B i * v (segStart orders s + i) := by
  have hle : segStart orders s + orders[s] ≤ orders.sum := by
    rw [← segStart_succ orders hs]; exact segStart_le_sum _ _
  unfold Mat.rowDot
  rw [hc, ← Finset.sum_subset (s₁ := Finset.Ico (segStart orders s) (segStart orders s + orders[s] + 1))]
  · rw [Finset.sum_Ico_eq_sum_range]
    have : segStart orders s + orders[s] + 1 - segStart orders s = orders[s] + 1 := by omega
    rw [this]
    apply Finset.sum_congr rfl
    intro i hi
    have hi : i < orders[s] + 1 := by simpa using hi
    rw [he, if_pos (by omega)]
    congr 2; omega
  · intro j hj
    simp only [Finset.mem_Ico, Finset.mem_range] at hj ⊢
    omega
  · intro j _ hj
    simp only [Finset.mem_Ico, not_and, not_lt] at hj
    rw [he, if_neg (by omega), zero_mul]

end MPOpt
