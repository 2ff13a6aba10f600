import Verif.Model.PostProcess
import Verif.Spec.PostProcess
import Verif.Lemmas.PyM
import Verif.Lemmas.Composite
import Mathlib.Tactic.Linarith
import Mathlib.Tactic.FieldSimp

/-! # C42: grid refinement by midpoints -/

set_option autoImplicit false

namespace MPOpt
variable {K : Type} [Field K]

/-- One pass. -/
theorem getMidPoints_spec (taus : List K) (h : 2 ≤ taus.length) :
    ∃ out, getMidPoints taus = .ok out ∧ IsMidRefinement taus out := by
  set pts := List.zipWith (fun a b => [a, (a + b) / 2]) taus.dropLast taus.tail with hpts
  have hlen : pts.length = taus.length - 1 := by simp [hpts]
  have hne : pts ≠ [] := by
    intro h0; rw [h0] at hlen; simp at hlen; omega
  have hlast : pyIdx taus (taus.length - 1) = .ok (taus[taus.length - 1]'(by omega)) := pyIdx_ok (by omega)
  have key : getMidPoints taus = .ok (pts.flatten ++ [taus[taus.length - 1]'(by omega)]) := by
    unfold getMidPoints
    simp only [← hpts, hlast]
    have : npConcat pts = .ok pts.flatten := by
      unfold npConcat; cases hc : pts with
      | nil => exact absurd hc hne
      | cons a l => rfl
    rw [this]; rfl
  have hflat : ∀ (l : List (List K)), (∀ x ∈ l, x.length = 2) → l.flatten.length = 2 * l.length := by
    intro l
    induction l with
    | nil => simp
    | cons a l ih =>
      intro hl
      rw [List.flatten_cons, List.length_append, ih fun x hx => hl x (List.mem_cons_of_mem _ hx),
        hl a (by simp)]
      simp; omega
  have hget : ∀ (l : List (List K)), (∀ x ∈ l, x.length = 2) → ∀ i (hi : i < l.length),
      l.flatten[2 * i]? = l[i][0]? ∧ l.flatten[2 * i + 1]? = l[i][1]? := by
    intro l
    induction l with
    | nil => intro _ i hi; simp at hi
    | cons a l ih =>
      intro hl i hi
      have ha := hl a (by simp)
      cases i with
      | zero =>
        rw [List.flatten_cons]
        constructor
        · rw [List.getElem?_append_left (by omega)]; rfl
        · rw [List.getElem?_append_left (by omega)]; rfl
      | succ i =>
        have hi' : i < l.length := by simpa using hi
        obtain ⟨h1, h2⟩ := ih (fun x hx => hl x (List.mem_cons_of_mem _ hx)) i hi'
        rw [List.flatten_cons]
        constructor
        · rw [List.getElem?_append_right (by omega), show 2 * (i + 1) - a.length = 2 * i by omega, h1]
          rfl
        · rw [List.getElem?_append_right (by omega), show 2 * (i + 1) + 1 - a.length = 2 * i + 1 by omega,
            h2]
          rfl
  have h2 : ∀ x ∈ pts, x.length = 2 := by
    intro x hx
    obtain ⟨i, hi, rfl⟩ := List.mem_iff_getElem.1 hx
    simp [hpts]
  have hfl := hflat pts h2
  refine ⟨_, key, ?_, ?_, ?_⟩
  · rw [List.length_append, hfl, hlen]; simp; omega
  · intro i hi
    by_cases hl : i < taus.length - 1
    · rw [List.getElem?_append_left (by rw [hfl, hlen]; omega), (hget pts h2 i (by omega)).1,
        List.getElem?_eq_getElem hi]
      simp [hpts]
    · have : i = taus.length - 1 := by omega
      subst this
      rw [List.getElem?_append_right (by rw [hfl, hlen]), hfl, hlen, Nat.sub_self,
        List.getElem?_eq_getElem hi]
      rfl
  · intro i x y hx hy
    have hi : i + 1 < taus.length := (List.getElem?_eq_some_iff.1 hy).1
    rw [List.getElem?_append_left (by rw [hfl, hlen]; omega), (hget pts h2 i (by omega)).2]
    have ex : taus[i] = x := (List.getElem?_eq_some_iff.1 hx).2
    have ey : taus[i + 1] = y := (List.getElem?_eq_some_iff.1 hy).2
    simp [hpts, ex, ey]

/-- Fewer than two points cannot be refined. -/
theorem getMidPoints_short (taus : List K) (h : taus.length < 2) : getMidPoints taus = .error .value := by
  match taus, h with
  | [], _ => rfl
  | [a], _ => rfl

theorem IsMidRefinement.two_le {a b : List K} (h : IsMidRefinement a b) (ha : 2 ≤ a.length) :
    2 ≤ b.length := by rw [h.1]; omega

/-- **C42** On at least two points the refinement succeeds: it returns a `k`-fold midpoint refinement, with `k ≤ 6`
the first number of passes that reaches `n` points, or six passes if none does. -/
theorem C42_refines (taus : List K) (n : Nat) (h : 2 ≤ taus.length) :
    ∃ out k, nonUniformGrid taus n = .ok out ∧ RefinedBy k taus out ∧ k ≤ 6 ∧
      out.length = 2 ^ k * (taus.length - 1) + 1 ∧ (n ≤ out.length ∨ k = 6) ∧
      ∀ j < k, 2 ^ j * (taus.length - 1) + 1 < n := by
  have key : ∀ left count (taus : List K), count + left = 6 → 1 ≤ left → 2 ≤ taus.length →
      ∃ out k, refineLoop n taus count = .ok out ∧ RefinedBy k taus out ∧ k ≤ left ∧
        out.length = 2 ^ k * (taus.length - 1) + 1 ∧ (n ≤ out.length ∨ k = left) ∧
        ∀ j < k, 2 ^ j * (taus.length - 1) + 1 < n := by
    intro left
    induction left with
    | zero => intro _ _ _ h; omega
    | succ left ih =>
      intro count taus hc _ h2
      rw [refineLoop]
      by_cases hn : taus.length < n
      · obtain ⟨m, hm, hr⟩ := getMidPoints_spec taus h2
        rw [if_pos hn, hm]
        simp only
        have hml : m.length - 1 = 2 * (taus.length - 1) := by rw [hr.1]; omega
        by_cases h5 : count + 1 > 5
        · rw [if_pos h5]
          have hl : left = 0 := by omega
          refine ⟨m, 1, rfl, .succ hr (.zero m), by omega, by rw [hr.1]; omega,
            Or.inr (by omega), ?_⟩
          intro j hj
          obtain rfl : j = 0 := by omega
          simp; omega
        · rw [if_neg h5]
          obtain ⟨out, k, h1, hk2, h3, h4, h6, h7⟩ := ih (count + 1) m (by omega) (by omega)
            (hr.two_le h2)
          refine ⟨out, k + 1, h1, .succ hr hk2, by omega, ?_, ?_, ?_⟩
          · rw [h4, hml, pow_succ]; ring
          · rcases h6 with h6 | h6
            · exact Or.inl h6
            · exact Or.inr (by omega)
          · intro j hj
            cases j with
            | zero => simp; omega
            | succ j =>
              have := h7 j (by omega)
              rw [hml] at this
              rw [pow_succ]
              calc 2 ^ j * 2 * (taus.length - 1) + 1 = 2 ^ j * (2 * (taus.length - 1)) + 1 := by ring
                _ < n := this
      · rw [if_neg hn]
        exact ⟨taus, 0, rfl, .zero taus, by omega, by simp; omega, Or.inl (by omega), by omega⟩
  exact key 6 0 taus rfl (by omega) h

/-- **C42** Every original point survives, in order. -/
theorem IsMidRefinement.sublist {a b : List K} (h : IsMidRefinement a b) : a.Sublist b := by
  rw [List.sublist_iff_exists_fin_orderEmbedding_get_eq]
  have hb := h.1
  refine ⟨⟨⟨fun i => ⟨2 * i, by omega⟩, ?_⟩, ?_⟩, ?_⟩
  · intro i j hij
    simp only [Fin.mk.injEq] at hij
    exact Fin.ext (by omega)
  · intro i j
    change (2 * (i : Nat) ≤ 2 * (j : Nat)) ↔ (i : Nat) ≤ j
    omega
  · intro i
    have := h.2.1 i i.2
    rw [List.getElem?_eq_getElem i.2, List.getElem?_eq_getElem (by omega)] at this
    exact (Option.some.inj this).symm

theorem RefinedBy.sublist {k : Nat} {a b : List K} (h : RefinedBy k a b) : a.Sublist b := by
  induction h with
  | zero a => exact List.Sublist.refl a
  | succ h _ ih => exact h.sublist.trans ih

theorem IsMidRefinement.ends {a b : List K} (h : IsMidRefinement a b) :
    b.head? = a.head? ∧ b.getLast? = a.getLast? := by
  rcases Nat.eq_zero_or_pos a.length with h0 | h0
  · have hb : b.length = 0 := by rw [h.1]; omega
    rw [List.length_eq_zero_iff.1 h0, List.length_eq_zero_iff.1 hb]; simp
  · constructor
    · have := h.2.1 0 h0
      rw [List.head?_eq_getElem?, List.head?_eq_getElem?]; simpa using this
    · rw [List.getLast?_eq_getElem?, List.getLast?_eq_getElem?, ← h.2.1 _ (by omega), h.1]
      congr 1; omega

theorem RefinedBy.ends {k : Nat} {a b : List K} (h : RefinedBy k a b) :
    b.head? = a.head? ∧ b.getLast? = a.getLast? := by
  induction h with
  | zero a => exact ⟨rfl, rfl⟩
  | succ h _ ih => exact ⟨ih.1.trans h.ends.1, ih.2.trans h.ends.2⟩

section
variable [LinearOrder K] [IsStrictOrderedRing K]

theorem IsMidRefinement.sorted {a b : List K} (h : IsMidRefinement a b) (ha : a.Pairwise (· < ·)) :
    b.Pairwise (· < ·) := by
  rw [← List.isChain_iff_pairwise, List.isChain_iff_getElem]
  intro i hi
  have hb := h.1
  have hs := List.pairwise_iff_getElem.1 ha
  rcases Nat.even_or_odd' i with ⟨j, rfl | rfl⟩
  · have h1 := h.2.1 j (by omega)
    have h2 := h.2.2 j (a[j]'(by omega)) (a[j + 1]'(by omega)) (by simp) (by simp)
    rw [List.getElem?_eq_getElem (by omega), List.getElem?_eq_getElem (by omega)] at h1
    rw [List.getElem?_eq_getElem hi] at h2
    rw [Option.some.inj h1, Option.some.inj h2, lt_div_iff₀ two_pos]
    have := hs j (j + 1) (by omega) (by omega) (by omega)
    linarith
  · have h1 := h.2.1 (j + 1) (by omega)
    have h2 := h.2.2 j (a[j]'(by omega)) (a[j + 1]'(by omega)) (by simp) (by simp)
    rw [List.getElem?_eq_getElem (by omega), List.getElem?_eq_getElem (by omega)] at h1
    rw [List.getElem?_eq_getElem (by omega)] at h2
    have e : b[2 * j + 1 + 1]'hi = a[j + 1]'(by omega) := by
      have := Option.some.inj h1
      simpa [Nat.mul_add] using this
    rw [e, Option.some.inj h2, div_lt_iff₀ two_pos]
    have := hs j (j + 1) (by omega) (by omega) (by omega)
    linarith

/-- **C42** Strict order is kept. -/
theorem RefinedBy.sorted {k : Nat} {a b : List K} (h : RefinedBy k a b) (ha : a.Pairwise (· < ·)) :
    b.Pairwise (· < ·) := by
  induction h with
  | zero a => exact ha
  | succ h _ ih => exact ih (h.sorted ha)

/-- **C42** The refined grid keeps both end points, all original nodes in order, and strict order. -/
theorem C42_keeps (taus : List K) (n : Nat) (h : 2 ≤ taus.length) :
    ∃ out, nonUniformGrid taus n = .ok out ∧ out.head? = taus.head? ∧ out.getLast? = taus.getLast? ∧
      taus.Sublist out ∧ (taus.Pairwise (· < ·) → out.Pairwise (· < ·)) := by
  obtain ⟨out, k, h1, h2, -⟩ := C42_refines taus n h
  exact ⟨out, h1, h2.ends.1, h2.ends.2, h2.sublist, h2.sorted⟩

end

/-- **C42** A grid of fewer than two points that is too short raises. -/
theorem C42_short_raises (taus : List K) (n : Nat) (h : taus.length < 2) (hn : taus.length < n) :
    nonUniformGrid taus n = .error .value := by
  unfold nonUniformGrid
  rw [refineLoop, if_pos hn, getMidPoints_short taus h]

/-- **C42** A grid that is long enough is returned unchanged. -/
theorem C42_long_unchanged (taus : List K) (n : Nat) (hn : n ≤ taus.length) :
    nonUniformGrid taus n = .ok taus := by
  unfold nonUniformGrid
  rw [refineLoop, if_neg (by omega)]

/-- Three points refined to at least four: five points. -/
example : nonUniformGrid [(-1 : ℚ), 0, 1] 4 = .ok [-1, -1/2, 0, 1/2, 1] := by
  have : getMidPoints [(-1 : ℚ), 0, 1] = .ok [-1, -1/2, 0, 1/2, 1] := by decide +kernel
  unfold nonUniformGrid
  rw [refineLoop, if_pos (by decide), this]
  simp only
  rw [if_neg (by decide), refineLoop, if_neg (by decide)]

/-- "max number of points" in the docstring is wrong: asking for 4 gives 5, and asking for 1000 gives 129. -/
theorem C42_not_a_maximum_false : (∃ out, nonUniformGrid [(-1 : ℚ), 0, 1] 4 = .ok out ∧ out.length = 5) ∧
    ∃ out, nonUniformGrid [(-1 : ℚ), 0, 1] 1000 = .ok out ∧ out.length = 129 := by
  constructor
  · obtain ⟨out, k, h1, -, h3, h4, h5, h6⟩ := C42_refines [(-1 : ℚ), 0, 1] 4 (by simp)
    refine ⟨out, h1, ?_⟩
    have hk : k = 1 := by
      rcases Nat.lt_trichotomy k 1 with h | h | h
      · obtain rfl : k = 0 := by omega
        simp at h4 h5; omega
      · exact h
      · have := h6 1 h; simp at this
    subst hk; simpa using h4
  · obtain ⟨out, k, h1, -, h3, h4, h5, h6⟩ := C42_refines [(-1 : ℚ), 0, 1] 1000 (by simp)
    refine ⟨out, h1, ?_⟩
    have hk : k = 6 := by
      rcases h5 with h5 | h5
      · by_contra hne
        have : k ≤ 5 := by omega
        have : 2 ^ k ≤ 2 ^ 5 := Nat.pow_le_pow_right (by norm_num) this
        simp at h4; omega
      · exact h5
    subst hk; simpa using h4

end MPOpt
