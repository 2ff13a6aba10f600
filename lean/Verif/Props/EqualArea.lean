import Verif.Model.Widths
import Verif.Spec.Runs
import Mathlib.Algebra.Order.Field.Basic
import Mathlib.Algebra.Order.BigOperators.Group.Finset
import Mathlib.Algebra.BigOperators.Intervals
import Mathlib.Tactic.FieldSimp
import Mathlib.Tactic.Ring
import Mathlib.Tactic.Linarith
import Mathlib.Data.List.GetD
import Mathlib.Algebra.Field.Rat
import Mathlib.Algebra.Order.Ring.Rat

/-! # C32: widths of equal residual area -/

set_option autoImplicit false
set_option linter.unusedSectionVars false

namespace MPOpt
open Finset
variable {K : Type} [Field K] [LinearOrder K] [IsStrictOrderedRing K]

/-! ### Specification -/

/-- Trapezoid area (unit spacing) under the first `j` intervals of equally spaced samples. -/
def trapezoid (r : List K) (j : Nat) : K := ∑ i ∈ range j, (r.getD i 0 + r.getD (i + 1) 0) / 2

/-- With the samples spread equally over `[0, 1]`, the cumulative area, interpolated linearly between
samples, is `a` at `x`. -/
def OnCumulative (r : List K) (x a : K) : Prop :=
  ∃ (j : Nat) (θ : K), j + 1 < r.length ∧ 0 ≤ θ ∧ θ ≤ 1 ∧ x = ((j : K) + θ) / ((r.length : K) - 1) ∧
    a = trapezoid r j + θ * (trapezoid r (j + 1) - trapezoid r j)

/-! ### Facts -/

theorem trapezoid_succ (r : List K) (j : Nat) :
    trapezoid r (j + 1) = trapezoid r j + (r.getD j 0 + r.getD (j + 1) 0) / 2 := sum_range_succ _ _

theorem getD_nonneg {r : List K} (h : ∀ v ∈ r, 0 ≤ v) (i : Nat) : 0 ≤ r.getD i 0 := by
  by_cases hi : i < r.length
  · rw [List.getD_eq_getElem _ _ hi]; exact h _ (List.getElem_mem hi)
  · rw [List.getD_eq_default _ _ (by omega)]

theorem trapezoid_mono {r : List K} (h : ∀ v ∈ r, 0 ≤ v) : Monotone (trapezoid r) := by
  apply monotone_nat_of_le_succ
  intro j
  rw [trapezoid_succ]
  have := getD_nonneg h j
  have := getD_nonneg h (j + 1)
  linarith

/-- A larger area is reached later. -/
theorem OnCumulative.lt {r : List K} (h : ∀ v ∈ r, 0 ≤ v) {x a y b : K} (hx : OnCumulative r x a)
    (hy : OnCumulative r y b) (hab : a < b) : x < y := by
  obtain ⟨j, θ, hj, h0, h1, rfl, rfl⟩ := hx
  obtain ⟨j', θ', hj', h0', h1', rfl, rfl⟩ := hy
  have hm : (0 : K) < (r.length : K) - 1 := by
    have : (1 : K) < r.length := by exact_mod_cast (by omega : 1 < r.length)
    linarith
  have mono := trapezoid_mono h
  rw [div_lt_div_iff_of_pos_right hm]
  by_contra hc
  rw [not_lt] at hc
  have m1 : trapezoid r j ≤ trapezoid r (j + 1) := mono (by omega)
  have m2 : trapezoid r j' ≤ trapezoid r (j' + 1) := mono (by omega)
  rcases lt_trichotomy j' j with hlt | heq | hlt
  · have m3 : trapezoid r (j' + 1) ≤ trapezoid r j := mono (by omega)
    nlinarith
  · subst heq
    have : θ' ≤ θ := by linarith
    nlinarith
  · have hk : (j : K) + 1 ≤ j' := by exact_mod_cast hlt
    have e1 : θ = 1 := by linarith
    have e2 : θ' = 0 := by linarith
    have e3 : (j' : K) = (j : K) + 1 := by linarith
    have e4 : j' = j + 1 := by exact_mod_cast e3
    subst e4
    rw [e1, e2] at hab
    linarith

theorem sum_map_range {f : Nat → K} (j : Nat) : ((List.range j).map f).sum = ∑ i ∈ range j, f i := by
  induction j with
  | zero => rfl
  | succ j ih => rw [List.range_succ, List.map_append, List.sum_append, ih, sum_range_succ]; simp

theorem areas_take (r : List K) (j : Nat) (hj : j ≤ r.length - 1) :
    ((areas r).take j).sum = trapezoid r j := by
  unfold areas trapezoid
  rw [← List.map_take, List.take_range, min_eq_left hj, sum_map_range]
  apply sum_congr rfl
  intro i _
  ring

theorem areas_sum (r : List K) : (areas r).sum = trapezoid r (r.length - 1) := by
  have h := areas_take r (r.length - 1) le_rfl
  rwa [List.take_of_length_le (by simp [areas])] at h

theorem cumFraction_getElem {r : List K} (ht : trapezoid r (r.length - 1) ≠ 0) (j : Nat)
    (hj : j ≤ r.length - 1) :
    (cumFraction r)[j]? = some (some (trapezoid r j / trapezoid r (r.length - 1))) := by
  unfold cumFraction cumArea
  rw [List.map_map, List.getElem?_map, List.getElem?_range (by omega)]
  simp only [Option.map_some, Function.comp, npDiv, areas_sum, ht, if_false, areas_take r j hj]

theorem cumFraction_length (r : List K) : (cumFraction r).length = r.length - 1 + 1 := by
  simp [cumFraction, cumArea]

/-- The index found by the code is the first one at which the fraction is reached. -/
theorem firstAtLeast_spec {r : List K} (ht : 0 < trapezoid r (r.length - 1)) {c : K} (h0 : 0 < c)
    (h1 : c ≤ 1) :
    ∃ j, firstAtLeast (cumFraction r) c = j + 1 ∧ j + 1 ≤ r.length - 1 ∧
      trapezoid r j < c * trapezoid r (r.length - 1) ∧
      c * trapezoid r (r.length - 1) ≤ trapezoid r (j + 1) := by
  set T := trapezoid r (r.length - 1) with hT
  set p : Option K → Bool := fun o => match o with
    | some v => decide (c ≤ v)
    | none => false with hp
  have hpi : ∀ j ≤ r.length - 1, ∀ x, (cumFraction r)[j]? = some x →
      (p x = true ↔ c * T ≤ trapezoid r j) := by
    intro j hj x hx
    rw [cumFraction_getElem ht.ne' j hj] at hx
    cases hx
    simp only [hp, decide_eq_true_eq]
    rw [le_div_iff₀ ht]
  set j := (cumFraction r).findIdx p with hj
  have hex : ∃ x ∈ cumFraction r, p x = true := by
    have hlast := cumFraction_getElem ht.ne' (r.length - 1) le_rfl
    refine ⟨_, List.mem_of_getElem? hlast, (hpi _ le_rfl _ hlast).2 ?_⟩
    rw [← hT]; nlinarith
  have hlt : j < (cumFraction r).length := List.findIdx_lt_length.2 hex
  have hlt' : j ≤ r.length - 1 := by rw [cumFraction_length] at hlt; omega
  have hge := List.findIdx_getElem (p := p) (w := hlt)
  have hge' : c * T ≤ trapezoid r j := (hpi j hlt' _ (List.getElem?_eq_getElem hlt)).1 hge
  have hj0 : j ≠ 0 := by
    intro hz
    rw [hz] at hge'
    have : trapezoid r 0 = 0 := by simp [trapezoid]
    rw [this] at hge'
    have := mul_pos h0 ht
    linarith
  obtain ⟨k, hk⟩ : ∃ k, j = k + 1 := ⟨j - 1, by omega⟩
  refine ⟨k, ?_, by omega, ?_, by rw [← hk]; exact hge'⟩
  · unfold firstAtLeast
    show (if j < (cumFraction r).length then j else 0) = k + 1
    rw [if_pos hlt, hk]
  · have hk2 : k < (cumFraction r).length := by omega
    have hnot := List.not_of_lt_findIdx (p := p) (xs := cumFraction r) (i := k) (by omega)
    by_contra hcon
    rw [(hpi k (by omega) _ (List.getElem?_eq_getElem hk2)).2 (not_lt.1 hcon)] at hnot
    cases hnot

/-- Breakpoint `i + 1` in closed form. -/
theorem equalAreaCut_spec {r : List K} (ht : 0 < trapezoid r (r.length - 1)) {n i : Nat} (hi : i < n) :
    ∃ (j : Nat) (θ : K), equalAreaCut r n i = some (((j : K) + θ) / ((r.length : K) - 1)) ∧
      j + 1 ≤ r.length - 1 ∧ 0 < θ ∧ θ ≤ 1 ∧
      ((i : K) + 1) / n * trapezoid r (r.length - 1) =
        trapezoid r j + θ * (trapezoid r (j + 1) - trapezoid r j) ∧
      trapezoid r j < ((i : K) + 1) / n * trapezoid r (r.length - 1) := by
  have hn : (0 : K) < n := by exact_mod_cast (by omega : 0 < n)
  have hc0 : (0 : K) < ((i : K) + 1) / n := by positivity
  have hc1 : ((i : K) + 1) / n ≤ 1 := by
    rw [div_le_one hn]; exact_mod_cast hi
  obtain ⟨j, e1, e2, e3, e4⟩ := firstAtLeast_spec ht hc0 hc1
  set T := trapezoid r (r.length - 1) with hT
  set c : K := ((i : K) + 1) / n with hc
  have hden : 0 < trapezoid r (j + 1) / T - trapezoid r j / T := by
    rw [← sub_div]; apply div_pos _ ht; linarith
  have hden' : 0 < trapezoid r (j + 1) - trapezoid r j := by linarith
  refine ⟨j, (c - trapezoid r j / T) / (trapezoid r (j + 1) / T - trapezoid r j / T), ?_, e2, ?_, ?_, ?_, e3⟩
  · unfold equalAreaCut
    simp only [← hc, e1]
    rw [if_neg (by omega), List.getD_eq_getElem?_getD, List.getD_eq_getElem?_getD,
      cumFraction_getElem ht.ne' (j + 1) e2, Nat.add_sub_cancel, cumFraction_getElem ht.ne' j (by omega)]
    simp only [Option.getD_some, Option.bind_eq_bind, Option.bind_some, ← hT]
    have hm : (r.length : K) - 1 ≠ 0 := by
      have : (1 : K) < r.length := by exact_mod_cast (by omega : 1 < r.length)
      intro h; linarith
    simp only [npDiv, hden.ne', hm, if_false, Option.bind_some]
    congr 2
    push_cast
    ring
  · apply div_pos _ hden
    rw [sub_pos, div_lt_iff₀ ht]; exact e3
  · rw [div_le_one hden]
    have : c ≤ trapezoid r (j + 1) / T := by rw [le_div_iff₀ ht]; exact e4
    linarith
  · rw [← sub_div]
    field_simp
    ring

/-- Adding up differences. -/
theorem sum_diffs (f : Nat → K) (n k : Nat) (hk : k ≤ n) :
    (((List.range n).map fun i => f (i + 1) - f i).take k).sum = f k - f 0 := by
  rw [← List.map_take, List.take_range, min_eq_left hk, sum_map_range, sum_range_sub]

/-- **C32** For nonnegative residual samples with positive total area, the code returns `n` positive widths;
breakpoint `k` is where the (linearly interpolated) cumulative area reaches `k/n` of the total; the widths
sum to at most 1, and to 1 exactly when the last sampled interval has positive area. -/
theorem C32_equal_area (r : List K) (n : Nat) (hn : 0 < n) (hr : ∀ v ∈ r, 0 ≤ v)
    (ht : 0 < trapezoid r (r.length - 1)) :
    ∃ w : List K, equalArea r n = w.map some ∧ w.length = n ∧ (∀ v ∈ w, 0 < v) ∧
      (∀ k ≤ n, OnCumulative r (w.take k).sum ((k : K) / n * trapezoid r (r.length - 1))) ∧
      w.sum ≤ 1 ∧
      (w.sum = 1 ↔ 0 < r.getD (r.length - 2) 0 + r.getD (r.length - 1) 0) := by
  have hlen : 2 ≤ r.length := by
    by_contra h
    rw [show r.length - 1 = 0 by omega] at ht
    simp [trapezoid] at ht
  have hnK : (0 : K) < n := by exact_mod_cast hn
  have hm : (0 : K) < (r.length : K) - 1 := by
    have : (1 : K) < r.length := by exact_mod_cast (by omega : 1 < r.length)
    linarith
  set T := trapezoid r (r.length - 1) with hT
  let cut : Nat → K := fun k => match k with
    | 0 => 0
    | k + 1 => (equalAreaCut r n k).getD 0
  have hcut : ∀ k, (some 0 :: (List.range n).map (equalAreaCut r n)).getD k none =
      if k ≤ n then some (cut k) else none := by
    intro k
    cases k with
    | zero => simp [cut]
    | succ k =>
      by_cases hk : k < n
      · rw [if_pos (by omega), List.getD_cons_succ, List.getD_eq_getElem?_getD, List.getElem?_map,
          List.getElem?_range hk]
        obtain ⟨j, θ, e, -⟩ := equalAreaCut_spec ht hk
        simp only [Option.map_some, Option.getD_some, cut]
        rw [e]; rfl
      · rw [if_neg (by omega), List.getD_eq_default]
        simp; omega
  have hon : ∀ k ≤ n, OnCumulative r (cut k) ((k : K) / n * T) := by
    intro k hk
    cases k with
    | zero => exact ⟨0, 0, by omega, le_rfl, zero_le_one, by simp [cut], by simp [trapezoid]⟩
    | succ k =>
      obtain ⟨j, θ, e, e2, h0, h1, h2, -⟩ := equalAreaCut_spec ht (show k < n by omega)
      refine ⟨j, θ, by omega, h0.le, h1, ?_, ?_⟩
      · simp only [cut, e, Option.getD_some]
      · rw [← h2]; push_cast; rfl
  have hsum : ∀ k ≤ n, (((List.range n).map fun i => cut (i + 1) - cut i).take k).sum = cut k := by
    intro k hk
    rw [sum_diffs cut n k hk]
    show cut k - 0 = cut k
    ring
  have htot : ((List.range n).map fun i => cut (i + 1) - cut i).sum = cut n := by
    have := hsum n le_rfl
    rwa [List.take_of_length_le (by simp)] at this
  refine ⟨(List.range n).map fun i => cut (i + 1) - cut i, ?_, by simp, ?_, ?_, ?_, ?_⟩
  · unfold equalArea
    rw [List.map_map]
    apply List.map_congr_left
    intro i hi
    rw [List.mem_range] at hi
    simp only [hcut, if_pos (by omega : i + 1 ≤ n), if_pos (by omega : i ≤ n)]
    rfl
  · intro v hv
    obtain ⟨i, hi, rfl⟩ := List.mem_map.1 hv
    rw [List.mem_range] at hi
    rw [sub_pos]
    apply (hon i (by omega)).lt hr (hon (i + 1) (by omega))
    apply mul_lt_mul_of_pos_right _ ht
    rw [div_lt_div_iff_of_pos_right hnK]
    exact_mod_cast Nat.lt_succ_self i
  · intro k hk
    rw [hsum k hk]
    exact hon k hk
  all_goals
    rw [htot]
    obtain ⟨n', rfl⟩ : ∃ n', n = n' + 1 := ⟨n - 1, by omega⟩
    obtain ⟨j, θ, e, e2, h0, h1, h2, h3⟩ := equalAreaCut_spec ht (show n' < n' + 1 by omega)
    have hcn : cut (n' + 1) = ((j : K) + θ) / ((r.length : K) - 1) := by
      simp only [cut, e, Option.getD_some]
    have hone : ((n' : K) + 1) / ((n' + 1 : Nat) : K) = 1 := by
      push_cast at hnK ⊢; exact div_self hnK.ne'
    rw [hone, one_mul] at h2 h3
    have hjm : (j : K) + 1 ≤ (r.length : K) - 1 := by
      have : ((j + 1 : Nat) : K) ≤ ((r.length - 1 : Nat) : K) := by exact_mod_cast e2
      rw [Nat.cast_sub (by omega)] at this
      push_cast at this; exact this
    rw [hcn]
  · rw [div_le_one hm]; linarith
  · rw [div_eq_one_iff_eq hm.ne']
    have hlast : trapezoid r (r.length - 1) = trapezoid r (r.length - 2) +
        (r.getD (r.length - 2) 0 + r.getD (r.length - 1) 0) / 2 := by
      have := trapezoid_succ r (r.length - 2)
      rw [show r.length - 2 + 1 = r.length - 1 by omega] at this
      exact this
    rw [← hT] at hlast h2 h3
    constructor
    · intro hj
      have hjj : j = r.length - 2 := by
        have h4 : (r.length : K) - 1 ≤ (j : K) + 1 := by linarith
        have h5 : (r.length : K) ≤ ((j + 2 : Nat) : K) := by push_cast; linarith
        have : r.length ≤ j + 2 := by exact_mod_cast h5
        omega
      rw [hjj] at h3
      linarith
    · intro hpos
      have hjj : j = r.length - 2 := by
        by_contra hne
        have h4 : trapezoid r (j + 1) ≤ trapezoid r (r.length - 2) := trapezoid_mono hr (by omega)
        have h5 : trapezoid r j ≤ trapezoid r (j + 1) := trapezoid_mono hr (by omega)
        nlinarith
      have hj1 : trapezoid r (j + 1) = T := by rw [hjj, show r.length - 2 + 1 = r.length - 1 by omega]
      rw [hj1] at h2
      have hθ : θ = 1 := by
        have : (θ - 1) * (T - trapezoid r j) = 0 := by linarith
        rcases mul_eq_zero.1 this with h | h
        · linarith
        · linarith
      have h6 : ((j : Nat) : K) = (r.length : K) - 2 := by
        rw [hjj, Nat.cast_sub (by omega)]; push_cast; ring
      rw [h6, hθ]; ring

/-- Samples and segment count of a case covered by `C32_equal_area`. -/
example : (∀ v ∈ ([1, 3, 2] : List ℚ), 0 ≤ v) ∧ 0 < trapezoid ([1, 3, 2] : List ℚ) 2 := by decide +kernel

/-- **C32, unconditional sum: false.** Samples 1, 1, 0, 0 and two segments: the widths sum to 2/3. -/
theorem C32_sum_one_false : ∃ (r w : List ℚ) (n : Nat), (∀ v ∈ r, 0 ≤ v) ∧
    0 < trapezoid r (r.length - 1) ∧ equalArea r n = w.map some ∧ w.sum ≠ 1 :=
  ⟨[1, 1, 0, 0], [1 / 4, 5 / 12], 2, by decide +kernel⟩

/-- Zero samples: the code divides 0 by 0 and returns `nan`. -/
theorem C32_zero_area_nan (r : List K) (n : Nat) (ht : trapezoid r (r.length - 1) = 0) :
    equalArea r n = List.replicate n none := by
  have hcum : ∀ j, (cumFraction r).getD j none = none := by
    intro j
    rw [List.getD_eq_getElem?_getD]
    unfold cumFraction
    rw [List.getElem?_map]
    cases (cumArea r)[j]? with
    | none => rfl
    | some a => simp [npDiv, areas_sum, ht]
  have hcut : ∀ i, equalAreaCut r n i = none := by
    intro i
    unfold equalAreaCut
    simp only [hcum]
    rfl
  unfold equalArea
  rw [List.eq_replicate_iff]
  refine ⟨by simp, fun b hb => ?_⟩
  obtain ⟨i, hi, rfl⟩ := List.mem_map.1 hb
  rw [List.mem_range] at hi
  rw [List.getD_cons_succ, List.getD_eq_getElem?_getD, List.getElem?_map, List.getElem?_range hi]
  simp only [Option.map_some, Option.getD_some, hcut]
  rfl

end MPOpt
