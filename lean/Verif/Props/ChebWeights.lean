import Verif.Props.Weights
import Mathlib.Analysis.SpecialFunctions.Trigonometric.Chebyshev.Basic

/-! # C74: the quadrature weights of CGL are positive, and what composite LGL and CGL weights miss -/

set_option autoImplicit false

namespace MPOpt
open Polynomial

/-- Dirichlet sum with halved ends, over `n + 1` terms. -/
noncomputable def halfSum (n : Nat) (f : Nat → ℝ) : ℝ := ∑ m ∈ Finset.range n, f m + f n / 2 - f 0 / 2

theorem two_sin_mul_sum (φ : ℝ) (n : Nat) :
    2 * Real.sin (φ / 2) * (∑ m ∈ Finset.range (n + 1), Real.cos (m * φ)) =
      Real.sin ((n + 1 / 2) * φ) + Real.sin (φ / 2) := by
  induction n with
  | zero => simp; ring_nf
  | succ n ih =>
    rw [Finset.sum_range_succ, mul_add, ih]
    have e1 : ((n + 1 : Nat) + 1 / 2 : ℝ) * φ = ((n + 1 : Nat) : ℝ) * φ + φ / 2 := by push_cast; ring
    have e2 : ((n : ℝ) + 1 / 2) * φ = ((n + 1 : Nat) : ℝ) * φ - φ / 2 := by push_cast; ring
    rw [e1, e2, Real.sin_add, Real.sin_sub]
    ring

theorem halfSum_cos_zero {n : Nat} (hn : 1 ≤ n) {φ : ℝ} (h1 : Real.sin (n * φ) = 0) (h2 : Real.sin (φ / 2) ≠ 0) :
    halfSum n (fun m => Real.cos (m * φ)) = 0 := by
  obtain ⟨k, rfl⟩ : ∃ k, n = k + 1 := ⟨n - 1, by omega⟩
  unfold halfSum
  have h := two_sin_mul_sum φ k
  have e2 : ((k : ℝ) + 1 / 2) * φ = ((k + 1 : Nat) : ℝ) * φ - φ / 2 := by push_cast; ring
  rw [e2, Real.sin_sub, h1, zero_mul, zero_sub] at h
  have h3 : 2 * Real.sin (φ / 2) * (∑ m ∈ Finset.range (k + 1), Real.cos (m * φ) +
      Real.cos ((k + 1 : Nat) * φ) / 2 - Real.cos ((0 : Nat) * φ) / 2) = 0 := by
    rw [mul_sub, mul_add, h]
    simp
    ring
  exact (mul_eq_zero.1 h3).resolve_left (mul_ne_zero two_ne_zero h2)

/-- Angles of the nodes. -/
noncomputable def angle (n k : Nat) : ℝ := Real.pi * k / n

theorem sin_half_ne {n : Nat} (hn : 1 ≤ n) {r : ℤ} (h0 : r ≠ 0) (h1 : -(2 * n : ℤ) < r) (h2 : r < 2 * n) :
    Real.sin (Real.pi * r / n / 2) ≠ 0 := by
  have hnR : (0 : ℝ) < n := by exact_mod_cast hn
  have hpi := Real.pi_pos
  have h1R : -(2 * n : ℝ) < r := by exact_mod_cast h1
  have h2R : (r : ℝ) < 2 * n := by exact_mod_cast h2
  have hlt : Real.pi * r / n / 2 < Real.pi := by
    rw [div_div, div_lt_iff₀ (by positivity)]; nlinarith
  have hgt : -Real.pi < Real.pi * r / n / 2 := by
    rw [div_div, lt_div_iff₀ (by positivity)]; nlinarith
  intro h
  rw [Real.sin_eq_zero_iff_of_lt_of_lt hgt hlt] at h
  have : Real.pi * r = 0 := by
    rw [div_div, div_eq_zero_iff] at h
    rcases h with h | h
    · exact h
    · nlinarith
  rcases mul_eq_zero.1 this with h | h
  · exact hpi.ne' h
  · exact h0 (by exact_mod_cast h)

theorem halfSum_add (n : Nat) (f g : Nat → ℝ) : halfSum n (fun m => f m + g m) = halfSum n f + halfSum n g := by
  unfold halfSum; rw [Finset.sum_add_distrib]; ring

theorem halfSum_int {n : Nat} (hn : 1 ≤ n) {r : ℤ} (h0 : r ≠ 0) (h1 : -(2 * n : ℤ) < r) (h2 : r < 2 * n) :
    halfSum n (fun m => Real.cos (m * (Real.pi * r / n))) = 0 := by
  have hnR : (n : ℝ) ≠ 0 := by positivity
  refine halfSum_cos_zero hn ?_ (sin_half_ne hn h0 h1 h2)
  rw [mul_div_cancel₀ _ hnR, mul_comm]
  exact Real.sin_int_mul_pi r

/-- Discrete orthogonality. -/
theorem halfSum_angles {n : Nat} (hn : 1 ≤ n) {j k : Nat} (hj : j ≤ n) (hk : k ≤ n) (hjk : j ≠ k) :
    halfSum n (fun m => Real.cos (m * angle n k) * Real.cos (m * angle n j)) = 0 := by
  have e : (fun m : Nat => Real.cos (m * angle n k) * Real.cos (m * angle n j)) = fun m : Nat =>
      Real.cos (m * (Real.pi * ((k - j : ℤ) : ℝ) / n)) / 2 + Real.cos (m * (Real.pi * ((k + j : ℤ) : ℝ) / n)) / 2 := by
    funext m
    have e1 : (m : ℝ) * (Real.pi * ((k - j : ℤ) : ℝ) / n) = m * angle n k - m * angle n j := by
      unfold angle; push_cast; ring
    have e2 : (m : ℝ) * (Real.pi * ((k + j : ℤ) : ℝ) / n) = m * angle n k + m * angle n j := by
      unfold angle; push_cast; ring
    rw [e1, e2, Real.cos_sub, Real.cos_add]; ring
  rw [e, halfSum_add]
  have h1 := halfSum_int hn (r := (k - j : ℤ)) (by omega) (by omega) (by omega)
  have h2 := halfSum_int hn (r := (k + j : ℤ)) (by omega) (by omega) (by omega)
  unfold halfSum at h1 h2 ⊢
  rw [← Finset.sum_div, ← Finset.sum_div]
  linarith

/-- A polynomial that vanishes at all Chebyshev nodes but one. -/
noncomputable def cardinal (n k : Nat) : ℝ[X] :=
  ∑ m ∈ Finset.range (n + 1), C ((if m = 0 ∨ m = n then 1 / 2 else 1) * Real.cos (m * angle n k)) * Chebyshev.T ℝ m

theorem halfSum_eq {n : Nat} (hn : 1 ≤ n) (f : Nat → ℝ) :
    halfSum n f = ∑ m ∈ Finset.range (n + 1), (if m = 0 ∨ m = n then 1 / 2 else 1) * f m := by
  obtain ⟨k, rfl⟩ : ∃ k, n = k + 1 := ⟨n - 1, by omega⟩
  unfold halfSum
  rw [Finset.sum_range_succ' f k, Finset.sum_range_succ _ (k + 1), Finset.sum_range_succ' _ k]
  have : ∑ m ∈ Finset.range k, (if m + 1 = 0 ∨ m + 1 = k + 1 then 1 / 2 else 1) * f (m + 1) =
      ∑ m ∈ Finset.range k, f (m + 1) := by
    apply Finset.sum_congr rfl
    intro m hm
    have := Finset.mem_range.1 hm
    rw [if_neg (by omega), one_mul]
  rw [this]
  simp
  ring

theorem cardinal_eval {n : Nat} (hn : 1 ≤ n) (k j : Nat) : (cardinal n k).eval (Real.cos (angle n j)) =
    halfSum n (fun m => Real.cos (m * angle n k) * Real.cos (m * angle n j)) := by
  rw [halfSum_eq hn]
  unfold cardinal
  rw [eval_finsetSum]
  apply Finset.sum_congr rfl
  intro m _
  rw [eval_mul, eval_C, Chebyshev.T_real_cos]
  push_cast
  ring

theorem cardinal_pos {n : Nat} (hn : 1 ≤ n) (k : Nat) : 0 < (cardinal n k).eval (Real.cos (angle n k)) := by
  rw [cardinal_eval hn, halfSum_eq hn]
  rw [Finset.sum_range_succ']
  have h1 : 0 ≤ ∑ m ∈ Finset.range n, (if m + 1 = 0 ∨ m + 1 = n then (1 : ℝ) / 2 else 1) *
      (Real.cos ((m + 1 : Nat) * angle n k) * Real.cos ((m + 1 : Nat) * angle n k)) := by
    apply Finset.sum_nonneg
    intro m _
    exact mul_nonneg (by split <;> norm_num) (mul_self_nonneg _)
  simp at h1 ⊢
  linarith

theorem cardinal_degree (n k : Nat) : (cardinal n k).natDegree ≤ n := by
  unfold cardinal
  refine natDegree_sum_le_of_forall_le _ _ fun m hm => ?_
  refine natDegree_mul_le.trans ?_
  rw [natDegree_C, zero_add, Chebyshev.natDegree_T]
  have := Finset.mem_range.1 hm
  simp; omega

/-- Integral of the Chebyshev polynomial of degree `m` from `-1` to `1`. -/
noncomputable def chebInt (m : Nat) : ℝ := if m % 2 = 1 then 0 else 2 / (1 - (m : ℝ) ^ 2)

theorem exists_antiT (m : Nat) : ∃ R : ℝ[X], derivative R = Chebyshev.T ℝ m ∧ R.eval 1 - R.eval (-1) = chebInt m := by
  match m with
  | 0 => exact ⟨X, by simp, by norm_num [chebInt]⟩
  | 1 => exact ⟨C (1 / 2) * X ^ 2, by
    have : (C (1 / 2) : ℝ[X]) * 2 = 1 := by rw [← C_ofNat, ← C_mul]; norm_num
    rw [derivative_C_mul, derivative_X_pow]
    simp only [Nat.cast_ofNat, C_ofNat, Nat.add_one_sub_one, pow_one, Nat.cast_one, Chebyshev.T_one]
    rw [← mul_assoc, this, one_mul], by norm_num [chebInt]⟩
  | m + 2 =>
    refine ⟨C (1 / (2 * ((m : ℝ) + 3))) * Chebyshev.T ℝ (m + 3 : ℕ) -
      C (1 / (2 * ((m : ℝ) + 1))) * Chebyshev.T ℝ (m + 1 : ℕ), ?_, ?_⟩
    · rw [derivative_sub, derivative_mul, derivative_mul, derivative_C, derivative_C, Chebyshev.T_derivative_eq_U,
        Chebyshev.T_derivative_eq_U]
      have h := Chebyshev.two_mul_T_eq_U_sub_U ℝ (m : ℤ)
      have e1 : (((m + 3 : ℕ) : ℤ) - 1) = (m : ℤ) + 2 := by push_cast; ring
      have e2 : (((m + 1 : ℕ) : ℤ) - 1) = (m : ℤ) := by push_cast; ring
      rw [e1, e2]
      have c1 : (C (1 / (2 * ((m : ℝ) + 3))) : ℝ[X]) * (((m + 3 : ℕ) : ℤ) : ℝ[X]) = C (1 / 2) := by
        rw [← C_eq_intCast, ← C_mul]; congr 1; push_cast; field_simp
      have c2 : (C (1 / (2 * ((m : ℝ) + 1))) : ℝ[X]) * (((m + 1 : ℕ) : ℤ) : ℝ[X]) = C (1 / 2) := by
        rw [← C_eq_intCast, ← C_mul]; congr 1; push_cast; field_simp
      rw [zero_mul, zero_mul, zero_add, zero_add, ← mul_assoc, ← mul_assoc, c1, c2, ← mul_sub, ← h, ← mul_assoc]
      have : (C (1 / 2) : ℝ[X]) * 2 = 1 := by rw [← C_ofNat, ← C_mul]; norm_num
      rw [this, one_mul]
      push_cast
      rfl
    · simp only [eval_sub, eval_mul, eval_C, Chebyshev.T_eval_one, Chebyshev.T_eval_neg_one]
      unfold chebInt
      by_cases h : (m + 2) % 2 = 1
      · have o1 : Even ((m + 3 : ℕ) : ℤ) := by exact_mod_cast (show Even (m + 3) by rw [Nat.even_iff]; omega)
        have o2 : Even ((m + 1 : ℕ) : ℤ) := by exact_mod_cast (show Even (m + 1) by rw [Nat.even_iff]; omega)
        rw [if_pos h, Int.negOnePow_even _ o1, Int.negOnePow_even _ o2]
        simp
      · have o1 : Odd ((m + 3 : ℕ) : ℤ) := by exact_mod_cast (show Odd (m + 3) by rw [Nat.odd_iff]; omega)
        have o2 : Odd ((m + 1 : ℕ) : ℤ) := by exact_mod_cast (show Odd (m + 1) by rw [Nat.odd_iff]; omega)
        rw [if_neg h, Int.negOnePow_odd _ o1, Int.negOnePow_odd _ o2]
        have h1 : (1 : ℝ) - ((m + 2 : ℕ) : ℝ) ^ 2 = -((m + 1) * (m + 3)) := by push_cast; ring
        rw [h1]
        have : (m : ℝ) + 1 ≠ 0 := by positivity
        have : (m : ℝ) + 3 ≠ 0 := by positivity
        push_cast
        field_simp
        simp
        ring

theorem chebInt_sum (l : Nat) : ∑ m ∈ Finset.range (2 * l), |chebInt (m + 1)| = 1 - 1 / (2 * l + 1) := by
  induction l with
  | zero => simp
  | succ l ih =>
    rw [show 2 * (l + 1) = 2 * l + 1 + 1 by ring, Finset.sum_range_succ, Finset.sum_range_succ, ih]
    have h1 : chebInt (2 * l + 1) = 0 := if_pos (by omega)
    have h2 : |chebInt (2 * l + 1 + 1)| = 2 / ((2 * l + 1) * (2 * l + 3)) := by
      unfold chebInt
      rw [if_neg (by omega), abs_div, abs_two, show (1 : ℝ) - ((2 * l + 1 + 1 : ℕ) : ℝ) ^ 2 = -((2 * l + 1) * (2 * l + 3)) by
        push_cast; ring, abs_neg, abs_of_nonneg (by positivity)]
    rw [h1, h2]
    push_cast
    have : 2 * (l : ℝ) + 1 ≠ 0 := by positivity
    have : 2 * (l : ℝ) + 3 ≠ 0 := by positivity
    rw [abs_zero, show 2 * ((l : ℝ) + 1) + 1 = 2 * l + 3 by ring]
    field_simp
    ring

theorem chebInt_sum_lt (n : Nat) : ∑ m ∈ Finset.range n, |chebInt (m + 1)| < 1 := by
  have h : ∑ m ∈ Finset.range n, |chebInt (m + 1)| ≤ ∑ m ∈ Finset.range (2 * n), |chebInt (m + 1)| :=
    Finset.sum_le_sum_of_subset_of_nonneg (fun m hm => by simp at hm ⊢; omega) fun _ _ _ => abs_nonneg _
  rw [chebInt_sum] at h
  have : (0 : ℝ) < 1 / (2 * n + 1) := by positivity
  linarith

/-- The cardinal polynomials have positive integrals. -/
theorem cardinal_integral (n k : Nat) :
    ∃ R : ℝ[X], derivative R = cardinal n k ∧ 0 < R.eval 1 - R.eval (-1) := by
  choose A hA hI using exists_antiT
  refine ⟨∑ m ∈ Finset.range (n + 1), C ((if m = 0 ∨ m = n then 1 / 2 else 1) * Real.cos (m * angle n k)) * A m, ?_, ?_⟩
  · rw [derivative_sum]
    unfold cardinal
    apply Finset.sum_congr rfl
    intro m _
    rw [derivative_C_mul, hA]
  · rw [eval_finsetSum, eval_finsetSum, ← Finset.sum_sub_distrib]
    have e : ∀ m, (C ((if m = 0 ∨ m = n then (1 : ℝ) / 2 else 1) * Real.cos (m * angle n k)) * A m).eval 1 -
        (C ((if m = 0 ∨ m = n then (1 : ℝ) / 2 else 1) * Real.cos (m * angle n k)) * A m).eval (-1) =
        (if m = 0 ∨ m = n then (1 : ℝ) / 2 else 1) * Real.cos (m * angle n k) * chebInt m := by
      intro m
      rw [eval_mul, eval_mul, eval_C, eval_C, ← mul_sub, hI]
    simp only [e]
    rw [Finset.sum_range_succ']
    have h1 : ∑ m ∈ Finset.range n, -|chebInt (m + 1)| ≤ ∑ m ∈ Finset.range n,
        (if m + 1 = 0 ∨ m + 1 = n then (1 : ℝ) / 2 else 1) * Real.cos ((m + 1 : ℕ) * angle n k) * chebInt (m + 1) := by
      apply Finset.sum_le_sum
      intro m _
      refine le_trans (neg_le_neg ?_) (neg_abs_le _)
      rw [abs_mul]
      refine mul_le_of_le_one_left (abs_nonneg _) ?_
      rw [abs_mul]
      refine mul_le_one₀ ?_ (abs_nonneg _) (Real.abs_cos_le_one _)
      split <;> norm_num
    rw [Finset.sum_neg_distrib] at h1
    have h2 := chebInt_sum_lt n
    have h3 : (if (0 : ℕ) = 0 ∨ 0 = n then (1 : ℝ) / 2 else 1) * Real.cos ((0 : ℕ) * angle n k) * chebInt 0 = 1 := by
      norm_num [chebInt]
    rw [h3]
    linarith

/-- **C74** The quadrature weights of CGL are positive, for all orders. -/
theorem C74_cgl (lib : NodeLib ℝ) (hc : IsCosine lib) (m : Method) (lo hi : ℝ) (h : lo < hi) (d : Nat) (hd : 1 ≤ d) :
    ∃ r, tausFn lib lo hi "CGL" d = .ok r ∧ (quadWeights m r lo hi).length = d + 1 ∧
      ∀ x ∈ quadWeights m r lo hi, 0 < x := by
  obtain ⟨r, hr, hspan⟩ := C01_cgl_nodes lib hc lo hi h d hd
  have hd0 : d ≠ 0 := by omega
  have hr' : r = (((List.range (d + 1)).map fun j => lib.cosPi j d).reverse).map (rescale lo hi) := by
    have : tausFn lib lo hi "CGL" d = cglRoots lib lo hi d := rfl
    rw [this, cglRoots, if_neg hd0] at hr
    exact (Except.ok.inj hr).symm
  have hlen : (quadWeights m r lo hi).length = r.length := length_quadWeights _ _ _ _
  refine ⟨r, hr, by rw [hlen, hspan.length], fun x hx => ?_⟩
  obtain ⟨i, hi', rfl⟩ := List.getElem_of_mem hx
  have hir : i < r.length := by omega
  have hid : i ≤ d := by have := hspan.length; omega
  -- the nodes
  have hnode : ∀ j (hj : j < r.length), r[j] = rescale lo hi (Real.cos (angle d (d - j))) := by
    intro j hj
    subst hr'
    simp only [List.getElem_map, List.getElem_reverse, List.length_map, List.length_range, List.getElem_range,
      angle, hc _ _]
    congr 4
  have hh : (hi - lo) ≠ 0 := (sub_pos.2 h).ne'
  let aff : ℝ[X] := C (2 / (hi - lo)) * (Polynomial.X - C lo) - 1
  have haff : ∀ v, aff.eval (rescale lo hi v) = v := by
    intro v
    simp only [aff, rescale, eval_sub, eval_mul, eval_C, eval_X, eval_one]
    field_simp
    ring
  have hlo : aff.eval lo = -1 := by simp [aff]
  have hhi : aff.eval hi = 1 := by
    simp only [aff, eval_sub, eval_mul, eval_C, eval_X, eval_one]
    field_simp
    ring
  obtain ⟨R, hR, hpos⟩ := cardinal_integral d (d - i)
  let Q : ℝ[X] := C ((hi - lo) / 2) * R.comp aff
  have hQ : derivative Q = (cardinal d (d - i)).comp aff := by
    simp only [Q, derivative_C_mul, derivative_comp, hR]
    have : derivative aff = C (2 / (hi - lo)) := by simp [aff]
    rw [this, ← mul_assoc, ← C_mul]
    have : (hi - lo) / 2 * (2 / (hi - lo)) = 1 := by field_simp
    rw [this, C_1, one_mul]
  have hdeg : (derivative Q).natDegree ≤ d := by
    rw [hQ]
    refine natDegree_comp_le.trans ?_
    have h1 : aff.natDegree ≤ 1 := by
      have : aff = C (2 / (hi - lo)) * Polynomial.X + C (-(2 / (hi - lo) * lo) - 1) := by
        simp only [aff, C_sub, C_neg, C_mul, C_1]; ring
      rw [this]; exact natDegree_linear_le
    have := cardinal_degree d (d - i)
    nlinarith
  have key := C05_quadrature_exact m r (hspan.sorted.imp fun h => h.ne) d hspan.length lo hi Q hdeg
    (fun j => (derivative Q).eval (r.getD j 0)) (fun j hj => by rw [List.getD_eq_getElem _ _ hj])
  have hval : weightedSum (quadWeights m r lo hi) (fun j => (derivative Q).eval (r.getD j 0)) =
      (quadWeights m r lo hi)[i] * (cardinal d (d - i)).eval (Real.cos (angle d (d - i))) := by
    unfold weightedSum
    rw [Finset.sum_eq_single i]
    · beta_reduce
      rw [List.getD_eq_getElem _ _ hi', List.getD_eq_getElem _ _ hir, hnode i hir, hQ, eval_comp, haff]
    · intro j hj hji
      have hj : j < r.length := by rw [← hlen]; simpa using hj
      have hjd : j ≤ d := by have := hspan.length; omega
      beta_reduce
      rw [List.getD_eq_getElem r _ hj, hnode j hj, hQ, eval_comp, haff, cardinal_eval hd,
        halfSum_angles hd (by omega) (by omega) (by omega), mul_zero]
    · intro hh; exact absurd (Finset.mem_range.2 hi') hh
  rw [hval] at key
  have hP : 0 < Q.eval hi - Q.eval lo := by
    simp only [Q, eval_mul, eval_C, eval_comp, hlo, hhi]
    rw [← mul_sub]
    exact mul_pos (div_pos (sub_pos.2 h) two_pos) hpos
  rw [← key] at hP
  exact pos_of_mul_pos_left hP (cardinal_pos hd _).le

/-! ### Composite rules -/

/-- Nodes that span the interval, with positive weights. -/
def PositiveRule (m : Method) (lo hi : ℝ) (taus : Nat → Py (List ℝ)) (orders : List Nat) : Prop :=
  ∀ p ∈ orders, ∃ r, taus p = .ok r ∧ NodesSpan lo hi p r ∧ ∀ x ∈ quadWeights m r lo hi, 0 < x

theorem cgl_positive (lib : NodeLib ℝ) (hc : IsCosine lib) (m : Method) {lo hi : ℝ} (h : lo < hi) {orders : List Nat}
    (hord : ∀ p ∈ orders, 1 ≤ p) : PositiveRule m lo hi (tausFn lib lo hi "CGL") orders := by
  intro p hp
  obtain ⟨r, hr, hs⟩ := C01_cgl_nodes lib hc lo hi h p (hord p hp)
  obtain ⟨r', hr', -, hw⟩ := C74_cgl lib hc m lo hi h p (hord p hp)
  rw [hr] at hr'; cases hr'
  exact ⟨r, hr, hs, hw⟩

theorem lgl_positive (lib : NodeLib ℝ) (m : Method) {lo hi : ℝ} (h : lo < hi) {orders : List Nat}
    (hord : ∀ p ∈ orders, 2 ≤ p) (hj : ∀ p ∈ orders, IsJacobiRoots 1 1 (p - 1) (lib.jroots (p - 1) 1 1)) :
    PositiveRule m lo hi (tausFn lib lo hi "LGL") orders := by
  intro p hp
  obtain ⟨r, hr, hs⟩ := C01_lgl_nodes lib lo hi h p (by have := hord p hp; omega) (fun _ => hj p hp)
  obtain ⟨r', hr', hw⟩ := C67_lgl lib m lo hi h p (hord p hp) (hj p hp)
  rw [hr] at hr'; cases hr'
  exact ⟨r, hr, hs, hw⟩

variable {m : Method} {lo hi : ℝ} {taus : Nat → Py (List ℝ)} {orders : List Nat}

theorem PositiveRule.choose (h : PositiveRule m lo hi taus orders) : ∃ R : Nat → List ℝ,
    GoodNodes ⟨m, lo, hi, taus⟩ orders R ∧ (∀ p ∈ orders, NodesSpan lo hi p (R p)) ∧
      ∀ p ∈ orders, ∀ x ∈ quadWeights m (R p) lo hi, 0 < x := by
  classical
  have : ∀ p, ∃ r, p ∈ orders → taus p = .ok r ∧ NodesSpan lo hi p r ∧ ∀ x ∈ quadWeights m r lo hi, 0 < x := by
    intro p
    by_cases hp : p ∈ orders
    · obtain ⟨r, hr⟩ := h p hp; exact ⟨r, fun _ => hr⟩
    · exact ⟨[], fun hh => absurd hh hp⟩
  choose R hR using this
  exact ⟨R, fun p hp => ⟨(hR p hp).1, (hR p hp).2.1.length, (hR p hp).2.1.sorted.imp fun h => h.ne⟩,
    fun p hp => (hR p hp).2.1, fun p hp => (hR p hp).2.2⟩

/-- **C74** All composite weights are positive, one per node of the mesh. -/
theorem C74_composite_positive (h : PositiveRule m lo hi taus orders) {W : List ℝ}
    (hW : compQuadWeights ⟨m, lo, hi, taus⟩ orders = .ok W) : W.length = orders.sum + 1 ∧ ∀ x ∈ W, 0 < x := by
  obtain ⟨R, hR, hspan, hpos⟩ := h.choose
  unfold compQuadWeights at hW
  rw [mapM_ok _ (fun p => quadWeights m (R p) lo hi) orders fun p hp => by
    rw [(hR p hp).1, py_bind_ok]; rfl, py_bind_ok] at hW
  cases orders with
  | nil => cases hW
  | cons p l =>
    have hlen : ∀ q ∈ p :: l, (quadWeights m (R q) lo hi).length = q + 1 := fun q hq => by
      rw [length_quadWeights, (hspan q hq).length]
    cases hw : quadWeights m (R p) lo hi with
    | nil => have := hlen p (by simp); rw [hw] at this; cases this
    | cons w0 ws =>
      have hl := hlen p (by simp)
      rw [hw, List.length_cons] at hl
      simp only [List.map_cons, hw, pyIdx, List.getElem?_cons_zero, py_bind_ok, py_pure_eq_ok] at hW
      subst hW
      refine ⟨?_, fun x hx => ?_⟩
      · simp only [List.length_cons, List.length_flatten, List.map_cons, List.map_map, List.drop_succ_cons,
          List.drop_zero, List.sum_cons]
        have : (l.map (List.length ∘ (fun x => List.drop 1 x) ∘ fun p => quadWeights m (R p) lo hi)) = l.map id :=
          List.map_congr_left fun q hq => by
            simp only [Function.comp, List.length_drop, hlen q (by simp [hq])]; rfl
        rw [this, List.map_id]; omega
      · rcases List.mem_cons.1 hx with rfl | hx
        · exact hpos p (by simp) _ (by rw [hw]; simp)
        · obtain ⟨y, hy, hxy⟩ := List.mem_flatten.1 hx
          simp only [List.map_map] at hy
          rcases List.mem_cons.1 hy with rfl | hy
          · exact hpos p (by simp) x (by rw [hw]; simp at hxy ⊢; exact Or.inr hxy)
          · obtain ⟨q, hq, rfl⟩ := List.mem_map.1 hy
            exact hpos q (by simp [hq]) x (List.mem_of_mem_drop hxy)

/-- **C74** What the composite rule leaves out has a sign: when the integrand is nowhere negative at the starts of the
later segments, and positive at one of them, the rule is too small, for pieces it would integrate exactly alone. -/
theorem C74_too_small (h : PositiveRule m lo hi taus orders) (hne : orders ≠ []) {Q : Nat → ℝ[X]} {R : Nat → List ℝ}
    (hR : ∀ p ∈ orders, taus p = .ok (R p)) (hQ : PieceDegrees orders fun s => derivative (Q s)) {hw v : Nat → ℝ}
    (hv : OwnedSamples orders R (fun s => derivative (Q s)) hw v)
    (hnn : ∀ s, 1 ≤ s → s < orders.length → 0 ≤ hw s * (derivative (Q s)).eval lo)
    (hex : ∃ s, 1 ≤ s ∧ s < orders.length ∧ 0 < hw s * (derivative (Q s)).eval lo) :
    ∃ W, compQuadWeights ⟨m, lo, hi, taus⟩ orders = .ok W ∧
      weightedSum W v < ∑ s ∈ Finset.range orders.length, hw s * ((Q s).eval hi - (Q s).eval lo) := by
  obtain ⟨R', hR', hspan, hpos⟩ := h.choose
  have hRR : ∀ p ∈ orders, R' p = R p := fun p hp => by
    have := (hR' p hp).1
    simp only [hR p hp] at this
    exact (Except.ok.inj this).symm
  have hG : GoodNodes ⟨m, lo, hi, taus⟩ orders R := fun p hp => by rw [← hRR p hp]; exact hR' p hp
  obtain ⟨W, hW, -, e⟩ := C07_composite_quadrature_defect ⟨m, lo, hi, taus⟩ orders hne R hG Q hQ hw v hv
  refine ⟨W, hW, ?_⟩
  rw [e]
  have hterm : ∀ s, s < orders.length → ∃ c, 0 < c ∧
      (quadWeights m (R (orders.getD s 0)) lo hi).getD 0 0 = c ∧ (R (orders.getD s 0)).getD 0 0 = lo := by
    intro s hs
    have hp : orders.getD s 0 ∈ orders := by rw [List.getD_eq_getElem _ _ hs]; exact List.getElem_mem _
    have hl := (hspan _ hp).length
    rw [hRR _ hp] at hl
    have h0 := (hspan _ hp).first
    rw [hRR _ hp, List.head?_eq_getElem?, List.getElem?_eq_getElem (by omega)] at h0
    have hlen : 0 < (quadWeights m (R (orders.getD s 0)) lo hi).length := by rw [length_quadWeights]; omega
    refine ⟨_, ?_, rfl, ?_⟩
    · rw [List.getD_eq_getElem _ _ hlen]
      exact hpos _ hp _ (by rw [hRR _ hp]; exact List.getElem_mem _)
    · rw [List.getD_eq_getElem _ _ (by omega)]; exact Option.some.inj h0
  have : 0 < ∑ s ∈ Finset.Ico 1 orders.length, hw s *
      ((quadWeights m (R (orders.getD s 0)) lo hi).getD 0 0 *
        (derivative (Q s)).eval ((R (orders.getD s 0)).getD 0 0)) := by
    obtain ⟨s0, a1, a2, a3⟩ := hex
    refine Finset.sum_pos' (fun s hs => ?_) ⟨s0, Finset.mem_Ico.2 ⟨a1, a2⟩, ?_⟩
    · obtain ⟨hs1, hs2⟩ := Finset.mem_Ico.1 hs
      obtain ⟨c, hc, e1, e2⟩ := hterm s hs2
      rw [e1, e2, mul_left_comm]
      exact mul_nonneg hc.le (hnn s hs1 hs2)
    · obtain ⟨c, hc, e1, e2⟩ := hterm s0 a2
      rw [e1, e2, mul_left_comm]
      exact mul_pos hc a3
  simp only at this ⊢
  linarith

/-- **C74** With more than one segment the weights never sum to the length of the interval times the number of segments:
even constant costs are integrated wrongly. -/
theorem C74_constant (h : PositiveRule m lo hi taus orders) (h2 : 2 ≤ orders.length) {W : List ℝ}
    (hW : compQuadWeights ⟨m, lo, hi, taus⟩ orders = .ok W) : W.sum < orders.length * (hi - lo) := by
  obtain ⟨R, hR, -, -⟩ := h.choose
  obtain ⟨W', hW', hlt⟩ := C74_too_small (Q := fun _ => Polynomial.X) (R := R) (hw := fun _ => 1) (v := fun _ => 1) h
    (by rintro rfl; simp at h2) (fun p hp => (hR p hp).1) (fun s hs => by simp) (fun s hs i hi _ => by simp)
    (fun s _ _ => by simp) ⟨1, le_rfl, by omega, by simp⟩
  rw [hW] at hW'
  cases hW'
  rw [sum_map_range_eq]
  simpa [weightedSum, mul_sub] using hlt

/-- **C74** So with CGL (or LGL) and several segments the time of a phase is underestimated when it is written as the
running cost 1, for every trajectory. -/
theorem C74_minimum_time {V : Type} {w : Outside ℝ V} {scheme : String} {n : Nat} {arg : OrdersArg} {M : Mesh ℝ}
    {ocp : OCP ℝ} {T : Traj ℝ} {ph : Nat} (hM : MeshFor w scheme n arg M)
    (hrule : PositiveRule w.method w.tau0 w.tau1 (tausFn w.lib w.tau0 w.tau1 scheme) M.orders)
    (hlt : w.tau0 < w.tau1) (h2 : 2 ≤ M.orders.length) (ht : T.t0 ph < T.tf ph) (hw : FullWidths M T ph)
    (hrc : ocp.runningCosts[ph]? = some fun _ => 1) {v : Nat → ℝ} (hv : RunningSamples ocp M T ph v) {W : List ℝ}
    (hW : compQuadWeights ⟨w.method, w.tau0, w.tau1, tausFn w.lib w.tau0 w.tau1 scheme⟩ M.orders = .ok W) :
    weightedSum W v < T.tf ph - T.t0 ph := by
  have hτ : M.tau0 < M.tau1 := by rw [hM.tau0, hM.tau1]; exact hlt
  have hpos : ∀ s < M.orders.length, 0 < M.halfWidth T ph s := fun s hs =>
    mul_pos (div_pos (sub_pos.2 ht) (sub_pos.2 hτ)) (hw.pos s hs)
  obtain ⟨W', hW', hless⟩ := C74_too_small (Q := fun _ => Polynomial.X) (R := M.nodes) (hw := M.halfWidth T ph) (v := v)
    hrule (by intro e; rw [e] at h2; simp at h2) hM.nodes (fun s hs => by simp) (fun s hs i hi ho => by
      have e := Mesh.order_eq (M := M) hs
      have := hv _ hrc s i ⟨hs, by rw [e]; exact hi, ho⟩
      simpa [Mesh.idx] using this)
    (fun s _ hs => by simpa using (hpos s hs).le) ⟨1, le_rfl, by omega, by simpa using hpos 1 (by omega)⟩
  rw [hW] at hW'
  cases hW'
  refine hless.trans_eq ?_
  simp only [eval_X]
  rw [← Finset.sum_mul]
  unfold Mesh.halfWidth
  rw [← Finset.mul_sum, hw.sum, mul_one, ← hM.tau0, ← hM.tau1]
  exact div_mul_cancel₀ _ (sub_pos.2 hτ).ne'

/-- The hypotheses are met: any orders, with exact nodes. -/
example : PositiveRule .numerical (-1) 1 (tausFn libR (-1) 1 "LGL") [2, 3] :=
  lgl_positive libR .numerical (by norm_num) (by decide) fun _ _ => libR_jacobi 1 1 _

/-- Two segments of CGL: the weights exist, are positive, and sum to less than 4. -/
example (p q : Nat) (hp : 1 ≤ p) (hq : 1 ≤ q) :
    ∃ W, compQuadWeights ⟨.numerical, -1, 1, tausFn libR (-1) 1 "CGL"⟩ [p, q] = .ok W ∧ W.length = p + q + 1 ∧
      (∀ x ∈ W, 0 < x) ∧ W.sum < 4 := by
  have h : PositiveRule .numerical (-1) 1 (tausFn libR (-1) 1 "CGL") [p, q] :=
    cgl_positive libR libR_cosine .numerical (by norm_num) (by simp [hp, hq])
  obtain ⟨R, hR, -, -⟩ := h.choose
  obtain ⟨W, hW, -⟩ := C07_composite_quadrature_defect ⟨.numerical, -1, 1, tausFn libR (-1) 1 "CGL"⟩ [p, q] (by simp) R hR
    (fun _ => 0) (fun s hs => by simp) (fun _ => 1) (fun _ => 0) (fun s hs i hi _ => by simp)
  obtain ⟨h1, h2⟩ := C74_composite_positive h hW
  have h3 := C74_constant h (by simp) hW
  refine ⟨W, hW, by simpa using h1, h2, ?_⟩
  norm_num at h3
  exact h3

end MPOpt
