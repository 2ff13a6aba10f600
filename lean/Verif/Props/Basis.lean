import Verif.Lemmas.Lagrange
import Verif.Spec.Linear

/-!
# C02, C03, C04, C05 (generic nodes), C09: one segment

Throughout, `roots` is any list of distinct nodes. Polynomials in statements are Mathlib's.
-/

set_option autoImplicit false

namespace MPOpt
open Polynomial
variable {K : Type} [Field K]

/-! ## C02 -/

/-- **C02** Basis polynomial `j` is 1 at node `j` and 0 at every other node. -/
theorem C02_basis_cardinal (m : Method) (roots : List K) (h : roots.Nodup) (i j : Nat)
    (hi : i < roots.length) (hj : j < (lagrangePolys m roots).length) :
    (lagrangePolys m roots)[j].eval roots[i] = if i = j then 1 else 0 := by
  have hj' : j < roots.length := by simpa [length_lagrangePolys] using hj
  rw [← eval_lbasis h hi hj', ← toPoly_lagrangePolys m roots hj' (.num []), Basis.eval_eq,
    List.getD_eq_getElem _ _ hj, nodeAt, List.getD_eq_getElem _ _ hi]

theorem sum_map_range_eq (l : List K) : l.sum = ∑ j ∈ Finset.range l.length, l.getD j 0 := by
  induction l with
  | nil => simp
  | cons a l ih => rw [List.sum_cons, List.length_cons, Finset.sum_range_succ', ih]; simp [add_comm]

/-- **C02** There is one basis polynomial per node and they sum to 1 at every point. -/
theorem C02_basis_sum_one (m : Method) (roots : List K) (h : roots.Nodup) (hne : roots ≠ [])
    (x : K) : (lagrangePolys m roots).length = roots.length ∧
      ((lagrangePolys m roots).map (·.eval x)).sum = 1 := by
  refine ⟨length_lagrangePolys m roots, ?_⟩
  have hpos : 0 < roots.length := List.length_pos_iff.2 hne
  have h1 := eq_sum_lbasis h (1 : K[X]) (by
    rw [degree_one]; exact_mod_cast hpos)
  have h2 := congrArg (Polynomial.eval x) h1
  simp only [eval_one, map_one, one_mul, eval_finsetSum] at h2
  rw [sum_map_range_eq, List.length_map, length_lagrangePolys]
  conv_rhs => rw [h2]
  apply Finset.sum_congr rfl
  intro j hj
  have hj : j < roots.length := by simpa using hj
  rw [← toPoly_lagrangePolys m roots hj (.num []), ← Basis.eval_eq,
    List.getD_eq_getElem _ _ (by simpa [length_lagrangePolys] using hj), List.getElem_map,
    List.getD_eq_getElem _ _ (by simpa [length_lagrangePolys] using hj)]

/-- The hypotheses of C02 hold for concrete nodes. -/
example : ([-1, 0, 1] : List ℚ).Nodup := by decide +kernel

/-! ## C03 -/

theorem rowDot_interp_eq (m : Method) (roots taus : List K) (k : Nat) (v : Nat → K) :
    (interpMatrix m roots taus).rowDot k v =
      (∑ j ∈ Finset.range roots.length, C (v j) * lbasis roots j).eval (taus.getD k 0) := by
  unfold Mat.rowDot interpMatrix
  rw [eval_finsetSum]
  apply Finset.sum_congr rfl
  intro j hj
  have hj : j < roots.length := by simpa using hj
  show ((lagrangePolys m roots).getD j (.num [])).eval (taus.getD k 0) * v j = _
  rw [Basis.eval_eq, toPoly_lagrangePolys m roots hj, eval_mul, eval_C, mul_comm]

/-- **C03** The interpolation matrix applied to samples of a polynomial of degree at most `d`
(`d + 1` nodes) returns the polynomial's values at the requested points. -/
theorem C03_interp_exact (m : Method) (roots taus : List K) (h : roots.Nodup) (d : Nat)
    (hd : roots.length = d + 1) (P : K[X]) (hP : P.natDegree ≤ d) (v : Nat → K)
    (hv : ∀ (j : Nat) (hj : j < roots.length), v j = P.eval roots[j])
    (k : Nat) (hk : k < taus.length) :
    (interpMatrix m roots taus).rows = taus.length ∧ (interpMatrix m roots taus).cols = roots.length ∧
    (interpMatrix m roots taus).rowDot k v = P.eval taus[k] := by
  refine ⟨rfl, rfl, ?_⟩
  have hdeg : P.degree < roots.length := by
    rw [hd]; exact lt_of_le_of_lt degree_le_natDegree (by exact_mod_cast Nat.lt_succ_of_le hP)
  rw [rowDot_interp_eq, List.getD_eq_getElem _ _ hk]
  conv_rhs => rw [eq_sum_lbasis h P hdeg]
  congr 1
  apply Finset.sum_congr rfl
  intro j hj
  have hj : j < roots.length := by simpa using hj
  rw [hv j hj, nodeAt, List.getD_eq_getElem _ _ hj]

/-- **C03** At a requested point equal to node `i` the result is sample `i`, for any samples. -/
theorem C03_interp_at_node (m : Method) (roots taus : List K) (h : roots.Nodup) (v : Nat → K)
    (k i : Nat) (hk : k < taus.length) (hi : i < roots.length) (heq : taus[k] = roots[i]) :
    (interpMatrix m roots taus).rowDot k v = v i := by
  rw [rowDot_interp_eq, List.getD_eq_getElem _ _ hk, heq, eval_finsetSum,
    Finset.sum_eq_single i]
  · have := eval_lbasis h hi hi
    rw [nodeAt, List.getD_eq_getElem _ _ hi] at this
    rw [eval_mul, this]; simp
  · intro j hj hji
    have hj : j < roots.length := by simpa using hj
    have := eval_lbasis h hi hj
    rw [nodeAt, List.getD_eq_getElem _ _ hi, if_neg (Ne.symm hji)] at this
    rw [eval_mul, this, mul_zero]
  · intro hn; exact absurd (by simpa using hi) hn

/-- Hypotheses are met by a cubic-free concrete case: samples of `X ^ 2` on three nodes. -/
example : ∃ (roots : List ℚ) (P : ℚ[X]), roots.Nodup ∧ roots.length = 2 + 1 ∧ P.natDegree ≤ 2 ∧
    P.eval (1/2) ≠ 0 := by
  refine ⟨[-1, 0, 1], X ^ 2, by decide +kernel, rfl, by simp, by norm_num⟩

/-! ## C04 -/

theorem diffMatrix_ok (m : Method) (roots taus : List K) (order : Nat) (ho : order = 1 ∨ order = 2) :
    ∃ D, diffMatrix m roots taus order = .ok D ∧ D.rows = taus.length ∧ D.cols = roots.length ∧
      ∀ i j, j < roots.length →
        D.e i j = (Polynomial.derivative^[order] (lbasis roots j)).eval (taus.getD i 0) := by
  unfold diffMatrix
  rw [if_pos (by rcases ho with h | h <;> simp [h])]
  refine ⟨_, rfl, rfl, length_lagrangePolys m roots, ?_⟩
  intro i j hj
  have ht := toPoly_lagrangePolys m roots hj (.num [])
  rcases ho with rfl | rfl
  · obtain ⟨q, hq, hq'⟩ := Basis.derivative_one ((lagrangePolys m roots).getD j (.num []))
    simp only [hq]
    rw [Basis.eval_eq, hq', ht]; rfl
  · obtain ⟨q, hq, hq'⟩ := Basis.derivative_two ((lagrangePolys m roots).getD j (.num []))
    simp only [hq]
    rw [Basis.eval_eq, hq', ht]; rfl

theorem iterate_derivative_combo (roots : List K) (v : Nat → K) (order : Nat) (x : K) :
    (Polynomial.derivative^[order]
      (∑ j ∈ Finset.range roots.length, C (v j) * lbasis roots j)).eval x =
    ∑ j ∈ Finset.range roots.length,
      (Polynomial.derivative^[order] (lbasis roots j)).eval x * v j := by
  rw [Polynomial.iterate_derivative_sum, eval_finsetSum]
  apply Finset.sum_congr rfl
  intro j _
  rw [Polynomial.iterate_derivative_C_mul, eval_mul, eval_C, mul_comm]

/-- **C04** First and second order differentiation matrices, at arbitrary points, applied to samples
of a polynomial of degree at most `d`, return its first / second derivative. -/
theorem C04_diff_exact (m : Method) (roots taus : List K) (h : roots.Nodup) (d : Nat)
    (hd : roots.length = d + 1) (order : Nat) (ho : order = 1 ∨ order = 2)
    (P : K[X]) (hP : P.natDegree ≤ d) (v : Nat → K)
    (hv : ∀ (j : Nat) (hj : j < roots.length), v j = P.eval roots[j]) :
    ∃ D, diffMatrix m roots taus order = .ok D ∧ D.rows = taus.length ∧ D.cols = d + 1 ∧
      ∀ (k : Nat) (hk : k < taus.length),
        D.rowDot k v = (Polynomial.derivative^[order] P).eval taus[k] := by
  obtain ⟨D, hD, hr, hc, he⟩ := diffMatrix_ok m roots taus order ho
  refine ⟨D, hD, hr, by rw [hc, hd], fun k hk => ?_⟩
  have hdeg : P.degree < roots.length := by
    rw [hd]; exact lt_of_le_of_lt degree_le_natDegree (by exact_mod_cast Nat.lt_succ_of_le hP)
  conv_rhs => rw [eq_sum_lbasis h P hdeg, iterate_derivative_combo]
  unfold Mat.rowDot
  rw [hc]
  apply Finset.sum_congr rfl
  intro j hj
  have hj : j < roots.length := by simpa using hj
  rw [he k j hj, hv j hj, nodeAt, List.getD_eq_getElem _ _ hj, List.getD_eq_getElem _ _ hk]

/-- **C04** Rows of both differentiation matrices sum to zero. -/
theorem C04_diff_rows_sum_zero (m : Method) (roots taus : List K) (h : roots.Nodup)
    (hne : roots ≠ []) (order : Nat) (ho : order = 1 ∨ order = 2) :
    ∃ D, diffMatrix m roots taus order = .ok D ∧
      ∀ k < taus.length, ∑ j ∈ Finset.range D.cols, D.e k j = 0 := by
  obtain ⟨d, hd⟩ : ∃ d, roots.length = d + 1 :=
    Nat.exists_eq_add_one.2 (List.length_pos_iff.2 hne)
  obtain ⟨D, hD, -, -, he⟩ := C04_diff_exact m roots taus h d hd order ho 1 (by simp) (fun _ => 1)
    (by simp)
  refine ⟨D, hD, fun k hk => ?_⟩
  have := he k hk
  unfold Mat.rowDot at this
  simp only [mul_one] at this
  rw [this]
  rcases ho with rfl | rfl <;> simp

/-- **C04** At the nodes, the second order matrix is the square of the first order one. -/
theorem C04_second_is_square (m : Method) (roots : List K) (h : roots.Nodup) :
    ∃ D D2, diffMatrix m roots roots 1 = .ok D ∧ diffMatrix m roots roots 2 = .ok D2 ∧
      ∀ i j, i < roots.length → j < roots.length →
        D2.e i j = ∑ k ∈ Finset.range roots.length, D.e i k * D.e k j := by
  obtain ⟨D, hD, -, hc, he⟩ := diffMatrix_ok m roots roots 1 (.inl rfl)
  obtain ⟨D2, hD2, -, hc2, he2⟩ := diffMatrix_ok m roots roots 2 (.inr rfl)
  refine ⟨D, D2, hD, hD2, fun i j hi hj => ?_⟩
  have hdeg : (Polynomial.derivative (lbasis roots j)).degree < roots.length := by
    have h1 := degree_lbasis h hj
    refine lt_of_le_of_lt degree_derivative_le ?_
    rw [h1]; exact_mod_cast (by omega)
  have h3 := eq_sum_lbasis h _ hdeg
  have h4 : (Polynomial.derivative^[1] (derivative (lbasis roots j))).eval (roots.getD i 0) =
      (Polynomial.derivative^[1] _).eval (roots.getD i 0) :=
    congrArg (fun p => (Polynomial.derivative^[1] p).eval (roots.getD i 0)) h3
  rw [iterate_derivative_combo] at h4
  rw [he2 i j hj]
  have h5 : Polynomial.derivative^[2] (lbasis roots j)
      = Polynomial.derivative^[1] (Polynomial.derivative (lbasis roots j)) := rfl
  rw [h5, h4]
  apply Finset.sum_congr rfl
  intro k hk
  have hk : k < roots.length := by simpa using hk
  rw [he i k hk, he k j hj]; rfl

/-- **C04** Any other order raises as soon as the matrix is non-empty. -/
theorem C04_other_order_raises (m : Method) (roots taus : List K) (order : Nat)
    (hr : roots ≠ []) (ht : taus ≠ []) (ho : order ≠ 1 ∧ order ≠ 2) :
    diffMatrix m roots taus order = .error .unboundLocal := by
  unfold diffMatrix
  rw [if_neg]
  simp [length_lagrangePolys, hr, ht, ho]

/-- Concrete case: the derivative matrix on nodes -1, 0, 1 applied to samples of `x^2`. -/
example : (diffMatrix .numerical ([-1, 0, 1] : List ℚ) [-1, 0, 1] 1).toOption.map
    (fun D => (List.range 3).map fun i => D.rowDot i (fun j => (([1, 0, 1] : List ℚ).getD j 0))) =
    some [-2, 0, 2] := by decide +kernel

/-! ## C05, arbitrary nodes -/

theorem length_quadWeights (m : Method) (roots : List K) (a b : K) :
    (quadWeights m roots a b).length = roots.length := by
  simp [quadWeights, length_lagrangePolys]

theorem getD_quadWeights [CharZero K] (m : Method) (roots : List K) (a b : K) {j : Nat}
    (hj : j < roots.length) : (quadWeights m roots a b).getD j 0 = polyIntegral (lbasis roots j) a b := by
  have hj' : j < (lagrangePolys m roots).length := by simpa [length_lagrangePolys] using hj
  rw [List.getD_eq_getElem _ _ (by simpa [length_quadWeights] using hj)]
  unfold quadWeights
  rw [List.getElem_map, Basis.integral_eq, ← toPoly_lagrangePolys m roots hj (.num []),
    List.getD_eq_getElem _ _ hj']

/-- **C05** Quadrature weights for `d + 1` distinct nodes integrate every polynomial of degree at
most `d` exactly over any interval. The integral is expressed through an antiderivative `Q`. -/
theorem C05_quadrature_exact [CharZero K] (m : Method) (roots : List K) (h : roots.Nodup) (d : Nat)
    (hd : roots.length = d + 1) (a b : K) (Q : K[X]) (hQ : (derivative Q).natDegree ≤ d)
    (v : Nat → K)
    (hv : ∀ (j : Nat) (hj : j < roots.length), v j = (derivative Q).eval roots[j]) :
    weightedSum (quadWeights m roots a b) v = Q.eval b - Q.eval a := by
  have hdeg : (derivative Q).degree < roots.length := by
    rw [hd]; exact lt_of_le_of_lt degree_le_natDegree (by exact_mod_cast Nat.lt_succ_of_le hQ)
  rw [← polyIntegral_derivative, eq_sum_lbasis h _ hdeg, polyIntegral_sum, weightedSum,
    length_quadWeights]
  apply Finset.sum_congr rfl
  intro j hj
  have hj : j < roots.length := by simpa using hj
  rw [polyIntegral_C_mul, getD_quadWeights m roots a b hj, hv j hj, nodeAt,
    List.getD_eq_getElem _ _ hj, mul_comm]

/-- **C05** Quadrature weights sum to the length of the interval. -/
theorem C05_weights_sum [CharZero K] (m : Method) (roots : List K) (h : roots.Nodup)
    (hne : roots ≠ []) (a b : K) :
    (quadWeights m roots a b).length = roots.length ∧ (quadWeights m roots a b).sum = b - a := by
  obtain ⟨d, hd⟩ : ∃ d, roots.length = d + 1 :=
    Nat.exists_eq_add_one.2 (List.length_pos_iff.2 hne)
  refine ⟨length_quadWeights m roots a b, ?_⟩
  have := C05_quadrature_exact m roots h d hd a b X (by simp) (fun _ => 1) (by simp)
  rw [sum_map_range_eq]
  simpa [weightedSum] using this

/-- Concrete case (Simpson's rule). -/
example : quadWeights .numerical ([-1, 0, 1] : List ℚ) (-1) 1 = [1/3, 4/3, 1/3] := by decide +kernel
example : quadWeights .symbolic ([-1, 0, 1] : List ℚ) (-1) 1 = [1/3, 4/3, 1/3] := by decide +kernel

/-! ## C09 -/

/-- **C09** Both matrix methods give the same interpolation matrix (same shape, same entries). -/
theorem C09_interp_agree (roots taus : List K) :
    let S := interpMatrix .symbolic roots taus
    let N := interpMatrix .numerical roots taus
    S.rows = N.rows ∧ S.cols = N.cols ∧ ∀ i < S.rows, ∀ j < S.cols, S.e i j = N.e i j := by
  refine ⟨rfl, rfl, fun i _ j hj => ?_⟩
  have hj : j < roots.length := hj
  simp only [interpMatrix]
  rw [Basis.eval_eq, Basis.eval_eq, toPoly_lagrangePolys _ _ hj, toPoly_lagrangePolys _ _ hj]

/-- **C09** Both matrix methods give the same differentiation matrices, or both raise. -/
theorem C09_diff_agree (roots taus : List K) (order : Nat) :
    (∃ S N, diffMatrix .symbolic roots taus order = .ok S ∧
      diffMatrix .numerical roots taus order = .ok N ∧ S.rows = N.rows ∧ S.cols = N.cols ∧
      ∀ i < S.rows, ∀ j < S.cols, S.e i j = N.e i j) ∨
    (∃ e, diffMatrix .symbolic roots taus order = .error e ∧
      diffMatrix .numerical roots taus order = .error e) := by
  by_cases ho : order = 1 ∨ order = 2
  · left
    obtain ⟨S, hS, hSr, hSc, hSe⟩ := diffMatrix_ok .symbolic roots taus order ho
    obtain ⟨N, hN, hNr, hNc, hNe⟩ := diffMatrix_ok .numerical roots taus order ho
    refine ⟨S, N, hS, hN, by rw [hSr, hNr], by rw [hSc, hNc], fun i _ j hj => ?_⟩
    rw [hSe i j (hSc ▸ hj), hNe i j (hSc ▸ hj)]
  · push Not at ho
    by_cases h : taus = [] ∨ roots = []
    · left
      have h' : ∀ m : Method, taus.length = 0 ∨ (lagrangePolys m roots).length = 0 ∨ order = 1 ∨
          order = 2 := by
        intro m; rw [length_lagrangePolys]; rcases h with h | h <;> simp [h]
      refine ⟨_, _, if_pos (h' _), if_pos (h' _), rfl, ?_, ?_⟩
      · simp [length_lagrangePolys]
      · intro i hi j hj
        simp only [length_lagrangePolys] at hi hj
        rcases h with h | h <;> simp [h] at hi hj
    · right
      push Not at h
      exact ⟨_, C04_other_order_raises _ _ _ _ h.2 h.1 ho, C04_other_order_raises _ _ _ _ h.2 h.1 ho⟩

/-- **C09** Both matrix methods give the same quadrature weights. -/
theorem C09_quad_agree [CharZero K] (roots : List K) (a b : K) :
    quadWeights .symbolic roots a b = quadWeights .numerical roots a b := by
  apply List.ext_getElem
  · simp [length_quadWeights]
  · intro j h1 h2
    have hj : j < roots.length := by simpa [length_quadWeights] using h1
    have a1 := getD_quadWeights .symbolic roots a b hj
    have a2 := getD_quadWeights .numerical roots a b hj
    rw [List.getD_eq_getElem _ _ h1] at a1
    rw [List.getD_eq_getElem _ _ h2] at a2
    rw [a1, a2]

/-- The agreement is about genuinely different computations. -/
example : (lagrangePolys .symbolic ([0, 1] : List ℚ)).length = 2 := rfl

end MPOpt
