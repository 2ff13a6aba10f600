import Mathlib.Analysis.SpecialFunctions.Integrals.Basic
import Mathlib.Analysis.Calculus.Deriv.Polynomial
import Mathlib.Topology.Algebra.Polynomial
import Verif.Lemmas.Gauss

set_option linter.unusedSectionVars false

/-! # C05: Gauss exactness of the LGR and LGL rules -/

set_option autoImplicit false

namespace MPOpt
open Polynomial
variable {K : Type} [Field K] [LinearOrder K] [IsStrictOrderedRing K]

theorem NodesSpan.nodup {lo hi : K} {d : Nat} {r : List K} (h : NodesSpan lo hi d r) : r.Nodup :=
  h.sorted.imp fun hab => ne_of_lt hab

/-- Degree of a product with a linear factor. -/
theorem degree_linear_mul_lt {q : K[X]} {n : Nat} (hq : q.degree < n) :
    ((1 + X) * q).degree < ((n + 1 : Nat) : WithBot ℕ) := by
  by_cases hq0 : q = 0
  · simp only [hq0, mul_zero, degree_zero]; exact WithBot.bot_lt_coe _
  · have h1 := (natDegree_lt_iff_degree_lt hq0).2 hq
    refine lt_of_le_of_lt degree_le_natDegree ?_
    have h2 : ((1 + X) * q).natDegree ≤ 1 + q.natDegree :=
      natDegree_mul_le.trans (Nat.add_le_add_right
        ((natDegree_add_le _ _).trans (max_le (by simp) natDegree_X_le)) _)
    exact_mod_cast (by omega)

/-- **C05** LGR nodes, `d ≥ 2`: exact for degrees up to `2d - 2` over the whole segment. -/
theorem C05_lgr_gauss (lib : NodeLib K) (m : Method) (lo hi : K) (h : lo < hi) (d : Nat) (hd : 2 ≤ d)
    (hj : IsJacobiRoots 1 0 (d - 1) (lib.jroots (d - 1) 1 0)) (Q : K[X])
    (hQ : (derivative Q).natDegree ≤ 2 * d - 2) :
    ∃ r, tausFn lib lo hi "LGR" d = .ok r ∧ ∀ v : Nat → K,
      (∀ (j : Nat) (hj : j < r.length), v j = (derivative Q).eval r[j]) →
      weightedSum (quadWeights m r lo hi) v = Q.eval hi - Q.eval lo := by
  obtain ⟨r, hr, hspan⟩ := C01_lgr_nodes lib lo hi h d (by omega) (fun _ => hj)
  have hr' : r = ((-1) :: lib.jroots (d - 1) 1 0 ++ [1]).map (rescale lo hi) := by
    have h1 : 1 < d := hd
    simp only [tausFn, lgrRoots, h1, if_true] at hr
    simpa using hr.symm
  refine ⟨r, hr, fun v hv => ?_⟩
  have horth : ∀ q : K[X], q.degree < ((d - 2 : Nat) : WithBot ℕ) →
      polyIntegral (nodalPoly r * q) lo hi = 0 := by
    rw [hr']
    apply orth_rescale
    intro q hq
    rw [nodalPoly_ends]
    have := hj.orthogonal ((-(1 + X)) * q) (by
      rw [neg_mul, degree_neg]
      have := degree_linear_mul_lt hq
      rwa [show d - 2 + 1 = d - 1 by omega] at this)
    rw [← this]
    congr 1
    unfold nodalPoly; ring
  rw [← polyIntegral_derivative, ← gauss_exact m hspan.nodup (d - 2) lo hi horth _ ?_]
  · apply weightedSum_congr
    intro j hj
    rw [length_quadWeights] at hj
    rw [hv j hj, nodeAt, List.getD_eq_getElem _ _ hj]
  · rw [hspan.length]
    refine lt_of_le_of_lt degree_le_natDegree ?_
    exact_mod_cast (by omega)

/-- **C05** LGL nodes: exact for degrees up to `2d - 1` over the whole segment. -/
theorem C05_lgl_gauss (lib : NodeLib K) (m : Method) (lo hi : K) (h : lo < hi) (d : Nat) (hd : 2 ≤ d)
    (hj : IsJacobiRoots 1 1 (d - 1) (lib.jroots (d - 1) 1 1)) (Q : K[X])
    (hQ : (derivative Q).natDegree ≤ 2 * d - 1) :
    ∃ r, tausFn lib lo hi "LGL" d = .ok r ∧ ∀ v : Nat → K,
      (∀ (j : Nat) (hj : j < r.length), v j = (derivative Q).eval r[j]) →
      weightedSum (quadWeights m r lo hi) v = Q.eval hi - Q.eval lo := by
  obtain ⟨r, hr, hspan⟩ := C01_lgl_nodes lib lo hi h d (by omega) (fun _ => hj)
  have hr' : r = ((-1) :: lib.jroots (d - 1) 1 1 ++ [1]).map (rescale lo hi) := by
    have h1 : 1 < d := hd
    simp only [tausFn, lglRoots, h1, if_true] at hr
    simpa using hr.symm
  refine ⟨r, hr, fun v hv => ?_⟩
  have horth : ∀ q : K[X], q.degree < ((d - 1 : Nat) : WithBot ℕ) →
      polyIntegral (nodalPoly r * q) lo hi = 0 := by
    rw [hr']
    apply orth_rescale
    intro q hq
    rw [nodalPoly_ends]
    have := hj.orthogonal (-q) (by rwa [degree_neg])
    rw [← this]
    congr 1
    unfold nodalPoly; ring
  rw [← polyIntegral_derivative, ← gauss_exact m hspan.nodup (d - 1) lo hi horth _ ?_]
  · apply weightedSum_congr
    intro j hj
    rw [length_quadWeights] at hj
    rw [hv j hj, nodeAt, List.getD_eq_getElem _ _ hj]
  · rw [hspan.length]
    refine lt_of_le_of_lt degree_le_natDegree ?_
    exact_mod_cast (by omega)

/-- **C05** For LGR with `d ≥ 2` the weight of the left end point is zero. -/
theorem C05_lgr_first_weight_zero (lib : NodeLib K) (m : Method) (lo hi : K) (h : lo < hi) (d : Nat)
    (hd : 2 ≤ d) (hj : IsJacobiRoots 1 0 (d - 1) (lib.jroots (d - 1) 1 0)) :
    ∃ r, tausFn lib lo hi "LGR" d = .ok r ∧ (quadWeights m r lo hi).head? = some 0 := by
  obtain ⟨r, hr, hspan⟩ := C01_lgr_nodes lib lo hi h d (by omega) (fun _ => hj)
  have hr' : r = ((-1) :: lib.jroots (d - 1) 1 0 ++ [1]).map (rescale lo hi) := by
    have h1 : 1 < d := hd
    simp only [tausFn, lgrRoots, h1, if_true] at hr
    simpa using hr.symm
  refine ⟨r, hr, ?_⟩
  -- the polynomial vanishing at every node but the first
  set s := (lib.jroots (d - 1) 1 0 ++ [1]).map (rescale lo hi) with hs
  have hrs : r = lo :: s := by rw [hr', hs]; simp [rescale_neg_one]
  have hls : s.length = d := by have := hspan.length; rw [hrs] at this; simpa using this
  have hI : polyIntegral (nodalPoly s) lo hi = 0 := by
    rw [polyIntegral_rescale, hs, nodalPoly_comp, polyIntegral_C_mul]
    have := hj.orthogonal (-1) (by
      rw [degree_neg, degree_one]; exact_mod_cast (by omega : 0 < d - 1))
    have e : nodalPoly (lib.jroots (d - 1) 1 0 ++ [1]) = (1 - X) ^ 1 * (1 + X) ^ 0 *
        ((lib.jroots (d - 1) 1 0).map fun x => X - C x).prod * (-1) := by
      simp [nodalPoly]; ring
    rw [e, this, mul_zero, mul_zero]
  have hW := weightedSum_eq_polyIntegral m hspan.nodup (nodalPoly s) (by
    rw [degree_eq_natDegree (nodalPoly_monic s).ne_zero, natDegree_nodalPoly, hls, hspan.length]
    exact_mod_cast Nat.lt_succ_self d) lo hi
  rw [hI, weightedSum, length_quadWeights, hspan.length, Finset.sum_range_succ'] at hW
  have hz : ∀ j ∈ Finset.range d, (quadWeights m r lo hi).getD (j + 1) 0 *
      (nodalPoly s).eval (nodeAt r (j + 1)) = 0 := by
    intro j hj
    have hj : j < s.length := by rw [hls]; simpa using hj
    rw [hrs, nodeAt, List.getD_cons_succ, List.getD_eq_getElem _ _ hj,
      eval_nodalPoly (List.getElem_mem hj), mul_zero]
  rw [Finset.sum_eq_zero hz, zero_add] at hW
  have hne : (nodalPoly s).eval (nodeAt r 0) ≠ 0 := by
    have hlt : ∀ x ∈ s, lo < x := by
      have := hspan.sorted
      rw [hrs, List.pairwise_cons] at this
      exact this.1
    have : nodeAt r 0 = lo := by simp [hrs, nodeAt]
    rw [this]
    clear_value s
    clear hW hz hI hls hrs hs
    induction s with
    | nil => simp [nodalPoly]
    | cons x xs ih =>
      have h' : nodalPoly (x :: xs) = (X - C x) * nodalPoly xs := by simp [nodalPoly]
      rw [h', eval_mul]
      refine mul_ne_zero ?_ (ih fun y hy => hlt y (List.mem_cons_of_mem _ hy))
      have := hlt x (by simp)
      simp [sub_eq_zero, this.ne]
  have h0 := (mul_eq_zero.1 hW).resolve_right hne
  have hlen : 0 < (quadWeights m r lo hi).length := by rw [length_quadWeights, hspan.length]; omega
  rw [List.getD_eq_getElem _ _ hlen] at h0
  rw [List.head?_eq_getElem?, List.getElem?_eq_getElem hlen, h0]

/-- The Gauss hypotheses hold concretely (`d = 2`, node -1/3). -/
example : IsJacobiRoots 1 0 (2 - 1) (libQ.jroots (2 - 1) 1 0) := libQ_lgr2

/-- Concrete LGR rule of degree 2: the first weight is zero, the rule is exact for `x^2`. -/
example : quadWeights .numerical ([-1, -1/3, 1] : List ℚ) (-1) 1 = [0, 3/2, 1/2] := by decide +kernel

/-- Over ℝ, `polyIntegral` is the interval integral, so the statements above are about `∫`. -/
theorem polyIntegral_eq_intervalIntegral (P : ℝ[X]) (a b : ℝ) :
    polyIntegral P a b = ∫ x in a..b, P.eval x := by
  obtain ⟨Q, rfl, -⟩ := exists_antiderivative P
  rw [polyIntegral_derivative]
  symm
  apply intervalIntegral.integral_eq_sub_of_hasDerivAt
  · intro x _; exact Q.hasDerivAt x
  · exact (derivative Q).continuous.intervalIntegrable _ _

/-- **C05** over ℝ with Mathlib's interval integral. -/
theorem C05_quadrature_integral (m : Method) (roots : List ℝ) (h : roots.Nodup) (d : Nat)
    (hd : roots.length = d + 1) (a b : ℝ) (P : ℝ[X]) (hP : P.natDegree ≤ d) :
    ((quadWeights m roots a b).zipWith (fun w x => w * P.eval x) roots).sum =
      ∫ x in a..b, P.eval x := by
  rw [← polyIntegral_eq_intervalIntegral, ← weightedSum_eq_polyIntegral m h P (by
    rw [hd]; exact lt_of_le_of_lt degree_le_natDegree (by exact_mod_cast Nat.lt_succ_of_le hP)),
    sum_map_range_eq]
  unfold weightedSum
  rw [List.length_zipWith, length_quadWeights, min_self]
  apply Finset.sum_congr rfl
  intro j hj
  have hj : j < roots.length := by simpa using hj
  have hj' : j < (quadWeights m roots a b).length := by simpa [length_quadWeights] using hj
  rw [List.getD_eq_getElem _ _ (by simp [length_quadWeights, hj]), List.getElem_zipWith,
    List.getD_eq_getElem _ _ hj']
  simp only [nodeAt]
  rw [List.getD_eq_getElem _ _ hj]

end MPOpt
