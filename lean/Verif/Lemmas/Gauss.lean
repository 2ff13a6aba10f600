import Mathlib.Algebra.Polynomial.Div
import Mathlib.Algebra.Polynomial.Monic
import Mathlib.Tactic.LinearCombination
import Verif.Props.Basis
import Verif.Props.Nodes

/-! # Quadrature exactness from orthogonality of the nodal polynomial -/

set_option autoImplicit false

namespace MPOpt
open Polynomial
variable {K : Type} [Field K]

/-- Monic polynomial with the given roots. -/
noncomputable def nodalPoly (roots : List K) : K[X] := (roots.map fun x => X - C x).prod

theorem nodalPoly_monic (roots : List K) : (nodalPoly roots).Monic := by
  induction roots with
  | nil => simp [nodalPoly]
  | cons x xs ih =>
    have h : nodalPoly (x :: xs) = (X - C x) * nodalPoly xs := by simp [nodalPoly]
    rw [h]; exact (monic_X_sub_C x).mul ih

theorem natDegree_nodalPoly (roots : List K) : (nodalPoly roots).natDegree = roots.length := by
  induction roots with
  | nil => simp [nodalPoly]
  | cons x xs ih =>
    have h : nodalPoly (x :: xs) = (X - C x) * nodalPoly xs := by simp [nodalPoly]
    rw [h, (monic_X_sub_C x).natDegree_mul (nodalPoly_monic xs), ih, natDegree_X_sub_C]
    simp [add_comm]

theorem eval_nodalPoly {roots : List K} {x : K} (h : x ∈ roots) : (nodalPoly roots).eval x = 0 := by
  induction roots with
  | nil => simp at h
  | cons y ys ih =>
    have h' : nodalPoly (y :: ys) = (X - C y) * nodalPoly ys := by simp [nodalPoly]
    rw [h', eval_mul]
    rcases List.mem_cons.1 h with rfl | h
    · simp
    · rw [ih h, mul_zero]

theorem weightedSum_eq_polyIntegral [CharZero K] (m : Method) {roots : List K} (h : roots.Nodup)
    (P : K[X]) (hP : P.degree < roots.length) (a b : K) :
    weightedSum (quadWeights m roots a b) (fun j => P.eval (nodeAt roots j)) = polyIntegral P a b := by
  conv_rhs => rw [eq_sum_lbasis h _ hP, polyIntegral_sum]
  rw [weightedSum, length_quadWeights]
  apply Finset.sum_congr rfl
  intro j hj
  have hj : j < roots.length := by simpa using hj
  rw [polyIntegral_C_mul, getD_quadWeights m roots a b hj, mul_comm]

theorem weightedSum_congr {w : List K} {u v : Nat → K} (h : ∀ j < w.length, u j = v j) :
    weightedSum w u = weightedSum w v := by
  unfold weightedSum
  apply Finset.sum_congr rfl
  intro j hj
  rw [h j (by simpa using hj)]

theorem gauss_exact [CharZero K] (meth : Method) {roots : List K} (h : roots.Nodup) (m : Nat)
    (a b : K) (horth : ∀ q : K[X], q.degree < m → polyIntegral (nodalPoly roots * q) a b = 0)
    (P : K[X]) (hP : P.degree < ((roots.length + m : Nat) : WithBot ℕ)) :
    weightedSum (quadWeights meth roots a b) (fun j => P.eval (nodeAt roots j))
      = polyIntegral P a b := by
  have hm := nodalPoly_monic roots
  have hdiv := modByMonic_add_div P (nodalPoly roots)
  have hr : (P %ₘ nodalPoly roots).degree < roots.length := by
    rw [← natDegree_nodalPoly, ← degree_eq_natDegree hm.ne_zero]
    exact degree_modByMonic_lt P hm
  have hq : (P /ₘ nodalPoly roots).degree < m := by
    by_cases hq0 : P /ₘ nodalPoly roots = 0
    · rw [hq0, degree_zero]; exact WithBot.bot_lt_coe m
    · have hP0 : P ≠ 0 := by rintro rfl; simp at hq0
      rw [← natDegree_lt_iff_degree_lt hq0, natDegree_divByMonic _ hm, natDegree_nodalPoly]
      have h1 := (natDegree_lt_iff_degree_lt hP0).2 hP
      have h2 : ¬ P.degree < (nodalPoly roots).degree := fun h =>
        hq0 ((divByMonic_eq_zero_iff hm).2 h)
      have h3 : roots.length ≤ P.natDegree := by
        rw [← natDegree_nodalPoly roots]
        exact natDegree_le_natDegree (not_lt.1 h2)
      omega
  have hI : polyIntegral P a b = polyIntegral (P %ₘ nodalPoly roots) a b := by
    conv_lhs => rw [← hdiv]
    rw [polyIntegral_add, horth _ hq, add_zero]
  rw [hI, ← weightedSum_eq_polyIntegral meth h _ hr]
  apply weightedSum_congr
  intro j hj
  rw [length_quadWeights] at hj
  conv_lhs => rw [← hdiv]
  rw [eval_add, eval_mul, eval_nodalPoly, zero_mul, add_zero]
  rw [nodeAt, List.getD_eq_getElem _ _ hj]
  exact List.getElem_mem hj

/-- Change of variable to the reference interval. -/
theorem polyIntegral_rescale [CharZero K] (P : K[X]) (lo hi : K) :
    polyIntegral P lo hi = (hi - lo) / 2 *
      polyIntegral (P.comp (C lo + C ((hi - lo) / 2) * (X + 1))) (-1) 1 := by
  obtain ⟨Q, rfl, -⟩ := exists_antiderivative P
  have h2 : (2 : K) ≠ 0 := two_ne_zero
  have hd : C ((hi - lo) / 2) * (derivative Q).comp (C lo + C ((hi - lo) / 2) * (X + 1)) =
      derivative (Q.comp (C lo + C ((hi - lo) / 2) * (X + 1))) := by
    rw [derivative_comp]; simp
  rw [← polyIntegral_C_mul, hd, polyIntegral_derivative, polyIntegral_derivative]
  simp only [eval_comp, eval_add, eval_mul, eval_C, eval_X, eval_one]
  congr 2
  · field_simp; ring
  · ring

theorem nodalPoly_comp (r : List K) (lo hi : K) :
    (nodalPoly (r.map (rescale lo hi))).comp (C lo + C ((hi - lo) / 2) * (X + 1)) =
      C (((hi - lo) / 2) ^ r.length) * nodalPoly r := by
  induction r with
  | nil => simp [nodalPoly]
  | cons x xs ih =>
    have h : ∀ l : List K, ∀ y, nodalPoly (y :: l) = (X - C y) * nodalPoly l := by
      intro l y; simp [nodalPoly]
    rw [List.map_cons, h, h, mul_comp, ih, List.length_cons, pow_succ, C_mul]
    rw [sub_comp, X_comp, C_comp]
    simp only [rescale, C_add, C_mul, C_1]
    ring

/-- Orthogonality transported to `[lo, hi]`. -/
theorem orth_rescale [CharZero K] (lo hi : K) (r : List K) (m : Nat)
    (h : ∀ q : K[X], q.degree < m → polyIntegral (nodalPoly r * q) (-1) 1 = 0)
    (q : K[X]) (hq : q.degree < m) :
    polyIntegral (nodalPoly (r.map (rescale lo hi)) * q) lo hi = 0 := by
  rw [polyIntegral_rescale, mul_comp, nodalPoly_comp, mul_assoc, polyIntegral_C_mul]
  rw [h, mul_zero, mul_zero]
  refine lt_of_le_of_lt ?_ hq
  by_cases hq0 : q = 0
  · simp [hq0]
  · refine degree_le_of_natDegree_le (natDegree_comp_le.trans ?_) |>.trans
      (degree_eq_natDegree hq0).ge
    have : (C lo + C ((hi - lo) / 2) * (X + 1) : K[X]).natDegree ≤ 1 := by
      refine (natDegree_add_le _ _).trans (max_le (by simp) ?_)
      refine (natDegree_C_mul_le _ _).trans ?_
      exact (natDegree_add_le _ _).trans (max_le natDegree_X_le (by simp))
    calc _ ≤ q.natDegree * 1 := Nat.mul_le_mul_left _ this
      _ = _ := mul_one _

theorem nodalPoly_ends (r : List K) :
    nodalPoly ((-1) :: r ++ [1]) = -((1 - X) * (1 + X) * nodalPoly r) := by
  simp [nodalPoly]; ring

end MPOpt
