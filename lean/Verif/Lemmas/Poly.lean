import Mathlib.Algebra.Polynomial.Derivative
import Mathlib.Algebra.Polynomial.BigOperators
import Mathlib.Algebra.Polynomial.Eval.Degree
import Mathlib.Algebra.CharP.Defs
import Mathlib.Algebra.CharZero.Defs
import Mathlib.Tactic.Ring
import Mathlib.Tactic.FieldSimp
import Verif.Model.Poly
import Verif.Spec.Integral

/-! # Coefficient lists and expressions denote polynomials -/

set_option autoImplicit false

namespace MPOpt
open Polynomial
variable {K : Type} [Field K]

/-- Polynomial denoted by a `poly1d` coefficient list (highest power first). -/
noncomputable def toPoly : List K → K[X]
  | [] => 0
  | c :: cs => C c * X ^ cs.length + toPoly cs

theorem foldl_horner (l : List K) (x y : K) :
    l.foldl (fun y c => y * x + c) y = y * x ^ l.length + (toPoly l).eval x := by
  induction l generalizing y with
  | nil => simp [toPoly]
  | cons c cs ih => simp [toPoly, ih]; ring

theorem polyval_eq (l : List K) (x : K) : polyval l x = (toPoly l).eval x := by
  simp [polyval, foldl_horner]

theorem toPoly_map_mul (a : K) (l : List K) : toPoly (l.map (a * ·)) = C a * toPoly l := by
  induction l with
  | nil => simp [toPoly]
  | cons c cs ih => simp [toPoly, ih]; ring

theorem toPoly_map_div (l : List K) (a : K) : toPoly (l.map (· / a)) = C a⁻¹ * toPoly l := by
  rw [← toPoly_map_mul]; congr 1; apply List.map_congr_left; intro x _; field_simp

theorem toPoly_append_zeros (l : List K) (n : Nat) :
    toPoly (l ++ List.replicate n 0) = toPoly l * X ^ n := by
  induction l with
  | nil =>
    simp only [List.nil_append, toPoly, zero_mul]
    induction n with
    | zero => simp [toPoly]
    | succ n ih => simp [List.replicate_succ, toPoly, ih]
  | cons c cs ih => simp [toPoly, ih]; ring

theorem toPoly_zipWith_add (a b : List K) (h : a.length = b.length) :
    toPoly (List.zipWith (· + ·) a b) = toPoly a + toPoly b := by
  induction a generalizing b with
  | nil => cases b <;> simp_all [toPoly]
  | cons x xs ih =>
    cases b with
    | nil => simp at h
    | cons y ys =>
      simp only [List.length_cons, Nat.add_right_cancel_iff] at h
      simp [toPoly, ih ys h, h]; ring

theorem length_polymul (a b : List K) (ha : a ≠ []) (hb : b ≠ []) :
    (polymul a b).length = a.length + b.length - 1 := by
  induction a with
  | nil => exact absurd rfl ha
  | cons x xs ih =>
    cases xs with
    | nil => simp [polymul]
    | cons x' xs =>
      have := ih (by simp)
      have hb' : 0 < b.length := List.length_pos_iff.2 hb
      simp [polymul, this] at *
      omega

theorem toPoly_polymul (a b : List K) (hb : b ≠ []) : toPoly (polymul a b) = toPoly a * toPoly b := by
  induction a with
  | nil => simp [polymul, toPoly]
  | cons x xs ih =>
    cases xs with
    | nil => simp [polymul, toPoly, toPoly_map_mul]
    | cons x' xs =>
      have hl := length_polymul (x' :: xs) b (by simp) hb
      have hb' : 0 < b.length := List.length_pos_iff.2 hb
      rw [polymul, toPoly_zipWith_add, toPoly_append_zeros, toPoly_map_mul]
      · rw [toPoly, ih]; simp only [toPoly, List.length_cons, map_zero, zero_mul, zero_add]; ring
      · simp [hl]; omega

theorem toPoly_polyder (l : List K) : toPoly (polyder l) = derivative (toPoly l) := by
  induction l with
  | nil => simp [polyder, toPoly]
  | cons c cs ih =>
    cases cs with
    | nil => simp [polyder, toPoly]
    | cons c' cs =>
      have hlen : (polyder (c' :: cs)).length = cs.length := by
        clear ih
        induction cs generalizing c' with
        | nil => simp [polyder]
        | cons d ds ih => simp [polyder, ih]
      rw [polyder, toPoly, ih, hlen, toPoly.eq_def (c :: c' :: cs)]
      simp only [derivative_add, derivative_mul, derivative_C, zero_mul, zero_add,
        derivative_X_pow, List.length_cons, Nat.add_sub_cancel]
      simp only [map_mul, map_natCast]
      ring

theorem length_polyint (l : List K) : (polyint l).length = l.length + 1 := by
  induction l with
  | nil => simp [polyint]
  | cons c cs ih => simp [polyint, ih]

theorem derivative_toPoly_polyint [CharZero K] (l : List K) :
    derivative (toPoly (polyint l)) = toPoly l := by
  induction l with
  | nil => simp [polyint, toPoly]
  | cons c cs ih =>
    rw [polyint, toPoly, derivative_add, ih, length_polyint, toPoly]
    simp only [derivative_mul, derivative_C, zero_mul, zero_add, derivative_X_pow,
      Nat.add_sub_cancel]
    have h : ((cs.length + 1 : Nat) : K) ≠ 0 := Nat.cast_ne_zero.2 (Nat.succ_ne_zero cs.length)
    rw [← mul_assoc, ← C_mul, div_mul_cancel₀ _ h]

/-! ## Integral -/

theorem polyIntegral_add (p q : K[X]) (a b : K) :
    polyIntegral (p + q) a b = polyIntegral p a b + polyIntegral q a b := by
  unfold polyIntegral
  apply sum_add_index
  · intro i; simp
  · intro i x y; ring

theorem polyIntegral_C_mul (c : K) (p : K[X]) (a b : K) :
    polyIntegral (C c * p) a b = c * polyIntegral p a b := by
  unfold polyIntegral
  rw [← smul_eq_C_mul, sum_smul_index _ _ _ (by simp), Polynomial.sum, Polynomial.sum,
    Finset.mul_sum]
  apply Finset.sum_congr rfl
  intro i _; ring

theorem polyIntegral_monomial (n : Nat) (c a b : K) :
    polyIntegral (monomial n c) a b = c * (b ^ (n + 1) - a ^ (n + 1)) / ((n + 1 : Nat) : K) := by
  unfold polyIntegral
  rw [sum_monomial_index]; simp

/-- Fundamental theorem of calculus for polynomials. -/
theorem polyIntegral_derivative [CharZero K] (Q : K[X]) (a b : K) :
    polyIntegral (derivative Q) a b = Q.eval b - Q.eval a := by
  induction Q using Polynomial.induction_on' with
  | add p q hp hq => rw [derivative_add, polyIntegral_add, hp, hq, eval_add, eval_add]; ring
  | monomial n c =>
    rw [derivative_monomial, polyIntegral_monomial, eval_monomial, eval_monomial]
    cases n with
    | zero => simp
    | succ n =>
      have h : ((n + 1 : Nat) : K) ≠ 0 := Nat.cast_ne_zero.2 (Nat.succ_ne_zero n)
      simp only [Nat.add_sub_cancel]
      field_simp

theorem polyIntegral_zero (a b : K) : polyIntegral (0 : K[X]) a b = 0 := by
  simp [polyIntegral]

theorem polyIntegral_sum {ι : Type} (s : Finset ι) (f : ι → K[X]) (a b : K) :
    polyIntegral (∑ i ∈ s, f i) a b = ∑ i ∈ s, polyIntegral (f i) a b := by
  classical
  induction s using Finset.induction_on with
  | empty => simp [polyIntegral_zero]
  | insert i s hi ih => rw [Finset.sum_insert hi, Finset.sum_insert hi, polyIntegral_add, ih]

/-- Every polynomial is a derivative. -/
theorem exists_antiderivative [CharZero K] (p : K[X]) :
    ∃ Q : K[X], derivative Q = p ∧ Q.natDegree ≤ p.natDegree + 1 := by
  refine ⟨∑ i ∈ Finset.range (p.natDegree + 1), monomial (i + 1) (p.coeff i / ((i + 1 : Nat) : K)), ?_, ?_⟩
  · rw [derivative_sum]
    conv_rhs => rw [p.as_sum_range]
    apply Finset.sum_congr rfl
    intro i _
    have h : ((i + 1 : Nat) : K) ≠ 0 := Nat.cast_ne_zero.2 (Nat.succ_ne_zero i)
    rw [derivative_monomial, div_mul_cancel₀ _ h, Nat.add_sub_cancel]
  · refine natDegree_sum_le_of_forall_le _ _ fun i hi => ?_
    exact (natDegree_monomial_le _).trans (by simp at hi; omega)

theorem natDegree_lt_of_degree_lt {p : K[X]} {n : Nat} (hn : 0 < n) (h : p.degree < n) :
    p.natDegree < n := by
  by_cases hp : p = 0
  · simpa [hp] using hn
  · exact (natDegree_lt_iff_degree_lt hp).2 h

/-! ## Expressions -/

/-- Polynomial denoted by a CasADi expression in the scalar symbol `t`. -/
noncomputable def Expr.toPoly : Expr K → K[X]
  | .const c => C c
  | .t => X
  | .add a b => a.toPoly + b.toPoly
  | .sub a b => a.toPoly - b.toPoly
  | .mul a b => a.toPoly * b.toPoly
  | .divc a c => C c⁻¹ * a.toPoly

theorem Expr.eval_eq (e : Expr K) (x : K) : e.eval x = e.toPoly.eval x := by
  induction e <;> simp_all [Expr.eval, Expr.toPoly]
  field_simp

theorem Expr.toPoly_gradient (e : Expr K) : e.gradient.toPoly = derivative e.toPoly := by
  induction e <;> simp_all [Expr.gradient, Expr.toPoly]

/-- Polynomial with coefficient list `l`, lowest power first. -/
noncomputable def lowPoly : List K → K[X]
  | [] => 0
  | c :: cs => C c + X * lowPoly cs

theorem lowPoly_addL (a b : List K) : lowPoly (Expr.addL a b) = lowPoly a + lowPoly b := by
  induction a generalizing b with
  | nil => simp [Expr.addL, lowPoly]
  | cons x xs ih =>
    cases b with
    | nil => simp [Expr.addL, lowPoly]
    | cons y ys => simp [Expr.addL, lowPoly, ih]; ring

theorem lowPoly_map_mul (a : K) (l : List K) : lowPoly (l.map (a * ·)) = C a * lowPoly l := by
  induction l with
  | nil => simp [lowPoly]
  | cons c cs ih => simp [lowPoly, ih]; ring

theorem lowPoly_mulL (a b : List K) : lowPoly (Expr.mulL a b) = lowPoly a * lowPoly b := by
  induction a with
  | nil => simp [Expr.mulL, lowPoly]
  | cons x xs ih => simp [Expr.mulL, lowPoly, ih, lowPoly_addL, lowPoly_map_mul]; ring

theorem lowPoly_coeffs (e : Expr K) : lowPoly e.coeffs = e.toPoly := by
  induction e with
  | const c => simp [Expr.coeffs, Expr.toPoly, lowPoly]
  | t => simp [Expr.coeffs, Expr.toPoly, lowPoly]
  | add a b ha hb => simp [Expr.coeffs, Expr.toPoly, lowPoly_addL, ha, hb]
  | sub a b ha hb =>
    have : (b.coeffs.map fun c => -c) = b.coeffs.map ((-1 : K) * ·) := by simp
    rw [Expr.coeffs, lowPoly_addL, this, lowPoly_map_mul, ha, hb, Expr.toPoly]
    simp; ring
  | mul a b ha hb => simp [Expr.coeffs, Expr.toPoly, lowPoly_mulL, ha, hb]
  | divc a c ha =>
    have : a.coeffs.map (· / c) = a.coeffs.map (c⁻¹ * ·) := by
      apply List.map_congr_left; intro x _; field_simp
    rw [Expr.coeffs, this, lowPoly_map_mul, ha, Expr.toPoly]

theorem integrate_lowPoly (l : List K) (k : Nat) (a b : K) :
    ((l.zipIdx k).map fun ci =>
      ci.1 * (b ^ (ci.2 + 1) - a ^ (ci.2 + 1)) / ((ci.2 + 1 : Nat) : K)).sum =
      polyIntegral (X ^ k * lowPoly l) a b := by
  induction l generalizing k with
  | nil => simp [lowPoly, polyIntegral_zero]
  | cons c cs ih =>
    have h : X ^ k * lowPoly (c :: cs) = monomial k c + X ^ (k + 1) * lowPoly cs := by
      rw [lowPoly, ← C_mul_X_pow_eq_monomial]; ring
    rw [h, polyIntegral_add, polyIntegral_monomial, List.zipIdx_cons, List.map_cons, List.sum_cons,
      ih]

theorem Expr.integrate_eq (e : Expr K) (a b : K) :
    e.integrate a b = polyIntegral e.toPoly a b := by
  have := integrate_lowPoly e.coeffs 0 a b
  rw [pow_zero, one_mul, lowPoly_coeffs] at this
  exact this

theorem polyint_integral [CharZero K] (c : List K) (a b : K) :
    polyval (polyint c) b - polyval (polyint c) a = polyIntegral (toPoly c) a b := by
  rw [polyval_eq, polyval_eq, ← polyIntegral_derivative, derivative_toPoly_polyint]

end MPOpt
