import Mathlib.LinearAlgebra.Lagrange
import Mathlib.Tactic.Ring
import Mathlib.Data.List.GetD
import Mathlib.Tactic.FieldSimp
import Verif.Model.Collocation
import Verif.Lemmas.Poly

/-! # The model's Lagrange basis is Mathlib's -/

set_option autoImplicit false

namespace MPOpt
open Polynomial
variable {K : Type} [Field K]

/-- Polynomial denoted by a basis element. -/
noncomputable def Basis.toPoly : Basis K → K[X]
  | .sym e => e.toPoly
  | .num c => MPOpt.toPoly c

theorem Basis.eval_eq (p : Basis K) (x : K) : p.eval x = p.toPoly.eval x := by
  cases p with
  | sym e => exact e.eval_eq x
  | num c => exact polyval_eq c x

theorem Basis.derivative_one (p : Basis K) :
    ∃ q, p.derivative 1 = some q ∧ q.toPoly = Polynomial.derivative p.toPoly := by
  cases p with
  | sym e => exact ⟨_, rfl, e.toPoly_gradient⟩
  | num c => exact ⟨_, rfl, toPoly_polyder c⟩

theorem Basis.derivative_two (p : Basis K) :
    ∃ q, p.derivative 2 = some q ∧
      q.toPoly = Polynomial.derivative (Polynomial.derivative p.toPoly) := by
  cases p with
  | sym e =>
    refine ⟨_, rfl, ?_⟩
    simp [Basis.toPoly, Expr.toPoly_gradient]
  | num c =>
    refine ⟨_, rfl, ?_⟩
    simp [Basis.toPoly, toPoly_polyder]

theorem Basis.integral_eq [CharZero K] (p : Basis K) (a b : K) :
    p.integral a b = polyIntegral p.toPoly a b := by
  cases p with
  | sym e => exact e.integrate_eq a b
  | num c => exact polyint_integral c a b

/-- Node `i` of a list of nodes. -/
def nodeAt (roots : List K) (i : Nat) : K := roots.getD i 0

theorem nodeAt_injOn {roots : List K} (h : roots.Nodup) :
    Set.InjOn (nodeAt roots) (Finset.range roots.length) := by
  intro i hi j hj hij
  simp only [Finset.coe_range, Set.mem_Iio] at hi hj
  simp only [nodeAt, List.getD_eq_getElem _ _ hi, List.getD_eq_getElem _ _ hj] at hij
  exact (List.Nodup.getElem_inj_iff h).1 hij

/-- Mathlib's Lagrange basis on a list of nodes. -/
noncomputable def lbasis (roots : List K) (j : Nat) : K[X] :=
  Lagrange.basis (Finset.range roots.length) (nodeAt roots) j

theorem foldl_sym (roots : List K) (j : Nat) (l : List Nat) (e : Expr K) :
    (l.foldl (fun p i => if i ≠ j then
      p.mul (.divc (.sub .t (.const (roots.getD i 0))) (roots.getD j 0 - roots.getD i 0)) else p) e).toPoly
    = e.toPoly * ((l.filter (· ≠ j)).map fun i =>
        Lagrange.basisDivisor (nodeAt roots j) (nodeAt roots i)).prod := by
  induction l generalizing e with
  | nil => simp
  | cons i l ih =>
    rw [List.foldl_cons, ih]
    by_cases h : i = j
    · simp [h]
    · simp [h, Expr.toPoly, Lagrange.basisDivisor, nodeAt]; ring

theorem foldl_num (roots : List K) (j : Nat) (l : List Nat) (e : List K) :
    toPoly (l.foldl (fun p i => if i ≠ j then
      polymul p ([1, -(roots.getD i 0)].map (· / (roots.getD j 0 - roots.getD i 0))) else p) e)
    = toPoly e * ((l.filter (· ≠ j)).map fun i =>
        Lagrange.basisDivisor (nodeAt roots j) (nodeAt roots i)).prod := by
  induction l generalizing e with
  | nil => simp
  | cons i l ih =>
    rw [List.foldl_cons, ih]
    by_cases h : i = j
    · simp [h]
    · rw [if_pos h, toPoly_polymul _ _ (by simp), toPoly_map_div]
      simp [h, toPoly, Lagrange.basisDivisor, nodeAt]; ring

theorem prod_filter_range (n j : Nat) (f : Nat → K[X]) :
    (((List.range n).filter (· ≠ j)).map f).prod = ∏ i ∈ (Finset.range n).erase j, f i := by
  have h : (Finset.range n).erase j = ((List.range n).filter (· ≠ j)).toFinset := by
    ext i; simp [and_comm]
  rw [h, List.prod_toFinset _ (List.nodup_range.filter _)]

theorem length_lagrangePolys (m : Method) (roots : List K) :
    (lagrangePolys m roots).length = roots.length := by simp [lagrangePolys]

theorem toPoly_lagrangePolys (m : Method) (roots : List K) {j : Nat} (hj : j < roots.length)
    (d : Basis K) : ((lagrangePolys m roots).getD j d).toPoly = lbasis roots j := by
  rw [List.getD_eq_getElem _ _ (by simpa [length_lagrangePolys] using hj)]
  unfold lagrangePolys
  rw [List.getElem_map, List.getElem_range]
  cases m with
  | symbolic =>
    simp only [Basis.toPoly]
    rw [foldl_sym, prod_filter_range, lbasis, Lagrange.basis]
    simp [Expr.toPoly]
  | numerical =>
    simp only [Basis.toPoly]
    rw [foldl_num, prod_filter_range, lbasis, Lagrange.basis]
    simp [toPoly]

/-! ## Interpolation -/

/-- A polynomial of degree below the number of nodes is the combination of the basis with its node
values. -/
theorem eq_sum_lbasis {roots : List K} (h : roots.Nodup) (P : K[X]) (hP : P.degree < roots.length) :
    P = ∑ j ∈ Finset.range roots.length, C (P.eval (nodeAt roots j)) * lbasis roots j := by
  have := Lagrange.eq_interpolate (nodeAt_injOn h) (by simpa using hP)
  rw [Lagrange.interpolate_apply] at this
  exact this

theorem eval_lbasis {roots : List K} (h : roots.Nodup) {i j : Nat} (hi : i < roots.length)
    (hj : j < roots.length) : (lbasis roots j).eval (nodeAt roots i) = if i = j then 1 else 0 := by
  by_cases hij : i = j
  · subst hij
    rw [if_pos rfl]
    exact Lagrange.eval_basis_self (nodeAt_injOn h) (by simpa using hi)
  · rw [if_neg hij]
    exact Lagrange.eval_basis_of_ne (Ne.symm hij) (by simpa using hi)

theorem degree_lbasis {roots : List K} (h : roots.Nodup) {j : Nat} (hj : j < roots.length) :
    (lbasis roots j).degree = ((roots.length - 1 : Nat) : WithBot ℕ) := by
  have := Lagrange.degree_basis (nodeAt_injOn h) (i := j) (by simpa using hj)
  simpa [lbasis] using this

end MPOpt
