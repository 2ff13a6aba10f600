import Verif.Props.Gauss
import Mathlib.Analysis.Calculus.LocalExtr.Rolle
import Mathlib.Analysis.Calculus.Deriv.Polynomial
import Mathlib.MeasureTheory.Integral.IntervalIntegral.FundThmCalculus

/-!
# The contract of `scipy.special.j_roots` over the reals

`IsJacobiRoots` is met by exactly one list of numbers, for all parameters and all `n`. So the theorems that assume it
for every order used are about something.
-/

set_option autoImplicit false

namespace MPOpt
open Polynomial

/-- Rolle, for all gaps between zeros of a polynomial. -/
theorem rolle_list (P : ℝ[X]) (l : List ℝ) : ∀ a : ℝ, (a :: l).Pairwise (· < ·) →
    (∀ x ∈ a :: l, P.eval x = 0) → ∃ l' : List ℝ, l'.length = l.length ∧ l'.Pairwise (· < ·) ∧
      (∀ y ∈ l', a < y ∧ (derivative P).eval y = 0) ∧ ∀ y ∈ l', ∃ x ∈ l, y < x := by
  induction l with
  | nil => intro a _ _; exact ⟨[], rfl, List.Pairwise.nil, by simp, by simp⟩
  | cons b l ih =>
    intro a hs hz
    have hab : a < b := (List.pairwise_cons.1 hs).1 b (by simp)
    obtain ⟨l', h1, h2, h3, h4⟩ := ih b (List.pairwise_cons.1 hs).2 fun x hx => hz x (List.mem_cons_of_mem _ hx)
    obtain ⟨y, hy, hd⟩ := exists_hasDerivAt_eq_zero (f := fun x => P.eval x) (f' := fun x => (derivative P).eval x) hab
      P.continuous.continuousOn (by rw [hz a (by simp), hz b (by simp)]) fun x _ => P.hasDerivAt x
    refine ⟨y :: l', by simp [h1], List.pairwise_cons.2 ⟨fun z hz => hy.2.trans (h3 z hz).1, h2⟩, ?_, ?_⟩
    · intro z hz
      rcases List.mem_cons.1 hz with rfl | hz
      · exact ⟨hy.1, hd⟩
      · exact ⟨hab.trans (h3 z hz).1, (h3 z hz).2⟩
    · intro z hz
      rcases List.mem_cons.1 hz with rfl | hz
      · exact ⟨b, by simp, hy.2⟩
      · obtain ⟨x, hx, hlt⟩ := h4 z hz
        exact ⟨x, List.mem_cons_of_mem _ hx, hlt⟩

/-- Integration by parts. -/
theorem polyIntegral_parts (g q : ℝ[X]) (a b : ℝ) (ha : g.eval a = 0) (hb : g.eval b = 0) :
    polyIntegral (derivative g * q) a b = - polyIntegral (g * derivative q) a b := by
  have := polyIntegral_derivative (g * q) a b
  rw [derivative_mul, polyIntegral_add, eval_mul, eval_mul, ha, hb] at this
  linarith

theorem polyIntegral_parts_iterate (f : ℝ[X]) (a b : ℝ) (n : Nat)
    (h : ∀ k < n, (derivative^[k] f).eval a = 0 ∧ (derivative^[k] f).eval b = 0) : ∀ q : ℝ[X],
    polyIntegral (derivative^[n] f * q) a b = (-1) ^ n * polyIntegral (f * derivative^[n] q) a b := by
  induction n with
  | zero => intro q; simp
  | succ n ih =>
    intro q
    rw [Function.iterate_succ_apply', polyIntegral_parts _ _ _ _ (h n (by omega)).1 (h n (by omega)).2,
      ih (fun k hk => h k (by omega)), ← Function.iterate_succ_apply, pow_succ]
    ring

/-- Rodrigues: `(1-x)^(α+n) (1+x)^(β+n)`. -/
noncomputable def rodrigues (α β n : Nat) : ℝ[X] := (1 - X) ^ (α + n) * (1 + X) ^ (β + n)

theorem rodrigues_dvd (α β n k : Nat) :
    (1 - X : ℝ[X]) ^ (α + n - k) ∣ derivative^[k] (rodrigues α β n) ∧
      (1 + X : ℝ[X]) ^ (β + n - k) ∣ derivative^[k] (rodrigues α β n) :=
  ⟨pow_sub_dvd_iterate_derivative_of_pow_dvd k (Dvd.intro _ rfl),
    pow_sub_dvd_iterate_derivative_of_pow_dvd k (Dvd.intro_left _ rfl)⟩

theorem rodrigues_ends (α β n k : Nat) (hk : k < n) :
    (derivative^[k] (rodrigues α β n)).eval (-1) = 0 ∧ (derivative^[k] (rodrigues α β n)).eval 1 = 0 := by
  obtain ⟨⟨A, hA⟩, ⟨B, hB⟩⟩ := rodrigues_dvd α β n k
  constructor
  · rw [hB, eval_mul, eval_pow, eval_add, eval_one, eval_X, add_neg_cancel, zero_pow (by omega), zero_mul]
  · rw [hA, eval_mul, eval_pow, eval_sub, eval_one, eval_X, sub_self, zero_pow (by omega), zero_mul]

/-- The `k`-th derivative has `k` zeros inside. -/
theorem rodrigues_zeros (α β n k : Nat) (hk : k ≤ n) : ∃ r : List ℝ, r.length = k ∧ r.Pairwise (· < ·) ∧
    ∀ x ∈ r, (-1 < x ∧ x < 1) ∧ (derivative^[k] (rodrigues α β n)).eval x = 0 := by
  induction k with
  | zero => exact ⟨[], rfl, List.Pairwise.nil, by simp⟩
  | succ k ih =>
    obtain ⟨r, h1, h2, h3⟩ := ih (by omega)
    obtain ⟨e0, e1⟩ := rodrigues_ends α β n k (by omega)
    obtain ⟨l, g1, g2, g3, g4⟩ := rolle_list (derivative^[k] (rodrigues α β n)) (r ++ [1]) (-1)
      (by
        refine List.pairwise_cons.2 ⟨?_, List.pairwise_append.2 ⟨h2, by simp, ?_⟩⟩
        · intro x hx
          rcases List.mem_append.1 hx with hx | hx
          · exact (h3 x hx).1.1
          · rw [List.mem_singleton.1 hx]; norm_num
        · intro x hx y hy
          rw [List.mem_singleton.1 hy]; exact (h3 x hx).1.2)
      (by
        intro x hx
        rcases List.mem_cons.1 hx with rfl | hx
        · exact e0
        rcases List.mem_append.1 hx with hx | hx
        · exact (h3 x hx).2
        · rw [List.mem_singleton.1 hx]; exact e1)
    refine ⟨l, by simp [g1, h1], g2, fun x hx => ⟨⟨(g3 x hx).1, ?_⟩, ?_⟩⟩
    · obtain ⟨y, hy, hlt⟩ := g4 x hx
      rcases List.mem_append.1 hy with hy | hy
      · exact hlt.trans (h3 y hy).1.2
      · rwa [List.mem_singleton.1 hy] at hlt
    · rw [Function.iterate_succ_apply']; exact (g3 x hx).2

theorem weight_natDegree (α β : Nat) : ((1 - X : ℝ[X]) ^ α * (1 + X) ^ β).natDegree = α + β := by
  have e1 : (1 - X : ℝ[X]) = - (X - C 1) := by rw [C_1]; ring
  have e2 : (1 + X : ℝ[X]) = X + C 1 := by rw [C_1]; ring
  rw [natDegree_mul, natDegree_pow, natDegree_pow, e1, e2, natDegree_neg, natDegree_X_sub_C, natDegree_X_add_C,
    mul_one, mul_one]
  · exact pow_ne_zero _ (by rw [e1]; exact neg_ne_zero.2 (X_sub_C_ne_zero 1))
  · exact pow_ne_zero _ (by rw [e2]; exact X_add_C_ne_zero 1)

theorem iterate_derivative_natDegree (f : ℝ[X]) (k : Nat) : k ≤ f.natDegree →
    (derivative^[k] f).natDegree = f.natDegree - k := by
  induction k with
  | zero => intro _; rfl
  | succ k ih =>
    intro hk
    have := ih (by omega)
    rw [Function.iterate_succ_apply']
    have hd := degree_derivative (p := derivative^[k] f) (by omega)
    rw [natDegree_eq_of_degree_eq_some hd, this]; omega

theorem nodal_monic (r : List ℝ) : (r.map fun x => X - C x).prod.Monic := by
  induction r with
  | nil => simp
  | cons x r ih => rw [List.map_cons, List.prod_cons]; exact (monic_X_sub_C x).mul ih

theorem nodal_natDegree (r : List ℝ) : (r.map fun x => X - C x).prod.natDegree = r.length := by
  induction r with
  | nil => simp
  | cons x r ih =>
    rw [List.map_cons, List.prod_cons, (monic_X_sub_C x).natDegree_mul (nodal_monic r), ih, natDegree_X_sub_C,
      List.length_cons, add_comm]

theorem nodal_dvd {p : ℝ[X]} (r : List ℝ) (hs : r.Nodup) (h : ∀ x ∈ r, p.eval x = 0) :
    (r.map fun x => X - C x).prod ∣ p := by
  induction r generalizing p with
  | nil => simp
  | cons x r ih =>
    obtain ⟨q, rfl⟩ := dvd_iff_isRoot.2 (h x (by simp))
    rw [List.map_cons, List.prod_cons]
    refine mul_dvd_mul_left _ (ih (List.nodup_cons.1 hs).2 fun y hy => ?_)
    have := h y (List.mem_cons_of_mem _ hy)
    rw [eval_mul] at this
    refine (mul_eq_zero.1 this).resolve_left ?_
    rw [eval_sub, eval_X, eval_C, sub_eq_zero]
    rintro rfl
    exact (List.nodup_cons.1 hs).1 hy

/-- The contract of `j_roots` can be met, for all parameters and all `n`. -/
theorem exists_jacobiRoots (α β n : Nat) : ∃ r : List ℝ, IsJacobiRoots α β n r := by
  obtain ⟨r, h1, h2, h3⟩ := rodrigues_zeros α β n n le_rfl
  refine ⟨r, h1, h2, fun x hx => (h3 x hx).1, fun q hq => ?_⟩
  -- the weight divides the `n`-th derivative
  obtain ⟨dA, dB⟩ := rodrigues_dvd α β n n
  rw [Nat.add_sub_cancel] at dA dB
  have hcop : IsCoprime ((1 - X : ℝ[X]) ^ α) ((1 + X) ^ β) := by
    apply IsCoprime.pow
    refine ⟨C (1 / 2), C (1 / 2), ?_⟩
    have h2 : (C (1 / 2) : ℝ[X]) * 2 = 1 := by
      rw [show (2 : ℝ[X]) = C 2 from rfl, ← C_mul]; norm_num
    linear_combination h2
  obtain ⟨p, hp⟩ := hcop.mul_dvd dA dB
  have hfdeg : (rodrigues α β n).natDegree = (α + n) + (β + n) := weight_natDegree _ _
  have hdeg := iterate_derivative_natDegree (rodrigues α β n) n (by omega)
  have hne : derivative^[n] (rodrigues α β n) ≠ 0 := by
    intro h0
    rw [h0, natDegree_zero] at hdeg
    -- only possible when everything is constant
    have hz : n = 0 := by omega
    subst hz
    have : (rodrigues α β 0) ≠ 0 := by
      unfold rodrigues
      have e1 : (1 - X : ℝ[X]) = - (X - C 1) := by rw [C_1]; ring
      have e2 : (1 + X : ℝ[X]) = X + C 1 := by rw [C_1]; ring
      exact mul_ne_zero (pow_ne_zero _ (by rw [e1]; exact neg_ne_zero.2 (X_sub_C_ne_zero 1)))
        (pow_ne_zero _ (by rw [e2]; exact X_add_C_ne_zero 1))
    exact this h0
  have hpne : p ≠ 0 := by rintro rfl; rw [mul_zero] at hp; exact hne hp
  have hwne : ((1 - X : ℝ[X]) ^ α * (1 + X) ^ β) ≠ 0 := by
    intro h; rw [h, zero_mul] at hp; exact hne hp
  have hpdeg : p.natDegree = n := by
    have := natDegree_mul hwne hpne
    rw [← hp, hdeg, hfdeg, weight_natDegree] at this
    omega
  have hroot : ∀ x ∈ r, p.eval x = 0 := by
    intro x hx
    obtain ⟨⟨a1, a2⟩, a3⟩ := h3 x hx
    rw [hp, eval_mul] at a3
    refine (mul_eq_zero.1 a3).resolve_left ?_
    rw [eval_mul, eval_pow, eval_pow, eval_sub, eval_add, eval_one, eval_X]
    exact mul_ne_zero (pow_ne_zero _ (by linarith)) (pow_ne_zero _ (by linarith))
  obtain ⟨c, hc⟩ := nodal_dvd r (h2.imp fun h => ne_of_lt h) hroot
  have hcne : c ≠ 0 := by rintro rfl; rw [mul_zero] at hc; exact hpne hc
  have hcdeg : c.natDegree = 0 := by
    have := natDegree_mul (nodal_monic r).ne_zero hcne
    rw [← hc, hpdeg, nodal_natDegree, h1] at this
    omega
  obtain ⟨k, rfl⟩ := natDegree_eq_zero.1 hcdeg
  have hk : k ≠ 0 := by rintro rfl; exact hcne C_0
  have hint := polyIntegral_parts_iterate (rodrigues α β n) (-1) 1 n (fun i hi => rodrigues_ends α β n i hi) q
  rw [iterate_derivative_eq_zero_of_degree_lt hq, mul_zero, polyIntegral_zero, mul_zero, hp, hc] at hint
  have e : (1 - X : ℝ[X]) ^ α * (1 + X) ^ β * ((r.map fun x => X - C x).prod * C k) * q =
      C k * ((1 - X) ^ α * (1 + X) ^ β * (r.map fun x => X - C x).prod * q) := by ring
  rw [e, polyIntegral_C_mul] at hint
  exact (mul_eq_zero.1 hint).resolve_left hk

/-- The weighted square of a polynomial has positive integral. -/
theorem weighted_square_pos (α β : Nat) {d : ℝ[X]} (hd : d ≠ 0) :
    0 < polyIntegral ((1 - X) ^ α * (1 + X) ^ β * (d * d)) (-1) 1 := by
  rw [polyIntegral_eq_intervalIntegral]
  have hnn : ∀ x : ℝ, -1 < x → x < 1 → 0 < (1 - x) ^ α * (1 + x) ^ β := fun x h1 h2 =>
    mul_pos (pow_pos (by linarith) _) (pow_pos (by linarith) _)
  have hex : ∃ c ∈ Set.Ioo (-1 : ℝ) 1, d.eval c ≠ 0 := by
    by_contra hcon
    push Not at hcon
    exact hd (eq_zero_of_infinite_isRoot d ((Set.Ioo_infinite (by norm_num)).mono hcon))
  obtain ⟨c, hc, hce⟩ := hex
  apply intervalIntegral.integral_pos (by norm_num) (Polynomial.continuous _).continuousOn
  · intro x hx
    simp only [eval_mul, eval_pow, eval_sub, eval_add, eval_one, eval_X]
    exact mul_nonneg (mul_nonneg (pow_nonneg (by linarith [hx.2]) _) (pow_nonneg (by linarith [hx.1]) _))
      (mul_self_nonneg _)
  · refine ⟨c, ⟨hc.1.le, hc.2.le⟩, ?_⟩
    simp only [eval_mul, eval_pow, eval_sub, eval_add, eval_one, eval_X]
    exact mul_pos (hnn c hc.1 hc.2) (mul_self_pos.2 hce)

theorem IsJacobiRoots.unique {α β n : Nat} {r r' : List ℝ} (h : IsJacobiRoots α β n r)
    (h' : IsJacobiRoots α β n r') : r = r' := by
  set P := (r.map fun x => X - C x).prod with hP
  set P' := (r'.map fun x => X - C x).prod with hP'
  have heq : P = P' := by
    by_contra hne
    have hd : P - P' ≠ 0 := sub_ne_zero.2 hne
    have hdeg : (P - P').degree < n := by
      have h1 : P.degree = (n : WithBot Nat) := by
        rw [degree_eq_natDegree (nodal_monic r).ne_zero, nodal_natDegree, h.length]
      have h2 : P'.degree = (n : WithBot Nat) := by
        rw [degree_eq_natDegree (nodal_monic r').ne_zero, nodal_natDegree, h'.length]
      have := degree_sub_lt_left (h1.trans h2.symm) (nodal_monic r).ne_zero
        ((nodal_monic r).leadingCoeff.trans (nodal_monic r').leadingCoeff.symm)
      rwa [h1] at this
    have i1 := h.orthogonal _ hdeg
    have i2 := h'.orthogonal _ hdeg
    have hpos := weighted_square_pos α β hd
    have e : (1 - X) ^ α * (1 + X) ^ β * ((P - P') * (P - P')) =
        (1 - X) ^ α * (1 + X) ^ β * P * (P - P') + C (-1) * ((1 - X) ^ α * (1 + X) ^ β * P' * (P - P')) := by
      rw [C_neg, C_1]; ring
    rw [e, polyIntegral_add, polyIntegral_C_mul] at hpos
    rw [← hP] at i1
    rw [← hP'] at i2
    rw [i1, i2] at hpos
    norm_num at hpos
  have hroots : ∀ l : List ℝ, ((l.map fun x => X - C x).prod).roots = (l : Multiset ℝ) := by
    intro l
    have : (l.map fun x => X - C x).prod = ((l : Multiset ℝ).map fun x => X - C x).prod := by simp
    rw [this, roots_multiset_prod_X_sub_C]
  have hperm : List.Perm r r' := by
    rw [← Multiset.coe_eq_coe, ← hroots r, ← hroots r', ← hP, ← hP', heq]
  exact hperm.eq_of_pairwise (fun a b _ _ hab hba => absurd hab (not_lt.2 hba.le)) h.sorted h'.sorted

/-- **C01** Over the reals the contract of `j_roots` determines its result, for all parameters and every `n`. -/
theorem C01_jacobi_contract (α β n : Nat) : ∃! r : List ℝ, IsJacobiRoots α β n r := by
  obtain ⟨r, hr⟩ := exists_jacobiRoots α β n
  exact ⟨r, hr, fun r' hr' => hr'.unique hr⟩

/-- A node library over the reals that meets all contracts. -/
noncomputable def libR : NodeLib ℝ where
  jroots n α β := (exists_jacobiRoots α β n).choose
  leggauss n := (exists_jacobiRoots 0 0 n).choose
  cosPi j d := Real.cos (Real.pi * j / d)

theorem libR_jacobi (α β n : Nat) : IsJacobiRoots α β n (libR.jroots n α β) := (exists_jacobiRoots α β n).choose_spec

theorem libR_cosine : IsCosine libR := fun _ _ => rfl

/-- The contracts of all schemes are met at once, for every order. -/
theorem C01_contracts_satisfiable : ∃ lib : NodeLib ℝ, (∀ α β n, IsJacobiRoots α β n (lib.jroots n α β)) ∧
    IsCosine lib := ⟨libR, libR_jacobi, libR_cosine⟩

/-- For instance: LGR of every degree has `d + 1` increasing nodes and integrates degree `2 d - 2` exactly. -/
example (d : Nat) (hd : 2 ≤ d) (Q : ℝ[X]) (hQ : (derivative Q).natDegree ≤ 2 * d - 2) :
    ∃ r, tausFn libR (-1) 1 "LGR" d = .ok r ∧ ∀ v : Nat → ℝ,
      (∀ (j : Nat) (hj : j < r.length), v j = (derivative Q).eval r[j]) →
      weightedSum (quadWeights .numerical r (-1) 1) v = Q.eval 1 - Q.eval (-1) :=
  C05_lgr_gauss libR .numerical (-1) 1 (by norm_num) d hd (libR_jacobi 1 0 (d - 1)) Q hQ

end MPOpt
