import Verif.Props.Exact
import Verif.Props.JacobiRoots

/-! # C67: signs of the quadrature weights -/

set_option autoImplicit false
set_option linter.unusedSectionVars false

namespace MPOpt
open Polynomial

/-- A quadrature rule that is exact for a polynomial `P ≥ 0` vanishing at all nodes but one (and those of weight 0) has
a positive weight there. -/
theorem weight_pos {r w : List ℝ} (hlen : w.length = r.length) {lo hi : ℝ} (h : lo < hi) {P : ℝ[X]}
    (hex : ∀ Q : ℝ[X], derivative Q = P → weightedSum w (fun j => P.eval (r.getD j 0)) = Q.eval hi - Q.eval lo)
    {i : Nat} (hi' : i < r.length) (hz : ∀ j < r.length, j ≠ i → w.getD j 0 = 0 ∨ P.eval (r.getD j 0) = 0)
    (hnn : ∀ x, lo ≤ x → x ≤ hi → 0 ≤ P.eval x) (hin : lo ≤ r.getD i 0 ∧ r.getD i 0 ≤ hi)
    (hpos : 0 < P.eval (r.getD i 0)) : 0 < w.getD i 0 := by
  obtain ⟨Q, hQ, -⟩ := exists_antiderivative P
  have key := hex Q hQ
  have hval : weightedSum w (fun j => P.eval (r.getD j 0)) = w.getD i 0 * P.eval (r.getD i 0) := by
    unfold weightedSum
    rw [Finset.sum_eq_single i]
    · intro j hj hji
      have hj : j < r.length := by rw [← hlen]; simpa using hj
      rcases hz j hj hji with e | e
      · rw [e, zero_mul]
      · simp only [e, mul_zero]
    · intro hh; exact absurd (Finset.mem_range.2 (by rw [hlen]; exact hi')) hh
  have e : ∫ x in lo..hi, P.eval x = Q.eval hi - Q.eval lo := by
    rw [← hQ]
    apply intervalIntegral.integral_eq_sub_of_hasDerivAt
    · intro x _; exact Q.hasDerivAt x
    · exact (derivative Q).continuous.intervalIntegrable _ _
  have hp : 0 < ∫ x in lo..hi, P.eval x :=
    intervalIntegral.integral_pos h P.continuous.continuousOn (fun x hx => hnn x hx.1.le hx.2) ⟨_, hin, hpos⟩
  rw [e, ← key, hval] at hp
  exact pos_of_mul_pos_left hp hpos.le

theorem nodal_ne {r : List ℝ} (hnd : r.Nodup) {S : Finset Nat} (hS : ∀ j ∈ S, j < r.length) {i : Nat}
    (hi : i < r.length) (hiS : i ∉ S) : (Lagrange.nodal S fun j => r.getD j 0).eval (r.getD i 0) ≠ 0 := by
  apply Lagrange.eval_nodal_not_at_node
  intro j hj e
  have hj' := hS j hj
  simp only [List.getD_eq_getElem _ _ hj', List.getD_eq_getElem _ _ hi] at e
  exact hiS ((List.Nodup.getElem_inj_iff hnd).1 e ▸ hj)

theorem NodesSpan.inside {lo hi : ℝ} {d : Nat} {r : List ℝ} (h : NodesSpan lo hi d r) :
    ∀ x ∈ r, lo ≤ x ∧ x ≤ hi := by
  intro x hx
  obtain ⟨k, hk, rfl⟩ := List.getElem_of_mem hx
  have hmono : ∀ i j (hi : i < r.length) (hj : j < r.length), i ≤ j → r[i] ≤ r[j] := by
    intro i j hi hj hij
    rcases Nat.eq_or_lt_of_le hij with rfl | hh
    · exact le_rfl
    · exact (List.pairwise_iff_getElem.1 h.sorted i j hi hj hh).le
  have h0 := h.first
  have h1 := h.last
  rw [List.head?_eq_getElem?, List.getElem?_eq_getElem (by omega)] at h0
  rw [List.getLast?_eq_getElem?, List.getElem?_eq_getElem (by omega)] at h1
  cases h0; cases h1
  exact ⟨hmono _ _ _ _ (Nat.zero_le _), hmono _ _ _ _ (by omega)⟩

/-- **C67** LGR, order at least 2: the first weight is 0 and all others are positive. -/
theorem C67_lgr (lib : NodeLib ℝ) (m : Method) (lo hi : ℝ) (h : lo < hi) (d : Nat) (hd : 2 ≤ d)
    (hj : IsJacobiRoots 1 0 (d - 1) (lib.jroots (d - 1) 1 0)) :
    ∃ r, tausFn lib lo hi "LGR" d = .ok r ∧ ∃ ws, quadWeights m r lo hi = 0 :: ws ∧ ws.length = d ∧ ∀ x ∈ ws, 0 < x := by
  obtain ⟨r, hr, hspan⟩ := C01_lgr_nodes lib lo hi h d (by omega) (fun _ => hj)
  obtain ⟨r', hr', h0⟩ := C05_lgr_first_weight_zero lib m lo hi h d hd hj
  rw [hr] at hr'; cases hr'
  refine ⟨r, hr, ?_⟩
  have hlen : (quadWeights m r lo hi).length = r.length := length_quadWeights _ _ _ _
  cases hw : quadWeights m r lo hi with
  | nil => rw [hw] at h0; cases h0
  | cons a ws =>
    rw [hw] at h0 hlen
    obtain rfl : a = 0 := by simpa using h0
    rw [hspan.length] at hlen
    refine ⟨ws, rfl, by simpa using hlen, fun x hx => ?_⟩
    obtain ⟨k, hk, rfl⟩ := List.getElem_of_mem hx
    have hk' : k < d := by simp at hlen; omega
    set S := (Finset.Ico 1 (d + 1)).erase (k + 1) with hS
    have hmem : ∀ j, j ∈ S ↔ j ≠ k + 1 ∧ 1 ≤ j ∧ j < d + 1 := by
      intro j; rw [hS, Finset.mem_erase, Finset.mem_Ico]
    have hcard : S.card = d - 1 := by
      rw [hS, Finset.card_erase_of_mem (Finset.mem_Ico.2 ⟨by omega, by omega⟩), Nat.card_Ico]; omega
    have hne := nodal_ne hspan.nodup (S := S) (i := k + 1) (fun j hj => by rw [hspan.length]; exact ((hmem j).1 hj).2.2)
      (by rw [hspan.length]; omega) (by rw [hmem]; simp)
    have key := weight_pos (w := 0 :: ws) (r := r) (P := (Lagrange.nodal S fun j => r.getD j 0) ^ 2) (i := k + 1)
      (by rw [hlen, hspan.length]) h
      (fun Q hQ => by
        obtain ⟨r', hr', e⟩ := C05_lgr_gauss lib m lo hi h d hd hj Q (by
          rw [hQ]
          refine natDegree_pow_le.trans ?_
          rw [Lagrange.natDegree_nodal, hcard]
          omega)
        rw [hr] at hr'; cases hr'
        rw [← hw]
        exact e _ fun j hj => by rw [List.getD_eq_getElem _ _ hj, hQ])
      (by rw [hspan.length]; omega)
      (fun j hj hjk => by
        rw [hspan.length] at hj
        rcases Nat.eq_zero_or_pos j with rfl | hj0
        · left; rfl
        · right
          rw [eval_pow, Lagrange.eval_nodal_at_node (v := fun j => r.getD j 0) ((hmem j).2 ⟨hjk, hj0, hj⟩)]
          ring)
      (fun x _ _ => by rw [eval_pow]; positivity)
      (hspan.inside _ (by
        have : k + 1 < r.length := by rw [hspan.length]; omega
        rw [List.getD_eq_getElem _ _ this]; exact List.getElem_mem _))
      (by rw [eval_pow]; positivity)
    rw [List.getD_cons_succ, List.getD_eq_getElem _ _ hk] at key
    exact key

/-- **C67** LGL, order at least 2: all weights are positive. -/
theorem C67_lgl (lib : NodeLib ℝ) (m : Method) (lo hi : ℝ) (h : lo < hi) (d : Nat) (hd : 2 ≤ d)
    (hj : IsJacobiRoots 1 1 (d - 1) (lib.jroots (d - 1) 1 1)) :
    ∃ r, tausFn lib lo hi "LGL" d = .ok r ∧ ∀ x ∈ quadWeights m r lo hi, 0 < x := by
  obtain ⟨r, hr, hspan⟩ := C01_lgl_nodes lib lo hi h d (by omega) (fun _ => hj)
  refine ⟨r, hr, fun x hx => ?_⟩
  have hlen : (quadWeights m r lo hi).length = r.length := length_quadWeights _ _ _ _
  obtain ⟨k, hk, rfl⟩ := List.getElem_of_mem hx
  have hkr : k < r.length := by rw [← hlen]; exact hk
  have hkd : k < d + 1 := by rw [← hspan.length]; exact hkr
  have hin := hspan.inside _ (List.getElem_mem hkr)
  rw [← List.getD_eq_getElem _ 0 hkr] at hin
  have h0 : r.getD 0 0 = lo := by
    have := hspan.first
    rw [List.head?_eq_getElem?] at this
    rw [List.getD_eq_getElem?_getD, this]; rfl
  have h1 : r.getD d 0 = hi := by
    have := hspan.last
    rw [List.getLast?_eq_getElem?, hspan.length, Nat.add_sub_cancel] at this
    rw [List.getD_eq_getElem?_getD, this]; rfl
  have hlt : ∀ i j, i < j → j < d + 1 → r.getD i 0 < r.getD j 0 := by
    intro i j hij hj
    have hj' : j < r.length := by rw [hspan.length]; exact hj
    have hi' : i < r.length := by omega
    rw [List.getD_eq_getElem _ _ hi', List.getD_eq_getElem _ _ hj']
    exact List.pairwise_iff_getElem.1 hspan.sorted i j _ _ hij
  -- interior nodes other than `k`, and a factor for each end other than `k`
  set S := (Finset.Ico 1 d).erase k with hS
  have hmem : ∀ j, j ∈ S ↔ j ≠ k ∧ 1 ≤ j ∧ j < d := by
    intro j; rw [hS, Finset.mem_erase, Finset.mem_Ico]
  have hne := nodal_ne hspan.nodup (S := S) (i := k) (fun j hj => by
    rw [hspan.length]; have := ((hmem j).1 hj).2.2; omega) hkr (by rw [hmem]; simp)
  set A : ℝ[X] := if k = 0 then 1 else X - C lo with hA
  set B : ℝ[X] := if k = d then 1 else C hi - X with hB
  have hAd : A.natDegree ≤ if k = 0 then 0 else 1 := by
    rw [hA]; split
    · simp
    · exact (natDegree_X_sub_C lo).le
  have hBd : B.natDegree ≤ if k = d then 0 else 1 := by
    rw [hB]; split
    · simp
    · exact (natDegree_sub_le _ _).trans (by simp)
  have hdeg : (A * B * (Lagrange.nodal S fun j => r.getD j 0) ^ 2).natDegree ≤ 2 * d - 1 := by
    refine natDegree_mul_le.trans ((Nat.add_le_add natDegree_mul_le natDegree_pow_le).trans ?_)
    rw [Lagrange.natDegree_nodal]
    by_cases hk0 : k = 0
    · have : S.card = d - 1 := by
        rw [hS, Finset.erase_eq_of_notMem (by simp [hk0]), Nat.card_Ico]
      rw [if_pos hk0] at hAd
      have : B.natDegree ≤ 1 := hBd.trans (by split <;> simp)
      omega
    · rw [if_neg hk0] at hAd
      by_cases hk1 : k = d
      · have : S.card = d - 1 := by
          rw [hS, Finset.erase_eq_of_notMem (by simp [hk1]), Nat.card_Ico]
        rw [if_pos hk1] at hBd
        omega
      · rw [if_neg hk1] at hBd
        have : S.card = d - 2 := by
          rw [hS, Finset.card_erase_of_mem (Finset.mem_Ico.2 ⟨by omega, by omega⟩), Nat.card_Ico]; omega
        omega
  have hAv : ∀ x, lo ≤ x → 0 ≤ A.eval x := by
    intro x hx; rw [hA]; split
    · simp
    · simp only [eval_sub, eval_X, eval_C]; linarith
  have hBv : ∀ x, x ≤ hi → 0 ≤ B.eval x := by
    intro x hx; rw [hB]; split
    · simp
    · simp only [eval_sub, eval_X, eval_C]; linarith
  have hAk : 0 < A.eval (r.getD k 0) := by
    rw [hA]; split
    · simp
    · have := hlt 0 k (by omega) hkd
      simp only [eval_sub, eval_X, eval_C]; linarith
  have hBk : 0 < B.eval (r.getD k 0) := by
    rw [hB]; split
    · simp
    · have := hlt k d (by omega) (by omega)
      simp only [eval_sub, eval_X, eval_C]; linarith
  have key := weight_pos (r := r) (w := quadWeights m r lo hi)
    (P := A * B * (Lagrange.nodal S fun j => r.getD j 0) ^ 2) (i := k) hlen h
    (fun Q hQ => by
      obtain ⟨r', hr', e⟩ := C05_lgl_gauss lib m lo hi h d hd hj Q (by rw [hQ]; exact hdeg)
      rw [hr] at hr'; cases hr'
      exact e _ fun j hj => by rw [List.getD_eq_getElem _ _ hj, hQ])
    hkr
    (fun j hj hjk => by
      rw [hspan.length] at hj
      right
      simp only [eval_mul, eval_pow]
      rcases Nat.eq_zero_or_pos j with rfl | hj0
      · rw [h0, hA, if_neg (Ne.symm hjk)]; simp
      · rcases Nat.lt_or_ge j d with hjd | hjd
        · rw [Lagrange.eval_nodal_at_node (v := fun j => r.getD j 0) ((hmem j).2 ⟨hjk, hj0, hjd⟩)]; ring
        · obtain rfl : j = d := by omega
          rw [h1, hB, if_neg (Ne.symm hjk)]; simp)
    (fun x ha hb => by
      simp only [eval_mul, eval_pow]
      have := hAv x ha
      have := hBv x hb
      positivity)
    hin (by simp only [eval_mul, eval_pow]; positivity)
  rwa [List.getD_eq_getElem _ _ hk] at key

/-- **C67** Composite LGR weights, orders at least 2: the first is 0 and all others are positive. -/
theorem C67_lgr_composite (lib : NodeLib ℝ) (m : Method) (lo hi : ℝ) (h : lo < hi) {orders : List Nat}
    (hord : ∀ p ∈ orders, 2 ≤ p) (hj : ∀ p ∈ orders, IsJacobiRoots 1 0 (p - 1) (lib.jroots (p - 1) 1 0)) {W : List ℝ}
    (hW : compQuadWeights ⟨m, lo, hi, tausFn lib lo hi "LGR"⟩ orders = .ok W) :
    ∃ ws, W = 0 :: ws ∧ ws.length = orders.sum ∧ ∀ x ∈ ws, 0 < x := by
  have hex : ∀ p, ∃ ws : List ℝ, p ∈ orders → (do
      let roots ← tausFn lib lo hi "LGR" p
      return quadWeights m roots lo hi : Py (List ℝ)) = .ok (0 :: ws) ∧ ws.length = p ∧ ∀ x ∈ ws, 0 < x := by
    intro p
    by_cases hp : p ∈ orders
    · obtain ⟨r, hr, ws, h1, h2, h3⟩ := C67_lgr lib m lo hi h p (hord p hp) (hj p hp)
      exact ⟨ws, fun _ => ⟨by rw [hr, py_bind_ok, h1]; rfl, h2, h3⟩⟩
    · exact ⟨[], fun hh => absurd hh hp⟩
  choose g hg using hex
  unfold compQuadWeights at hW
  rw [mapM_ok _ (fun p => 0 :: g p) orders fun p hp => (hg p hp).1, py_bind_ok] at hW
  cases orders with
  | nil => cases hW
  | cons p l =>
    simp only [List.map_cons, pyIdx, List.getElem?_cons_zero, py_bind_ok, py_pure_eq_ok] at hW
    refine ⟨_, hW.symm, ?_, ?_⟩
    · simp only [List.length_flatten, List.map_cons, List.map_map, List.drop_succ_cons, List.drop_zero]
      rw [List.sum_cons, List.sum_cons, (hg p (by simp)).2.1]
      congr 2
      conv_rhs => rw [← List.map_id l]
      apply List.map_congr_left
      intro q hq
      exact (hg q (by simp [hq])).2.1
    · intro x hx
      obtain ⟨y, hy, hxy⟩ := List.mem_flatten.1 hx
      rw [List.map_map] at hy
      rcases List.mem_cons.1 hy with rfl | hy
      · exact (hg p (by simp)).2.2 x hxy
      · obtain ⟨q, hq, rfl⟩ := List.mem_map.1 hy
        exact (hg q (by simp [hq])).2.2 x hxy

/-- **C67** So the composite LGR sum of values that are nonnegative at all nodes but the first is nonnegative. -/
theorem C67_lgr_nonneg (lib : NodeLib ℝ) (m : Method) (lo hi : ℝ) (h : lo < hi) {orders : List Nat}
    (hord : ∀ p ∈ orders, 2 ≤ p) (hj : ∀ p ∈ orders, IsJacobiRoots 1 0 (p - 1) (lib.jroots (p - 1) 1 0)) {W : List ℝ}
    (hW : compQuadWeights ⟨m, lo, hi, tausFn lib lo hi "LGR"⟩ orders = .ok W) {v : Nat → ℝ}
    (hv : ∀ k, 1 ≤ k → k ≤ orders.sum → 0 ≤ v k) : 0 ≤ weightedSum W v := by
  obtain ⟨ws, rfl, hl, hp⟩ := C67_lgr_composite lib m lo hi h hord hj hW
  unfold weightedSum
  apply Finset.sum_nonneg
  intro k hk
  rw [Finset.mem_range, List.length_cons, hl] at hk
  rcases k with _ | k
  · simp
  · have hk' : k < ws.length := by omega
    rw [List.getD_cons_succ, List.getD_eq_getElem _ _ hk']
    exact mul_nonneg (hp _ (List.getElem_mem hk')).le (hv _ (by omega) (by omega))

/-- The contract of `j_roots` is met, so the weights of the exact points have these signs for all orders. -/
example (d : Nat) (hd : 2 ≤ d) : ∃ r, tausFn libR (-1) 1 "LGR" d = .ok r ∧
    ∃ ws, quadWeights .numerical r (-1) 1 = 0 :: ws ∧ ws.length = d ∧ ∀ x ∈ ws, 0 < x :=
  C67_lgr libR .numerical (-1) 1 (by norm_num) d hd (libR_jacobi 1 0 (d - 1))

example (d : Nat) (hd : 2 ≤ d) : ∃ r, tausFn libR (-1) 1 "LGL" d = .ok r ∧
    ∀ x ∈ quadWeights .numerical r (-1) 1, 0 < x :=
  C67_lgl libR .numerical (-1) 1 (by norm_num) d hd (libR_jacobi 1 1 (d - 1))

/-- Composite weights exist for orders 2 and 3, and have these signs. -/
example : ∃ W, compQuadWeights ⟨.numerical, -1, 1, tausFn libR (-1) 1 "LGR"⟩ [2, 3] = .ok W ∧
    ∃ ws, W = 0 :: ws ∧ ws.length = 5 ∧ ∀ x ∈ ws, 0 < x := by
  have hord : ∀ p ∈ [2, 3], 2 ≤ p := by decide
  obtain ⟨r2, h2, w2, e2, -⟩ := C67_lgr libR .numerical (-1) 1 (by norm_num) 2 (by norm_num) (libR_jacobi 1 0 _)
  obtain ⟨r3, h3, -⟩ := C67_lgr libR .numerical (-1) 1 (by norm_num) 3 (by norm_num) (libR_jacobi 1 0 _)
  have : ∃ W, compQuadWeights ⟨.numerical, -1, 1, tausFn libR (-1) 1 "LGR"⟩ [2, 3] = .ok W := by
    unfold compQuadWeights
    rw [mapM_ok _ (fun p => quadWeights .numerical (if p = 2 then r2 else r3) (-1) 1) [2, 3] (by
      intro p hp
      rcases List.mem_cons.1 hp with rfl | hp
      · simp only [h2, py_bind_ok]; rfl
      · obtain rfl : p = 3 := by simpa using hp
        simp only [h3, py_bind_ok]; rfl), py_bind_ok]
    simp only [List.map_cons, if_pos, e2]
    exact ⟨_, rfl⟩
  obtain ⟨W, hW⟩ := this
  exact ⟨W, hW, C67_lgr_composite libR .numerical (-1) 1 (by norm_num) hord (fun p _ => libR_jacobi 1 0 _) hW⟩

end MPOpt
