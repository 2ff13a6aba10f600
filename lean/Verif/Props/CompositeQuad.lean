import Verif.Props.Composite
import Verif.Props.Gauss

/-! # C07: composite quadrature -/

set_option linter.unusedSectionVars false

set_option autoImplicit false

namespace MPOpt
open Polynomial

/-- Specification: `v` holds, at every node, the half-width `h s` of the segment owning the node times
the running cost there (node `i ≥ 1` of segment `s` is owned by `s`; node 0 by segment 0). -/
def OwnedSamples {K : Type} [Field K] (orders : List Nat) (R : Nat → List K) (P : Nat → K[X])
    (h : Nat → K) (v : Nat → K) : Prop :=
  ∀ (s : Nat) (hs : s < orders.length) (i : Nat), i ≤ orders[s] → (s = 0 ∨ 1 ≤ i) →
    v (segStart orders s + i) = h s * (P s).eval ((R orders[s]).getD i 0)

theorem mapM_ok {α β : Type} (f : α → Py β) (g : α → β) (l : List α)
    (h : ∀ a ∈ l, f a = .ok (g a)) : l.mapM f = .ok (l.map g) := by
  induction l with
  | nil => rfl
  | cons a l ih =>
    rw [List.mapM_cons, h a (by simp), ih (fun b hb => h b (by simp [hb]))]
    rfl

theorem getD_flatten {α : Type} (L : List (List α)) (d : α) :
    ∀ (s i : Nat), i < (L.getD s []).length →
      L.flatten.getD (segStart (L.map List.length) s + i) d = (L.getD s []).getD i d := by
  induction L with
  | nil => intro s i h; simp at h
  | cons a L ih =>
    intro s i h
    cases s with
    | zero =>
      have h : i < a.length := by simpa using h
      simp [segStart, List.getElem?_append_left h]
    | succ s =>
      have h : i < (L.getD s []).length := by simpa using h
      have := ih s i h
      rw [List.getD_cons_succ, ← this]
      have e : segStart ((a :: L).map List.length) (s + 1) + i
          = a.length + (segStart (L.map List.length) s + i) := by
        simp [segStart, add_assoc]
      rw [e, List.flatten_cons, List.getD_append_right _ _ _ _ (by omega)]
      congr 1; omega

theorem sum_by_segments {K : Type} [AddCommMonoid K] (orders : List Nat) (f : Nat → K) :
    ∑ j ∈ Finset.range (orders.sum + 1), f j = f 0 +
      ∑ s ∈ Finset.range orders.length, ∑ i ∈ Finset.range (orders.getD s 0),
        f (segStart orders s + (i + 1)) := by
  have key : ∀ k ≤ orders.length, ∑ j ∈ Finset.range (segStart orders k + 1), f j = f 0 +
      ∑ s ∈ Finset.range k, ∑ i ∈ Finset.range (orders.getD s 0),
        f (segStart orders s + (i + 1)) := by
    intro k
    induction k with
    | zero => intro _; simp [segStart_zero]
    | succ k ih =>
      intro hk
      have hk' : k < orders.length := hk
      rw [Finset.sum_range_succ _ k, ← add_assoc, ← ih hk'.le, segStart_succ _ hk',
        List.getD_eq_getElem _ _ hk']
      rw [show segStart orders k + orders[k] + 1 = (segStart orders k + 1) + orders[k] by omega,
        Finset.sum_range_add]
      congr 1
      apply Finset.sum_congr rfl
      intro i _
      congr 1; omega
  rw [← segStart_length, key _ le_rfl]

section
variable {K : Type} [Field K] [CharZero K]

theorem compQuadWeights_spec (c : Colloc K) (orders : List Nat) (hne : orders ≠ [])
    (R : Nat → List K) (hR : GoodNodes c orders R) :
    ∃ w, compQuadWeights c orders = .ok w ∧ w.length = orders.sum + 1 ∧
      w.getD 0 0 = (quadWeights c.method (R (orders.getD 0 0)) c.tau0 c.tau1).getD 0 0 ∧
      ∀ (s : Nat) (hs : s < orders.length) (i : Nat), i < orders[s] →
        w.getD (segStart orders s + (i + 1)) 0 =
          (quadWeights c.method (R orders[s]) c.tau0 c.tau1).getD (i + 1) 0 := by
  set W : Nat → List K := fun p => quadWeights c.method (R p) c.tau0 c.tau1 with hW
  have hm : orders.mapM (fun p => do
      let roots ← c.taus p
      return quadWeights c.method roots c.tau0 c.tau1) = .ok (orders.map W) := by
    apply mapM_ok
    intro p hp
    rw [(hR p hp).1]; rfl
  have h0 : 0 < orders.length := List.length_pos_iff.2 hne
  have hlenW : ∀ p ∈ orders, (W p).length = p + 1 := by
    intro p hp; rw [hW]; simp only [length_quadWeights]; exact (hR p hp).2.1
  have hl0 : 0 < (W orders[0]).length := by rw [hlenW _ (List.getElem_mem h0)]; omega
  have hlens : (((orders.map W).map fun wi => wi.drop 1).map List.length) = orders := by
    rw [List.map_map, List.map_map]
    conv_rhs => rw [← List.map_id orders]
    apply List.map_congr_left
    intro p hp
    simp [hlenW p hp]
  refine ⟨(W orders[0])[0] :: ((orders.map W).map fun wi => wi.drop 1).flatten, ?_, ?_, ?_, ?_⟩
  · unfold compQuadWeights
    rw [hm, py_bind_ok, pyIdx_ok (by simpa using h0), py_bind_ok, List.getElem_map,
      pyIdx_ok hl0, py_bind_ok]
    rfl
  · rw [List.length_cons, List.length_flatten, hlens]
  · rw [List.getD_cons_zero, List.getD_eq_getElem _ _ h0, List.getD_eq_getElem _ _ hl0]
  · intro s hs i hi
    rw [← add_assoc, List.getD_cons_succ]
    have hg : ((orders.map W).map fun wi => wi.drop 1).getD s [] = (W orders[s]).drop 1 := by
      rw [List.getD_eq_getElem _ _ (by simpa using hs), List.getElem_map, List.getElem_map]
    have := getD_flatten ((orders.map W).map fun wi => wi.drop 1) (0 : K) s i (by
      rw [hg, List.length_drop, hlenW _ (List.getElem_mem hs)]; omega)
    rw [hlens, hg] at this
    rw [this]
    simp [List.getD_eq_getElem?_getD]
    rfl

/-- Composite quadrature when the rule of every segment is exact on its piece. -/
theorem composite_quadrature (c : Colloc K) (orders : List Nat) (hne : orders ≠ [])
    (R : Nat → List K) (hR : GoodNodes c orders R) (Q : Nat → K[X])
    (hex : ∀ (s : Nat) (hs : s < orders.length), weightedSum (quadWeights c.method (R orders[s]) c.tau0 c.tau1)
      (fun j => (derivative (Q s)).eval ((R orders[s]).getD j 0)) = (Q s).eval c.tau1 - (Q s).eval c.tau0)
    (h v : Nat → K) (hv : OwnedSamples orders R (fun s => derivative (Q s)) h v) :
    ∃ w, compQuadWeights c orders = .ok w ∧ w.length = orders.sum + 1 ∧
      weightedSum w v =
        ∑ s ∈ Finset.range orders.length, h s * ((Q s).eval c.tau1 - (Q s).eval c.tau0)
        - ∑ s ∈ Finset.Ico 1 orders.length, h s *
          ((quadWeights c.method (R (orders.getD s 0)) c.tau0 c.tau1).getD 0 0 *
            (derivative (Q s)).eval ((R (orders.getD s 0)).getD 0 0)) := by
  obtain ⟨w, hw, hlen, hw0, hws⟩ := compQuadWeights_spec c orders hne R hR
  refine ⟨w, hw, hlen, ?_⟩
  have h0 : 0 < orders.length := List.length_pos_iff.2 hne
  -- integral of one piece
  have hint : ∀ s ∈ Finset.range orders.length,
      h s * ((Q s).eval c.tau1 - (Q s).eval c.tau0) =
      h s * ((quadWeights c.method (R (orders.getD s 0)) c.tau0 c.tau1).getD 0 0 *
            (derivative (Q s)).eval ((R (orders.getD s 0)).getD 0 0)) +
      ∑ i ∈ Finset.range (orders.getD s 0), w.getD (segStart orders s + (i + 1)) 0 *
        v (segStart orders s + (i + 1)) := by
    intro s hs
    have hs : s < orders.length := by simpa using hs
    obtain ⟨-, h2, -⟩ := hR orders[s] (List.getElem_mem hs)
    rw [← hex s hs, weightedSum, length_quadWeights, h2, Finset.sum_range_succ', List.getD_eq_getElem _ _ hs,
      add_comm, mul_add, Finset.mul_sum]
    congr 1
    apply Finset.sum_congr rfl
    intro i hi
    have hi : i < orders[s] := by simpa using hi
    rw [hws s hs i hi, hv s hs (i + 1) (by omega) (Or.inr (by omega))]
    ring
  rw [Finset.sum_congr rfl hint, Finset.sum_add_distrib, weightedSum, hlen, sum_by_segments]
  have hsplit : ∀ g : Nat → K, ∑ s ∈ Finset.range orders.length, g s =
      g 0 + ∑ s ∈ Finset.Ico 1 orders.length, g s := by
    intro g
    rw [Finset.range_eq_Ico, Finset.sum_eq_sum_Ico_succ_bot h0]
  rw [hsplit (fun s => h s * ((quadWeights c.method (R (orders.getD s 0)) c.tau0 c.tau1).getD 0 0 *
            (derivative (Q s)).eval ((R (orders.getD s 0)).getD 0 0)))]
  have hv0 := hv 0 h0 0 (Nat.zero_le _) (Or.inl rfl)
  rw [segStart_zero, Nat.zero_add] at hv0
  rw [hv0, hw0, List.getD_eq_getElem _ _ h0]
  ring

/-- **C07** (exact statement) The composite quadrature of the running cost equals the sum over
segments of half-width times integral, *minus* the contribution of the first node of every later
segment, whose weight the code drops. `Q s` is an antiderivative of the cost piece. -/
theorem C07_composite_quadrature_defect (c : Colloc K) (orders : List Nat) (hne : orders ≠ [])
    (R : Nat → List K) (hR : GoodNodes c orders R) (Q : Nat → K[X])
    (hQ : PieceDegrees orders fun s => derivative (Q s)) (h v : Nat → K)
    (hv : OwnedSamples orders R (fun s => derivative (Q s)) h v) :
    ∃ w, compQuadWeights c orders = .ok w ∧ w.length = orders.sum + 1 ∧
      weightedSum w v =
        ∑ s ∈ Finset.range orders.length, h s * ((Q s).eval c.tau1 - (Q s).eval c.tau0)
        - ∑ s ∈ Finset.Ico 1 orders.length, h s *
          ((quadWeights c.method (R (orders.getD s 0)) c.tau0 c.tau1).getD 0 0 *
            (derivative (Q s)).eval ((R (orders.getD s 0)).getD 0 0)) :=
  composite_quadrature c orders hne R hR Q (fun s hs => by
    obtain ⟨-, h2, h3⟩ := hR orders[s] (List.getElem_mem hs)
    exact C05_quadrature_exact c.method (R orders[s]) h3 orders[s] h2 c.tau0 c.tau1 (Q s) (hQ s hs)
      (fun j => (derivative (Q s)).eval ((R orders[s]).getD j 0))
      (fun j hj => by rw [List.getD_eq_getElem _ _ hj])) h v hv

/-- **C07** True for one segment, any nodes. -/
theorem C07_single_segment (c : Colloc K) (p : Nat)
    (R : Nat → List K) (hR : GoodNodes c [p] R) (Q : Nat → K[X])
    (hQ : PieceDegrees [p] fun s => derivative (Q s)) (h v : Nat → K)
    (hv : OwnedSamples [p] R (fun s => derivative (Q s)) h v) :
    ∃ w, compQuadWeights c [p] = .ok w ∧
      weightedSum w v = h 0 * ((Q 0).eval c.tau1 - (Q 0).eval c.tau0) := by
  obtain ⟨w, hw, -, e⟩ := C07_composite_quadrature_defect c [p] (by simp) R hR Q hQ h v hv
  refine ⟨w, hw, ?_⟩
  simpa using e

/-- **C07** When the dropped weights vanish the whole phase is integrated. -/
theorem C07_zero_first_weight (c : Colloc K) (orders : List Nat) (hne : orders ≠ [])
    (R : Nat → List K) (hR : GoodNodes c orders R)
    (hz : ∀ p ∈ orders.tail, (quadWeights c.method (R p) c.tau0 c.tau1).getD 0 0 = 0)
    (Q : Nat → K[X]) (hQ : PieceDegrees orders fun s => derivative (Q s)) (h v : Nat → K)
    (hv : OwnedSamples orders R (fun s => derivative (Q s)) h v) :
    ∃ w, compQuadWeights c orders = .ok w ∧
      weightedSum w v =
        ∑ s ∈ Finset.range orders.length, h s * ((Q s).eval c.tau1 - (Q s).eval c.tau0) := by
  obtain ⟨w, hw, -, e⟩ := C07_composite_quadrature_defect c orders hne R hR Q hQ h v hv
  refine ⟨w, hw, ?_⟩
  rw [e, sub_eq_self]
  apply Finset.sum_eq_zero
  intro s hs
  simp only [Finset.mem_Ico] at hs
  rw [List.getD_eq_getElem _ _ hs.2, hz orders[s], zero_mul, mul_zero]
  obtain ⟨s', rfl⟩ : ∃ s', s = s' + 1 := ⟨s - 1, by omega⟩
  rw [← List.getElem_tail (by simp; omega)]
  exact List.getElem_mem _

end

section
variable {K : Type} [Field K] [LinearOrder K] [IsStrictOrderedRing K]

/-- **C07** For the LGR scheme with all orders at least 2 the running cost is integrated over the whole phase, for
pieces up to degree `2 p - 2`. -/
theorem C07_lgr_gauss (lib : NodeLib K) (m : Method) (lo hi : K) (hlt : lo < hi) (orders : List Nat)
    (hne : orders ≠ []) (hord : ∀ p ∈ orders, 2 ≤ p)
    (hj : ∀ p ∈ orders, IsJacobiRoots 1 0 (p - 1) (lib.jroots (p - 1) 1 0)) (R : Nat → List K)
    (hR : ∀ p ∈ orders, tausFn lib lo hi "LGR" p = .ok (R p)) (Q : Nat → K[X])
    (hQ : ∀ (s : Nat) (hs : s < orders.length), (derivative (Q s)).natDegree ≤ 2 * orders[s] - 2) (h v : Nat → K)
    (hv : OwnedSamples orders R (fun s => derivative (Q s)) h v) :
    ∃ w, compQuadWeights ⟨m, lo, hi, tausFn lib lo hi "LGR"⟩ orders = .ok w ∧ weightedSum w v =
      ∑ s ∈ Finset.range orders.length, h s * ((Q s).eval hi - (Q s).eval lo) := by
  have hG : GoodNodes ⟨m, lo, hi, tausFn lib lo hi "LGR"⟩ orders R := by
    intro p hp
    obtain ⟨r, hr, hs⟩ := C01_lgr_nodes lib lo hi hlt p (by have := hord p hp; omega) (fun _ => hj p hp)
    rw [hR p hp] at hr
    obtain rfl : R p = r := by injection hr
    exact ⟨hR p hp, hs.length, hs.nodup⟩
  obtain ⟨w, hw, -, e⟩ := composite_quadrature ⟨m, lo, hi, tausFn lib lo hi "LGR"⟩ orders hne R hG Q (by
    intro s hs
    have hp := List.getElem_mem hs
    obtain ⟨r, hr, hx⟩ := C05_lgr_gauss lib m lo hi hlt orders[s] (hord _ hp) (hj _ hp) (Q s) (hQ s hs)
    rw [hR _ hp] at hr
    obtain rfl : R orders[s] = r := by injection hr
    exact hx _ fun j hj => by rw [List.getD_eq_getElem _ _ hj]) h v hv
  refine ⟨w, hw, ?_⟩
  rw [e, sub_eq_self]
  apply Finset.sum_eq_zero
  intro s hs
  have hs' := (Finset.mem_Ico.1 hs).2
  have hp := List.getElem_mem hs'
  obtain ⟨r, hr, hz⟩ := C05_lgr_first_weight_zero lib m lo hi hlt orders[s] (hord _ hp) (hj _ hp)
  rw [hR _ hp] at hr
  obtain rfl : R orders[s] = r := by injection hr
  rw [List.getD_eq_getElem _ _ hs', List.getD_eq_getElem?_getD, ← List.head?_eq_getElem?, hz]
  simp

/-- **C07** True for the LGR scheme with all orders at least 2, any number of segments. -/
theorem C07_lgr (lib : NodeLib K) (m : Method) (lo hi : K) (hlt : lo < hi) (orders : List Nat)
    (hne : orders ≠ []) (hord : ∀ p ∈ orders, 2 ≤ p)
    (hj : ∀ p ∈ orders, IsJacobiRoots 1 0 (p - 1) (lib.jroots (p - 1) 1 0)) :
    ∃ c R, mkColloc lib m lo hi orders "LGR" = .ok c ∧ GoodNodes c orders R ∧
      ∀ (Q : Nat → K[X]) (h v : Nat → K), (PieceDegrees orders fun s => derivative (Q s)) →
        OwnedSamples orders R (fun s => derivative (Q s)) h v →
        ∃ w, compQuadWeights c orders = .ok w ∧ weightedSum w v =
          ∑ s ∈ Finset.range orders.length, h s * ((Q s).eval hi - (Q s).eval lo) := by
  let R : Nat → List K := fun p => ((-1) :: lib.jroots (p - 1) 1 0 ++ [1]).map (rescale lo hi)
  have hRt : ∀ p ∈ orders, tausFn lib lo hi "LGR" p = .ok (R p) := by
    intro p hp
    have h1 : 1 < p := hord p hp
    simp [tausFn, lgrRoots, h1, R]
  let c : Colloc K := ⟨m, lo, hi, tausFn lib lo hi "LGR"⟩
  have hG : GoodNodes c orders R := by
    intro p hp
    obtain ⟨r, hr, hs⟩ := C01_lgr_nodes lib lo hi hlt p (by have := hord p hp; omega)
      (fun _ => hj p hp)
    rw [hRt p hp] at hr
    obtain rfl : R p = r := by injection hr
    exact ⟨hRt p hp, hs.length, hs.nodup⟩
  refine ⟨c, R, ?_, hG, fun Q h v hQ hv => ?_⟩
  · unfold mkColloc
    have := mapM_ok c.taus R orders hRt
    simp only
    rw [show orders.mapM (tausFn lib lo hi "LGR") = .ok (orders.map R) from this]
    rfl
  · apply C07_zero_first_weight c orders hne R hG _ Q hQ h v hv
    intro p hp
    have hp := List.mem_of_mem_tail hp
    obtain ⟨r, hr, hz⟩ := C05_lgr_first_weight_zero lib m lo hi hlt p (hord p hp) (hj p hp)
    rw [hRt p hp] at hr
    obtain rfl : R p = r := by injection hr
    show (quadWeights m (R p) lo hi).getD 0 0 = 0
    rw [List.getD_eq_getElem?_getD, ← List.head?_eq_getElem?, hz]; rfl

end

/-- **C07** (false in general) LGL with two segments of order 1 and running cost 1: the code's weights
are `[1, 1, 1]`, and with half-widths `1/2` the cost is `3/2` instead of `2`. -/
theorem C07_lgl_false : ∃ (c : Colloc ℚ) (R : Nat → List ℚ) (Q : Nat → ℚ[X]) (h v : Nat → ℚ)
    (w : List ℚ), mkColloc libQ .numerical (-1) 1 [1, 1] "LGL" = .ok c ∧ GoodNodes c [1, 1] R ∧
      (PieceDegrees [1, 1] fun s => derivative (Q s)) ∧
      OwnedSamples [1, 1] R (fun s => derivative (Q s)) h v ∧ compQuadWeights c [1, 1] = .ok w ∧
      w = [1, 1, 1] ∧ weightedSum w v = 3 / 2 ∧
      ∑ s ∈ Finset.range 2, h s * ((Q s).eval c.tau1 - (Q s).eval c.tau0) = 2 := by
  refine ⟨⟨.numerical, -1, 1, tausFn libQ (-1) 1 "LGL"⟩, fun _ => [-1, 1], fun _ => X,
    fun _ => 1 / 2, fun _ => 1 / 2, [1, 1, 1], rfl, ?_, ?_, ?_, ?_, rfl, ?_, ?_⟩
  · intro p hp
    simp only [List.mem_cons, List.not_mem_nil, or_false, or_self] at hp
    subst hp
    exact ⟨rfl, rfl, by decide +kernel⟩
  · intro s hs; simp
  · intro s hs i _ _; simp
  · have : compQuadWeights (⟨.numerical, -1, 1, tausFn libQ (-1) 1 "LGL"⟩ : Colloc ℚ) [1, 1] =
      (.ok [1, 1, 1] : Except PyErr (List ℚ)) := by decide +kernel
    exact this
  · unfold weightedSum
    simp [Finset.sum_range_succ]; norm_num
  · simp; norm_num

/-- The same defect for LGR of order 1: the integral of 1 over two segments of length 2 is 3. -/
theorem C07_lgr_order1_false :
    ∃ w, compQuadWeights (⟨.numerical, -1, 1, tausFn libQ (-1) 1 "LGR"⟩ : Colloc ℚ) [1, 1] = .ok w ∧
      w.sum = 3 ∧ w.sum ≠ 2 * (1 - (-1)) :=
  ⟨[1, 1, 1], by decide +kernel, by norm_num, by norm_num⟩

/-- The same defect for CGL of order 2: the integral of 1 over two segments of length 2 is 11/3. -/
theorem C07_cgl_false :
    ∃ w, compQuadWeights (⟨.numerical, -1, 1, tausFn libQ (-1) 1 "CGL"⟩ : Colloc ℚ) [2, 2] = .ok w ∧
      w.sum = 11 / 3 ∧ w.sum ≠ 2 * (1 - (-1)) :=
  ⟨[1/3, 4/3, 1/3, 4/3, 1/3], by decide +kernel, by norm_num, by norm_num⟩

/-- Hypotheses of `C07_lgr` are met: two segments of order 2. -/
example : ∀ p ∈ [2, 2], IsJacobiRoots 1 0 (p - 1) (libQ.jroots (p - 1) 1 0) := by
  intro p hp
  obtain rfl : p = 2 := by simpa using hp
  exact libQ_lgr2

end MPOpt
