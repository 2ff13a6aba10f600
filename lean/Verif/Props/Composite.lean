import Verif.Lemmas.Composite

/-! # C06, C08: composite matrices -/

set_option autoImplicit false

namespace MPOpt
open Polynomial
variable {K : Type} [Field K]

theorem iterate_derivative_interp {R : List K} (hn : R.Nodup) {p : Nat} (hl : R.length = p + 1)
    (P : K[X]) (hP : P.natDegree ≤ p) (order : Nat) (x : K) :
    (Polynomial.derivative^[order] P).eval x = ∑ j ∈ Finset.range (p + 1),
      (Polynomial.derivative^[order] (lbasis R j)).eval x * P.eval (R.getD j 0) := by
  have hdeg : P.degree < R.length := by
    rw [hl]; exact lt_of_le_of_lt degree_le_natDegree (by exact_mod_cast Nat.lt_succ_of_le hP)
  conv_lhs => rw [eq_sum_lbasis hn P hdeg, iterate_derivative_combo, hl]
  rfl

/-- **C06** The composite differentiation matrix (order 1 or 2) applied to samples of a continuous
piecewise polynomial gives at every node the derivative of the piece that owns it: node `i ≥ 1` of
segment `s` is owned by segment `s`, node 0 by segment 0. -/
theorem C06_composite_diff (c : Colloc K) (orders : List Nat) (R : Nat → List K)
    (hR : GoodNodes c orders R) (order : Nat) (ho : order = 1 ∨ order = 2) (P : Nat → K[X])
    (hP : PieceDegrees orders P) (v : Nat → K) (hv : PiecewiseSamples orders R P v) :
    ∃ M, compDiffMatrix c orders order = .ok M ∧ M.rows = orders.sum + 1 ∧
      M.cols = orders.sum + 1 ∧
      ∀ (s : Nat) (hs : s < orders.length) (i : Nat), i ≤ orders[s] → (s = 0 ∨ 1 ≤ i) →
        M.rowDot (segStart orders s + i) v =
          (Polynomial.derivative^[order] (P s)).eval ((R orders[s]).getD i 0) := by
  choose D hD hDr hDc hDe using fun p => diffMatrix_ok c.method (R p) (R p) order ho
  obtain ⟨M, hM, hr, hc, he⟩ := compDiffMatrix_spec c orders order D (by
    intro p hp
    obtain ⟨h1, h2, h3⟩ := hR p hp
    exact ⟨R p, h1, hD p, by rw [hDr, h2], by rw [hDc, h2]⟩)
  refine ⟨M, hM, hr, hc, fun s hs i hi hor => ?_⟩
  obtain ⟨-, h2, h3⟩ := hR orders[s] (List.getElem_mem hs)
  rw [rowDot_segment M _ orders s hs hc (fun j => (D orders[s]).e i j)
    (fun j => he s hs i j hi hor) v, iterate_derivative_interp h3 h2 _ (hP s hs)]
  apply Finset.sum_congr rfl
  intro j hj
  have hj : j < orders[s] + 1 := by simpa using hj
  rw [hDe _ _ _ (by omega), hv s hs j (by omega)]

/-- **C08** Row `i` of the block of segment `s` of the composite interpolation matrix evaluates the
piece of segment `s` at `taus[s][i]`; the rows are in segment order. -/
theorem C08_composite_interp (c : Colloc K) (orders : List Nat) (R : Nat → List K)
    (hR : GoodNodes c orders R) (taus : List (List K)) (hlen : taus.length = orders.length)
    (P : Nat → K[X]) (hP : PieceDegrees orders P) (v : Nat → K)
    (hv : PiecewiseSamples orders R P v) :
    ∃ M, compInterpMatrix c taus orders = .ok M ∧ M.rows = (taus.map List.length).sum ∧
      M.cols = orders.sum + 1 ∧
      ∀ (s : Nat) (hs : s < taus.length) (i : Nat) (hi : i < taus[s].length),
        M.rowDot (segStart (taus.map List.length) s + i) v = (P s).eval taus[s][i] := by
  obtain ⟨M, hM, hr, hc, he⟩ := compBlocks_spec orders taus
    (fun i p => do
      let ti ← pyIdx taus i
      let roots ← c.taus p
      return interpMatrix c.method roots ti) hlen
    (fun i => interpMatrix c.method (R (orders.getD i 0)) (taus.getD i [])) (by
      intro i hi
      obtain ⟨h1, h2, h3⟩ := hR orders[i] (List.getElem_mem hi)
      have hi' : i < taus.length := by omega
      rw [List.getD_eq_getElem _ _ hi, List.getD_eq_getElem _ _ hi']
      refine ⟨?_, rfl, h2⟩
      simp only [pyIdx_ok hi', h1]; rfl)
  refine ⟨M, hM, hr, hc, fun s hs i hi => ?_⟩
  have hs' : s < orders.length := by omega
  obtain ⟨-, h2, h3⟩ := hR orders[s] (List.getElem_mem hs')
  rw [rowDot_segment M _ orders s hs' hc _ (fun j => he s hs' i j (by
    rw [List.getD_eq_getElem _ _ hs]; exact hi)) v]
  rw [List.getD_eq_getElem _ _ hs', List.getD_eq_getElem _ _ hs]
  have := (C03_interp_exact c.method (R orders[s]) taus[s] h3 orders[s] h2 (P s) (hP s hs')
    (fun j => (P s).eval ((R orders[s]).getD j 0)) (fun j hj => by
      rw [List.getD_eq_getElem _ _ hj]) i hi).2.2
  rw [← this]
  unfold Mat.rowDot
  have hcol : (interpMatrix c.method (R orders[s]) taus[s]).cols = orders[s] + 1 := h2
  rw [hcol]
  apply Finset.sum_congr rfl
  intro j hj
  have hj : j < orders[s] + 1 := by simpa using hj
  rw [hv s hs' j (by omega)]

/-- **C08** The composite derivative matrix evaluates the first / second derivative of the piece of
segment `s` at `taus[s][i]`. -/
theorem C08_composite_interp_derivative (c : Colloc K) (orders : List Nat) (R : Nat → List K)
    (hR : GoodNodes c orders R) (taus : List (List K)) (hlen : taus.length = orders.length)
    (order : Nat) (ho : order = 1 ∨ order = 2)
    (P : Nat → K[X]) (hP : PieceDegrees orders P) (v : Nat → K)
    (hv : PiecewiseSamples orders R P v) :
    ∃ M, compInterpDMatrix c taus orders order = .ok M ∧ M.rows = (taus.map List.length).sum ∧
      M.cols = orders.sum + 1 ∧
      ∀ (s : Nat) (hs : s < taus.length) (i : Nat) (hi : i < taus[s].length),
        M.rowDot (segStart (taus.map List.length) s + i) v =
          (Polynomial.derivative^[order] (P s)).eval taus[s][i] := by
  choose D hD hDr hDc hDe using fun i => diffMatrix_ok c.method (R (orders.getD i 0))
    (taus.getD i []) order ho
  obtain ⟨M, hM, hr, hc, he⟩ := compBlocks_spec orders taus
    (fun i p => do
      let ti ← pyIdx taus i
      let roots ← c.taus p
      diffMatrix c.method roots ti order) hlen D (by
      intro i hi
      obtain ⟨h1, h2, h3⟩ := hR orders[i] (List.getElem_mem hi)
      have hi' : i < taus.length := by omega
      have e1 := hD i
      have e2 := hDr i
      have e3 := hDc i
      rw [List.getD_eq_getElem _ _ hi, List.getD_eq_getElem _ _ hi'] at e1
      rw [List.getD_eq_getElem _ _ hi] at e3
      refine ⟨?_, e2, by rw [e3, h2]⟩
      simp only [pyIdx_ok hi', h1]; exact e1)
  refine ⟨M, hM, hr, hc, fun s hs i hi => ?_⟩
  have hs' : s < orders.length := by omega
  obtain ⟨-, h2, h3⟩ := hR orders[s] (List.getElem_mem hs')
  rw [rowDot_segment M _ orders s hs' hc _ (fun j => he s hs' i j (by
    rw [List.getD_eq_getElem _ _ hs]; exact hi)) v,
    iterate_derivative_interp h3 h2 _ (hP s hs')]
  apply Finset.sum_congr rfl
  intro j hj
  have hj : j < orders[s] + 1 := by simpa using hj
  have e := hDe s i j (by rw [List.getD_eq_getElem _ _ hs']; omega)
  rw [List.getD_eq_getElem _ _ hs', List.getD_eq_getElem _ _ hs, List.getD_eq_getElem _ _ hi] at e
  rw [e, hv s hs' j (by omega)]

/-- Shape of the tau list is checked: fewer tau lists than segments raise `IndexError`. -/
theorem C08_short_taus_raise (c : Colloc K) (p : Nat) :
    compInterpMatrix c [] [p] = .error .index := rfl

/-- **C01/C06** If the node function returns the wrong number of nodes for the first order, building
the composite differentiation matrix raises. -/
theorem compDiffMatrix_wrong_nodes (c : Colloc K) (p : Nat) (rest : List Nat) (order : Nat)
    (ho : order = 1 ∨ order = 2) (r : List K) (hr : c.taus p = .ok r) (hl : r.length ≠ p + 1) :
    compDiffMatrix c (p :: rest) order = .error .shape := by
  obtain ⟨D, hD, h1, h2, -⟩ := diffMatrix_ok c.method r r order ho
  have : ∀ M : Mat K, M.setBlock 0 (p + 1) 0 (p + 1) D = .error .shape := by
    intro M
    unfold Mat.setBlock
    rw [if_neg (by rw [h1, h2]; simp [hl])]
  unfold compDiffMatrix
  rw [List.zipIdx_cons, List.foldlM_cons]
  simp only [hr, hD, py_bind_ok, if_true, this]
  rfl

/-- **C01** (false part) With scheme LG the transcription cannot be built: the composite
differentiation matrix raises for every order list. -/
theorem C01_lg_composite_false (lib : NodeLib K) (m : Method) (lo hi : K) (p : Nat) (rest : List Nat)
    (hl : (lib.leggauss (p - 1)).length = p - 1) (order : Nat) (ho : order = 1 ∨ order = 2) :
    ∃ e, compDiffMatrix ⟨m, lo, hi, tausFn lib lo hi "LG"⟩ (p :: rest) order = .error e := by
  rcases Nat.lt_or_ge 1 p with h1 | h1
  · have hp : ¬ p ≤ 1 := by omega
    refine ⟨.shape, compDiffMatrix_wrong_nodes _ p rest order ho
      (((-1 : K) :: lib.leggauss (p - 1)).map (rescale lo hi)) ?_ ?_⟩
    · simp [tausFn, lgRoots, hp]
    · simp [hl]; omega
  · refine ⟨.value, ?_⟩
    unfold compDiffMatrix
    rw [List.zipIdx_cons, List.foldlM_cons]
    have : tausFn lib lo hi "LG" p = .error .value := by simp [tausFn, lgRoots, h1]
    simp only [this]
    rfl

/-- **C01** (false part) The same for an unknown scheme and first order at least 2. -/
theorem C01_unknown_scheme_composite_false (lib : NodeLib K) (m : Method) (lo hi : K)
    (scheme : String) (hs : scheme ∉ ["LG", "LGR", "LGL", "CGL"]) (p : Nat) (hp : 2 ≤ p)
    (rest : List Nat) (order : Nat) (ho : order = 1 ∨ order = 2) :
    compDiffMatrix ⟨m, lo, hi, tausFn lib lo hi scheme⟩ (p :: rest) order = .error .shape := by
  simp only [List.mem_cons, List.not_mem_nil, or_false, not_or] at hs
  have h1 : 1 < p := hp
  refine compDiffMatrix_wrong_nodes _ p rest order ho (linspace lo hi p) ?_ ?_
  · simp [tausFn, hs, otherRoots, h1]
  · simp [linspace]

/-! ### Concrete instance: `|x|`-like continuous piecewise polynomial on two segments -/

/-- Nodes -1, 1 for order 1 and -1, 0, 1 for order 2. -/
def collQ : Colloc ℚ := ⟨.numerical, -1, 1, fun p => .ok (if p = 1 then [-1, 1] else [-1, 0, 1])⟩

example : GoodNodes collQ [1, 2] (fun p => if p = 1 then [-1, 1] else [-1, 0, 1]) := by
  intro p hp
  simp only [List.mem_cons, List.not_mem_nil, or_false] at hp
  rcases hp with rfl | rfl
  · exact ⟨rfl, rfl, by decide +kernel⟩
  · exact ⟨rfl, rfl, by decide +kernel⟩

/-- Pieces `-x` and `x^2 + x - 1` meet at the shared node (values 1, -1, -1, 1). -/
example : PiecewiseSamples [1, 2] (fun p => if p = 1 then [-1, 1] else [-1, 0, 1])
    (fun s => if s = 0 then -X else X ^ 2 + X - 1 : Nat → ℚ[X])
    (fun j => ([1, -1, -1, 1] : List ℚ).getD j 0) := by
  intro s hs i hi
  have : s = 0 ∨ s = 1 := by simp at hs; omega
  rcases this with rfl | rfl
  · have : i = 0 ∨ i = 1 := by simp at hi; omega
    rcases this with rfl | rfl <;> simp [segStart]
  · have : i = 0 ∨ i = 1 ∨ i = 2 := by simp at hi; omega
    rcases this with rfl | rfl | rfl <;> simp [segStart]

/-- The matrix itself, executed: derivatives -1, -1 (left piece at the shared node), 1, 3. -/
example : (compDiffMatrix collQ [1, 2] 1).toOption.map (fun M => (List.range 4).map fun r =>
    M.rowDot r (fun j => ([1, -1, -1, 1] : List ℚ).getD j 0)) = some [-1, -1, 1, 3] := by
  decide +kernel

end MPOpt
