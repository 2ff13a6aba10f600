import Verif.Model.PostProcess
import Verif.Spec.PostProcess
import Verif.Lemmas.Residual

/-! # Stacking of matrices and lists of segments -/

set_option autoImplicit false
set_option linter.unusedSectionVars false

namespace MPOpt
variable {K : Type}

/-- Columns of a matrix. -/
def Mat.toCols (A : Mat K) : List (List K) :=
  (List.range A.cols).map fun j => (List.range A.rows).map fun i => A.e i j

theorem Mat.vstack_ok {A B : Mat K} (h : A.cols = B.cols) :
    ∃ C, A.vstack B = .ok C ∧ C.cols = A.cols ∧ C.rows = A.rows + B.rows ∧
      C.toRows = A.toRows ++ B.toRows := by
  refine ⟨⟨A.rows + B.rows, A.cols, fun i j => if i < A.rows then A.e i j else B.e (i - A.rows) j⟩,
    by unfold vstack; rw [if_pos h], rfl, rfl, ?_⟩
  unfold toRows
  simp only
  rw [List.range_add, List.map_append, List.map_map]
  congr 1
  · apply List.map_congr_left
    intro i hi
    have : i < A.rows := by simpa using hi
    simp [this]
  · apply List.map_congr_left
    intro i _
    simp [h]

theorem Mat.hstack_ok {A B : Mat K} (h : A.rows = B.rows) :
    ∃ C, A.hstack B = .ok C ∧ C.rows = A.rows ∧ C.cols = A.cols + B.cols ∧
      C.toCols = A.toCols ++ B.toCols := by
  refine ⟨⟨A.rows, A.cols + B.cols, fun i j => if j < A.cols then A.e i j else B.e i (j - A.cols)⟩,
    by unfold hstack; rw [if_pos h], rfl, rfl, ?_⟩
  unfold toCols
  simp only
  rw [List.range_add, List.map_append, List.map_map]
  congr 1
  · apply List.map_congr_left
    intro i hi
    have : i < A.cols := by simpa using hi
    simp [this]
  · apply List.map_congr_left
    intro i _
    simp [h]

theorem Mat.length_toRows (A : Mat K) : A.toRows.length = A.rows := by simp [toRows]

theorem Mat.toRows_getElem? (A : Mat K) {i : Nat} (hi : i < A.rows) :
    A.toRows[i]? = some ((List.range A.cols).map (A.e i)) := by
  unfold toRows; rw [List.getElem?_map, List.getElem?_range hi]; rfl

/-- A list known segment by segment. -/
theorem eq_flatten_of_getElem? {α : Type} : ∀ (B : List (List α)) (L : List α),
    L.length = (B.map List.length).sum →
    (∀ (s : Nat) (hs : s < B.length) (i : Nat) (hi : i < B[s].length),
      L[segStart (B.map List.length) s + i]? = some B[s][i]) → L = B.flatten := by
  intro B
  induction B with
  | nil => intro L h _; simpa using h
  | cons b B ih =>
    intro L hl h
    simp only [List.map_cons, List.sum_cons] at hl
    have h1 : L.take b.length = b := by
      apply List.ext_getElem
      · simp; omega
      · intro i h1 h2
        have := h 0 (by simp) i (by simpa using h2)
        simp only [segStart_zero, Nat.zero_add, List.getElem_cons_zero] at this
        rw [List.getElem_take]
        exact (List.getElem?_eq_some_iff.1 this).2
    have h2 : L.drop b.length = B.flatten := by
      apply ih
      · simp; omega
      · intro s hs i hi
        have := h (s + 1) (by simpa using hs) i (by simpa using hi)
        rw [List.getElem?_drop]
        simp only [List.map_cons, segStart, List.take_succ_cons, List.sum_cons,
          List.getElem_cons_succ] at this
        rw [show b.length + (segStart (B.map List.length) s + i) =
          b.length + (List.take s (B.map List.length)).sum + i by unfold segStart; omega]
        exact this
    rw [List.flatten_cons, ← h2]
    conv_lhs => rw [← List.take_append_drop b.length L, h1]

/-- Stacking a list of phases row-wise (`b = true`) or, for parameters, column-wise (`b = false`). -/
theorem foldl_stack {f : Nat → Py (PostData K)} (q : Nat → PostData K) (nx nu : Nat) (na : Nat) (byRows : Bool)
    (l : List Nat) (hf : ∀ ph ∈ l, f ph = .ok (q ph)) (hx : ∀ ph ∈ l, (q ph).x.cols = nx)
    (hu : ∀ ph ∈ l, (q ph).u.cols = nu)
    (ha : ∀ ph ∈ l, (if byRows then (q ph).a.cols else (q ph).a.rows) = na) :
    ∀ acc : PostData K, acc.x.cols = nx → acc.u.cols = nu →
      (if byRows then acc.a.cols else acc.a.rows) = na →
      ∃ D, l.foldlM (fun acc ph => do
          let q ← f ph
          return (⟨← acc.x.vstack q.x, ← acc.u.vstack q.u, acc.t ++ q.t,
            ← (if byRows then acc.a.vstack q.a else acc.a.hstack q.a)⟩ : PostData K)) acc = .ok D ∧
        D.x.toRows = acc.x.toRows ++ l.flatMap (fun ph => (q ph).x.toRows) ∧
        D.u.toRows = acc.u.toRows ++ l.flatMap (fun ph => (q ph).u.toRows) ∧
        D.t = acc.t ++ l.flatMap (fun ph => (q ph).t) ∧
        (if byRows then D.a.toRows = acc.a.toRows ++ l.flatMap (fun ph => (q ph).a.toRows)
          else D.a.toCols = acc.a.toCols ++ l.flatMap (fun ph => (q ph).a.toCols)) := by
  induction l with
  | nil =>
    intro acc _ _ _
    refine ⟨acc, rfl, by simp, by simp, by simp, ?_⟩
    split <;> simp
  | cons ph l ih =>
    intro acc h1 h2 h3
    have m : ph ∈ ph :: l := by simp
    obtain ⟨X, hX, hXc, -, hXr⟩ := Mat.vstack_ok (A := acc.x) (B := (q ph).x) (by rw [h1, hx ph m])
    obtain ⟨U, hU, hUc, -, hUr⟩ := Mat.vstack_ok (A := acc.u) (B := (q ph).u) (by rw [h2, hu ph m])
    obtain ⟨A, hA, hAc, hAr⟩ : ∃ A, (if byRows then acc.a.vstack (q ph).a else acc.a.hstack (q ph).a) = .ok A ∧
        (if byRows then A.cols else A.rows) = na ∧
        (if byRows then A.toRows = acc.a.toRows ++ (q ph).a.toRows
          else A.toCols = acc.a.toCols ++ (q ph).a.toCols) := by
      have ha := ha ph m
      cases byRows with
      | true =>
        simp only [if_true] at h3 ha ⊢
        obtain ⟨A, e1, e2, -, e3⟩ := Mat.vstack_ok (A := acc.a) (B := (q ph).a) (by rw [h3, ha])
        exact ⟨A, e1, by rw [e2, h3], e3⟩
      | false =>
        simp only [Bool.false_eq_true, if_false] at h3 ha ⊢
        obtain ⟨A, e1, e2, -, e3⟩ := Mat.hstack_ok (A := acc.a) (B := (q ph).a) (by rw [h3, ha])
        exact ⟨A, e1, by rw [e2, h3], e3⟩
    obtain ⟨D, hD, d1, d2, d3, d4⟩ := ih (fun p hp => hf p (List.mem_cons_of_mem _ hp))
      (fun p hp => hx p (List.mem_cons_of_mem _ hp)) (fun p hp => hu p (List.mem_cons_of_mem _ hp))
      (fun p hp => ha p (List.mem_cons_of_mem _ hp)) ⟨X, U, acc.t ++ (q ph).t, A⟩ (by rw [← h1]; exact hXc)
      (by rw [← h2]; exact hUc) hAc
    refine ⟨D, ?_, ?_, ?_, ?_, ?_⟩
    · rw [List.foldlM_cons, hf ph m, py_bind_ok, hX, py_bind_ok, hU, py_bind_ok, hA, py_bind_ok]
      exact hD
    · rw [d1]; simp only; rw [hXr, List.flatMap_cons, List.append_assoc]
    · rw [d2]; simp only; rw [hUr, List.flatMap_cons, List.append_assoc]
    · rw [d3]; simp only; rw [List.flatMap_cons, List.append_assoc]
    · cases byRows with
      | true =>
        simp only [if_true] at d4 hAr ⊢
        rw [d4, hAr, List.flatMap_cons, List.append_assoc]
      | false =>
        simp only [Bool.false_eq_true, if_false] at d4 hAr ⊢
        rw [d4, hAr, List.flatMap_cons, List.append_assoc]

end MPOpt
