import Verif.Model.Transcription
import Verif.Spec.Linear
import Verif.Lemmas.Composite
import Mathlib.Data.List.GetD
import Mathlib.Algebra.BigOperators.Intervals
import Mathlib.Algebra.BigOperators.Pi

/-! # Column-major vectors and block-diagonal products -/

set_option autoImplicit false

namespace MPOpt

theorem flatMap_range_eq {α : Type} (n m : Nat) (g : Nat → Nat → α) :
    (List.range n).flatMap (fun j => (List.range m).map (g j)) =
      (List.range (n * m)).map fun r => g (r / m) (r % m) := by
  rcases Nat.eq_zero_or_pos m with rfl | hm
  · simp
  induction n with
  | zero => simp
  | succ n ih =>
    rw [List.range_succ, List.flatMap_append, ih, Nat.succ_mul, List.range_add, List.map_append]
    congr 1
    simp only [List.flatMap_cons, List.flatMap_nil, List.append_nil, List.map_map]
    apply List.map_congr_left
    intro i hi
    have hi : i < m := by simpa using hi
    simp only [Function.comp_apply]
    rw [Nat.mul_comm n m, Nat.mul_add_div hm, Nat.div_eq_of_lt hi, Nat.mul_add_mod,
      Nat.mod_eq_of_lt hi, Nat.add_zero]

theorem sum_range_mul {K : Type} [AddCommMonoid K] (n m : Nat) (f : Nat → K) :
    ∑ c ∈ Finset.range (n * m), f c =
      ∑ j ∈ Finset.range n, ∑ k ∈ Finset.range m, f (j * m + k) := by
  induction n with
  | zero => simp
  | succ n ih =>
    rw [Nat.succ_mul, Finset.sum_range_add, ih, Finset.sum_range_succ]

namespace Mat
variable {K : Type}

theorem vec_eq (M : Mat K) :
    M.vec = (List.range (M.cols * M.rows)).map fun r => M.e (r % M.rows) (r / M.rows) :=
  flatMap_range_eq M.cols M.rows fun j i => M.e i j

theorem length_vec (M : Mat K) : M.vec.length = M.cols * M.rows := by simp [vec_eq]

theorem getD_vec [Zero K] (M : Mat K) {i j : Nat} (hi : i < M.rows) (hj : j < M.cols) :
    M.vec.getD (j * M.rows + i) 0 = M.e i j := by
  have hlt : j * M.rows + i < M.cols * M.rows := by
    calc j * M.rows + i < j * M.rows + M.rows := by omega
      _ = (j + 1) * M.rows := by rw [Nat.succ_mul]
      _ ≤ M.cols * M.rows := Nat.mul_le_mul_right _ hj
  have hpos : 0 < M.rows := by omega
  rw [vec_eq, List.getD_eq_getElem _ _ (by simpa using hlt)]
  simp only [List.getElem_map, List.getElem_range]
  rw [Nat.mul_comm j, Nat.mul_add_mod, Nat.mod_eq_of_lt hi, Nat.mul_add_div hpos,
    Nat.div_eq_of_lt hi, Nat.add_zero]

end Mat

namespace Disc
variable {K : Type} [Field K]

theorem blockDiag_rows {n : Nat} (hn : 0 < n) (D : Mat K) : (blockDiag n D).rows = n * D.rows := by
  unfold blockDiag
  split
  · rfl
  · obtain rfl : n = 1 := by omega
    simp

theorem blockDiag_cols {n : Nat} (hn : 0 < n) (D : Mat K) : (blockDiag n D).cols = n * D.cols := by
  unfold blockDiag
  split
  · rfl
  · obtain rfl : n = 1 := by omega
    simp

theorem blockDiag_e {n : Nat} (hn : 0 < n) (D : Mat K) {r j k : Nat} (hr : r < n * D.rows)
    (hk : k < D.cols) (hj : j < n) :
    (blockDiag n D).e r (j * D.cols + k) = if r / D.rows = j then D.e (r % D.rows) k else 0 := by
  have hpos : 0 < D.cols := by omega
  have hdr : 0 < D.rows := by
    rcases Nat.eq_zero_or_pos D.rows with h | h
    · rw [h] at hr; simp at hr
    · exact h
  unfold blockDiag
  split
  · simp only [Mat.kron, Mat.eye]
    rw [Nat.mul_comm j, Nat.mul_add_mod, Nat.mod_eq_of_lt hk, Nat.mul_add_div hpos,
      Nat.div_eq_of_lt hk, Nat.add_zero]
    by_cases h : r / D.rows = j <;> simp [h]
  · obtain rfl : n = 1 := by omega
    obtain rfl : j = 0 := by omega
    simp only [Nat.one_mul] at hr
    simp [Nat.div_eq_of_lt hr, Nat.mod_eq_of_lt hr]

/-- `ca.mtimes(kron(eye(n), D), X[:])` applies `D` to every column of `X`. -/
theorem mtimesCol_blockDiag {n : Nat} (hn : 0 < n) (D : Mat K) (X : Mat (SX K)) (hX : X.cols = n)
    (hD : D.cols = X.rows) :
    mtimesCol (constMat (blockDiag n D)) X.vec =
      .ok ((List.range n).flatMap fun j => (List.range D.rows).map fun i =>
        fun σ => D.rowDot i fun k => X.e k j σ) := by
  have hshape : (constMat (blockDiag n D)).cols = (Mat.ofCol X.vec).rows := by
    show (blockDiag n D).cols = X.vec.length
    rw [blockDiag_cols hn, Mat.length_vec, hX, hD]
  unfold mtimesCol Mat.mtimes
  rw [if_pos hshape, py_bind_ok]
  simp only [pure, Except.pure]
  congr 1
  rw [Mat.vec_eq, flatMap_range_eq]
  have hrows : (constMat (blockDiag n D)).rows = n * D.rows := blockDiag_rows hn D
  simp only [hrows]
  have hc : (Mat.ofCol X.vec).cols = 1 := rfl
  simp only [hc, Nat.one_mul]
  apply List.map_congr_left
  intro r hr
  have hr : r < n * D.rows := by simpa using hr
  rw [Nat.mod_eq_of_lt hr, Nat.div_eq_of_lt hr]
  have hcols : (constMat (blockDiag n D)).cols = n * D.cols := blockDiag_cols hn D
  rw [hcols, sum_range_mul]
  funext σ
  have hdr : 0 < D.rows := by
    rcases Nat.eq_zero_or_pos D.rows with h | h
    · rw [h] at hr; simp at hr
    · exact h
  have hjlt : r / D.rows < n := (Nat.div_lt_iff_lt_mul hdr).2 hr
  rw [Finset.sum_apply, Finset.sum_eq_single (r / D.rows)]
  · rw [Finset.sum_apply]
    unfold Mat.rowDot
    apply Finset.sum_congr rfl
    intro k hk
    have hk : k < D.cols := by simpa using hk
    show (blockDiag n D).e r (r / D.rows * D.cols + k) * X.vec.getD (r / D.rows * D.cols + k) 0 σ = _
    rw [blockDiag_e hn D hr hk hjlt, if_pos rfl, hD, Mat.getD_vec X (by omega) (by omega)]
  · intro j hj hne
    have hj : j < n := by simpa using hj
    rw [Finset.sum_apply]
    apply Finset.sum_eq_zero
    intro k hk
    have hk : k < D.cols := by simpa using hk
    show (blockDiag n D).e r (j * D.cols + k) * X.vec.getD (j * D.cols + k) 0 σ = _
    rw [blockDiag_e hn D hr hk hj, if_neg (fun e => hne e.symm), zero_mul]
  · intro h; exact absurd (by simpa using hjlt) h

end Disc
end MPOpt
