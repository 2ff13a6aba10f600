import Mathlib.Tactic.Linarith
import Mathlib.Tactic.LinearCombination
import Mathlib.Tactic.NormNum
import Verif.Spec.Nodes
import Verif.Model.Collocation
import Verif.Lemmas.Poly

/-! # C01: collocation nodes -/

set_option linter.unusedSectionVars false
set_option linter.unusedSimpArgs false

set_option autoImplicit false

namespace MPOpt
open Polynomial

section Field
variable {K : Type} [Field K] [LinearOrder K] [IsStrictOrderedRing K]

theorem rescale_strictMono {lo hi : K} (h : lo < hi) {x y : K} (hxy : x < y) :
    rescale lo hi x < rescale lo hi y := by
  unfold rescale
  have : 0 < (hi - lo) / 2 := by linarith
  have := mul_lt_mul_of_pos_left hxy this
  linarith

theorem rescale_neg_one (lo hi : K) : rescale lo hi (-1) = lo := by simp [rescale]

theorem rescale_one (lo hi : K) : rescale lo hi 1 = hi := by unfold rescale; ring

/-- Rescaling `-1, inner nodes, 1` spans `[lo, hi]`. -/
theorem nodesSpan_of_inner {lo hi : K} (h : lo < hi) {n : Nat} {r : List K} (hl : r.length = n)
    (hs : r.Pairwise (· < ·)) (hin : ∀ x ∈ r, -1 < x ∧ x < 1) :
    NodesSpan lo hi (n + 1) (((-1) :: r ++ [1]).map (rescale lo hi)) where
  length := by simp [hl]
  sorted := by
    apply List.Pairwise.map (R := (· < ·)) _ (fun a b hab => rescale_strictMono h hab)
    rw [List.cons_append, List.pairwise_cons]
    constructor
    · intro x hx
      rcases List.mem_append.1 hx with hx | hx
      · exact (hin x hx).1
      · simp only [List.mem_singleton] at hx; subst hx; norm_num
    · rw [List.pairwise_append]
      refine ⟨hs, by simp, fun a ha b hb => ?_⟩
      simp only [List.mem_singleton] at hb; subst hb; exact (hin a ha).2
  first := by simp [rescale_neg_one]
  last := by
    simp only [List.cons_append, List.map_cons, List.map_append, List.map_nil, ← List.cons_append,
      List.getLast?_concat, rescale_one]

theorem nodesSpan_one {lo hi : K} (h : lo < hi) : NodesSpan lo hi 1 [lo, hi] :=
  ⟨rfl, by simp [h], rfl, rfl⟩

/-- **C01** LGR nodes: for every degree at least 1, `d + 1` increasing nodes from end to end. -/
theorem C01_lgr_nodes (lib : NodeLib K) (lo hi : K) (h : lo < hi) (d : Nat) (hd : 1 ≤ d)
    (hj : 2 ≤ d → IsJacobiRoots 1 0 (d - 1) (lib.jroots (d - 1) 1 0)) :
    ∃ r, tausFn lib lo hi "LGR" d = .ok r ∧ NodesSpan lo hi d r := by
  rcases Nat.lt_or_ge 1 d with h1 | h1
  · have hJ := hj h1
    refine ⟨_, by simp [tausFn, lgrRoots, h1]; rfl, ?_⟩
    have := nodesSpan_of_inner h hJ.length hJ.sorted hJ.inside
    rw [Nat.sub_add_cancel hd] at this
    simpa using this
  · obtain rfl : d = 1 := by omega
    exact ⟨_, by simp [tausFn, lgrRoots], nodesSpan_one h⟩

/-- **C01** LGL nodes. -/
theorem C01_lgl_nodes (lib : NodeLib K) (lo hi : K) (h : lo < hi) (d : Nat) (hd : 1 ≤ d)
    (hj : 2 ≤ d → IsJacobiRoots 1 1 (d - 1) (lib.jroots (d - 1) 1 1)) :
    ∃ r, tausFn lib lo hi "LGL" d = .ok r ∧ NodesSpan lo hi d r := by
  rcases Nat.lt_or_ge 1 d with h1 | h1
  · have hJ := hj h1
    refine ⟨_, by simp [tausFn, lglRoots, h1]; rfl, ?_⟩
    have := nodesSpan_of_inner h hJ.length hJ.sorted hJ.inside
    rw [Nat.sub_add_cancel hd] at this
    simpa using this
  · obtain rfl : d = 1 := by omega
    exact ⟨_, by simp [tausFn, lglRoots], nodesSpan_one h⟩

end Field

/-- **C01** CGL nodes (over ℝ, with the real cosine). -/
theorem C01_cgl_nodes (lib : NodeLib ℝ) (hc : IsCosine lib) (lo hi : ℝ) (h : lo < hi) (d : Nat)
    (hd : 1 ≤ d) : ∃ r, tausFn lib lo hi "CGL" d = .ok r ∧ NodesSpan lo hi d r := by
  have hd0 : d ≠ 0 := by omega
  have hdR : (0 : ℝ) < d := by exact_mod_cast hd
  refine ⟨_, by simp [tausFn, cglRoots, hd0]; rfl, ⟨by simp, ?_, ?_, ?_⟩⟩
  · rw [List.pairwise_reverse, List.pairwise_map]
    refine (List.pairwise_lt_range (n := d + 1)).imp_of_mem ?_
    intro a b ha hb hab
    apply rescale_strictMono h
    show lib.cosPi b d < lib.cosPi a d
    rw [hc, hc]
    have hb : b ≤ d := by simp at hb; omega
    apply Real.strictAntiOn_cos
    · constructor
      · positivity
      · rw [div_le_iff₀ hdR]
        apply mul_le_mul_of_nonneg_left _ Real.pi_pos.le
        exact_mod_cast (by omega)
    · constructor
      · positivity
      · rw [div_le_iff₀ hdR]
        apply mul_le_mul_of_nonneg_left _ Real.pi_pos.le
        exact_mod_cast hb
    · apply div_lt_div_of_pos_right _ hdR
      apply mul_lt_mul_of_pos_left _ Real.pi_pos
      exact_mod_cast hab
  · rw [List.range_succ]
    have : lib.cosPi d d = -1 := by
      rw [hc, mul_div_assoc, div_self hdR.ne', mul_one, Real.cos_pi]
    simp [this, rescale]
  · rw [List.range_succ_eq_map]
    have : lib.cosPi 0 d = 1 := by rw [hc]; simp
    simp [this, rescale]
    ring

section Counterexamples
variable {K : Type} [Field K] [LinearOrder K] [IsStrictOrderedRing K]

/-- **C01** (false part) The LG scheme returns one node too few for every degree it accepts, so the
documented claim fails. -/
theorem C01_lg_false (lib : NodeLib K) (lo hi : K) (d : Nat)
    (hl : (lib.leggauss (d - 1)).length = d - 1) :
    (∃ e, tausFn lib lo hi "LG" d = .error e) ∨
    (∃ r, tausFn lib lo hi "LG" d = .ok r ∧ r.length = d ∧ ¬ NodesSpan lo hi d r) := by
  rcases Nat.lt_or_ge 1 d with h1 | h1
  · right
    have hlen : (((-1 : K) :: lib.leggauss (d - 1)).map (rescale lo hi)).length = d := by
      simp [hl]; omega
    refine ⟨((-1 : K) :: lib.leggauss (d - 1)).map (rescale lo hi), ?_, hlen, fun h => ?_⟩
    · have : ¬ d ≤ 1 := by omega
      simp [tausFn, lgRoots, this]
    · have := h.length; omega
  · left; exact ⟨_, by simp [tausFn, lgRoots, h1]; rfl⟩

/-- **C01** (false part) An unknown scheme falls back to equally spaced points, but only `d` of them
for `d ≥ 2`. -/
theorem C01_unknown_scheme_false (lib : NodeLib K) (lo hi : K) (scheme : String)
    (hs : scheme ∉ ["LG", "LGR", "LGL", "CGL"]) (d : Nat) (hd : 2 ≤ d) :
    ∃ r, tausFn lib lo hi scheme d = .ok r ∧ r.length = d ∧ ¬ NodesSpan lo hi d r := by
  simp only [List.mem_cons, List.not_mem_nil, or_false, not_or] at hs
  have h1 : 1 < d := hd
  refine ⟨linspace lo hi d, by simp [tausFn, hs, otherRoots, h1], by simp [linspace], fun h => ?_⟩
  have := h.length
  simp [linspace] at this

end Counterexamples

/-! ### Concrete instances -/

/-- A node library over ℚ: exact Jacobi roots for `n = 1` (and dummies elsewhere). -/
def libQ : NodeLib ℚ where
  jroots n _ β := if n = 1 then (if β = 0 then [-1/3] else [0]) else []
  leggauss n := if n = 1 then [0] else []
  cosPi j d := if d = 1 then (if j = 0 then 1 else -1)
    else if d = 2 then (if j = 0 then 1 else if j = 1 then 0 else -1) else 0

/-- The Jacobi contract is met by the first non-trivial LGR node set (degree 2). -/
theorem libQ_lgr2 : IsJacobiRoots 1 0 1 (libQ.jroots 1 1 0) where
  length := rfl
  sorted := by simp [libQ]
  inside := by simp [libQ]; norm_num
  orthogonal := by
    intro q hq
    obtain ⟨c, rfl⟩ : ∃ c, q = C c := ⟨_, eq_C_of_degree_le_zero (by
      rw [← natDegree_eq_zero_iff_degree_le_zero, ← Nat.lt_one_iff]
      exact natDegree_lt_of_degree_lt one_pos hq)⟩
    have : ((1 - X) ^ 1 * (1 + X) ^ 0 * ((libQ.jroots 1 1 0).map fun x => X - C x).prod * C c : ℚ[X])
        = derivative (C (c/3) * (X + X ^ 2 - X ^ 3)) := by
      have h3 : (C (3:ℚ)) * C (1/3) = 1 := by rw [← C_mul]; norm_num
      have e1 : (C c : ℚ[X]) = C 3 * C (c / 3) := by rw [← C_mul]; congr 1; ring
      have e2 : (C (-1/3) : ℚ[X]) = - C (1/3) := by rw [← C_neg]; congr 1; norm_num
      simp [libQ]
      rw [e1, e2]
      have : (C (3:ℚ)) = 3 := rfl
      have h2 : (C (2:ℚ)) = 2 := rfl
      rw [h2]
      rw [this] at h3 ⊢
      linear_combination (C (c/3) * (1 - X)) * h3
    rw [this, polyIntegral_derivative]
    simp; ring

end MPOpt
