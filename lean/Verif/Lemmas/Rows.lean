import Verif.Spec.Mesh
import Mathlib.Algebra.Order.Ring.Defs
import Mathlib.Tactic.Ring
import Mathlib.Tactic.Linarith
import Mathlib.Tactic.FieldSimp

/-! # Bounds and rows -/

set_option autoImplicit false

namespace MPOpt
variable {K : Type}

/-- A vector of values respects vectors of bounds of the same length, entry by entry in the sense of `W`. -/
def HoldsBy (W : Ext K → Ext K → K → Prop) (g : List K) (lo hi : List (Ext K)) : Prop :=
  g.length = lo.length ∧ g.length = hi.length ∧
    ∀ (i : Nat) (v : K) (l h : Ext K), g[i]? = some v → lo[i]? = some l → hi[i]? = some h → W l h v

variable {W : Ext K → Ext K → K → Prop}

theorem holdsBy_nil : HoldsBy W ([] : List K) [] [] := by
  refine ⟨rfl, rfl, ?_⟩
  intro i v l h hv; simp at hv

theorem holdsBy_append {g g' : List K} {lo lo' hi hi' : List (Ext K)}
    (h1 : g.length = lo.length) (h2 : g.length = hi.length) :
    HoldsBy W (g ++ g') (lo ++ lo') (hi ++ hi') ↔ HoldsBy W g lo hi ∧ HoldsBy W g' lo' hi' := by
  constructor
  · rintro ⟨a1, a2, a⟩
    simp only [List.length_append] at a1 a2
    refine ⟨⟨h1, h2, fun i v l h hv hl hh => ?_⟩, by omega, by omega, fun i v l h hv hl hh => ?_⟩
    · have e := (List.getElem?_eq_some_iff.1 hv).1
      refine a i v l h ?_ ?_ ?_
      · rw [List.getElem?_append_left e]; exact hv
      · rw [List.getElem?_append_left (by omega)]; exact hl
      · rw [List.getElem?_append_left (by omega)]; exact hh
    · refine a (g.length + i) v l h ?_ ?_ ?_
      · rw [List.getElem?_append_right (by omega)]; simpa using hv
      · rw [List.getElem?_append_right (by omega), ← h1]; simpa using hl
      · rw [List.getElem?_append_right (by omega), ← h2]; simpa using hh
  · rintro ⟨⟨-, -, a⟩, b1, b2, b⟩
    refine ⟨by simp; omega, by simp; omega, fun i v l h hv hl hh => ?_⟩
    rcases Nat.lt_or_ge i g.length with e | e
    · rw [List.getElem?_append_left (by omega)] at hv hl hh
      exact a i v l h hv hl hh
    · rw [List.getElem?_append_right (by omega)] at hv hl hh
      rw [← h1] at hl; rw [← h2] at hh
      exact b _ v l h hv hl hh

/-- Rows generated by an index. -/
theorem holdsBy_map_range (n : Nat) (g : Nat → K) (lo hi : Nat → Ext K) :
    HoldsBy W ((List.range n).map g) ((List.range n).map lo) ((List.range n).map hi) ↔
      ∀ i < n, W (lo i) (hi i) (g i) := by
  constructor
  · rintro ⟨-, -, h⟩ i hi'
    exact h i _ _ _ (by simp [hi']) (by simp [hi']) (by simp [hi'])
  · intro h
    refine ⟨by simp, by simp, fun i v l u hv hl hu => ?_⟩
    have e := (List.getElem?_eq_some_iff.1 hv).1
    simp only [List.length_map, List.length_range] at e
    rw [List.getElem?_map, List.getElem?_range e] at hv hl hu
    cases hv; cases hl; cases hu
    exact h i e

theorem holdsBy_flatMap (n : Nat) (g : Nat → List K) (lo hi : Nat → List (Ext K))
    (h1 : ∀ i < n, (g i).length = (lo i).length) (h2 : ∀ i < n, (g i).length = (hi i).length) :
    HoldsBy W ((List.range n).flatMap g) ((List.range n).flatMap lo) ((List.range n).flatMap hi) ↔
      ∀ i < n, HoldsBy W (g i) (lo i) (hi i) := by
  induction n with
  | zero => simp [holdsBy_nil]
  | succ n ih =>
    have hl1 : ((List.range n).flatMap g).length = ((List.range n).flatMap lo).length := by
      rw [List.length_flatMap, List.length_flatMap]
      congr 1
      exact List.map_congr_left fun i hi => h1 i (by simp at hi; omega)
    have hl2 : ((List.range n).flatMap g).length = ((List.range n).flatMap hi).length := by
      rw [List.length_flatMap, List.length_flatMap]
      congr 1
      exact List.map_congr_left fun i hi => h2 i (by simp at hi; omega)
    rw [List.range_succ, List.flatMap_append, List.flatMap_append, List.flatMap_append,
      holdsBy_append hl1 hl2, ih (fun i hi => h1 i (by omega)) (fun i hi => h2 i (by omega))]
    simp only [List.flatMap_cons, List.flatMap_nil, List.append_nil]
    constructor
    · rintro ⟨a, b⟩ i hi
      rcases Nat.lt_succ_iff_lt_or_eq.1 hi with h | rfl
      · exact a i h
      · exact b
    · intro a
      exact ⟨fun i hi => a i (by omega), a n (by omega)⟩

theorem holds_nil [LE K] : Holds ([] : List K) [] [] := holdsBy_nil

theorem holds_append [LE K] {g g' : List K} {lo lo' hi hi' : List (Ext K)}
    (h1 : g.length = lo.length) (h2 : g.length = hi.length) :
    Holds (g ++ g') (lo ++ lo') (hi ++ hi') ↔ Holds g lo hi ∧ Holds g' lo' hi' := holdsBy_append h1 h2

theorem holds_map_range [LE K] (n : Nat) (g : Nat → K) (lo hi : Nat → Ext K) :
    Holds ((List.range n).map g) ((List.range n).map lo) ((List.range n).map hi) ↔
      ∀ i < n, Within (lo i) (hi i) (g i) := holdsBy_map_range n g lo hi

theorem holds_flatMap [LE K] (n : Nat) (g : Nat → List K) (lo hi : Nat → List (Ext K))
    (h1 : ∀ i < n, (g i).length = (lo i).length) (h2 : ∀ i < n, (g i).length = (hi i).length) :
    Holds ((List.range n).flatMap g) ((List.range n).flatMap lo) ((List.range n).flatMap hi) ↔
      ∀ i < n, Holds (g i) (lo i) (hi i) := holdsBy_flatMap n g lo hi h1 h2

section
variable [Field K] [LinearOrder K]

theorem within_zero_zero (v : K) : Within (.fin 0) (.fin 0) v ↔ v = 0 := by
  simp only [Within, Ext.Below, Ext.Above]
  exact ⟨fun ⟨a, b⟩ => le_antisymm b a, fun h => by simp [h]⟩

omit [Field K] in
theorem within_fin_fin (a v : K) : Within (.fin a) (.fin a) v ↔ v = a := by
  simp only [Within, Ext.Below, Ext.Above]
  exact ⟨fun ⟨a, b⟩ => le_antisymm b a, fun h => by simp [h]⟩

theorem within_ninf_zero (v : K) : Within .ninf (.fin 0) v ↔ v ≤ 0 := by
  simp [Within, Ext.Below, Ext.Above]

variable [IsStrictOrderedRing K]

theorem below_mul (lo : Ext K) (v s : K) (hs : 0 < s) :
    (Ext.mul lo s).Below v ↔ lo.Below (v / s) := by
  cases lo with
  | fin a => simp only [Ext.mul, Ext.Below]; rw [le_div_iff₀ hs]
  | _ => simp [Ext.mul, Ext.Below, hs]

theorem above_mul (hi : Ext K) (v s : K) (hs : 0 < s) :
    (Ext.mul hi s).Above v ↔ hi.Above (v / s) := by
  cases hi with
  | fin a => simp only [Ext.mul, Ext.Above]; rw [div_le_iff₀ hs]
  | _ => simp [Ext.mul, Ext.Above, hs]

/-- Scaling bounds by a positive factor is the same as dividing the value by it. -/
theorem within_mul (lo hi : Ext K) (v s : K) (hs : 0 < s) :
    Within (Ext.mul lo s) (Ext.mul hi s) v ↔ Within lo hi (v / s) := by
  simp only [Within, below_mul lo v s hs, above_mul hi v s hs]

end
end MPOpt
