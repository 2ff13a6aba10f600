import Mathlib.Analysis.ODE.ExistUnique

/-!
# Differential equations with a Lipschitz right-hand side have solutions on whole intervals

Mathlib has the local theorem of Picard and Lindelöf. Here solutions with one-sided derivatives are patched together.
-/

set_option autoImplicit false
set_option linter.unusedSectionVars false

namespace MPOpt
open Set Metric

section
variable {E : Type} [NormedAddCommGroup E] [NormedSpace ℝ E]

/-- Continuous on `[a, b]`, with the derivative from the right given by `f` before `b`. -/
def RightSol (f : ℝ → E → E) (a b : ℝ) (Y : ℝ → E) : Prop :=
  ContinuousOn Y (Icc a b) ∧ ∀ t ∈ Ico a b, HasDerivWithinAt Y (f t (Y t)) (Ici t) t

theorem RightSol.congr {f : ℝ → E → E} {a b : ℝ} {Y Z : ℝ → E} (h : RightSol f a b Y) (e : ∀ t ∈ Icc a b, Z t = Y t) :
    RightSol f a b Z := by
  refine ⟨h.1.congr e, fun t ht => ?_⟩
  rw [e t ⟨ht.1, ht.2.le⟩]
  refine (h.2 t ht).congr_of_eventuallyEq_of_mem ?_ self_mem_Ici
  filter_upwards [Icc_mem_nhdsGE ht.2] with r hr
  exact e r ⟨ht.1.trans hr.1, hr.2⟩

/-- Two functions one after the other. -/
noncomputable def glueAt (c : ℝ) (Y Z : ℝ → E) (t : ℝ) : E := if t ≤ c then Y t else Z t

theorem glueAt_left (c : ℝ) (Y Z : ℝ → E) {t : ℝ} (h : t ≤ c) : glueAt c Y Z t = Y t := if_pos h

theorem glueAt_right {c : ℝ} {Y Z : ℝ → E} (e : Y c = Z c) {t : ℝ} (h : c ≤ t) : glueAt c Y Z t = Z t := by
  unfold glueAt
  split
  · rw [le_antisymm ‹t ≤ c› h, e]
  · rfl

theorem RightSol.join {f : ℝ → E → E} {a b c : ℝ} {Y : ℝ → E} (hac : a ≤ c) (hcb : c ≤ b) (h : RightSol f a c Y)
    (h' : RightSol f c b Y) : RightSol f a b Y := by
  refine ⟨?_, fun t ht => ?_⟩
  · rw [← Icc_union_Icc_eq_Icc hac hcb]
    exact h.1.union_of_isClosed h'.1 isClosed_Icc isClosed_Icc
  · rcases lt_or_ge t c with h1 | h1
    · exact h.2 t ⟨ht.1, h1⟩
    · exact h'.2 t ⟨h1, ht.2⟩

/-- Existence over a short time, the length of which does not depend on the initial value. -/
theorem exists_rightSol_short [CompleteSpace E] {f : ℝ → E → E} {a b : ℝ} (hab : a ≤ b) {K : ℝ} (hK : 0 ≤ K)
    (hlip : ∀ t ∈ Icc a b, ∀ x y, ‖f t x - f t y‖ ≤ K * ‖x - y‖) (hcont : ∀ x, ContinuousOn (fun t => f t x) (Icc a b))
    (hshort : K * (b - a) ≤ 1 / 2) (x0 : E) : ∃ Y, Y a = x0 ∧ RightSol f a b Y := by
  obtain ⟨B, hB⟩ := isCompact_Icc.exists_bound_of_continuousOn (hcont x0)
  have hB0 : 0 ≤ B := (norm_nonneg _).trans (hB a ⟨le_rfl, hab⟩)
  have hd : 0 ≤ b - a := sub_nonneg.2 hab
  set R : ℝ := 2 * B * (b - a) with hR
  have hR0 : 0 ≤ R := by positivity
  have hL0 : 0 ≤ B + K * R := by positivity
  have hpl : IsPicardLindelof f (⟨a, le_rfl, hab⟩ : Icc a b) x0 ⟨R, hR0⟩ 0 ⟨B + K * R, hL0⟩ ⟨K, hK⟩ := by
    refine ⟨fun t ht => LipschitzOnWith.of_dist_le_mul fun x _ y _ => ?_, fun x _ => hcont x, fun t ht x hx => ?_, ?_⟩
    · rw [dist_eq_norm, dist_eq_norm]; exact hlip t ht x y
    · have h1 := hlip t ht x x0
      have h2 : ‖x - x0‖ ≤ R := by rw [← dist_eq_norm]; exact mem_closedBall.1 hx
      have h3 := norm_add_le (f t x - f t x0) (f t x0)
      rw [sub_add_cancel] at h3
      have h4 := mul_le_mul_of_nonneg_left h2 hK
      change ‖f t x‖ ≤ B + K * R
      linarith [hB t ht]
    · change (B + K * R) * max (b - a) (a - a) ≤ R - 0
      rw [sub_self, max_eq_left hd, sub_zero]
      have : K * R * (b - a) ≤ R / 2 := by
        calc K * R * (b - a) = K * (b - a) * R := by ring
          _ ≤ 1 / 2 * R := mul_le_mul_of_nonneg_right hshort hR0
          _ = R / 2 := by ring
      have e : B * (b - a) = R / 2 := by rw [hR]; ring
      linarith
  obtain ⟨Y, h0, hY⟩ := hpl.exists_eq_forall_mem_Icc_hasDerivWithinAt₀
  refine ⟨Y, h0, fun t ht => (hY t ht).continuousWithinAt, fun t ht => ?_⟩
  refine (hY t ⟨ht.1, ht.2.le⟩).mono_of_mem_nhdsWithin ?_
  filter_upwards [Icc_mem_nhdsGE ht.2] with r hr
  exact ⟨ht.1.trans hr.1, hr.2⟩

/-- Existence on the whole interval. -/
theorem exists_rightSol [CompleteSpace E] {f : ℝ → E → E} {K : ℝ} (hK : 0 ≤ K) :
    ∀ (n : Nat) {a b : ℝ}, a ≤ b → K * (b - a) ≤ n / 2 →
      (∀ t ∈ Icc a b, ∀ x y, ‖f t x - f t y‖ ≤ K * ‖x - y‖) → (∀ x, ContinuousOn (fun t => f t x) (Icc a b)) →
      ∀ x0 : E, ∃ Y, Y a = x0 ∧ RightSol f a b Y := by
  intro n
  induction n with
  | zero =>
    intro a b hab hb hlip hcont x0
    exact exists_rightSol_short hab hK hlip hcont (by simp at hb; linarith) x0
  | succ n ih =>
    intro a b hab hb hlip hcont x0
    -- the last 1/(n+1) of the interval is short
    set c := a + (b - a) * (n / (n + 1)) with hc
    have hn : (0 : ℝ) < n + 1 := by positivity
    have hd : 0 ≤ b - a := sub_nonneg.2 hab
    have hac : a ≤ c := by
      have : 0 ≤ (b - a) * ((n : ℝ) / (n + 1)) := by positivity
      linarith
    have hcb : b - c = (b - a) / (n + 1) := by rw [hc]; field_simp; ring
    have hcb' : c ≤ b := by
      have : 0 ≤ (b - a) / ((n : ℝ) + 1) := by positivity
      linarith
    push_cast at hb
    obtain ⟨Y, hY0, hY⟩ := ih hac (by
        have : c - a = (b - a) * (n / (n + 1)) := by rw [hc]; ring
        rw [this, ← mul_assoc]
        calc K * (b - a) * ((n : ℝ) / (n + 1)) ≤ (n + 1) / 2 * (n / (n + 1)) :=
              mul_le_mul_of_nonneg_right hb (by positivity)
          _ = n / 2 := by field_simp) (fun t ht => hlip t ⟨ht.1, ht.2.trans hcb'⟩)
      (fun x => (hcont x).mono fun t ht => ⟨ht.1, ht.2.trans hcb'⟩) x0
    obtain ⟨Z, hZ0, hZ⟩ := exists_rightSol_short hcb' hK (fun t ht => hlip t ⟨hac.trans ht.1, ht.2⟩)
      (fun x => (hcont x).mono fun t ht => ⟨hac.trans ht.1, ht.2⟩) (by
        rw [hcb, ← mul_div_assoc, div_le_iff₀ hn]; linarith) (Y c)
    refine ⟨glueAt c Y Z, by rw [glueAt_left _ _ _ hac, hY0], ?_⟩
    exact (hY.congr fun t ht => glueAt_left _ _ _ ht.2).join hac hcb' (hZ.congr fun t ht => glueAt_right hZ0.symm ht.1)

/-- Existence for fields that change from piece to piece. -/
theorem exists_rightSol_pieces [CompleteSpace E] {f : Nat → ℝ → E → E} {b : Nat → ℝ} {K : ℝ} (hK : 0 ≤ K) (n : Nat)
    (hb : ∀ s < n, b s ≤ b (s + 1))
    (hlip : ∀ s < n, ∀ t ∈ Icc (b s) (b (s + 1)), ∀ x y, ‖f s t x - f s t y‖ ≤ K * ‖x - y‖)
    (hcont : ∀ s < n, ∀ x, ContinuousOn (fun t => f s t x) (Icc (b s) (b (s + 1)))) (x0 : E) :
    ∃ Y, Y (b 0) = x0 ∧ ContinuousOn Y (Icc (b 0) (b n)) ∧ ∀ s < n, RightSol (f s) (b s) (b (s + 1)) Y := by
  induction n with
  | zero => exact ⟨fun _ => x0, rfl, continuousOn_const, by simp⟩
  | succ n ih =>
    obtain ⟨Y, hY0, hYc, hY⟩ := ih (fun s hs => hb s (by omega)) (fun s hs => hlip s (by omega)) (fun s hs => hcont s (by omega))
    obtain ⟨k, hk⟩ := exists_nat_ge (K * (b (n + 1) - b n) * 2)
    obtain ⟨Z, hZ0, hZ⟩ := exists_rightSol hK k (hb n (by omega)) (by linarith) (hlip n (by omega)) (hcont n (by omega)) (Y (b n))
    have hmono : ∀ s, s ≤ n → ∀ r, r ≤ s → b r ≤ b s := by
      intro s
      induction s with
      | zero => intro _ r hr; rw [Nat.le_zero.1 hr]
      | succ s ihs =>
        intro hs r hr
        rcases Nat.eq_or_lt_of_le hr with rfl | h
        · exact le_rfl
        · exact (ihs (by omega) r (by omega)).trans (hb s (by omega))
    have h0n := hmono n le_rfl 0 (Nat.zero_le _)
    refine ⟨glueAt (b n) Y Z, ?_, ?_, ?_⟩
    · rw [glueAt_left _ _ _ h0n, hY0]
    · rw [← Icc_union_Icc_eq_Icc h0n (hb n (by omega))]
      exact (hYc.congr fun t ht => glueAt_left _ _ _ ht.2).union_of_isClosed
        (hZ.1.congr fun t ht => glueAt_right hZ0.symm ht.1) isClosed_Icc isClosed_Icc
    · intro s hs
      rcases Nat.lt_succ_iff_lt_or_eq.1 hs with h | rfl
      · exact (hY s h).congr fun t ht => glueAt_left _ _ _ (ht.2.trans (hmono n le_rfl (s + 1) h))
      · exact hZ.congr fun t ht => glueAt_right hZ0.symm ht.1

end

end MPOpt
