import Verif.Props.ShippedValid
import Verif.Props.HEnd
import Verif.Props.ExactFree
import Verif.Props.MayerEnd

/-! # C98: the shipped two-phase example -/

set_option autoImplicit false

namespace MPOpt
open Polynomial

variable {M : Mesh ℝ}

/-! ### Widths of several phases -/

theorem phaseSlice_packWidths (ocp : OCP ℝ) (n : Nat) (T : Traj ℝ) {ph : Nat} (hp : ph < ocp.nPhases) :
    phaseSlice n ph (ocp.packWidths n T) = (List.range n).map fun s => T.w s ph := by
  unfold OCP.packWidths
  exact phaseSlice_flatMap n ocp.nPhases ph (fun ph s => T.w s ph) hp

/-- Requested widths that are positive with sum 1 in every phase. -/
theorem WidthsAre.full_all {ocp : OCP ℝ} {n : Nat} (hn : 0 < n) (hl : M.orders.length = n) {req : Option (List ℝ)}
    (hg : GoodWidths ocp n req) {T : Traj ℝ} (h : WidthsAre ocp n req T) : ∀ ph < ocp.nPhases, FullWidths M T ph := by
  subst hl
  intro ph hp
  have hn' : (0 : ℝ) < (M.orders.length : ℝ) := by exact_mod_cast hn
  cases req with
  | none =>
    have h : ∀ s < M.orders.length, T.w s ph = 1 / (M.orders.length : ℝ) := h ph hp
    refine ⟨fun s hs => by rw [h s hs]; positivity, ?_⟩
    rw [Finset.sum_congr rfl fun s hs => h s (Finset.mem_range.1 hs)]
    simp; field_simp
  | some l =>
    have h : ocp.packWidths M.orders.length T = l := h
    obtain ⟨q1, q2⟩ := (hg l rfl).2 ph hp
    rw [← h, phaseSlice_packWidths ocp _ T hp] at q1 q2
    exact ⟨fun s hs => q1 _ (List.mem_map.2 ⟨s, List.mem_range.2 hs, rfl⟩), q2⟩

/-! ### Functions put together -/

section
variable {f g f' g' : ℝ → ℝ} {β : ℝ}

theorem glue_left (hf : ∀ t, HasDerivAt f (f' t) t) (hg : ∀ t, HasDerivAt g (g' t) t) (t : ℝ) :
    HasDerivWithinAt (fun t => if t ≤ β then f t else g t) (if t ≤ β then f' t else g' t) (Set.Iic t) t := by
  by_cases h : t ≤ β
  · rw [if_pos h]
    exact (hf t).hasDerivWithinAt.congr (fun y hy => if_pos (le_trans hy h)) (if_pos h)
  · rw [if_neg h]
    refine ((hg t).congr_of_eventuallyEq ?_).hasDerivWithinAt
    filter_upwards [Ioi_mem_nhds (not_le.1 h)] with y hy
    exact if_neg (not_le.2 hy)

theorem glue_right (hf : ∀ t, HasDerivAt f (f' t) t) (hg : ∀ t, HasDerivAt g (g' t) t) {t : ℝ}
    (h : t < β ∨ (t = β ∧ f β = g β ∧ f' β = g' β)) :
    HasDerivWithinAt (fun t => if t ≤ β then f t else g t) (if t ≤ β then f' t else g' t) (Set.Ici t) t := by
  rcases h with h | ⟨rfl, h1, h2⟩
  · rw [if_pos h.le]
    refine ((hf t).congr_of_eventuallyEq ?_).hasDerivWithinAt
    filter_upwards [Iio_mem_nhds h] with y hy
    exact if_pos (le_of_lt hy)
  · rw [if_pos le_rfl, h2]
    refine (hg t).hasDerivWithinAt.congr (fun y hy => ?_) (by simp [h1])
    rcases eq_or_lt_of_le (Set.mem_Ici.1 hy) with rfl | hy
    · simp [h1]
    · exact if_neg (not_le.2 hy)

theorem glue_continuous (hf : ∀ t, HasDerivAt f (f' t) t) (hg : ∀ t, HasDerivAt g (g' t) t) (h : f β = g β) :
    Continuous fun t => if t ≤ β then f t else g t :=
  Continuous.if_le (continuous_iff_continuousAt.2 fun t => (hf t).continuousAt)
    (continuous_iff_continuousAt.2 fun t => (hg t).continuousAt) continuous_id continuous_const (by rintro t rfl; exact h)

theorem glue_poly {n : Nat} {deg : Nat → Nat} {b : Nat → ℝ} {P Q : ℝ[X]} (hP : ∀ s < n, P.natDegree ≤ deg s)
    (hQ : ∀ s < n, Q.natDegree ≤ deg s) (hf : ∀ t, f t = P.eval t) (hg : ∀ t, g t = Q.eval t) (h : f β = g β)
    (hb : ∀ s < n, b (s + 1) ≤ β ∨ β ≤ b s) : PiecewisePoly n deg b fun t => if t ≤ β then f t else g t := by
  intro s hs
  rcases hb s hs with h1 | h1
  · exact ⟨P, hP s hs, fun t ht => (if_pos (ht.2.trans h1)).trans (hf t)⟩
  · refine ⟨Q, hQ s hs, fun t ht => ?_⟩
    rcases eq_or_lt_of_le (h1.trans ht.1) with rfl | h2
    · exact (if_pos le_rfl).trans (h.trans (hg _))
    · exact (if_neg (not_le.2 h2)).trans (hg _)

end

/-! ### The problem -/

/-- The object built by the script, written out. -/
noncomputable def ocpSch : OCP ℝ :=
  { nx := 2, nu := 1, na := 0, nPhases := 2
    dynamics := [⟨2, fun p j => if j = 0 then p.x.getD 1 0 else
        p.u.getD 0 0 - 1 / 10 * (1 + 2 * p.x.getD 0 0 * p.x.getD 0 0) * p.x.getD 1 0⟩,
      ⟨2, fun p j => if j = 0 then p.x.getD 1 0 else
        p.u.getD 0 0 - 1 / 10 * (1 + 2 * p.x.getD 0 0 * p.x.getD 0 0) * p.x.getD 1 0⟩]
    pathConstraints := [some ⟨1, fun p _ => 1 - 9 * (p.x.getD 0 0 - 1) * (p.x.getD 0 0 - 1) -
      (p.x.getD 1 0 - 2 / 5) * (p.x.getD 1 0 - 2 / 5) / (3 / 10 * (3 / 10))⟩, none]
    terminalCosts := [fun _ => 0, fun t => 5 * (t.xf.getD 0 0 * t.xf.getD 0 0 + t.xf.getD 1 0 * t.xf.getD 1 0)]
    runningCosts := [fun _ => 0, fun _ => 0]
    terminalConstraints := [none, none]
    phaseLinks := [(0, 1)]
    scaleX := [1, 1], scaleU := [1], scaleA := [], scaleT := 1
    x00 := [[1, 1], [1, 1]], xf0 := [[1, 1], [0, 0]], u00 := [[0], [0]], uf0 := [[0], [0]], t00 := [[0], [0]], tf0 := [[1], [1]]
    a0 := [[], []]
    lbx := [[.ninf, .fin (-4 / 5)], [.ninf, .ninf]], ubx := [[.pinf, .pinf], [.pinf, .pinf]]
    lbu := [[.fin (-1)], [.ninf]], ubu := [[.fin 1], [.pinf]], lba := [[], []], uba := [[], []]
    lbt0 := [[.fin 0], [.fin 0]], ubt0 := [[.fin 0], [.pinf]], lbtf := [[.fin 1], [.fin (29 / 10)]]
    ubtf := [[.fin 1], [.fin (29 / 10)]]
    lbe := [[.fin 0, .fin 0]], ube := [[.fin 0, .fin 0]], diffU := [false, false], lbdu := [.fin (-15), .fin (-15)]
    ubdu := [.fin 15, .fin 15], midu := [true, true], duContinuity := [false, false] }

theorem scriptSchwartz_eq : scriptSchwartz = .ok ocpSch := rfl

theorem ocpSch_ready : ValidOCP ocpSch ∧ ocpSch.SettingsOK ∧ ocpSch.PosScales := by
  obtain ⟨o, h, hr⟩ := scriptSchwartz_ready
  rw [scriptSchwartz_eq] at h
  injection h with h
  subst h
  exact hr

theorem two_phases {P : Nat → Prop} (h0 : P 0) (h1 : P 1) : ∀ ph < ocpSch.nPhases, P ph := by
  intro ph hp
  have hp : ph < 2 := hp
  interval_cases ph
  exacts [h0, h1]

theorem two_entries {P : Nat → Prop} (h0 : P 0) (h1 : P 1) : ∀ j < 2, P j := by
  intro j hj
  interval_cases j
  exacts [h0, h1]

/-- The cost of a trajectory is read off its last node. -/
theorem cost_Sch {W : List ℝ} (hM : M.Good) (hW : W.length = M.N) {T : Traj ℝ} {J : ℝ} (h : PhysCost ocpSch M W T J) :
    J = 5 * (T.x 1 (M.N - 1) 0 ^ 2 + T.x 1 (M.N - 1) 1 ^ 2) := by
  refine h.unique hM hW rfl ⟨fun _ _ => 0, two_phases ?_ ?_, ?_⟩
  · intro rc hrc s i _
    cases hrc
    simp
  · intro rc hrc s i _
    cases hrc
    simp
  · have h0 : weightedSum W (fun _ => 0) = 0 := by simp [weightedSum]
    rw [show ocpSch.nPhases = 2 from rfl, Finset.sum_range_succ, Finset.sum_range_one, h0]
    simp [TerminalCost, ocpSch, OCP.tArg, List.range_succ]
    ring

/-! ### A solution that ends at the origin -/

/-- Where and how the motion turns round: moving ahead with speed one until `β`, then (if `β` is before
`29/10`) to rest at the origin at `29/10`. -/
structure TurnsAt (β A B D : ℝ) : Prop where
  start : 1 ≤ β
  pos : 1 + β = A * (29 / 10 - β) ^ 2 + B * (29 / 10 - β) ^ 3 + D * (29 / 10 - β) ^ 4
  vel : 1 = -(2 * A * (29 / 10 - β) + 3 * B * (29 / 10 - β) ^ 2 + 4 * D * (29 / 10 - β) ^ 3)
  acc : 1 < β ∨ 0 = 2 * A + 6 * B * (29 / 10 - β) + 12 * D * (29 / 10 - β) ^ 2

variable {β A B D : ℝ}

noncomputable def posS (β A B D t : ℝ) : ℝ :=
  if t ≤ β then 1 + t else A * (29 / 10 - t) ^ 2 + B * (29 / 10 - t) ^ 3 + D * (29 / 10 - t) ^ 4

noncomputable def velS (β A B D t : ℝ) : ℝ :=
  if t ≤ β then 1 else -(2 * A * (29 / 10 - t) + 3 * B * (29 / 10 - t) ^ 2 + 4 * D * (29 / 10 - t) ^ 3)

noncomputable def accS (β A B D t : ℝ) : ℝ :=
  if t ≤ β then 0 else 2 * A + 6 * B * (29 / 10 - t) + 12 * D * (29 / 10 - t) ^ 2

/-- Both phases follow the same functions of time. -/
noncomputable def turnS (β A B D : ℝ) : CTraj :=
  { x := fun _ j => if j = 0 then posS β A B D else velS β A B D
    u := fun _ _ t => accS β A B D t + 1 / 10 * (1 + 2 * posS β A B D t * posS β A B D t) * velS β A B D t
    t0 := fun ph => if ph = 0 then 0 else 1
    tf := fun ph => if ph = 0 then 1 else 29 / 10
    a := fun _ _ => 0 }

theorem derivS (t : ℝ) : HasDerivAt (fun t : ℝ => 1 + t) 1 t ∧ HasDerivAt (fun _ : ℝ => (1 : ℝ)) 0 t ∧
    HasDerivAt (fun t : ℝ => A * (29 / 10 - t) ^ 2 + B * (29 / 10 - t) ^ 3 + D * (29 / 10 - t) ^ 4)
      (-(2 * A * (29 / 10 - t) + 3 * B * (29 / 10 - t) ^ 2 + 4 * D * (29 / 10 - t) ^ 3)) t ∧
    HasDerivAt (fun t : ℝ => -(2 * A * (29 / 10 - t) + 3 * B * (29 / 10 - t) ^ 2 + 4 * D * (29 / 10 - t) ^ 3))
      (2 * A + 6 * B * (29 / 10 - t) + 12 * D * (29 / 10 - t) ^ 2) t := by
  have h : HasDerivAt (fun t : ℝ => 29 / 10 - t) (-1) t := by simpa using (hasDerivAt_id t).const_sub (29 / 10 : ℝ)
  refine ⟨by simpa using (hasDerivAt_id t).const_add (1 : ℝ), hasDerivAt_const _ _, ?_, ?_⟩
  · refine ((((h.pow 2).const_mul A).add ((h.pow 3).const_mul B)).add ((h.pow 4).const_mul D)).congr_deriv ?_
    simp; ring
  · refine ((((h.const_mul (2 * A)).add ((h.pow 2).const_mul (3 * B))).add ((h.pow 3).const_mul (4 * D))).neg).congr_deriv ?_
    simp; ring

theorem turnS_solves (h : TurnsAt β A B D) : SolvesContinuously ocpSch (turnS β A B D) := by
  have d1 := fun t => (derivS (A := A) (B := B) (D := D) t).1
  have d2 := fun t => (derivS (A := A) (B := B) (D := D) t).2.1
  have d3 := fun t => (derivS (A := A) (B := B) (D := D) t).2.2.1
  have d4 := fun t => (derivS (A := A) (B := B) (D := D) t).2.2.2
  have dyn : ∀ ph < 2, DynamicsHold ocpSch (turnS β A B D) ph := by
    intro ph hp
    have hF : ∀ F, ocpSch.dynamics[ph]? = some F → ∀ t, F.f (ocpSch.cArg (turnS β A B D) ph t) 0 = velS β A B D t ∧
        F.f (ocpSch.cArg (turnS β A B D) ph t) 1 = accS β A B D t := by
      intro F hF t
      interval_cases ph <;> cases hF <;> simp [ocpSch, OCP.cArg, turnS, List.range_succ]
    have ht : (turnS β A B D).t0 ph < β ∨ ((turnS β A B D).t0 ph = β ∧ 0 = 2 * A + 6 * B * (29 / 10 - β) + 12 * D * (29 / 10 - β) ^ 2) := by
      have := h.start
      interval_cases ph
      · left; simp [turnS]; linarith
      · rcases h.acc with h1 | h1
        · left; simpa [turnS] using h1
        · rcases eq_or_lt_of_le this with e | e
          · right; exact ⟨by simp [turnS, e], h1⟩
          · left; simpa [turnS] using e
    refine ⟨fun F hF' => two_entries ?_ ?_, fun F hF' => two_entries ?_ ?_, two_entries ?_ ?_⟩
    · intro t _ _
      rw [(hF F hF' t).1]
      exact glue_left d1 d3 t
    · intro t _ _
      rw [(hF F hF' t).2]
      exact glue_left d2 d4 t
    · rw [(hF F hF' _).1]
      exact glue_right d1 d3 (ht.imp id fun h' => ⟨h'.1, h.pos, h.vel⟩)
    · rw [(hF F hF' _).2]
      exact glue_right d2 d4 (ht.imp id fun h' => ⟨h'.1, h.vel, h'.2⟩)
    · exact (glue_continuous d1 d3 h.pos).continuousOn
    · exact (glue_continuous d2 d4 h.vel).continuousOn
  have early : ∀ t ≤ 1, posS β A B D t = 1 + t ∧ velS β A B D t = 1 ∧ accS β A B D t = 0 := fun t ht =>
    ⟨if_pos (ht.trans h.start), if_pos (ht.trans h.start), if_pos (ht.trans h.start)⟩
  refine ⟨two_phases ?_ ?_, ?_, ?_, ?_⟩
  · refine ⟨by simp [turnS], dyn 0 (by omega), ?_, ?_, ?_, ?_, ?_, ?_, ?_, ?_⟩
    · intro F hF c _ t ht
      have ht : 0 ≤ t ∧ t ≤ 1 := by simpa [turnS] using ht
      obtain ⟨e1, e2, -⟩ := early t ht.2
      cases hF
      simp only [OCP.cArg, turnS, ocpSch, List.range_succ, List.range_zero, List.nil_append, List.cons_append, List.map_cons,
        List.map_nil, List.getD_cons_zero, List.getD_cons_succ, if_true, one_ne_zero, if_false, e1, e2]
      nlinarith [sq_nonneg t]
    · intro F hF; simp [ocpSch] at hF
    · intro _
      exact two_entries (by simp [turnS, (early 0 (by norm_num)).1, ocpSch, entry])
        (by simp [turnS, (early 0 (by norm_num)).2.1, ocpSch, entry])
    · intro t ht _
      have ht : 0 ≤ t ∧ t ≤ 1 := by simpa [turnS] using ht
      refine two_entries ?_ ?_
      · simp [ocpSch, entry, Within, Ext.Below, Ext.Above]
      · simp [ocpSch, entry, Within, Ext.Below, Ext.Above, turnS, (early t ht.2).2.1]; norm_num
    · intro t ht
      have ht : 0 ≤ t ∧ t ≤ 1 := by simpa [turnS] using ht
      obtain ⟨e1, e2, e3⟩ := early t ht.2
      refine one_entry ?_
      simp only [ocpSch, entry, Within, Ext.Below, Ext.Above, turnS, e1, e2, e3, List.getD_cons_zero]
      constructor <;> nlinarith
    · simp [ocpSch, entry, Within, Ext.Below, Ext.Above, turnS]
    · simp [ocpSch, entry, Within, Ext.Below, Ext.Above, turnS]
    · intro k hk; simp [ocpSch] at hk
  · refine ⟨by norm_num [turnS], dyn 1 (by omega), ?_, ?_, ?_, ?_, ?_, ?_, ?_, ?_⟩
    · intro F hF; simp [ocpSch] at hF
    · intro F hF; simp [ocpSch] at hF
    · intro h; omega
    · intro t _ _
      exact two_entries (by simp [ocpSch, entry, Within, Ext.Below, Ext.Above]) (by simp [ocpSch, entry, Within, Ext.Below, Ext.Above])
    · intro t _
      exact one_entry (by simp [ocpSch, entry, Within, Ext.Below, Ext.Above])
    · simp [ocpSch, entry, Within, Ext.Below, Ext.Above, turnS]
    · simp [ocpSch, entry, Within, Ext.Below, Ext.Above, turnS]
    · intro k hk; simp [ocpSch] at hk
  all_goals
    intro k p q hk
    match k with
    | 0 => ?_
    | k + 1 => simp [ocpSch] at hk
    obtain ⟨rfl, rfl⟩ : p = 0 ∧ q = 1 := by simpa [ocpSch, eq_comm] using hk
  · exact two_entries (by simp [ocpSch, entry, Within, Ext.Below, Ext.Above, turnS])
      (by simp [ocpSch, entry, Within, Ext.Below, Ext.Above, turnS])
  · intro j _; simp [turnS]
  · simp [turnS]

/-- Turning round anywhere in the second phase, along a cubic. -/
theorem turn_cubic (h1 : 1 < β) (h2 : β ≠ 29 / 10) : ∃ A B, TurnsAt β A B 0 := by
  have hR : (29 / 10 - β) ≠ 0 := by intro h; exact h2 (by linarith)
  refine ⟨(3 * (1 + β) + (29 / 10 - β)) / (29 / 10 - β) ^ 2, -((29 / 10 - β) + 2 * (1 + β)) / (29 / 10 - β) ^ 3, h1.le, ?_, ?_, Or.inl h1⟩
  · generalize 29 / 10 - β = R at hR
    field_simp
    ring
  · generalize 29 / 10 - β = R at hR
    field_simp
    ring

/-- Turning round as soon as the second phase begins, along a polynomial of degree four. -/
theorem turn_quartic : ∃ A B D, TurnsAt 1 A B D :=
  ⟨17.7 / 1.9 ^ 2, -25.5 / 1.9 ^ 3, 9.8 / 1.9 ^ 4, le_rfl, by norm_num, by norm_num, Or.inr (by norm_num)⟩

/-- Meshes that can follow one of these motions. -/
def CanTurn (M : Mesh ℝ) : Prop :=
  (2 ≤ M.orders.length ∧ ∀ p ∈ M.orders, 3 ≤ p) ∨ ∀ p ∈ M.orders, 4 ≤ p

/-- The motion at the nodes of such a mesh, with given widths: it solves the collocated problem and costs nothing. -/
theorem exists_turn (hM : M.Good) (hI : M.Inside) (hc : CanTurn M) {w : Nat → Nat → ℝ}
    (hw : ∀ ph < 2, (∀ s < M.orders.length, 0 < w s ph) ∧ ∑ s ∈ Finset.range M.orders.length, w s ph = 1) (W : List ℝ) :
    ∃ T, T.w = w ∧ SolvesOCP ocpSch M T ∧ PhysCost ocpSch M W T 0 := by
  -- where to turn
  obtain ⟨β, A, B, D, hT, hst, hb, hd⟩ : ∃ β A B D, TurnsAt β A B D ∧ β < 29 / 10 ∧
      (∀ s < M.orders.length, 1 + 19 / 10 * ∑ r ∈ Finset.range (s + 1), w r 1 ≤ β ∨ β ≤ 1 + 19 / 10 * ∑ r ∈ Finset.range s, w r 1) ∧
      ((D = 0 ∧ ∀ s < M.orders.length, 3 ≤ M.order s) ∨ ∀ s < M.orders.length, 4 ≤ M.order s) := by
    have hmono : ∀ m k, m ≤ k → k ≤ M.orders.length → ∑ r ∈ Finset.range m, w r 1 ≤ ∑ r ∈ Finset.range k, w r 1 := by
      intro m k h1 h2
      refine Finset.sum_le_sum_of_subset_of_nonneg (Finset.range_mono h1) fun r hr _ => ?_
      exact ((hw 1 (by omega)).1 r (by have := Finset.mem_range.1 hr; omega)).le
    rcases hc with ⟨h2, h3⟩ | h4
    · have w0 := (hw 1 (by omega)).1 0 (by omega)
      have w1 := (hw 1 (by omega)).1 1 (by omega)
      have hsum := hmono 2 M.orders.length h2 le_rfl
      rw [(hw 1 (by omega)).2, Finset.sum_range_succ, Finset.sum_range_one] at hsum
      obtain ⟨A, B, hAB⟩ := turn_cubic (β := 1 + 19 / 10 * w 0 1) (by linarith) (ne_of_lt (by linarith))
      refine ⟨_, A, B, 0, hAB, by linarith, fun s hs => ?_, Or.inl ⟨rfl, fun s hs => h3 _ (hM.order_mem hs)⟩⟩
      rcases Nat.eq_zero_or_pos s with rfl | h0
      · left; simp
      · right
        have := hmono 1 s h0 hs.le
        rw [Finset.sum_range_one] at this
        linarith
    · obtain ⟨A, B, D, hABD⟩ := turn_quartic
      refine ⟨1, A, B, D, hABD, by norm_num, fun s hs => Or.inr ?_, Or.inr fun s hs => h4 _ (hM.order_mem hs)⟩
      have := hmono 0 s (Nat.zero_le _) hs.le
      rw [Finset.sum_range_zero] at this
      linarith
  obtain ⟨T, hS, hTw⟩ := exists_samples_of ocpSch M (turnS β A B D) w
  have hfw : ∀ ph < ocpSch.nPhases, FullWidths M T ph := fun ph hp => by
    obtain ⟨q1, q2⟩ := hw ph hp
    exact ⟨by rw [hTw]; exact q1, by rw [hTw]; exact q2⟩
  have h3 : ∀ s < M.orders.length, 3 ≤ M.order s := fun s hs => by
    rcases hd with ⟨-, h⟩ | h <;> have := h s hs <;> omega
  have hsol := turnS_solves hT
  have hle1 : ∀ s < M.orders.length, (turnS β A B D).breakTime T.w 0 (s + 1) ≤ 1 := by
    intro s hs
    have : ∑ r ∈ Finset.range (s + 1), w r 0 ≤ 1 := by
      rw [← (hw 0 (by omega)).2]
      exact Finset.sum_le_sum_of_subset_of_nonneg (Finset.range_mono hs) fun r hr _ =>
        ((hw 0 (by omega)).1 r (Finset.mem_range.1 hr)).le
    simpa [CTraj.breakTime, turnS, hTw] using this
  have hbr : ∀ ph < 2, ∀ s < M.orders.length, (turnS β A B D).breakTime T.w ph (s + 1) ≤ β ∨ β ≤ (turnS β A B D).breakTime T.w ph s := by
    intro ph hp s hs
    interval_cases ph
    · left; exact (hle1 s hs).trans hT.start
    · have e : ∀ s, (turnS β A B D).breakTime T.w 1 s = 1 + 19 / 10 * ∑ r ∈ Finset.range s, w r 1 := by
        intro s; simp only [CTraj.breakTime, turnS, hTw]; norm_num
      rw [e, e]; exact hb s hs
  have hx : ∀ ph < ocpSch.nPhases, ∀ j < ocpSch.nx,
      PiecewisePoly M.orders.length M.order ((turnS β A B D).breakTime T.w ph) ((turnS β A B D).x ph j) := by
    intro ph hp
    refine two_entries ?_ ?_
    · refine glue_poly (P := 1 + X) (Q := C A * (C (29 / 10) - X) ^ 2 + C B * (C (29 / 10) - X) ^ 3 + C D * (C (29 / 10) - X) ^ 4)
        (fun s hs => le_trans (b := 1) (by compute_degree) ((h3 s hs).trans' (by norm_num))) (fun s hs => ?_) (fun t => by simp) (fun t => by simp) hT.pos
        (hbr ph hp)
      rcases hd with ⟨rfl, h⟩ | h
      · refine le_trans ?_ (h s hs)
        simp only [C_0, zero_mul, add_zero]
        compute_degree
      · exact le_trans (by compute_degree) (h s hs)
    · refine glue_poly (P := 1) (Q := -(C (2 * A) * (C (29 / 10) - X) + C (3 * B) * (C (29 / 10) - X) ^ 2 + C (4 * D) * (C (29 / 10) - X) ^ 3))
        (fun s hs => by simp) (fun s hs => le_trans (by compute_degree) (h3 s hs)) (fun t => by simp) (fun t => by simp) hT.vel
        (hbr ph hp)
  obtain ⟨k1, k2, k3, k4, k5⟩ := exact_nodes hM hI hsol ocpSch_ready.2.1.linkRange hS hfw hx
  have hmid : ∀ ph < ocpSch.nPhases, MidControlOK ocpSch M T ph := by
    refine two_phases ?_ ?_
    · intro j hj s hs i hi
      obtain ⟨m1, m2⟩ := hI.mid hM hs hi
      obtain ⟨-, t1, t2, hu, -⟩ := exact_inner hM hI hS (ph := 0) (by simp [ocpSch]) (hsol.phase 0 (by simp [ocpSch])).order
        (hfw 0 (by simp [ocpSch])) hs m1 m2
      rw [hu j hj]
      · exact (hsol.phase 0 (by simp [ocpSch])).u _ ⟨t1.le, t2⟩ j hj
      · intro s hs
        refine ⟨C (1 / 10) * (1 + 2 * (1 + X) ^ 2), le_trans (by compute_degree) ((h3 s hs).trans' (by norm_num)), fun t ht => ?_⟩
        have : t ≤ β := (ht.2.trans (hle1 s hs)).trans hT.start
        simp [turnS, posS, velS, accS, this]
        ring
    · intro j hj s hs i hi
      obtain rfl : j = 0 := by simpa [ocpSch] using hj
      simp [ocpSch, entry, Within, Ext.Below, Ext.Above]
  refine ⟨T, hTw, ⟨⟨k1, k2, k3, k4, fun ph hp _ => hmid ph hp, fun ph hp h => ?_, fun _ => k5⟩, fun ph hp h => ?_⟩, ?_⟩
  · revert h; revert ph; exact two_phases (by simp [ocpSch]) (by simp [ocpSch])
  · revert h; revert ph; exact two_phases (by simp [ocpSch]) (by simp [ocpSch])
  · refine ⟨fun _ _ => 0, two_phases ?_ ?_, ?_⟩
    · intro rc hrc s i _
      cases hrc
      simp
    · intro rc hrc s i _
      cases hrc
      simp
    · have h0 : weightedSum W (fun _ => 0) = 0 := by simp [weightedSum]
      rw [show ocpSch.nPhases = 2 from rfl, Finset.sum_range_succ, Finset.sum_range_one, h0]
      unfold TerminalCost
      rw [hS.tArg hM (by simp [ocpSch]) (hfw 1 (by simp [ocpSch]))]
      simp [OCP.cEnd, ocpSch, turnS, List.range_succ, posS, velS, not_le.2 hst]

theorem full_of_good {ocp : OCP ℝ} {T : Traj ℝ} (h : ∀ ph < ocp.nPhases, FullWidths M T ph) :
    ∀ ph < ocp.nPhases, (∀ s < M.orders.length, 0 < T.w s ph) ∧ ∑ s ∈ Finset.range M.orders.length, T.w s ph = 1 :=
  fun ph hp => ⟨(h ph hp).pos, (h ph hp).sum⟩

/-- A trajectory that is not worse than the motions above ends at the origin. -/
theorem ends_at_origin (hM : M.Good) {W : List ℝ} (hW : W.length = M.N) {T : Traj ℝ} {J : ℝ} (h : PhysCost ocpSch M W T J)
    (hle : J ≤ 0) : J = 0 ∧ T.x 1 (M.N - 1) 0 = 0 ∧ T.x 1 (M.N - 1) 1 = 0 := by
  have := cost_Sch hM hW h
  have h0 := sq_nonneg (T.x 1 (M.N - 1) 0)
  have h1 := sq_nonneg (T.x 1 (M.N - 1) 1)
  refine ⟨le_antisymm hle (by rw [this]; positivity), ?_, ?_⟩ <;> refine pow_eq_zero_iff two_ne_zero |>.1 ?_ <;> linarith

variable {V : Type} {ptp : List (List Nat)} {n : Nat} {arg : OrdersArg} {scheme : String} {rx rdx : Bool} {ocp : OCP ℝ}
  {p : Post ℝ} {r : Option (PyDict (ResidVal ℝ))}

/-- **C98** `mpopt.solve` on the shipped two-phase example, any collocation scheme with nodes inside the segments, equal widths or any
positive ones with sum 1 in both phases, at least two segments of order 3 or any of order 4, a globally optimal NLP solver: the
trajectory shown costs nothing, and ends at the origin exactly. -/
theorem C98_solve {w : Outside ℝ V} {nlpsol : SolverCall ℝ V → Py (List ℝ)} (hocp : scriptSchwartz = .ok ocp) {a : SolveArgs ℝ V}
    {s : Session ℝ V} (hrun : mpSolve w nlpsol ocp ptp n arg scheme a rx rdx = .ok (s, p, r)) (hM : MeshFor w scheme n arg M)
    (hI : M.Inside) (hc : CanTurn M) (hopt : ∀ c z, nlpsol c = .ok z → c.IsOptimal z) (hwid : GoodWidths ocp n a.widths) :
    ∃ T W, compQuadWeights ⟨w.method, w.tau0, w.tau1, tausFn w.lib w.tau0 w.tau1 scheme⟩ M.orders = .ok W ∧
      SolvesOCP ocp M T ∧ WidthsAre ocp n a.widths T ∧ p.Shows ocp M T ∧ PhysCost ocp M W T 0 ∧
      T.x 1 (M.N - 1) 0 = 0 ∧ T.x 1 (M.N - 1) 1 = 0 := by
  obtain rfl : ocpSch = ocp := by rw [scriptSchwartz_eq] at hocp; injection hocp
  obtain ⟨hv, hs, hsc⟩ := ocpSch_ready
  obtain ⟨T, W, J, h1, h2, h3, h4, h5, h6⟩ := C53_solve_optimal hrun hv hs hsc hM hopt
  have hlen : M.orders.length = n := mpSolve_length hrun hM
  have hn : 0 < n := by rw [← hlen]; exact List.length_pos_iff.2 hM.good.nonempty
  obtain ⟨T', hT', k1, k2⟩ := exists_turn hM.good hI hc (full_of_good (h3.full_all hn hlen hwid)) W
  have hw' : WidthsAre ocpSch n a.widths T' := by
    unfold WidthsAre OCP.packWidths at h3 ⊢
    rw [hT']; exact h3
  obtain ⟨rfl, e1, e2⟩ := ends_at_origin hM.good (hM.weights_length h1) h5 (h6 T' 0 k1 hw' k2)
  exact ⟨T, W, h1, h2, h3, h4, h5, e1, e2⟩

/-- **C98** The same for `mpopt_h_adaptive`, after any calls: whatever valid widths it stops with. -/
theorem C98_h {w : HOutside ℝ V} {nlpsol : Nat → Nat → SolverCall ℝ V → Py (PyDict V)} (hocp : scriptSchwartz = .ok ocp)
    {lbh ubh tol : List ℝ} {s : HOpt ℝ V} (hf : s.Ready w ocp n arg scheme lbh ubh tol) (hM : MeshFor w.toOutside scheme n arg M)
    (hI : M.Inside) (hc : CanTurn M)
    (hopt : ∀ n k c sol, nlpsol n k c = .ok sol → ∃ z, Returned w sol z ∧ c.IsOptimal z)
    {calls : List (HStart V × HArgs V)} (ho : OwnStarts calls) {s' : HOpt ℝ V} {sol : PyDict V}
    (hrun : s.run w nlpsol calls 0 none = (s', some sol)) (hp : s'.processResults w sol ptp false rx rdx = .ok (p, r))
    (hwid : ∀ l, s'.widths = some l → ValidWidths n 2 l) :
    ∃ T W, compQuadWeights ⟨w.method, w.tau0, w.tau1, tausFn w.lib w.tau0 w.tau1 scheme⟩ M.orders = .ok W ∧
      SolvesOCP ocp M T ∧ s'.widths = some (ocp.packWidths n T) ∧ p.Shows ocp M T ∧ PhysCost ocp M W T 0 ∧
      T.x 1 (M.N - 1) 0 = 0 ∧ T.x 1 (M.N - 1) 1 = 0 := by
  obtain rfl : ocpSch = ocp := by rw [scriptSchwartz_eq] at hocp; injection hocp
  obtain ⟨hv, hs, hsc⟩ := ocpSch_ready
  obtain ⟨T, W, J, h1, h2, h3, h4, h5, h6⟩ := C60_h_optimal hf hv hs hsc hM hopt ho hrun hp
  have hlen : M.orders.length = n := by
    rw [OrdersArg.Means.unique hM.orders hf.orders]; exact hf.length
  have hn : 0 < n := by rw [← hlen]; exact List.length_pos_iff.2 hM.good.nonempty
  have hg : GoodWidths ocpSch n s'.widths := fun l hl => hwid l hl
  have hfw : ∀ ph < ocpSch.nPhases, FullWidths M T ph := by
    rw [h4] at hg
    exact WidthsAre.full_all hn hlen hg (rfl : WidthsAre ocpSch n (some (ocpSch.packWidths n T)) T)
  obtain ⟨T', hT', k1, k2⟩ := exists_turn hM.good hI hc (full_of_good hfw) W
  have hw' : s'.widths = some (ocpSch.packWidths n T') := by
    rw [h4]; unfold OCP.packWidths; rw [hT']
  obtain ⟨rfl, e1, e2⟩ := ends_at_origin hM.good (hM.weights_length h1) h5 (h6 T' 0 k1 hw' k2)
  exact ⟨T, W, h1, h2, h4, h3, h5, e1, e2⟩

/-- **C98** This is the optimal cost of the problem in continuous time, too. -/
theorem C98_true (hocp : scriptSchwartz = .ok ocp) :
    (∃ C, SolvesContinuously ocp C ∧ ocp.trueCost C = 0) ∧ ∀ C, SolvesContinuously ocp C → 0 ≤ ocp.trueCost C := by
  obtain rfl : ocpSch = ocp := by rw [scriptSchwartz_eq] at hocp; injection hocp
  have hcost : ∀ C, ocpSch.trueCost C = 5 * (C.x 1 0 (C.tf 1) ^ 2 + C.x 1 1 (C.tf 1) ^ 2) := by
    intro C
    unfold OCP.trueCost
    rw [show ocpSch.nPhases = 2 from rfl, Finset.sum_range_succ, Finset.sum_range_one]
    simp [ocpSch, OCP.cEnd, List.range_succ]
    ring
  refine ⟨?_, fun C _ => by rw [hcost]; positivity⟩
  obtain ⟨A, B, D, hT⟩ := turn_quartic
  refine ⟨_, turnS_solves hT, ?_⟩
  rw [hcost]
  simp [turnS, posS, velS, show ¬ (29 / 10 : ℝ) ≤ 1 by norm_num]

/-- The motion that turns round at once has polynomial controls, of degree at most 11. -/
theorem exists_turn_adaptive (hM : M.Good) (hI : M.Inside) (hc : ∀ p ∈ M.orders, 11 ≤ p) {lbh ubh tol : List ℝ} {mid : Bool} {w : Nat → Nat → ℝ}
    (hw : ∀ ph < 2, (∀ s < M.orders.length, 0 < w s ph ∧ lbh.getD ph 0 ≤ w s ph ∧ w s ph ≤ ubh.getD ph 0) ∧
      ∑ s ∈ Finset.range M.orders.length, w s ph = 1)
    (htol : mid = true → ∀ ph < 2, 0 ≤ tol.getD ph 0) (W : List ℝ) :
    ∃ T, SolvesAdaptive ocpSch M T lbh ubh tol mid ∧ PhysCost ocpSch M W T 0 := by
  obtain ⟨A, B, D, hT⟩ := turn_quartic
  have h11 : ∀ s < M.orders.length, 11 ≤ M.order s := fun s hs => hc _ (hM.order_mem hs)
  obtain ⟨T, hS, hTw⟩ := exists_samples_of ocpSch M (turnS 1 A B D) w
  have hfw : ∀ ph < ocpSch.nPhases, FullWidths M T ph := fun ph hp => by
    obtain ⟨q1, q2⟩ := hw ph hp
    exact ⟨fun s hs => by rw [hTw]; exact (q1 s hs).1, by rw [hTw]; exact q2⟩
  have hsol := turnS_solves hT
  have hbr : ∀ ph < 2, ∀ s < M.orders.length, (turnS 1 A B D).breakTime T.w ph (s + 1) ≤ 1 ∨ 1 ≤ (turnS 1 A B D).breakTime T.w ph s := by
    intro ph hp s hs
    interval_cases ph
    · left
      have : ∑ r ∈ Finset.range (s + 1), w r 0 ≤ 1 := by
        rw [← (hw 0 (by omega)).2]
        exact Finset.sum_le_sum_of_subset_of_nonneg (Finset.range_mono hs) fun r hr _ =>
          ((hw 0 (by omega)).1 r (Finset.mem_range.1 hr)).1.le
      simpa [CTraj.breakTime, turnS, hTw] using this
    · right
      have : 0 ≤ ∑ r ∈ Finset.range s, w r 1 := Finset.sum_nonneg fun r hr =>
        ((hw 1 (by omega)).1 r (by have := Finset.mem_range.1 hr; omega)).1.le
      simp only [CTraj.breakTime, turnS, hTw]
      norm_num
      linarith
  have hx : ∀ ph < ocpSch.nPhases, ∀ j < ocpSch.nx,
      PiecewisePoly M.orders.length M.order ((turnS 1 A B D).breakTime T.w ph) ((turnS 1 A B D).x ph j) := by
    intro ph hp
    refine two_entries ?_ ?_
    · exact glue_poly (P := 1 + X) (Q := C A * (C (29 / 10) - X) ^ 2 + C B * (C (29 / 10) - X) ^ 3 + C D * (C (29 / 10) - X) ^ 4)
        (fun s hs => le_trans (b := 1) (by compute_degree) ((h11 s hs).trans' (by norm_num)))
        (fun s hs => le_trans (b := 4) (by compute_degree) ((h11 s hs).trans' (by norm_num)))
        (fun t => by simp) (fun t => by simp) hT.pos (hbr ph hp)
    · exact glue_poly (P := 1) (Q := -(C (2 * A) * (C (29 / 10) - X) + C (3 * B) * (C (29 / 10) - X) ^ 2 + C (4 * D) * (C (29 / 10) - X) ^ 3))
        (fun s hs => by simp) (fun s hs => le_trans (b := 3) (by compute_degree) ((h11 s hs).trans' (by norm_num)))
        (fun t => by simp) (fun t => by simp) hT.vel (hbr ph hp)
  have hu : ∀ ph < ocpSch.nPhases, ∀ j < ocpSch.nu,
      PiecewisePoly M.orders.length M.order ((turnS 1 A B D).breakTime T.w ph) ((turnS 1 A B D).u ph j) := by
    intro ph hp j hj
    have hacc : (0 : ℝ) = 2 * A + 6 * B * (29 / 10 - 1) + 12 * D * (29 / 10 - 1) ^ 2 := by
      rcases hT.acc with h | h
      · exact absurd h (lt_irrefl _)
      · exact h
    have e : (turnS 1 A B D).u ph j = fun t : ℝ => if t ≤ 1 then 0 + 1 / 10 * (1 + 2 * (1 + t) * (1 + t)) * 1 else
        (2 * A + 6 * B * (29 / 10 - t) + 12 * D * (29 / 10 - t) ^ 2) + 1 / 10 * (1 + 2 *
          (A * (29 / 10 - t) ^ 2 + B * (29 / 10 - t) ^ 3 + D * (29 / 10 - t) ^ 4) *
          (A * (29 / 10 - t) ^ 2 + B * (29 / 10 - t) ^ 3 + D * (29 / 10 - t) ^ 4)) *
          -(2 * A * (29 / 10 - t) + 3 * B * (29 / 10 - t) ^ 2 + 4 * D * (29 / 10 - t) ^ 3) := by
      funext t
      simp only [turnS, posS, velS, accS]
      split <;> rfl
    rw [e]
    refine glue_poly (P := C (1 / 10) * (1 + 2 * (1 + X) * (1 + X)))
      (Q := (C (2 * A) + C (6 * B) * (C (29 / 10) - X) + C (12 * D) * (C (29 / 10) - X) ^ 2) + C (1 / 10) * (1 + 2 *
          (C A * (C (29 / 10) - X) ^ 2 + C B * (C (29 / 10) - X) ^ 3 + C D * (C (29 / 10) - X) ^ 4) *
          (C A * (C (29 / 10) - X) ^ 2 + C B * (C (29 / 10) - X) ^ 3 + C D * (C (29 / 10) - X) ^ 4)) *
          -(C (2 * A) * (C (29 / 10) - X) + C (3 * B) * (C (29 / 10) - X) ^ 2 + C (4 * D) * (C (29 / 10) - X) ^ 3))
        (fun s hs => le_trans (b := 2) (by compute_degree) ((h11 s hs).trans' (by norm_num)))
        (fun s hs => le_trans (b := 11) (by compute_degree) (h11 s hs))
        (fun t => by simp) (fun t => by simp) ?_ (hbr ph hp)
    rw [← hT.vel, ← hacc, ← hT.pos]
  refine ⟨T, C63_exact_feasible hM hI hsol ocpSch_ready.2.1.linkRange hS hfw hx hu (two_phases rfl rfl)
    (fun ph hp s hs => by rw [hTw]; exact ((hw ph hp).1 s hs).2) htol, ⟨fun _ _ => 0, two_phases ?_ ?_, ?_⟩⟩
  · intro rc hrc s i _
    cases hrc
    simp
  · intro rc hrc s i _
    cases hrc
    simp
  · have h0 : weightedSum W (fun _ => 0) = 0 := by simp [weightedSum]
    rw [show ocpSch.nPhases = 2 from rfl, Finset.sum_range_succ, Finset.sum_range_one, h0]
    unfold TerminalCost
    rw [hS.tArg hM (by simp [ocpSch]) (hfw 1 (by simp [ocpSch]))]
    simp [OCP.cEnd, ocpSch, turnS, List.range_succ, posS, velS, show ¬ (29 / 10 : ℝ) ≤ 1 by norm_num]

/-- **C98** The same for `mpopt_adaptive` with orders from 11, which also has to follow the motion between the nodes: bounds on the
widths that admit equal ones. -/
theorem C98_adaptive {w : Outside ℝ V} {nlpsol : SolverCall ℝ V → Py (List ℝ)} (hocp : scriptSchwartz = .ok ocp)
    {lbh ubh tol : List ℝ} {mid : Bool} {s : AdaptOpt ℝ V} (hf : s.Ready w ocp n arg scheme lbh ubh tol mid)
    (hlb : lbh.length = 2) (hub : ubh.length = 2) (htl : tol.length = 2)
    (hwid : ∀ ph < 2, lbh.getD ph 0 ≤ 1 / n ∧ 1 / n ≤ ubh.getD ph 0) (htol : mid = true → ∀ ph < 2, 0 ≤ tol.getD ph 0)
    (hM : MeshFor w scheme n arg M) (hI : M.Inside) (hc : ∀ p ∈ M.orders, 11 ≤ p)
    (hopt : ∀ c z, nlpsol c = .ok z → c.IsOptimal z) (earlier : List (SolveArgs ℝ V)) (a : SolveArgs ℝ V)
    {s' : AdaptOpt ℝ V} {z : List ℝ} (hrun : (s.run w nlpsol earlier).solve w nlpsol a = (s', .ok z))
    (hp : s'.processResults w ptp false rx rdx = .ok (p, r)) :
    ∃ T W, compQuadWeights ⟨w.method, w.tau0, w.tau1, tausFn w.lib w.tau0 w.tau1 scheme⟩ M.orders = .ok W ∧
      SolvesAdaptive ocp M T lbh ubh tol mid ∧ p.Shows ocp M T ∧ PhysCost ocp M W T 0 ∧
      T.x 1 (M.N - 1) 0 = 0 ∧ T.x 1 (M.N - 1) 1 = 0 := by
  obtain rfl : ocpSch = ocp := by rw [scriptSchwartz_eq] at hocp; injection hocp
  obtain ⟨hv, hs, hsc⟩ := ocpSch_ready
  obtain ⟨T, W, J, h1, h2, h3, h4, h5⟩ := C55_adaptive_optimal hf hv hs hsc hlb hub htl hM hopt earlier a hrun hp
  have hlen : M.orders.length = n := by
    rw [OrdersArg.Means.unique hM.orders hf.orders]; exact hf.length
  have hn : 0 < n := by rw [← hlen]; exact List.length_pos_iff.2 hM.good.nonempty
  have hn' : (0 : ℝ) < n := by exact_mod_cast hn
  obtain ⟨T', k1, k2⟩ := exists_turn_adaptive hM.good hI hc (lbh := lbh) (ubh := ubh) (tol := tol) (mid := mid)
    (w := fun _ _ => 1 / (n : ℝ)) (fun ph hp => ⟨fun s _ => ⟨by positivity, hwid ph hp⟩, by rw [hlen]; simp; field_simp⟩) htol W
  obtain ⟨rfl, e1, e2⟩ := ends_at_origin hM.good (hM.weights_length h1) h4 (h5 T' 0 k1 k2)
  exact ⟨T, W, h1, h2, h3, h4, e1, e2⟩

/-- The times of the phases. -/
theorem times_Sch {T : Traj ℝ} (hT : SolvesOCP ocpSch M T) : T.t0 0 = 0 ∧ T.tf 0 = 1 ∧ T.t0 1 = 1 ∧ T.tf 1 = 29 / 10 := by
  have B0 := hT.1.bounds 0 (by simp [ocpSch])
  have B1 := hT.1.bounds 1 (by simp [ocpSch])
  have L := hT.1.links (by simp [ocpSch])
  have t0 : T.t0 0 = 0 := by
    have : (0 : ℝ) ≤ T.t0 0 ∧ T.t0 0 ≤ 0 := by simpa [ocpSch, entry, Within, Ext.Below, Ext.Above] using B0.t0
    exact le_antisymm this.2 this.1
  have t1 : T.tf 0 = 1 := by
    have : (1 : ℝ) ≤ T.tf 0 ∧ T.tf 0 ≤ 1 := by simpa [ocpSch, entry, Within, Ext.Below, Ext.Above] using B0.tf
    exact le_antisymm this.2 this.1
  have t2 : T.tf 1 = 29 / 10 := by
    have : (29 / 10 : ℝ) ≤ T.tf 1 ∧ T.tf 1 ≤ 29 / 10 := by simpa [ocpSch, entry, Within, Ext.Below, Ext.Above] using B1.tf
    exact le_antisymm this.2 this.1
  exact ⟨t0, t1, (L.t 0 0 1 rfl).trans t1, t2⟩

/-! ### The coarsest mesh -/

/-- A step of a segment of order one. -/
theorem step_one (hM : M.Good) (ho : M.orders = [1]) {T : Traj ℝ} {ph : Nat} {F : VFun (PArg ℝ) ℝ} {ocp : OCP ℝ}
    (hF : ocp.dynamics[ph]? = some F) (hC : CollocationOK ocp M T ph) (hw : T.w 0 ph = 1) {j : Nat} (hj : j < ocp.nx) :
    (∀ i < 2, T.x ph 1 j - T.x ph 0 j = (T.tf ph - T.t0 ph) * F.f (ocp.pArg T ph i (M.time T ph 0 (M.node 0 i))) j) := by
  intro i hi
  have h0 : 0 < M.orders.length := by rw [ho]; simp
  have hord : M.order 0 = 1 := by simp [Mesh.order, ho]
  have hidx : ∀ k, M.idx 0 k = k := fun k => by simp [Mesh.idx, segStart_zero]
  have hd := hM.piece_degrees (fun k => T.x ph k j) 0 h0
  have e0 := hM.piece_eval_node (fun k => T.x ph k j) h0 (i := 0) (by omega)
  have e1 := hM.piece_eval_node (fun k => T.x ph k j) h0 (i := 1) (by omega)
  have ec := hC F hF j hj 0 i ⟨h0, by omega, Or.inl rfl⟩
  rw [← Mesh.order_eq (M := M) h0, hord] at hd
  rw [hidx] at e0 e1 ec
  rw [hM.node_first h0] at e0
  have hl := hM.node_last h0
  rw [hord] at hl
  rw [hl] at e1
  generalize M.piece (fun k => T.x ph k j) 0 = P at hd e0 e1 ec
  rw [eq_X_add_C_of_natDegree_le_one hd] at e0 e1 ec
  simp only [eval_add, eval_mul, eval_C, eval_X, derivative_add, derivative_C_mul, derivative_X, derivative_C, add_zero, mul_one] at e0 e1 ec
  have hne : M.tau1 - M.tau0 ≠ 0 := hM.tau_ne
  rw [← e0, ← e1, add_sub_add_right_eq_sub, ← mul_sub, ec]
  unfold Mesh.halfWidth
  rw [hw]
  field_simp

/-- **C98** The condition on the mesh matters: with one segment of order one every trajectory of the collocated problem costs
`81.05`, although nothing would be possible. -/
theorem C98_coarse (hocp : scriptSchwartz = .ok ocp) (hM : M.Good) (ho : M.orders = [1]) {W : List ℝ} (hW : W.length = M.N)
    {T : Traj ℝ} (hT : SolvesOCP ocp M T) (hw : ∀ ph < 2, FullWidths M T ph) {J : ℝ} (hJ : PhysCost ocp M W T J) : J = 1621 / 20 := by
  obtain rfl : ocpSch = ocp := by rw [scriptSchwartz_eq] at hocp; injection hocp
  have hw0 : ∀ ph < 2, T.w 0 ph = 1 := fun ph hp => by simpa [ho] using (hw ph hp).sum
  have hN : M.N = 2 := by simp [Mesh.N, ho]
  have B0 := hT.1.bounds 0 (by simp [ocpSch])
  have L := hT.1.links (by simp [ocpSch])
  have x0 : T.x 0 0 0 = 1 := by simpa [ocpSch, entry] using B0.x0 rfl 0 (by simp [ocpSch])
  have v0 : T.x 0 0 1 = 1 := by simpa [ocpSch, entry] using B0.x0 rfl 1 (by simp [ocpSch])
  obtain ⟨t0, t1, lt, t2⟩ := times_Sch hT
  have lx : T.x 1 0 0 = T.x 0 1 0 := by
    have : (0 : ℝ) ≤ T.x 1 0 0 - T.x 0 (M.N - 1) 0 ∧ T.x 1 0 0 - T.x 0 (M.N - 1) 0 ≤ 0 := L.x 0 0 1 rfl 0 (by simp [ocpSch])
    rw [hN] at this
    linarith [this.1, this.2]
  have lv : T.x 1 0 1 = T.x 0 1 1 := by
    have : (0 : ℝ) ≤ T.x 1 0 1 - T.x 0 (M.N - 1) 1 ∧ T.x 1 0 1 - T.x 0 (M.N - 1) 1 ≤ 0 := L.x 0 0 1 rfl 1 (by simp [ocpSch])
    rw [hN] at this
    linarith [this.1, this.2]
  have s0 := step_one hM ho rfl (hT.1.dynamics 0 (by simp [ocpSch])) (hw0 0 (by omega)) (j := 0) (by simp [ocpSch])
  have s1 := step_one hM ho rfl (hT.1.dynamics 1 (by simp [ocpSch])) (hw0 1 (by omega)) (j := 0) (by simp [ocpSch])
  have a0 := s0 0 (by omega)
  have a1 := s0 1 (by omega)
  have b0 := s1 0 (by omega)
  have b1 := s1 1 (by omega)
  simp [OCP.pArg, ocpSch, List.range_succ] at a0 a1 b0 b1
  rw [t0, t1] at a0 a1
  rw [lt, t2] at b0 b1
  have hc := cost_Sch hM hW hJ
  rw [hN] at hc
  have e1 : T.x 1 1 1 = 1 := by linarith
  have e0 : T.x 1 1 0 = 39 / 10 := by linarith
  rw [hc, e0, e1]
  norm_num

/-- There are such trajectories, that never turn, and their cost is that of the motion they follow. -/
theorem C98_coarse_exists (hM : M.Good) (hI : M.Inside) (ho : M.orders = [1]) (W : List ℝ) :
    ∃ T, SolvesOCP ocpSch M T ∧ (∀ ph < 2, FullWidths M T ph) ∧ ∃ J, PhysCost ocpSch M W T J := by
  obtain ⟨A, B, hT⟩ := turn_cubic (β := 39 / 10) (by norm_num) (by norm_num)
  obtain ⟨T, hS, hTw⟩ := exists_samples_of ocpSch M (turnS (39 / 10) A B 0) fun _ _ => 1
  have hfw : ∀ ph < 2, FullWidths M T ph := fun ph hp => by
    refine ⟨?_, ?_⟩ <;> rw [hTw]
    · intro s _; norm_num
    · simp [ho]
  have h1 : ∀ s < M.orders.length, 1 ≤ M.order s := fun s hs => by
    have := hM.order_mem hs
    rw [ho] at this
    rw [List.mem_singleton.1 this]
  refine ⟨T, ?_, hfw, ?_⟩
  · have hpc : ∀ ph < 2, ∀ s < M.orders.length, (turnS (39 / 10) A B 0).breakTime T.w ph s ≤ 29 / 10 ∧
        (turnS (39 / 10) A B 0).breakTime T.w ph (s + 1) ≤ 29 / 10 := by
      intro ph hp s hs
      obtain rfl : s = 0 := by rw [ho] at hs; simpa using hs
      interval_cases ph <;> norm_num [CTraj.breakTime, turnS, hTw]
    have hb : ∀ ph < 2, ∀ s < M.orders.length, ∀ t ∈ Set.Icc ((turnS (39 / 10) A B 0).breakTime T.w ph s)
        ((turnS (39 / 10) A B 0).breakTime T.w ph (s + 1)), t ≤ 39 / 10 := fun ph hp s hs t ht => by
      linarith [ht.2, hpc ph hp s hs]
    obtain ⟨k1, k2, k3, k4, k5⟩ := exact_nodes hM hI (turnS_solves hT) ocpSch_ready.2.1.linkRange hS hfw (fun ph hp => two_entries
      (fun s hs => ⟨1 + X, le_trans (b := 1) (by compute_degree) (h1 s hs), fun t ht => by simp [turnS, posS, hb ph hp s hs t ht]⟩)
      (fun s hs => ⟨1, by simp, fun t ht => by simp [turnS, velS, hb ph hp s hs t ht]⟩))
    have hmid : ∀ ph < ocpSch.nPhases, MidControlOK ocpSch M T ph := by
      refine two_phases ?_ ?_
      · intro j hj s hs i hi
        obtain rfl : s = 0 := by rw [ho] at hs; simpa using hs
        obtain rfl : j = 0 := by simpa [ocpSch] using hj
        have hord : M.order 0 = 1 := by simp [Mesh.order, ho]
        obtain rfl : i = 0 := by omega
        have hN : M.N = 2 := by simp [Mesh.N, ho]
        have b0 := (k1 0 (by simp [ocpSch])).u 0 (by omega) 0 (by simp [ocpSch])
        have b1 := (k1 0 (by simp [ocpSch])).u 1 (by omega) 0 (by simp [ocpSch])
        have hidx : ∀ k, M.idx 0 k = k := fun k => by simp [Mesh.idx, segStart_zero]
        have e0 := hM.piece_eval_node (fun k => T.u 0 k 0) hs (i := 0) (by omega)
        have e1 := hM.piece_eval_node (fun k => T.u 0 k 0) hs (i := 1) (by omega)
        have hd := hM.piece_degrees (fun k => T.u 0 k 0) 0 hs
        rw [← Mesh.order_eq (M := M) hs, hord] at hd
        rw [hidx] at e0 e1
        generalize M.piece (fun k => T.u 0 k 0) 0 = P at hd e0 e1
        rw [eq_X_add_C_of_natDegree_le_one hd] at e0 e1 ⊢
        simp only [eval_add, eval_mul, eval_C, eval_X] at e0 e1
        simp only [eval_add, eval_mul, eval_C, eval_X, ocpSch, entry, Within, Ext.Below, Ext.Above, List.getD_cons_zero] at b0 b1 ⊢
        rw [← e0] at b0
        rw [← e1] at b1
        constructor <;> linarith [b0.1, b0.2, b1.1, b1.2]
      · intro j hj s hs i hi
        obtain rfl : j = 0 := by simpa [ocpSch] using hj
        simp [ocpSch, entry, Within, Ext.Below, Ext.Above]
    refine ⟨⟨k1, k2, k3, k4, fun ph hp _ => hmid ph hp, fun ph hp h => ?_, fun _ => k5⟩, fun ph hp h => ?_⟩
    · revert h; revert ph; exact two_phases (by simp [ocpSch]) (by simp [ocpSch])
    · revert h; revert ph; exact two_phases (by simp [ocpSch]) (by simp [ocpSch])
  · obtain ⟨v, hv⟩ := exists_samples ocpSch M T
    exact ⟨_, v, hv, rfl⟩

end MPOpt
