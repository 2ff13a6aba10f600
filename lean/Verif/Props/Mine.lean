import Verif.Model.ExamplesMore
import Verif.Props.Certificate

/-! # C106: the shipped mine example -/

set_option autoImplicit false
set_option linter.unusedSectionVars false

namespace MPOpt
open Polynomial

variable {M : Mesh ℝ} {q : ℝ → ℝ}

/-- The object built by the script, written out. -/
noncomputable def ocpMine (q : ℝ → ℝ) : OCP ℝ :=
  { nx := 1, nu := 1, na := 0, nPhases := 1
    dynamics := [⟨1, fun p _ => -p.u.getD 0 0⟩]
    pathConstraints := [none]
    terminalCosts := [fun _ => 0]
    runningCosts := [fun p => if p.x.getD 0 0 = 0 then q (p.u.getD 0 0) else
      p.u.getD 0 0 * p.u.getD 0 0 / p.x.getD 0 0 - 1 * p.u.getD 0 0]
    terminalConstraints := [none]
    phaseLinks := []
    scaleX := [1], scaleU := [1], scaleA := [], scaleT := 1
    x00 := [[1]], xf0 := [[0]], u00 := [[0]], uf0 := [[0]], t00 := [[0]], tf0 := [[1]], a0 := [[]]
    lbx := [[.fin 0]], ubx := [[.fin 1]], lbu := [[.ninf]], ubu := [[.pinf]], lba := [[]]
    uba := [[]], lbt0 := [[.fin 0]], ubt0 := [[.fin 0]], lbtf := [[.fin 1]], ubtf := [[.fin 1]]
    lbe := [], ube := [], diffU := [false], lbdu := [.fin (-15)], ubdu := [.fin 15], midu := [true]
    duContinuity := [false] }

theorem scriptMine_eq : scriptMine q = .ok (ocpMine q) := rfl

theorem ocpMine_ready : ValidOCP (ocpMine q) ∧ (ocpMine q).SettingsOK ∧ (ocpMine q).PosScales := by
  refine ⟨?_, ⟨Nat.one_pos, rfl, rfl, rfl, rfl, rfl, Or.inl Nat.one_pos, fun h => absurd h (by simp [ocpMine]),
    fun h => absurd h (by simp [ocpMine]), by simp [ocpMine]⟩, ⟨?_, ?_, ?_, by norm_num [ocpMine]⟩⟩
  · constructor
    case ordX => exact rowOrdered_single (by simp [Ext.le])
    case ordU => exact rowOrdered_single (by simp [Ext.le])
    case ordA => exact rowOrdered_empty
    case ordT0 => exact rowOrdered_single (by simp [Ext.le])
    case ordTf => exact rowOrdered_single (by simp [Ext.le])
    case ordE => intro ph l u hl; simp [ocpMine] at hl
    all_goals simp [ocpMine, HasShape]
  all_goals simp [ocpMine]

/-! ### The solution -/

/-- `x = (5 - t)²/25`, `u = 2 (5 - t)/25`. -/
noncomputable def exactMine : CTraj :=
  ⟨fun _ _ t => (5 - t) ^ 2 / 25, fun _ _ t => 2 * (5 - t) / 25, fun _ => 0, fun _ => 1, fun _ _ => 0⟩

theorem exactMine_solves : SolvesContinuously (ocpMine q) exactMine := by
  refine ⟨fun ph hph => ?_, by simp [ocpMine], by simp [ocpMine], by simp [ocpMine]⟩
  obtain rfl : ph = 0 := by simpa [ocpMine] using hph
  have hd : ∀ t : ℝ, HasDerivAt (fun t : ℝ => (5 - t) ^ 2 / 25) (-(2 * (5 - t) / 25)) t := by
    intro t
    have := (((hasDerivAt_id t).const_sub 5).pow 2).div_const 25
    refine this.congr_deriv ?_
    simp; ring
  refine ⟨by simp [exactMine], ⟨?_, ?_, fun j _ t _ => (hd t).continuousAt.continuousWithinAt⟩, ?_, ?_, ?_, ?_, ?_, ?_, ?_, ?_⟩
  · intro F hF j hj t _ _
    have hF : (⟨1, fun p _ => -p.u.getD 0 0⟩ : VFun (PArg ℝ) ℝ) = F := by simpa [ocpMine] using hF
    rw [← hF]
    simpa [exactMine, OCP.cArg, ocpMine] using (hd t).hasDerivWithinAt
  · intro F hF j hj
    have hF : (⟨1, fun p _ => -p.u.getD 0 0⟩ : VFun (PArg ℝ) ℝ) = F := by simpa [ocpMine] using hF
    rw [← hF]
    simpa [exactMine, OCP.cArg, ocpMine] using (hd 0).hasDerivWithinAt
  · intro F hF; simp [ocpMine] at hF
  · intro F hF; simp [ocpMine] at hF
  · intro _ j hj
    obtain rfl : j = 0 := by simpa [ocpMine] using hj
    norm_num [exactMine, ocpMine, entry]
  · intro t ht _ j hj
    obtain rfl : j = 0 := by simpa [ocpMine] using hj
    have ht : 0 ≤ t ∧ t ≤ 1 := ht
    simp only [ocpMine, entry, Within, Ext.Below, Ext.Above, exactMine]
    refine ⟨show (0 : ℝ) ≤ (5 - t) ^ 2 / 25 by positivity, show (5 - t) ^ 2 / 25 ≤ (1 : ℝ) from ?_⟩
    rw [div_le_one (by norm_num)]
    nlinarith [ht.1, ht.2]
  · intro t ht j hj
    obtain rfl : j = 0 := by simpa [ocpMine] using hj
    simp [ocpMine, entry, Within, Ext.Below, Ext.Above]
  · simp [exactMine, ocpMine, entry, Within, Ext.Below, Ext.Above]
  · simp [exactMine, ocpMine, entry, Within, Ext.Below, Ext.Above]
  · intro k hk; simp [ocpMine] at hk

theorem exactMine_running {t : ℝ} (ht : t < 5) :
    (ocpMine q).runningCosts.getD 0 (fun _ => 0) ((ocpMine q).cArg exactMine 0 t) = 4 / 25 - 2 * (5 - t) / 25 := by
  have h : 5 - t ≠ 0 := by linarith
  have h2 : (5 - t) ^ 2 / 25 ≠ 0 := by positivity
  have e : (ocpMine q).runningCosts.getD 0 (fun _ => 0) ((ocpMine q).cArg exactMine 0 t) =
      if (5 - t) ^ 2 / 25 = 0 then q (2 * (5 - t) / 25) else
        2 * (5 - t) / 25 * (2 * (5 - t) / 25) / ((5 - t) ^ 2 / 25) - 1 * (2 * (5 - t) / 25) := rfl
  rw [e, if_neg h2]
  field_simp
  ring

theorem exactMine_poly {n : Nat} {deg : Nat → Nat} (h : ∀ s < n, 2 ≤ deg s) {b : Nat → ℝ}
    (hb : ∀ s < n, b (s + 1) ≤ 1) :
    PiecewisePoly n deg b (exactMine.x 0 0) ∧ PiecewisePoly n deg b (exactMine.u 0 0) ∧
      LeftPiecewisePoly n deg b fun t =>
        (ocpMine q).runningCosts.getD 0 (fun _ => 0) ((ocpMine q).cArg exactMine 0 t) := by
  refine ⟨fun s hs => ⟨C (1 / 25) * X ^ 2 + C (-10 / 25) * X + C 1, natDegree_quadratic_le.trans (h s hs), fun t _ => ?_⟩,
    fun s hs => ⟨C (-2 / 25) * X + C (10 / 25), natDegree_linear_le.trans (by have := h s hs; omega), fun t _ => ?_⟩,
    fun s hs => ⟨C (2 / 25) * X + C (-6 / 25), natDegree_linear_le.trans (by have := h s hs; omega), fun t ht _ => ?_⟩⟩
  · simp [exactMine]; ring
  · simp [exactMine]; ring
  · have h1 := hb s hs
    have h2 := ht.2
    show (ocpMine q).runningCosts.getD 0 (fun _ => 0) ((ocpMine q).cArg exactMine 0 t) = _
    rw [exactMine_running (by linarith)]
    simp; ring

theorem exactMine_cost : (ocpMine q).trueCost exactMine = -1 / 5 := by
  have e : (ocpMine q).trueCost exactMine = ∫ t in (0 : ℝ)..1, (2 / 25 * t - 6 / 25) := by
    simp only [OCP.trueCost, show (ocpMine q).nPhases = 1 from rfl, Finset.sum_range_one]
    rw [show (ocpMine q).terminalCosts.getD 0 (fun _ => 0) ((ocpMine q).cEnd exactMine 0) = 0 from rfl, zero_add]
    apply intervalIntegral.integral_congr
    intro t ht
    have ht : t ∈ Set.uIcc (0 : ℝ) 1 := ht
    rw [Set.uIcc_of_le zero_le_one] at ht
    show (ocpMine q).runningCosts.getD 0 (fun _ => 0) ((ocpMine q).cArg exactMine 0 t) = _
    rw [exactMine_running (by linarith [ht.2])]
    ring
  have hd : ∀ t : ℝ, HasDerivAt (fun t : ℝ => 1 / 25 * t ^ 2 - 6 / 25 * t) (2 / 25 * t - 6 / 25) t := by
    intro t
    have := (((hasDerivAt_id t).pow 2).const_mul (1 / 25)).sub ((hasDerivAt_id t).const_mul (6 / 25))
    refine this.congr_deriv ?_
    simp; ring
  rw [e, intervalIntegral.integral_eq_sub_of_hasDerivAt (fun t _ => hd t)
    ((by fun_prop : Continuous fun t : ℝ => 2 / 25 * t - 6 / 25).intervalIntegrable _ _)]
  norm_num

/-! ### The certificate -/

/-- `1 - s + s² - …` with `m` terms, `s = (1 - t)/4`: the price of the mine is this minus 1. -/
noncomputable def minePoly (m : Nat) : ℝ[X] := ∑ k ∈ Finset.range m, (-(C (1 / 4) * (1 - X))) ^ k

noncomputable def mineCert (m : Nat) : Certificate := ⟨fun _ _ => minePoly m - 1, fun _ => 0⟩

theorem minePoly_degree {m : Nat} : (minePoly m - 1).natDegree ≤ m - 1 := by
  refine (natDegree_sub_le _ _).trans (max_le (natDegree_sum_le_of_forall_le _ _ fun k hk => ?_) (by simp))
  have hk := Finset.mem_range.1 hk
  refine natDegree_pow_le.trans ?_
  have h1 : (-(C (1 / 4) * (1 - X)) : ℝ[X]).natDegree ≤ 1 := by
    rw [natDegree_neg]
    refine (natDegree_C_mul_le _ _).trans ((natDegree_sub_le _ _).trans (by simp))
  exact (Nat.mul_le_mul_left k h1).trans (by omega)

theorem minePoly_mul (k : Nat) :
    minePoly (2 * k) * (1 + C (1 / 4) * (1 - X)) = 1 - (C (1 / 4) * (1 - X)) ^ (2 * k) := by
  have h := geom_sum_mul_neg (-(C (1 / 4 : ℝ) * (1 - X))) (2 * k)
  rw [sub_neg_eq_add, Even.neg_pow (even_two_mul k)] at h
  exact h

theorem minePoly_facts (k : Nat) (t : ℝ) :
    (minePoly (2 * k)).eval t * (1 + (1 - t) / 4) = 1 - ((1 - t) / 4) ^ (2 * k) ∧
    (derivative (minePoly (2 * k))).eval t * (1 + (1 - t) / 4) - (minePoly (2 * k)).eval t / 4 =
      2 * k * ((1 - t) / 4) ^ (2 * k - 1) / 4 := by
  have h := minePoly_mul k
  have hs : ∀ t : ℝ, (C (1 / 4 : ℝ) * (1 - X)).eval t = (1 - t) / 4 := by intro t; simp; ring
  constructor
  · have := congrArg (eval t) h
    simp only [eval_mul, eval_add, eval_one, eval_sub, eval_pow] at this
    simp only [eval_C, eval_X] at this
    rw [show (1 : ℝ) / 4 * (1 - t) = (1 - t) / 4 by ring] at this
    exact this
  · have := congrArg (fun P => eval t (derivative P)) h
    simp only [derivative_mul, derivative_add, derivative_one, derivative_sub, derivative_pow, derivative_C,
      derivative_X, eval_mul, eval_add, eval_one, eval_sub, eval_pow, eval_C, eval_X, eval_zero] at this
    rw [show (1 : ℝ) / 4 * (1 - t) = (1 - t) / 4 by ring] at this
    push_cast at this ⊢
    linarith

/-- The Riccati inequality behind the certificate. -/
theorem minePoly_riccati (k : Nat) {t : ℝ} (h0 : 0 ≤ t) (h1 : t ≤ 1) :
    (minePoly (2 * k)).eval t ^ 2 / 4 ≤ (derivative (minePoly (2 * k))).eval t ∧
      0 ≤ (minePoly (2 * k)).eval t ∧ (minePoly (2 * k)).eval t ≤ 1 := by
  obtain ⟨e1, e2⟩ := minePoly_facts k t
  set s := (1 - t) / 4 with hs
  set y := (minePoly (2 * k)).eval t
  set y' := (derivative (minePoly (2 * k))).eval t
  have s0 : 0 ≤ s := by rw [hs]; linarith
  have s1 : s ≤ 1 := by rw [hs]; linarith
  have p0 : 0 ≤ s ^ (2 * k) := pow_nonneg s0 _
  have p1 : s ^ (2 * k) ≤ 1 := pow_le_one₀ s0 s1
  have p2 : 0 ≤ s ^ (2 * k - 1) := pow_nonneg s0 _
  have hy : y = (1 - s ^ (2 * k)) / (1 + s) := by rw [eq_div_iff (by linarith)]; exact e1
  have hy' : y' = ((1 - s ^ (2 * k)) / 4 + 2 * k * s ^ (2 * k - 1) * (1 + s) / 4) / (1 + s) ^ 2 := by
    rw [eq_div_iff (by positivity)]
    have : y' * (1 + s) = y / 4 + 2 * k * s ^ (2 * k - 1) / 4 := by linarith
    calc y' * (1 + s) ^ 2 = (y' * (1 + s)) * (1 + s) := by ring
      _ = (y / 4 + 2 * k * s ^ (2 * k - 1) / 4) * (1 + s) := by rw [this]
      _ = y * (1 + s) / 4 + 2 * k * s ^ (2 * k - 1) * (1 + s) / 4 := by ring
      _ = _ := by rw [e1]
  refine ⟨?_, ?_, ?_⟩
  · rw [hy, hy', div_pow, div_div, mul_comm _ (4 : ℝ), ← div_div]
    rw [div_le_div_iff_of_pos_right (by positivity)]
    have h3 : (0 : ℝ) ≤ 2 * k * s ^ (2 * k - 1) * (1 + s) / 4 := by positivity
    nlinarith
  · rw [hy]; exact div_nonneg (by linarith) (by linarith)
  · rw [hy, div_le_one (by linarith)]; linarith

theorem mineCert_proves (hq : ∀ u, |u| ≤ q u) {k : Nat} (hk : 1 ≤ k) :
    (mineCert (2 * k)).Proves (ocpMine q) (-1 / 5 - 4 / 5 / 4 ^ (2 * k)) := by
  constructor
  · intro ph hph F L hF hL p hp
    obtain rfl : ph = 0 := by simpa [ocpMine] using hph
    have hF : (⟨1, fun p _ => -p.u.getD 0 0⟩ : VFun (PArg ℝ) ℝ) = F := by simpa [ocpMine] using hF
    have hL : (fun p : PArg ℝ => if p.x.getD 0 0 = 0 then q (p.u.getD 0 0) else
      p.u.getD 0 0 * p.u.getD 0 0 / p.x.getD 0 0 - 1 * p.u.getD 0 0) = L := by
      have : (ocpMine q).runningCosts[0]? = some _ := rfl
      rw [this] at hL
      injection hL
    have hx : 0 ≤ p.x.getD 0 0 := by
      rcases hp.x with h | ⟨-, h⟩
      · exact (h 0 (by simp [ocpMine])).1
      · rw [h 0 (by simp [ocpMine])]; simp [ocpMine, entry]
    have ht0 : 0 ≤ p.t := hp.t.1
    have ht1 : p.t ≤ 1 := hp.t.2
    obtain ⟨r1, r2, r3⟩ := minePoly_riccati k ht0 ht1
    rw [← hL, ← hF]
    simp only [Certificate.rate, show (ocpMine q).nx = 1 from rfl, Finset.sum_range_one, mineCert, derivative_sub,
      derivative_one, sub_zero, derivative_zero, eval_zero, add_zero, eval_sub, eval_one]
    set x := p.x.getD 0 0
    set u := p.u.getD 0 0
    set y := (minePoly (2 * k)).eval p.t
    set y' := (derivative (minePoly (2 * k))).eval p.t
    by_cases h0 : x = 0
    · rw [if_pos h0, h0]
      have h1 := hq u
      have h2 : |(y - 1) * u| ≤ |u| := by
        rw [abs_mul]
        exact mul_le_of_le_one_left (abs_nonneg _) (by rw [abs_le]; constructor <;> linarith)
      have h3 := le_abs_self ((y - 1) * u)
      nlinarith
    · rw [if_neg h0]
      have hx' : 0 < x := lt_of_le_of_ne hx (Ne.symm h0)
      have e : u * u / x - 1 * u + (y' * x + (y - 1) * -u) = (u - y * x / 2) ^ 2 / x + (y' - y ^ 2 / 4) * x := by
        field_simp; ring
      rw [e]
      have := mul_nonneg (sub_nonneg.2 r1) hx'.le
      positivity
  · intro E hE
    have hB := hE.bounds 0 (by simp [ocpMine])
    obtain ⟨b1, -, -, b4, b5, -⟩ := hB
    have x0 : E.x 0 0 0 = 1 := by simpa [ocpMine, entry] using b1 rfl 0 (by simp [ocpMine])
    have t0 : E.t0 0 = 0 := by
      have : (0 : ℝ) ≤ E.t0 0 ∧ E.t0 0 ≤ 0 := b4
      exact le_antisymm this.2 this.1
    have tf : E.tf 0 = 1 := by
      have : (1 : ℝ) ≤ E.tf 0 ∧ E.tf 0 ≤ 1 := b5
      exact le_antisymm this.2 this.1
    rw [show (ocpMine q).nPhases = 1 from rfl, Finset.sum_range_one,
      show (ocpMine q).terminalCosts.getD 0 (fun _ => 0) ((ocpMine q).tArg E 0 2) = 0 from rfl]
    simp only [Certificate.value, show (ocpMine q).nx = 1 from rfl, Finset.sum_range_one, mineCert, eval_sub, eval_one,
      eval_zero, add_zero, x0, t0, tf]
    have e0 := (minePoly_facts k 0).1
    have e1 := (minePoly_facts k 1).1
    have h1 : (minePoly (2 * k)).eval 1 = 1 := by
      rw [sub_self, zero_div, add_zero, mul_one, zero_pow (by omega), sub_zero] at e1; exact e1
    have h0 : (minePoly (2 * k)).eval 0 = 4 / 5 - 4 / 5 / 4 ^ (2 * k) := by
      rw [sub_zero, div_pow, one_pow] at e0
      have : (minePoly (2 * k)).eval 0 = (1 - 1 / 4 ^ (2 * k)) * (4 / 5) := by linarith
      rw [this]; ring
    rw [h1, h0]
    linarith

theorem mineCert_fits {k : Nat} {orders : List Nat} (hk : 1 ≤ k) (ho : ∀ p ∈ orders, 2 * k ≤ p) :
    (mineCert (2 * k)).Fits (ocpMine q) orders := by
  intro ph _ p hp
  have := ho p hp
  refine ⟨fun j _ => ?_, ?_⟩
  · have := minePoly_degree (m := 2 * k)
    show (minePoly (2 * k) - 1).natDegree + 1 ≤ p
    omega
  · simp [mineCert]; omega

/-- **C106** No solution of the continuous-time mine problem earns more than 1/5, and one earns it. -/
theorem C106_mine_true (hq : ∀ u, |u| ≤ q u) :
    (∀ C, SolvesContinuously (ocpMine q) C → IntervalIntegrable
      (fun t => (ocpMine q).runningCosts.getD 0 (fun _ => 0) ((ocpMine q).cArg C 0 t)) MeasureTheory.volume (C.t0 0) (C.tf 0) →
        -1 / 5 ≤ (ocpMine q).trueCost C) ∧
    SolvesContinuously (ocpMine q) exactMine ∧ (ocpMine q).trueCost exactMine = -1 / 5 := by
  refine ⟨fun C hC hint => ?_, exactMine_solves, exactMine_cost⟩
  have hb : ∀ k : ℕ, -1 / 5 - 4 / 5 * (1 / 16) ^ (k + 1) ≤ (ocpMine q).trueCost C := by
    intro k
    have := C106_continuous (mineCert_proves hq (Nat.le_add_left 1 k)) ocpMine_ready.1 hC (fun ph hp => by
      obtain rfl : ph = 0 := by simpa [ocpMine] using hp
      exact hint)
    rw [pow_mul, div_eq_mul_inv (4 / 5 : ℝ), ← inv_pow] at this
    norm_num at this ⊢
    linarith
  have ht : Filter.Tendsto (fun k : ℕ => -1 / 5 - 4 / 5 * (1 / 16 : ℝ) ^ (k + 1)) Filter.atTop (nhds (-1 / 5 - 4 / 5 * 0)) :=
    ((tendsto_pow_atTop_nhds_zero_of_lt_one (by norm_num) (by norm_num)).comp (Filter.tendsto_add_atTop_nat 1)).const_mul _
      |>.const_sub _
  have := le_of_tendsto' ht hb
  linarith

/-! ### The three solvers -/

variable {V : Type} {w : Outside ℝ V} {nlpsol : SolverCall ℝ V → Py (List ℝ)} {ptp : List (List Nat)} {n : Nat}
  {arg : OrdersArg} {rx rdx : Bool} {ocp : OCP ℝ}

theorem mine_phase {P : Nat → Prop} (h : P 0) : ∀ ph < (ocpMine q).nPhases, P ph := by
  intro ph hp
  obtain rfl : ph = 0 := by simpa [ocpMine] using hp
  exact h

theorem mine_times {T : Traj ℝ} (hB : BoundsOK (ocpMine q) M T 0) : T.t0 0 ≤ T.tf 0 := by
  have h1 : T.t0 0 ≤ 0 := hB.t0.2
  have h2 : 1 ≤ T.tf 0 := hB.tf.1
  linarith

theorem break_le {T : Traj ℝ} (hw : FullWidths M T 0) {s : Nat} (hs : s < M.orders.length) :
    exactMine.breakTime T.w 0 (s + 1) ≤ 1 := by
  have : ∑ r ∈ Finset.range (s + 1), T.w r 0 ≤ 1 := by
    rw [← hw.sum]
    refine Finset.sum_le_sum_of_subset_of_nonneg (fun r hr => ?_) fun r hr _ => (hw.pos r (Finset.mem_range.1 hr)).le
    rw [Finset.mem_range] at hr ⊢; omega
  simp only [CTraj.breakTime, exactMine]
  linarith

/-- **C106** `solve` on the shipped mine example, with LGR segments of orders at least `2 k` and an optimal solver: the
profit found is at least 1/5, the true maximum, and exceeds it by less than `4/5` over `4 ^ (2 k)`. -/
theorem C106_mine_solve (hocp : scriptMine q = .ok ocp) (hq : ∀ u, |u| ≤ q u) {a : SolveArgs ℝ V} {s : Session ℝ V}
    {p : Post ℝ} {r : Option (PyDict (ResidVal ℝ))}
    (hrun : mpSolve w nlpsol ocp ptp n arg "LGR" a rx rdx = .ok (s, p, r)) (hM : MeshFor w "LGR" n arg M)
    (hlt : w.tau0 < w.tau1) {k : Nat} (hk : 1 ≤ k) (hord : ∀ q ∈ M.orders, 2 * k ≤ q)
    (hj : ∀ q ∈ M.orders, IsJacobiRoots 1 0 (q - 1) (w.lib.jroots (q - 1) 1 0))
    (hopt : ∀ c z, nlpsol c = .ok z → c.IsOptimal z)
    (hwid : ∀ l, a.widths = some l → l.sum = 1 ∧ ∀ x ∈ l, 0 < x) :
    ∃ T W J, compQuadWeights ⟨w.method, w.tau0, w.tau1, tausFn w.lib w.tau0 w.tau1 "LGR"⟩ M.orders = .ok W ∧
      p.Shows ocp M T ∧ PhysCost ocp M W T J ∧ -1 / 5 - 4 / 5 / 4 ^ (2 * k) ≤ J ∧ J ≤ -1 / 5 := by
  obtain rfl : ocpMine q = ocp := by rw [scriptMine_eq] at hocp; injection hocp
  obtain ⟨hv, hs, hsc⟩ := ocpMine_ready (q := q)
  have hord2 : ∀ q ∈ M.orders, 2 ≤ q := fun q hq => by have := hord q hq; omega
  obtain ⟨T, W, J, h1, h2, h3, h4, h5, h6⟩ := C57_solve_beats hrun hv hs hsc hM hlt hord2 hj hopt
    (mine_phase rfl) (mine_phase rfl)
  have hlen : M.orders.length = n := mpSolve_length hrun hM
  have hn : 0 < n := by rw [← hlen]; exact List.length_pos_iff.2 hM.good.nonempty
  have hfw := h3.full rfl hn hlen hwid
  have ho : ∀ s < M.orders.length, 2 ≤ M.order s := fun s hs => hord2 _ (hM.good.order_mem hs)
  refine ⟨T, W, J, h1, h4, h5, C106_lgr (mineCert_proves hq hk) hv hM hlt hord2 hj (mineCert_fits hk hord) h1
    h2.1.core (mine_phase hfw.shares) (mine_phase (mine_times (h2.1.bounds 0 (by simp [ocpMine])))) h5, ?_⟩
  obtain ⟨T', hT', hTw⟩ := exists_samples_of (ocpMine q) M exactMine T.w
  have hw' : WidthsAre (ocpMine q) n a.widths T' := by
    unfold WidthsAre OCP.packWidths at h3 ⊢
    rw [hTw]; exact h3
  have hfw' := hw'.full rfl hn hlen hwid
  obtain ⟨p1, p2, -⟩ := exactMine_poly (q := q) ho (b := exactMine.breakTime T'.w 0) fun s hs => break_le hfw' hs
  obtain ⟨-, -, p3⟩ := exactMine_poly (q := q) (deg := fun s => 2 * M.order s - 2)
    (fun s hs => by have := ho s hs; omega) (b := exactMine.breakTime T'.w 0) fun s hs => break_le hfw' hs
  have hle := h6 exactMine T' exactMine_solves hT' hw' (mine_phase hfw') (mine_phase (one_entry p1))
    (mine_phase fun _ => one_entry p2) (mine_phase p3)
  rwa [exactMine_cost] at hle

/-- **C106** `mpopt_adaptive` on the shipped mine example, for width limits that are positive and admit equal widths. -/
theorem C106_mine_adaptive (hocp : scriptMine q = .ok ocp) (hq : ∀ u, |u| ≤ q u) {lb ub tol : ℝ} {mid : Bool}
    {s : AdaptOpt ℝ V} (hf : s.Ready w ocp n arg "LGR" [lb] [ub] [tol] mid) (hlb : 0 < lb) (h1n : lb ≤ 1 / n) (h2n : 1 / n ≤ ub)
    (htol : 0 ≤ tol) (hM : MeshFor w "LGR" n arg M) (hlt : w.tau0 < w.tau1) {k : Nat} (hk : 1 ≤ k)
    (hord : ∀ q ∈ M.orders, 2 * k ≤ q)
    (hj : ∀ q ∈ M.orders, IsJacobiRoots 1 0 (q - 1) (w.lib.jroots (q - 1) 1 0))
    (hopt : ∀ c z, nlpsol c = .ok z → c.IsOptimal z) (earlier : List (SolveArgs ℝ V)) (a : SolveArgs ℝ V)
    {s' : AdaptOpt ℝ V} {z : List ℝ} (hrun : (s.run w nlpsol earlier).solve w nlpsol a = (s', .ok z))
    {p : Post ℝ} {r : Option (PyDict (ResidVal ℝ))} (hp : s'.processResults w ptp false rx rdx = .ok (p, r)) :
    ∃ T W J, compQuadWeights ⟨w.method, w.tau0, w.tau1, tausFn w.lib w.tau0 w.tau1 "LGR"⟩ M.orders = .ok W ∧
      p.Shows ocp M T ∧ PhysCost ocp M W T J ∧ -1 / 5 - 4 / 5 / 4 ^ (2 * k) ≤ J ∧ J ≤ -1 / 5 := by
  obtain rfl : ocpMine q = ocp := by rw [scriptMine_eq] at hocp; injection hocp
  obtain ⟨hv, hs, hsc⟩ := ocpMine_ready (q := q)
  have hord2 : ∀ q ∈ M.orders, 2 ≤ q := fun q hq => by have := hord q hq; omega
  obtain ⟨T, W, J, h1, h2, h3, h4, h5⟩ := C63_adaptive_beats hf hv hs hsc rfl rfl rfl hM hlt hord2 hj hopt
    (mine_phase rfl) (fun _ v hv => by rw [List.mem_singleton.1 hv]; exact htol) earlier a hrun hp
  have hlen : M.orders.length = n := by
    rw [OrdersArg.Means.unique hM.orders hf.orders]; exact hf.length
  have hn : 0 < n := by rw [← hlen]; exact List.length_pos_iff.2 hM.good.nonempty
  have hn' : (0 : ℝ) < n := by exact_mod_cast hn
  have ho : ∀ s < M.orders.length, 2 ≤ M.order s := fun s hs => hord2 _ (hM.good.order_mem hs)
  have hwd := h2.1.widths 0 (by simp [ocpMine])
  refine ⟨T, W, J, h1, h3, h4, C106_lgr (mineCert_proves hq hk) hv hM hlt hord2 hj (mineCert_fits hk hord) h1
    h2.1.core (mine_phase ⟨fun s hs => hlb.le.trans (hwd.lower s hs), hwd.sum⟩)
    (mine_phase (mine_times (h2.1.bounds 0 (by simp [ocpMine])))) h4, ?_⟩
  have hb : ∀ s < M.orders.length, exactMine.breakTime (fun _ _ => 1 / (n : ℝ)) 0 (s + 1) ≤ 1 := by
    intro s hs
    have hs' : ((s + 1 : ℕ) : ℝ) ≤ n := by exact_mod_cast (by omega : s + 1 ≤ n)
    simp only [CTraj.breakTime, exactMine, Finset.sum_const, Finset.card_range, nsmul_eq_mul]
    rw [zero_add, sub_zero, one_mul, mul_one_div, div_le_one hn']
    exact hs'
  obtain ⟨p1, p2, -⟩ := exactMine_poly (q := q) ho hb
  obtain ⟨-, -, p3⟩ := exactMine_poly (q := q) (deg := fun s => 2 * M.order s - 2)
    (fun s hs => by have := ho s hs; omega) hb
  have hle := h5 exactMine (fun _ _ => 1 / (n : ℝ)) exactMine_solves
    (mine_phase (by rw [hlen]; simp; field_simp))
    (mine_phase fun s _ => ⟨by positivity, h1n, h2n⟩) (mine_phase (one_entry p1)) (mine_phase (one_entry p2))
    (mine_phase p3)
  rwa [exactMine_cost] at hle

/-- **C106** `mpopt_h_adaptive` on the shipped mine example, provided it ends with positive widths of sum 1. -/
theorem C106_mine_h (hocp : scriptMine q = .ok ocp) (hq : ∀ u, |u| ≤ q u) {wh : HOutside ℝ V}
    {nlpsolH : Nat → Nat → SolverCall ℝ V → Py (PyDict V)} {lbh ubh tol : List ℝ} {sh : HOpt ℝ V}
    (hf : sh.Ready wh ocp n arg "LGR" lbh ubh tol) (hM : MeshFor wh.toOutside "LGR" n arg M)
    (hlt : wh.tau0 < wh.tau1) {k : Nat} (hk : 1 ≤ k) (hord : ∀ q ∈ M.orders, 2 * k ≤ q)
    (hj : ∀ q ∈ M.orders, IsJacobiRoots 1 0 (q - 1) (wh.lib.jroots (q - 1) 1 0))
    (hopt : ∀ n k c sol, nlpsolH n k c = .ok sol → ∃ z, Returned wh sol z ∧ c.IsOptimal z)
    {calls : List (HStart V × HArgs V)} (ho : OwnStarts calls) {s' : HOpt ℝ V} {sol : PyDict V}
    (hrun : sh.run wh nlpsolH calls 0 none = (s', some sol))
    {p : Post ℝ} {r : Option (PyDict (ResidVal ℝ))} (hp : s'.processResults wh sol ptp false rx rdx = .ok (p, r))
    (hwid : ∀ l, s'.widths = some l → l.sum = 1 ∧ ∀ x ∈ l, 0 < x) :
    ∃ T W J, compQuadWeights ⟨wh.method, wh.tau0, wh.tau1, tausFn wh.lib wh.tau0 wh.tau1 "LGR"⟩ M.orders = .ok W ∧
      p.Shows ocp M T ∧ s'.widths = some (ocp.packWidths n T) ∧ PhysCost ocp M W T J ∧
      -1 / 5 - 4 / 5 / 4 ^ (2 * k) ≤ J ∧ J ≤ -1 / 5 := by
  obtain rfl : ocpMine q = ocp := by rw [scriptMine_eq] at hocp; injection hocp
  obtain ⟨hv, hs, hsc⟩ := ocpMine_ready (q := q)
  have hord2 : ∀ q ∈ M.orders, 2 ≤ q := fun q hq => by have := hord q hq; omega
  obtain ⟨T, W, J, h1, h2, h3, h4, h5, h6⟩ := C64_h_beats hf hv hs hsc hM hlt hord2 hj hopt
    (mine_phase rfl) (mine_phase rfl) ho hrun hp
  have hlen : M.orders.length = n := by rw [OrdersArg.Means.unique hM.orders hf.orders]; exact hf.length
  have hn : 0 < n := by rw [← hlen]; exact List.length_pos_iff.2 hM.good.nonempty
  have hfw : FullWidths M T 0 := WidthsAre.full (ocp := ocpMine q) rfl hn hlen (req := s'.widths) hwid
    (by rw [h4]; exact rfl)
  have hog : ∀ s < M.orders.length, 2 ≤ M.order s := fun s hs => hord2 _ (hM.good.order_mem hs)
  refine ⟨T, W, J, h1, h3, h4, h5, C106_lgr (mineCert_proves hq hk) hv hM hlt hord2 hj (mineCert_fits hk hord) h1
    h2.1.core (mine_phase hfw.shares) (mine_phase (mine_times (h2.1.bounds 0 (by simp [ocpMine])))) h5, ?_⟩
  obtain ⟨p1, p2, -⟩ := exactMine_poly (q := q) hog (b := exactMine.breakTime T.w 0) fun s hs => break_le hfw hs
  obtain ⟨-, -, p3⟩ := exactMine_poly (q := q) (deg := fun s => 2 * M.order s - 2)
    (fun s hs => by have := hog s hs; omega) (b := exactMine.breakTime T.w 0) fun s hs => break_le hfw hs
  have hle := h6 exactMine exactMine_solves (mine_phase hfw) (mine_phase (one_entry p1))
    (mine_phase fun _ => one_entry p2) (mine_phase p3)
  rwa [exactMine_cost] at hle

end MPOpt
