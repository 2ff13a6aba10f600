import Verif.Props.Best
import Verif.Props.ExactExample
import Verif.Props.FlownExample
import Mathlib.Analysis.SpecialFunctions.Integrals.Basic

/-!
# Concrete case for C83 and C84: `x' = a x`, `x(0) = 1`, cost `∫ x²`, a parameter `a` between -1 and 1

No solution but the constant one is a polynomial in time. The best decays with `a = -1`. The control is pinned to 0; its bounds are imposed
between nodes as well.
-/

set_option autoImplicit false

namespace MPOpt
open Polynomial

noncomputable def decayF : VFun (PArg ℝ) ℝ := ⟨1, fun p _ => (p.a.getD []).getD 0 0 * p.x.getD 0 0⟩

/-- The problem. -/
noncomputable def ocpDecay : OCP ℝ :=
  { ocpR with
    na := 1, dynamics := [decayF], runningCosts := [fun p => p.x.getD 0 0 * p.x.getD 0 0], terminalConstraints := [none]
    scaleA := [1], x00 := [[1]], lbu := [[.fin 0]], ubu := [[.fin 0]], a0 := [[0]], lba := [[.fin (-1)]], uba := [[.fin 1]]
    midu := [true] }

theorem ocpDecay_ready : ValidOCP ocpDecay ∧ ocpDecay.SettingsOK ∧ ocpDecay.PosScales := by
  refine ⟨?_, ⟨Nat.one_pos, rfl, rfl, rfl, rfl, rfl, Or.inl Nat.one_pos, fun h => absurd h (by simp [ocpDecay, ocpR]),
    fun h => absurd h (by simp [ocpDecay, ocpR]), by simp [ocpDecay, ocpR]⟩, ⟨?_, ?_, ?_, by norm_num [ocpDecay, ocpR]⟩⟩
  · constructor
    case ordX => exact rowOrdered_single (by simp [Ext.le])
    case ordU => exact rowOrdered_single (by simp [Ext.le])
    case ordA => exact rowOrdered_single (by simp [Ext.le])
    case ordT0 => exact rowOrdered_single (by simp [Ext.le])
    case ordTf => exact rowOrdered_single (by simp [Ext.le])
    case ordE => intro ph l u hl; simp [ocpDecay, ocpR] at hl
    all_goals simp [ocpDecay, ocpR, HasShape, decayF]
  all_goals simp [ocpDecay, ocpR]

/-- Exponential growth or decay. -/
noncomputable def expAt (a : ℝ) : CTraj :=
  ⟨fun _ _ t => Real.exp (a * t), fun _ _ _ => 0, fun _ => 0, fun _ => 1, fun _ _ => a⟩

theorem decay_one {P : Nat → Prop} (h : P 0) : ∀ ph < ocpDecay.nPhases, P ph := by
  intro ph hp
  obtain rfl : ph = 0 := by simpa [ocpDecay, ocpR] using hp
  exact h

theorem expAt_le {a t : ℝ} (h1 : a ≤ 1) (ht : t ∈ Set.Icc (0 : ℝ) 1) :
    0 < Real.exp (a * t) ∧ Real.exp (a * t) ≤ 3 := by
  refine ⟨Real.exp_pos _, ?_⟩
  have : Real.exp (a * t) ≤ Real.exp 1 := Real.exp_le_exp.2 (by nlinarith [ht.1, ht.2])
  linarith [Real.exp_one_lt_d9]

theorem expAt_solves {a : ℝ} (h : -1 ≤ a) (h1 : a ≤ 1) : SolvesContinuously ocpDecay (expAt a) := by
  refine ⟨decay_one ?_, by simp [ocpDecay, ocpR], by simp [ocpDecay, ocpR], by simp [ocpDecay, ocpR]⟩
  have hd : ∀ t : ℝ, HasDerivAt (fun t : ℝ => Real.exp (a * t)) (a * Real.exp (a * t)) t := fun t => by
    simpa [mul_comm] using ((hasDerivAt_id t).const_mul a).exp
  refine ⟨by simp [expAt], ⟨?_, ?_, fun j _ t _ => (hd t).continuousAt.continuousWithinAt⟩, ?_, ?_, ?_, ?_, ?_, ?_, ?_, ?_⟩
  · intro F hF j hj t _ _
    have hF : decayF = F := by simpa [ocpDecay] using hF
    rw [← hF]
    simpa [expAt, OCP.cArg, ocpDecay, ocpR, decayF] using (hd t).hasDerivWithinAt
  · intro F hF j hj
    have hF : decayF = F := by simpa [ocpDecay] using hF
    rw [← hF]
    simpa [expAt, OCP.cArg, ocpDecay, ocpR, decayF] using (hd 0).hasDerivWithinAt
  · intro F hF c hc t ht
    have hF : (⟨1, fun p _ => p.x.getD 0 0 - 3⟩ : VFun (PArg ℝ) ℝ) = F := by simpa [ocpDecay, ocpR] using hF
    rw [← hF]
    simp [expAt, OCP.cArg, ocpDecay, ocpR]
    exact (expAt_le h1 ht).2
  · intro F hF; simp [ocpDecay] at hF
  · intro _ j hj
    obtain rfl : j = 0 := by simpa [ocpDecay, ocpR] using hj
    simp [expAt, ocpDecay, ocpR, entry]
  · intro t ht _ j hj
    obtain rfl : j = 0 := by simpa [ocpDecay, ocpR] using hj
    have := expAt_le h1 ht
    simp [expAt, ocpDecay, ocpR, entry, Within, Ext.Below, Ext.Above]
    constructor <;> linarith [this.1, this.2]
  · intro t ht j hj
    obtain rfl : j = 0 := by simpa [ocpDecay, ocpR] using hj
    simp [expAt, ocpDecay, entry, Within, Ext.Below, Ext.Above]
  · simp [expAt, ocpDecay, ocpR, entry, Within, Ext.Below, Ext.Above]
  · simp [expAt, ocpDecay, ocpR, entry, Within, Ext.Below, Ext.Above]
  · intro k hk
    obtain rfl : k = 0 := by simpa [ocpDecay] using hk
    simp [expAt, ocpDecay, entry, Within, Ext.Below, Ext.Above]
    exact ⟨h, h1⟩

theorem expAt_smooth (a : ℝ) : SmoothMotion ocpDecay (expAt a) := by
  refine ⟨decay_one fun F hF j hj => ?_, decay_one fun _ j _ => ⟨fun _ => 0, continuousOn_const, fun t _ => ?_⟩⟩
  · have hF : decayF = F := by simpa [ocpDecay] using hF
    rw [← hF]
    have : (fun t => decayF.f (ocpDecay.cArg (expAt a) 0 t) j) = fun t => a * Real.exp (a * t) := by
      funext t; simp [expAt, OCP.cArg, ocpDecay, ocpR, decayF]
    rw [this]
    exact Continuous.continuousOn (by fun_prop)
  · exact hasDerivWithinAt_const t _ (0 : ℝ)

theorem expAt_running (a t : ℝ) :
    ocpDecay.runningCosts.getD 0 (fun _ => 0) (ocpDecay.cArg (expAt a) 0 t) = Real.exp (a * t) * Real.exp (a * t) := by
  simp [expAt, OCP.cArg, ocpDecay, ocpR]

theorem expAt_costs (a : ℝ) : ContinuousCosts ocpDecay (expAt a) := by
  refine ⟨rfl, fun _ _ => zero_lt_one, decay_one ?_⟩
  simp only [expAt_running]
  exact Continuous.continuousOn (by fun_prop)

/-- The cost of decay with rate 1. -/
theorem expAt_cost : ocpDecay.trueCost (expAt (-1)) = (1 - Real.exp (-2)) / 2 := by
  have e : ocpDecay.trueCost (expAt (-1)) = ∫ t in (0 : ℝ)..1, Real.exp (-1 * t) * Real.exp (-1 * t) := by
    unfold OCP.trueCost
    rw [show ocpDecay.nPhases = 1 from rfl, Finset.sum_range_one]
    simp only [expAt_running]
    simp [ocpDecay, ocpR, expAt]
  have e2 : (fun t : ℝ => Real.exp (-1 * t) * Real.exp (-1 * t)) = fun t => Real.exp ((-2) * t) := by
    funext t; rw [← Real.exp_add]; congr 1; ring
  rw [e, e2, intervalIntegral.integral_comp_mul_left (fun t => Real.exp t) (by norm_num : (-2 : ℝ) ≠ 0), integral_exp]
  norm_num
  ring

/-- One Lebesgue constant for all meshes with orders out of `P`. -/
theorem exists_lebesgue_of (lo hi : ℝ) (taus : Nat → Py (List ℝ)) (P : List Nat) :
    ∃ C, ∀ M : Mesh ℝ, MeshOf lo hi taus P M → M.Lebesgue C := by
  obtain ⟨C, hC⟩ := C77_lebesgue (fun p => match taus p with
    | .ok l => l
    | .error _ => []) lo hi P.sum
  refine ⟨C, fun M h s hs tau htau => ?_⟩
  have := hC ⟨M.orders, fun p => match taus p with
    | .ok l => l
    | .error _ => [], M.tau0, M.tau1⟩ rfl h.tau0 h.tau1 (fun p hp => List.single_le_sum (by simp) _ (h.allowed p hp)) s hs tau htau
  have e : (⟨M.orders, fun p => match taus p with
    | .ok l => l
    | .error _ => [], M.tau0, M.tau1⟩ : Mesh ℝ).node s = M.node s := by
    funext i
    simp only [Mesh.node]
    have := h.nodes _ (h.good.order_mem hs)
    unfold Mesh.order at this ⊢
    simp only [this]
  rw [e] at this
  exact this

/-- Sizes. -/
noncomputable def sizesDecay (C A : ℝ) : Sizes :=
  { C := C, B := 10, Lx := 1, Lu := 0, Lt := 0, H := 0, e := 0, dur := 2, Qx := 5 * A + 18 * C * (11 * C + 1) + 1, Qu := 0, Qt := 0,
    Px := 0, tol := 0 }

variable {M : Mesh ℝ} {T : Traj ℝ}

/-- What is known of a plan. -/
theorem decay_plan (hb : BoundsTo 0 ocpDecay M T 0) : T.t0 0 = 0 ∧ T.tf 0 = 1 ∧ |T.a 0 0| ≤ 1 ∧
    (∀ i < M.N, T.u 0 i 0 = 0) ∧ ∀ i < M.N, |T.x 0 i 0| ≤ 5 := by
  have h1 := hb.t0
  have h2 := hb.tf
  have h3 := hb.a 0 Nat.one_pos
  simp only [zero_div, withinTo_exact] at h1 h2 h3
  simp [ocpDecay, ocpR, entry, Within, Ext.Below, Ext.Above] at h1 h2 h3
  refine ⟨le_antisymm h1.2 h1.1, le_antisymm h2.2 h2.1, abs_le.2 h3, fun i hi => ?_, fun i hi => ?_⟩
  · have := hb.u i hi 0 Nat.one_pos
    simp only [zero_div, withinTo_exact] at this
    simp [ocpDecay, entry, Within, Ext.Below, Ext.Above] at this
    exact le_antisymm this.2 this.1
  · by_cases h0 : i = 0
    · subst h0
      have := hb.x0 rfl 0 Nat.one_pos
      simp [ocpDecay, entry, sub_eq_zero] at this
      rw [this]; norm_num
    · have := hb.x i hi (by simp [h0]) 0 Nat.one_pos
      simp only [zero_div, withinTo_exact] at this
      simp [ocpDecay, ocpR, entry, Within, Ext.Below, Ext.Above] at this
      exact abs_le.2 this

theorem decay_sized {C A κ : ℝ} (hM : M.Good) (hI : M.Inside) (hC : M.Lebesgue C) (hA : M.ValueBound A) (hA0 : 0 ≤ A)
    (ht0 : T.t0 0 = 0) (htf : 0 < T.tf 0 ∧ T.tf 0 ≤ 2) (ha : |T.a 0 0| ≤ 1) (hu : ∀ i < M.N, T.u 0 i 0 = 0)
    (hx : ∀ i < M.N, |T.x 0 i 0| ≤ 5) {H : ℝ} (hlast : M.Lasts T 0 H) (hH0 : 0 ≤ H) (hH1 : H ≤ 1) (h0 : 0 ≤ κ) (h1 : κ ≤ 1) :
    Sized ocpDecay M T 0 (fun _ => -(5 * A + 18 * C * (11 * C + 1))) (fun _ => 5 * A + 18 * C * (11 * C + 1)) (fun _ => True)
      { sizesDecay C A with H := H, e := 0, tol := κ } := by
  have hC1 := hC.one_le hM hI
  have hsx : ocpDecay.scaleX.getD 0 0 = (2 : ℝ) := by simp [ocpDecay, ocpR]
  have hnx : ∀ {j : Nat}, j < ocpDecay.nx → j = 0 := fun hj => by simpa [ocpDecay, ocpR] using hj
  have hnu : ∀ {j : Nat}, j < ocpDecay.nu → j = 0 := fun hj => by simpa [ocpDecay, ocpR] using hj
  have hx0 : 0 < ocpDecay.nx := Nat.one_pos
  set R := 5 * A + 18 * C * (11 * C + 1) with hR
  have hR0 : 0 ≤ 18 * C * (11 * C + 1) := by positivity
  have hstate : ∀ s < M.orders.length, ∀ tau ∈ Set.Icc M.tau0 M.tau1, |M.stateAt T 0 s tau 0| ≤ 5 * A := by
    intro s hs tau htau
    have := hM.piece_value (v := fun k => T.x 0 k 0) (c := 0) (d := 0) hA hs htau (E := 5) (by norm_num)
      (fun k hk => by rw [sub_zero, zero_mul, sub_zero]; exact hx _ (Mesh.idx_lt hs hk))
    rw [sub_zero] at this
    unfold Mesh.stateAt
    linarith
  have hcontrol : ∀ s < M.orders.length, ∀ tau ∈ Set.Icc M.tau0 M.tau1, M.controlAt T 0 s tau 0 = 0 := by
    intro s hs tau htau
    have := hM.piece_value (v := fun k => T.u 0 k 0) (c := 0) (d := 0) hA hs htau (E := 0) le_rfl
      (fun k hk => by rw [sub_zero, zero_mul, sub_zero, hu _ (Mesh.idx_lt hs hk), abs_zero])
    rw [sub_zero, mul_zero] at this
    exact abs_nonpos_iff.1 this
  have hdrift : Sizes.drift { sizesDecay C A with H := H, e := 0, tol := κ } ≤ 18 * C * (11 * C + 1) := by
    have hexp : Real.exp 2 ≤ 9 := by
      have : Real.exp 1 ≤ 3 := by linarith [Real.exp_one_lt_d9]
      have h2 : Real.exp 2 = Real.exp 1 * Real.exp 1 := by rw [← Real.exp_add]; norm_num
      nlinarith [Real.exp_pos 1]
    simp only [Sizes.drift, Sizes.rate, sizesDecay, zero_mul, add_zero, one_mul]
    have h2 : C * (10 + κ) * H ≤ 11 * C := by
      have : C * (10 + κ) ≤ 11 * C := by nlinarith
      calc C * (10 + κ) * H ≤ C * (10 + κ) * 1 := mul_le_mul_of_nonneg_left hH1 (by positivity)
        _ ≤ 11 * C := by linarith
    have h3 : C * (C * (10 + κ) * H + κ) ≤ C * (11 * C + 1) :=
      mul_le_mul_of_nonneg_left (by linarith) (by linarith)
    calc _ ≤ C * (11 * C + 1) * 2 * 9 := mul_le_mul (by linarith) hexp (Real.exp_pos _).le (by positivity)
      _ = _ := by ring
  have hparam : ∀ p : PArg ℝ, p.a = ocpDecay.paramArg (T.a 0) → (p.a.getD []).getD 0 0 = T.a 0 0 := by
    intro p hp
    rw [hp]
    simp [OCP.paramArg, ocpDecay]
  constructor
  case order => rw [ht0]; exact htf.1
  case length => rw [ht0, sub_zero]; exact htf.2
  case tame =>
    intro F hF
    have hF : decayF = F := by simpa [ocpDecay] using hF
    rw [← hF]
    refine ⟨hC, fun s i hi j hj => ?_, fun p q _ _ _ _ _ _ hp hq dx du h8 h9 j hj => ?_, fun s hs => ?_,
      fun s hs tau htau tau' htau' k hk => ?_, fun s hs tau htau k hk => ?_, fun s hs tau _ => trivial, ?_, ?_, ?_, ?_, ?_⟩
    · obtain rfl := hnx hj
      rw [hsx]
      have e : decayF.f (ocpDecay.pArg T 0 (M.idx s i) (M.time T 0 s (M.node s i))) 0 = T.a 0 0 * T.x 0 (M.idx s i) 0 := by
        simp [decayF, OCP.pArg, ocpDecay, ocpR]
      rw [e, abs_mul, abs_mul, abs_of_pos (by norm_num : (0 : ℝ) < 2)]
      have := mul_le_mul ha (hx _ (Mesh.idx_lt hi.1 hi.2.1)) (abs_nonneg _) zero_le_one
      simp only [sizesDecay]
      linarith
    · obtain rfl := hnx hj
      have h2 := h8 0 hx0
      rw [hsx] at h2 ⊢
      simp only [decayF, hparam p hp, hparam q hq, sizesDecay]
      rw [show 2 * (T.a 0 0 * p.x.getD 0 0 - T.a 0 0 * q.x.getD 0 0) = T.a 0 0 * (2 * (p.x.getD 0 0 - q.x.getD 0 0)) by ring, abs_mul]
      have := mul_le_mul ha h2 (abs_nonneg _) zero_le_one
      linarith
    · exact hlast s hs
    · obtain rfl := hnu hk
      rw [hcontrol s hs tau htau, hcontrol s hs tau' htau']
      simp
    · obtain rfl := hnx hk
      rw [getD_range_map _ hx0]
      have := abs_le.1 (hstate s hs tau htau)
      constructor <;> linarith [this.1, this.2]
    all_goals norm_num [sizesDecay]
  case keeps =>
    intro s hs tau htau k hk
    obtain rfl := hnx hk
    rw [hsx]
    have := abs_le.1 (hstate s hs tau htau)
    constructor <;> linarith [this.1, this.2]
  case path =>
    intro F hF c _ p q _ _ _ _ _ _ _ _ dx du hx hu
    have hF : (⟨1, fun p _ => p.x.getD 0 0 - 3⟩ : VFun (PArg ℝ) ℝ) = F := by simpa [ocpDecay, ocpR] using hF
    have h2 := hx 0 hx0
    rw [← hF]
    rw [hsx, abs_mul, abs_of_pos (by norm_num : (0 : ℝ) < 2)] at h2
    simp only [sizesDecay]
    rw [sub_sub_sub_cancel_right, zero_mul, zero_mul, add_zero, add_zero]
    have hd : 0 ≤ dx := le_trans (by positivity) h2
    have : 0 ≤ (5 * A + 18 * C * (11 * C + 1)) * dx := by positivity
    linarith [abs_nonneg (p.x.getD 0 0 - q.x.getD 0 0)]
  case cost =>
    intro g hg p q hp hq _ _ _ _ _ _ dx du hx hu
    have hg : (fun p : PArg ℝ => p.x.getD 0 0 * p.x.getD 0 0) = g := by simpa [ocpDecay, ocpR] using hg
    have h2 := hx 0 hx0
    have h3 := hp 0 hx0
    have h4 := hq 0 hx0
    rw [← hg]
    rw [hsx, abs_mul, abs_of_pos (by norm_num : (0 : ℝ) < 2)] at h2
    simp only [sizesDecay]
    rw [zero_mul, zero_mul, add_zero, add_zero]
    have hd : 0 ≤ dx := le_trans (by positivity) h2
    rw [show p.x.getD 0 0 * p.x.getD 0 0 - q.x.getD 0 0 * q.x.getD 0 0 =
      (p.x.getD 0 0 + q.x.getD 0 0) * (p.x.getD 0 0 - q.x.getD 0 0) by ring, abs_mul]
    have h5 : |p.x.getD 0 0 + q.x.getD 0 0| ≤ 2 * R := by rw [abs_le]; constructor <;> linarith [h3.1, h3.2, h4.1, h4.2]
    have := mul_le_mul h5 (show |p.x.getD 0 0 - q.x.getD 0 0| ≤ dx / 2 by linarith) (abs_nonneg _) (by positivity)
    linarith
  case terminal => intro F hF; simp [ocpDecay] at hF
  case endCost =>
    intro g hg x y _ _ d hd
    have hg : (fun _ : TArg ℝ => (0 : ℝ)) = g := by simpa [ocpDecay, ocpR] using hg
    rw [← hg]
    simp [sizesDecay]
  case Qt => norm_num [sizesDecay]
  case tol => exact h0

theorem decay_jacobi : ∀ q ∈ [2], IsJacobiRoots 1 0 (q - 1) (outsideR.lib.jroots (q - 1) 1 0) :=
  fun q _ => libR_jacobi 1 0 (q - 1)

/-- **C83** The hypotheses of `C83_fine` are met by motions that are not polynomials, on LGR meshes of order 2: with enough equal segments
the node values of `e^(a t)` solve the collocated problem up to any fraction of `1 / n`. -/
theorem C83_example {a : ℝ} (h : -1 ≤ a) (h1 : a ≤ 1) {ν : ℝ} (hν : 0 < ν) : ∃ N : Nat, ∀ n M, N ≤ n →
    MeshFor outsideR "LGR" n (.list (List.replicate n 2)) M →
      ∃ T, Samples ocpDecay M (expAt a) T ∧ WidthsAre ocpDecay n none T ∧ SolvesTo 0 (ν / n) ocpDecay M T := by
  obtain ⟨hv, hs, hsc⟩ := ocpDecay_ready
  obtain ⟨ρ, h0, hρ⟩ := C83_fine hv hsc (expAt_solves h h1) (expAt_smooth a) hs.linkRange
    (decay_one (P := fun ph => ocpDecay.duContinuity.getD ph false = false) rfl)
    (decay_one (P := fun ph => ocpDecay.diffU.getD ph false = false) rfl) (-1) 1 (tausFn outsideR.lib (-1) 1 "LGR") [2] hν
  obtain ⟨N, hN⟩ := exists_nat_ge (1 / ρ)
  refine ⟨N, fun n M hn hM => ?_⟩
  have ho : M.orders = List.replicate n 2 := hM.orders
  have hlen : M.orders.length = n := by rw [ho]; simp
  have hn0 : 0 < n := by rw [← hlen]; exact List.length_pos_iff.2 hM.good.nonempty
  have hnr : (0 : ℝ) < n := by exact_mod_cast hn0
  have hmem : ∀ q ∈ M.orders, q ∈ [2] := by rw [ho]; intro q hq; simp [(List.mem_replicate.1 hq).2]
  have hI := hM.lgr_inside (by norm_num [outsideR]) (fun q hq => by rw [List.mem_singleton.1 (hmem q hq)])
    (fun q hq => decay_jacobi q (hmem q hq))
  obtain ⟨T, hS, hw⟩ := exists_samples_of ocpDecay M (expAt a) fun _ _ => 1 / (n : ℝ)
  have hwid : WidthsAre ocpDecay n none T := fun ph hp s hs => by rw [hw]
  have hlast : ∀ ph < ocpDecay.nPhases, M.Lasts T ph (1 / n) := by
    intro ph hp s hs
    rw [hw, hS.t0 ph hp, hS.tf ph hp]
    simp [expAt]
  refine ⟨T, hS, hwid, ?_⟩
  have c1 : 1 / ρ ≤ n := hN.trans (by exact_mod_cast hn)
  rw [div_le_iff₀ h0] at c1
  have := hρ M T (1 / n) ⟨⟨hM.good, hI, hM.tau0, hM.tau1, hmem, hM.nodes⟩, hS, fun ph hp => hwid.equal_full hlen hn0 hp,
    fun ph hp s hs => (hlast ph hp s hs).trans (by rw [div_le_iff₀ hnr]; linarith)⟩ hlast
  rwa [mul_one_div] at this

/-- **C84** The hypotheses of `C84_limit` are met by every run on enough LGR segments of order 2 with any solver that returns the best of
the points within its tolerances but for `η0`: the plan can be flown; the motion misses no constraint by more than `η`, and costs no more than
decay with rate 1, but for `η0 + η`. -/
theorem C84_example {η : ℝ} (hη : 0 < η) : ∃ ν, 0 < ν ∧ ∃ N : Nat, ∀ n nlpsol η0 out, N ≤ n →
    (∀ c z, nlpsol c = .ok z → c.BestNear 0 (ν / n) η0 z) →
    mpSolve outsideR nlpsol ocpDecay [[0]] n (.list (List.replicate n 2)) "LGR" argsR false true = .ok out →
    ∃ M T C, out.2.1.Shows ocpDecay M T ∧ Flies ocpDecay M T C ∧ NearlySolvesTo ocpDecay C (Slack.all η) ∧
      ocpDecay.trueCost C ≤ (1 - Real.exp (-2)) / 2 + η0 + η := by
  obtain ⟨hv, hs, hsc⟩ := ocpDecay_ready
  obtain ⟨D, A, -, hA0, hA⟩ := C83_bounds (-1) 1 (tausFn outsideR.lib (-1) 1 "LGR") [2]
  obtain ⟨Λ, hΛ⟩ := exists_lebesgue_of (-1) 1 (tausFn outsideR.lib (-1) 1 "LGR") [2]
  obtain ⟨δ, hδ, hlim⟩ := C84_limit outsideR hv hs hsc (by norm_num [outsideR]) (P := [2]) (by simp) decay_jacobi
    (decay_one (P := fun ph => ocpDecay.duContinuity.getD ph false = false) rfl)
    (decay_one (P := fun ph => ocpDecay.diffU.getD ph false = false) rfl) (expAt_solves le_rfl (by norm_num))
    (expAt_smooth (-1)) (expAt_costs (-1)) (sizesDecay Λ A) hη
  set ν := min (δ / 2) (1 / 2) with hν
  have hν0 : 0 < ν := by positivity
  obtain ⟨N, hN⟩ := hlim ν hν0
  obtain ⟨N', hN'⟩ := exists_nat_ge (1 / δ)
  refine ⟨ν, hν0, max (max N N') 1, fun n nlpsol η0 out hn hopt hrun => ?_⟩
  have hn1 : 1 ≤ n := (le_max_right _ _).trans hn
  have hnr : (0 : ℝ) < n := by exact_mod_cast hn1
  have hnN : N ≤ n := (le_max_left _ _).trans ((le_max_left _ _).trans hn)
  have c1 : 1 / δ ≤ n := hN'.trans (by exact_mod_cast (le_max_right _ _).trans ((le_max_left _ _).trans hn))
  rw [div_le_iff₀ hδ] at c1
  obtain ⟨M, hM, ho⟩ := exists_lgr_mesh (List.replicate n 2) (by simp; omega) (by intro p hp; simp [(List.mem_replicate.1 hp).2])
  have hlen : M.orders.length = n := by rw [ho]; simp
  rw [List.length_replicate] at hM
  have hmem : ∀ q ∈ M.orders, q ∈ [2] := by rw [ho]; intro q hq; simp [(List.mem_replicate.1 hq).2]
  have hI := hM.lgr_inside (by norm_num [outsideR]) (fun q hq => by rw [List.mem_singleton.1 (hmem q hq)])
    (fun q hq => decay_jacobi q (hmem q hq))
  have hmesh : MeshOf (-1) 1 (tausFn outsideR.lib (-1) 1 "LGR") [2] M := ⟨hM.good, hI, hM.tau0, hM.tau1, hmem, hM.nodes⟩
  obtain ⟨T, k1, k2, k3, k4⟩ := hN n _ M nlpsol [[0]] argsR false true out.1 out.2.1 out.2.2 0 η0 hnN hrun hM hlen hmem rfl le_rfl
    hδ.le hopt
  obtain ⟨t0, tf, ta, tu, tx⟩ := decay_plan (k1.1 0 Nat.one_pos)
  obtain ⟨C, d1, d2, d3⟩ := k4 (fun _ _ => -(5 * A + 18 * Λ * (11 * Λ + 1))) (fun _ _ => 5 * A + 18 * Λ * (11 * Λ + 1)) (fun _ _ => True)
    (1 / n) 0 (2 * ν) (by rw [div_le_iff₀ hnr]; linarith) hδ.le (by linarith [min_le_left (δ / 2) (1 / 2)])
    (decay_one (by rw [t0, tf]; norm_num [outsideR]; linarith))
    (decay_one (decay_sized hM.good hI (hΛ M hmesh) (hA M hmesh).2 hA0 t0 (by rw [tf]; norm_num) ta tu tx
      (fun s hs => by
        rw [t0, tf, show T.w s 0 = 1 / (n : ℝ) from k2 0 Nat.one_pos s (by omega)]
        simp) (by positivity) (by rw [div_le_one hnr]; exact_mod_cast hn1) (by positivity)
      (by linarith [min_le_right (δ / 2) (1 / 2)])))
  rw [expAt_cost] at d3
  exact ⟨M, T, C, k3, d1, d2, d3⟩

/-- **C84** There are such runs, for any number of segments that is large enough and any `η0 > 0`. -/
theorem C84_example_runs {ν η0 : ℝ} (hν : 0 < ν) (hη0 : 0 < η0) : ∃ N : Nat, ∀ n, N ≤ n →
    ∃ nlpsol out, (∀ c z, nlpsol c = .ok z → c.BestNear 0 (ν / n) η0 z) ∧
      mpSolve outsideR nlpsol ocpDecay [[0]] n (.list (List.replicate n 2)) "LGR" argsR false true = .ok out := by
  classical
  obtain ⟨hv, hs, hsc⟩ := ocpDecay_ready
  obtain ⟨N, hN⟩ := C83_example (a := -1) le_rfl (by norm_num) hν
  refine ⟨max N 1, fun n hn => ?_⟩
  have hn1 : 1 ≤ n := (le_max_right _ _).trans hn
  have hnr : (0 : ℝ) < n := by exact_mod_cast hn1
  obtain ⟨M, hM, ho⟩ := exists_lgr_mesh (List.replicate n 2) (by simp; omega) (by intro p hp; simp [(List.mem_replicate.1 hp).2])
  have hlen : M.orders.length = n := by rw [ho]; simp
  rw [List.length_replicate] at hM
  have hmem : ∀ q ∈ M.orders, q ∈ [2] := by rw [ho]; intro q hq; simp [(List.mem_replicate.1 hq).2]
  obtain ⟨c, W, hWeq, -, hnear, hobj, hret⟩ := C81_solve_returns (V := Nat) (ocp := ocpDecay) (w := outsideR) (a := argsR)
    (scheme := "LGR") (n := n) (arg := .list (List.replicate n 2)) (M := M) (ptp := [[0]]) (rx := false) (rdx := true)
    hv hs hsc hM hlen (by norm_num [outsideR]) rfl (by simp [GoodWidths, argsR])
    (decay_one (by simp [ocpDecay, ocpR, entry])) (by simp)
  obtain ⟨T, -, hTw, hT⟩ := hN n M ((le_max_left _ _).trans hn) hM
  obtain ⟨z, hz⟩ := exists_bestNear c (εb := 0) (ε := ν / n) (b := 0) hη0 ⟨_, (hnear 0 (ν / n) _).2 ⟨T, hT, hTw, rfl⟩⟩
    (fun z hz => by
      obtain ⟨S, hS, hSw, rfl⟩ := (hnear 0 (ν / n) z).1 hz
      obtain ⟨J, hJ⟩ := exists_physCost ocpDecay M W S
      rw [hobj S J hSw hJ]
      obtain ⟨v, hv', rfl⟩ := hJ
      obtain ⟨t0, tf, -⟩ := decay_plan (hS.1 0 Nat.one_pos)
      rw [show ocpDecay.nPhases = 1 from rfl, Finset.sum_range_one]
      have e : TerminalCost ocpDecay M S 0 = 0 := by simp [TerminalCost, ocpDecay, ocpR]
      rw [e, zero_add]
      refine C67_lgr_nonneg outsideR.lib outsideR.method (-1) 1 (by norm_num)
        (fun q hq => by rw [List.mem_singleton.1 (hmem q hq)]) (fun q hq => decay_jacobi q (hmem q hq)) hWeq fun k _ hk => ?_
      obtain ⟨s, i, ho', rfl⟩ := M.exists_owner hM.good.nonempty (k := k) (by unfold Mesh.N; omega)
      rw [hv' 0 Nat.one_pos (fun p => p.x.getD 0 0 * p.x.getD 0 0) rfl s i ho']
      refine mul_nonneg ?_ (mul_self_nonneg _)
      have hs' : s < n := by rw [← hlen]; exact ho'.1
      rw [Mesh.halfWidth, t0, tf, show S.w s 0 = 1 / (n : ℝ) from hSw 0 Nat.one_pos s hs', hM.tau0, hM.tau1]
      norm_num [outsideR])
  obtain ⟨out, hout⟩ := hret (fun c => if h : ∃ z, c.BestNear 0 (ν / n) η0 z then .ok h.choose else .error .assertion) 0 (ν / n)
    (Exists.choose ⟨z, hz⟩) (dif_pos ⟨z, hz⟩) (Exists.choose_spec (⟨z, hz⟩ : ∃ z, c.BestNear 0 (ν / n) η0 z)).sol
  refine ⟨_, out, fun c' z' h => ?_, hout⟩
  split at h
  · rename_i h'
    cases h
    exact h'.choose_spec
  · cases h

end MPOpt
