import Verif.Props.Exact
import Verif.Props.JacobiRoots

/-!
# Concrete runs for C56–C58: `x' = u`, `x(0) = 0`, `x(1) = 1/4`, cost `∫ u²`

Two LGR segments of order 2 of equal width. The optimum is the straight line (cost 1/16); the other trajectory used has
a kink in the state and a jump in the control at the segment boundary (cost 1/6).
-/

set_option autoImplicit false

namespace MPOpt
open Polynomial

/-- The problem. -/
noncomputable def ocpR : OCP ℝ :=
  { nx := 1, nu := 1, na := 0, nPhases := 1
    dynamics := [⟨1, fun p _ => p.u.getD 0 0⟩]
    pathConstraints := [some ⟨1, fun p _ => p.x.getD 0 0 - 3⟩]
    terminalCosts := [fun _ => 0]
    runningCosts := [fun p => p.u.getD 0 0 * p.u.getD 0 0]
    terminalConstraints := [some ⟨1, fun t _ => t.xf.getD 0 0 - 1 / 4⟩]
    phaseLinks := []
    scaleX := [2], scaleU := [1], scaleA := [], scaleT := 1
    x00 := [[0]], xf0 := [[1]], u00 := [[0]], uf0 := [[0]], t00 := [[0]], tf0 := [[1]], a0 := [[]]
    lbx := [[.fin (-5)]], ubx := [[.fin 5]], lbu := [[.fin (-1)]], ubu := [[.pinf]], lba := [[]]
    uba := [[]], lbt0 := [[.fin 0]], ubt0 := [[.fin 0]], lbtf := [[.fin 1]], ubtf := [[.fin 1]]
    lbe := [], ube := [], diffU := [false], lbdu := [.fin (-15)], ubdu := [.fin 15], midu := [false]
    duContinuity := [false] }

/-- Outside world with exact Legendre–Gauss–Radau points. -/
noncomputable def outsideR : Outside ℝ Nat :=
  ⟨libR, .numerical, -1, 1, ⟨0, 0, 0, 0, 0⟩, fun p _ => p == "ipopt", fun _ => 0⟩

/-- Default call of `solve`. -/
def argsR : SolveArgs ℝ Nat := ⟨none, false, "ipopt", [], none⟩

theorem rowOrdered_single {a b : Ext ℝ} (h : Ext.le a b = true) (ph : Nat) : RowOrdered [[a]] [[b]] ph := by
  intro l u hl hu i a' b' ha hb
  obtain rfl : ph = 0 := by
    by_contra hne
    rw [List.getElem?_eq_none (by simp; omega)] at hl; cases hl
  obtain rfl : [a] = l := by simpa using hl
  obtain rfl : [b] = u := by simpa using hu
  obtain rfl : i = 0 := by
    by_contra hne
    rw [List.getElem?_eq_none (by simp; omega)] at ha; cases ha
  obtain rfl : a = a' := by simpa using ha
  obtain rfl : b = b' := by simpa using hb
  exact h

theorem rowOrdered_empty (ph : Nat) : RowOrdered ([[]] : List (List (Ext ℝ))) [[]] ph := by
  intro l u hl hu i a' b' ha hb
  obtain rfl : ph = 0 := by
    by_contra hne
    rw [List.getElem?_eq_none (by simp; omega)] at hl; cases hl
  obtain rfl : [] = l := by simpa using hl
  simp at ha

theorem ocpR_ready : ValidOCP ocpR ∧ ocpR.SettingsOK ∧ ocpR.PosScales := by
  refine ⟨?_, ⟨Nat.one_pos, rfl, rfl, rfl, rfl, rfl, Or.inl Nat.one_pos, fun h => absurd h (by simp [ocpR]),
    fun h => absurd h (by simp [ocpR]), by simp [ocpR]⟩, ⟨?_, ?_, ?_, by norm_num [ocpR]⟩⟩
  · constructor
    case ordX => exact rowOrdered_single (by simp [Ext.le])
    case ordU => exact rowOrdered_single (by simp [Ext.le])
    case ordA => exact rowOrdered_empty
    case ordT0 => exact rowOrdered_single (by simp [Ext.le])
    case ordTf => exact rowOrdered_single (by simp [Ext.le])
    case ordE => intro ph l u hl; simp [ocpR] at hl
    all_goals simp [ocpR, HasShape]
  all_goals simp [ocpR]

/-- A mesh of LGR segments for any positive orders. -/
theorem exists_lgr_mesh (orders : List Nat) (hne : orders ≠ []) (hpos : ∀ p ∈ orders, 1 ≤ p) :
    ∃ M, MeshFor outsideR "LGR" orders.length (.list orders) M ∧ M.orders = orders := by
  obtain ⟨d, M, h1, h2, h3, h4, h5, h6, h7⟩ := C43_lgr_setup libR .numerical (-1) 1 (by norm_num) ocpR orders hne hpos
    fun p _ _ => libR_jacobi 1 0 (p - 1)
  obtain ⟨-, -, -, g4, g5, -, -⟩ := mkDisc_inv h1
  refine ⟨M, ⟨h2.good, h4, h5, h6, fun p hp => ?_⟩, h4⟩
  have := h2.taus p (by rw [← h2.orders]; exact hp)
  rwa [g5] at this

/-- The straight line. -/
noncomputable def lineR : CTraj :=
  ⟨fun _ _ t => t / 4, fun _ _ _ => 1 / 4, fun _ => 0, fun _ => 1, fun _ _ => 0⟩

/-- Accelerate until `t = 1/2`, then stop: state with a kink, control with a jump. -/
noncomputable def kinkR : CTraj :=
  ⟨fun _ _ t => if t ≤ 1 / 2 then t ^ 2 else 1 / 4, fun _ _ t => if t ≤ 1 / 2 then 2 * t else 0,
    fun _ => 0, fun _ => 1, fun _ _ => 0⟩

theorem lineR_solves : SolvesContinuously ocpR lineR := by
  refine ⟨fun ph hph => ?_, by simp [ocpR], by simp [ocpR], by simp [ocpR]⟩
  obtain rfl : ph = 0 := by simpa [ocpR] using hph
  have hd : ∀ t : ℝ, HasDerivAt (fun t : ℝ => t / 4) (1 / 4) t := fun t => (hasDerivAt_id t).div_const 4
  refine ⟨by simp [lineR], ⟨?_, ?_, fun j _ t _ => (hd t).continuousAt.continuousWithinAt⟩, ?_, ?_, ?_, ?_, ?_, ?_, ?_, ?_⟩
  · intro F hF j hj t _ _
    have hF : (⟨1, fun p _ => p.u.getD 0 0⟩ : VFun (PArg ℝ) ℝ) = F := by simpa [ocpR] using hF
    rw [← hF]
    simpa [lineR, OCP.cArg, ocpR] using (hd t).hasDerivWithinAt
  · intro F hF j hj
    have hF : (⟨1, fun p _ => p.u.getD 0 0⟩ : VFun (PArg ℝ) ℝ) = F := by simpa [ocpR] using hF
    rw [← hF]
    simpa [lineR, OCP.cArg, ocpR] using (hd 0).hasDerivWithinAt
  · intro F hF c hc t ht
    have hF : (⟨1, fun p _ => p.x.getD 0 0 - 3⟩ : VFun (PArg ℝ) ℝ) = F := by simpa [ocpR] using hF
    obtain ⟨-, h1⟩ := ht
    have h1 : t ≤ 1 := h1
    rw [← hF]
    simp [lineR, OCP.cArg, ocpR]; linarith
  · intro F hF c hc
    have hF : (⟨1, fun t _ => t.xf.getD 0 0 - 1 / 4⟩ : VFun (TArg ℝ) ℝ) = F := by simpa [ocpR] using hF
    rw [← hF]
    simp [lineR, OCP.cEnd, ocpR]
  · intro _ j hj
    obtain rfl : j = 0 := by simpa [ocpR] using hj
    simp [lineR, ocpR, entry]
  · intro t ht _ j hj
    obtain rfl : j = 0 := by simpa [ocpR] using hj
    obtain ⟨h0, h1⟩ := ht
    have h0 : 0 ≤ t := h0
    have h1 : t ≤ 1 := h1
    simp [lineR, ocpR, entry, Within, Ext.Below, Ext.Above]
    constructor <;> linarith
  · intro t ht j hj
    obtain rfl : j = 0 := by simpa [ocpR] using hj
    simp [lineR, ocpR, entry, Within, Ext.Below, Ext.Above]
    norm_num
  · simp [lineR, ocpR, entry, Within, Ext.Below, Ext.Above]
  · simp [lineR, ocpR, entry, Within, Ext.Below, Ext.Above]
  · intro k hk; simp [ocpR] at hk

theorem kinkR_solves : SolvesContinuously ocpR kinkR := by
  refine ⟨fun ph hph => ?_, by simp [ocpR], by simp [ocpR], by simp [ocpR]⟩
  obtain rfl : ph = 0 := by simpa [ocpR] using hph
  have hq : ∀ t : ℝ, HasDerivAt (fun t : ℝ => t ^ 2) (2 * t) t := fun t => by
    simpa using hasDerivAt_pow 2 t
  have hval : ∀ t : ℝ, 0 ≤ t → t ≤ 1 → 0 ≤ (if t ≤ 1 / 2 then t ^ 2 else 1 / 4 : ℝ) ∧
      (if t ≤ 1 / 2 then t ^ 2 else 1 / 4 : ℝ) ≤ 1 / 4 := by
    intro t h0 _
    split
    · constructor <;> nlinarith
    · norm_num
  refine ⟨by simp [kinkR], ⟨?_, ?_, fun j _ => (Continuous.if_le (by fun_prop) continuous_const continuous_id continuous_const
    (by rintro t rfl; norm_num)).continuousOn⟩, ?_, ?_, ?_, ?_, ?_, ?_, ?_, ?_⟩
  · intro F hF j hj t ht0 ht1
    have hF : (⟨1, fun p _ => p.u.getD 0 0⟩ : VFun (PArg ℝ) ℝ) = F := by simpa [ocpR] using hF
    rw [← hF]
    have : HasDerivWithinAt (fun t : ℝ => if t ≤ 1 / 2 then t ^ 2 else 1 / 4)
        (if t ≤ 1 / 2 then 2 * t else 0) (Set.Iic t) t := by
      split
      · rename_i h
        refine (hq t).hasDerivWithinAt.congr (fun r hr => ?_) (by rw [if_pos h])
        rw [if_pos (le_trans hr h)]
      · rename_i h
        refine (hasDerivAt_const t (1 / 4 : ℝ)).hasDerivWithinAt.congr_of_eventuallyEq ?_ (by rw [if_neg h])
        filter_upwards [mem_nhdsWithin_of_mem_nhds (lt_mem_nhds (not_le.1 h))] with r hr
        rw [if_neg (not_le.2 hr)]
    simpa [kinkR, OCP.cArg, ocpR] using this
  · intro F hF j hj
    have hF : (⟨1, fun p _ => p.u.getD 0 0⟩ : VFun (PArg ℝ) ℝ) = F := by simpa [ocpR] using hF
    rw [← hF]
    have : HasDerivWithinAt (fun t : ℝ => if t ≤ 1 / 2 then t ^ 2 else 1 / 4) 0 (Set.Ici 0) 0 := by
      have h0 := (hq 0).hasDerivWithinAt (s := Set.Ici 0)
      rw [mul_zero] at h0
      refine h0.congr_of_eventuallyEq ?_ (by norm_num)
      filter_upwards [mem_nhdsWithin_of_mem_nhds (gt_mem_nhds (show (0 : ℝ) < 1 / 2 by norm_num))] with r hr
      rw [if_pos hr.le]
    simpa [kinkR, OCP.cArg, ocpR] using this
  · intro F hF c hc t ht
    have hF : (⟨1, fun p _ => p.x.getD 0 0 - 3⟩ : VFun (PArg ℝ) ℝ) = F := by simpa [ocpR] using hF
    have := (hval t ht.1 ht.2).2
    rw [← hF]
    show (kinkR.x 0 0 t) - 3 ≤ 0
    simp only [kinkR]; linarith
  · intro F hF c hc
    have hF : (⟨1, fun t _ => t.xf.getD 0 0 - 1 / 4⟩ : VFun (TArg ℝ) ℝ) = F := by simpa [ocpR] using hF
    rw [← hF]
    norm_num [kinkR, OCP.cEnd, ocpR]
  · intro _ j hj
    obtain rfl : j = 0 := by simpa [ocpR] using hj
    norm_num [kinkR, ocpR, entry]
  · intro t ht _ j hj
    obtain rfl : j = 0 := by simpa [ocpR] using hj
    obtain ⟨h0, h1⟩ := hval t ht.1 ht.2
    constructor
    · show (-5 : ℝ) ≤ kinkR.x 0 0 t
      simp only [kinkR]; linarith
    · show kinkR.x 0 0 t ≤ (5 : ℝ)
      simp only [kinkR]; linarith
  · intro t ht j hj
    obtain rfl : j = 0 := by simpa [ocpR] using hj
    have h0 : 0 ≤ t := ht.1
    constructor
    · show (-1 : ℝ) ≤ kinkR.u 0 0 t
      simp only [kinkR]; split <;> linarith
    · trivial
  · simp [kinkR, ocpR, entry, Within, Ext.Below, Ext.Above]
  · simp [kinkR, ocpR, entry, Within, Ext.Below, Ext.Above]
  · intro k hk; simp [ocpR] at hk

/-- Facts about two segments of equal width on the phase `[0, 1]`. -/
theorem halves {M : Mesh ℝ} (ho : M.orders = [2, 2]) {C : CTraj} {T : Traj ℝ} (h0 : C.t0 0 = 0) (h1 : C.tf 0 = 1)
    (hw : WidthsAre ocpR 2 none T) :
    FullWidths M T 0 ∧ C.breakTime T.w 0 0 = 0 ∧ C.breakTime T.w 0 1 = 1 / 2 ∧ C.breakTime T.w 0 2 = 1 ∧
      M.order 0 = 2 ∧ M.order 1 = 2 := by
  have w0 : T.w 0 0 = 1 / 2 := by simpa using hw 0 (by simp [ocpR]) 0 (by omega)
  have w1 : T.w 1 0 = 1 / 2 := by simpa using hw 0 (by simp [ocpR]) 1 (by omega)
  refine ⟨⟨fun s hs => ?_, ?_⟩, ?_, ?_, ?_, by simp [Mesh.order, ho], by simp [Mesh.order, ho]⟩
  · have hs : s < 2 := by simpa [ho] using hs
    interval_cases s
    · rw [w0]; norm_num
    · rw [w1]; norm_num
  · rw [ho]; simp [Finset.sum_range_succ, w0, w1]; norm_num
  · simp [CTraj.breakTime, h0]
  · simp [CTraj.breakTime, h0, h1, w0]
  · simp [CTraj.breakTime, h0, h1, Finset.sum_range_succ, w0, w1]; norm_num

theorem lineR_poly {M : Mesh ℝ} (ho : M.orders = [2, 2]) (T : Traj ℝ) :
    (∀ j < ocpR.nx, PiecewisePoly M.orders.length M.order (lineR.breakTime T.w 0) (lineR.x 0 j)) ∧
      LeftPiecewisePoly M.orders.length (fun s => 2 * M.order s - 2) (lineR.breakTime T.w 0)
        fun t => ocpR.runningCosts.getD 0 (fun _ => 0) (ocpR.cArg lineR 0 t) := by
  refine ⟨fun j _ s hs => ⟨C (1 / 4) * X, ?_, ?_⟩, fun s hs => ⟨C (1 / 16), ?_, ?_⟩⟩
  · have : M.order s = 2 := by
      have hs : s < 2 := by simpa [ho] using hs
      interval_cases s <;> simp [Mesh.order, ho]
    rw [this]
    exact (natDegree_C_mul_le _ _).trans (natDegree_X_le.trans (by norm_num))
  · intro t _; simp [lineR]; ring
  · simp
  · intro t _ _
    simp [lineR, OCP.cArg, ocpR]; norm_num

theorem kinkR_poly {M : Mesh ℝ} (ho : M.orders = [2, 2]) {T : Traj ℝ} (hw : WidthsAre ocpR 2 none T) :
    (∀ j < ocpR.nx, PiecewisePoly M.orders.length M.order (kinkR.breakTime T.w 0) (kinkR.x 0 j)) ∧
      (LeftPiecewisePoly M.orders.length (fun s => 2 * M.order s - 2) (kinkR.breakTime T.w 0)
        fun t => ocpR.runningCosts.getD 0 (fun _ => 0) (ocpR.cArg kinkR 0 t)) ∧
      ∀ F, ocpR.dynamics[0]? = some F → ∀ j < ocpR.nx, LeftPiecewisePoly M.orders.length
        (fun s => M.collocated s - 1) (kinkR.breakTime T.w 0) fun t => F.f (ocpR.cArg kinkR 0 t) j := by
  obtain ⟨-, b0, b1, b2, o0, o1⟩ := halves ho (C := kinkR) rfl rfl hw
  refine ⟨fun j _ s hs => ?_, fun s hs => ?_, fun F hF j _ s hs => ?_⟩ <;>
    have hs : s < 2 := by simpa [ho] using hs
  · interval_cases s
    · refine ⟨X ^ 2, by rw [o0]; simp, fun t ht => ?_⟩
      rw [b0, b1] at ht
      simp only [kinkR, if_pos ht.2]; simp
    · refine ⟨C (1 / 4), by simp, fun t ht => ?_⟩
      rw [b1, b2] at ht
      simp only [kinkR, eval_C]
      split
      · rename_i h
        have : t = 1 / 2 := le_antisymm h ht.1
        rw [this]; norm_num
      · rfl
  · interval_cases s
    · refine ⟨C 4 * X ^ 2, ?_, fun t ht _ => ?_⟩
      · exact (natDegree_C_mul_X_pow_le _ _).trans (by simp [o0])
      rw [b0, b1] at ht
      show kinkR.u 0 0 t * kinkR.u 0 0 t = _
      simp only [kinkR, if_pos ht.2]; simp; ring
    · refine ⟨0, by simp, fun t ht hlt => ?_⟩
      rw [b1] at hlt
      show kinkR.u 0 0 t * kinkR.u 0 0 t = _
      have : ¬ t ≤ 1 / 2 := not_le.2 (hlt.resolve_left (by norm_num))
      simp only [kinkR, if_neg this]; simp
  · have hF : (⟨1, fun p _ => p.u.getD 0 0⟩ : VFun (PArg ℝ) ℝ) = F := by simpa [ocpR] using hF
    rw [← hF]
    interval_cases s
    · refine ⟨C 2 * X, (natDegree_C_mul_le _ _).trans (natDegree_X_le.trans (by simp [Mesh.collocated, o0])), fun t ht _ => ?_⟩
      rw [b0, b1] at ht
      show kinkR.u 0 0 t = _
      simp only [kinkR, if_pos ht.2]; simp
    · refine ⟨0, by simp, fun t ht hlt => ?_⟩
      rw [b1] at hlt
      show kinkR.u 0 0 t = _
      have : ¬ t ≤ 1 / 2 := not_le.2 (hlt.resolve_left (by norm_num))
      simp only [kinkR, if_neg this]; simp

theorem lineR_cost : ocpR.trueCost lineR = 1 / 16 := by
  simp [OCP.trueCost, ocpR, lineR, OCP.cArg]; norm_num

theorem kinkR_cost : ocpR.trueCost kinkR = 1 / 6 := by
  have key := integral_pieces (n := 2) (b := fun s => (s : ℝ) / 2) (fun s _ => by push_cast; linarith)
    (f := fun t => (if t ≤ 1 / 2 then 2 * t else 0) * (if t ≤ 1 / 2 then 2 * t else 0))
    (Q := fun s => if s = 0 then C (4 / 3) * X ^ 3 else 0) (by
      intro s hs t ht hlt
      interval_cases s
      · have : t ≤ 1 / 2 := by simpa using ht.2
        simp only [if_pos this]; simp; ring
      · have : ¬ t ≤ 1 / 2 := not_le.2 (by simpa using hlt)
        simp only [if_neg this]; simp)
  simp only [Finset.sum_range_succ, Finset.range_zero, Finset.sum_empty] at key
  have e : ocpR.trueCost kinkR = ∫ t in ((0 : ℕ) : ℝ) / 2..((2 : ℕ) : ℝ) / 2,
      (if t ≤ 1 / 2 then 2 * t else 0) * (if t ≤ 1 / 2 then 2 * t else 0) := by
    simp [OCP.trueCost, ocpR, kinkR, OCP.cArg]
  rw [e, key]
  simp; norm_num

/-- `∫ (q')² ≥ (q(1) - q(-1))² / 2`. -/
theorem slope_energy (q : ℝ[X]) :
    (q.eval 1 - q.eval (-1)) ^ 2 / 2 ≤ polyIntegral (derivative q * derivative q) (-1) 1 := by
  have hnn : ∀ d : ℝ[X], 0 ≤ polyIntegral (d * d) (-1) 1 := by
    intro d
    by_cases hd : d = 0
    · rw [hd, mul_zero, polyIntegral_zero]
    · have := weighted_square_pos 0 0 hd
      simpa using this.le
  set m := (q.eval 1 - q.eval (-1)) / 2 with hm
  have h := hnn (derivative q - C m)
  have e : (derivative q - C m) * (derivative q - C m) =
      derivative q * derivative q + derivative (C (-2 * m) * q + C (m ^ 2) * X) := by
    rw [derivative_add, derivative_C_mul, derivative_C_mul, derivative_X, C_mul, C_pow, C_neg,
      show (C 2 : ℝ[X]) = 2 from rfl]
    ring
  rw [e, polyIntegral_add, polyIntegral_derivative] at h
  simp only [eval_add, eval_mul, eval_C, eval_X] at h
  rw [hm] at h
  nlinarith

/-- Every trajectory that meets bounds, collocation equations and terminal constraint costs at least 1/16, whatever
its widths. -/
theorem costR_ge' {M : Mesh ℝ} (hG : M.Good) (ho : M.orders = [2, 2]) (e0 : M.tau0 = -1) (e1 : M.tau1 = 1)
    {W : List ℝ} (hW : M.Integrates W fun s => 2 * M.order s - 2) {T : Traj ℝ} {J : ℝ}
    (hB : ∀ ph < ocpR.nPhases, BoundsOK ocpR M T ph) (hC : ∀ ph < ocpR.nPhases, CollocationOK ocpR M T ph)
    (hTm : ∀ ph < ocpR.nPhases, TerminalOK ocpR M T ph)
    (hw : FullWidths M T 0) (hJ : PhysCost ocpR M W T J) : 1 / 16 ≤ J := by
  have hp : (0 : Nat) < ocpR.nPhases := by simp [ocpR]
  obtain ⟨b1, -, -, b4, b5, -⟩ := hB 0 hp
  have x0 : T.x 0 0 0 = 0 := by simpa [ocpR, entry] using b1 rfl 0 (by simp [ocpR])
  have t0 : T.t0 0 = 0 := by
    have : (0 : ℝ) ≤ T.t0 0 ∧ T.t0 0 ≤ 0 := by simpa [ocpR, entry, Within, Ext.Below, Ext.Above] using b4
    exact le_antisymm this.2 this.1
  have tf : T.tf 0 = 1 := by
    have : (1 : ℝ) ≤ T.tf 0 ∧ T.tf 0 ≤ 1 := by simpa [ocpR, entry, Within, Ext.Below, Ext.Above] using b5
    exact le_antisymm this.2 this.1
  have x4 : T.x 0 4 0 = 1 / 4 := by
    have := hTm 0 hp ⟨1, fun t _ => t.xf.getD 0 0 - 1 / 4⟩ rfl 0 Nat.one_pos
    have : T.x 0 4 0 - 1 / 4 = 0 := by simpa [OCP.tArg, ocpR, Mesh.N, ho] using this
    linarith
  have hpos : ∀ s < 2, 0 < T.w s 0 := fun s hs => hw.pos s (by rw [ho]; exact hs)
  have hw1 : T.w 0 0 + T.w 1 0 = 1 := by
    have := hw.sum
    rw [ho] at this
    simpa [Finset.sum_range_succ] using this
  have hhw : ∀ s < 2, M.halfWidth T 0 s = T.w s 0 / 2 := by
    intro s hs
    unfold Mesh.halfWidth
    rw [t0, tf, e0, e1]; ring
  obtain ⟨v, hv, rfl⟩ := hJ
  let q : Nat → ℝ[X] := fun s => M.piece (fun k => T.x 0 k 0) s
  have hq : ∀ s < 2, ∀ i ≤ 2, (q s).eval (M.node s i) = T.x 0 (M.idx s i) 0 := by
    intro s hs i hi
    have hs' : s < M.orders.length := by rw [ho]; simpa using hs
    have hos : M.orders[s] = 2 := by
      have : M.order s = 2 := by interval_cases s <;> simp [Mesh.order, ho]
      rw [← Mesh.order_eq hs', this]
    have := hG.piece_samples (fun k => T.x 0 k 0) s hs' i (by rw [hos]; exact hi)
    rw [← Mesh.order_eq hs'] at this
    exact this.symm
  have hqd : ∀ s < 2, (q s).natDegree ≤ 2 := by
    intro s hs
    have hs' : s < M.orders.length := by rw [ho]; simpa using hs
    have h3 := hG.piece_degrees (fun k => T.x 0 k 0) s hs'
    rwa [← Mesh.order_eq hs', show M.order s = 2 by interval_cases s <;> simp [Mesh.order, ho]] at h3
  have hQ : ∀ s, ∃ Q : ℝ[X], derivative Q = derivative (q s) * derivative (q s) := fun s =>
    let ⟨Q, h, _⟩ := exists_antiderivative (derivative (q s) * derivative (q s)); ⟨Q, h⟩
  choose Q hQ using hQ
  have hsum := hW Q (fun s => 2 / T.w s 0) (v 0) (by
    intro s hs
    have hs : s < 2 := by simpa [ho] using hs
    have h1 := natDegree_derivative_le (q s)
    have h2 := hqd s hs
    have : M.order s = 2 := by interval_cases s <;> simp [Mesh.order, ho]
    beta_reduce
    rw [hQ, this]
    exact natDegree_mul_le.trans (by omega)) (by
    intro s hs i hi hown
    have ho' : M.Owns s i := ⟨hs, by rw [Mesh.order_eq hs]; exact hi, hown⟩
    have hs2 : s < 2 := by simpa [ho] using hs
    have hr := hv 0 hp (fun p => p.u.getD 0 0 * p.u.getD 0 0) rfl s i ho'
    have hc := hC 0 hp ⟨1, fun p _ => p.u.getD 0 0⟩ rfl 0 (by simp [ocpR]) s i ho'
    rw [hhw s hs2] at hr hc
    have hr : v 0 (M.idx s i) = T.w s 0 / 2 * (T.u 0 (M.idx s i) 0 * T.u 0 (M.idx s i) 0) := by
      simpa [OCP.pArg, ocpR] using hr
    have hc : (derivative (q s)).eval (M.node s i) = T.w s 0 / 2 * T.u 0 (M.idx s i) 0 := by
      simpa [OCP.pArg, ocpR] using hc
    have hn : (M.nodes M.orders[s]).getD i 0 = M.node s i := by unfold Mesh.node; rw [Mesh.order_eq hs]
    refine hr.trans ?_
    beta_reduce
    have := (hpos s hs2).ne'
    rw [hQ, hn, eval_mul, hc]; field_simp)
  have hen : ∀ s < 2, (T.x 0 (M.idx s 2) 0 - T.x 0 (M.idx s 0) 0) ^ 2 / 2 ≤ (Q s).eval 1 - (Q s).eval (-1) := by
    intro s hs
    have hs' : s < M.orders.length := by rw [ho]; simpa using hs
    have h3 := slope_energy (q s)
    rw [← hQ, polyIntegral_derivative] at h3
    have n0 := hG.node_first hs'
    have n1 := hG.node_last hs'
    rw [show M.order s = 2 by interval_cases s <;> simp [Mesh.order, ho]] at n1
    rw [← hq s hs 2 le_rfl, ← hq s hs 0 (by omega), n0, n1, e0, e1]
    exact h3
  have g0 := hen 0 (by norm_num)
  have g1 := hen 1 (by norm_num)
  have i0 : M.idx 0 0 = 0 := by simp [Mesh.idx, segStart]
  have i1 : M.idx 0 2 = 2 := by simp [Mesh.idx, segStart]
  have i2 : M.idx 1 0 = 2 := by simp [Mesh.idx, segStart, ho]
  have i3 : M.idx 1 2 = 4 := by simp [Mesh.idx, segStart, ho]
  rw [i0, i1, x0] at g0
  rw [i2, i3, x4] at g1
  rw [show ocpR.nPhases = 1 from rfl, Finset.sum_range_one, hsum, ho, e0, e1]
  have ht : TerminalCost ocpR M T 0 = 0 := rfl
  simp only [List.length_cons, List.length_nil, Finset.sum_range_succ, Finset.range_zero, Finset.sum_empty, ht]
  have p0 := hpos 0 (by norm_num)
  have p1 := hpos 1 (by norm_num)
  have hb : ∀ {a q d : ℝ}, 0 < a → d ^ 2 / 2 ≤ q → d / 2 - a / 16 ≤ 2 / a * q := by
    intro a q d ha hd
    have h1 : 2 / a * (d ^ 2 / 2) ≤ 2 / a * q := mul_le_mul_of_nonneg_left hd (by positivity)
    have h2 : d / 2 - a / 16 ≤ 2 / a * (d ^ 2 / 2) := by
      rw [show 2 / a * (d ^ 2 / 2) = d ^ 2 / a by ring, le_div_iff₀ ha]
      nlinarith [sq_nonneg (d - a / 4)]
    exact h2.trans h1
  have q0 := hb p0 g0
  have q1 := hb p1 g1
  linarith

/-- Every trajectory of the collocated problem costs at least 1/16. -/
theorem costR_ge {M : Mesh ℝ} (hM : MeshFor outsideR "LGR" 2 (.list [2, 2]) M) {W : List ℝ}
    (hW : M.Integrates W fun s => 2 * M.order s - 2) {T : Traj ℝ} {J : ℝ} (hT : SolvesOCP ocpR M T)
    (hw : WidthsAre ocpR 2 none T) (hJ : PhysCost ocpR M W T J) : 1 / 16 ≤ J :=
  costR_ge' hM.good hM.orders hM.tau0 hM.tau1 hW hT.1.bounds hT.1.dynamics hT.1.terminal
    (halves hM.orders (C := lineR) rfl rfl hw).1 hJ

/-- A sampled exact solution, its feasibility and its cost. -/
theorem sampled {M : Mesh ℝ} (hM : MeshFor outsideR "LGR" 2 (.list [2, 2]) M) {W : List ℝ} {C : CTraj}
    (h0 : C.t0 0 = 0) (h1 : C.tf 0 = 1) (hI : M.Inside) (hW : M.Integrates W fun s => 2 * M.order s - 2)
    (hC : SolvesContinuously ocpR C)
    (hpoly : ∀ T, WidthsAre ocpR 2 none T →
      (∀ j < ocpR.nx, PiecewisePoly M.orders.length M.order (C.breakTime T.w 0) (C.x 0 j)) ∧
      LeftPiecewisePoly M.orders.length (fun s => 2 * M.order s - 2) (C.breakTime T.w 0)
        fun t => ocpR.runningCosts.getD 0 (fun _ => 0) (ocpR.cArg C 0 t)) :
    ∃ T, WidthsAre ocpR 2 none T ∧ Samples ocpR M C T ∧ SolvesOCP ocpR M T ∧
      PhysCost ocpR M W T (ocpR.trueCost C) := by
  obtain ⟨hv, hs, -⟩ := ocpR_ready
  obtain ⟨T, hT, hTw⟩ := exists_samples_of ocpR M C fun _ _ => 1 / 2
  have hw : WidthsAre ocpR 2 none T := by intro ph _ s _; rw [hTw]; norm_num
  obtain ⟨hx, hrc⟩ := hpoly T hw
  have one : ∀ {P : Nat → Prop}, P 0 → ∀ ph < ocpR.nPhases, P ph := by
    intro P h ph hp
    obtain rfl : ph = 0 := by simpa [ocpR] using hp
    exact h
  have hf := one (P := fun ph => FullWidths M T ph) (halves hM.orders h0 h1 hw).1
  exact ⟨T, hw, hT, C56_exact_feasible hM.good hI hC hs.linkRange hT hf
      (one (P := fun ph => ∀ j < ocpR.nx, PiecewisePoly M.orders.length M.order (C.breakTime T.w ph) (C.x ph j)) hx)
      (one (P := fun ph => ocpR.midu.getD ph false = true → _) (fun h => by simp [ocpR] at h))
      (one (P := fun ph => ocpR.duContinuity.getD ph false = false) rfl)
      (one (P := fun ph => ocpR.diffU.getD ph false = false) rfl),
    C57_cost hM.good hI hW hv.runningCosts hT hf (fun ph hp => (hC.phase ph hp).order)
      (one (P := fun ph => LeftPiecewisePoly M.orders.length (fun s => 2 * M.order s - 2) (C.breakTime T.w ph)
        fun t => ocpR.runningCosts.getD ph (fun _ => 0) (ocpR.cArg C ph t)) hrc)⟩

/-- The hypotheses of C57 are met: a run of `solve` on two LGR segments of order 2 with a perfect NLP solver, and a
solution with kink and jump; the returned cost is at most 1/6. -/
theorem exampleR : ∃ (M : Mesh ℝ) (nlpsol : SolverCall ℝ Nat → Py (List ℝ)) (out : _),
    MeshFor outsideR "LGR" 2 (.list [2, 2]) M ∧ (∀ c z, nlpsol c = .ok z → c.IsOptimal z) ∧
      mpSolve outsideR nlpsol ocpR [[0]] 2 (.list [2, 2]) "LGR" argsR false true = .ok out ∧
      ∃ T W J, SolvesOCP ocpR M T ∧ out.2.1.Shows ocpR M T ∧ PhysCost ocpR M W T J ∧ J ≤ 1 / 6 := by
  classical
  obtain ⟨hv, hs, hsc⟩ := ocpR_ready
  obtain ⟨M, hM, ho⟩ := exists_lgr_mesh [2, 2] (by simp) (by simp)
  have hM : MeshFor outsideR "LGR" 2 (.list [2, 2]) M := hM
  obtain ⟨c, W, hWeq, hsol, hobj, hret⟩ := C52_solve_returns (V := Nat) (ocp := ocpR) (w := outsideR) (a := argsR)
    (scheme := "LGR") (n := 2) (arg := .list [2, 2]) (M := M) (ptp := [[0]]) (rx := false) (rdx := true)
    hv hs hsc hM (by rw [ho]; rfl) (by norm_num [outsideR]) rfl (by simp [GoodWidths, argsR])
    (by
      intro ph hp
      obtain rfl : ph = 0 := by simpa [ocpR] using hp
      simp [ocpR, entry]) (by simp)
  have hj : ∀ p ∈ M.orders, IsJacobiRoots 1 0 (p - 1) (outsideR.lib.jroots (p - 1) 1 0) :=
    fun p _ => libR_jacobi 1 0 (p - 1)
  have hord : ∀ p ∈ M.orders, 2 ≤ p := by rw [ho]; simp
  obtain ⟨hI, hW⟩ := C57_lgr_integrates hM (by norm_num [outsideR]) hord hj hWeq
  obtain ⟨L, hLw, -, hLs, hLc⟩ := sampled hM rfl rfl hI hW lineR_solves fun T _ => lineR_poly ho T
  obtain ⟨K, hKw, hKs, -, -⟩ := sampled hM rfl rfl hI hW kinkR_solves fun T hw =>
    ⟨(kinkR_poly ho hw).1, (kinkR_poly ho hw).2.1⟩
  rw [lineR_cost] at hLc
  have hzs : c.IsSolution (ocpR.packVec M.N L) := (hsol _).2 ⟨L, hLs, hLw, rfl⟩
  have hz : c.IsOptimal (ocpR.packVec M.N L) := by
    refine ⟨hzs, fun z hz => ?_⟩
    obtain ⟨T, hT, hwT, rfl⟩ := (hsol z).1 hz
    rw [hobj _ _ hLw hLc]
    obtain ⟨v, hv'⟩ := exists_samples ocpR M T
    have hJ : PhysCost ocpR M W T _ := ⟨v, hv', rfl⟩
    rw [hobj _ _ hwT hJ]
    exact costR_ge hM hW hT hwT hJ
  obtain ⟨⟨s, p, r⟩, hout⟩ := hret
    (fun c => if c.IsOptimal (ocpR.packVec M.N L) then .ok (ocpR.packVec M.N L) else .error .assertion) _
    (if_pos hz) hzs.1
  have hopt : ∀ c' z, (fun c : SolverCall ℝ Nat => if c.IsOptimal (ocpR.packVec M.N L) then
      (.ok (ocpR.packVec M.N L) : Py (List ℝ)) else .error .assertion) c' = .ok z → c'.IsOptimal z := by
    intro c' z h
    simp only at h
    split at h
    · cases h; assumption
    · cases h
  have one : ∀ {P : Nat → Prop}, P 0 → ∀ ph < ocpR.nPhases, P ph := by
    intro P h ph hp
    obtain rfl : ph = 0 := by simpa [ocpR] using hp
    exact h
  refine ⟨M, _, (s, p, r), hM, hopt, hout, ?_⟩
  obtain ⟨T, W', J, -, k2, -, k4, k5, k6⟩ := C57_solve_beats hout hv hs hsc hM (by norm_num [outsideR]) hord hj hopt
    (one (P := fun ph => ocpR.duContinuity.getD ph false = false) rfl)
    (one (P := fun ph => ocpR.diffU.getD ph false = false) rfl)
  refine ⟨T, W', J, k2, k4, k5, ?_⟩
  have := k6 kinkR K kinkR_solves hKs hKw
    (one (P := fun ph => FullWidths M K ph) (halves ho (C := kinkR) rfl rfl hKw).1)
    (one (P := fun ph => ∀ j < ocpR.nx, PiecewisePoly M.orders.length M.order (kinkR.breakTime K.w ph)
      (kinkR.x ph j)) (kinkR_poly ho hKw).1)
    (one (P := fun ph => ocpR.midu.getD ph false = true → _) (fun h => by simp [ocpR] at h))
    (one (P := fun ph => LeftPiecewisePoly M.orders.length (fun s => 2 * M.order s - 2) (kinkR.breakTime K.w ph)
      fun t => ocpR.runningCosts.getD ph (fun _ => 0) (ocpR.cArg kinkR ph t)) (kinkR_poly ho hKw).2.1)
  rwa [kinkR_cost] at this

/-- The hypotheses of C56 and C58 are met by the trajectory with kink and jump. -/
example : ∃ (M : Mesh ℝ) (T : Traj ℝ), M.orders = [2, 2] ∧ Samples ocpR M kinkR T ∧ SolvesOCP ocpR M T ∧
    (CollocationOK ocpR M T 0 ↔ DynamicsHold ocpR kinkR 0) := by
  obtain ⟨M, hM, ho⟩ := exists_lgr_mesh [2, 2] (by simp) (by simp)
  have hM : MeshFor outsideR "LGR" 2 (.list [2, 2]) M := hM
  have hj : ∀ p ∈ M.orders, IsJacobiRoots 1 0 (p - 1) (outsideR.lib.jroots (p - 1) 1 0) :=
    fun p _ => libR_jacobi 1 0 (p - 1)
  have hord : ∀ p ∈ M.orders, 2 ≤ p := by rw [ho]; simp
  obtain ⟨W, hWeq, -⟩ := C07_lgr_gauss outsideR.lib outsideR.method outsideR.tau0 outsideR.tau1
    (by norm_num [outsideR]) M.orders hM.good.nonempty hord hj M.nodes hM.nodes (fun _ => 0) (by simp) (fun _ => 0)
    (fun _ => 0) (by intro s hs i hi ho; simp)
  obtain ⟨hI, hW⟩ := C57_lgr_integrates hM (by norm_num [outsideR]) hord hj hWeq
  obtain ⟨K, hKw, hKs, hK, -⟩ := sampled hM rfl rfl hI hW kinkR_solves fun T hw =>
    ⟨(kinkR_poly ho hw).1, (kinkR_poly ho hw).2.1⟩
  exact ⟨M, K, ho, hKs, hK, C58_collocation_exact hM.good hI hKs (by simp [ocpR]) (by simp [kinkR])
    (halves ho (C := kinkR) rfl rfl hKw).1 (kinkR_poly ho hKw).1 (kinkR_poly ho hKw).2.2⟩

end MPOpt
