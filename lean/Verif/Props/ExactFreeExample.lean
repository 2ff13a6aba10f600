import Verif.Props.ExactFree
import Verif.Props.HReturns
import Verif.Props.ExactExample

/-! # Concrete runs for C63, C64: the problem of `ExactExample` with `mpopt_adaptive` and `mpopt_h_adaptive` -/

set_option autoImplicit false

namespace MPOpt
open Polynomial

/-- Brake until `t = 1/3`, then stand still: the control is continuous, with a kink at `1/3`. -/
noncomputable def rampR : CTraj :=
  ⟨fun _ _ t => if t ≤ 1 / 3 then 1 / 4 - 9 / 4 * (1 / 3 - t) ^ 2 else 1 / 4,
    fun _ _ t => if t ≤ 1 / 3 then 9 / 2 * (1 / 3 - t) else 0, fun _ => 0, fun _ => 1, fun _ _ => 0⟩

theorem rampR_solves : SolvesContinuously ocpR rampR := by
  refine ⟨fun ph hph => ?_, by simp [ocpR], by simp [ocpR], by simp [ocpR]⟩
  obtain rfl : ph = 0 := by simpa [ocpR] using hph
  have hq : ∀ t : ℝ, HasDerivAt (fun t : ℝ => 1 / 4 - 9 / 4 * (1 / 3 - t) ^ 2) (9 / 2 * (1 / 3 - t)) t := fun t => by
    have h := ((((hasDerivAt_id t).const_sub (1 / 3)).pow 2).const_mul (9 / 4)).const_sub (1 / 4)
    refine h.congr_deriv ?_
    simp; ring
  have hval : ∀ t : ℝ, 0 ≤ t → t ≤ 1 → 0 ≤ rampR.x 0 0 t ∧ rampR.x 0 0 t ≤ 1 / 4 := by
    intro t h0 _
    simp only [rampR]
    split
    · constructor <;> nlinarith
    · norm_num
  refine ⟨by simp [rampR], ⟨?_, ?_, fun j _ => (Continuous.if_le (by fun_prop) continuous_const continuous_id continuous_const
    (by rintro t rfl; norm_num)).continuousOn⟩, ?_, ?_, ?_, ?_, ?_, ?_, ?_, ?_⟩
  · intro F hF j hj t ht0 ht1
    have hF : (⟨1, fun p _ => p.u.getD 0 0⟩ : VFun (PArg ℝ) ℝ) = F := by simpa [ocpR] using hF
    rw [← hF]
    have : HasDerivWithinAt (fun t : ℝ => if t ≤ 1 / 3 then 1 / 4 - 9 / 4 * (1 / 3 - t) ^ 2 else 1 / 4)
        (if t ≤ 1 / 3 then 9 / 2 * (1 / 3 - t) else 0) (Set.Iic t) t := by
      split
      · rename_i h
        refine (hq t).hasDerivWithinAt.congr (fun r hr => ?_) (by rw [if_pos h])
        rw [if_pos (le_trans hr h)]
      · rename_i h
        refine (hasDerivAt_const t (1 / 4 : ℝ)).hasDerivWithinAt.congr_of_eventuallyEq ?_ (by rw [if_neg h])
        filter_upwards [mem_nhdsWithin_of_mem_nhds (lt_mem_nhds (not_le.1 h))] with r hr
        rw [if_neg (not_le.2 hr)]
    exact this
  · intro F hF j hj
    have hF : (⟨1, fun p _ => p.u.getD 0 0⟩ : VFun (PArg ℝ) ℝ) = F := by simpa [ocpR] using hF
    rw [← hF]
    have h0 : (0 : ℝ) ≤ 1 / 3 := by norm_num
    have : HasDerivWithinAt (fun t : ℝ => if t ≤ 1 / 3 then 1 / 4 - 9 / 4 * (1 / 3 - t) ^ 2 else 1 / 4)
        (if (0 : ℝ) ≤ 1 / 3 then 9 / 2 * (1 / 3 - 0) else 0) (Set.Ici 0) 0 := by
      rw [if_pos h0]
      refine (hq 0).hasDerivWithinAt.congr_of_eventuallyEq ?_ (by rw [if_pos h0])
      filter_upwards [mem_nhdsWithin_of_mem_nhds (gt_mem_nhds (show (0 : ℝ) < 1 / 3 by norm_num))] with r hr
      rw [if_pos hr.le]
    exact this
  · intro F hF c hc t ht
    have hF : (⟨1, fun p _ => p.x.getD 0 0 - 3⟩ : VFun (PArg ℝ) ℝ) = F := by simpa [ocpR] using hF
    have := (hval t ht.1 ht.2).2
    rw [← hF]
    show (rampR.x 0 0 t) - 3 ≤ 0
    linarith
  · intro F hF c hc
    have hF : (⟨1, fun t _ => t.xf.getD 0 0 - 1 / 4⟩ : VFun (TArg ℝ) ℝ) = F := by simpa [ocpR] using hF
    rw [← hF]
    norm_num [rampR, OCP.cEnd, ocpR]
  · intro _ j hj
    obtain rfl : j = 0 := by simpa [ocpR] using hj
    norm_num [rampR, ocpR, entry]
  · intro t ht _ j hj
    obtain rfl : j = 0 := by simpa [ocpR] using hj
    obtain ⟨h0, h1⟩ := hval t ht.1 ht.2
    constructor
    · show (-5 : ℝ) ≤ rampR.x 0 0 t
      linarith
    · show rampR.x 0 0 t ≤ (5 : ℝ)
      linarith
  · intro t ht j hj
    obtain rfl : j = 0 := by simpa [ocpR] using hj
    constructor
    · show (-1 : ℝ) ≤ rampR.u 0 0 t
      simp only [rampR]; split <;> linarith
    · trivial
  · simp [rampR, ocpR, entry, Within, Ext.Below, Ext.Above]
  · simp [rampR, ocpR, entry, Within, Ext.Below, Ext.Above]
  · intro k hk; simp [ocpR] at hk

/-- Widths that put the segment boundary where the ramp ends. -/
noncomputable def rampW : Nat → Nat → ℝ := fun s _ => if s = 0 then 1 / 3 else 2 / 3

theorem rampR_breaks : rampR.breakTime rampW 0 0 = 0 ∧ rampR.breakTime rampW 0 1 = 1 / 3 ∧
    rampR.breakTime rampW 0 2 = 1 := by
  refine ⟨?_, ?_, ?_⟩ <;> simp [CTraj.breakTime, rampR, rampW, Finset.sum_range_succ]
  norm_num

theorem rampR_poly {M : Mesh ℝ} (ho : M.orders = [2, 2]) :
    (∀ j < ocpR.nx, PiecewisePoly M.orders.length M.order (rampR.breakTime rampW 0) (rampR.x 0 j)) ∧
    (∀ j < ocpR.nu, PiecewisePoly M.orders.length M.order (rampR.breakTime rampW 0) (rampR.u 0 j)) ∧
      LeftPiecewisePoly M.orders.length (fun s => 2 * M.order s - 2) (rampR.breakTime rampW 0)
        fun t => ocpR.runningCosts.getD 0 (fun _ => 0) (ocpR.cArg rampR 0 t) := by
  obtain ⟨b0, b1, b2⟩ := rampR_breaks
  have o : ∀ s < 2, M.order s = 2 := fun s hs => by interval_cases s <;> simp [Mesh.order, ho]
  have q : ∀ t, rampR.u 0 0 t = if t ≤ 1 / 3 then 9 / 2 * (1 / 3 - t) else 0 := fun t => rfl
  have q' : ∀ t, ocpR.runningCosts.getD 0 (fun _ => 0) (ocpR.cArg rampR 0 t) = rampR.u 0 0 t * rampR.u 0 0 t :=
    fun t => rfl
  refine ⟨fun j _ s hs => ?_, fun j hj s hs => ?_, fun s hs => ?_⟩ <;>
    have hs : s < 2 := by simpa [ho] using hs
  · rw [o s hs]
    interval_cases s
    · refine ⟨C (1 / 4) - C (9 / 4) * (C (1 / 3) - X) ^ 2, by compute_degree, fun t ht => ?_⟩
      rw [b0, b1] at ht
      simp only [rampR, if_pos ht.2]; simp
    · refine ⟨C (1 / 4), by simp, fun t ht => ?_⟩
      rw [b1, b2] at ht
      simp only [rampR, eval_C]
      split
      · rw [le_antisymm ‹_› ht.1]; norm_num
      · rfl
  · obtain rfl : j = 0 := by simpa [ocpR] using hj
    rw [o s hs]
    interval_cases s
    · refine ⟨C (9 / 2) * (C (1 / 3) - X), by compute_degree; norm_num, fun t ht => ?_⟩
      rw [b0, b1] at ht
      rw [q, if_pos ht.2]; simp
    · refine ⟨0, by simp, fun t ht => ?_⟩
      rw [b1, b2] at ht
      rw [q]
      split
      · rw [le_antisymm ‹_› ht.1]; norm_num
      · simp
  · beta_reduce
    rw [o s hs]
    interval_cases s
    · refine ⟨(C (9 / 2) * (C (1 / 3) - X)) ^ 2, by compute_degree, fun t ht _ => ?_⟩
      rw [b0, b1] at ht
      rw [q', q, if_pos ht.2]; simp; ring
    · refine ⟨0, by simp, fun t ht hlt => ?_⟩
      rw [b1] at hlt
      rw [q', q, if_neg (not_le.2 (hlt.resolve_left (by norm_num)))]; simp

theorem rampR_cost : ocpR.trueCost rampR = 1 / 4 := by
  have key := integral_pieces (n := 2) (b := rampR.breakTime rampW 0) (by
      obtain ⟨b0, b1, b2⟩ := rampR_breaks
      intro s hs
      interval_cases s
      · rw [b0, b1]; norm_num
      · rw [b1, b2]; norm_num)
    (f := fun t => rampR.u 0 0 t * rampR.u 0 0 t)
    (Q := fun s => if s = 0 then C (-27 / 4) * (C (1 / 3) - X) ^ 3 else 0) (by
      obtain ⟨b0, b1, b2⟩ := rampR_breaks
      intro s hs t ht hlt
      interval_cases s
      · rw [b0, b1] at ht
        simp only [rampR, if_pos ht.2, if_true]; simp [derivative_pow]; ring
      · rw [b1] at hlt
        have : ¬ t ≤ 1 / 3 := not_le.2 (hlt.resolve_left (by norm_num))
        simp only [rampR, if_neg this]; simp)
  obtain ⟨b0, b1, b2⟩ := rampR_breaks
  simp only [Finset.sum_range_succ, Finset.range_zero, Finset.sum_empty, b0, b1, b2] at key
  have e : ocpR.trueCost rampR = ∫ t in (0 : ℝ)..1, rampR.u 0 0 t * rampR.u 0 0 t := by
    simp [OCP.trueCost, ocpR, rampR, OCP.cArg]
  rw [e, key]
  simp; norm_num

/-- `mpopt_adaptive(ocpR, 2, 2, "LGR")` with the default settings. -/
noncomputable def adaptR : AdaptOpt ℝ Nat :=
  ⟨ocpR, 2, [2, 2], "LGR", [1 / 10000], [1], [1 / 1000], true, ["fixed"], 15, false, none, none, none, none⟩

theorem adaptR_fresh : adaptR.Fresh ocpR 2 (.list [2, 2]) "LGR" [1 / 10000] [1] [1 / 1000] true := by
  refine ⟨⟨adaptR, _, _, ?_, rfl⟩⟩
  unfold newAdapt
  rw [show initOrders 2 (.list [2, 2]) = .ok ([2, 2], 5) by decide +kernel]
  rfl

/-- The hypotheses of C63 are met: a run of `mpopt_adaptive` on two LGR segments of order 2 with a perfect NLP solver.
The ramp, which is represented with widths 1/3 and 2/3 only, shows that its cost is at most 1/4. -/
theorem exampleFree : ∃ (M : Mesh ℝ) (nlpsol : SolverCall ℝ Nat → Py (List ℝ)) (z : List ℝ) (out : _),
    MeshFor outsideR "LGR" 2 (.list [2, 2]) M ∧ (∀ c z, nlpsol c = .ok z → c.IsOptimal z) ∧
      (adaptR.solve outsideR nlpsol argsR).2 = .ok z ∧
      (adaptR.solve outsideR nlpsol argsR).1.processResults outsideR [[0]] false false true = .ok out ∧
      ∃ T W J, SolvesAdaptive ocpR M T [1 / 10000] [1] [1 / 1000] true ∧ out.1.Shows ocpR M T ∧
        PhysCost ocpR M W T J ∧ J ≤ 1 / 4 := by
  classical
  obtain ⟨hv, hs, hsc⟩ := ocpR_ready
  obtain ⟨M, hM, ho⟩ := exists_lgr_mesh [2, 2] (by simp) (by simp)
  have hM : MeshFor outsideR "LGR" 2 (.list [2, 2]) M := hM
  have one : ∀ {P : Nat → Prop}, P 0 → ∀ ph < ocpR.nPhases, P ph := by
    intro P h ph hp
    obtain rfl : ph = 0 := by simpa [ocpR] using hp
    exact h
  obtain ⟨c, W, hWeq, hsol, hobj, hret⟩ := C54_adaptive_returns (a := argsR) (ptp := [[0]]) (rx := false) (rdx := true)
    adaptR_fresh.ready hv hs hsc rfl rfl rfl hM (by norm_num [outsideR]) rfl rfl (by norm_num)
    (one (P := fun ph => entry ocpR.t00 ph 0 0 ≠ entry ocpR.tf0 ph 0 0) (by simp [ocpR, entry])) (by simp)
  have hj : ∀ p ∈ M.orders, IsJacobiRoots 1 0 (p - 1) (outsideR.lib.jroots (p - 1) 1 0) :=
    fun p _ => libR_jacobi 1 0 (p - 1)
  have hord : ∀ p ∈ M.orders, 2 ≤ p := by rw [ho]; simp
  obtain ⟨hI, hW⟩ := C57_lgr_integrates hM (by norm_num [outsideR]) hord hj hWeq
  -- the straight line is optimal
  obtain ⟨L, hL, hLw⟩ := exists_samples_of ocpR M lineR fun _ _ => 1 / 2
  have hLf : FullWidths M L 0 := ⟨fun s _ => by rw [hLw]; norm_num, by rw [hLw, ho]; norm_num⟩
  obtain ⟨l1, l2⟩ := lineR_poly ho L
  have hLs : SolvesAdaptive ocpR M L [1 / 10000] [1] [1 / 1000] true :=
    C63_exact_feasible hM.good hI lineR_solves hs.linkRange hL (one hLf)
      (one (P := fun ph => ∀ j < ocpR.nx, PiecewisePoly M.orders.length M.order (lineR.breakTime L.w ph)
        (lineR.x ph j)) l1)
      (one (P := fun ph => ∀ j < ocpR.nu, PiecewisePoly M.orders.length M.order (lineR.breakTime L.w ph)
        (lineR.u ph j)) fun j _ s _ => ⟨C (1 / 4), by simp, fun t _ => by simp [lineR]⟩)
      (one (P := fun ph => ocpR.diffU.getD ph false = false) rfl)
      (one (P := fun ph => ∀ s < M.orders.length, ([1 / 10000] : List ℝ).getD ph 0 ≤ L.w s ph ∧
        L.w s ph ≤ ([1] : List ℝ).getD ph 0) fun s _ => by rw [hLw]; norm_num)
      (fun _ => one (P := fun ph => 0 ≤ ([1 / 1000] : List ℝ).getD ph 0) (by norm_num))
  have hLc := C57_cost hM.good hI hW hv.runningCosts hL (one hLf) (fun ph hp => (lineR_solves.phase ph hp).order)
    (one (P := fun ph => LeftPiecewisePoly M.orders.length (fun s => 2 * M.order s - 2) (lineR.breakTime L.w ph)
      fun t => ocpR.runningCosts.getD ph (fun _ => 0) (ocpR.cArg lineR ph t)) l2)
  rw [lineR_cost] at hLc
  obtain ⟨z, hz, hzc⟩ := hobj L _ hLs hLc
  have hopt : c.IsOptimal z := by
    refine ⟨hz, fun z' hz' => ?_⟩
    obtain ⟨T, hT, hJ⟩ := hsol z' hz'
    have hwT := hT.1.widths 0 (by simp [ocpR])
    rw [hzc]
    refine costR_ge' hM.good ho hM.tau0 hM.tau1 hW hT.1.bounds hT.1.dynamics hT.1.terminal ⟨fun s hs => ?_, hwT.sum⟩ hJ
    exact lt_of_lt_of_le (by norm_num) (hwT.lower s hs)
  obtain ⟨k1, out, k2⟩ := hret (fun c => if c.IsOptimal z then .ok z else .error .assertion) z (if_pos hopt) hz
  have hopt' : ∀ c' z', (fun c : SolverCall ℝ Nat => if c.IsOptimal z then
      (.ok z : Py (List ℝ)) else .error .assertion) c' = .ok z' → c'.IsOptimal z' := by
    intro c' z' h
    simp only at h
    split at h
    · cases h; assumption
    · cases h
  refine ⟨M, _, z, out, hM, hopt', k1, k2, ?_⟩
  obtain ⟨p, r⟩ := out
  obtain ⟨T, W', J, -, g2, g3, g4, g5⟩ := C63_adaptive_beats adaptR_fresh.ready hv hs hsc rfl rfl rfl hM
    (by norm_num [outsideR]) hord hj hopt' (one (P := fun ph => ocpR.diffU.getD ph false = false) rfl)
    (fun _ => by norm_num) [] argsR (Prod.ext rfl k1) k2
  refine ⟨T, W', J, g2, g3, g4, ?_⟩
  obtain ⟨r1, r2, r3⟩ := rampR_poly ho
  have := g5 rampR rampW rampR_solves
    (one (P := fun ph => ∑ s ∈ Finset.range M.orders.length, rampW s ph = 1) (by
      rw [ho]; simp [Finset.sum_range_succ, rampW]; norm_num))
    (one (P := fun ph => ∀ s < M.orders.length, 0 < rampW s ph ∧ ([1 / 10000] : List ℝ).getD ph 0 ≤ rampW s ph ∧
      rampW s ph ≤ ([1] : List ℝ).getD ph 0) (by
      intro s _; unfold rampW; split <;> norm_num))
    (one (P := fun ph => ∀ j < ocpR.nx, PiecewisePoly M.orders.length M.order (rampR.breakTime rampW ph)
        (rampR.x ph j)) r1)
    (one (P := fun ph => ∀ j < ocpR.nu, PiecewisePoly M.orders.length M.order (rampR.breakTime rampW ph)
        (rampR.u ph j)) r2)
    (one (P := fun ph => LeftPiecewisePoly M.orders.length (fun s => 2 * M.order s - 2) (rampR.breakTime rampW ph)
      fun t => ocpR.runningCosts.getD ph (fun _ => 0) (ocpR.cArg rampR ph t)) r3)
  rwa [rampR_cost] at this

/-! ### `mpopt_h_adaptive` -/

/-- Values are lists of reals. -/
noncomputable def outsideRH : HOutside ℝ (List ℝ) :=
  { lib := libR, method := .numerical, tau0 := -1, tau1 := 1, vals := ⟨[], [], [], [], []⟩
    accepts := fun p _ => p == "ipopt", vec := fun _ => [], num := .ok, norm := fun l => |l.headD 0|, zero := [0] }

/-- The object, with the default settings. -/
noncomputable def hoptR : HOpt ℝ (List ℝ) :=
  ⟨ocpR, 2, [2, 2], "LGR", [1 / 100000], [1], [1 / 100], ["fixed"], 15, 1 / 10, 1 / 20, false, none, none, none, 0, []⟩

theorem hoptR_fresh : hoptR.Fresh ocpR 2 (.list [2, 2]) "LGR" [1 / 100000] [1] [1 / 100] := by
  refine ⟨⟨hoptR, _, _, _, _, ?_, rfl⟩⟩
  unfold newHAdaptive
  rw [show initOrders 2 (.list [2, 2]) = .ok ([2, 2], 5) by decide +kernel]
  rfl

/-- A call that merges and splits, and one that continues with the control slopes. -/
def callsR : List (HStart (List ℝ) × HArgs (List ℝ)) :=
  [(.fresh, ⟨none, false, "ipopt", [], [("method", "residual"), ("sub_method", "merge_split")], 4⟩),
    (.previous, ⟨none, true, "ipopt", [], [("method", "control_slope")], 3⟩)]

theorem validHR {p : List ℝ} (h : ValidWidths 2 1 p) : ∃ a, 0 < a ∧ a < 1 ∧ p = [a, 1 - a] := by
  obtain ⟨h1, h2⟩ := h
  obtain ⟨h2, h3⟩ := h2 0 Nat.one_pos
  match p, h1 with
  | [a, b], _ =>
    have ha : 0 < a := h2 a (by simp)
    have hb : 0 < b := h2 b (by simp)
    have hs : a + b = 1 := by simpa using h3
    exact ⟨a, ha, by linarith, by rw [← hs]; simp⟩

/-- The hypotheses of C64 are met: two calls of `solve` of `mpopt_h_adaptive` with a perfect NLP solver; whatever the
widths become, the straight line bounds the cost of the result. -/
theorem exampleHExact : ∃ (M : Mesh ℝ) (nlpsol : Nat → Nat → SolverCall ℝ (List ℝ) → Py (PyDict (List ℝ))),
    MeshFor outsideRH.toOutside "LGR" 2 (.list [2, 2]) M ∧
      (∀ n k c sol, nlpsol n k c = .ok sol → ∃ z, Returned outsideRH sol z ∧ c.IsOptimal z) ∧
      ∃ s' sol out, hoptR.run outsideRH nlpsol callsR 0 none = (s', some sol) ∧
        s'.processResults outsideRH sol [[0]] false false true = .ok out ∧
        (∃ sw, s'.widths = some sw ∧ ValidWidths 2 1 sw) ∧
      ∃ T W J, SolvesOCP ocpR M T ∧ out.1.Shows ocpR M T ∧ PhysCost ocpR M W T J ∧ J ≤ 1 / 16 := by
  classical
  obtain ⟨hv, hs, hsc⟩ := ocpR_ready
  obtain ⟨M, hM', ho⟩ := exists_lgr_mesh [2, 2] (by simp) (by simp)
  have hM : MeshFor outsideRH.toOutside "LGR" 2 (.list [2, 2]) M :=
    ⟨hM'.good, hM'.orders, hM'.tau0, hM'.tau1, hM'.nodes⟩
  have one : ∀ {P : Nat → Prop}, P 0 → ∀ ph < ocpR.nPhases, P ph := by
    intro P h ph hp
    obtain rfl : ph = 0 := by simpa [ocpR] using hp
    exact h
  have hj : ∀ p ∈ M.orders, IsJacobiRoots 1 0 (p - 1) (outsideRH.lib.jroots (p - 1) 1 0) :=
    fun p _ => libR_jacobi 1 0 (p - 1)
  have hord : ∀ p ∈ M.orders, 2 ≤ p := by rw [ho]; simp
  have hlt : outsideRH.tau0 < outsideRH.tau1 := by norm_num [outsideRH]
  obtain ⟨d, honM, h1, h2, hWeq, hc⟩ := hoptR_fresh.ready.coherent hM
  obtain ⟨hI, hW⟩ := C57_lgr_integrates hM hlt hord hj hWeq
  -- the straight line on every mesh
  choose L hL hLw using fun a : ℝ => exists_samples_of ocpR M lineR fun s _ => if s = 0 then a else 1 - a
  have hfull : ∀ {a : ℝ}, 0 < a → a < 1 → FullWidths M (L a) 0 := by
    intro a a0 a1
    refine ⟨fun s _ => ?_, ?_⟩
    · rw [hLw]; dsimp only; split <;> linarith
    · rw [hLw, ho]; simp [Finset.sum_range_succ]
  have hpack : ∀ a, ocpR.packWidths 2 (L a) = [a, 1 - a] := by
    intro a
    simp [OCP.packWidths, hLw, ocpR, List.range_succ]
  have hLs : ∀ {a : ℝ}, 0 < a → a < 1 → SolvesOCP ocpR M (L a) := fun {a} a0 a1 =>
    C56_exact_feasible hM.good hI lineR_solves hs.linkRange (hL a) (one (hfull a0 a1))
      (one (P := fun ph => ∀ j < ocpR.nx, PiecewisePoly M.orders.length M.order (lineR.breakTime (L a).w ph)
        (lineR.x ph j)) (lineR_poly ho (L a)).1)
      (one (P := fun ph => ocpR.midu.getD ph false = true → _) (fun h => by simp [ocpR] at h))
      (one (P := fun ph => ocpR.duContinuity.getD ph false = false) rfl)
      (one (P := fun ph => ocpR.diffU.getD ph false = false) rfl)
  have hLc : ∀ {a : ℝ}, 0 < a → a < 1 → PhysCost ocpR M d.compW (L a) (1 / 16) := by
    intro a a0 a1
    have := C57_cost hM.good hI hW hv.runningCosts (hL a) (one (hfull a0 a1))
      (fun ph hp => (lineR_solves.phase ph hp).order)
      (one (P := fun ph => LeftPiecewisePoly M.orders.length (fun s => 2 * M.order s - 2)
        (lineR.breakTime (L a).w ph) fun t => ocpR.runningCosts.getD ph (fun _ => 0) (ocpR.cArg lineR ph t))
        (lineR_poly ho (L a)).2)
    rwa [lineR_cost] at this
  let nlpsol : Nat → Nat → SolverCall ℝ (List ℝ) → Py (PyDict (List ℝ)) := fun _ _ c =>
    if c.IsOptimal (ocpR.packVec M.N (L (c.p.headD 0))) then .ok [("x", ocpR.packVec M.N (L (c.p.headD 0)))]
    else .error .assertion
  have hopt : ∀ n k c sol, nlpsol n k c = .ok sol → ∃ z, Returned outsideRH sol z ∧ c.IsOptimal z := by
    intro n k c sol h
    simp only [nlpsol] at h
    split at h
    · cases h; exact ⟨_, ⟨_, rfl, rfl⟩, ‹_›⟩
    · cases h
  have hans : ∀ {c}, Asked outsideRH hoptR c → ∃ a, 0 < a ∧ a < 1 ∧ c.p = [a, 1 - a] ∧
      ∀ i k, nlpsol i k c = .ok [("x", ocpR.packVec M.N (L a))] := by
    intro c h
    obtain ⟨d', k1, k2, k3, k4⟩ := h
    obtain rfl : d = d' := Except.ok.inj (hc.disc.symm.trans k1)
    obtain ⟨a, a0, a1, ha⟩ := validHR k4
    refine ⟨a, a0, a1, ha, fun i k => ?_⟩
    have hseg : d.widthParams.length = 2 := by
      unfold Disc.widthParams; rw [h1, h2]; rfl
    obtain ⟨hsol, hobj⟩ := call_trajectories (req := some c.p) honM (by rw [h1]; exact hv) (by rw [h1]; exact hs)
      (by rw [h1]; exact hsc) k2 k3 (by rw [ha, hseg]; rfl) rfl
    rw [h1, h2] at hsol hobj
    have hwL : WidthsAre ocpR 2 (some c.p) (L a) := by
      show ocpR.packWidths 2 (L a) = c.p
      rw [hpack, ha]
    simp only [nlpsol, ha, List.headD_cons]
    refine if_pos ⟨(hsol _).2 ⟨L a, hLs a0 a1, hwL, rfl⟩, fun z hz => ?_⟩
    obtain ⟨T, hT, hwT, rfl⟩ := (hsol z).1 hz
    rw [hobj _ _ hwL (hLc a0 a1)]
    obtain ⟨v, hv'⟩ := exists_samples ocpR M T
    have hJ : PhysCost ocpR M d.compW T _ := ⟨v, hv', rfl⟩
    rw [hobj _ _ hwT hJ]
    have hwT : ocpR.packWidths 2 T = c.p := hwT
    rw [ha] at hwT
    have hw2 : T.w 0 0 = a ∧ T.w 1 0 = 1 - a := by
      simpa [OCP.packWidths, ocpR, List.range_succ] using hwT
    refine costR_ge' hM.good ho hM.tau0 hM.tau1 hW hT.1.bounds hT.1.dynamics hT.1.terminal ⟨fun s hs => ?_, ?_⟩ hJ
    · have hs : s < 2 := by simpa [ho] using hs
      interval_cases s
      · rw [hw2.1]; exact a0
      · rw [hw2.2]; linarith
    · rw [ho]; simp [Finset.sum_range_succ, hw2]
  have hown : OwnStarts callsR := by
    intro c hc x
    simp only [callsR, List.mem_cons, List.not_mem_nil, or_false] at hc
    rcases hc with rfl | rfl <;> simp
  obtain ⟨s', sol, p, r1, r2, r3, out, r4⟩ := C62_h_returns (ptp := [[0]]) (rx := false) (rdx := true)
    (nlpsol := nlpsol) hoptR_fresh.ready hv hs hsc hM hlt (fun q hq => by
      obtain ⟨r, hr, hsp⟩ := C01_lgr_nodes outsideRH.lib outsideRH.tau0 outsideRH.tau1 hlt q
        (by have := hord q hq; omega) (fun _ => hj q hq)
      rw [hM.nodes q hq] at hr
      obtain rfl : M.nodes q = r := by injection hr
      exact hsp.sorted) rfl rfl rfl rfl (by norm_num [hoptR]) (fun _ h => nomatch h) (by
      intro ph l u hl hu
      match ph with
      | 0 => cases hl; cases hu; norm_num
      | ph + 1 => cases hl) (fun l => abs_nonneg _)
      (one (P := fun ph => entry ocpR.t00 ph 0 0 ≠ entry ocpR.tf0 ph 0 0) (by simp [ocpR, entry]))
      (calls := callsR) (by simp [callsR]) hown (by
      intro c hc
      simp only [callsR, List.mem_cons, List.not_mem_nil, or_false] at hc
      rcases hc with rfl | rfl <;> exact ⟨by simp, rfl⟩) (fun i k c hc => by
      obtain ⟨a, a0, a1, ha, hk⟩ := hans hc
      refine ⟨_, hk i k, ⟨⟨L a, ⟨⟨_, rfl, rfl⟩, ?_⟩, fun _ => one (P := fun ph => (L a).t0 ph < (L a).tf ph) ?_⟩, ?_⟩⟩
      · rw [ha, ho]; exact (hpack a).symm
      · rw [(hL a).t0 0 (by simp [ocpR]), (hL a).tf 0 (by simp [ocpR])]; simp [lineR]
      · rintro ⟨c, hc, hm, hsub⟩
        exfalso
        simp only [callsR, List.mem_cons, List.not_mem_nil, or_false] at hc
        rcases hc with rfl | rfl
        · exact absurd hsub (by decide +kernel)
        · exact absurd hm (by decide +kernel)) (by simp)
  refine ⟨M, nlpsol, hM, hopt, s', sol, out, r1, r4, ⟨p, r2, r3⟩, ?_⟩
  obtain ⟨q, r⟩ := out
  obtain ⟨T, W', J, -, g2, g3, g4, g5, g6⟩ := C64_h_beats hoptR_fresh.ready hv hs hsc hM hlt hord hj hopt
    (one (P := fun ph => ocpR.duContinuity.getD ph false = false) rfl)
    (one (P := fun ph => ocpR.diffU.getD ph false = false) rfl) hown r1 r4
  refine ⟨T, W', J, g2, g3, g5, ?_⟩
  obtain ⟨a, a0, a1, ha⟩ := validHR r3
  rw [r2, ha] at g4
  have hw2 : a = T.w 0 0 ∧ 1 - a = T.w 1 0 := by
    simpa [OCP.packWidths, ocpR, List.range_succ] using g4
  have := g6 lineR lineR_solves (one ⟨fun s hs => by
      have hs : s < 2 := by simpa [ho] using hs
      interval_cases s
      · rw [← hw2.1]; exact a0
      · rw [← hw2.2]; linarith, by rw [ho]; simp [Finset.sum_range_succ, ← hw2.1, ← hw2.2]⟩)
    (one (P := fun ph => ∀ j < ocpR.nx, PiecewisePoly M.orders.length M.order (lineR.breakTime T.w ph)
        (lineR.x ph j)) (lineR_poly ho T).1)
    (one (P := fun ph => ocpR.midu.getD ph false = true → _) (fun h => by simp [ocpR] at h))
    (one (P := fun ph => LeftPiecewisePoly M.orders.length (fun s => 2 * M.order s - 2) (lineR.breakTime T.w ph)
      fun t => ocpR.runningCosts.getD ph (fun _ => 0) (ocpR.cArg lineR ph t)) (lineR_poly ho T).2)
  rwa [lineR_cost] at this

end MPOpt
