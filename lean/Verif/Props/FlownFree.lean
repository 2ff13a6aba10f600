import Verif.Spec.FlownFree
import Verif.Props.Best
import Verif.Props.ToleranceFree
import Verif.Props.ResponseEnd

/-! # C87: what solver tolerances mean for the real system, for the classes with varying segment widths -/

set_option autoImplicit false

namespace MPOpt
open Polynomial
variable {ocp : OCP ℝ} {M : Mesh ℝ} {T : Traj ℝ} {K : Sizes} {ph : Nat} {εb ε θ : ℝ}

/-! ### Plans whose widths do not quite add up to 1 -/

theorem filled_halfWidth (hS : (∑ s ∈ Finset.range M.orders.length, T.w s ph) ≠ 0) (s : Nat) :
    M.halfWidth (T.filled M.orders.length) ph s = M.halfWidth T ph s := by
  unfold Mesh.halfWidth Traj.filled
  simp only [add_sub_cancel_left]
  field_simp

theorem filled_time (hS : (∑ s ∈ Finset.range M.orders.length, T.w s ph) ≠ 0) (s : Nat) (tau : ℝ) :
    M.time (T.filled M.orders.length) ph s tau = M.time T ph s tau := by
  unfold Mesh.time
  rw [filled_halfWidth hS]
  unfold Traj.filled
  simp only [add_sub_cancel_left, ← Finset.sum_div]
  field_simp

/-- Widths above their lower bound, but for the tolerance, are positive. -/
theorem SolvesAdaptiveTo.width_pos {lbh ubh tol : List ℝ} {mid : Bool} (h : SolvesAdaptiveTo εb ε ocp M T lbh ubh tol mid)
    (hlb : ∀ ph < ocp.nPhases, εb < lbh.getD ph 0) (hp : ph < ocp.nPhases) {s : Nat} (hs : s < M.orders.length) :
    0 < T.w s ph := by
  linarith [h.lower ph hp s hs, hlb ph hp]

theorem width_sum_pos (hM : M.Good) (h : ∀ s < M.orders.length, 0 < T.w s ph) :
    0 < ∑ s ∈ Finset.range M.orders.length, T.w s ph :=
  Finset.sum_pos (fun s hs => h s (Finset.mem_range.1 hs)) ⟨0, Finset.mem_range.2 (List.length_pos_iff.2 hM.nonempty)⟩

/-- **C87** With the end of a phase at the end of its last segment, the segments fill the phase. -/
theorem C87_filled_widths (hM : M.Good) (h : ∀ s < M.orders.length, 0 < T.w s ph) :
    FullWidths M (T.filled M.orders.length) ph := by
  have hS := width_sum_pos hM h
  refine ⟨fun s hs => div_pos (h s hs) hS, ?_⟩
  show ∑ s ∈ Finset.range M.orders.length, T.w s ph / _ = 1
  rw [← Finset.sum_div, div_self hS.ne']

/-- **C87** Such a plan meets what the original one did, but for `θ` more. -/
theorem C87_filled (hv : ValidOCP ocp) (hsc : ocp.PosScales) (hM : M.Good) {lbh ubh tol : List ℝ} {mid : Bool}
    (h : SolvesAdaptiveTo εb ε ocp M T lbh ubh tol mid) (hlb : ∀ ph < ocp.nPhases, εb < lbh.getD ph 0)
    (hs : ∀ l ∈ ocp.phaseLinks, l.1 < ocp.nPhases ∧ l.2 < ocp.nPhases)
    (hθ : EndsNear ocp M T θ) : MeetsTo (εb + θ) (ε + θ) ocp M (T.filled M.orders.length) := by
  have px : ∀ j < ocp.nx, 0 < ocp.scaleX.getD j 0 := fun j hj => getD_mem_ne hv.scaleX hsc.x hj
  have pu : ∀ j < ocp.nu, 0 < ocp.scaleU.getD j 0 := fun j hj => getD_mem_ne hv.scaleU hsc.u hj
  have pa : ∀ j < ocp.na, 0 < ocp.scaleA.getD j 0 := fun j hj => getD_mem_ne hv.scaleA hsc.a hj
  have hS : ∀ ph < ocp.nPhases, (∑ s ∈ Finset.range M.orders.length, T.w s ph) ≠ 0 := fun ph hp =>
    (width_sum_pos hM fun s hs => h.width_pos hlb hp hs).ne'
  have hθ0 : 0 ≤ θ := (abs_nonneg _).trans (hθ.tf 0 hv.phases)
  have hb : εb ≤ εb + θ := by linarith
  have he : ε ≤ ε + θ := by linarith
  have pt := hsc.t
  constructor
  case bounds =>
    intro ph hp
    obtain ⟨b1, b2, b3, b4, b5, b6⟩ := h.bounds ph hp
    refine ⟨fun e j hj => (b1 e j hj).trans (div_le_div_of_nonneg_right hb (px j hj).le),
      fun i hi hn j hj => (b2 i hi hn j hj).mono (div_le_div_of_nonneg_right hb (px j hj).le),
      fun i hi j hj => (b3 i hi j hj).mono (div_le_div_of_nonneg_right hb (pu j hj).le),
      b4.mono (div_le_div_of_nonneg_right hb pt.le), ?_,
      fun k hk => (b6 k hk).mono (div_le_div_of_nonneg_right hb (pa k hk).le)⟩
    rw [add_comm]
    exact b5.shift pt (hθ.tf ph hp)
  case dynamics =>
    intro ph hp F hF j hj s i ho
    rw [filled_halfWidth (hS ph hp), filled_time (hS ph hp)]
    exact (h.dynamics ph hp F hF j hj s i ho).trans (div_le_div_of_nonneg_right he (px j hj).le)
  case path =>
    intro ph hp F hF s i ho c hc
    rw [filled_time (hS ph hp)]
    exact (h.path ph hp F hF s i ho c hc).trans he
  case terminal =>
    intro ph hp F hF c hc
    have h1 := abs_le.1 (h.terminal ph hp F hF c hc)
    have h2 := abs_le.1 (hθ.terminal ph hp F hF c hc)
    rw [abs_le]
    constructor <;> linarith [h1.1, h1.2, h2.1, h2.2]
  case links =>
    intro h2
    obtain ⟨l1, l2, l3⟩ := h.links h2
    refine ⟨fun k p q e j hj => (l1 k p q e j hj).mono (div_le_div_of_nonneg_right he (px j hj).le),
      fun k p q e j hj => (l2 k p q e j hj).trans (div_le_div_of_nonneg_right he (pu j hj).le), fun k p q e => ?_⟩
    have h3 := l3 k p q e
    have h4 := hθ.tf p (hs _ (List.mem_of_getElem? e)).1
    rw [abs_mul, abs_of_pos pt, mul_comm, ← le_div_iff₀ pt] at h4
    rw [add_div]
    obtain ⟨i1, i2⟩ := abs_le.1 h3
    obtain ⟨i3, i4⟩ := abs_le.1 h4
    show |T.t0 q - (T.filled M.orders.length).tf p| ≤ _
    rw [abs_le]
    constructor <;> linarith

/-- Costs of the two plans. -/
theorem filled_cost (hM : M.Good) (h : ∀ ph < ocp.nPhases, ∀ s < M.orders.length, 0 < T.w s ph) (hθ : EndsNear ocp M T θ)
    (hl : ocp.terminalCosts.length = ocp.nPhases) {W : List ℝ} {J : ℝ} (hJ : PhysCost ocp M W T J) :
    ∃ J', PhysCost ocp M W (T.filled M.orders.length) J' ∧ |J - J'| ≤ ocp.nPhases * θ := by
  obtain ⟨v, hv, rfl⟩ := hJ
  refine ⟨_, ⟨v, fun ph hp rc hrc s i ho => ?_, rfl⟩, ?_⟩
  · have hS := (width_sum_pos hM (h ph hp)).ne'
    rw [filled_halfWidth hS, filled_time hS]
    exact hv ph hp rc hrc s i ho
  · rw [← Finset.sum_sub_distrib]
    refine (Finset.abs_sum_le_sum_abs _ _).trans ((Finset.sum_le_sum (g := fun _ => θ) fun ph hp => ?_).trans (by simp))
    have hp := Finset.mem_range.1 hp
    rw [add_sub_add_right_eq_sub, abs_sub_comm]
    unfold TerminalCost
    rw [List.getD_eq_getElem _ _ (by rw [hl]; exact hp)]
    exact hθ.cost ph hp _ (List.getElem?_eq_getElem _)

/-- **C87** `θ` is as small as the tolerance: the tolerance times the length of the longest phase, times the scale of time or the
Lipschitz constant of terminal constraints and costs. -/
theorem C87_ends_near {lbh ubh tol : List ℝ} {mid : Bool} (hsc : ocp.PosScales) (h : SolvesAdaptiveTo εb ε ocp M T lbh ubh tol mid)
    {L B : ℝ} (hL0 : 0 ≤ L) (hL : TerminalLipschitz ocp L) (hB : ∀ ph < ocp.nPhases, |T.tf ph - T.t0 ph| ≤ B) :
    EndsNear ocp M T (max ocp.scaleT L * (ε * B)) := by
  have hd : ∀ ph < ocp.nPhases, |(T.filled M.orders.length).tf ph - T.tf ph| ≤ ε * B := by
    intro ph hp
    have e : (T.filled M.orders.length).tf ph - T.tf ph =
        ((∑ s ∈ Finset.range M.orders.length, T.w s ph) - 1) * (T.tf ph - T.t0 ph) := by
      unfold Traj.filled; ring
    rw [e, abs_mul]
    exact mul_le_mul (h.sum ph hp) (hB ph hp) (abs_nonneg _) ((abs_nonneg _).trans (h.sum ph hp))
  have hLd : ∀ ph < ocp.nPhases, L * |(T.filled M.orders.length).tf ph - T.tf ph| ≤ max ocp.scaleT L * (ε * B) := fun ph hp =>
    mul_le_mul (le_max_right _ _) (hd ph hp) (abs_nonneg _) (hL0.trans (le_max_right _ _))
  refine ⟨fun ph hp => ?_, fun ph hp F hF c hc => ?_, fun ph hp g hg => ?_⟩
  · rw [abs_mul, abs_of_pos hsc.t]
    exact mul_le_mul (le_max_left _ _) (hd ph hp) (abs_nonneg _) (hL0.trans (le_max_right _ _))
  · exact (hL.terminal ph hp F hF c hc (ocp.tArg T ph M.N) _ _).trans (hLd ph hp)
  · exact (hL.cost ph hp g hg (ocp.tArg T ph M.N) _ _).trans (hLd ph hp)

section
variable {lo hi : Nat → Nat → ℝ} {U : Nat → List ℝ → Prop} {a b : ℝ} {P : List Nat}

/-- **C87** A plan with free widths that solves the collocated problem up to tolerances can be flown to the end of its last segments. With
LGR nodes of order at least 2 the cost claimed is the true one, but for the change within a segment and `θ`. -/
theorem C87_flown (lib : NodeLib ℝ) (m : Method) (hv : ValidOCP ocp) (hs : ocp.SettingsOK) (hsc : ocp.PosScales)
    (hm : MeshOf a b (tausFn lib a b "LGR") P M) (hord : ∀ p ∈ P, 2 ≤ p)
    (hj : ∀ p ∈ P, IsJacobiRoots 1 0 (p - 1) (lib.jroots (p - 1) 1 0)) {lbh ubh tol : List ℝ} {mid : Bool}
    (h : SolvesAdaptiveTo εb ε ocp M T lbh ubh tol mid) (hlb : ∀ ph < ocp.nPhases, εb < lbh.getD ph 0) (hθ : EndsNear ocp M T θ)
    (hε : K.Allows ocp M T (ε + θ))
    (hK : ∀ ph < ocp.nPhases, Sized ocp M (T.filled M.orders.length) ph (lo ph) (hi ph) (U ph) K)
    {W : List ℝ} (hW : compQuadWeights ⟨m, a, b, tausFn lib a b "LGR"⟩ M.orders = .ok W) {J : ℝ} (hJ : PhysCost ocp M W T J) :
    ∃ C, Flies ocp M (T.filled M.orders.length) C ∧ NearlySolvesTo ocp C (K.slack (εb + θ) (ε + θ)) ∧
      |J - ocp.trueCost C| ≤ ocp.nPhases * (θ + (K.Px * K.drift + K.change * K.dur)) := by
  have hpos : ∀ ph < ocp.nPhases, ∀ s < M.orders.length, 0 < T.w s ph := fun ph hp s hs => h.width_pos hlb hp hs
  obtain ⟨J', hJ', hd⟩ := filled_cost hm.good hpos hθ hv.terminalCosts hJ
  obtain ⟨C, c1, c2, c3⟩ := (C87_filled hv hsc hm.good h hlb hs.linkRange hθ).lgr lib m hv hs hsc hm hord hj
    (fun ph hp s hs => by rw [filled_halfWidth (width_sum_pos hm.good (hpos ph hp)).ne']; exact hε ph hp s hs)
    (fun ph hp => C87_filled_widths hm.good (hpos ph hp)) hK hW hJ'
  refine ⟨C, c1, c2, ?_⟩
  rw [mul_add]
  calc |J - ocp.trueCost C| = |(J - J') + (J' - ocp.trueCost C)| := by congr 1; ring
    _ ≤ _ := (abs_add_le _ _).trans (add_le_add hd c3)

/-- **C87** With everything small enough, such a plan can be flown so that every constraint holds but for as little as wanted, at the cost
claimed but for as little as wanted. -/
theorem C87_fine_plan (lib : NodeLib ℝ) (m : Method) (hv : ValidOCP ocp) (hs : ocp.SettingsOK) (hsc : ocp.PosScales)
    (hord : ∀ p ∈ P, 2 ≤ p) (hj : ∀ p ∈ P, IsJacobiRoots 1 0 (p - 1) (lib.jroots (p - 1) 1 0)) (K : Sizes) {η : ℝ} (hη : 0 < η) :
    ∃ δ, 0 < δ ∧ ∀ (M : Mesh ℝ) (T : Traj ℝ) (W : List ℝ) (J H e κ εb ε θ : ℝ) (lo hi : Nat → Nat → ℝ) (U : Nat → List ℝ → Prop)
      (lbh ubh tol : List ℝ) (mid : Bool), MeshOf a b (tausFn lib a b "LGR") P M → SolvesAdaptiveTo εb ε ocp M T lbh ubh tol mid →
      (∀ ph < ocp.nPhases, εb < lbh.getD ph 0) → EndsNear ocp M T θ →
      Sizes.Allows { K with H := H, e := e, tol := κ } ocp M T (ε + θ) →
      (∀ ph < ocp.nPhases,
        Sized ocp M (T.filled M.orders.length) ph (lo ph) (hi ph) (U ph) { K with H := H, e := e, tol := κ }) →
      compQuadWeights ⟨m, a, b, tausFn lib a b "LGR"⟩ M.orders = .ok W → PhysCost ocp M W T J →
      H ≤ δ → e ≤ δ → κ ≤ δ → θ ≤ δ → εb + θ ≤ δ → ε + θ ≤ δ →
      ∃ C, Flies ocp M (T.filled M.orders.length) C ∧ NearlySolvesTo ocp C (Slack.all η) ∧ |J - ocp.trueCost C| ≤ η := by
  obtain ⟨δ, h0, h⟩ := MeetsTo.fine_plan (a := a) (b := b) lib m hv hs hsc hord hj K (half_pos hη)
  have hn : (0 : ℝ) < ocp.nPhases + 1 := by positivity
  refine ⟨min δ (η / 2 / (ocp.nPhases + 1)), by positivity, fun M T W J H e κ εb ε θ lo hi U lbh ubh tol mid hm hT hlb hθ hε hK hW hJ
    hH he hκ ht hb hr => ?_⟩
  have hpos : ∀ ph < ocp.nPhases, ∀ s < M.orders.length, 0 < T.w s ph := fun ph hp s hs => hT.width_pos hlb hp hs
  obtain ⟨J', hJ', hd⟩ := filled_cost hm.good hpos hθ hv.terminalCosts hJ
  obtain ⟨C, c1, c2, c3⟩ := h M _ W J' H e κ _ _ lo hi U hm (C87_filled hv hsc hm.good hT hlb hs.linkRange hθ)
    (fun ph hp => C87_filled_widths hm.good (hpos ph hp))
    (fun ph hp s hs => by rw [filled_halfWidth (width_sum_pos hm.good (hpos ph hp)).ne']; exact hε ph hp s hs) hK hW hJ'
    (hH.trans (min_le_left _ _)) (he.trans (min_le_left _ _)) (hκ.trans (min_le_left _ _)) (hb.trans (min_le_left _ _))
    (hr.trans (min_le_left _ _))
  refine ⟨C, c1, c2.mono hv hsc ?_ ?_ ?_ ?_ ?_ ?_ ?_, ?_⟩
  iterate 7 exact half_le_self hη.le
  have h2 : ocp.nPhases * θ ≤ η / 2 := by
    have := ht.trans (min_le_right _ _)
    rw [le_div_iff₀ hn] at this
    have : 0 ≤ θ := (abs_nonneg _).trans (hθ.tf 0 hv.phases)
    linarith
  calc |J - ocp.trueCost C| = |(J - J') + (J' - ocp.trueCost C)| := by congr 1; ring
    _ ≤ η / 2 + η / 2 := (abs_add_le _ _).trans (add_le_add (hd.trans h2) c3)
    _ = η := add_halves η

end

/-! ### `mpopt_h_adaptive` -/

section h
variable {V : Type} {w : HOutside ℝ V} {nlpsol : Nat → Nat → SolverCall ℝ V → Py (PyDict V)} {ptp : List (List Nat)} {n : Nat}
  {arg : OrdersArg} {lbh ubh tol : List ℝ} {rx rdx : Bool} {s : HOpt ℝ V}

/-- **C87** `mpopt_h_adaptive` with LGR nodes of order at least 2 and a solver that only promises points within tolerances: what is shown
after any calls of `solve` are the node values of a plan with the stored widths; if these are valid (C62) and the sizes of the plan are
known, it can be flown. The tolerance of the rows must be covered by the shortest segment. -/
theorem C87_h_flown (hf : s.Ready w ocp n arg "LGR" lbh ubh tol) (hv : ValidOCP ocp) (hs : ocp.SettingsOK)
    (hsc : ocp.PosScales) (hM : MeshFor w.toOutside "LGR" n arg M) (hlt : w.tau0 < w.tau1) (hord : ∀ q ∈ M.orders, 2 ≤ q)
    (hj : ∀ q ∈ M.orders, IsJacobiRoots 1 0 (q - 1) (w.lib.jroots (q - 1) 1 0))
    (hnear : ∀ n k c sol, nlpsol n k c = .ok sol → ∃ z, Returned w sol z ∧ c.NearSolution εb ε z)
    {calls : List (HStart V × HArgs V)} (ho : OwnStarts calls) {s' : HOpt ℝ V} {sol : PyDict V}
    (hrun : s.run w nlpsol calls 0 none = (s', some sol)) {sw : List ℝ} (hsw : s'.widths = some sw)
    (hval : ValidWidths n ocp.nPhases sw)
    {p : Post ℝ} {r : Option (PyDict (ResidVal ℝ))} (hp : s'.processResults w sol ptp false rx rdx = .ok (p, r)) :
    ∃ T, SolvesTo εb ε ocp M T ∧ p.Shows ocp M T ∧ sw = ocp.packWidths n T ∧
      ∀ (W : List ℝ) (J : ℝ) (lo hi : Nat → Nat → ℝ) (U : Nat → List ℝ → Prop) (K : Sizes),
      compQuadWeights ⟨w.method, w.tau0, w.tau1, tausFn w.lib w.tau0 w.tau1 "LGR"⟩ M.orders = .ok W → PhysCost ocp M W T J →
      K.Allows ocp M T ε → (∀ ph < ocp.nPhases, Sized ocp M T ph (lo ph) (hi ph) (U ph) K) →
      ∃ C, Flies ocp M T C ∧ NearlySolvesTo ocp C (K.slack εb ε) ∧
        |J - ocp.trueCost C| ≤ ocp.nPhases * (K.Px * K.drift + K.change * K.dur) := by
  obtain ⟨T, h1, h2, h3⟩ := C86_h_near hf hv hs hsc hM hnear ho hrun hp
  obtain ⟨d, honM, e1, e2, -, -⟩ := hf.coherent hM
  have hseg : M.orders.length = n := by rw [honM.orders, honM.segments, e2]
  rw [hsw] at h3
  have h3 := Option.some.inj h3
  refine ⟨T, h1, h2, h3, fun W J lo hi U K hW hJ hε hK => ?_⟩
  have hI := hM.lgr_inside hlt hord hj
  exact C82_lgr w.lib w.method hv hs hsc (hM.meshOf hI) hord hj h1 hε
    (fun ph hp => hval.full hseg (by rw [hseg]; exact h3) hp) hK hW hJ

/-- If the solver returns the best of the points within its tolerances but for `η`, the trajectory shown compares so with all trajectories
that solve the collocated problem up to these tolerances on the stored widths. -/
theorem h_best {scheme : String} (hf : s.Ready w ocp n arg scheme lbh ubh tol) (hv : ValidOCP ocp) (hs : ocp.SettingsOK)
    (hsc : ocp.PosScales) (hM : MeshFor w.toOutside scheme n arg M) {η : ℝ}
    (hopt : ∀ n k c sol, nlpsol n k c = .ok sol → ∃ z, Returned w sol z ∧ c.BestNear εb ε η z)
    {calls : List (HStart V × HArgs V)} (ho : OwnStarts calls) {s' : HOpt ℝ V} {sol : PyDict V}
    (hrun : s.run w nlpsol calls 0 none = (s', some sol))
    {p : Post ℝ} {r : Option (PyDict (ResidVal ℝ))} (hp : s'.processResults w sol ptp false rx rdx = .ok (p, r)) :
    ∃ T W J, compQuadWeights ⟨w.method, w.tau0, w.tau1, tausFn w.lib w.tau0 w.tau1 scheme⟩ M.orders = .ok W ∧
      SolvesTo εb ε ocp M T ∧ p.Shows ocp M T ∧ s'.widths = some (ocp.packWidths n T) ∧ PhysCost ocp M W T J ∧
      ∀ T' J', SolvesTo εb ε ocp M T' → s'.widths = some (ocp.packWidths n T') → PhysCost ocp M W T' J' → J ≤ J' + η := by
  obtain ⟨d, honM, rfl, rfl, hW, hc⟩ := hf.coherent hM
  obtain ⟨k1, -, k3⟩ := hc.run (nlpsol := nlpsol) ho (n := 0) (last := none) (fun _ h => by cases h)
  rw [hrun] at k1 k3
  obtain ⟨c, ⟨i, k, hk⟩, c2, c3, c4⟩ := k3 sol rfl
  obtain ⟨sw, v, z, q1, q2, q3, q4, q5, q6, q7⟩ := k1.processResults hp
  obtain ⟨z', hz', hsol⟩ := hopt i k c sol hk
  have : z' = z := hz'.unique ⟨v, q2, q3⟩
  subst this
  have hsw : sw = c.p := by
    have c4 : s'.widths = some c.p := c4
    rw [q1] at c4; exact Option.some.inj c4
  subst hsw
  subst q4 q6
  obtain ⟨hcl, t1, t2, t3⟩ := shown_of_near (a := ({ initial := none, reinitialize := false, widths := some c.p, plugin := "", options := [] } : SolveArgs ℝ V)) hv hs hsc honM
    rfl rfl q5 rfl q7 c2 c3 rfl hsol.sol
  have hcost := (call_spec honM hv hs hsc c2 c3 p.solved.z hcl).2
  refine ⟨_, _, c.solver.problem.f (c.point p.solved.z), hW, t1, t3, by rw [q1]; exact congrArg some t2.symm, ?_,
    fun T' J' hS' hw' hJ' => ?_⟩
  · unfold Solved.traj; rw [q5]; exact hcost
  · have k1 := call_near_trajectories honM hv hs hsc c2 c3 hcl (req := some c.p) rfl εb ε
    obtain ⟨-, k2⟩ := call_trajectories honM hv hs hsc c2 c3 hcl (req := some c.p) rfl
    have hw'' : WidthsAre p.solved.disc.ocp p.solved.disc.nSegments (some c.p) T' := by
      rw [q1] at hw'
      exact (Option.some.inj hw').symm
    rw [← k2 T' J' hw'' hJ']
    exact hsol.best _ ((k1 _).2 ⟨T', hS', hw'', rfl⟩)

/-- **C87** If the solver returns the best of the points within its tolerances but for `η`, the flown plan of `mpopt_h_adaptive` costs no
more than any solution of the continuous-time problem that changes so little within the segments of the stored mesh that the tolerances
cover it, but for `η` and the sizes of the changes within a segment. -/
theorem C87_h_best (hf : s.Ready w ocp n arg "LGR" lbh ubh tol) (hv : ValidOCP ocp) (hs : ocp.SettingsOK)
    (hsc : ocp.PosScales) (hM : MeshFor w.toOutside "LGR" n arg M) (hlt : w.tau0 < w.tau1) (hord : ∀ q ∈ M.orders, 2 ≤ q)
    (hj : ∀ q ∈ M.orders, IsJacobiRoots 1 0 (q - 1) (w.lib.jroots (q - 1) 1 0)) {η : ℝ}
    (hopt : ∀ n k c sol, nlpsol n k c = .ok sol → ∃ z, Returned w sol z ∧ c.BestNear εb ε η z) (hεb : 0 ≤ εb)
    (hdu : ∀ ph < ocp.nPhases, ocp.duContinuity.getD ph false = false)
    (hdf : ∀ ph < ocp.nPhases, ocp.diffU.getD ph false = false)
    {calls : List (HStart V × HArgs V)} (ho : OwnStarts calls) {s' : HOpt ℝ V} {sol : PyDict V}
    (hrun : s.run w nlpsol calls 0 none = (s', some sol)) {sw : List ℝ} (hsw : s'.widths = some sw)
    (hval : ValidWidths n ocp.nPhases sw)
    {p : Post ℝ} {r : Option (PyDict (ResidVal ℝ))} (hp : s'.processResults w sol ptp false rx rdx = .ok (p, r)) :
    ∃ T, SolvesTo εb ε ocp M T ∧ p.Shows ocp M T ∧ sw = ocp.packWidths n T ∧
      ∀ (lo hi : Nat → Nat → ℝ) (U : Nat → List ℝ → Prop) (K : Sizes),
      K.Allows ocp M T ε → (∀ ph < ocp.nPhases, Sized ocp M T ph (lo ph) (hi ph) (U ph) K) →
      ∃ C, Flies ocp M T C ∧ NearlySolvesTo ocp C (K.slack εb ε) ∧
      ∀ (Z : CTraj) (D A ω e H q : ℝ), SolvesContinuously ocp Z → M.DerivBound D → M.ValueBound A → 0 ≤ ω →
        (∀ ph < ocp.nPhases, RatesVary ocp Z n T.w ph ω) →
        (∀ ph < ocp.nPhases, ocp.midu.getD ph false = true → ControlsBend ocp Z n T.w ph e) →
        (∀ ph < ocp.nPhases, ∀ s < n, (Z.tf ph - Z.t0 ph) * T.w s ph ≤ H) → D * ω * H ≤ ε →
        ((∃ ph < ocp.nPhases, ocp.midu.getD ph false = true) → A * e ≤ ε) → ContinuousCosts ocp Z →
        (∀ ph < ocp.nPhases, ∀ t ∈ Set.Icc (Z.t0 ph) (Z.tf ph), ∀ t' ∈ Set.Icc (Z.t0 ph) (Z.tf ph), |t - t'| ≤ H →
          |ocp.runningCosts.getD ph (fun _ => 0) (ocp.cArg Z ph t) - ocp.runningCosts.getD ph (fun _ => 0) (ocp.cArg Z ph t')| ≤ q) →
        ocp.trueCost C ≤ ocp.trueCost Z + q * ∑ ph ∈ Finset.range ocp.nPhases, (Z.tf ph - Z.t0 ph) + η +
          ocp.nPhases * (K.Px * K.drift + K.change * K.dur) := by
  obtain ⟨T, W, J, h1, h2, h4, h3, h5, h6⟩ := h_best hf hv hs hsc hM hopt ho hrun hp
  obtain ⟨d, honM, e1, e2, -, -⟩ := hf.coherent hM
  have hseg : M.orders.length = n := by rw [honM.orders, honM.segments, e2]
  rw [hsw] at h3 h6
  have h3 := Option.some.inj h3
  have hI := hM.lgr_inside hlt hord hj
  have hfull : ∀ ph < ocp.nPhases, FullWidths M T ph := fun ph hp => hval.full hseg (by rw [hseg]; exact h3) hp
  refine ⟨T, h2, h4, h3, fun lo hi U K hε hK => ?_⟩
  obtain ⟨C, c1, c2, c3⟩ := C82_lgr w.lib w.method hv hs hsc (hM.meshOf hI) hord hj h2 hε hfull hK h1 h5
  refine ⟨C, c1, c2, fun Z D A ω e H q hZ hD hA hω0 hω he hH hε hε' hc hq => ?_⟩
  obtain ⟨T', hS, hw'⟩ := exists_samples_of ocp M Z T.w
  have hf : ∀ ph < ocp.nPhases, FullWidths M T' ph := fun ph hp => ⟨by rw [hw']; exact (hfull ph hp).pos, by rw [hw']; exact (hfull ph hp).sum⟩
  have hlast : ∀ ph < ocp.nPhases, M.Lasts T' ph H := by
    intro ph hp s hs
    rw [hw', hS.t0 ph hp, hS.tf ph hp]
    exact hH ph hp s (by omega)
  have hnear : SolvesTo 0 ε ocp M T' := C83_consistent hv hsc hM.good hI hZ hs.linkRange hS hf hD hA
    (by rw [hw', hseg]; exact hω) (by rw [hw', hseg]; exact he) hlast hω0 hε hε' hdu hdf
  obtain ⟨J', hJ'⟩ : ∃ J', PhysCost ocp M W T' J' := exists_physCost ocp M W T'
  have k1 := h6 T' J' (hnear.mono hv hsc hεb le_rfl) (by rw [h3]; unfold OCP.packWidths; rw [hw']) hJ'
  have k2 := C84_cost w.lib w.method (hM.meshOf hI) hord hj hc hS hf hlast hq h1 hJ'
  linarith [(abs_le.1 c3).1, (abs_le.1 k2).2]

end h

/-! ### `mpopt_adaptive` -/

section free
variable {V : Type} {w : Outside ℝ V} {nlpsol : SolverCall ℝ V → Py (List ℝ)} {ptp : List (List Nat)} {n : Nat}
  {arg : OrdersArg} {lbh ubh tol : List ℝ} {mid rx rdx : Bool} {s : AdaptOpt ℝ V}

/-- **C87** `mpopt_adaptive` with LGR nodes of order at least 2 and a solver that only promises points within tolerances: what is shown
after any calls of `solve` are the node values of a plan; if its sizes are known, it can be flown to the end of its last segments. -/
theorem C87_adaptive_flown (hf : s.Ready w ocp n arg "LGR" lbh ubh tol mid) (hv : ValidOCP ocp) (hs : ocp.SettingsOK)
    (hsc : ocp.PosScales) (hlb : lbh.length = ocp.nPhases) (hub : ubh.length = ocp.nPhases) (htol : tol.length = ocp.nPhases)
    (hM : MeshFor w "LGR" n arg M) (hlt : w.tau0 < w.tau1) (hord : ∀ q ∈ M.orders, 2 ≤ q)
    (hj : ∀ q ∈ M.orders, IsJacobiRoots 1 0 (q - 1) (w.lib.jroots (q - 1) 1 0))
    (hnear : ∀ c z, nlpsol c = .ok z → c.NearSolution εb ε z) (hpos : ∀ ph < ocp.nPhases, εb < lbh.getD ph 0)
    (earlier : List (SolveArgs ℝ V)) (a : SolveArgs ℝ V)
    {s' : AdaptOpt ℝ V} {z : List ℝ} (hrun : (s.run w nlpsol earlier).solve w nlpsol a = (s', .ok z))
    {p : Post ℝ} {r : Option (PyDict (ResidVal ℝ))} (hp : s'.processResults w ptp false rx rdx = .ok (p, r)) :
    ∃ T, SolvesAdaptiveTo εb ε ocp M T lbh ubh tol mid ∧ p.Shows ocp M T ∧
      ∀ (W : List ℝ) (J θ : ℝ) (lo hi : Nat → Nat → ℝ) (U : Nat → List ℝ → Prop) (K : Sizes),
      compQuadWeights ⟨w.method, w.tau0, w.tau1, tausFn w.lib w.tau0 w.tau1 "LGR"⟩ M.orders = .ok W → PhysCost ocp M W T J →
      EndsNear ocp M T θ → K.Allows ocp M T (ε + θ) →
      (∀ ph < ocp.nPhases, Sized ocp M (T.filled M.orders.length) ph (lo ph) (hi ph) (U ph) K) →
      ∃ C, Flies ocp M (T.filled M.orders.length) C ∧ NearlySolvesTo ocp C (K.slack (εb + θ) (ε + θ)) ∧
        |J - ocp.trueCost C| ≤ ocp.nPhases * (θ + (K.Px * K.drift + K.change * K.dur)) := by
  obtain ⟨T, h1, h2, -⟩ := C86_adaptive_near hf hv hs hsc hlb hub htol hM hnear earlier a hrun hp
  refine ⟨T, h1, h2, fun W J θ lo hi U K hW hJ hθ hε hK => ?_⟩
  exact C87_flown w.lib w.method hv hs hsc (hM.meshOf (hM.lgr_inside hlt hord hj)) hord hj h1 hpos hθ hε hK hW hJ

end free

end MPOpt
