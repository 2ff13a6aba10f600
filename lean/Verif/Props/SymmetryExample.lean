import Verif.Props.Symmetry
import Verif.Props.ShippedValid
import Verif.Props.LocalExample
import Verif.Props.Flown

/-! # Concrete cases for C115 -/

set_option autoImplicit false

namespace MPOpt
open Polynomial

/-- One-phase problems with straight lines as solutions, on LGR segments: a run with a solver that finds global minimisers, and a best
trajectory that it shows. -/
theorem exists_best_line {ocp : OCP ℝ} (hv : ValidOCP ocp) (hs : ocp.SettingsOK) (hsc : ocp.PosScales) (h1 : ocp.nPhases = 1)
    (ht : entry ocp.t00 0 0 0 ≠ entry ocp.tf0 0 0 0) (hc : CtsOCP ocp) (hb : FiniteBounds ocp)
    (hm : ocp.midu.getD 0 false = false) (hdc : ocp.duContinuity.getD 0 false = false) (hdf : ocp.diffU.getD 0 false = false)
    {L : CTraj} (hL : SolvesContinuously ocp L) (hlin : ∀ j, ∃ a b, L.x 0 j = fun t => a * t + b) {n p : Nat} (hn : 0 < n) (hp : 2 ≤ p) :
    ∃ (M : Mesh ℝ) (nlpsol : SolverCall ℝ Nat → Py (List ℝ)) (s : Session ℝ Nat) (q : Post ℝ) (r : Option (PyDict (ResidVal ℝ)))
      (T : Traj ℝ), MeshFor outsideR "LGR" n (.int p) M ∧ M.orders = List.replicate n p ∧ Perfect nlpsol ∧
        mpSolve outsideR nlpsol ocp [[0]] n (.int p) "LGR" argsR false true = .ok (s, q, r) ∧
        BestTraj outsideR "LGR" ocp M n argsR.widths T := by
  have one : ∀ {P : Nat → Prop}, P 0 → ∀ ph < ocp.nPhases, P ph := by
    intro P h ph hp
    obtain rfl : ph = 0 := by omega
    exact h
  obtain ⟨M, hM, ho⟩ := exists_lgr_int (n := n) (p := p) hn hp
  have hlen : M.orders.length = n := by rw [ho]; simp
  have hord : ∀ q ∈ M.orders, 2 ≤ q := by
    rw [ho]; intro q hq; rw [(List.mem_replicate.1 hq).2]; exact hp
  have hI := hM.lgr_inside (by norm_num [outsideR]) (fun q hq => by have := hord q hq; omega) fun q _ => libR_jacobi 1 0 (q - 1)
  obtain ⟨T₀, hT₀, hw₀⟩ := exists_samples_of ocp M L fun _ _ => 1 / (n : ℝ)
  have hwa : WidthsAre ocp n argsR.widths T₀ := by intro ph _ s _; rw [hw₀]
  have hgood : GoodWidths ocp n argsR.widths := by simp [GoodWidths, argsR]
  have hfull : ∀ ph < ocp.nPhases, FullWidths M T₀ ph := by
    intro ph hp
    have := hwa.fills hn hgood ph hp
    rw [← hlen] at this
    exact ⟨this.1, this.2⟩
  have hS₀ : SolvesOCP ocp M T₀ := by
    refine C56_exact_feasible hM.good hI hL hs.linkRange hT₀ hfull
      (one (P := fun ph => ∀ j < ocp.nx, PiecewisePoly M.orders.length M.order (L.breakTime T₀.w ph) (L.x ph j)) fun j _ s hs => ?_)
      (one (P := fun ph => ocp.midu.getD ph false = true → _) fun h => by rw [hm] at h; cases h)
      (one (P := fun ph => ocp.duContinuity.getD ph false = false) hdc) (one (P := fun ph => ocp.diffU.getD ph false = false) hdf)
    obtain ⟨a, b, e⟩ := hlin j
    have h2 := hord _ (hM.good.order_mem hs)
    exact ⟨C a * X + C b, natDegree_linear_le.trans (by omega), fun t _ => by rw [e]; simp⟩
  obtain ⟨nlpsol, hperf⟩ := exists_perfect (V := Nat)
  obtain ⟨s, q, r, T, W, J, hout, hW, k1, k2, -, k4, k5⟩ := C70_solve_box (V := Nat) (ocp := ocp) (w := outsideR) (a := argsR)
    (scheme := "LGR") (n := n) (arg := .int p) (M := M) (ptp := [[0]]) (rx := false) (rdx := true)
    hv hs hsc hM hlen (by norm_num [outsideR]) rfl hgood (one (P := fun ph => entry ocp.t00 ph 0 0 ≠ entry ocp.tf0 ph 0 0) ht)
    (by simp) hc hb ⟨T₀, hS₀, hwa⟩ hperf
  refine ⟨M, nlpsol, s, q, r, T, hM, ho, hperf, hout, k1, k2, fun W' J' hW' hJ' T' J'' h1 h2 h3 => ?_⟩
  rw [hW] at hW'; cases hW'
  rw [PhysCost.unique hM.good (hM.weights_length hW) hv.runningCosts hJ' k4]
  exact k5 T' J'' h1 h2 h3

/-! ### Two ways to go -/

/-- `x' = u` from 0, to distance 1 in time 1, at least `∫ u²`: up and down are equally good. -/
noncomputable def ocpFork : OCP ℝ :=
  { ocpR with
    pathConstraints := [none], terminalConstraints := [some ⟨1, fun t _ => t.xf.getD 0 0 * t.xf.getD 0 0 - 1⟩]
    lbu := [[.fin (-5)]], ubu := [[.fin 5]] }

/-- Upside down. -/
def flip : Symmetry ℝ := ⟨fun _ _ => -1, fun _ => 0, fun _ _ => -1, fun _ => 0⟩

theorem fork_ready : ValidOCP ocpFork ∧ ocpFork.SettingsOK ∧ ocpFork.PosScales := by
  obtain ⟨hv, hs, hsc⟩ := ocpR_ready
  refine ⟨?_, ⟨hs.nx, hs.diffU, hs.midu, hs.duContinuity, hs.lbdu, hs.ubdu, hs.nu, hs.links,
    hs.linkCount, hs.linkRange⟩, ⟨hsc.x, hsc.u, hsc.a, hsc.t⟩⟩
  constructor
  case ordX => exact rowOrdered_single (by simp [Ext.le])
  case ordU => exact rowOrdered_single (by simp [Ext.le])
  case ordA => exact rowOrdered_empty
  case ordT0 => exact rowOrdered_single (by simp [Ext.le])
  case ordTf => exact rowOrdered_single (by simp [Ext.le])
  case ordE => intro ph l u hl; simp [ocpFork, ocpR] at hl
  all_goals simp [ocpFork, ocpR, HasShape]

theorem fork_one {P : Nat → Prop} (h : P 0) : ∀ ph < ocpFork.nPhases, P ph := by
  intro ph hp
  obtain rfl : ph = 0 := by simpa [ocpFork, ocpR] using hp
  exact h

theorem flip_state (x : Nat → ℝ) : flip.state 1 x 0 = -x 0 := by simp [Symmetry.state, flip]
theorem flip_control (u : Nat → ℝ) : flip.control 1 u 0 = -u 0 := by simp [Symmetry.control, flip]

theorem fork_invariant : ocpFork.Invariant flip := by
  have box : ∀ v : ℝ, Within (.fin (-5)) (.fin 5) v → Within (.fin (-5)) (.fin 5) (-v) := by
    intro v h
    simp only [Within, Ext.Below, Ext.Above] at h ⊢
    constructor <;> linarith [h.1, h.2]
  refine ⟨fork_one fun F hF p hp j hj => ?_, fork_one fun F hF => ?_, fork_one fun F hF p hp h c hc => ?_, fork_one fun L hL p hp => ?_,
    fork_one fun E hE p hp => ?_, fun j hj => ?_, fork_one fun x hx j hj => ?_, fork_one fun u hu j hj => ?_, fun k hk => ?_⟩
  · have hF : (⟨1, fun p _ => p.u.getD 0 0⟩ : VFun (PArg ℝ) ℝ) = F := by simpa [ocpFork, ocpR] using hF
    rw [← hF]
    simp [Symmetry.onP, ocpFork, ocpR, flip, Symmetry.control]
  · simp [ocpFork] at hF
  · have hF : (⟨1, fun t _ => t.xf.getD 0 0 * t.xf.getD 0 0 - 1⟩ : VFun (TArg ℝ) ℝ) = F := by simpa [ocpFork] using hF
    subst hF
    have := h 0 Nat.one_pos
    simpa [Symmetry.onT, ocpFork, ocpR, flip, Symmetry.state] using this
  · have hL : (fun p : PArg ℝ => p.u.getD 0 0 * p.u.getD 0 0) = L := by simpa [ocpFork, ocpR] using hL
    rw [← hL]
    simp [Symmetry.onP, ocpFork, ocpR, flip, Symmetry.control]
  · have hE : (fun _ : TArg ℝ => (0 : ℝ)) = E := by simpa [ocpFork, ocpR] using hE
    rw [← hE]
  · obtain rfl : j = 0 := by simpa [ocpFork, ocpR] using hj
    simp [ocpFork, ocpR, entry, Symmetry.state, flip]
  · obtain rfl : j = 0 := by simpa [ocpFork, ocpR] using hj
    rw [show ocpFork.nx = 1 from rfl, flip_state]
    exact box _ (hx 0 Nat.one_pos)
  · obtain rfl : j = 0 := by simpa [ocpFork, ocpR] using hj
    rw [show ocpFork.nu = 1 from rfl, flip_control]
    exact box _ (hu 0 Nat.one_pos)
  · simp [ocpFork, ocpR] at hk

theorem fork_cts : CtsOCP ocpFork := by
  refine ⟨fun F hF j hj => ?_, fun F hF => ?_, fun F hF c hc => ?_, fun r hr => ?_, fun r hr => ?_⟩
  · obtain rfl : F = ⟨1, fun p _ => p.u.getD 0 0⟩ := by simpa [ocpFork, ocpR] using hF
    exact PCts.u 0
  · simp [ocpFork] at hF
  · obtain rfl : F = ⟨1, fun t _ => t.xf.getD 0 0 * t.xf.getD 0 0 - 1⟩ := by simpa [ocpFork] using hF
    exact ((TCts.xf 0).mul (TCts.xf 0)).sub (TCts.const 1)
  · obtain rfl : r = fun p => p.u.getD 0 0 * p.u.getD 0 0 := by simpa [ocpFork, ocpR] using hr
    exact (PCts.u 0).mul (PCts.u 0)
  · obtain rfl : r = fun _ => 0 := by simpa [ocpFork, ocpR] using hr
    exact TCts.const 0

theorem fork_finite : FiniteBounds ocpFork := by
  refine ⟨fork_one fun j hj => ?_, fork_one fun j hj => ?_, fork_one ?_, fork_one ?_, fork_one fun k hk => ?_⟩
  · obtain rfl : j = 0 := by simpa [ocpFork, ocpR] using hj
    exact ⟨⟨_, rfl⟩, ⟨_, rfl⟩⟩
  · obtain rfl : j = 0 := by simpa [ocpFork, ocpR] using hj
    exact ⟨⟨_, rfl⟩, ⟨_, rfl⟩⟩
  · exact ⟨⟨_, rfl⟩, ⟨_, rfl⟩⟩
  · exact ⟨⟨_, rfl⟩, ⟨_, rfl⟩⟩
  · simp [ocpFork, ocpR] at hk

/-- Straight up, for as many states as there are. -/
noncomputable def upR : CTraj := ⟨fun _ _ t => t, fun _ _ _ => 1, fun _ => 0, fun _ => 1, fun _ _ => 0⟩

theorem up_fork : SolvesContinuously ocpFork upR := by
  refine ⟨fork_one ?_, by simp [ocpFork, ocpR], by simp [ocpFork, ocpR], by simp [ocpFork, ocpR]⟩
  have hd : ∀ t : ℝ, HasDerivAt (fun t : ℝ => t) 1 t := fun t => hasDerivAt_id t
  refine ⟨by simp [upR], ⟨?_, ?_, fun j _ t _ => (hd t).continuousAt.continuousWithinAt⟩, ?_, ?_, ?_, ?_, ?_, ?_, ?_, ?_⟩
  · intro F hF j hj t _ _
    have hF : (⟨1, fun p _ => p.u.getD 0 0⟩ : VFun (PArg ℝ) ℝ) = F := by simpa [ocpFork, ocpR] using hF
    rw [← hF]
    simpa [upR, OCP.cArg, ocpFork, ocpR] using (hd t).hasDerivWithinAt
  · intro F hF j hj
    have hF : (⟨1, fun p _ => p.u.getD 0 0⟩ : VFun (PArg ℝ) ℝ) = F := by simpa [ocpFork, ocpR] using hF
    rw [← hF]
    simpa [upR, OCP.cArg, ocpFork, ocpR] using (hd 0).hasDerivWithinAt
  · intro F hF; simp [ocpFork] at hF
  · intro F hF c hc
    have hF : (⟨1, fun t _ => t.xf.getD 0 0 * t.xf.getD 0 0 - 1⟩ : VFun (TArg ℝ) ℝ) = F := by simpa [ocpFork] using hF
    rw [← hF]
    simp [upR, OCP.cEnd, ocpFork, ocpR]
  · intro _ j hj
    obtain rfl : j = 0 := by simpa [ocpFork, ocpR] using hj
    simp [upR, ocpFork, ocpR, entry]
  · intro t ht _ j hj
    obtain rfl : j = 0 := by simpa [ocpFork, ocpR] using hj
    obtain ⟨h0, h1⟩ := ht
    have h0 : 0 ≤ t := h0
    have h1 : t ≤ 1 := h1
    simp [upR, ocpFork, ocpR, entry, Within, Ext.Below, Ext.Above]
    constructor <;> linarith
  · intro t ht j hj
    obtain rfl : j = 0 := by simpa [ocpFork, ocpR] using hj
    simp [upR, ocpFork, entry, Within, Ext.Below, Ext.Above]
    norm_num
  · simp [upR, ocpFork, ocpR, entry, Within, Ext.Below, Ext.Above]
  · simp [upR, ocpFork, ocpR, entry, Within, Ext.Below, Ext.Above]
  · intro k hk; simp [ocpFork, ocpR] at hk

/-- Both ends are shown, each with a solver that only returns global minimisers. -/
theorem exampleFork {n p : Nat} (hn : 0 < n) (hp : 2 ≤ p) : ∃ M, MeshFor outsideR "LGR" n (.int p) M ∧
    ∀ e : ℝ, e * e = 1 → ∃ (nlpsol : SolverCall ℝ Nat → Py (List ℝ)) (s : Session ℝ Nat) (q : Post ℝ)
      (r : Option (PyDict (ResidVal ℝ))) (T : Traj ℝ), (∀ c z, nlpsol c = .ok z → c.IsOptimal z) ∧
        mpSolve outsideR nlpsol ocpFork [[0]] n (.int p) "LGR" argsR false true = .ok (s, q, r) ∧ q.Shows ocpFork M T ∧
        T.x 0 (M.N - 1) 0 = e := by
  obtain ⟨hv, hs, hsc⟩ := fork_ready
  obtain ⟨M, -, -, -, -, T, hM, ho, -, -, hT⟩ := exists_best_line hv hs hsc rfl (by simp [ocpFork, ocpR, entry]) fork_cts fork_finite
    rfl rfl rfl up_fork (fun j => ⟨1, 0, by simp [upR]⟩) hn hp
  have hend : T.x 0 (M.N - 1) 0 * T.x 0 (M.N - 1) 0 = 1 := by
    have := hT.solves.1.terminal 0 Nat.one_pos _ rfl 0 Nat.one_pos
    simp [OCP.tArg, ocpFork, ocpR] at this
    linarith
  have key := C115_solve (a := argsR) (ptp := [[0]]) (rx := false) (rdx := true) fork_invariant (fork_one rfl) hv hs hsc hM
    (by rw [ho]; simp) (by norm_num [outsideR]) rfl (by simp [GoodWidths, argsR]) (fork_one (by simp [ocpFork, ocpR, entry])) (by simp) hT
  refine ⟨M, hM, fun e he => ?_⟩
  rcases mul_self_eq_mul_self_iff.1 (he.trans hend.symm) with rfl | h
  · obtain ⟨nlpsol, s, q, r, h1, h2, h3⟩ := key T (by simp)
    exact ⟨nlpsol, s, q, r, T, h1, h2, h3, rfl⟩
  · obtain ⟨nlpsol, s, q, r, h1, h2, h3⟩ := key (T.image ocpFork flip) (by simp)
    refine ⟨nlpsol, s, q, r, _, h1, h2, h3, ?_⟩
    rw [h]
    exact flip_state _

/-! ### Twins -/

/-- `x₀' = u₀`, `x₁' = u₁` from 0, together to 2 in time 1, at least `∫ u₀² + u₁²`. -/
noncomputable def ocpTwins : OCP ℝ :=
  { ocpR with
    nx := 2, nu := 2
    dynamics := [⟨2, fun p j => p.u.getD j 0⟩]
    pathConstraints := [none], terminalConstraints := [some ⟨1, fun t _ => t.xf.getD 0 0 + t.xf.getD 1 0 - 2⟩]
    runningCosts := [fun p => p.u.getD 0 0 * p.u.getD 0 0 + p.u.getD 1 0 * p.u.getD 1 0]
    scaleX := [2, 1], scaleU := [1, 3]
    x00 := [[0, 0]], xf0 := [[1, 0]], u00 := [[0, 0]], uf0 := [[2, 0]]
    lbx := [[.fin (-5), .fin (-5)]], ubx := [[.fin 5, .fin 5]], lbu := [[.fin (-5), .fin (-5)]], ubu := [[.fin 5, .fin 5]] }

/-- The twins change places. -/
def swap : Symmetry ℝ :=
  ⟨fun j k => if j + k = 1 then 1 else 0, fun _ => 0, fun j k => if j + k = 1 then 1 else 0, fun _ => 0⟩

theorem twins_ready : ValidOCP ocpTwins ∧ ocpTwins.SettingsOK ∧ ocpTwins.PosScales := by
  obtain ⟨hv, hs, hsc⟩ := ocpR_ready
  refine ⟨?_, ⟨Nat.two_pos, hs.diffU, hs.midu, hs.duContinuity, rfl, rfl, Or.inl Nat.two_pos, hs.links,
    hs.linkCount, hs.linkRange⟩, ⟨?_, ?_, hsc.a, hsc.t⟩⟩
  · constructor
    case ordX => exact rowOrdered_cons (by simp [Ext.le]) rowOrdered_nil
    case ordU => exact rowOrdered_cons (by simp [Ext.le]) rowOrdered_nil
    case ordA => exact rowOrdered_empty
    case ordT0 => exact rowOrdered_single (by simp [Ext.le])
    case ordTf => exact rowOrdered_single (by simp [Ext.le])
    case ordE => intro ph l u hl; simp [ocpTwins, ocpR] at hl
    all_goals simp [ocpTwins, ocpR, HasShape]
  all_goals simp [ocpTwins]

theorem twins_one {P : Nat → Prop} (h : P 0) : ∀ ph < ocpTwins.nPhases, P ph := by
  intro ph hp
  obtain rfl : ph = 0 := by simpa [ocpTwins, ocpR] using hp
  exact h

theorem swap_state (x : Nat → ℝ) : swap.state 2 x 0 = x 1 ∧ swap.state 2 x 1 = x 0 := by
  simp [Symmetry.state, swap]

theorem swap_control (u : Nat → ℝ) : swap.control 2 u 0 = u 1 ∧ swap.control 2 u 1 = u 0 := by
  simp [Symmetry.control, swap]

theorem twins_invariant : ocpTwins.Invariant swap := by
  refine ⟨twins_one fun F hF p hp j hj => ?_, twins_one fun F hF => ?_, twins_one fun F hF p hp h c hc => ?_, twins_one fun L hL p hp => ?_,
    twins_one fun E hE p hp => ?_, fun j hj => ?_, twins_one fun x hx j hj => ?_, twins_one fun u hu j hj => ?_, fun k hk => ?_⟩
  · have hF : (⟨2, fun p j => p.u.getD j 0⟩ : VFun (PArg ℝ) ℝ) = F := by simpa [ocpTwins] using hF
    rw [← hF]
    have hj : j < 2 := hj
    interval_cases j <;>
      simp [Symmetry.onP, ocpTwins, swap, Symmetry.control, List.range_succ]
  · simp [ocpTwins] at hF
  · have hF : (⟨1, fun t _ => t.xf.getD 0 0 + t.xf.getD 1 0 - 2⟩ : VFun (TArg ℝ) ℝ) = F := by simpa [ocpTwins] using hF
    subst hF
    have h := h 0 Nat.one_pos
    show ((List.range 2).map (swap.state 2 fun k => p.xf.getD k 0)).getD 0 0 + ((List.range 2).map (swap.state 2 fun k => p.xf.getD k 0)).getD 1 0
      - 2 = 0
    have h : p.xf.getD 0 0 + p.xf.getD 1 0 - 2 = 0 := h
    simp only [List.range_succ, List.range_zero, List.nil_append, List.cons_append, List.map_cons, List.map_nil, List.getD_cons_zero,
      List.getD_cons_succ, (swap_state _).1, (swap_state _).2]
    linarith
  · have hL : (fun p : PArg ℝ => p.u.getD 0 0 * p.u.getD 0 0 + p.u.getD 1 0 * p.u.getD 1 0) = L := by simpa [ocpTwins] using hL
    rw [← hL]
    simp only [Symmetry.onP, show ocpTwins.nu = 2 from rfl, List.range_succ, List.range_zero, List.nil_append, List.cons_append,
      List.map_cons, List.map_nil, List.getD_cons_zero, List.getD_cons_succ, (swap_control _).1, (swap_control _).2]
    ring
  · have hE : (fun _ : TArg ℝ => (0 : ℝ)) = E := by simpa [ocpTwins, ocpR] using hE
    rw [← hE]
  · have hj : j < 2 := hj
    interval_cases j <;> simp [ocpTwins, entry, Symmetry.state, swap]
  · have h0 := hx 0 Nat.two_pos
    have h1 := hx 1 Nat.one_lt_two
    have hj : j < 2 := hj
    rw [show ocpTwins.nx = 2 from rfl]
    interval_cases j
    · rw [(swap_state _).1]; exact h1
    · rw [(swap_state _).2]; exact h0
  · have h0 := hu 0 Nat.two_pos
    have h1 := hu 1 Nat.one_lt_two
    have hj : j < 2 := hj
    rw [show ocpTwins.nu = 2 from rfl]
    interval_cases j
    · rw [(swap_control _).1]; exact h1
    · rw [(swap_control _).2]; exact h0
  · simp [ocpTwins, ocpR] at hk

theorem mixList_getD_two {θ : ℝ} {x y : List ℝ} (h : x.length = 2) (h' : y.length = 2) {j : Nat} (hj : j < 2) :
    (mixList θ x y).getD j 0 = (1 - θ) * x.getD j 0 + θ * y.getD j 0 := by
  obtain ⟨a, b, rfl⟩ := List.length_eq_two.1 h
  obtain ⟨c, d, rfl⟩ := List.length_eq_two.1 h'
  interval_cases j <;> rfl

theorem twins_convex : ocpTwins.Convex ∧ ocpTwins.FixedTimes ∧ ocpTwins.StrictInControls := by
  refine ⟨⟨twins_one fun F hF j hj p q θ hp' hq' ht h0 h1 => ?_, twins_one fun F hF => ?_,
    twins_one fun F hF c hc p q θ hp' hq' _ _ h0 h1 => ?_,
    twins_one fun f hf p q θ hp' hq' ht h0 h1 => ?_, twins_one fun f hf p q θ hp' hq' _ _ h0 h1 => ?_⟩, twins_one ?_,
    twins_one fun f hf p q hp' hq' ht hne => ?_⟩
  · have hF : (⟨2, fun p j => p.u.getD j 0⟩ : VFun (PArg ℝ) ℝ) = F := by simpa [ocpTwins] using hF
    rw [← hF]
    exact mixList_getD_two hp'.u hq'.u hj
  · simp [ocpTwins] at hF
  · have hF : (⟨1, fun t _ => t.xf.getD 0 0 + t.xf.getD 1 0 - 2⟩ : VFun (TArg ℝ) ℝ) = F := by simpa [ocpTwins] using hF
    rw [← hF]
    show (mixList θ p.xf q.xf).getD 0 0 + (mixList θ p.xf q.xf).getD 1 0 - 2 = _
    rw [mixList_getD_two hp'.xf hq'.xf Nat.two_pos, mixList_getD_two hp'.xf hq'.xf Nat.one_lt_two]; ring
  · have hf : (fun p : PArg ℝ => p.u.getD 0 0 * p.u.getD 0 0 + p.u.getD 1 0 * p.u.getD 1 0) = f := by simpa [ocpTwins] using hf
    rw [← hf]
    show (mixList θ p.u q.u).getD 0 0 * (mixList θ p.u q.u).getD 0 0 + (mixList θ p.u q.u).getD 1 0 * (mixList θ p.u q.u).getD 1 0 ≤ _
    rw [mixList_getD_two hp'.u hq'.u Nat.two_pos, mixList_getD_two hp'.u hq'.u Nat.one_lt_two]
    nlinarith [mul_nonneg (mul_nonneg h0 (sub_nonneg.2 h1)) (sq_nonneg (p.u.getD 0 0 - q.u.getD 0 0)),
      mul_nonneg (mul_nonneg h0 (sub_nonneg.2 h1)) (sq_nonneg (p.u.getD 1 0 - q.u.getD 1 0))]
  · have hf : (fun _ : TArg ℝ => (0 : ℝ)) = f := by simpa [ocpTwins, ocpR] using hf
    rw [← hf]; simp
  · exact ⟨0, 1, by norm_num, by simp [ocpTwins, ocpR, entry], by simp [ocpTwins, ocpR, entry], by simp [ocpTwins, ocpR, entry],
      by simp [ocpTwins, ocpR, entry]⟩
  · have hf : (fun p : PArg ℝ => p.u.getD 0 0 * p.u.getD 0 0 + p.u.getD 1 0 * p.u.getD 1 0) = f := by simpa [ocpTwins] using hf
    rw [← hf]
    show (mixList (1 / 2) p.u q.u).getD 0 0 * (mixList (1 / 2) p.u q.u).getD 0 0 +
      (mixList (1 / 2) p.u q.u).getD 1 0 * (mixList (1 / 2) p.u q.u).getD 1 0 < _
    rw [mixList_getD_two hp'.u hq'.u Nat.two_pos, mixList_getD_two hp'.u hq'.u Nat.one_lt_two]
    obtain ⟨a, b, ha⟩ := List.length_eq_two.1 (hp'.u : p.u.length = 2)
    obtain ⟨c, d, hc⟩ := List.length_eq_two.1 (hq'.u : q.u.length = 2)
    have hab : 0 < (a - c) ^ 2 + (b - d) ^ 2 := by
      by_contra h
      have h1 : (a - c) ^ 2 = 0 := by nlinarith [sq_nonneg (a - c), sq_nonneg (b - d)]
      have h2 : (b - d) ^ 2 = 0 := by nlinarith [sq_nonneg (a - c), sq_nonneg (b - d)]
      exact hne (by rw [ha, hc, sub_eq_zero.1 (pow_eq_zero_iff two_ne_zero |>.1 h1), sub_eq_zero.1 (pow_eq_zero_iff two_ne_zero |>.1 h2)])
    simp only [ha, hc, List.getD_cons_zero, List.getD_cons_succ]
    nlinarith

theorem twins_cts : CtsOCP ocpTwins := by
  refine ⟨fun F hF j hj => ?_, fun F hF => ?_, fun F hF c hc => ?_, fun r hr => ?_, fun r hr => ?_⟩
  · obtain rfl : F = ⟨2, fun p j => p.u.getD j 0⟩ := by simpa [ocpTwins] using hF
    exact PCts.u j
  · simp [ocpTwins] at hF
  · obtain rfl : F = ⟨1, fun t _ => t.xf.getD 0 0 + t.xf.getD 1 0 - 2⟩ := by simpa [ocpTwins] using hF
    exact ((TCts.xf 0).add (TCts.xf 1)).sub (TCts.const 2)
  · obtain rfl : r = fun p => p.u.getD 0 0 * p.u.getD 0 0 + p.u.getD 1 0 * p.u.getD 1 0 := by simpa [ocpTwins] using hr
    exact ((PCts.u 0).mul (PCts.u 0)).add ((PCts.u 1).mul (PCts.u 1))
  · obtain rfl : r = fun _ => 0 := by simpa [ocpTwins, ocpR] using hr
    exact TCts.const 0

theorem twins_finite : FiniteBounds ocpTwins := by
  refine ⟨twins_one fun j hj => ?_, twins_one fun j hj => ?_, twins_one ?_, twins_one ?_, twins_one fun k hk => ?_⟩
  · have hj : j < 2 := hj
    interval_cases j <;> exact ⟨⟨_, rfl⟩, ⟨_, rfl⟩⟩
  · have hj : j < 2 := hj
    interval_cases j <;> exact ⟨⟨_, rfl⟩, ⟨_, rfl⟩⟩
  · exact ⟨⟨_, rfl⟩, ⟨_, rfl⟩⟩
  · exact ⟨⟨_, rfl⟩, ⟨_, rfl⟩⟩
  · simp [ocpTwins, ocpR] at hk

theorem up_twins : SolvesContinuously ocpTwins upR := by
  refine ⟨twins_one ?_, by simp [ocpTwins, ocpR], by simp [ocpTwins, ocpR], by simp [ocpTwins, ocpR]⟩
  have hd : ∀ t : ℝ, HasDerivAt (fun t : ℝ => t) 1 t := fun t => hasDerivAt_id t
  have hF : ∀ F, ocpTwins.dynamics[0]? = some F → ∀ j < ocpTwins.nx, ∀ t, F.f (ocpTwins.cArg upR 0 t) j = 1 := by
    intro F hF j hj t
    have hF : (⟨2, fun p j => p.u.getD j 0⟩ : VFun (PArg ℝ) ℝ) = F := by simpa [ocpTwins] using hF
    rw [← hF]
    have hj : j < 2 := hj
    interval_cases j <;> simp [OCP.cArg, upR, ocpTwins]
  refine ⟨by simp [upR], ⟨?_, ?_, fun j _ t _ => (hd t).continuousAt.continuousWithinAt⟩, ?_, ?_, ?_, ?_, ?_, ?_, ?_, ?_⟩
  · intro F h j hj t _ _
    rw [hF F h j hj]
    exact (hd t).hasDerivWithinAt
  · intro F h j hj
    rw [hF F h j hj]
    exact (hd 0).hasDerivWithinAt
  · intro F hF; simp [ocpTwins] at hF
  · intro F hF c hc
    have hF : (⟨1, fun t _ => t.xf.getD 0 0 + t.xf.getD 1 0 - 2⟩ : VFun (TArg ℝ) ℝ) = F := by simpa [ocpTwins] using hF
    rw [← hF]
    simp [upR, OCP.cEnd, ocpTwins]; norm_num
  · intro _ j hj
    have hj : j < 2 := hj
    interval_cases j <;> simp [upR, ocpTwins, entry]
  · intro t ht _ j hj
    have hj : j < 2 := hj
    obtain ⟨h0, h1⟩ := ht
    have h0 : 0 ≤ t := h0
    have h1 : t ≤ 1 := h1
    interval_cases j <;>
    · simp [upR, ocpTwins, entry, Within, Ext.Below, Ext.Above]
      constructor <;> linarith
  · intro t ht j hj
    have hj : j < 2 := hj
    interval_cases j <;>
    · simp [upR, ocpTwins, entry, Within, Ext.Below, Ext.Above]
      norm_num
  · simp [upR, ocpTwins, ocpR, entry, Within, Ext.Below, Ext.Above]
  · simp [upR, ocpTwins, ocpR, entry, Within, Ext.Below, Ext.Above]
  · intro k hk; simp [ocpTwins, ocpR] at hk

/-- The twins get the same controls, at every node after the first, although their guesses and scales differ. -/
theorem exampleTwins {n p : Nat} (hn : 0 < n) (hp : 2 ≤ p) : ∃ (M : Mesh ℝ) (nlpsol : SolverCall ℝ Nat → Py (List ℝ)) (s : Session ℝ Nat)
    (q : Post ℝ) (r : Option (PyDict (ResidVal ℝ))) (T : Traj ℝ), MeshFor outsideR "LGR" n (.int p) M ∧
      mpSolve outsideR nlpsol ocpTwins [[0]] n (.int p) "LGR" argsR false true = .ok (s, q, r) ∧ q.Shows ocpTwins M T ∧
      ∀ k < M.N, 0 < k → T.u 0 k 0 = T.u 0 k 1 := by
  obtain ⟨hv, hs, hsc⟩ := twins_ready
  obtain ⟨hc, hft, hst⟩ := twins_convex
  obtain ⟨M, nlpsol, s, q, r, -, hM, ho, hperf, hrun, -⟩ := exists_best_line hv hs hsc rfl (by simp [ocpTwins, ocpR, entry]) twins_cts
    twins_finite rfl rfl rfl up_twins (fun j => ⟨1, 0, by simp [upR]⟩) hn hp
  have hlen : M.orders.length = n := by rw [ho]; simp
  have hlt : outsideR.tau0 < outsideR.tau1 := by norm_num [outsideR]
  have hord : ∀ q ∈ M.orders, 2 ≤ q := by
    rw [ho]; intro q hq; rw [(List.mem_replicate.1 hq).2]; exact hp
  have hw := fun W hW => C67_lgr_composite outsideR.lib outsideR.method outsideR.tau0 outsideR.tau1 hlt (W := W) hord
    (fun q _ => libR_jacobi 1 0 (q - 1)) hW
  obtain ⟨T, W, hW, hsh, -, hT⟩ := C115_strict twins_invariant (twins_one rfl) hrun hc hst hft
    (twins_one (by simp [ocpTwins, ocpR, entry])) hv hs hsc hM hlt hlen
    (fun W hW v hm => by
      obtain ⟨ws, rfl, -, hp⟩ := hw W hW
      rcases List.mem_cons.1 hm with rfl | hm
      · exact le_rfl
      · exact (hp v hm).le)
    (by simp [argsR]) fun c z h => (hperf.1 c z h).local
  refine ⟨M, nlpsol, s, q, r, T, hM, hrun, hsh, fun k hk h0 => ?_⟩
  have hWl := hM.weights_length hW
  obtain ⟨ws, rfl, -, hpos⟩ := hw W hW
  have := hT 0 Nat.one_pos k hk (by
    obtain ⟨m, rfl⟩ : ∃ m, k = m + 1 := ⟨k - 1, by omega⟩
    rw [List.getD_cons_succ, List.getD_eq_getElem _ _ (by simp at hWl; omega)]
    exact hpos _ (List.getElem_mem _)) 1 Nat.one_lt_two
  rwa [show ocpTwins.nu = 2 from rfl, (swap_control _).2] at this

end MPOpt
