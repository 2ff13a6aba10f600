import Verif.Props.Compare
import Verif.Props.HEndExample

/-! # Concrete cases for C95 -/

set_option autoImplicit false

namespace MPOpt
open Polynomial

theorem pair_eq {A B : Type} {x : A × B} {b : B} (h : x.2 = b) : x = (x.1, b) := by
  cases x; cases h; rfl

/-- `mpopt` on one segment with a perfect solver, whatever stands outside the library. -/
theorem runE {V : Type} (w : Outside ℚ V) (a : SolveArgs ℚ V) (hM : MeshFor w "LGR" 1 (.int 1) meshE)
    (hW : compQuadWeights ⟨w.method, w.tau0, w.tau1, tausFn w.lib w.tau0 w.tau1 "LGR"⟩ meshE.orders = .ok [1, 1])
    (hlt : w.tau0 < w.tau1) (hacc : w.accepts a.plugin (solverOptions w.vals a.plugin a.options) = true)
    (ha : a.widths = none ∨ a.widths = some [1]) :
    ∃ (nlpsol : SolverCall ℚ V → Py (List ℚ)) (out : _), (∀ c z, nlpsol c = .ok z → c.IsOptimal z) ∧
      mpSolve w nlpsol ocpQ [[0]] 1 (.int 1) "LGR" a false true = .ok out := by
  classical
  obtain ⟨hv, hs, hsc⟩ := ocpQ_ready
  have hg : GoodWidths ocpQ 1 a.widths := by
    intro l hl
    rcases ha with e | e <;> rw [e] at hl <;> cases hl
    refine ⟨rfl, fun ph hp => ?_⟩
    obtain rfl : ph = 0 := by simpa [ocpQ] using hp
    decide +kernel
  have hwE : WidthsAre ocpQ 1 a.widths trajE := by
    rcases ha with e | e <;> rw [e]
    · intro ph _ s _; simp [trajE]
    · rfl
  have hone : ∀ T : Traj ℚ, WidthsAre ocpQ 1 a.widths T → T.w 0 0 = 1 := by
    intro T hT
    rcases ha with e | e <;> rw [e] at hT
    · simpa using hT 0 (by simp [ocpQ]) 0 (by simp)
    · have hT : ocpQ.packWidths 1 T = [1] := hT
      simpa [OCP.packWidths, ocpQ] using hT
  obtain ⟨c, W, hW', hsol, hobj, hret⟩ := C52_solve_returns (ptp := [[0]]) (rx := false) (rdx := true)
    hv hs hsc hM rfl hlt hacc hg
    (by
      intro ph hp
      obtain rfl : ph = 0 := by simpa [ocpQ] using hp
      simp [ocpQ, entry]) (by simp)
  rw [hW] at hW'; cases hW'
  have hzs : c.IsSolution (ocpQ.packVec meshE.N trajE) := (hsol _).2 ⟨trajE, trajE_solves, hwE, rfl⟩
  have hz : c.IsOptimal (ocpQ.packVec meshE.N trajE) := by
    refine ⟨hzs, fun z hz => ?_⟩
    obtain ⟨T, hT, hwT, rfl⟩ := (hsol z).1 hz
    rw [hobj _ _ hwE costE]
    obtain ⟨v, hv'⟩ := exists_samples ocpQ meshE T
    have hJ : PhysCost ocpQ meshE [1, 1] T _ := ⟨v, hv', rfl⟩
    rw [hobj _ _ hwT hJ]
    exact costE_ge hT (hone T hwT) hJ
  obtain ⟨out, ho⟩ := hret
    (fun c => if c.IsOptimal (ocpQ.packVec meshE.N trajE) then .ok (ocpQ.packVec meshE.N trajE)
      else .error .assertion) _ (if_pos hz) hzs.1
  refine ⟨_, out, fun c' z h => ?_, ho⟩
  split at h
  · cases h; assumption
  · cases h

/-- Whatever solves the collocated problem on this mesh meets the mid-point conditions of `mpopt_adaptive`. -/
theorem midE {T : Traj ℚ} (hT : SolvesOCP ocpQ meshE T) (hw : T.w 0 0 = 1) (mid : Bool) :
    MidPointsOK ocpQ meshE T [1 / 10000] [1] [1 / 1000] mid := by
  have h1 := C95_order_one meshE_for.good (by simp [meshE]) hT (by
    intro j hj
    obtain rfl : j = 0 := by simpa [ocpQ] using hj
    norm_num [entry, ocpQ, Within, Ext.Below, Ext.Above])
  refine ⟨fun ph hp => ?_, fun ph hp s hs => ?_, fun ph hp s hs => ?_, fun ph hp => (h1 ph hp).1, fun ph hp => (h1 ph hp).2,
    fun _ ph hp => ?_⟩ <;> obtain rfl : ph = 0 := by simpa [ocpQ] using hp
  · simpa [meshE] using hw
  · obtain rfl : s = 0 := by simpa [meshE] using hs
    rw [hw]; norm_num
  · obtain rfl : s = 0 := by simpa [meshE] using hs
    rw [hw]; norm_num
  · intro F hF j hj s hs i hi
    obtain rfl : j = 0 := by simpa [ocpQ] using hj
    obtain rfl : s = 0 := by simpa [meshE] using hs
    have e0 := hT.1.dynamics 0 hp F hF 0 hj 0 0 (by simp [Mesh.Owns, meshE, Mesh.order])
    have e1 := hT.1.dynamics 0 hp F hF 0 hj 0 1 (by simp [Mesh.Owns, meshE, Mesh.order])
    have hF : (⟨1, fun p _ => p.u.getD 0 0⟩ : VFun (PArg ℚ) ℚ) = F := by simpa [ocpQ] using hF
    have ei : ∀ i, meshE.idx 0 i = i := fun i => by simp [Mesh.idx, segStart, meshE]
    obtain rfl : i = 0 := by
      have hi : i < 1 := hi
      omega
    have e : ocpQ.defect meshE T F 0 0 ((meshE.node 0 0 + meshE.node 0 (0 + 1)) / 2) 0 = 0 := by
      rw [meshE_piece, ← hF, ei] at e0 e1
      have eu := piece_mean meshE_for.good (s := 0) (by simp [meshE]) rfl fun k => T.u 0 k 0
      rw [ei, ei] at eu
      unfold OCP.defect OCP.pArgAt
      rw [← hF, meshE_piece]
      simp only [OCP.pArg, ocpQ, List.range_one, List.map_cons, List.map_nil, List.getD_cons_zero, derivative_add,
        derivative_mul, derivative_C, derivative_X, zero_mul, zero_add, add_zero, mul_one, eval_C] at e0 e1 ⊢
      rw [eu]
      linear_combination (e0 + e1) / 2
    rw [e]
    norm_num [Within, Ext.Below, Ext.Above]

/-- The hypotheses of `C95_costs` are met, with all conditions under which it compares: both runs cost the same. -/
theorem C95_costs_example : ∃ (nlpsol nlpsol' : SolverCall ℚ Nat → Py (List ℚ)) (z : List ℚ) (p p' : Post ℚ) (T T' : Traj ℚ)
    (J : ℚ), (adaptE.solve outsideQ nlpsol argsE).2 = .ok z ∧
    (∃ r, (adaptE.solve outsideQ nlpsol argsE).1.processResults outsideQ [[0]] false false true = .ok (p, r)) ∧
    (∃ S r, mpSolve outsideQ nlpsol' ocpQ [[0]] 1 (.int 1) "LGR" argsE false true = .ok (S, p', r)) ∧
    p.Shows ocpQ meshE T ∧ p'.Shows ocpQ meshE T' ∧ PhysCost ocpQ meshE [1, 1] T J ∧ PhysCost ocpQ meshE [1, 1] T' J ∧
    MidPointsOK ocpQ meshE T' [1 / 10000] [1] [1 / 1000] true := by
  obtain ⟨nlpsol, z, ⟨p, r⟩, h1, h2, h3⟩ := exampleAdaptive
  have hW : compQuadWeights ⟨outsideQ.method, outsideQ.tau0, outsideQ.tau1,
      tausFn outsideQ.lib outsideQ.tau0 outsideQ.tau1 "LGR"⟩ meshE.orders = .ok [1, 1] := by decide +kernel
  obtain ⟨nlpsol', ⟨S, p', r'⟩, k1, k2⟩ := runE outsideQ argsE meshE_for hW (by norm_num [outsideQ]) (by decide +kernel)
    (Or.inl rfl)
  obtain ⟨hv, hs, hsc⟩ := ocpQ_ready
  obtain ⟨s', hs', hr'⟩ : ∃ s', s' = (adaptE.solve outsideQ nlpsol argsE).1 ∧
      (adaptE.run outsideQ nlpsol []).solve outsideQ nlpsol argsE = (s', .ok z) :=
    ⟨_, rfl, pair_eq h2⟩
  rw [← hs'] at h3
  obtain ⟨T, W, J, hW1, hT, hsh, hJ, hle⟩ := C55_adaptive_optimal adaptE_fresh.ready hv hs hsc rfl rfl rfl meshE_for h1 []
    argsE hr' h3
  rw [hs'] at h3
  obtain ⟨T', W', J', hW2, hT', hwid, hsh', hJ', hle'⟩ := C53_solve_optimal k2 hv hs hsc meshE_for k1
  rw [hW] at hW1 hW2; cases hW1; cases hW2
  have m := midE hT' (by simpa using hwid 0 (by simp [ocpQ]) 0 (by simp)) true
  have a1 := hle T' J' (C95_same_solutions.1 ⟨hT', m⟩).1 hJ'
  have a2 := hle' T J ((C95_same_solutions (mid := true)).2 ⟨hT, fun ph hp h => by
    obtain rfl : ph = 0 := by simpa [ocpQ] using hp
    simp [ocpQ] at h⟩).1 (by
      intro ph hp s hs
      obtain rfl : ph = 0 := by simpa [ocpQ] using hp
      obtain rfl : s = 0 := by omega
      have := (hT.1.widths 0 hp).sum
      simpa [meshE] using this) hJ
  obtain rfl := le_antisymm a1 a2
  exact ⟨nlpsol, nlpsol', z, p, p', T, T', J, h2, ⟨r, h3⟩, ⟨S, r', k2⟩, hsh, hsh', hJ, hJ', m⟩

/-- The hypotheses of `C95_h_same` are met. -/
theorem C95_h_example : ∃ s' sol out a, hoptE.run outsideH nlpsolE callsE 0 none = (s', some sol) ∧
    s'.processResults outsideH sol [[0]] false true true = .ok out ∧ a.widths = s'.widths ∧
    ∃ (nlpsol' : SolverCall ℚ (List ℚ) → Py (List ℚ)) (out' : _), (∀ c z, nlpsol' c = .ok z → c.IsOptimal z) ∧
      mpSolve outsideH.toOutside nlpsol' ocpQ [[0]] 1 (.int 1) "LGR" a false true = .ok out' := by
  obtain ⟨-, -, s', sol, out, r1, r2, p, r3, r4⟩ := exampleHOptimal
  have hp : p = [1] := by
    obtain ⟨l1, l2⟩ := r4
    obtain ⟨-, l3⟩ := l2 0 Nat.one_pos
    match p, l1 with
    | [a], _ =>
      have : a = 1 := by simpa using l3
      rw [this]
  subst hp
  refine ⟨s', sol, out, ⟨none, false, "ipopt", [], some [1]⟩, r1, r2, r3.symm, ?_⟩
  exact runE outsideH.toOutside _ meshE_forH (by decide +kernel) (by norm_num [outsideH]) (by decide +kernel) (Or.inr rfl)

/-! ### A solution of `mpopt` where `mpopt_adaptive` has none -/

/-- `x' = t (1 - t)` for one second: the right-hand side vanishes at both ends. -/
def ocpHump : OCP ℚ :=
  { ocpQ with
    dynamics := [⟨1, fun p _ => p.t * (1 - p.t)⟩]
    terminalConstraints := [none]
    lbtf := [[.fin 1]], ubtf := [[.fin 1]] }

theorem meshE_time (T : Traj ℚ) (tau : ℚ) :
    meshE.time T 0 0 tau = T.t0 0 + (T.tf 0 - T.t0 0) / 2 * T.w 0 0 * (tau + 1) := by
  unfold Mesh.time
  rw [meshE_half]
  simp [meshE]

theorem meshE_nodes : meshE.node 0 0 = -1 ∧ meshE.node 0 1 = 1 := by decide +kernel

/-- The state stays where it is. -/
def trajHump : Traj ℚ :=
  { x := fun _ _ _ => 0, u := fun _ _ _ => 0, t0 := fun _ => 0, tf := fun _ => 1, a := fun _ _ => 0, w := fun _ _ => 1 }

theorem trajHump_solves : SolvesOCP ocpHump meshE trajHump := by
  refine ⟨⟨fun ph hph => ?_, fun ph hph => ?_, fun ph hph => ?_, fun ph hph => ?_, fun ph hph _ => ?_,
    fun ph hph h => ?_, fun h => absurd h (by simp [ocpHump, ocpQ])⟩, fun ph hph h => ?_⟩ <;>
    obtain rfl : ph = 0 := by simpa [ocpHump, ocpQ] using hph
  · refine ⟨fun _ j hj => ?_, fun i hi _ j hj => ?_, fun i _ j hj => ?_, ?_, ?_, fun k hk => ?_⟩
    · obtain rfl : j = 0 := by simpa [ocpHump, ocpQ] using hj
      simp [trajHump, entry, ocpHump, ocpQ]
    · obtain rfl : j = 0 := by simpa [ocpHump, ocpQ] using hj
      norm_num [entry, ocpHump, ocpQ, Within, Ext.Below, Ext.Above, trajHump]
    · obtain rfl : j = 0 := by simpa [ocpHump, ocpQ] using hj
      norm_num [entry, ocpHump, ocpQ, Within, Ext.Below, Ext.Above, trajHump]
    · simp [entry, ocpHump, ocpQ, Within, Ext.Below, Ext.Above, trajHump]
    · simp [entry, ocpHump, ocpQ, Within, Ext.Below, Ext.Above, trajHump]
    · simp [ocpHump, ocpQ] at hk
  · intro F hF j hj s i ho
    obtain rfl : j = 0 := by simpa [ocpHump, ocpQ] using hj
    obtain ⟨rfl, hi⟩ := meshE_owns ho
    have hF : (⟨1, fun p _ => p.t * (1 - p.t)⟩ : VFun (PArg ℚ) ℚ) = F := by simpa [ocpHump] using hF
    rw [meshE_piece, meshE_half, meshE_time, ← hF]
    rcases hi with rfl | rfl <;> norm_num [trajHump, OCP.pArg, meshE_nodes]
  · intro F hF s i ho c hc
    obtain ⟨rfl, hi⟩ := meshE_owns ho
    have hF : (⟨1, fun p _ => p.x.getD 0 0 - 3⟩ : VFun (PArg ℚ) ℚ) = F := by simpa [ocpHump, ocpQ] using hF
    rw [← hF]
    norm_num [trajHump, OCP.pArg, ocpHump, ocpQ]
  · intro F hF c hc
    simp [ocpHump] at hF
  · intro j hj s hs i hi
    obtain rfl : j = 0 := by simpa [ocpHump, ocpQ] using hj
    obtain rfl : s = 0 := by simpa [meshE] using hs
    rw [meshE_piece]
    norm_num [trajHump, entry, ocpHump, ocpQ, Within, Ext.Below, Ext.Above]
  · simp [ocpHump, ocpQ] at h
  · simp [ocpHump, ocpQ] at h

/-- **C95** The mid-point conditions cannot be left out: on one segment of order one with the default settings of
`mpopt_adaptive` nothing is feasible, while `mpopt` has a solution (a wrong one). -/
theorem C95_hump : SolvesOCP ocpHump meshE trajHump ∧ ∀ T, ¬ SolvesAdaptive ocpHump meshE T [1 / 10000] [1] [1 / 1000] true := by
  refine ⟨trajHump_solves, fun T hT => ?_⟩
  have h0 : (0 : Nat) < ocpHump.nPhases := by simp [ocpHump, ocpQ]
  obtain ⟨-, -, -, b4, b5, -⟩ := hT.1.bounds 0 h0
  have t0 : T.t0 0 = 0 := by
    have : (0 : ℚ) ≤ T.t0 0 ∧ T.t0 0 ≤ 0 := by simpa [ocpHump, ocpQ, entry, Within, Ext.Below, Ext.Above] using b4
    exact le_antisymm this.2 this.1
  have tf : T.tf 0 = 1 := by
    have : (1 : ℚ) ≤ T.tf 0 ∧ T.tf 0 ≤ 1 := by simpa [ocpHump, entry, Within, Ext.Below, Ext.Above] using b5
    exact le_antisymm this.2 this.1
  have hw : T.w 0 0 = 1 := by simpa [meshE] using (hT.1.widths 0 h0).sum
  have hF : ocpHump.dynamics[0]? = some ⟨1, fun p _ => p.t * (1 - p.t)⟩ := rfl
  have hj : (0 : Nat) < ocpHump.nx := by simp [ocpHump, ocpQ]
  have e0 := hT.1.dynamics 0 h0 _ hF 0 hj 0 0 (by simp [Mesh.Owns, meshE, Mesh.order])
  have m := hT.1.midResidual rfl 0 h0 _ hF 0 hj 0 (by simp [meshE]) 0 (by simp [meshE, Mesh.order])
  rw [meshE_piece, meshE_half, meshE_time] at e0
  unfold OCP.defect OCP.pArgAt at m
  rw [meshE_piece, meshE_half, meshE_time] at m
  simp [OCP.pArg, t0, tf, hw, ocpHump, ocpQ, meshE_nodes, Within, Ext.Below, Ext.Above] at e0 m
  rw [e0] at m
  norm_num at m

/-- A start above the state bound of 5, and 4 as the goal. -/
def ocpAbove : OCP ℚ :=
  { ocpQ with
    pathConstraints := [none]
    terminalConstraints := [some ⟨1, fun t _ => t.xf.getD 0 0 - 4⟩]
    lbu := [[.fin (-9)]]
    x00 := [[7]] }

/-- Down in one second. -/
def trajAbove : Traj ℚ :=
  { x := fun _ i _ => 7 - 3 * i, u := fun _ _ _ => -3, t0 := fun _ => 0, tf := fun _ => 1, a := fun _ _ => 0
    w := fun _ _ => 1 }

theorem trajAbove_solves : SolvesOCP ocpAbove meshE trajAbove := by
  refine ⟨⟨fun ph hph => ?_, fun ph hph => ?_, fun ph hph => ?_, fun ph hph => ?_, fun ph hph _ => ?_,
    fun ph hph h => ?_, fun h => absurd h (by simp [ocpAbove, ocpQ])⟩, fun ph hph h => ?_⟩ <;>
    obtain rfl : ph = 0 := by simpa [ocpAbove, ocpQ] using hph
  · refine ⟨fun _ j hj => ?_, fun i hi h0 j hj => ?_, fun i _ j hj => ?_, ?_, ?_, fun k hk => ?_⟩
    · obtain rfl : j = 0 := by simpa [ocpAbove, ocpQ] using hj
      simp [trajAbove, entry, ocpAbove]
    · obtain rfl : j = 0 := by simpa [ocpAbove, ocpQ] using hj
      have hi : i < 2 := hi
      obtain rfl : i = 1 := by omega
      norm_num [entry, ocpAbove, ocpQ, Within, Ext.Below, Ext.Above, trajAbove]
    · obtain rfl : j = 0 := by simpa [ocpAbove, ocpQ] using hj
      norm_num [entry, ocpAbove, ocpQ, Within, Ext.Below, Ext.Above, trajAbove]
    · simp [entry, ocpAbove, ocpQ, Within, Ext.Below, Ext.Above, trajAbove]
    · simp [entry, ocpAbove, ocpQ, Within, Ext.Below, Ext.Above, trajAbove]
    · simp [ocpAbove, ocpQ] at hk
  · intro F hF j hj s i ho
    obtain rfl : j = 0 := by simpa [ocpAbove, ocpQ] using hj
    obtain ⟨rfl, hi⟩ := meshE_owns ho
    have hF : (⟨1, fun p _ => p.u.getD 0 0⟩ : VFun (PArg ℚ) ℚ) = F := by simpa [ocpAbove, ocpQ] using hF
    rw [meshE_piece, meshE_half, ← hF]
    norm_num [trajAbove, OCP.pArg, ocpAbove, ocpQ]
  · intro F hF s i ho c hc
    simp [ocpAbove] at hF
  · intro F hF c hc
    have hF : (⟨1, fun t _ => t.xf.getD 0 0 - 4⟩ : VFun (TArg ℚ) ℚ) = F := by simpa [ocpAbove] using hF
    rw [← hF]
    norm_num [trajAbove, OCP.tArg, ocpAbove, ocpQ, Mesh.N, meshE]
  · intro j hj s hs i hi
    obtain rfl : j = 0 := by simpa [ocpAbove, ocpQ] using hj
    obtain rfl : s = 0 := by simpa [meshE] using hs
    rw [meshE_piece]
    norm_num [trajAbove, entry, ocpAbove, ocpQ, Within, Ext.Below, Ext.Above]
  · simp [ocpAbove, ocpQ] at h
  · simp [ocpAbove, ocpQ] at h

/-- **C95** Nor the start within bounds: `mpopt` fixes the first state to its guess and overwrites its bounds, so a start outside
passes; `mpopt_adaptive`, with or without `mid_residuals`, finds it half-way to the next node and has no feasible point. -/
theorem C95_above : SolvesOCP ocpAbove meshE trajAbove ∧
    ∀ T tol mid, ¬ SolvesAdaptive ocpAbove meshE T [1 / 10000] [1] tol mid := by
  refine ⟨trajAbove_solves, fun T tol mid hT => ?_⟩
  have h0 : (0 : Nat) < ocpAbove.nPhases := by simp [ocpAbove, ocpQ]
  have hj : (0 : Nat) < ocpAbove.nx := by simp [ocpAbove, ocpQ]
  have x0 : T.x 0 0 0 = 7 := by simpa [ocpAbove, entry] using (hT.1.bounds 0 h0).x0 rfl 0 hj
  have x1 : T.x 0 1 0 = 4 := by
    have := hT.1.terminal 0 h0 ⟨1, fun t _ => t.xf.getD 0 0 - 4⟩ rfl 0 Nat.one_pos
    have : T.x 0 1 0 - 4 = 0 := by simpa [OCP.tArg, ocpAbove, ocpQ, Mesh.N, meshE] using this
    linarith
  have m := (hT.1.midState 0 h0 0 hj 0 (by simp [meshE]) 0 (by simp [meshE, Mesh.order])).2
  rw [meshE_piece] at m
  simp only [x0, x1] at m
  norm_num [meshE_nodes, ocpAbove, ocpQ, entry, Ext.Above] at m

/-! ### `mid_residuals` off -/

/-- `mpopt_adaptive(ocpQ, 1, 1, "LGR")` with `mid_residuals` switched off. -/
def adaptOff : AdaptOpt ℚ Nat := { adaptE with midResiduals := false }

theorem adaptOff_fresh : adaptOff.Fresh ocpQ 1 (.int 1) "LGR" [1 / 10000] [1] [1 / 1000] false := by
  refine ⟨⟨adaptE, _, _, ?_, rfl⟩⟩
  unfold newAdapt
  rw [show initOrders 1 (.int 1) = .ok ([1], 2) by decide +kernel]
  rfl

/-- The hypotheses of `C95_never_worse` are met. -/
theorem C95_never_worse_example :
    (∀ p ∈ meshE.orders, p = 1) ∧
    (∀ j < ocpQ.nx, Within (entry ocpQ.lbx 0 j .nan) (entry ocpQ.ubx 0 j .nan) (entry ocpQ.x00 0 j 0)) ∧
    (∀ T, WidthsAre ocpQ 1 argsE.widths T → ∀ ph < ocpQ.nPhases,
      WidthsOK meshE T (([1 / 10000] : List ℚ).getD ph 0) (([1] : List ℚ).getD ph 0) ph) ∧
    ∃ (nlpsol nlpsol' : SolverCall ℚ Nat → Py (List ℚ)) (z : List ℚ) (out out' : _),
      (∀ c z, nlpsol c = .ok z → c.IsOptimal z) ∧ (∀ c z, nlpsol' c = .ok z → c.IsOptimal z) ∧
      (adaptOff.solve outsideQ nlpsol argsE).2 = .ok z ∧
      (adaptOff.solve outsideQ nlpsol argsE).1.processResults outsideQ [[0]] false false true = .ok out ∧
      mpSolve outsideQ nlpsol' ocpQ [[0]] 1 (.int 1) "LGR" argsE false true = .ok out' := by
  classical
  have hone : ∀ T : Traj ℚ, WidthsAre ocpQ 1 argsE.widths T → T.w 0 0 = 1 := fun T hT => by
    simpa using hT 0 (by simp [ocpQ]) 0 (by simp)
  refine ⟨by simp [meshE], fun j hj => ?_, fun T hT ph hp => ?_, ?_⟩
  · obtain rfl : j = 0 := by simpa [ocpQ] using hj
    norm_num [entry, ocpQ, Within, Ext.Below, Ext.Above]
  · obtain rfl : ph = 0 := by simpa [ocpQ] using hp
    refine ⟨by simpa [meshE] using hone T hT, fun s hs => ?_, fun s hs => ?_⟩ <;>
      obtain rfl : s = 0 := by simpa [meshE] using hs
    · rw [hone T hT]; norm_num
    · rw [hone T hT]; norm_num
  have hW : compQuadWeights ⟨outsideQ.method, outsideQ.tau0, outsideQ.tau1,
      tausFn outsideQ.lib outsideQ.tau0 outsideQ.tau1 "LGR"⟩ meshE.orders = .ok [1, 1] := by decide +kernel
  obtain ⟨nlpsol', out', k1, k2⟩ := runE outsideQ argsE meshE_for hW (by norm_num [outsideQ]) (by decide +kernel) (Or.inl rfl)
  obtain ⟨hv, hs, hsc⟩ := ocpQ_ready
  obtain ⟨c, W, hW', hsol, hobj, hret⟩ := C54_adaptive_returns (a := argsE) (ptp := [[0]]) (rx := false) (rdx := true)
    adaptOff_fresh.ready hv hs hsc rfl rfl rfl meshE_for (by norm_num [outsideQ]) rfl (by decide +kernel)
    (by norm_num) (by
      intro ph hp
      obtain rfl : ph = 0 := by simpa [ocpQ] using hp
      simp [ocpQ, entry]) (by simp)
  rw [hW] at hW'; cases hW'
  obtain ⟨z, hz, hf⟩ := hobj _ _ (C95_same_solutions.1 ⟨trajE_solves, midE trajE_solves rfl false⟩).1 costE
  have hopt : c.IsOptimal z := by
    refine ⟨hz, fun z' hz' => ?_⟩
    obtain ⟨T, hT, hJ⟩ := hsol z' hz'
    rw [hf]
    have hw := (hT.1.widths 0 (by simp [ocpQ])).sum
    refine costE_ge (C95_same_solutions.2 ⟨hT, fun ph hp h => ?_⟩).1 (by simpa [meshE] using hw) hJ
    obtain rfl : ph = 0 := by simpa [ocpQ] using hp
    simp [ocpQ] at h
  obtain ⟨j1, out, j2⟩ := hret (fun c => if c.IsOptimal z then .ok z else .error .assertion) z (if_pos hopt) hz
  refine ⟨_, nlpsol', z, out, out', fun c' z' h => ?_, k1, j1, j2, k2⟩
  split at h
  · cases h; assumption
  · cases h

end MPOpt
