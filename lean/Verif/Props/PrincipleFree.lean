import Verif.Props.PrincipleExample
import Verif.Props.SymmetryFree

/-! # C116 for `mpopt_adaptive` -/

set_option autoImplicit false
set_option linter.unusedSectionVars false

namespace MPOpt
open Polynomial

section
variable {K V : Type} [Field K] [LinearOrder K] [IsStrictOrderedRing K]
variable {ocp o : OCP K} {M : Mesh K} {T S : Traj K} {q n : Nat} {lbh ubh tol : List K} {mid : Bool}

section
variable {p r : Nat} (ht : SameTask ocp o p r) (h : SamePhase p r T S)
include ht h

theorem midState_task (hl : ∀ j, entry ocp.lbx p j .nan = entry o.lbx r j .nan) (hu : ∀ j, entry ocp.ubx p j .nan = entry o.ubx r j .nan) :
    MidStateOK ocp M T p ↔ MidStateOK o M S r := by
  unfold MidStateOK; simp only [ht.nx, hl, hu, h.x]

theorem pArgAt_task (s : Nat) (tau : K) : ocp.pArgAt M T p s tau = o.pArgAt M S r s tau := by
  unfold OCP.pArgAt; simp only [ht.nx, ht.nu, ht.na, h.x, h.u, h.a, h.time]

theorem residual_task (hx : ocp.scaleX = o.scaleX) (e : K) : MidResidualOK ocp M T e p ↔ MidResidualOK o M S e r := by
  unfold MidResidualOK OCP.defect; simp only [ht.dynamics, ht.nx, h.x, h.half, h.w, hx, pArgAt_task ht h]

omit ht in
theorem widths_task (lo hi : K) : WidthsOK M T lo hi p ↔ WidthsOK M S lo hi r := by
  constructor
  · rintro ⟨h1, h2, h3⟩; simp only [h.w] at h1 h2 h3; exact ⟨h1, h2, h3⟩
  · rintro ⟨h1, h2, h3⟩; simp only [← h.w] at h1 h2 h3; exact ⟨h1, h2, h3⟩

end

/-- What a phase with free widths asks for besides its box. -/
structure FreePhaseOK (ocp : OCP K) (M : Mesh K) (T : Traj K) (lo hi e : K) (mid : Bool) (p : Nat) : Prop where
  dynamics : CollocationOK ocp M T p
  path : PathOK ocp M T p
  terminal : TerminalOK ocp M T p
  widths : WidthsOK M T lo hi p
  midControl : MidControlOK ocp M T p
  midState : MidStateOK ocp M T p
  midResidual : mid = true → MidResidualOK ocp M T e p
  slope : ocp.diffU.getD p false = true → SlopeBounded ocp M T (fun j => ocp.scaleU.getD j 0) p

theorem SolvesAdaptive.phase (hT : SolvesAdaptive ocp M T lbh ubh tol mid) {p : Nat} (hp : p < ocp.nPhases) :
    FreePhaseOK ocp M T (lbh.getD p 0) (ubh.getD p 0) (tol.getD p 0) mid p :=
  ⟨hT.1.dynamics p hp, hT.1.path p hp, hT.1.terminal p hp, hT.1.widths p hp, hT.1.midControl p hp, hT.1.midState p hp,
    fun hm => hT.1.midResidual hm p hp, hT.2 p hp⟩

theorem FreePhaseOK.iff {p r : Nat} (ht : SameTask ocp o p r) (h : SamePhase p r T S)
    (hl : ∀ j, entry ocp.lbx p j .nan = entry o.lbx r j .nan) (hu : ∀ j, entry ocp.ubx p j .nan = entry o.ubx r j .nan)
    (hx : ocp.scaleX = o.scaleX) {lo hi e : K} : FreePhaseOK ocp M T lo hi e mid p ↔ FreePhaseOK o M S lo hi e mid r := by
  have e1 := collocation_task (M := M) ht h
  have e2 := path_task (M := M) ht h
  have e3 := terminal_task (M := M) ht h
  have e4 := widths_task (M := M) h lo hi
  have e5 := mid_task (M := M) ht h
  have e6 := midState_task (M := M) ht h hl hu
  have e7 := residual_task (M := M) ht h hx e
  have e8 := slope_task (M := M) ht h
  constructor
  · rintro ⟨h1, h2, h3, h4, h5, h6, h7, h8⟩
    exact ⟨e1.1 h1, e2.1 h2, e3.1 h3, e4.1 h4, e5.1 h5, e6.1 h6, fun hm => e7.1 (h7 hm), fun hm => e8.1 (h8 (ht.diffU.trans hm))⟩
  · rintro ⟨h1, h2, h3, h4, h5, h6, h7, h8⟩
    exact ⟨e1.2 h1, e2.2 h2, e3.2 h3, e4.2 h4, e5.2 h5, e6.2 h6, fun hm => e7.2 (h7 hm),
      fun hm => e8.2 (h8 (ht.diffU.symm.trans hm))⟩

theorem freePhase_only {x : Nat → K} {t lo hi e : K} (h : SamePhase q 0 T S) :
    FreePhaseOK ocp M T lo hi e mid q ↔ FreePhaseOK (ocp.only q x t) M S lo hi e mid 0 :=
  FreePhaseOK.iff sameTask_only h (fun _ => (entry_onlyRow _ _).symm) (fun _ => (entry_onlyRow _ _).symm) rfl

/-- **C116** With free widths: the last phase, with its widths, solves the problem that is left when it begins. -/
theorem C116_tail_adaptive (hq : q < ocp.nPhases) (hT : SolvesAdaptive ocp M T lbh ubh tol mid) :
    SolvesAdaptive (ocp.only q (T.x q 0) (T.t0 q)) M (T.only q) (onlyRow q lbh) (onlyRow q ubh) (onlyRow q tol) mid := by
  have hP := (freePhase_only (x := T.x q 0) (t := T.t0 q) samePhase_only).1 (hT.phase hq)
  have one : ∀ {P : Nat → Prop}, P 0 → ∀ ph < (ocp.only q (T.x q 0) (T.t0 q)).nPhases, P ph := by
    intro P h ph hp
    obtain rfl : ph = 0 := Nat.lt_one_iff.1 hp
    exact h
  refine ⟨⟨one (only_bounds (hT.1.bounds q hq)), one hP.dynamics, one hP.path, one hP.terminal, one ?_, one hP.midControl,
    one hP.midState, fun hm => one ?_, fun h => absurd h (by simp [OCP.only])⟩, one hP.slope⟩
  · rw [onlyRow_getD, onlyRow_getD]; exact hP.widths
  · rw [onlyRow_getD]; exact hP.midResidual hm

/-- **C116** With free widths: a plan for what is left that begins with the control in use may replace the last phase. -/
theorem C116_put_adaptive (hq : q < ocp.nPhases) (hf : ocp.Final q) (hT : SolvesAdaptive ocp M T lbh ubh tol mid)
    (hS : SolvesAdaptive (ocp.only q (T.x q 0) (T.t0 q)) M S (onlyRow q lbh) (onlyRow q ubh) (onlyRow q tol) mid)
    (hu : ∀ j < ocp.nu, S.u 0 0 j = T.u q 0 j) : SolvesAdaptive ocp M (T.put q S) lbh ubh tol mid := by
  have hB := hS.1.bounds 0 Nat.one_pos
  have hP : ∀ p < ocp.nPhases, FreePhaseOK ocp M (T.put q S) (lbh.getD p 0) (ubh.getD p 0) (tol.getD p 0) mid p := by
    intro p hp
    by_cases e : p = q
    · subst e
      have := hS.phase Nat.one_pos
      rw [onlyRow_getD, onlyRow_getD, onlyRow_getD] at this
      exact (freePhase_only samePhase_put).2 this
    · exact (FreePhaseOK.iff (sameTask_refl p) (samePhase_other e) (fun _ => rfl) (fun _ => rfl) rfl).2 (hT.phase hp)
  exact ⟨⟨put_bounds hT.1.bounds hB, fun p hp => (hP p hp).dynamics, fun p hp => (hP p hp).path, fun p hp => (hP p hp).terminal,
    fun p hp => (hP p hp).widths, fun p hp => (hP p hp).midControl, fun p hp => (hP p hp).midState,
    fun hm p hp => (hP p hp).midResidual hm, fun h2 => put_links hf hB hu (hT.1.links h2)⟩, fun p hp => (hP p hp).slope⟩

variable {w : Outside K V} {ptp ptp' : List (List Nat)} {arg : OrdersArg} {scheme : String} {a a' : SolveArgs K V}
  {rx rdx rx' rdx' : Bool} {s s₁ : AdaptOpt K V} {nlpsol nlpsol' : SolverCall K V → Py (List K)} {z : List K} {p : Post K}
  {r : Option (PyDict (ResidVal K))}

/-- **C116** For `mpopt_adaptive`, widths included, and whatever runs came before: planning again never costs more, and costs less only
if the new plan begins with another control. -/
theorem C116_adaptive (hr : s.Ready w ocp n arg scheme lbh ubh tol mid) (hv : ValidOCP ocp) (hs : ocp.SettingsOK)
    (hsc : ocp.PosScales) (hlb : lbh.length = ocp.nPhases) (hub : ubh.length = ocp.nPhases) (htol : tol.length = ocp.nPhases)
    (hM : MeshFor w scheme n arg M) (hopt : ∀ c z, nlpsol c = .ok z → c.IsOptimal z)
    (hopt' : ∀ c z, nlpsol' c = .ok z → c.IsOptimal z) (earlier : List (SolveArgs K V))
    (hrun : (s.run w nlpsol earlier).solve w nlpsol a = (s₁, .ok z)) (hp : s₁.processResults w ptp false rx rdx = .ok (p, r))
    (hq : q < ocp.nPhases) (hf : ocp.Final q) :
    ∃ T W J L, compQuadWeights ⟨w.method, w.tau0, w.tau1, tausFn w.lib w.tau0 w.tau1 scheme⟩ M.orders = .ok W ∧
      p.Shows ocp M T ∧ PhysCost ocp M W T J ∧ PhysCost (ocp.only q (T.x q 0) (T.t0 q)) M W (T.only q) L ∧
      ∀ (s' s₁' : AdaptOpt K V) (earlier' : List (SolveArgs K V)) (z' : List K) p' r',
        s'.Ready w (ocp.only q (T.x q 0) (T.t0 q)) n arg scheme (onlyRow q lbh) (onlyRow q ubh) (onlyRow q tol) mid →
        (s'.run w nlpsol' earlier').solve w nlpsol' a' = (s₁', .ok z') → s₁'.processResults w ptp' false rx' rdx' = .ok (p', r') →
        ∃ S L', p'.Shows (ocp.only q (T.x q 0) (T.t0 q)) M S ∧ PhysCost (ocp.only q (T.x q 0) (T.t0 q)) M W S L' ∧ L' ≤ L ∧
          ((∀ j < ocp.nu, S.u 0 0 j = T.u q 0 j) →
            L' = L ∧ SolvesAdaptive ocp M (T.put q S) lbh ubh tol mid ∧ PhysCost ocp M W (T.put q S) J) := by
  obtain ⟨T, W, J, hW, hT, hsh, hJ, hb⟩ := C55_adaptive_optimal hr hv hs hsc hlb hub htol hM hopt earlier a hrun hp
  have hWl := hM.weights_length hW
  obtain ⟨hv', hs', hsc'⟩ := only_ready (x := T.x q 0) (t := T.t0 q) hv hs hsc hq
  obtain ⟨v, hv1⟩ := exists_samples (ocp.only q (T.x q 0) (T.t0 q)) M (T.only q)
  have hL : PhysCost (ocp.only q (T.x q 0) (T.t0 q)) M W (T.only q) _ := ⟨v, hv1, rfl⟩
  refine ⟨T, W, J, _, hW, hsh, hJ, hL, fun s' s₁' earlier' z' p' r' hr' hrun' hp' => ?_⟩
  obtain ⟨S, W', L', hW', hS, hsh', hL', hb'⟩ := C55_adaptive_optimal hr' hv' hs' hsc' (onlyRow_length (hlb ▸ hq))
    (onlyRow_length (hub ▸ hq)) (onlyRow_length (htol ▸ hq)) hM hopt' earlier' a' hrun' hp'
  obtain rfl : W = W' := by rw [hW] at hW'; cases hW'; rfl
  have hle := hb' _ _ (C116_tail_adaptive hq hT) hL
  refine ⟨S, L', hsh', hL', hle, fun hu => ?_⟩
  have hput := C116_put_adaptive hq hf hT hS hu
  have hc := C116_cost hM.good hv hq hWl hJ hL hL'
  have e := le_antisymm hle (by have := hb _ _ hput hc; linarith)
  refine ⟨e, hput, ?_⟩
  rw [e] at hc
  simpa using hc

end

/-! ### Waiting, then going -/

/-- `mpopt_adaptive(ocp, 1, 2)` for the whole problem, with default settings. -/
noncomputable def adaptHold : AdaptOpt ℝ Nat :=
  ⟨ocpHold, 1, [2], "LGR", [1 / 10000, 1 / 10000], [1, 1], [1 / 1000, 1 / 1000], true, ["fixed", "fixed"], 15, false,
    none, none, none, none⟩

/-- The same for what is left. -/
noncomputable def adaptGoOn : AdaptOpt ℝ Nat :=
  ⟨ocpGoOn, 1, [2], "LGR", [1 / 10000], [1], [1 / 1000], true, ["fixed"], 15, false, none, none, none, none⟩

theorem adaptHold_fresh : adaptHold.Fresh ocpHold 1 (.int 2) "LGR" [1 / 10000, 1 / 10000] [1, 1] [1 / 1000, 1 / 1000] true := by
  refine ⟨⟨adaptHold, _, _, ?_, rfl⟩⟩
  unfold newAdapt
  rw [show initOrders 1 (.int 2) = .ok ([2], 3) by decide +kernel]
  rfl

theorem adaptGoOn_fresh : adaptGoOn.Fresh ocpGoOn 1 (.int 2) "LGR" [1 / 10000] [1] [1 / 1000] true := by
  refine ⟨⟨adaptGoOn, _, _, ?_, rfl⟩⟩
  unfold newAdapt
  rw [show initOrders 1 (.int 2) = .ok ([2], 3) by decide +kernel]
  rfl

/-- The whole plan arrives at 1/2 at most, and planning again at 1, with `mpopt_adaptive` too: the hypotheses of `C116_adaptive` are met,
and its second run does cost less. -/
theorem exampleHoldAdaptive : ∃ (M : Mesh ℝ) (nlpsol : SolverCall ℝ Nat → Py (List ℝ)) (z z' : List ℝ) (p p' : Post ℝ)
    (r r' : Option (PyDict (ResidVal ℝ))) (T S : Traj ℝ), MeshFor outsideR "LGR" 1 (.int 2) M ∧
      (∀ c z, nlpsol c = .ok z → c.IsOptimal z) ∧ (adaptHold.solve outsideR nlpsol argsR).2 = .ok z ∧
      (adaptHold.solve outsideR nlpsol argsR).1.processResults outsideR [[0]] false false true = .ok (p, r) ∧ p.Shows ocpHold M T ∧
      ocpHold.only 1 (T.x 1 0) (T.t0 1) = ocpGoOn ∧ (adaptGoOn.solve outsideR nlpsol argsR).2 = .ok z' ∧
      (adaptGoOn.solve outsideR nlpsol argsR).1.processResults outsideR [[0]] false false true = .ok (p', r') ∧ p'.Shows ocpGoOn M S ∧
      T.x 1 (M.N - 1) 0 ≤ 1 / 2 ∧ 1 ≤ S.x 0 (M.N - 1) 0 := by
  obtain ⟨hv, hs, hsc⟩ := hold_ready
  obtain ⟨hv', hs', hsc'⟩ : ValidOCP ocpGoOn ∧ ocpGoOn.SettingsOK ∧ ocpGoOn.PosScales :=
    only_ready (x := fun _ => (0 : ℝ)) (t := 1) hv hs hsc (q := 1) Nat.one_lt_two
  obtain ⟨M, hM, ho⟩ := exists_lgr_int (n := 1) (p := 2) Nat.one_pos le_rfl
  have ho' : M.orders = [2] := ho
  have hlen : M.orders.length = 1 := by rw [ho']; rfl
  have hord : ∀ q ∈ M.orders, 2 ≤ q := by rw [ho']; simp
  have hN : M.N - 1 = 2 := by unfold Mesh.N; rw [ho']; rfl
  have h0 : M.tau0 = -1 := hM.tau0
  have h1 : M.tau1 = 1 := hM.tau1
  have hI := hM.lgr_inside (by norm_num [outsideR]) hord fun q _ => libR_jacobi 1 0 (q - 1)
  have hdeg : ∀ s < M.orders.length, 1 ≤ M.order s := fun s hs => by have := hord _ (hM.good.order_mem hs); omega
  obtain ⟨nlpsol, hperf⟩ := exists_perfect (V := Nat)
  -- the first run
  obtain ⟨T₀, hT₀, hw₀⟩ := exists_samples_of ocpHold M stayR fun _ _ => 1
  have hT₀s : SolvesAdaptive ocpHold M T₀ [1 / 10000, 1 / 10000] [1, 1] [1 / 1000, 1 / 1000] true := by
    refine C63_exact_feasible hM.good hI stay_hold hs.linkRange hT₀ (fun ph _ => ⟨fun s _ => ?_, ?_⟩)
      (fun ph _ j _ s _ => ⟨0, by simp, fun t _ => by simp [stayR]⟩) (fun ph _ j _ s _ => ⟨0, by simp, fun t _ => by simp [stayR]⟩)
      (hold_phases rfl rfl) (hold_phases (fun s _ => ?_) fun s _ => ?_) fun _ => hold_phases ?_ ?_
    · rw [hw₀]; norm_num
    · rw [hw₀, hlen]; simp
    · rw [hw₀]; norm_num
    · rw [hw₀]; norm_num
    · norm_num
    · norm_num
  obtain ⟨z, p, r, T, W, J, k1, k2, hW, hT, hsh, -, -⟩ := C70_adaptive (a := argsR) (ptp := [[0]]) (rx := false) (rdx := true)
    adaptHold_fresh.ready hv hs hsc rfl rfl rfl hM (by norm_num [outsideR]) rfl rfl (by norm_num)
    (hold_phases (by simp [ocpHold, entry]) (by simp [ocpHold, entry])) (by simp) hold_cts hold_finite ⟨T₀, hT₀s⟩ hperf
  -- the second run
  obtain ⟨S₀, hgo, hwS⟩ := exists_samples_of ocpGoOn M goR fun _ _ => 1
  have hS₀ : SolvesAdaptive ocpGoOn M S₀ [1 / 10000] [1] [1 / 1000] true := by
    refine C63_exact_feasible hM.good hI go_goOn hs'.linkRange hgo (fun ph _ => ⟨fun s _ => ?_, ?_⟩)
      (fun ph _ j _ s hs => ⟨X - C 1, (natDegree_X_sub_C_le 1).trans (hdeg s hs), fun t _ => by simp [goR]⟩)
      (fun ph _ j _ s _ => ⟨C 1, by simp, fun t _ => by simp [goR]⟩)
      (goOn_one rfl) (goOn_one fun s _ => ?_) fun _ => goOn_one ?_
    · rw [hwS]; norm_num
    · rw [hwS, hlen]; simp
    · rw [hwS]; norm_num
    · norm_num
  obtain ⟨z', p', r', S, W', J', k1', k2', hW', hS, hsh', hJ', hbest⟩ := C70_adaptive (a := argsR) (ptp := [[0]]) (rx := false)
    (rdx := true) adaptGoOn_fresh.ready hv' hs' hsc' rfl rfl rfl hM (by norm_num [outsideR]) rfl rfl (by norm_num)
    (goOn_one (by simp [ocpGoOn, OCP.only, onlyRow, ocpHold, entry])) (by simp) goOn_cts goOn_finite ⟨S₀, hS₀⟩ hperf
  have wid : ∀ ph < 2, T.w 0 ph = 1 := fun ph hp => by
    have := (hT.1.widths ph hp).sum
    rwa [hlen, Finset.sum_range_one] at this
  have b0 := hT.1.bounds 0 Nat.two_pos
  have b1 := hT.1.bounds 1 Nat.one_lt_two
  have hl := hT.1.links le_rfl
  have t01 : T.t0 1 = 1 := le_antisymm b1.t0.2 b1.t0.1
  have tf1 : T.tf 1 = 2 := le_antisymm b1.tf.2 b1.tf.1
  have x0 : T.x 0 0 0 = 0 := b0.x0 rfl 0 Nat.one_pos
  have hu0 : ∀ k ≤ 2, T.u 0 k 0 = 0 := fun k hk => by
    have := b0.u k (by omega) 0 Nat.one_pos
    exact le_antisymm this.2 this.1
  have st0 := hold_step (ocp := ocpHold) hM.good ho' h0 h1 Nat.one_pos Nat.one_pos rfl (hT.1.dynamics 0 Nat.two_pos)
  have st1 := hold_step (ocp := ocpHold) hM.good ho' h0 h1 Nat.one_pos Nat.one_pos rfl (hT.1.dynamics 1 Nat.one_lt_two)
  have lu : T.u 1 0 0 = T.u 0 (M.N - 1) 0 := hl.u 0 0 1 rfl 0 Nat.one_pos
  have lx := hl.x 0 0 1 rfl 0 Nat.one_pos
  have lx1 : (0 : ℝ) ≤ T.x 1 0 0 - T.x 0 (M.N - 1) 0 := lx.1
  have lx2 : T.x 1 0 0 - T.x 0 (M.N - 1) 0 ≤ (0 : ℝ) := lx.2
  rw [hN] at lu lx1 lx2
  rw [hu0 2 le_rfl] at lu st0
  rw [hu0 0 (by omega), x0] at st0
  have x1 : T.x 1 0 0 = 0 := by linarith
  have u1 : T.u 1 2 0 ≤ 1 := (b1.u 2 (by omega) 0 Nat.one_pos).2
  have e : ocpHold.only 1 (T.x 1 0) (T.t0 1) = ocpGoOn := by
    unfold ocpGoOn OCP.only
    rw [t01, show ocpHold.nx = 1 from rfl]
    simp [x1]
  rw [lu, x1, t01, tf1, wid 1 Nat.one_lt_two] at st1
  refine ⟨M, nlpsol, z, z', p, p', r, r', T, S, hM, hperf.1, k1, k2, hsh, e, k1', k2', hsh', ?_, ?_⟩
  · rw [hN]; linarith
  · have hle := hbest S₀ _ hS₀ (goOn_cost W')
    rw [PhysCost.unique hM.good (hM.weights_length hW') hv'.runningCosts hJ' (goOn_cost W')] at hle
    have g2 := hgo.x 0 Nat.one_pos 0 Nat.one_pos 0 2 ⟨by rw [ho']; exact Nat.one_pos, by unfold Mesh.order; rw [ho']; exact le_rfl, .inl rfl⟩
    have n2 : M.node 0 2 = 1 := by
      unfold Mesh.node Mesh.order
      rw [ho', show ([2] : List Nat).getD 0 0 = 2 from rfl, List.getD_eq_getElem?_getD, hM.good.last 2 (by rw [ho']; simp), h1]; rfl
    have tt0 : S₀.t0 0 = 1 := hgo.t0 0 Nat.one_pos
    have ttf : S₀.tf 0 = 2 := hgo.tf 0 Nat.one_pos
    rw [show M.idx 0 2 = 2 by simp [Mesh.idx, segStart]] at g2
    simp only [goR, Mesh.time, Mesh.halfWidth, tt0, ttf, n2, h0, h1, hwS] at g2
    norm_num at g2
    rw [hN] at hle ⊢
    linarith

end MPOpt
