import Verif.Props.SplitEnd
import Verif.Props.Flown

/-! # C99: examples -/

set_option autoImplicit false

namespace MPOpt
open Polynomial

/-! ### A problem that is lost by cutting its phase -/

/-- Wait until `t = 1`, then move with speed one until `t = 2`. -/
noncomputable def ocpSw : OCP ℝ :=
  { ocpR with
    dynamics := [⟨1, fun p _ => if p.t ≤ 1 then 0 else 1⟩], pathConstraints := [none], terminalConstraints := [none]
    runningCosts := [fun _ => 0], lbtf := [[.fin 2]], ubtf := [[.fin 2]], tf0 := [[2]] }

theorem ocpSw_ready : ValidOCP ocpSw ∧ ocpSw.SettingsOK ∧ ocpSw.PosScales := by
  refine ⟨?_, ⟨Nat.one_pos, rfl, rfl, rfl, rfl, rfl, Or.inl Nat.one_pos, fun h => absurd h (by simp [ocpSw, ocpR]),
    fun h => absurd h (by simp [ocpSw, ocpR]), by simp [ocpSw, ocpR]⟩, ⟨?_, ?_, ?_, by norm_num [ocpSw, ocpR]⟩⟩
  · constructor
    case ordX => exact rowOrdered_single (by simp [Ext.le])
    case ordU => exact rowOrdered_single (by simp [Ext.le])
    case ordA => exact rowOrdered_empty
    case ordT0 => exact rowOrdered_single (by simp [Ext.le])
    case ordTf => exact rowOrdered_single (by simp [Ext.le])
    case ordE => intro ph l u hl; simp [ocpSw, ocpR] at hl
    all_goals simp [ocpSw, ocpR, HasShape]
  all_goals simp [ocpSw, ocpR]

theorem ocpSw_endOnly : ocpSw.EndOnly := by
  constructor
  · intro F hF s t _ _ _
    have hF : F = fun _ => 0 := by simpa [ocpSw, ocpR] using hF
    rw [hF]
  · intro F hF; simp [ocpSw] at hF

variable {M : Mesh ℝ} {p : Nat}

/-- Interior and last nodes lie to the right of the first one. -/
theorem first_lt (hM : M.Good) (hI : M.Inside) (ho : M.orders = [p]) {i : Nat} (hi : i ≤ p) (h1 : 1 ≤ i) :
    M.tau0 < M.node 0 i := by
  have h0 : 0 < M.orders.length := by simp [ho]
  have e : M.order 0 = p := by simp [Mesh.order, ho]
  have hp : p ∈ M.orders := by simp [ho]
  have hl := hM.length p hp
  have hin : M.node 0 i = (M.nodes p)[i]'(by omega) := by
    unfold Mesh.node; rw [e, List.getD_eq_getElem]
  have hn0 : (M.nodes p)[0]'(by omega) = M.tau0 := by
    have := hM.first p hp
    rw [List.getElem?_eq_getElem (by omega)] at this
    exact Option.some.inj this
  rw [hin]
  refine lt_of_le_of_ne (hI p hp _ (List.getElem_mem _)).1 fun h => ?_
  rw [← hn0] at h
  have := (List.Nodup.getElem_inj_iff (hM.nodup p hp)).1 h
  omega

/-- On two segments of equal width the waiting and moving trajectory solves the collocated problem exactly ... -/
theorem switch_one_phase (hM : M.Good) (hI : M.Inside) (ho : M.orders = [p]) (e0 : M.tau0 = -1) (e1 : M.tau1 = 1) :
    ∃ T, SolvesOCP ocpSw M.twice T ∧ WidthsAre ocpSw 2 none T := by
  have h0 : 0 < M.orders.length := by simp [ho]
  have hlen : M.orders.length = 1 := by simp [ho]
  have eo : M.order 0 = p := by simp [Mesh.order, ho]
  have hp : p ∈ M.orders := by simp [ho]
  have hp1 := hM.pos p hp
  have hN : M.N = p + 1 := by simp [Mesh.N, ho]
  have hN2 : M.twice.N = p + (p + 1) := by rw [Mesh.twice_N, hN]; rfl
  have hin : ∀ i ≤ p, -1 ≤ M.node 0 i ∧ M.node 0 i ≤ 1 := fun i hi => by
    have hl := hM.length p hp
    have : M.node 0 i = (M.nodes p)[i]'(by omega) := by unfold Mesh.node; rw [eo, List.getD_eq_getElem]
    rw [this, ← e0, ← e1]
    exact hI p hp _ (List.getElem_mem _)
  have n0 : M.node 0 0 = -1 := by rw [hM.node_first h0, e0]
  let T : Traj ℝ := ⟨fun _ k _ => if k < p then 0 else (M.node 0 (k - p) + 1) / 2, fun _ _ _ => 0, fun _ => 0, fun _ => 2,
    fun _ _ => 0, fun _ _ => 1 / 2⟩
  have hx0 : ∀ k < M.N, T.x 0 k 0 = 0 := by
    intro k hk
    show (if k < p then (0 : ℝ) else _) = 0
    split
    · rfl
    · obtain rfl : k = p := by omega
      rw [Nat.sub_self, n0]; norm_num
  have hx1 : ∀ k < M.N, T.x 0 (M.N - 1 + k) 0 = (M.node 0 k + 1) / 2 := by
    intro k hk
    show (if M.N - 1 + k < p then (0 : ℝ) else _) = _
    rw [if_neg (by omega), show M.N - 1 + k - p = k by omega]
  have hw : ∀ s, M.twice.halfWidth T 0 s = 1 / 2 := fun s => by
    show (2 - 0) / (M.tau1 - M.tau0) * (1 / 2) = _
    rw [e0, e1]; norm_num
  have hL : M.twice.piece (fun k => T.x 0 k 0) 0 = 0 := by
    rw [Mesh.twice_piece (v' := fun _ => 0) hx0 h0]
    exact hM.piece_eq h0 _ _ (by rw [degree_zero]; exact WithBot.bot_lt_coe _) fun i hi => by simp
  have hR : M.twice.piece (fun k => T.x 0 k 0) (M.orders.length + 0) = C (1 / 2) * X + C (1 / 2) := by
    rw [Mesh.twice_piece_right (v' := fun k => (M.node 0 k + 1) / 2) hx1 h0]
    refine hM.piece_eq h0 _ _ ?_ fun i hi => ?_
    · refine degree_linear_le.trans_lt ?_
      rw [eo]; exact_mod_cast (by omega)
    · have : M.idx 0 i = i := by simp [Mesh.idx, segStart]
      rw [this]; simp; ring
  have one : ∀ {P : Nat → Prop}, P 0 → ∀ ph < ocpSw.nPhases, P ph := by
    intro P h ph hp
    obtain rfl : ph = 0 := by simpa [ocpSw, ocpR] using hp
    exact h
  refine ⟨T, ⟨⟨one ?_, one ?_, one ?_, one ?_, one ?_, one ?_, fun h => ?_⟩, one ?_⟩, one ?_⟩
  · refine ⟨fun _ j hj => ?_, fun i hi _ j hj => ?_, fun i hi j hj => ?_, ?_, ?_, fun k hk => ?_⟩
    · obtain rfl : j = 0 := by simpa [ocpSw, ocpR] using hj
      rw [hx0 0 (by omega)]; simp [ocpSw, ocpR, entry]
    · obtain rfl : j = 0 := by simpa [ocpSw, ocpR] using hj
      have : 0 ≤ T.x 0 i 0 ∧ T.x 0 i 0 ≤ 1 := by
        by_cases hlt : i < M.N
        · rw [hx0 i hlt]; norm_num
        · obtain ⟨k, rfl⟩ := Nat.exists_eq_add_of_le (show M.N - 1 ≤ i by omega)
          rw [hx1 k (by omega)]
          have := hin k (by omega)
          constructor <;> linarith [this.1, this.2]
      simp [ocpSw, ocpR, entry, Within, Ext.Below, Ext.Above]
      constructor <;> linarith [this.1, this.2]
    · obtain rfl : j = 0 := by simpa [ocpSw, ocpR] using hj
      simp [ocpSw, ocpR, entry, Within, Ext.Below, Ext.Above, T]
    · simp [ocpSw, ocpR, entry, Within, Ext.Below, Ext.Above, T]
    · simp [ocpSw, ocpR, entry, Within, Ext.Below, Ext.Above, T]
    · simp [ocpSw, ocpR] at hk
  · intro F hF j hj s i hi
    obtain rfl : j = 0 := by simpa [ocpSw, ocpR] using hj
    have hF : (⟨1, fun p _ => if p.t ≤ 1 then 0 else 1⟩ : VFun (PArg ℝ) ℝ) = F := by simpa [ocpSw] using hF
    rw [← hF, hw s]
    rcases (Mesh.twice_owns hM).1 hi with ho' | ⟨r, rfl, h1, h2, h3⟩
    · obtain rfl : s = 0 := by have := ho'.1; omega
      have hi' : i ≤ p := by have := ho'.2.1; omega
      rw [hL, Mesh.twice_node h0]
      have ht : M.twice.time T 0 0 (M.node 0 i) ≤ 1 := by
        unfold Mesh.time
        rw [hw 0]
        show (0 : ℝ) + (2 - 0) * (∑ r ∈ Finset.range 0, (1 / 2 : ℝ)) + 1 / 2 * (M.node 0 i - M.tau0) ≤ 1
        rw [e0]
        have := (hin i hi').2
        simp; linarith
      simp [OCP.pArg, ht]
    · obtain rfl : r = 0 := by omega
      have hi' : i ≤ p := by omega
      rw [hR, Mesh.twice_node_right]
      have ht : ¬ M.twice.time T 0 (M.orders.length + 0) (M.node 0 i) ≤ 1 := by
        unfold Mesh.time
        rw [hw]
        show ¬ (0 : ℝ) + (2 - 0) * (∑ r ∈ Finset.range (M.orders.length + 0), (1 / 2 : ℝ)) + 1 / 2 * (M.node 0 i - M.tau0) ≤ 1
        have := first_lt hM hI ho hi' h3
        rw [hlen]
        simp; linarith
      simp [OCP.pArg]
      exact not_le.1 ht
  · intro F hF; simp [ocpSw] at hF
  · intro F hF; simp [ocpSw] at hF
  · intro h; simp [ocpSw, ocpR] at h
  · intro h; simp [ocpSw, ocpR] at h
  · simp [ocpSw, ocpR] at h
  · intro h; simp [ocpSw, ocpR] at h
  · intro s hs; norm_num [T]

/-- ... but as two linked phases the collocated problem has no solution. -/
theorem switch_two_phases (hM : M.Good) (hI : M.Inside) (ho : M.orders = [p]) (tm : ℝ) (S : Traj ℝ)
    (hw : WidthsAre (ocpSw.cut (.fin 1) (.fin 1) tm) 1 none S) : ¬ SolvesOCP (ocpSw.cut (.fin 1) (.fin 1) tm) M S := by
  intro hS
  have h0 : 0 < M.orders.length := by simp [ho]
  have eo : M.order 0 = p := by simp [Mesh.order, ho]
  have hp : p ∈ M.orders := by simp [ho]
  have hp1 := hM.pos p hp
  have hτ := hI.tau_lt hM
  obtain ⟨hv, -, -⟩ := ocpSw_ready
  have hcut : ocpSw.cut (.fin 1) (.fin 1) tm = ocpSw.cut (.fin ((0 + 2) / 2)) (.fin ((0 + 2) / 2)) tm := by norm_num
  obtain ⟨-, -, t1, t2⟩ := cut_times (a := 0) (b := 2) (by rw [← hcut]; exact hS) hv rfl (by
    constructor
    · intro t ht
      have : (0 : ℝ) ≤ t ∧ t ≤ 0 := by simpa [ocpSw, ocpR, entry, Within, Ext.Below, Ext.Above] using ht
      exact le_antisymm this.2 this.1
    · intro t ht
      have : (2 : ℝ) ≤ t ∧ t ≤ 2 := by simpa [ocpSw, ocpR, entry, Within, Ext.Below, Ext.Above] using ht
      exact le_antisymm this.2 this.1)
  have t1 : S.t0 1 = 1 := by rw [t1]; norm_num
  have w1 : S.w 0 1 = 1 := by simpa using hw 1 (Nat.lt_succ_self _) 0 Nat.one_pos
  have hh : M.halfWidth S 1 0 = 1 / (M.tau1 - M.tau0) := by
    unfold Mesh.halfWidth; rw [t1, t2, w1]; norm_num
  have hpos : 0 < 1 / (M.tau1 - M.tau0) := by
    have := sub_pos.2 hτ; positivity
  have hcol := hS.1.dynamics 1 (Nat.lt_succ_self _) ⟨1, fun p _ => if p.t ≤ 1 then 0 else 1⟩ rfl 0 Nat.one_pos 0
  have htime : ∀ i, M.time S 1 0 (M.node 0 i) = 1 + 1 / (M.tau1 - M.tau0) * (M.node 0 i - M.tau0) := fun i => by
    unfold Mesh.time; rw [hh, t1, t2]; simp
  set P := M.piece (fun k => S.x 1 k 0) 0 with hP
  have hd : (derivative P - C (1 / (M.tau1 - M.tau0))).natDegree < p := by
    have h1 : P.natDegree ≤ M.orders[0] := hM.piece_degrees (fun k => S.x 1 k 0) 0 h0
    rw [← Mesh.order_eq (M := M) h0, eo] at h1
    have h2 := natDegree_derivative_le P
    have h3 := natDegree_sub_le (derivative P) (C (1 / (M.tau1 - M.tau0)))
    rw [natDegree_C] at h3
    exact h3.trans_lt (max_lt (by omega) (by omega))
  have hz : derivative P - C (1 / (M.tau1 - M.tau0)) = 0 := by
    refine eq_zero_of_natDegree_lt_card_of_eval_eq_zero' _ ((Finset.Icc 1 p).image (M.node 0)) ?_ ?_
    · intro x hx
      obtain ⟨i, hi, rfl⟩ := Finset.mem_image.1 hx
      obtain ⟨hi1, hi2⟩ := Finset.mem_Icc.1 hi
      have h := hcol i ⟨h0, by rw [eo]; exact hi2, .inr hi1⟩
      have ht : ¬ M.time S 1 0 (M.node 0 i) ≤ 1 := by
        rw [htime]
        have := mul_pos hpos (sub_pos.2 (first_lt hM hI ho hi2 hi1))
        linarith
      rw [hh] at h
      have h : eval (M.node 0 i) (derivative P) = 1 / (M.tau1 - M.tau0) * (if M.time S 1 0 (M.node 0 i) ≤ 1 then 0 else 1) := h
      rw [if_neg ht] at h
      rw [eval_sub, eval_C, h]; ring
    · rw [Finset.card_image_of_injOn, Nat.card_Icc]
      · omega
      · intro i hi j hj hij
        obtain ⟨hi1, hi2⟩ := Finset.mem_Icc.1 (Finset.mem_coe.1 hi)
        obtain ⟨hj1, hj2⟩ := Finset.mem_Icc.1 (Finset.mem_coe.1 hj)
        have hl := hM.length p hp
        have hij : (M.nodes (M.order 0)).getD i 0 = (M.nodes (M.order 0)).getD j 0 := hij
        rw [eo, List.getD_eq_getElem _ _ (by omega), List.getD_eq_getElem _ _ (by omega)] at hij
        exact (List.Nodup.getElem_inj_iff (hM.nodup p hp)).1 hij
  have h := hcol 0 ⟨h0, Nat.zero_le _, .inl rfl⟩
  have h : eval (M.node 0 0) (derivative P) = M.halfWidth S 1 0 * (if M.time S 1 0 (M.node 0 0) ≤ 1 then 0 else 1) := h
  rw [htime, hM.node_first h0, sub_self, mul_zero, add_zero, if_pos le_rfl, mul_zero, sub_eq_zero.1 hz, eval_C] at h
  exact hpos.ne' h

/-- **C99** Cutting a phase at a switch of its dynamics loses all solutions, for LGR segments of every order at least 2. -/
theorem C99_lost (p : Nat) (hp : 2 ≤ p) : ∃ M, MeshFor outsideR "LGR" 1 (.int p) M ∧
    (∃ T, SolvesOCP ocpSw M.twice T ∧ WidthsAre ocpSw 2 none T) ∧
    ∀ (tm : ℝ) (S : Traj ℝ), WidthsAre (ocpSw.cut (.fin 1) (.fin 1) tm) 1 none S →
      ¬ SolvesOCP (ocpSw.cut (.fin 1) (.fin 1) tm) M S := by
  obtain ⟨M, hM, ho⟩ := exists_lgr_mesh [p] (by simp) (by simp; omega)
  have hI : M.Inside := hM.lgr_inside (by norm_num [outsideR]) (by rw [ho]; simpa using hp) fun q _ => libR_jacobi 1 0 (q - 1)
  exact ⟨M, ⟨hM.good, ho, hM.tau0, hM.tau1, hM.nodes⟩, switch_one_phase hM.good hI ho hM.tau0 hM.tau1,
    fun tm S => switch_two_phases hM.good hI ho tm S⟩

/-! ### A problem that keeps its optimum -/

theorem ocpR_endOnly : ocpR.EndOnly := by
  constructor
  · intro F hF s t _ _ _
    have hF : F = fun _ => 0 := by simpa [ocpR] using hF
    rw [hF]
  · intro F hF s t h _ _
    have hF : F = ⟨1, fun t _ => t.xf.getD 0 0 - 1 / 4⟩ := by simpa [ocpR] using hF
    rw [hF]; simp [h]

theorem ocpR_times : ocpR.TimesFixed 0 1 := by
  constructor
  · intro t ht
    have : (0 : ℝ) ≤ t ∧ t ≤ 0 := by simpa [ocpR, entry, Within, Ext.Below, Ext.Above] using ht
    exact le_antisymm this.2 this.1
  · intro t ht
    have : (1 : ℝ) ≤ t ∧ t ≤ 1 := by simpa [ocpR, entry, Within, Ext.Below, Ext.Above] using ht
    exact le_antisymm this.2 this.1

/-- The hypotheses of `C99_runs` are met: the straight line is the optimum of both problems. -/
theorem exampleCut : ∃ (M : Mesh ℝ) (W : List ℝ) (nlpsol nlpsol' : SolverCall ℝ Nat → Py (List ℝ)) (out out' : _),
    MeshFor outsideR "LGR" 1 (.list [2]) M ∧ W.getD 0 0 = 0 ∧
      compQuadWeights ⟨outsideR.method, outsideR.tau0, outsideR.tau1, tausFn outsideR.lib outsideR.tau0 outsideR.tau1 "LGR"⟩
        M.orders = .ok W ∧
      (∀ c z, nlpsol c = .ok z → c.IsOptimal z) ∧ (∀ c z, nlpsol' c = .ok z → c.IsOptimal z) ∧
      mpSolve outsideR nlpsol ocpR [[0]] (1 + 1) (OrdersArg.list [2]).twice "LGR" argsR false true = .ok out ∧
      mpSolve outsideR nlpsol' (ocpR.cut (.fin ((0 + 1) / 2)) (.fin ((0 + 1) / 2)) (1 / 2)) [[0], [1]] 1 (.list [2]) "LGR" argsR
        false true = .ok out' ∧
      ∃ T S', SolvesOCP ocpR M.twice T ∧ SameCut ocpR M T S' ∧ JointDynamics ocpR M S' ∧ JointSlopeBounded ocpR M S' := by
  classical
  obtain ⟨hv, hs, hsc⟩ := ocpR_ready
  obtain ⟨M, hM, ho⟩ := exists_lgr_mesh [2] (by simp) (by simp)
  have hM : MeshFor outsideR "LGR" 1 (.list [2]) M := hM
  have hM2 : MeshFor outsideR "LGR" 2 (.list [2, 2]) M.twice := hM.twice
  have ho2 : M.twice.orders = [2, 2] := by simp [Mesh.twice, ho]
  have hlt : outsideR.tau0 < outsideR.tau1 := by norm_num [outsideR]
  have hj : ∀ p ∈ M.orders, IsJacobiRoots 1 0 (p - 1) (outsideR.lib.jroots (p - 1) 1 0) :=
    fun p _ => libR_jacobi 1 0 (p - 1)
  have hord : ∀ p ∈ M.orders, 2 ≤ p := by rw [ho]; simp
  have hj2 : ∀ p ∈ M.twice.orders, IsJacobiRoots 1 0 (p - 1) (outsideR.lib.jroots (p - 1) 1 0) :=
    fun p _ => libR_jacobi 1 0 (p - 1)
  have hord2 : ∀ p ∈ M.twice.orders, 2 ≤ p := by rw [ho2]; simp
  set o' := ocpR.cut (.fin ((0 + 1) / 2)) (.fin ((0 + 1) / 2)) (1 / 2) with ho'
  have hv' : ValidOCP o' := ocpR.cut_valid hv rfl (by simp [Ext.le])
  have hs' : o'.SettingsOK := ocpR.cut_settings hs rfl
  have hsc' : o'.PosScales := ⟨hsc.x, hsc.u, hsc.a, hsc.t⟩
  obtain ⟨c, W2, hWeq2, hsol, hobj, hret⟩ := C52_solve_returns (V := Nat) (ocp := ocpR) (w := outsideR) (a := argsR)
    (scheme := "LGR") (n := 2) (arg := .list [2, 2]) (M := M.twice) (ptp := [[0]]) (rx := false) (rdx := true)
    hv hs hsc hM2 (by rw [ho2]; rfl) hlt rfl (by simp [GoodWidths, argsR])
    (by
      intro ph hp
      obtain rfl : ph = 0 := by simpa [ocpR] using hp
      simp [ocpR, entry]) (by simp)
  obtain ⟨c', W, hWeq, hsol', hobj', hret'⟩ := C52_solve_returns (V := Nat) (ocp := o') (w := outsideR) (a := argsR)
    (scheme := "LGR") (n := 1) (arg := .list [2]) (M := M) (ptp := [[0], [1]]) (rx := false) (rdx := true)
    hv' hs' hsc' hM (by rw [ho]; rfl) hlt rfl (by simp [GoodWidths, argsR])
    (by
      intro ph hp
      have hp : ph < 2 := hp
      interval_cases ph <;> simp [ho', ocpR, OCP.cut, entry]) (by simp)
  obtain rfl : W2 = W ++ W.tail := by
    have := hWeq2.symm.trans (twice_weights hWeq); injection this
  have hW0 := lgr_first_zero hM hlt hord hj hWeq
  obtain ⟨hI, hW⟩ := C57_lgr_integrates hM2 hlt hord2 hj2 hWeq2
  obtain ⟨L, hLw, hLx, hLs, hLc⟩ := sampled hM2 rfl rfl hI hW lineR_solves fun T _ => lineR_poly ho2 T
  rw [lineR_cost] at hLc
  have one : (0 : Nat) < ocpR.nPhases := by simp [ocpR]
  have w0 : L.w 0 0 = 1 / 2 := by simpa using hLw 0 one 0 (by omega)
  have w1 : L.w 1 0 = 1 / 2 := by simpa using hLw 0 one 1 (by omega)
  have hlen : M.orders.length = 1 := by simp [ho]
  -- the line in two phases
  obtain ⟨S, hS, htm, wS0, wS1⟩ := exists_cut ocpR M L (by rw [hlen]; simp [w0]) (by rw [hlen]; simp [w1])
    (by rw [ho2]; simp [Finset.sum_range_succ, w0, w1]; norm_num)
  have t0 : L.t0 0 = 0 := hLx.t0 0 one
  have tf : L.tf 0 = 1 := hLx.tf 0 one
  have hN : M.N = 3 := by simp [Mesh.N, ho]
  have eo : M.order 0 = 2 := by simp [Mesh.order, ho]
  have h0 : 0 < M.orders.length := by simp [ho]
  have e0 : M.tau0 = -1 := hM.tau0
  have e1 : M.tau1 = 1 := hM.tau1
  have htm : S.tf 0 = 1 / 2 := by rw [htm, t0, tf, hlen]; simp [w0]
  have hu : ∀ k < M.twice.N, L.u 0 k 0 = 1 / 4 := by
    intro k hk
    obtain ⟨s, i, hsi, rfl⟩ := M.twice.exists_owner hM2.good.nonempty hk
    rw [hLx.u 0 one 0 Nat.one_pos s i hsi]; rfl
  have hw1 : M.halfWidth S 1 0 = 1 / 4 := by
    rw [← hS.half_right h0]
    unfold Mesh.halfWidth
    show (L.tf 0 - L.t0 0) / (M.tau1 - M.tau0) * L.w (M.orders.length + 0) 0 = _
    rw [t0, tf, e0, e1, hlen, w1]; norm_num
  set P := M.piece (fun k => S.x 1 k 0) 0 with hP
  have hslope : ∀ i ≤ 2, 1 ≤ i → eval (M.node 0 i) (derivative P) = 1 / 16 := by
    intro i hi hi1
    have := hLs.1.dynamics 0 one ⟨1, fun p _ => p.u.getD 0 0⟩ rfl 0 Nat.one_pos (M.orders.length + 0) i
      ((Mesh.twice_owns hM.good).2 (.inr ⟨0, rfl, h0, by rw [eo]; exact hi, hi1⟩))
    rw [Mesh.twice_piece_right (fun k hk => hS.x1 k hk 0 Nat.one_pos) h0, Mesh.twice_node_right, hS.half_right h0, hw1] at this
    have hidx := Mesh.idx_lt (M := M.twice) (s := M.orders.length + 0) (i := i) (by rw [Mesh.twice_length]; omega)
      (by rw [Mesh.twice_order_right, eo]; exact hi)
    have this : eval (M.node 0 i) (derivative P) = 1 / 4 * L.u 0 (M.twice.idx (M.orders.length + 0) i) 0 := this
    rw [this, hu _ hidx]; norm_num
  have hPd : derivative P = C (1 / 16) := by
    have hdeg : (derivative P - C (1 / 16)).natDegree < 2 := by
      have h1 : P.natDegree ≤ M.orders[0] := hM.good.piece_degrees (fun k => S.x 1 k 0) 0 h0
      rw [← Mesh.order_eq (M := M) h0, eo] at h1
      have h2 := natDegree_derivative_le P
      have h3 := natDegree_sub_le (derivative P) (C (1 / 16 : ℝ))
      rw [natDegree_C] at h3
      exact h3.trans_lt (max_lt (by omega) (by omega))
    have hinj := hM.good.node_injOn h0
    have hne : M.node 0 1 ≠ M.node 0 2 := fun h => by
      have := hinj (by rw [eo]; simp) (by rw [eo]; simp) h
      omega
    refine sub_eq_zero.1 (eq_zero_of_natDegree_lt_card_of_eval_eq_zero' _ {M.node 0 1, M.node 0 2} ?_ ?_)
    · intro x hx
      rcases Finset.mem_insert.1 hx with rfl | hx
      · rw [eval_sub, eval_C, hslope 1 (by omega) le_rfl, sub_self]
      · rw [Finset.mem_singleton.1 hx, eval_sub, eval_C, hslope 2 le_rfl (by omega), sub_self]
    · rw [Finset.card_pair hne]; exact hdeg
  have hjd : JointDynamics ocpR M S := by
    intro F hF j hj
    obtain rfl : j = 0 := by simpa [ocpR] using hj
    have hF : (⟨1, fun p _ => p.u.getD 0 0⟩ : VFun (PArg ℝ) ℝ) = F := by simpa [ocpR] using hF
    rw [← hF, hw1, ← hP, hPd, eval_C]
    show (1 / 16 : ℝ) = 1 / 4 * S.u 1 0 0
    rw [← hS.u1 0 (by omega) 0 Nat.one_pos, hu _ (by rw [Mesh.twice_N]; omega)]; norm_num
  have hjs : JointSlopeBounded ocpR M S := fun h => by simp [ocpR] at h
  have hSs : SolvesOCP o' M S := ((C99_cut hS rfl hv hs rfl ocpR_endOnly hM.good).2 ⟨hLs, hjd, hjs, by
    rw [htm]; constructor <;> simp [Ext.Below, Ext.Above]⟩).1
  have hSw : WidthsAre o' 1 none S := by
    intro ph hph s hs1
    have hph : ph < 2 := hph
    obtain rfl : s = 0 := by omega
    interval_cases ph
    · rw [wS0 0 h0, hlen]; simp [w0]
    · rw [wS1 0 h0, hlen]; simp [w1]
  have hWl : W.length = M.N := hM.weights_length hWeq
  obtain ⟨vS, hvS⟩ := exists_samples o' M S
  have hSc : PhysCost o' M W S _ := ⟨vS, hvS, rfl⟩
  have hSJ := C99_cost hS rfl hv rfl ocpR_endOnly hM.good hWl rfl hSc hLc
  rw [hW0, zero_mul, add_zero] at hSJ
  rw [hSJ] at hSc
  -- both are optimal
  have hzs : c.IsSolution (ocpR.packVec M.twice.N L) := (hsol _).2 ⟨L, hLs, hLw, rfl⟩
  have hz : c.IsOptimal (ocpR.packVec M.twice.N L) := by
    refine ⟨hzs, fun z hz => ?_⟩
    obtain ⟨T, hT, hwT, rfl⟩ := (hsol z).1 hz
    rw [hobj _ _ hLw hLc]
    obtain ⟨v, hv'⟩ := exists_samples ocpR M.twice T
    have hJ : PhysCost ocpR M.twice (W ++ W.tail) T _ := ⟨v, hv', rfl⟩
    rw [hobj _ _ hwT hJ]
    exact costR_ge hM2 hW hT hwT hJ
  have hzs' : c'.IsSolution (o'.packVec M.N S) := (hsol' _).2 ⟨S, hSs, hSw, rfl⟩
  have hz' : c'.IsOptimal (o'.packVec M.N S) := by
    refine ⟨hzs', fun z hz => ?_⟩
    obtain ⟨U, hU, hwU, rfl⟩ := (hsol' z).1 hz
    rw [hobj' _ _ hSw hSc]
    obtain ⟨v, hvU⟩ := exists_samples o' M U
    have hUc : PhysCost o' M W U _ := ⟨v, hvU, rfl⟩
    rw [hobj' _ _ hwU hUc]
    obtain ⟨u1, u2, u3, u4⟩ := cut_times hU hv rfl ocpR_times
    obtain ⟨T, hT, v0, v1⟩ := hU.join (by rw [hlen]; exact widths_default hwU (Nat.succ_pos _) Nat.one_pos) (by rw [u1, u4]; norm_num)
    have hTs := ((C99_cut hT rfl hv hs rfl ocpR_endOnly hM.good).1 ⟨hU, fun h => by simp [ocpR] at h⟩).1
    have hTw : WidthsAre ocpR 2 none T := by
      intro ph hph s hs2
      obtain rfl : ph = 0 := by simpa [ocpR] using hph
      have q0 : U.w 0 0 = 1 := by simpa using hwU 0 (Nat.succ_pos _) 0 Nat.one_pos
      have q1 : U.w 0 1 = 1 := by simpa using hwU 1 (Nat.lt_succ_self _) 0 Nat.one_pos
      interval_cases s
      · rw [v0 0 h0, u1, u2, u4, q0]; norm_num
      · have := v1 0 h0
        rw [hlen] at this
        rw [this, u1, u3, u4, q1]; norm_num
    obtain ⟨vT, hvT⟩ := exists_samples ocpR M.twice T
    have hTc : PhysCost ocpR M.twice (W ++ W.tail) T _ := ⟨vT, hvT, rfl⟩
    have hle := costR_ge hM2 hW hTs hTw hTc
    have := C99_cost hT rfl hv rfl ocpR_endOnly hM.good hWl rfl hUc hTc
    rw [hW0, zero_mul, add_zero] at this
    rw [this]; exact hle
  have pick : ∀ (z : List ℝ) (d : SolverCall ℝ Nat) (x : List ℝ), (if d.IsOptimal z then (.ok z : Py (List ℝ)) else .error .assertion) = .ok x →
      d.IsOptimal x := by
    intro z d x h
    split at h
    · cases h; assumption
    · cases h
  obtain ⟨out, hout⟩ := hret (fun d => if d.IsOptimal (ocpR.packVec M.twice.N L) then .ok (ocpR.packVec M.twice.N L) else .error .assertion)
    _ (if_pos hz) hzs.1
  obtain ⟨out', hout'⟩ := hret' (fun d => if d.IsOptimal (o'.packVec M.N S) then .ok (o'.packVec M.N S) else .error .assertion)
    _ (if_pos hz') hzs'.1
  exact ⟨M, W, _, _, out, out', hM, hW0, hWeq, pick _, pick _, hout, hout', L, S, hLs, hS, hjd, hjs⟩

end MPOpt
