import Verif.Props.Principle
import Verif.Props.SymmetryExample

/-! # A concrete case for C116: planning again helps, because the links carry the controls too -/

set_option autoImplicit false

namespace MPOpt
open Polynomial

/-- Problems with straight lines as solutions, on LGR segments: a run with a solver that finds global minimisers, a best trajectory that
it shows, and the line. -/
theorem exists_best_lines {ocp : OCP ℝ} (hv : ValidOCP ocp) (hs : ocp.SettingsOK) (hsc : ocp.PosScales)
    (ht : ∀ ph < ocp.nPhases, entry ocp.t00 ph 0 0 ≠ entry ocp.tf0 ph 0 0) (hc : CtsOCP ocp) (hb : FiniteBounds ocp)
    (hm : ∀ ph < ocp.nPhases, ocp.midu.getD ph false = false) (hdc : ∀ ph < ocp.nPhases, ocp.duContinuity.getD ph false = false)
    (hdf : ∀ ph < ocp.nPhases, ocp.diffU.getD ph false = false)
    {L : CTraj} (hL : SolvesContinuously ocp L) (hlin : ∀ ph j, ∃ a b, L.x ph j = fun t => a * t + b) {n p : Nat} (hn : 0 < n)
    (hp : 2 ≤ p) {M : Mesh ℝ} (hM : MeshFor outsideR "LGR" n (.int p) M) (ho : M.orders = List.replicate n p) :
    ∃ (nlpsol : SolverCall ℝ Nat → Py (List ℝ)) (s : Session ℝ Nat) (q : Post ℝ) (r : Option (PyDict (ResidVal ℝ)))
      (T T₀ : Traj ℝ), (∀ c z, nlpsol c = .ok z → c.IsOptimal z) ∧
        mpSolve outsideR nlpsol ocp [[0]] n (.int p) "LGR" argsR false true = .ok (s, q, r) ∧ q.Shows ocp M T ∧
        BestTraj outsideR "LGR" ocp M n none T ∧ Samples ocp M L T₀ ∧ SolvesOCP ocp M T₀ ∧ WidthsAre ocp n none T₀ := by
  have hlen : M.orders.length = n := by rw [ho]; simp
  have hord : ∀ q ∈ M.orders, 2 ≤ q := by
    rw [ho]; intro q hq; rw [(List.mem_replicate.1 hq).2]; exact hp
  have hI := hM.lgr_inside (by norm_num [outsideR]) (fun q hq => by have := hord q hq; omega) fun q _ => libR_jacobi 1 0 (q - 1)
  obtain ⟨T₀, hT₀, hw₀⟩ := exists_samples_of ocp M L fun _ _ => 1 / (n : ℝ)
  have hwa : WidthsAre ocp n argsR.widths T₀ := by intro ph _ s _; rw [hw₀]
  have hgood : GoodWidths ocp n argsR.widths := by simp [GoodWidths, argsR]
  have hfull : ∀ ph < ocp.nPhases, FullWidths M T₀ ph := by
    intro ph hp
    have := hwa.fills hn hgood ph hp
    rw [← hlen] at this
    exact ⟨this.1, this.2⟩
  have hS₀ : SolvesOCP ocp M T₀ := by
    refine C56_exact_feasible hM.good hI hL hs.linkRange hT₀ hfull (fun ph _ j _ s hs => ?_)
      (fun ph hp h => by rw [hm ph hp] at h; cases h) hdc hdf
    obtain ⟨a, b, e⟩ := hlin ph j
    have h2 := hord _ (hM.good.order_mem hs)
    exact ⟨C a * X + C b, natDegree_linear_le.trans (by omega), fun t _ => by rw [e]; simp⟩
  obtain ⟨nlpsol, hperf⟩ := exists_perfect (V := Nat)
  obtain ⟨s, q, r, T, W, J, hout, hW, k1, k2, k3, k4, k5⟩ := C70_solve_box (V := Nat) (ocp := ocp) (w := outsideR) (a := argsR)
    (scheme := "LGR") (n := n) (arg := .int p) (M := M) (ptp := [[0]]) (rx := false) (rdx := true)
    hv hs hsc hM hlen (by norm_num [outsideR]) rfl hgood ht (by simp) hc hb ⟨T₀, hS₀, hwa⟩ hperf
  refine ⟨nlpsol, s, q, r, T, T₀, hperf.1, hout, k3, ⟨k1, k2, fun W' J' hW' hJ' T' J'' h1 h2 h3 => ?_⟩, hT₀, hS₀, hwa⟩
  rw [hW] at hW'; cases hW'
  rw [PhysCost.unique hM.good (hM.weights_length hW) hv.runningCosts hJ' k4]
  exact k5 T' J'' h1 h2 h3

/-- Wait for one second, then go for one: as far as possible, with speeds between -1 and 1. -/
noncomputable def ocpHold : OCP ℝ :=
  { ocpRace with
    terminalCosts := [fun _ => 0, fun t => -t.xf.getD 0 0]
    terminalConstraints := [none, none]
    t00 := [[0], [1]], tf0 := [[1], [2]]
    lbx := [[.fin (-5)], [.fin (-5)]], ubx := [[.fin 5], [.fin 5]]
    lbu := [[.fin 0], [.fin (-1)]], ubu := [[.fin 0], [.fin 1]]
    lbt0 := [[.fin 0], [.fin 1]], ubt0 := [[.fin 0], [.fin 1]], lbtf := [[.fin 1], [.fin 2]], ubtf := [[.fin 1], [.fin 2]]
    midu := [false, false] }

/-- What is left after the wait. -/
noncomputable def ocpGoOn : OCP ℝ := ocpHold.only 1 (fun _ => 0) 1

theorem hold_ready : ValidOCP ocpHold ∧ ocpHold.SettingsOK ∧ ocpHold.PosScales := by
  refine ⟨?_, ?_, ?_⟩
  · constructor
    case ordX => exact rowOrdered_cons (by simp [Ext.le]) (rowOrdered_cons (by simp [Ext.le]) rowOrdered_nil)
    case ordU => exact rowOrdered_cons (by simp [Ext.le]) (rowOrdered_cons (by simp [Ext.le]) rowOrdered_nil)
    case ordA => exact rowOrdered_cons (by simp) (rowOrdered_cons (by simp) rowOrdered_nil)
    case ordT0 => exact rowOrdered_cons (by simp [Ext.le]) (rowOrdered_cons (by simp [Ext.le]) rowOrdered_nil)
    case ordTf => exact rowOrdered_cons (by simp [Ext.le]) (rowOrdered_cons (by simp [Ext.le]) rowOrdered_nil)
    case ordE => exact rowOrdered_cons (by simp [Ext.le]) rowOrdered_nil
    all_goals simp [HasShape, ocpHold, ocpRace]
  · constructor <;> simp [ocpHold, ocpRace]
  · constructor <;> simp [ocpHold, ocpRace]

theorem hold_phases {P : Nat → Prop} (h0 : P 0) (h1 : P 1) : ∀ ph < ocpHold.nPhases, P ph := two_phases h0 h1

theorem goOn_one {P : Nat → Prop} (h : P 0) : ∀ ph < ocpGoOn.nPhases, P ph := by
  intro ph hp
  obtain rfl : ph = 0 := Nat.lt_one_iff.1 hp
  exact h

theorem hold_entry {P : Nat → Prop} (h : P 0) : ∀ j < ocpHold.nx, P j := by
  intro j hj
  obtain rfl : j = 0 := Nat.lt_one_iff.1 hj
  exact h

theorem hold_cts : CtsOCP ocpHold := by
  refine ⟨fun F hF j hj => ?_, fun F hF => ?_, fun F hF => ?_, fun r hr => ?_, fun r hr => ?_⟩
  · obtain rfl : F = ⟨1, fun p _ => p.u.getD 0 0⟩ := by simpa [ocpHold, ocpRace] using hF
    exact PCts.u 0
  · simp [ocpHold, ocpRace] at hF
  · simp [ocpHold] at hF
  · obtain rfl : r = fun _ => 0 := by simpa [ocpHold, ocpRace] using hr
    exact PCts.const 0
  · have hr : r = (fun _ => 0) ∨ r = fun t => -t.xf.getD 0 0 := by simpa [ocpHold] using hr
    rcases hr with rfl | rfl
    · exact TCts.const 0
    · exact (TCts.xf 0).neg

theorem goOn_cts : CtsOCP ocpGoOn := by
  obtain ⟨h1, h2, h3, h4, h5⟩ := hold_cts
  exact ⟨fun F hF => h1 F (onlyRow_mem hF), fun F hF => h2 F (onlyRow_mem hF), fun F hF => h3 F (onlyRow_mem hF),
    fun F hF => h4 F (onlyRow_mem hF), fun F hF => h5 F (onlyRow_mem hF)⟩

theorem hold_finite : FiniteBounds ocpHold := by
  refine ⟨hold_phases (hold_entry ⟨⟨_, rfl⟩, ⟨_, rfl⟩⟩) (hold_entry ⟨⟨_, rfl⟩, ⟨_, rfl⟩⟩),
    hold_phases (hold_entry ⟨⟨_, rfl⟩, ⟨_, rfl⟩⟩) (hold_entry ⟨⟨_, rfl⟩, ⟨_, rfl⟩⟩),
    hold_phases ⟨⟨_, rfl⟩, ⟨_, rfl⟩⟩ ⟨⟨_, rfl⟩, ⟨_, rfl⟩⟩, hold_phases ⟨⟨_, rfl⟩, ⟨_, rfl⟩⟩ ⟨⟨_, rfl⟩, ⟨_, rfl⟩⟩, ?_⟩
  intro ph hp k hk
  exact absurd hk (Nat.not_lt_zero k)

theorem goOn_finite : FiniteBounds ocpGoOn := by
  refine ⟨goOn_one (hold_entry ⟨⟨_, rfl⟩, ⟨_, rfl⟩⟩), goOn_one (hold_entry ⟨⟨_, rfl⟩, ⟨_, rfl⟩⟩),
    goOn_one ⟨⟨_, rfl⟩, ⟨_, rfl⟩⟩, goOn_one ⟨⟨_, rfl⟩, ⟨_, rfl⟩⟩, ?_⟩
  intro ph hp k hk
  exact absurd hk (Nat.not_lt_zero k)

/-- Staying where one is. -/
noncomputable def stayR : CTraj := ⟨fun _ _ _ => 0, fun _ _ _ => 0, fun ph => ph, fun ph => ph + 1, fun _ _ => 0⟩

/-- Going at full speed after the wait. -/
noncomputable def goR : CTraj := ⟨fun _ _ t => t - 1, fun _ _ _ => 1, fun _ => 1, fun _ => 2, fun _ _ => 0⟩

theorem stay_hold : SolvesContinuously ocpHold stayR := by
  have hd : ∀ t : ℝ, HasDerivAt (fun _ : ℝ => (0 : ℝ)) 0 t := fun t => hasDerivAt_const t 0
  have hph : ∀ ph, (∀ t j, j < 1 → Within (entry ocpHold.lbu ph j .nan) (entry ocpHold.ubu ph j .nan) (stayR.u ph j t)) →
      ocpHold.dynamics[ph]? = some ⟨1, fun p _ => p.u.getD 0 0⟩ → ocpHold.pathConstraints[ph]? = some none →
      ocpHold.terminalConstraints[ph]? = some none →
      (∀ j < 1, Within (entry ocpHold.lbx ph j .nan) (entry ocpHold.ubx ph j .nan) 0) →
      Within (entry ocpHold.lbt0 ph 0 .nan) (entry ocpHold.ubt0 ph 0 .nan) (stayR.t0 ph) →
      Within (entry ocpHold.lbtf ph 0 .nan) (entry ocpHold.ubtf ph 0 .nan) (stayR.tf ph) → PhaseHolds ocpHold stayR ph := by
    intro ph hu h1 h2 h3 hx h4 h5
    refine ⟨by simp [stayR], ⟨?_, ?_, fun j _ t _ => (hd t).continuousAt.continuousWithinAt⟩, ?_, ?_, ?_, fun t _ _ => hx,
      fun t _ => hu t, h4, h5, fun k hk => absurd hk (Nat.not_lt_zero k)⟩
    · intro F hF j hj t _ _
      rw [h1] at hF; cases hF
      simpa [stayR, OCP.cArg, ocpHold, ocpRace] using (hd t).hasDerivWithinAt
    · intro F hF j hj
      rw [h1] at hF; cases hF
      simpa [stayR, OCP.cArg, ocpHold, ocpRace] using (hd ph).hasDerivWithinAt
    · intro F hF; rw [h2] at hF; cases hF
    · intro F hF; rw [h3] at hF; cases hF
    · intro _
      exact hold_entry (by simp [stayR, ocpHold, ocpRace, entry])
  have hl : ∀ (k p q : Nat), ocpHold.phaseLinks[k]? = some (p, q) → k = 0 ∧ p = 0 ∧ q = 1 := by
    intro k p q h
    rcases k with _ | k
    · simp [ocpHold, ocpRace] at h
      exact ⟨rfl, h.1.symm, h.2.symm⟩
    · simp [ocpHold, ocpRace] at h
  refine ⟨hold_phases (hph 0 ?_ rfl rfl rfl ?_ ?_ ?_) (hph 1 ?_ rfl rfl rfl ?_ ?_ ?_), ?_, fun _ _ _ _ _ _ => rfl, ?_⟩
  · intro t; exact hold_entry (by simp [stayR, ocpHold, entry, Within, Ext.Below, Ext.Above])
  · exact hold_entry (by simp [ocpHold, entry, Within, Ext.Below, Ext.Above])
  · simp [stayR, ocpHold, entry, Within, Ext.Below, Ext.Above]
  · simp [stayR, ocpHold, entry, Within, Ext.Below, Ext.Above]
  · intro t; exact hold_entry (by simp [stayR, ocpHold, entry, Within, Ext.Below, Ext.Above])
  · exact hold_entry (by simp [ocpHold, entry, Within, Ext.Below, Ext.Above])
  · simp [stayR, ocpHold, entry, Within, Ext.Below, Ext.Above]
  · simp [stayR, ocpHold, entry, Within, Ext.Below, Ext.Above]; norm_num
  · intro k p q h
    obtain ⟨rfl, rfl, rfl⟩ := hl k p q h
    exact hold_entry (by simp [stayR, ocpHold, ocpRace, entry, Within, Ext.Below, Ext.Above])
  · intro k p q h
    obtain ⟨rfl, rfl, rfl⟩ := hl k p q h
    simp [stayR]

theorem go_goOn : SolvesContinuously ocpGoOn goR := by
  have hd : ∀ t : ℝ, HasDerivAt (fun t : ℝ => t - 1) 1 t := fun t => (hasDerivAt_id t).sub_const 1
  refine ⟨goOn_one ?_, by simp [ocpGoOn, OCP.only], by simp [ocpGoOn, OCP.only], by simp [ocpGoOn, OCP.only]⟩
  refine ⟨by norm_num [goR], ⟨?_, ?_, fun j _ t _ => (hd t).continuousAt.continuousWithinAt⟩, ?_, ?_, ?_, ?_, ?_, ?_, ?_,
    fun k hk => absurd hk (Nat.not_lt_zero k)⟩
  · intro F hF j hj t _ _
    cases hF
    simpa [goR, OCP.cArg, ocpGoOn, OCP.only, ocpHold, ocpRace] using (hd t).hasDerivWithinAt
  · intro F hF j hj
    cases hF
    simpa [goR, OCP.cArg, ocpGoOn, OCP.only, ocpHold, ocpRace] using (hd 1).hasDerivWithinAt
  · intro F hF; cases hF
  · intro F hF; cases hF
  · intro _
    exact hold_entry (by simp [goR, ocpGoOn, OCP.only, ocpHold, ocpRace, entry])
  · intro t ht _
    have h0 : 1 ≤ t := ht.1
    have h1 : t ≤ 2 := ht.2
    refine hold_entry ⟨?_, ?_⟩
    · show (-5 : ℝ) ≤ t - 1
      linarith
    · show t - 1 ≤ (5 : ℝ)
      linarith
  · intro t _
    refine hold_entry ⟨?_, ?_⟩
    · show (-1 : ℝ) ≤ 1
      norm_num
    · show (1 : ℝ) ≤ 1
      exact le_rfl
  · exact ⟨le_refl (1 : ℝ), le_refl (1 : ℝ)⟩
  · exact ⟨le_refl (2 : ℝ), le_refl (2 : ℝ)⟩

/-- On one segment of order 2 the state advances by the mean of the first and the last control. -/
theorem hold_step {ocp : OCP ℝ} {M : Mesh ℝ} {T : Traj ℝ} (hM : M.Good) (ho : M.orders = [2]) (h0 : M.tau0 = -1) (h1 : M.tau1 = 1)
    {ph : Nat} (hx : 0 < ocp.nx) (hu : 0 < ocp.nu) (hF : ocp.dynamics[ph]? = some ⟨1, fun p _ => p.u.getD 0 0⟩)
    (hd : CollocationOK ocp M T ph) :
    T.x ph 2 0 - T.x ph 0 0 = (T.tf ph - T.t0 ph) * T.w 0 ph * (T.u ph 0 0 + T.u ph 2 0) / 2 := by
  have hl : 0 < M.orders.length := by rw [ho]; exact Nat.one_pos
  have hord : M.order 0 = 2 := by unfold Mesh.order; rw [ho]; rfl
  have hidx : ∀ i, M.idx 0 i = i := fun i => by simp [Mesh.idx, segStart]
  have n0 : M.node 0 0 = -1 := by
    unfold Mesh.node
    rw [hord, List.getD_eq_getElem?_getD, hM.first 2 (by rw [ho]; simp), h0]; rfl
  have n2 : M.node 0 2 = 1 := by
    unfold Mesh.node
    rw [hord, List.getD_eq_getElem?_getD, hM.last 2 (by rw [ho]; simp), h1]; rfl
  have d0 := hd _ hF 0 hx 0 0 ⟨hl, Nat.zero_le _, .inl rfl⟩
  have d2 := hd _ hF 0 hx 0 2 ⟨hl, hord.ge, .inl rfl⟩
  have e0 := hM.piece_eval_node (fun k => T.x ph k 0) hl (i := 0) (by omega)
  have e2 := hM.piece_eval_node (fun k => T.x ph k 0) hl (i := 2) (by omega)
  have hdeg := hM.piece_degrees (fun k => T.x ph k 0) 0 hl
  rw [← Mesh.order_eq (M := M) hl, hord] at hdeg
  rw [n0, hidx] at d0 e0
  rw [n2, hidx] at d2 e2
  generalize M.piece (fun k => T.x ph k 0) 0 = P at *
  have hu0 : ∀ k t, (ocp.pArg T ph k t).u.getD 0 0 = T.u ph k 0 := fun k t => by
    simp [OCP.pArg, List.getD_eq_getElem?_getD, hu]
  simp only [hu0, Mesh.halfWidth, h0, h1] at d0 d2
  rw [← e0, ← e2]
  have hP : P = C (P.coeff 0) + C (P.coeff 1) * X + C (P.coeff 2) * X ^ 2 := by
    conv_lhs => rw [P.as_sum_range_C_mul_X_pow' (n := 3) (by omega)]
    simp [Finset.sum_range_succ]
  rw [hP] at d0 d2 ⊢
  simp only [derivative_add, derivative_C, derivative_C_mul, derivative_X, derivative_X_pow, zero_add, eval_add, eval_mul, eval_C,
    eval_X, eval_pow, eval_one, Nat.cast_ofNat, map_ofNat, eval_ofNat] at d0 d2 ⊢
  norm_num at d0 d2 ⊢
  linarith

theorem goOn_cost {M : Mesh ℝ} {S : Traj ℝ} (W : List ℝ) : PhysCost ocpGoOn M W S (-S.x 0 (M.N - 1) 0) := by
  refine ⟨fun _ _ => 0, goOn_one ?_, ?_⟩
  · intro rc hrc s i _
    cases hrc
    simp
  · have h0 : weightedSum W (fun _ => 0) = 0 := by simp [weightedSum]
    rw [show ocpGoOn.nPhases = 1 from rfl, Finset.sum_range_one, h0]
    simp [TerminalCost, ocpGoOn, OCP.only, onlyRow, ocpHold, ocpRace, OCP.tArg]

/-- With one segment of order 2: the whole problem is solved to optimality, and what is shown arrives at 1/2 at most, because the control
has to begin at 0 where the wait ended. What is left after the wait, planned again from where the wait was shown to end, arrives at 1. -/
theorem exampleHold : ∃ (M : Mesh ℝ) (nlpsol nlpsol' : SolverCall ℝ Nat → Py (List ℝ)) (s s' : Session ℝ Nat) (p p' : Post ℝ)
    (r r' : Option (PyDict (ResidVal ℝ))) (T S : Traj ℝ), MeshFor outsideR "LGR" 1 (.int 2) M ∧
      (∀ c z, nlpsol c = .ok z → c.IsOptimal z) ∧ (∀ c z, nlpsol' c = .ok z → c.IsOptimal z) ∧
      mpSolve outsideR nlpsol ocpHold [[0]] 1 (.int 2) "LGR" argsR false true = .ok (s, p, r) ∧ p.Shows ocpHold M T ∧
      mpSolve outsideR nlpsol' (ocpHold.only 1 (T.x 1 0) (T.t0 1)) [[0]] 1 (.int 2) "LGR" argsR false true = .ok (s', p', r') ∧
      p'.Shows (ocpHold.only 1 (T.x 1 0) (T.t0 1)) M S ∧ ocpHold.Final 1 ∧
      T.x 1 (M.N - 1) 0 ≤ 1 / 2 ∧ 1 ≤ S.x 0 (M.N - 1) 0 := by
  obtain ⟨hv, hs, hsc⟩ := hold_ready
  obtain ⟨M, hM, ho⟩ := exists_lgr_int (n := 1) (p := 2) Nat.one_pos le_rfl
  have ho' : M.orders = [2] := ho
  have hN : M.N - 1 = 2 := by unfold Mesh.N; rw [ho']; rfl
  have h0 : M.tau0 = -1 := hM.tau0
  have h1 : M.tau1 = 1 := hM.tau1
  obtain ⟨nlpsol, s, p, r, T, -, hopt, hrun, hsh, hT, -, -, -⟩ := exists_best_lines hv hs hsc
    (hold_phases (by simp [ocpHold, entry]) (by simp [ocpHold, entry])) hold_cts hold_finite (hold_phases rfl rfl) (hold_phases rfl rfl)
    (hold_phases rfl rfl) stay_hold (fun _ _ => ⟨0, 0, by funext t; simp [stayR]⟩) Nat.one_pos le_rfl hM ho
  obtain ⟨hv', hs', hsc'⟩ := only_ready (x := fun _ => (0 : ℝ)) (t := 1) hv hs hsc (q := 1) Nat.one_lt_two
  obtain ⟨nlpsol', s', p', r', S, S₀, hopt', hrun', hsh', hS, hgo, hS₀, hwS₀⟩ := exists_best_lines (ocp := ocpGoOn) hv' hs' hsc'
    (goOn_one (by simp [ocpGoOn, OCP.only, onlyRow, ocpHold, entry])) goOn_cts goOn_finite (goOn_one rfl) (goOn_one rfl)
    (goOn_one rfl) go_goOn (fun _ _ => ⟨1, -1, by funext t; simp [goR]; ring⟩) Nat.one_pos le_rfl hM ho
  have w0 : T.w 0 0 = 1 := by rw [hT.widths 0 Nat.two_pos 0 Nat.one_pos]; norm_num
  have w1 : T.w 0 1 = 1 := by rw [hT.widths 1 Nat.one_lt_two 0 Nat.one_pos]; norm_num
  have v0 : S₀.w 0 0 = 1 := by rw [hwS₀ 0 Nat.one_pos 0 Nat.one_pos]; norm_num
  have b0 := hT.solves.1.bounds 0 Nat.two_pos
  have b1 := hT.solves.1.bounds 1 Nat.one_lt_two
  have hl := hT.solves.1.links le_rfl
  have t00 : T.t0 0 = 0 := le_antisymm b0.t0.2 b0.t0.1
  have tf0 : T.tf 0 = 1 := le_antisymm b0.tf.2 b0.tf.1
  have t01 : T.t0 1 = 1 := le_antisymm b1.t0.2 b1.t0.1
  have tf1 : T.tf 1 = 2 := le_antisymm b1.tf.2 b1.tf.1
  have x0 : T.x 0 0 0 = 0 := b0.x0 rfl 0 Nat.one_pos
  have hu0 : ∀ k ≤ 2, T.u 0 k 0 = 0 := fun k hk => by
    have := b0.u k (by omega) 0 Nat.one_pos
    exact le_antisymm this.2 this.1
  have st0 := hold_step (ocp := ocpHold) hM.good ho' h0 h1 Nat.one_pos Nat.one_pos rfl (hT.solves.1.dynamics 0 Nat.two_pos)
  have st1 := hold_step (ocp := ocpHold) hM.good ho' h0 h1 Nat.one_pos Nat.one_pos rfl (hT.solves.1.dynamics 1 Nat.one_lt_two)
  have lu : T.u 1 0 0 = T.u 0 (M.N - 1) 0 := hl.u 0 0 1 rfl 0 Nat.one_pos
  have lx := hl.x 0 0 1 rfl 0 Nat.one_pos
  have lx1 : (0 : ℝ) ≤ T.x 1 0 0 - T.x 0 (M.N - 1) 0 := lx.1
  have lx2 : T.x 1 0 0 - T.x 0 (M.N - 1) 0 ≤ (0 : ℝ) := lx.2
  rw [hN] at lu lx1 lx2
  rw [hu0 2 le_rfl] at lu st0
  rw [hu0 0 (by omega), x0] at st0
  have x1 : T.x 1 0 0 = 0 := by linarith
  have u1 : T.u 1 2 0 ≤ 1 := (b1.u 2 (by omega) 0 Nat.one_pos).2
  have e : ocpHold.only 1 (T.x 1 0) (T.t0 1) = ocpGoOn := by
    unfold ocpGoOn OCP.only
    rw [t01, show ocpHold.nx = 1 from rfl]
    simp [x1]
  rw [lu, x1, t01, tf1, w1] at st1
  refine ⟨M, nlpsol, nlpsol', s, s', p, p', r, r', T, S, hM, hopt, hopt', hrun, hsh, e ▸ hrun', e ▸ hsh', ?_, ?_, ?_⟩
  · simp [OCP.Final, ocpHold, ocpRace]
  · rw [hN]; linarith
  · obtain ⟨W, hW⟩ : ∃ W, compQuadWeights ⟨outsideR.method, outsideR.tau0, outsideR.tau1,
        tausFn outsideR.lib outsideR.tau0 outsideR.tau1 "LGR"⟩ M.orders = .ok W := by
      obtain ⟨_, W, _, hW, -⟩ := C53_solve_optimal hrun hv hs hsc hM hopt
      exact ⟨W, hW⟩
    have := hS.best W _ hW (goOn_cost W) S₀ _ hS₀ hwS₀ (goOn_cost W)
    have g2 := hgo.x 0 Nat.one_pos 0 Nat.one_pos 0 2 ⟨by rw [ho']; exact Nat.one_pos, by unfold Mesh.order; rw [ho']; exact le_rfl, .inl rfl⟩
    have n2 : M.node 0 2 = 1 := by
      unfold Mesh.node Mesh.order
      rw [ho', show ([2] : List Nat).getD 0 0 = 2 from rfl, List.getD_eq_getElem?_getD, hM.good.last 2 (by rw [ho']; simp), h1]; rfl
    have tt0 : S₀.t0 0 = 1 := hgo.t0 0 Nat.one_pos
    have ttf : S₀.tf 0 = 2 := hgo.tf 0 Nat.one_pos
    rw [show M.idx 0 2 = 2 by simp [Mesh.idx, segStart]] at g2
    simp only [goR, Mesh.time, Mesh.halfWidth, tt0, ttf, n2, h0, h1, v0] at g2
    norm_num at g2
    rw [hN] at this ⊢
    linarith

end MPOpt
