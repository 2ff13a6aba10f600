import Verif.Spec.Forward
import Verif.Props.Schwartz
import Verif.Props.Certificate

/-!
# C107: phases that end before they start

Nothing in the library requires a phase to end after it starts, except what follows from the bounds on the times.
-/

set_option autoImplicit false

namespace MPOpt
open Polynomial

variable {M : Mesh ℝ} {T : Traj ℝ}

/-! ### Bounds that prevent it -/

/-- **C107** With such bounds on the times, every trajectory that meets bounds and links runs forward in all phases. -/
theorem C107_forward {ocp : OCP ℝ} (h : ocp.TimesOrdered) (hB : ∀ ph < ocp.nPhases, BoundsOK ocp M T ph)
    (hL : 2 ≤ ocp.nPhases → LinksOK ocp M T) : ∀ ph < ocp.nPhases, T.t0 ph ≤ T.tf ph := by
  intro ph hp
  obtain ⟨a, b, hab, e, h⟩ := h ph hp
  have h2 := (hB ph hp).tf.1
  rw [e] at h2
  have h2 : b ≤ T.tf ph := h2
  rcases h with e' | ⟨h2p, k, p, hk, hpp, e'⟩
  · have h1 := (hB ph hp).t0.2
    rw [e'] at h1
    have h1 : T.t0 ph ≤ a := h1
    linarith
  · have h1 := (hB p hpp).tf.2
    rw [e'] at h1
    have h1 : T.tf p ≤ a := h1
    rw [(hL h2p).t k p ph hk]
    linarith

/-- The condition is met by the default bounds on the times of a problem with one phase, -/
theorem timesOrdered_default (nx nu na : Nat) : ∃ ocp : OCP ℝ, mkOCP nx nu 1 na = .ok ocp ∧ ocp.TimesOrdered := by
  refine ⟨_, rfl, fun ph hp => ?_⟩
  obtain rfl : ph = 0 := Nat.lt_one_iff.1 hp
  exact ⟨0, 0, le_rfl, rfl, Or.inl rfl⟩

/-- and by the shipped two-phase problem. -/
theorem timesOrdered_Sch : ocpSch.TimesOrdered :=
  two_phases ⟨0, 1, by norm_num, rfl, Or.inl rfl⟩
    ⟨1, 29 / 10, by norm_num, rfl, Or.inr ⟨le_rfl, 0, 0, rfl, by simp [ocpSch], rfl⟩⟩

/-- **C107** So the bounds of C106 then hold for all trajectories of the collocated problem. -/
theorem C107_at_least {ocp : OCP ℝ} (h : ocp.TimesOrdered) {W : List ℝ} {lower : ℝ} (hT : CoreFeasible ocp M T)
    (hc : AtLeast lower ocp M W T) : ∀ J, PhysCost ocp M W T J → lower ≤ J :=
  hc (C107_forward h hT.bounds hT.links)

/-! ### A race won by turning round -/

/-- `ocp = OCP(1, 1, n_phases=2)` with the dynamics `x' = u`, controls in `[-1, 1]`, the end point `x = 1` and the final time
as cost, all else at its default. -/
noncomputable def scriptRace : Py (OCP ℝ) := do
  let o ← mkOCP 1 1 2 0
  let dyn : VFun (PArg ℝ) ℝ := ⟨1, fun p _ => p.u.getD 0 0⟩
  return { o with
    dynamics := [dyn, dyn]
    terminalCosts := o.terminalCosts.set 1 fun t => t.tf
    terminalConstraints := o.terminalConstraints.set 1 (some ⟨1, fun t _ => t.xf.getD 0 0 - 1⟩)
    lbu := [[.fin (-1)], [.fin (-1)]]
    ubu := [[.fin 1], [.fin 1]] }

/-- The object built by the script, written out. -/
noncomputable def ocpRace : OCP ℝ :=
  { nx := 1, nu := 1, na := 0, nPhases := 2
    dynamics := [⟨1, fun p _ => p.u.getD 0 0⟩, ⟨1, fun p _ => p.u.getD 0 0⟩]
    pathConstraints := [none, none]
    terminalCosts := [fun _ => 0, fun t => t.tf]
    runningCosts := [fun _ => 0, fun _ => 0]
    terminalConstraints := [none, some ⟨1, fun t _ => t.xf.getD 0 0 - 1⟩]
    phaseLinks := [(0, 1)]
    scaleX := [1], scaleU := [1], scaleA := [], scaleT := 1
    x00 := [[0], [0]], xf0 := [[0], [0]], u00 := [[0], [0]], uf0 := [[0], [0]], t00 := [[0], [0]], tf0 := [[1], [1]]
    a0 := [[], []]
    lbx := [[.ninf], [.ninf]], ubx := [[.pinf], [.pinf]]
    lbu := [[.fin (-1)], [.fin (-1)]], ubu := [[.fin 1], [.fin 1]], lba := [[], []], uba := [[], []]
    lbt0 := [[.fin 0], [.fin 0]], ubt0 := [[.fin 0], [.pinf]], lbtf := [[.fin 0], [.fin 0]], ubtf := [[.pinf], [.pinf]]
    lbe := [[.fin 0]], ube := [[.fin 0]], diffU := [false, false], lbdu := [.fin (-15), .fin (-15)]
    ubdu := [.fin 15, .fin 15], midu := [true, true], duContinuity := [false, false] }

theorem scriptRace_eq : scriptRace = .ok ocpRace := rfl

theorem race_ready : ValidOCP ocpRace ∧ ocpRace.SettingsOK ∧ ocpRace.PosScales := by
  refine ⟨?_, ?_, ?_⟩
  · constructor
    case ordX => exact rowOrdered_cons (by simp [Ext.le]) (rowOrdered_cons (by simp [Ext.le]) rowOrdered_nil)
    case ordU => exact rowOrdered_cons (by simp [Ext.le]) (rowOrdered_cons (by simp [Ext.le]) rowOrdered_nil)
    case ordA => exact rowOrdered_cons (by simp) (rowOrdered_cons (by simp) rowOrdered_nil)
    case ordT0 => exact rowOrdered_cons (by simp [Ext.le]) (rowOrdered_cons (by simp [Ext.le]) rowOrdered_nil)
    case ordTf => exact rowOrdered_cons (by simp [Ext.le]) (rowOrdered_cons (by simp [Ext.le]) rowOrdered_nil)
    case ordE => exact rowOrdered_cons (by simp [Ext.le]) rowOrdered_nil
    all_goals simp [HasShape, ocpRace]
  · constructor <;> simp [ocpRace]
  · constructor <;> simp [ocpRace]

theorem race_phases {P : Nat → Prop} (h0 : P 0) (h1 : P 1) : ∀ ph < ocpRace.nPhases, P ph := two_phases h0 h1

theorem race_entry {P : Nat → Prop} (h : P 0) : ∀ j < ocpRace.nx, P j := by
  intro j hj
  obtain rfl : j = 0 := Nat.lt_one_iff.1 hj
  exact h

/-- The cost of a trajectory is its final time. -/
theorem race_cost {W : List ℝ} (hM : M.Good) (hW : W.length = M.N) {J : ℝ} :
    PhysCost ocpRace M W T J ↔ J = T.tf 1 := by
  have h : PhysCost ocpRace M W T (T.tf 1) := by
    refine ⟨fun _ _ => 0, race_phases ?_ ?_, ?_⟩
    · intro rc hrc s i _
      cases hrc
      simp
    · intro rc hrc s i _
      cases hrc
      simp
    · have h0 : weightedSum W (fun _ => 0) = 0 := by simp [weightedSum]
      rw [show ocpRace.nPhases = 2 from rfl, Finset.sum_range_succ, Finset.sum_range_one, h0]
      simp [TerminalCost, ocpRace, OCP.tArg]
  exact ⟨fun h' => h'.unique hM hW rfl h, fun e => e ▸ h⟩

/-- `V(t, x) = t - x`. -/
noncomputable def certRace : Certificate := ⟨fun _ _ => C (-1), fun _ => X⟩

theorem certRace_proves : certRace.Proves ocpRace 1 := by
  have hr : ∀ ph p, ocpRace.Admissible ph p → ph < 2 → ∀ v : Nat → ℝ, v 0 = p.u.getD 0 0 →
      0 ≤ (0 : ℝ) + certRace.rate ocpRace.nx ph p.t (fun j => p.x.getD j 0) v := by
    intro ph p hp hph v hv
    have hu := hp.u 0 (by simp [ocpRace])
    have hu : p.u.getD 0 0 ≤ 1 := by
      interval_cases ph
      · exact hu.2
      · exact hu.2
    simp only [Certificate.rate, show ocpRace.nx = 1 from rfl, Finset.sum_range_one, certRace, derivative_C, eval_zero,
      zero_mul, eval_C, derivative_X, eval_one, hv]
    linarith
  constructor
  · refine race_phases ?_ ?_
    · intro F L hF hL p hp
      cases hF; cases hL
      exact hr 0 p hp (by norm_num) _ rfl
    · intro F L hF hL p hp
      cases hF; cases hL
      exact hr 1 p hp (by norm_num) _ rfl
  · intro E hE
    have x0 : E.x 0 0 0 = 0 := (hE.bounds 0 (by simp [ocpRace])).x0 rfl 0 (by simp [ocpRace])
    have x1 : E.x 1 1 0 - 1 = 0 := hE.terminal 1 (by simp [ocpRace]) _ rfl 0 (by simp)
    have t0 : (0 : ℝ) ≤ E.t0 0 := (hE.bounds 0 (by simp [ocpRace])).t0.1
    have t0' : E.t0 0 ≤ 0 := (hE.bounds 0 (by simp [ocpRace])).t0.2
    have hl := hE.links (by simp [ocpRace])
    have lt : E.t0 1 = E.tf 0 := hl.t 0 0 1 rfl
    have lx : (0 : ℝ) ≤ E.x 1 0 0 - E.x 0 1 0 ∧ E.x 1 0 0 - E.x 0 1 0 ≤ 0 := hl.x 0 0 1 rfl 0 (by simp [ocpRace])
    rw [show ocpRace.nPhases = 2 from rfl, Finset.sum_range_succ, Finset.sum_range_one,
      show ocpRace.terminalCosts.getD 0 (fun _ => 0) (ocpRace.tArg E 0 2) = 0 from rfl,
      show ocpRace.terminalCosts.getD 1 (fun _ => 0) (ocpRace.tArg E 1 2) = E.tf 1 from rfl]
    simp only [Certificate.value, show ocpRace.nx = 1 from rfl, Finset.sum_range_one, certRace, eval_C, eval_X]
    linarith [lx.1, lx.2]

theorem certRace_fits {orders : List Nat} (h : ∀ p ∈ orders, 2 ≤ p) : certRace.Fits ocpRace orders := by
  intro ph _ p hp
  have := h p hp
  refine ⟨fun j _ => ?_, ?_⟩
  · show (C (-1) : ℝ[X]).natDegree + 1 ≤ p
    rw [natDegree_C]; omega
  · show (X : ℝ[X]).natDegree + 1 ≤ 2 * p
    rw [natDegree_X]; omega

theorem race_cost_continuous (C : CTraj) : ocpRace.trueCost C = C.tf 1 := by
  rw [OCP.trueCost, show ocpRace.nPhases = 2 from rfl, Finset.sum_range_succ, Finset.sum_range_one]
  simp [ocpRace, OCP.cEnd]

/-- **C107** In the race as it is meant, nobody arrives before time 1, -/
theorem C107_race_true {C : CTraj} (hC : SolvesContinuously ocpRace C) : 1 ≤ C.tf 1 := by
  rw [← race_cost_continuous]
  refine C106_continuous certRace_proves race_ready.1 hC (race_phases ?_ ?_)
  · exact intervalIntegrable_const
  · exact intervalIntegrable_const

/-- Moving with speed 1 through both phases. -/
noncomputable def straightRace : CTraj :=
  { x := fun _ _ t => t, u := fun _ _ _ => 1, t0 := fun ph => if ph = 0 then 0 else 1 / 2
    tf := fun ph => if ph = 0 then 1 / 2 else 1, a := fun _ _ => 0 }

/-- and who moves with speed 1 arrives at that time. -/
theorem C107_race_attained : SolvesContinuously ocpRace straightRace ∧ straightRace.tf 1 = 1 := by
  have dyn : ∀ ph < 2, DynamicsHold ocpRace straightRace ph := by
    intro ph hp
    have hF : ∀ F, ocpRace.dynamics[ph]? = some F → ∀ t, F.f (ocpRace.cArg straightRace ph t) 0 = 1 := by
      intro F hF t
      interval_cases ph <;> cases hF <;> simp [ocpRace, OCP.cArg, straightRace]
    refine ⟨fun F hF' => race_entry fun t _ _ => ?_, fun F hF' => race_entry ?_, race_entry ?_⟩
    · rw [hF F hF']; exact hasDerivWithinAt_id _ _
    · rw [hF F hF']; exact hasDerivWithinAt_id _ _
    · exact continuousOn_id
  refine ⟨⟨race_phases ?_ ?_, ?_, ?_, ?_⟩, by simp [straightRace]⟩
  · refine ⟨by simp [straightRace], dyn 0 (by norm_num), ?_, ?_, ?_, ?_, ?_, ?_, ?_, ?_⟩
    · intro F hF; simp [ocpRace] at hF
    · intro F hF; simp [ocpRace] at hF
    · exact fun _ => race_entry (by simp [straightRace, ocpRace, entry])
    · exact fun t _ _ => race_entry (by simp [ocpRace, entry, Within, Ext.Below, Ext.Above])
    · exact fun t _ => race_entry (by simp [ocpRace, entry, Within, Ext.Below, Ext.Above, straightRace])
    · simp [ocpRace, entry, Within, Ext.Below, Ext.Above, straightRace]
    · simp [ocpRace, entry, Within, Ext.Below, Ext.Above, straightRace]
    · intro k hk; simp [ocpRace] at hk
  · refine ⟨by norm_num [straightRace], dyn 1 (by norm_num), ?_, ?_, ?_, ?_, ?_, ?_, ?_, ?_⟩
    · intro F hF; simp [ocpRace] at hF
    · intro F hF
      cases hF
      intro c _
      simp [ocpRace, OCP.cEnd, straightRace]
    · intro h; omega
    · exact fun t _ _ => race_entry (by simp [ocpRace, entry, Within, Ext.Below, Ext.Above])
    · exact fun t _ => race_entry (by simp [ocpRace, entry, Within, Ext.Below, Ext.Above, straightRace])
    · simp [ocpRace, entry, Within, Ext.Below, Ext.Above, straightRace]
    · simp [ocpRace, entry, Within, Ext.Below, Ext.Above, straightRace]
    · intro k hk; simp [ocpRace] at hk
  · intro k p q hk
    obtain rfl : k = 0 := by
      have := (List.getElem?_eq_some_iff.1 hk).1
      simpa [ocpRace] using this
    cases hk
    exact race_entry (by simp [ocpRace, entry, Within, Ext.Below, Ext.Above, straightRace])
  · intro k p q hk
    obtain rfl : k = 0 := by
      have := (List.getElem?_eq_some_iff.1 hk).1
      simpa [ocpRace] using this
    cases hk
    exact race_entry (by simp [straightRace])
  · intro k p q hk
    obtain rfl : k = 0 := by
      have := (List.getElem?_eq_some_iff.1 hk).1
      simpa [ocpRace] using this
    cases hk
    simp [straightRace]

/-! ### How the collocated problem is solved -/

/-- Times of nodes in a phase that runs forward or backward. -/
theorem time_between (hM : M.Good) (hI : M.Inside) {ph s : Nat} (hw : FullWidths M T ph) (hs : s < M.orders.length)
    {tau : ℝ} (h0 : M.tau0 ≤ tau) (h1 : tau ≤ M.tau1) :
    ∃ θ, 0 ≤ θ ∧ θ ≤ 1 ∧ M.time T ph s tau = T.t0 ph + θ * (T.tf ph - T.t0 ph) := by
  have h := time_bounds (T := { T with t0 := fun _ => 0, tf := fun _ => 1 }) hM hI (by norm_num) (ph := ph)
    ⟨hw.pos, hw.sum⟩ hs
  refine ⟨_, h.2.1 tau h0, h.2.2 tau h1, ?_⟩
  simp only [Mesh.time, Mesh.halfWidth]
  ring

/-- `piece_of_poly` for segments of any sign. -/
theorem piece_of_poly_any (hM : M.Good) {v : Nat → ℝ} {ph s : Nat} (hs : s < M.orders.length) {P : ℝ[X]}
    (h : ∀ s i, M.Owns s i → v (M.idx s i) = P.eval (M.time T ph s (M.node s i))) (hP : P.natDegree ≤ M.order s) :
    M.piece v s = P.comp (M.clockPoly T ph s) := by
  apply hM.piece_eq hs
  · refine degree_le_natDegree.trans_lt ?_
    have := (M.clockPoly_comp T ph s P 0).2.2
    exact_mod_cast (by omega : (P.comp (M.clockPoly T ph s)).natDegree < M.order s + 1)
  · intro i hi
    rw [(M.clockPoly_comp T ph s P _).1, samples_all hM (f := fun t => P.eval t) h hs hi]

/-- States of the two phases: out until time 1, then on while the clock runs back to 0. -/
noncomputable def turnX (ph : Nat) : ℝ[X] := if ph = 0 then X - C (1 / 2) * X ^ 2 else 1 - X + C (1 / 2) * X ^ 2

noncomputable def turnU (ph : Nat) : ℝ[X] := if ph = 0 then 1 - X else X - 1

noncomputable def turnRace : CTraj :=
  { x := fun ph _ t => (turnX ph).eval t, u := fun ph _ t => (turnU ph).eval t, t0 := fun ph => if ph = 0 then 0 else 1
    tf := fun ph => if ph = 0 then 1 else 0, a := fun _ _ => 0 }

theorem turn_degree (ph : Nat) : (turnX ph).natDegree ≤ 2 ∧ (turnU ph).natDegree ≤ 1 := by
  unfold turnX turnU
  split <;> exact ⟨by compute_degree, by compute_degree⟩

theorem turn_deriv (ph : Nat) : derivative (turnX ph) = turnU ph := by
  have h : (C (1 / 2) * (C 2 * X) : ℝ[X]) = X := by
    rw [← mul_assoc, ← C_mul]; norm_num
  unfold turnX turnU
  split
  · simp only [derivative_sub, derivative_X, derivative_C_mul, derivative_X_pow]
    norm_num [h]
  · simp only [derivative_sub, derivative_add, derivative_one, derivative_X, derivative_C_mul, derivative_X_pow]
    norm_num [h]
    ring

/-- The turning trajectory meets everything that any of the solver classes imposes. -/
structure RaceTurn (M : Mesh ℝ) (T : Traj ℝ) : Prop where
  core : CoreFeasible ocpRace M T
  mid : ∀ ph < 2, MidControlOK ocpRace M T ph
  midState : ∀ ph < 2, MidStateOK ocpRace M T ph
  defect : ∀ ph < 2, ∀ F, ocpRace.dynamics[ph]? = some F → ∀ s < M.orders.length, ∀ tau, ocpRace.defect M T F ph s tau 0 = 0
  tf : T.tf 1 = 0

theorem exists_raceTurn (hM : M.Good) (hI : M.Inside) (hord : ∀ q ∈ M.orders, 2 ≤ q) {w : Nat → Nat → ℝ}
    (hw : ∀ ph < 2, (∀ s < M.orders.length, 0 < w s ph) ∧ ∑ s ∈ Finset.range M.orders.length, w s ph = 1) :
    ∃ T, T.w = w ∧ RaceTurn M T := by
  obtain ⟨T, hS, rfl⟩ := exists_samples_of ocpRace M turnRace w
  have hfull : ∀ ph < 2, FullWidths M T ph := fun ph hp => ⟨(hw ph hp).1, (hw ph hp).2⟩
  have ho : ∀ s < M.orders.length, 2 ≤ M.order s := fun s hs => hord _ (hM.order_mem hs)
  have px : ∀ ph < 2, ∀ s < M.orders.length, M.piece (fun k => T.x ph k 0) s = (turnX ph).comp (M.clockPoly T ph s) :=
    fun ph hp s hs => piece_of_poly_any hM hs (hS.x ph hp 0 (by simp [ocpRace])) ((turn_degree ph).1.trans (ho s hs))
  have pu : ∀ ph < 2, ∀ s < M.orders.length, M.piece (fun k => T.u ph k 0) s = (turnU ph).comp (M.clockPoly T ph s) :=
    fun ph hp s hs => piece_of_poly_any hM hs (hS.u ph hp 0 (by simp [ocpRace]))
      ((turn_degree ph).2.trans (by have := ho s hs; omega))
  have htime : ∀ ph < 2, ∀ s < M.orders.length, ∀ tau, M.tau0 ≤ tau → tau ≤ M.tau1 →
      0 ≤ M.time T ph s tau ∧ M.time T ph s tau ≤ 1 := by
    intro ph hp s hs tau h0 h1
    obtain ⟨θ, a, b, e⟩ := time_between hM hI (hfull ph hp) hs h0 h1
    rw [e, hS.t0 ph hp, hS.tf ph hp]
    rcases ph with _ | ph
    · simp only [turnRace, if_true]; constructor <;> linarith
    · simp only [turnRace, Nat.succ_ne_zero, if_false]; constructor <;> linarith
  have hub : ∀ ph t, 0 ≤ t → t ≤ 1 → -1 ≤ (turnU ph).eval t ∧ (turnU ph).eval t ≤ 1 := by
    intro ph t h0 h1
    unfold turnU
    split <;> simp <;> constructor <;> linarith
  have wu : ∀ ph < 2, ∀ v, -1 ≤ v ∧ v ≤ 1 → Within (entry ocpRace.lbu ph 0 .nan) (entry ocpRace.ubu ph 0 .nan) v := by
    intro ph hp v hv
    interval_cases ph <;> exact hv
  have wx : ∀ ph < 2, ∀ v, Within (entry ocpRace.lbx ph 0 .nan) (entry ocpRace.ubx ph 0 .nan) v := by
    intro ph hp v
    interval_cases ph <;> exact ⟨trivial, trivial⟩
  have hdyn : ∀ ph < 2, ∀ F, ocpRace.dynamics[ph]? = some F → ∀ p, F.f p 0 = p.u.getD 0 0 := by
    intro ph hp F hF p
    interval_cases ph <;> cases hF <;> rfl
  have e0 := hS.ends hM (ph := 0) (by simp [ocpRace]) (hfull 0 (by norm_num))
  have e1 := hS.ends hM (ph := 1) (by simp [ocpRace]) (hfull 1 (by norm_num))
  have bnd : ∀ ph < 2, BoundsOK ocpRace M T ph := by
    intro ph hp
    refine ⟨fun _ => race_entry ?_, fun i _ _ => race_entry (wx ph hp _), fun i hi => race_entry ?_, ?_, ?_, fun k hk => ?_⟩
    · rw [e0.1 0 (by simp [ocpRace])]
      simp [turnRace, turnX, ocpRace, entry]
    · obtain ⟨s, k, hown, rfl⟩ := M.exists_owner hM.nonempty hi
      refine wu ph hp _ ?_
      rw [hS.u ph hp 0 (by simp [ocpRace]) s k hown]
      obtain ⟨n0, n1⟩ := hI.node hM hown.1 hown.2.1
      obtain ⟨a, b⟩ := htime ph hp s hown.1 _ n0 n1
      exact hub ph _ a b
    · rw [hS.t0 ph hp]
      interval_cases ph <;> simp [ocpRace, entry, Within, Ext.Below, Ext.Above, turnRace]
    · rw [hS.tf ph hp]
      interval_cases ph <;> simp [ocpRace, entry, Within, Ext.Below, Ext.Above, turnRace]
    · simp [ocpRace] at hk
  refine ⟨T, rfl, ⟨bnd, ?_, ?_, ?_, fun _ => ⟨?_, ?_, ?_⟩⟩, ?_, ?_, ?_, ?_⟩
  · intro ph hp F hF
    refine race_entry fun s i hown => ?_
    rw [px ph hp s hown.1, (M.clockPoly_comp T ph s _ _).2.1, turn_deriv, hdyn ph hp F hF]
    congr 1
    have := hS.u ph hp 0 (by simp [ocpRace]) s i hown
    rw [show (ocpRace.pArg T ph (M.idx s i) (M.time T ph s (M.node s i))).u.getD 0 0 = T.u ph (M.idx s i) 0 from rfl, this]
    rfl
  · refine race_phases ?_ ?_ <;> (intro F hF; simp [ocpRace] at hF)
  · refine race_phases ?_ ?_
    · intro F hF; simp [ocpRace] at hF
    · intro F hF
      cases hF
      intro c _
      show T.x 1 (M.N - 1) 0 - 1 = 0
      rw [e1.2.1 0 (by simp [ocpRace])]
      simp [turnRace, turnX]
  · intro k p q hk
    obtain rfl : k = 0 := by
      have := (List.getElem?_eq_some_iff.1 hk).1
      simpa [ocpRace] using this
    cases hk
    refine race_entry ?_
    rw [e1.1 0 (by simp [ocpRace]), e0.2.1 0 (by simp [ocpRace])]
    norm_num [ocpRace, entry, Within, Ext.Below, Ext.Above, turnRace, turnX]
  · intro k p q hk
    obtain rfl : k = 0 := by
      have := (List.getElem?_eq_some_iff.1 hk).1
      simpa [ocpRace] using this
    cases hk
    refine race_entry ?_
    rw [e1.2.2.1 0 (by simp [ocpRace]), e0.2.2.2 0 (by simp [ocpRace])]
    simp [turnRace, turnU]
  · intro k p q hk
    obtain rfl : k = 0 := by
      have := (List.getElem?_eq_some_iff.1 hk).1
      simpa [ocpRace] using this
    cases hk
    rw [hS.t0 1 (by simp [ocpRace]), hS.tf 0 (by simp [ocpRace])]
    simp [turnRace]
  · intro ph hp
    refine race_entry fun s hs i hi => wu ph hp _ ?_
    rw [pu ph hp s hs, (M.clockPoly_comp T ph s _ _).1]
    obtain ⟨m0, m1⟩ := hI.mid hM hs hi
    obtain ⟨a, b⟩ := htime ph hp s hs _ m0.le m1
    exact hub ph _ a b
  · intro ph hp
    exact race_entry fun s hs i hi => wx ph hp _
  · intro ph hp F hF s hs tau
    unfold OCP.defect
    rw [px ph hp s hs, (M.clockPoly_comp T ph s _ _).2.1, turn_deriv, hdyn ph hp F hF,
      show (ocpRace.pArgAt M T ph s tau).u.getD 0 0 = (M.piece (fun k => T.u ph k 0) s).eval tau from rfl,
      pu ph hp s hs, (M.clockPoly_comp T ph s _ _).1, sub_self]
  · rw [hS.tf 1 (by simp [ocpRace])]
    simp [turnRace]

theorem RaceTurn.solves (h : RaceTurn M T) : SolvesOCP ocpRace M T := by
  refine ⟨⟨h.core.bounds, h.core.dynamics, h.core.path, h.core.terminal, fun ph hp _ => h.mid ph hp, ?_, h.core.links⟩, ?_⟩
  · refine race_phases ?_ ?_ <;> (intro h; simp [ocpRace] at h)
  · refine race_phases ?_ ?_ <;> (intro h; simp [ocpRace] at h)

/-- **C107** For every mesh with orders at least 2, all node schemes within the interval and all widths, the collocated
race has a trajectory that ends at time 0. -/
theorem C107_race_turn (hM : M.Good) (hI : M.Inside) (hord : ∀ q ∈ M.orders, 2 ≤ q) {w : Nat → Nat → ℝ}
    (hw : ∀ ph < 2, (∀ s < M.orders.length, 0 < w s ph) ∧ ∑ s ∈ Finset.range M.orders.length, w s ph = 1) {W : List ℝ}
    (hW : W.length = M.N) : ∃ T, T.w = w ∧ SolvesOCP ocpRace M T ∧ PhysCost ocpRace M W T 0 := by
  obtain ⟨T, e, h⟩ := exists_raceTurn hM hI hord hw
  exact ⟨T, e, h.solves, (race_cost hM hW).2 h.tf.symm⟩

end MPOpt
