import Verif.Props.Euler
import Verif.Props.ExactExample

/-!
# C100: what `poly_orders=1` does to a problem with running and terminal cost

`x' = u`, `x(0) = 0`, cost `-x(1) + ∫ u²` over one unit of time. The best control is `1/2`. Half the running cost is left out, so the
control found is `1`, with which the true cost is what it is for doing nothing at all.
-/

set_option autoImplicit false

namespace MPOpt
open Polynomial

/-- The problem. -/
noncomputable def ocpPush : OCP ℝ :=
  { ocpR with
    pathConstraints := [none], terminalConstraints := [none], terminalCosts := [fun t => -t.xf.getD 0 0] }

theorem ocpPush_ready : ValidOCP ocpPush ∧ ocpPush.SettingsOK ∧ ocpPush.PosScales := by
  refine ⟨?_, ⟨Nat.one_pos, rfl, rfl, rfl, rfl, rfl, Or.inl Nat.one_pos, fun h => absurd h (by simp [ocpPush, ocpR]),
    fun h => absurd h (by simp [ocpPush, ocpR]), by simp [ocpPush, ocpR]⟩, ⟨?_, ?_, ?_, by norm_num [ocpPush, ocpR]⟩⟩
  · constructor
    case ordX => exact rowOrdered_single (by simp [Ext.le])
    case ordU => exact rowOrdered_single (by simp [Ext.le])
    case ordA => exact rowOrdered_empty
    case ordT0 => exact rowOrdered_single (by simp [Ext.le])
    case ordTf => exact rowOrdered_single (by simp [Ext.le])
    case ordE => intro ph l u hl; simp [ocpPush, ocpR] at hl
    all_goals simp [ocpPush, ocpR, HasShape]
  all_goals simp [ocpPush, ocpR]

variable {n : Nat} {T : Traj ℝ} {len : ℝ}

/-- What the constraints of the problem amount to. -/
theorem push_solves (hn : 0 < n) (h : SolvesEuler ocpPush n len T) (hw : WidthsAre ocpPush n none T) :
    (∀ s, T.step 0 s = T.step 0 0 ∨ n ≤ s) ∧ T.step 0 0 = 1 / n ∧ T.x 0 0 0 = 0 ∧ T.u 0 0 0 = T.u 0 1 0 ∧
      ∀ s < n, T.x 0 (s + 1) 0 = T.x 0 s 0 + 1 / n * T.u 0 (s + 1) 0 := by
  have hp : (0 : Nat) < ocpPush.nPhases := by simp [ocpPush, ocpR]
  have t0 : T.t0 0 = 0 := by
    have : (0 : ℝ) ≤ T.t0 0 ∧ T.t0 0 ≤ 0 := by simpa [ocpPush, ocpR, entry, Within, Ext.Below, Ext.Above] using h.t0 0 hp
    exact le_antisymm this.2 this.1
  have tf : T.tf 0 = 1 := by
    have : (1 : ℝ) ≤ T.tf 0 ∧ T.tf 0 ≤ 1 := by simpa [ocpPush, ocpR, entry, Within, Ext.Below, Ext.Above] using h.tf 0 hp
    exact le_antisymm this.2 this.1
  have hs : ∀ s < n, T.step 0 s = 1 / n := fun s hs => by
    unfold Traj.step; rw [t0, tf, hw 0 hp s hs]; ring
  have himp : ∀ s < n, T.x 0 (s + 1) 0 = T.x 0 s 0 + 1 / n * T.u 0 (s + 1) 0 := by
    intro s hs'
    have := (h.dynamics 0 hp).implicit ⟨1, fun p _ => p.u.getD 0 0⟩ rfl 0 (by simp [ocpPush, ocpR]) s hs'
    rw [hs s hs'] at this
    simpa [OCP.pArg, ocpPush, ocpR] using this
  have hexp : T.x 0 1 0 = T.x 0 0 0 + 1 / n * T.u 0 0 0 := by
    have := (h.dynamics 0 hp).explicit ⟨1, fun p _ => p.u.getD 0 0⟩ rfl 0 (by simp [ocpPush, ocpR])
    rw [hs 0 hn] at this
    simpa [OCP.pArg, ocpPush, ocpR] using this
  refine ⟨fun s => ?_, hs 0 hn, by simpa [ocpPush, ocpR, entry] using h.x0 0 (by simp [ocpPush, ocpR]), ?_, himp⟩
  · by_cases hs' : s < n
    · left; rw [hs s hs', hs 0 hn]
    · right; omega
  · have h1 := himp 0 hn
    rw [zero_add, hexp] at h1
    have hn' : (1 / n : ℝ) ≠ 0 := one_div_ne_zero (by exact_mod_cast hn.ne')
    exact mul_left_cancel₀ hn' (add_left_cancel h1)

/-- The cost as a sum of squares. -/
theorem push_cost {m : Nat} (h : SolvesEuler ocpPush (m + 1) len T) (hw : WidthsAre ocpPush (m + 1) none T) :
    ocpPush.eulerCost (m + 1) T = 1 / (m + 1 : ℝ) * ((T.u 0 1 0 - 1 / 2) ^ 2 - 1 / 4 - m / 2 +
      1 / 2 * ∑ s ∈ Finset.range m, (T.u 0 (s + 2) 0 - 1) ^ 2) := by
  obtain ⟨h1, h2, h3, h4, h5⟩ := push_solves (Nat.succ_pos m) h hw
  have hx : ∀ k ≤ m + 1, T.x 0 k 0 = 1 / (m + 1 : ℝ) * ∑ s ∈ Finset.range k, T.u 0 (s + 1) 0 := by
    intro k hk
    induction k with
    | zero => simp [h3]
    | succ k ih => rw [h5 k (by omega), ih (by omega), Finset.sum_range_succ]; push_cast; ring
  have hs : ∀ s ∈ Finset.range (m + 1), T.step 0 s = 1 / (m + 1 : ℝ) := fun s hs => by
    have := (h1 s).resolve_right (by have := Finset.mem_range.1 hs; omega)
    rw [this, h2]; push_cast; rfl
  have e : ocpPush.eulerCost (m + 1) T = -T.x 0 (m + 1) 0 + 1 / 2 * (T.step 0 0 * (T.u 0 0 0 * T.u 0 0 0) +
      ∑ s ∈ Finset.range (m + 1), T.step 0 s * (T.u 0 (s + 1) 0 * T.u 0 (s + 1) 0)) := by
    simp [OCP.eulerCost, OCP.stepCost, ocpPush, ocpR, OCP.tArg, OCP.pArg]
  have e' : ∑ s ∈ Finset.range (m + 1), T.step 0 s * (T.u 0 (s + 1) 0 * T.u 0 (s + 1) 0) =
      1 / (m + 1 : ℝ) * ∑ s ∈ Finset.range (m + 1), T.u 0 (s + 1) 0 * T.u 0 (s + 1) 0 := by
    rw [Finset.mul_sum]
    exact Finset.sum_congr rfl fun s hs' => by rw [hs s hs']
  rw [e, hx _ le_rfl, e', h4, hs 0 (by simp), Finset.sum_range_succ' _ m, Finset.sum_range_succ' (fun s => T.u 0 (s + 1) 0 * T.u 0 (s + 1) 0) m]
  have e3 : ∑ s ∈ Finset.range m, (T.u 0 (s + 2) 0 - 1) ^ 2 = ∑ s ∈ Finset.range m, T.u 0 (s + 1 + 1) 0 * T.u 0 (s + 1 + 1) 0 -
      2 * ∑ s ∈ Finset.range m, T.u 0 (s + 1 + 1) 0 + m := by
    rw [Finset.mul_sum, ← Finset.sum_sub_distrib]
    have : (m : ℝ) = ∑ _s ∈ Finset.range m, (1 : ℝ) := by simp
    rw [this, ← Finset.sum_add_distrib]
    exact Finset.sum_congr rfl fun s _ => by ring
  rw [e3]
  ring

/-- Half control in the first step, full control afterwards. -/
noncomputable def trajPush (n : Nat) : Traj ℝ :=
  ⟨fun _ k _ => if k = 0 then 0 else (k - 1 / 2) / n, fun _ k _ => if k ≤ 1 then 1 / 2 else 1, fun _ => 0, fun _ => 1,
    fun _ _ => 0, fun _ _ => 1 / n⟩

theorem trajPush_one (n : Nat) : (trajPush n).u 0 1 0 = 1 / 2 := by simp [trajPush]

theorem trajPush_two (n s : Nat) : (trajPush n).u 0 (s + 2) 0 = 1 := by simp [trajPush]

theorem trajPush_solves (hn : 0 < n) (len : ℝ) : SolvesEuler ocpPush n len (trajPush n) ∧ WidthsAre ocpPush n none (trajPush n) := by
  have hn' : (0 : ℝ) < n := by exact_mod_cast hn
  have one : ∀ {P : Nat → Prop}, P 0 → ∀ ph < ocpPush.nPhases, P ph := by
    intro P h ph hp
    obtain rfl : ph = 0 := by simpa [ocpPush, ocpR] using hp
    exact h
  have j0 : ∀ {j : Nat}, j < 1 → j = 0 := fun h => by omega
  have hst : ∀ s, (trajPush n).step 0 s = 1 / n := fun s => by simp [Traj.step, trajPush]
  refine ⟨⟨?_, one ?_, one ?_, one ?_, one ?_, one ?_, one ⟨?_, ?_⟩, one ?_, one ?_, one ?_, one ?_, ?_, ?_, ?_⟩, one ?_⟩
  · intro j hj
    obtain rfl := j0 hj
    simp [trajPush, ocpPush, ocpR, entry]
  · intro i hi h0 j hj
    obtain rfl := j0 hj
    have hi0 : i ≠ 0 := fun h => h0 ⟨rfl, h⟩
    have h1 : (1 : ℝ) ≤ i := by exact_mod_cast Nat.one_le_iff_ne_zero.2 hi0
    have h2 : (i : ℝ) ≤ n := by exact_mod_cast hi
    have a1 : (0 : ℝ) ≤ (i - 1 / 2) / n := div_nonneg (by linarith) hn'.le
    have a2 : ((i : ℝ) - 1 / 2) / n ≤ 1 := by rw [div_le_one hn']; linarith
    have e : (trajPush n).x 0 i 0 = (i - 1 / 2) / n := if_neg hi0
    rw [e]
    show Within (.fin (-5)) (.fin 5) _
    exact ⟨show (-5 : ℝ) ≤ _ by linarith, show _ ≤ (5 : ℝ) by linarith⟩
  · intro i hi j hj
    obtain rfl := j0 hj
    refine ⟨show (-1 : ℝ) ≤ _ from ?_, trivial⟩
    show (-1 : ℝ) ≤ if i ≤ 1 then 1 / 2 else 1
    split <;> norm_num
  · simp [trajPush, ocpPush, ocpR, entry, Within, Ext.Below, Ext.Above]
  · simp [trajPush, ocpPush, ocpR, entry, Within, Ext.Below, Ext.Above]
  · intro k hk; simp [ocpPush, ocpR] at hk
  · intro F hF j hj s hs
    obtain rfl := j0 hj
    obtain rfl : F = ⟨1, fun p _ => p.u.getD 0 0⟩ := by simpa [ocpPush, ocpR] using hF.symm
    rw [hst]
    have e : ((fun (p : PArg ℝ) (_ : Nat) => p.u.getD 0 0) (ocpPush.pArg (trajPush n) 0 (s + 1) ((trajPush n).knot 0 (s + 1))) 0) =
      if s + 1 ≤ 1 then 1 / 2 else 1 := by simp [OCP.pArg, ocpPush, ocpR, trajPush]
    refine Eq.trans ?_ (congrArg (fun y => (trajPush n).x 0 s 0 + 1 / (n : ℝ) * y) e.symm)
    show (if s + 1 = 0 then (0 : ℝ) else ((s + 1 : Nat) - 1 / 2) / n) = (if s = 0 then (0 : ℝ) else ((s : ℝ) - 1 / 2) / n) +
      1 / n * if s + 1 ≤ 1 then 1 / 2 else 1
    rcases s with _ | s
    · simp; ring
    · rw [if_neg (by omega), if_neg (by omega), if_neg (by omega)]; push_cast; ring
  · intro F hF j hj
    obtain rfl := j0 hj
    obtain rfl : F = ⟨1, fun p _ => p.u.getD 0 0⟩ := by simpa [ocpPush, ocpR] using hF.symm
    rw [hst]
    simp [OCP.pArg, ocpPush, ocpR, trajPush]
    ring
  · intro F hF; simp [ocpPush, ocpR] at hF
  · intro F hF; simp [ocpPush, ocpR] at hF
  · intro h; simp [ocpPush, ocpR] at h
  · intro h; simp [ocpPush, ocpR] at h
  · intro h; simp [ocpPush, ocpR] at h
  · intro h; simp [ocpPush, ocpR] at h
  · intro h; simp [ocpPush, ocpR] at h
  · intro s _; rfl

/-- Trajectories that cost no more than that one have its controls. -/
theorem push_best {m : Nat} (h : SolvesEuler ocpPush (m + 1) len T) (hw : WidthsAre ocpPush (m + 1) none T)
    (hle : ocpPush.eulerCost (m + 1) T ≤ ocpPush.eulerCost (m + 1) (trajPush (m + 1))) :
    T.u 0 0 0 = 1 / 2 ∧ T.u 0 1 0 = 1 / 2 ∧ ∀ s < m, T.u 0 (s + 2) 0 = 1 := by
  obtain ⟨g, gw⟩ := trajPush_solves (Nat.succ_pos m) len
  rw [push_cost h hw, push_cost g gw] at hle
  have hpos : (0 : ℝ) < 1 / (m + 1 : ℝ) := by positivity
  have hle := le_of_mul_le_mul_left hle hpos
  have e1 : (trajPush (m + 1)).u 0 1 0 = 1 / 2 := trajPush_one _
  have e2 : ∑ s ∈ Finset.range m, ((trajPush (m + 1)).u 0 (s + 2) 0 - 1) ^ 2 = 0 :=
    Finset.sum_eq_zero fun s _ => by
      have : (trajPush (m + 1)).u 0 (s + 2) 0 = 1 := trajPush_two _ _
      rw [this]; ring
  rw [e1, e2] at hle
  have hnn : 0 ≤ ∑ s ∈ Finset.range m, (T.u 0 (s + 2) 0 - 1) ^ 2 := Finset.sum_nonneg fun s _ => sq_nonneg _
  have k1 : (T.u 0 1 0 - 1 / 2) ^ 2 = 0 := le_antisymm (by linarith) (sq_nonneg _)
  have k2 : ∑ s ∈ Finset.range m, (T.u 0 (s + 2) 0 - 1) ^ 2 = 0 := le_antisymm (by linarith [sq_nonneg (T.u 0 1 0 - 1 / 2)]) hnn
  have u1 : T.u 0 1 0 = 1 / 2 := by linarith [pow_eq_zero_iff (two_ne_zero) |>.1 k1]
  refine ⟨(push_solves (Nat.succ_pos m) h hw).2.2.2.1.trans u1, u1, fun s hs => ?_⟩
  have := (Finset.sum_eq_zero_iff_of_nonneg fun s _ => sq_nonneg _).1 k2 s (Finset.mem_range.2 hs)
  linarith [pow_eq_zero_iff (two_ne_zero) |>.1 this]

theorem outsideR_cos : outsideR.lib.cosPi 0 1 = 1 ∧ outsideR.lib.cosPi 1 1 = -1 := by
  constructor
  · show Real.cos (Real.pi * (0 : Nat) / (1 : Nat)) = 1
    simp
  · show Real.cos (Real.pi * (1 : Nat) / (1 : Nat)) = -1
    simp

/-- **C100** With `poly_orders=1`, any number of segments, any scheme but LG and a perfect NLP solver, the controls returned for this
problem are 1 after the first segment. -/
theorem C100_push {m : Nat} {scheme : String} (hsch : scheme ≠ "LG") {nlpsol : SolverCall ℝ Nat → Py (List ℝ)} {ptp : List (List Nat)}
    {rx rdx : Bool} {s : Session ℝ Nat} {p : Post ℝ} {r : Option (PyDict (ResidVal ℝ))}
    (hrun : mpSolve outsideR nlpsol ocpPush ptp (m + 1) (.int 1) scheme argsR rx rdx = .ok (s, p, r))
    (hopt : ∀ c z, nlpsol c = .ok z → c.IsOptimal z) :
    ∃ T, p.Shows ocpPush (eulerMesh (m + 1) (-1) 1) T ∧ T.u 0 0 0 = 1 / 2 ∧ T.u 0 1 0 = 1 / 2 ∧ ∀ s < m, T.u 0 (s + 2) 0 = 1 := by
  obtain ⟨hv, hs, hsc⟩ := ocpPush_ready
  obtain ⟨T, h1, h2, h3, h4⟩ := C100_solve hrun hv hs hsc hsch (fun _ => outsideR_cos) (Nat.succ_pos m) (by norm_num [outsideR]) hopt
  obtain ⟨g, gw⟩ := trajPush_solves (Nat.succ_pos m) (outsideR.tau1 - outsideR.tau0)
  exact ⟨T, h3, push_best h1 h2 (h4 _ g gw)⟩

/-- There are such runs, for every scheme but LG and every number of segments. -/
theorem C100_push_runs (m : Nat) {scheme : String} (hsch : scheme ≠ "LG") :
    ∃ (nlpsol : SolverCall ℝ Nat → Py (List ℝ)) (out : _), (∀ c z, nlpsol c = .ok z → c.IsOptimal z) ∧
      mpSolve outsideR nlpsol ocpPush [[0]] (m + 1) (.int 1) scheme argsR false true = .ok out := by
  classical
  obtain ⟨hv, hs, hsc⟩ := ocpPush_ready
  have hM := eulerMesh_for (w := outsideR) (n := m + 1) hsch (fun _ => outsideR_cos) (Nat.succ_pos m) (by norm_num [outsideR])
  obtain ⟨c, W, hW, hsol, hobj, hret⟩ := C52_solve_returns (a := argsR) (ptp := [[0]]) (rx := false) (rdx := true) hv hs hsc hM
    (by simp [eulerMesh]) (by norm_num [outsideR]) rfl (by simp [GoodWidths, argsR])
    (fun ph hp => by
      obtain rfl : ph = 0 := by simpa [ocpPush, ocpR] using hp
      simp [ocpPush, ocpR, entry]) (by simp)
  obtain ⟨g, gw⟩ := trajPush_solves (Nat.succ_pos m) (outsideR.tau1 - outsideR.tau0)
  have hprob : ∀ T, SolvesOCP ocpPush (eulerMesh (m + 1) outsideR.tau0 outsideR.tau1) T ↔
      SolvesEuler ocpPush (m + 1) (outsideR.tau1 - outsideR.tau0) T := fun T => C100_problem rfl hM.good (Nat.succ_pos m) hv.phases
  have hcost : ∀ T J, PhysCost ocpPush (eulerMesh (m + 1) outsideR.tau0 outsideR.tau1) W T J ↔ J = ocpPush.eulerCost (m + 1) T :=
    fun T J => C100_cost hM rfl (Nat.succ_pos m) hv.runningCosts hW J
  set z := ocpPush.packVec (eulerMesh (m + 1) outsideR.tau0 outsideR.tau1).N (trajPush (m + 1)) with hz
  have hzs : c.IsSolution z := (hsol _).2 ⟨_, (hprob _).2 g, gw, rfl⟩
  have hzo : c.IsOptimal z := by
    refine ⟨hzs, fun z' hz' => ?_⟩
    obtain ⟨T, hT, hwT, rfl⟩ := (hsol z').1 hz'
    rw [hobj _ _ gw ((hcost _ _).2 rfl), hobj _ _ hwT ((hcost _ _).2 rfl), push_cost g gw, push_cost ((hprob T).1 hT) hwT]
    refine mul_le_mul_of_nonneg_left ?_ (by positivity)
    have e1 : (trajPush (m + 1)).u 0 1 0 = 1 / 2 := trajPush_one _
    have e2 : ∑ s ∈ Finset.range m, ((trajPush (m + 1)).u 0 (s + 2) 0 - 1) ^ 2 = 0 :=
      Finset.sum_eq_zero fun s _ => by
        have : (trajPush (m + 1)).u 0 (s + 2) 0 = 1 := trajPush_two _ _
        rw [this]; ring
    rw [e1, e2]
    have hnn : 0 ≤ ∑ s ∈ Finset.range m, (T.u 0 (s + 2) 0 - 1) ^ 2 := Finset.sum_nonneg fun s _ => sq_nonneg _
    nlinarith [sq_nonneg (T.u 0 1 0 - 1 / 2)]
  obtain ⟨out, hout⟩ := hret (fun c => if c.IsOptimal z then .ok z else .error .assertion) z (if_pos hzo) hzs.1
  refine ⟨_, out, fun c' z' h => ?_, hout⟩
  beta_reduce at h
  split at h
  · cases h; assumption
  · cases h

/-! ### The truth -/

/-- Constant control `c`. -/
noncomputable def steadyPush (c : ℝ) : CTraj := ⟨fun _ _ t => c * t, fun _ _ _ => c, fun _ => 0, fun _ => 1, fun _ _ => 0⟩

/-- **C100** Steady pushing with force between -1 and 5 solves the continuous-time problem; its true cost is `c² - c`. So what is
returned is as bad as doing nothing, and `c = 1/2` is better than that. -/
theorem C100_push_truth {c : ℝ} (h1 : -1 ≤ c) (h5 : c ≤ 5) :
    SolvesContinuously ocpPush (steadyPush c) ∧ ocpPush.trueCost (steadyPush c) = c ^ 2 - c := by
  have one : ∀ {P : Nat → Prop}, P 0 → ∀ ph < ocpPush.nPhases, P ph := by
    intro P h ph hp
    obtain rfl : ph = 0 := by simpa [ocpPush, ocpR] using hp
    exact h
  have j0 : ∀ {j : Nat}, j < 1 → j = 0 := fun h => by omega
  have hd : ∀ t, HasDerivAt (fun t : ℝ => c * t) c t := fun t => by simpa using (hasDerivAt_id t).const_mul c
  refine ⟨⟨one ⟨?_, ⟨?_, ?_, ?_⟩, ?_, ?_, ?_, ?_, ?_, ?_, ?_, ?_⟩, ?_, ?_, ?_⟩, ?_⟩
  · show (0 : ℝ) < 1
    norm_num
  · intro F hF j hj t _ _
    obtain rfl := j0 hj
    obtain rfl : F = ⟨1, fun p _ => p.u.getD 0 0⟩ := by simpa [ocpPush, ocpR] using hF.symm
    have : ((fun (p : PArg ℝ) (_ : Nat) => p.u.getD 0 0) (ocpPush.cArg (steadyPush c) 0 t) 0) = c := by
      simp [OCP.cArg, ocpPush, ocpR, steadyPush]
    show HasDerivWithinAt (fun t : ℝ => c * t) ((fun (p : PArg ℝ) (_ : Nat) => p.u.getD 0 0) (ocpPush.cArg (steadyPush c) 0 t) 0)
      (Set.Iic t) t
    rw [this]
    exact (hd t).hasDerivWithinAt
  · intro F hF j hj
    obtain rfl := j0 hj
    obtain rfl : F = ⟨1, fun p _ => p.u.getD 0 0⟩ := by simpa [ocpPush, ocpR] using hF.symm
    have : ((fun (p : PArg ℝ) (_ : Nat) => p.u.getD 0 0) (ocpPush.cArg (steadyPush c) 0 0) 0) = c := by
      simp [OCP.cArg, ocpPush, ocpR, steadyPush]
    show HasDerivWithinAt (fun t : ℝ => c * t) ((fun (p : PArg ℝ) (_ : Nat) => p.u.getD 0 0) (ocpPush.cArg (steadyPush c) 0 0) 0)
      (Set.Ici (0 : ℝ)) 0
    rw [this]
    exact (hd 0).hasDerivWithinAt
  · intro j hj
    exact (continuous_const.mul continuous_id).continuousOn
  · intro F hF; simp [ocpPush, ocpR] at hF
  · intro F hF; simp [ocpPush, ocpR] at hF
  · intro _ j hj
    obtain rfl := j0 hj
    simp [steadyPush, ocpPush, ocpR, entry]
  · intro t ht _ j hj
    obtain rfl := j0 hj
    obtain ⟨ht0, ht1⟩ : (0 : ℝ) ≤ t ∧ t ≤ 1 := ht
    show Within (.fin (-5)) (.fin 5) (c * t)
    exact ⟨show (-5 : ℝ) ≤ c * t by nlinarith, show c * t ≤ (5 : ℝ) by nlinarith⟩
  · intro t _ j hj
    obtain rfl := j0 hj
    exact ⟨h1, trivial⟩
  · simp [steadyPush, ocpPush, ocpR, entry, Within, Ext.Below, Ext.Above]
  · simp [steadyPush, ocpPush, ocpR, entry, Within, Ext.Below, Ext.Above]
  · intro k hk; simp [ocpPush, ocpR] at hk
  · intro k p q h; simp [ocpPush, ocpR] at h
  · intro k p q h; simp [ocpPush, ocpR] at h
  · intro k p q h; simp [ocpPush, ocpR] at h
  · simp [OCP.trueCost, OCP.cEnd, OCP.cArg, ocpPush, ocpR, steadyPush]
    ring

/-- **C100** No motion with continuous control is better than steady pushing with one half. -/
theorem C100_push_best {C : CTraj} (hC : SolvesContinuously ocpPush C) (hu : ContinuousOn (C.u 0 0) (Set.Icc 0 1)) :
    ocpPush.trueCost (steadyPush (1 / 2)) ≤ ocpPush.trueCost C := by
  have hp : (0 : Nat) < ocpPush.nPhases := by simp [ocpPush, ocpR]
  have hC := hC.phase 0 hp
  have t0 : C.t0 0 = 0 := by
    have : (0 : ℝ) ≤ C.t0 0 ∧ C.t0 0 ≤ 0 := by simpa [ocpPush, ocpR, entry, Within, Ext.Below, Ext.Above] using hC.t0
    exact le_antisymm this.2 this.1
  have tf : C.tf 0 = 1 := by
    have : (1 : ℝ) ≤ C.tf 0 ∧ C.tf 0 ≤ 1 := by simpa [ocpPush, ocpR, entry, Within, Ext.Below, Ext.Above] using hC.tf
    exact le_antisymm this.2 this.1
  have x0 : C.x 0 0 0 = 0 := by
    have := hC.x0 rfl 0 (by simp [ocpPush, ocpR])
    rw [t0] at this
    simpa [ocpPush, ocpR, entry] using this
  have hxc : ContinuousOn (C.x 0 0) (Set.Icc 0 1) := by
    have := hC.dynamics.continuous 0 (by simp [ocpPush, ocpR])
    rwa [t0, tf] at this
  have hd : ∀ t, 0 < t → t ≤ 1 → HasDerivWithinAt (C.x 0 0) (C.u 0 0 t) (Set.Iic t) t := by
    intro t h0 h1
    have := hC.dynamics.left ⟨1, fun p _ => p.u.getD 0 0⟩ rfl 0 (by simp [ocpPush, ocpR]) t (by rwa [t0]) (by rwa [tf])
    simpa [OCP.cArg, ocpPush, ocpR] using this
  have hmaps : Set.MapsTo (fun s : ℝ => 1 - s) (Set.Icc 0 1) (Set.Icc 0 1) := fun s hs => ⟨by linarith [hs.2], by linarith [hs.1]⟩
  have hcr : ContinuousOn (fun s : ℝ => 1 - s) (Set.Icc 0 1) := (continuous_const.sub continuous_id).continuousOn
  have hint : ∫ s in (0 : ℝ)..1, -C.u 0 0 (1 - s) = C.x 0 0 (1 - 1) - C.x 0 0 (1 - 0) := by
    refine intervalIntegral.integral_eq_sub_of_hasDeriv_right_of_le (f := fun s => C.x 0 0 (1 - s)) zero_le_one (hxc.comp hcr hmaps)
      (fun s hs => ?_) ?_
    · have h := hd (1 - s) (by linarith [hs.2]) (by linarith [hs.1])
      have hr : HasDerivWithinAt (fun s : ℝ => 1 - s) (-1) (Set.Ioi s) s := ((hasDerivAt_id s).const_sub 1).hasDerivWithinAt
      have := h.comp s hr (fun r hr => by
        have : s < r := hr
        exact show 1 - r ≤ 1 - s by linarith)
      rw [mul_neg, mul_one] at this
      exact this
    · rw [← Set.uIcc_of_le (zero_le_one' ℝ)] at hmaps hcr
      refine ContinuousOn.intervalIntegrable (ContinuousOn.neg ?_)
      rw [Set.uIcc_of_le (zero_le_one' ℝ)] at *
      exact hu.comp hcr hmaps
  have hx1 : ∫ t in (0 : ℝ)..1, C.u 0 0 t = C.x 0 0 1 := by
    rw [intervalIntegral.integral_neg, intervalIntegral.integral_comp_sub_left (fun t => C.u 0 0 t) 1] at hint
    simp only [sub_self, sub_zero, x0] at hint
    linarith
  have hui : IntervalIntegrable (C.u 0 0) MeasureTheory.volume 0 1 :=
    ContinuousOn.intervalIntegrable (by rwa [Set.uIcc_of_le (zero_le_one' ℝ)])
  have hui2 : IntervalIntegrable (fun t => C.u 0 0 t * C.u 0 0 t) MeasureTheory.volume 0 1 :=
    ContinuousOn.intervalIntegrable (by rw [Set.uIcc_of_le (zero_le_one' ℝ)]; exact hu.mul hu)
  have hmono : ∫ t in (0 : ℝ)..1, (C.u 0 0 t - 1 / 4) ≤ ∫ t in (0 : ℝ)..1, C.u 0 0 t * C.u 0 0 t :=
    intervalIntegral.integral_mono_on zero_le_one (hui.sub intervalIntegrable_const) hui2
      fun t _ => by nlinarith [sq_nonneg (C.u 0 0 t - 1 / 2)]
  rw [intervalIntegral.integral_sub hui intervalIntegrable_const, hx1] at hmono
  have hcost : ocpPush.trueCost C = -C.x 0 0 1 + ∫ t in (0 : ℝ)..1, C.u 0 0 t * C.u 0 0 t := by
    simp [OCP.trueCost, OCP.cEnd, OCP.cArg, ocpPush, ocpR, t0, tf]
  rw [hcost, (C100_push_truth (by norm_num) (by norm_num)).2]
  simp at hmono
  linarith

end MPOpt
