import Verif.Props.Renumber
import Verif.Props.LoosenExample
import Mathlib.Logic.Equiv.Basic

/-! # Concrete cases for C105: exchanged states and controls; exchanged phases; guesses of controls -/

set_option autoImplicit false

namespace MPOpt
open Polynomial

/-- Two states with rates `u0` and `2 u1`, in the shortest time. -/
def ocpTwo : OCP ℚ :=
  { ocpQ with
    nx := 2, nu := 2
    dynamics := [⟨2, fun p j => if j = 0 then p.u.getD 0 0 else 2 * p.u.getD 1 0⟩]
    pathConstraints := [some ⟨2, fun p c => if c = 0 then p.x.getD 0 0 - 3 else -p.x.getD 1 0 - 4⟩]
    runningCosts := [fun _ => 0], terminalConstraints := [none]
    scaleX := [2, 3], scaleU := [1, 5], x00 := [[1, 2]], xf0 := [[1, 2]], u00 := [[0, 1]], uf0 := [[0, 1]]
    lbx := [[.fin (-5), .fin 0]], ubx := [[.fin 5, .pinf]], lbu := [[.fin (-1), .fin (-2)]], ubu := [[.pinf, .fin 7]]
    lbtf := [[.fin 1]] }

/-- The same with states and controls exchanged, and the path constraints the other way round. -/
def ocpOwt : OCP ℚ :=
  { ocpTwo with
    dynamics := [⟨2, fun p j => if j = 0 then 2 * p.u.getD 0 0 else p.u.getD 1 0⟩]
    pathConstraints := [some ⟨2, fun p c => if c = 0 then -p.x.getD 0 0 - 4 else p.x.getD 1 0 - 3⟩]
    scaleX := [3, 2], scaleU := [5, 1], x00 := [[2, 1]], xf0 := [[2, 1]], u00 := [[1, 0]], uf0 := [[1, 0]]
    lbx := [[.fin 0, .fin (-5)]], ubx := [[.pinf, .fin 5]], lbu := [[.fin (-2), .fin (-1)]], ubu := [[.fin 7, .pinf]] }

/-- Exchange the first two states and controls. -/
def exchange : Numbering := ⟨Equiv.swap 0 1, Equiv.swap 0 1, Equiv.refl _, Equiv.refl _, Equiv.refl _⟩

theorem swap_permutes : Permutes 2 (Equiv.swap 0 1) := fun j => by
  rw [Equiv.swap_apply_def]; split_ifs <;> omega

theorem refl_permutes (m : Nat) : Permutes m (Equiv.refl Nat) := fun _ => Iff.rfl

theorem two_cases {j : Nat} (h : j < 2) : j = 0 ∨ j = 1 := by omega

theorem two_renumbers : ocpTwo.Renumbers exchange ocpOwt := by
  have one : ∀ {ph : Nat}, ph < ocpTwo.nPhases → ph = 0 := fun h => by simpa [ocpTwo, ocpQ] using h
  have swap01 : exchange.x 0 = 1 ∧ exchange.x 1 = 0 ∧ exchange.u 0 = 1 ∧ exchange.u 1 = 0 := by
    refine ⟨?_, ?_, ?_, ?_⟩ <;> simp [exchange]
  obtain ⟨x0, x1, u0, u1⟩ := swap01
  constructor
  case keepX => exact swap_permutes
  case keepU => exact swap_permutes
  case keepA => exact refl_permutes _
  case keepPhase => exact refl_permutes _
  case dynamics =>
    intro ph hp; obtain rfl := one hp
    refine Option.Rel.some ?_
    rintro p p' ⟨X, U, A, t, rfl, rfl⟩ j hj
    rcases two_cases hj with rfl | rfl
    · rw [x0]; simp [pointArg, ocpTwo, ocpQ, u0, List.range_succ]
    · rw [x1]; simp [pointArg, ocpTwo, ocpQ, u1, List.range_succ]
  case running =>
    intro ph hp; obtain rfl := one hp
    exact Option.Rel.some fun _ _ _ => rfl
  case ends =>
    intro ph hp; obtain rfl := one hp
    refine Option.Rel.some ?_
    rintro p p' ⟨Xf, X0, A, tf, t0, rfl, rfl⟩
    rfl
  case path =>
    intro ph hp; obtain rfl := one hp
    refine Option.Rel.some ⟨rfl, Equiv.swap 0 1, swap_permutes, ?_⟩
    rintro p p' ⟨X, U, A, t, rfl, rfl⟩ c hc
    rcases two_cases hc with rfl | rfl
    · rw [Equiv.swap_apply_left]; simp [pointArg, ocpTwo, ocpQ, x0, List.range_succ]
    · rw [Equiv.swap_apply_right]; simp [pointArg, ocpTwo, ocpQ, x1, List.range_succ]
  case terminal =>
    intro ph hp; obtain rfl := one hp
    exact Option.Rel.none
  case start =>
    intro ph hp j hj; obtain rfl := one hp
    rcases two_cases hj with rfl | rfl
    · rw [x0]; rfl
    · rw [x1]; rfl
  case x =>
    intro ph hp j hj; obtain rfl := one hp
    rcases two_cases hj with rfl | rfl
    · rw [x0]; exact ⟨rfl, rfl⟩
    · rw [x1]; exact ⟨rfl, rfl⟩
  case u =>
    intro ph hp j hj; obtain rfl := one hp
    rcases two_cases hj with rfl | rfl
    · rw [u0]; exact ⟨rfl, rfl⟩
    · rw [u1]; exact ⟨rfl, rfl⟩
  case a => intro ph hp j hj; exact absurd hj (by simp [ocpTwo, ocpQ])
  case t0 => intro ph hp j hj; exact ⟨rfl, rfl⟩
  case tf => intro ph hp j hj; exact ⟨rfl, rfl⟩
  case links => intro k p q; simp [ocpOwt, ocpTwo, ocpQ]
  case jumps => intro k hk; exact absurd hk (by simp [ocpOwt, ocpTwo, ocpQ])
  case mid => exact fun _ _ => rfl
  case cont => exact fun _ _ => rfl
  case slope => exact fun _ _ => rfl
  case slopes =>
    intro ph hp hd; obtain rfl := one hp
    simp [ocpOwt, ocpTwo, ocpQ] at hd
  all_goals rfl

theorem two_ready : (ValidOCP ocpTwo ∧ ocpTwo.SettingsOK ∧ ocpTwo.PosScales) ∧
    ValidOCP ocpOwt ∧ ocpOwt.SettingsOK ∧ ocpOwt.PosScales := by
  refine ⟨⟨(C40_validate_iff _).1 (by decide +kernel), ⟨by decide, rfl, rfl, rfl, rfl, rfl, by decide, by decide, by decide,
    by decide⟩, ?_⟩, (C40_validate_iff _).1 (by decide +kernel), ⟨by decide, rfl, rfl, rfl, rfl, rfl, by decide, by decide,
    by decide, by decide⟩, ?_⟩ <;> constructor <;> simp [ocpOwt, ocpTwo, ocpQ]

/-- Stay where you are, for one unit of time. -/
def trajTwo : Traj ℚ :=
  { x := fun _ _ j => if j = 0 then 1 else 2, u := fun _ _ _ => 0, t0 := fun _ => 0, tf := fun _ => 1, a := fun _ _ => 0
    w := fun _ _ => 1 }

theorem trajTwo_solves : SolvesOCP ocpTwo meshE trajTwo := by
  refine ⟨⟨fun ph hph => ?_, fun ph hph => ?_, fun ph hph => ?_, fun ph hph => ?_, fun ph hph _ => ?_,
    fun ph hph h => ?_, fun h => absurd h (by simp [ocpTwo, ocpQ])⟩, fun ph hph h => ?_⟩ <;>
    obtain rfl : ph = 0 := by simpa [ocpTwo, ocpQ] using hph
  · refine ⟨fun _ j hj => ?_, fun i hi _ j hj => ?_, fun i _ j hj => ?_, ?_, ?_, fun k hk => ?_⟩
    · rcases two_cases hj with rfl | rfl <;> simp [trajTwo, entry, ocpTwo, ocpQ]
    · rcases two_cases hj with rfl | rfl <;>
        norm_num [entry, ocpTwo, ocpQ, Within, Ext.Below, Ext.Above, trajTwo]
    · rcases two_cases hj with rfl | rfl <;>
        norm_num [entry, ocpTwo, ocpQ, Within, Ext.Below, Ext.Above, trajTwo]
    · simp [entry, ocpTwo, ocpQ, Within, Ext.Below, Ext.Above, trajTwo]
    · simp [entry, ocpTwo, ocpQ, Within, Ext.Below, Ext.Above, trajTwo]
    · simp [ocpTwo, ocpQ] at hk
  · intro F hF j hj s i ho
    obtain ⟨rfl, -⟩ := meshE_owns ho
    have hF : (⟨2, fun p j => if j = 0 then p.u.getD 0 0 else 2 * p.u.getD 1 0⟩ : VFun (PArg ℚ) ℚ) = F := by
      simpa [ocpTwo, ocpQ] using hF
    rw [meshE_piece, meshE_half, ← hF]
    rcases two_cases hj with rfl | rfl <;> simp [trajTwo, OCP.pArg, ocpTwo, ocpQ, List.range_succ]
  · intro F hF s i ho c hc
    have hF : (⟨2, fun p c => if c = 0 then p.x.getD 0 0 - 3 else -p.x.getD 1 0 - 4⟩ : VFun (PArg ℚ) ℚ) = F := by
      simpa [ocpTwo, ocpQ] using hF
    subst hF
    rcases two_cases hc with rfl | rfl <;> norm_num [trajTwo, OCP.pArg, ocpTwo, ocpQ, List.range_succ]
  · intro F hF c hc
    simp [ocpTwo] at hF
  · intro j hj s hs i hi
    obtain rfl : s = 0 := by simpa [meshE] using hs
    rw [meshE_piece]
    rcases two_cases hj with rfl | rfl <;> norm_num [trajTwo, entry, ocpTwo, ocpQ, Within, Ext.Below, Ext.Above]
  · simp [ocpTwo, ocpQ] at h
  · simp [ocpTwo, ocpQ] at h

theorem costTwo_value {T : Traj ℚ} {J : ℚ} : PhysCost ocpTwo meshE [1, 1] T J ↔ J = T.tf 0 := by
  have hv : ∀ {v : Nat → Nat → ℚ}, (∀ ph < ocpTwo.nPhases, RunningSamples ocpTwo meshE T ph (v ph)) →
      ∑ ph ∈ Finset.range ocpTwo.nPhases, (TerminalCost ocpTwo meshE T ph + weightedSum [1, 1] (v ph)) = T.tf 0 := by
    intro v hv
    have run : ∀ i, i = 0 ∨ i = 1 → v 0 i = 0 := by
      intro i hi
      have own : meshE.Owns 0 i := by rcases hi with rfl | rfl <;> simp [Mesh.Owns, meshE, Mesh.order]
      have := hv 0 (by simp [ocpTwo, ocpQ]) (fun _ => 0) rfl 0 i own
      have ei : meshE.idx 0 i = i := by simp [Mesh.idx, segStart, meshE]
      rwa [ei, mul_zero] at this
    have : TerminalCost ocpTwo meshE T 0 = T.tf 0 := rfl
    rw [show ocpTwo.nPhases = 1 from rfl]
    simp [weightedSum, Finset.sum_range_succ, run, this]
  constructor
  · rintro ⟨v, h, rfl⟩
    exact hv h
  · rintro rfl
    obtain ⟨v, h⟩ := exists_samples ocpTwo meshE T
    exact ⟨v, h, (hv h).symm⟩

/-- A problem on one segment with a best trajectory is solved by a run with a perfect solver. -/
theorem perfect_run {ocp : OCP ℚ} (hv : ValidOCP ocp) (hs : ocp.SettingsOK) (hsc : ocp.PosScales)
    (ht : ∀ ph < ocp.nPhases, entry ocp.t00 ph 0 0 ≠ entry ocp.tf0 ph 0 0) {T : Traj ℚ} {J : ℚ} (hT : SolvesOCP ocp meshE T)
    (hw : WidthsAre ocp 1 none T) (hJ : PhysCost ocp meshE [1, 1] T J)
    (hbest : ∀ T' J', SolvesOCP ocp meshE T' → WidthsAre ocp 1 none T' → PhysCost ocp meshE [1, 1] T' J' → J ≤ J') :
    ∃ (nlpsol : SolverCall ℚ Nat → Py (List ℚ)) (out : _), (∀ c z, nlpsol c = .ok z → c.IsOptimal z) ∧
      mpSolve outsideQ nlpsol ocp [[0]] 1 (.int 1) "LGR" argsE false true = .ok out := by
  classical
  obtain ⟨c, W, hW, hsol, hobj, hret⟩ := C52_solve_returns (V := Nat) (ocp := ocp) (w := outsideQ) (a := argsE)
    (scheme := "LGR") (n := 1) (arg := .int 1) (M := meshE) (ptp := [[0]]) (rx := false) (rdx := true)
    hv hs hsc meshE_for rfl (by norm_num [outsideQ]) (by decide +kernel) (by simp [GoodWidths, argsE]) ht (by simp)
  have hW' : W = [1, 1] := by
    have : compQuadWeights ⟨outsideQ.method, outsideQ.tau0, outsideQ.tau1,
        tausFn outsideQ.lib outsideQ.tau0 outsideQ.tau1 "LGR"⟩ meshE.orders = .ok [1, 1] := by decide +kernel
    rw [this] at hW; cases hW; rfl
  subst hW'
  have hzs : c.IsSolution (ocp.packVec meshE.N T) := (hsol _).2 ⟨T, hT, hw, rfl⟩
  have hz : c.IsOptimal (ocp.packVec meshE.N T) := by
    refine ⟨hzs, fun z hz => ?_⟩
    obtain ⟨T', hT', hw', rfl⟩ := (hsol z).1 hz
    rw [hobj _ _ hw hJ]
    obtain ⟨v, hv'⟩ := exists_samples ocp meshE T'
    have hJ' : PhysCost ocp meshE [1, 1] T' _ := ⟨v, hv', rfl⟩
    rw [hobj _ _ hw' hJ']
    exact hbest _ _ hT' hw' hJ'
  obtain ⟨out, ho⟩ := hret
    (fun c => if c.IsOptimal (ocp.packVec meshE.N T) then .ok (ocp.packVec meshE.N T) else .error .assertion) _ (if_pos hz) hzs.1
  refine ⟨_, out, fun c' z h => ?_, ho⟩
  split at h
  · cases h; assumption
  · cases h

/-- The hypotheses of `C105_solve` are met by two runs with perfect solvers, for problems with states, controls and path
constraints exchanged. -/
theorem C105_example : ocpTwo.Renumbers exchange ocpOwt ∧ exchange.phase 0 = 0 ∧
    SameWidths exchange ocpTwo.nPhases 1 argsE.widths argsE.widths ∧
    ∃ (nlpsol nlpsol' : SolverCall ℚ Nat → Py (List ℚ)) (out out' : _), (∀ c z, nlpsol c = .ok z → c.IsOptimal z) ∧
      (∀ c z, nlpsol' c = .ok z → c.IsOptimal z) ∧
      mpSolve outsideQ nlpsol ocpTwo [[0]] 1 (.int 1) "LGR" argsE false true = .ok out ∧
      mpSolve outsideQ nlpsol' ocpOwt [[0]] 1 (.int 1) "LGR" argsE false true = .ok out' := by
  obtain ⟨⟨hv, hs, hsc⟩, hv', hs', hsc'⟩ := two_ready
  have hw : WidthsAre ocpTwo 1 none trajTwo := fun ph _ s _ => by simp [trajTwo]
  have hsame : SameWidths exchange ocpTwo.nPhases 1 (none : Option (List ℚ)) none := trivial
  have hbest : ∀ T' J', SolvesOCP ocpTwo meshE T' → WidthsAre ocpTwo 1 none T' → PhysCost ocpTwo meshE [1, 1] T' J' →
      (1 : ℚ) ≤ J' := by
    intro T' J' hT' _ hJ'
    rw [costTwo_value] at hJ'
    have := (hT'.1.bounds 0 (by simp [ocpTwo, ocpQ])).tf.1
    rw [hJ']
    simpa [ocpTwo, entry, Ext.Below] using this
  have ht : ∀ ph < ocpTwo.nPhases, entry ocpTwo.t00 ph 0 0 ≠ entry ocpTwo.tf0 ph 0 0 := by decide +kernel
  have hJ : PhysCost ocpTwo meshE [1, 1] trajTwo 1 := costTwo_value.2 rfl
  obtain ⟨n1, o1, h1, r1⟩ := perfect_run hv hs hsc ht trajTwo_solves hw hJ hbest
  obtain ⟨s1, c1⟩ := C105_solves (M := meshE) two_renumbers rfl trajTwo
  obtain ⟨n2, o2, h2, r2⟩ := perfect_run hv' hs' hsc' ht (s1.2 trajTwo_solves) ((two_renumbers.widthsAre hsame).2 hw)
    ((c1 _ _).2 hJ) fun T' J' hT' hw' hJ' => by
      obtain ⟨s2, c2⟩ := C105_solves (M := meshE) two_renumbers rfl (T'.renumber exchange.back)
      have w2 := two_renumbers.widthsAre (T := T'.renumber exchange.back) hsame
      rw [T'.renumber_back] at s2 c2 w2
      exact hbest _ _ (s2.1 hT') (w2.1 hw') ((c2 _ _).1 hJ')
  exact ⟨two_renumbers, rfl, trivial, n1, n2, o1, o2, h1, h2, r1, r2⟩

/-! ### The first phase -/

/-- Two phases without motion, the second after the first; the start is given for both, 1 and 0. -/
def ocpSeq : OCP ℚ :=
  { ocpQ with
    nPhases := 2, dynamics := [⟨1, fun _ _ => 0⟩, ⟨1, fun _ _ => 0⟩], pathConstraints := [none, none]
    terminalCosts := [fun _ => 0, fun _ => 0], runningCosts := [fun _ => 0, fun _ => 0], terminalConstraints := [none, none]
    phaseLinks := [(0, 1)], x00 := [[1], [0]], xf0 := [[1], [0]], u00 := [[0], [0]], uf0 := [[0], [0]], t00 := [[0], [1]]
    tf0 := [[1], [2]], a0 := [[], []], lbx := [[.ninf], [.ninf]], ubx := [[.pinf], [.pinf]], lbu := [[.ninf], [.ninf]]
    ubu := [[.pinf], [.pinf]], lba := [[], []], uba := [[], []], lbt0 := [[.fin 0], [.fin 0]], ubt0 := [[.fin 0], [.pinf]]
    lbtf := [[.fin 0], [.fin 0]], ubtf := [[.pinf], [.pinf]], lbe := [[.fin 0]], ube := [[.fin 0]]
    diffU := [false, false], lbdu := [.fin (-15), .fin (-15)], ubdu := [.fin 15, .fin 15], midu := [true, true]
    duContinuity := [false, false] }

/-- The same two phases, the later one listed first. -/
def ocpQes : OCP ℚ :=
  { ocpSeq with
    phaseLinks := [(1, 0)], x00 := [[0], [1]], xf0 := [[0], [1]], t00 := [[1], [0]], tf0 := [[2], [1]]
    ubt0 := [[.pinf], [.fin 0]] }

/-- Exchange the first two phases. -/
def otherWay : Numbering := ⟨Equiv.refl _, Equiv.refl _, Equiv.refl _, Equiv.swap 0 1, Equiv.refl _⟩

theorem seq_renumbers : ocpSeq.Renumbers otherWay ocpQes := by
  have p0 : otherWay.phase 0 = 1 := by simp [otherWay]
  have p1 : otherWay.phase 1 = 0 := by simp [otherWay]
  have dual : ∀ {P : Nat → Nat → Prop}, P 1 0 → P 0 1 → ∀ ph < ocpSeq.nPhases, P (otherWay.phase ph) ph := by
    intro P h0 h1 ph hp
    rcases two_cases hp with rfl | rfl
    · rwa [p0]
    · rwa [p1]
  have row : ∀ {j : Nat}, j < 1 → j = 0 := fun h => by omega
  constructor
  case keepX => exact refl_permutes _
  case keepU => exact refl_permutes _
  case keepA => exact refl_permutes _
  case keepPhase => exact swap_permutes
  case dynamics =>
    exact dual (P := fun q ph => Option.Rel _ ocpSeq.dynamics[q]? ocpQes.dynamics[ph]?)
      (Option.Rel.some fun _ _ _ _ _ => rfl) (Option.Rel.some fun _ _ _ _ _ => rfl)
  case running =>
    exact dual (P := fun q ph => Option.Rel _ ocpSeq.runningCosts[q]? ocpQes.runningCosts[ph]?)
      (Option.Rel.some fun _ _ _ => rfl) (Option.Rel.some fun _ _ _ => rfl)
  case ends =>
    exact dual (P := fun q ph => Option.Rel _ ocpSeq.terminalCosts[q]? ocpQes.terminalCosts[ph]?)
      (Option.Rel.some fun _ _ _ => rfl) (Option.Rel.some fun _ _ _ => rfl)
  case path =>
    exact dual (P := fun q ph => Option.Rel _ (ocpSeq.pathConstraints.getD q none) (ocpQes.pathConstraints.getD ph none))
      Option.Rel.none Option.Rel.none
  case terminal =>
    exact dual (P := fun q ph => Option.Rel _ (ocpSeq.terminalConstraints.getD q none) (ocpQes.terminalConstraints.getD ph none))
      Option.Rel.none Option.Rel.none
  case start =>
    exact dual (P := fun q ph => ∀ j < ocpSeq.nx, entry ocpQes.x00 ph j 0 = entry ocpSeq.x00 q (otherWay.x j) 0)
      (fun j hj => by obtain rfl := row hj; rfl) (fun j hj => by obtain rfl := row hj; rfl)
  case x =>
    exact dual (P := fun q ph => SameBounds ocpSeq.nx q ph otherWay.x ocpSeq.lbx ocpSeq.ubx ocpQes.lbx ocpQes.ubx)
      (fun j hj => by obtain rfl := row hj; exact ⟨rfl, rfl⟩) (fun j hj => by obtain rfl := row hj; exact ⟨rfl, rfl⟩)
  case u =>
    exact dual (P := fun q ph => SameBounds ocpSeq.nu q ph otherWay.u ocpSeq.lbu ocpSeq.ubu ocpQes.lbu ocpQes.ubu)
      (fun j hj => by obtain rfl := row hj; exact ⟨rfl, rfl⟩) (fun j hj => by obtain rfl := row hj; exact ⟨rfl, rfl⟩)
  case a => intro ph hp j hj; exact absurd hj (by simp [ocpSeq, ocpQ])
  case t0 =>
    exact dual (P := fun q ph => SameBounds 1 q ph id ocpSeq.lbt0 ocpSeq.ubt0 ocpQes.lbt0 ocpQes.ubt0)
      (fun j hj => by obtain rfl := row hj; exact ⟨rfl, rfl⟩) (fun j hj => by obtain rfl := row hj; exact ⟨rfl, rfl⟩)
  case tf =>
    exact dual (P := fun q ph => SameBounds 1 q ph id ocpSeq.lbtf ocpSeq.ubtf ocpQes.lbtf ocpQes.ubtf)
      (fun j hj => by obtain rfl := row hj; exact ⟨rfl, rfl⟩) (fun j hj => by obtain rfl := row hj; exact ⟨rfl, rfl⟩)
  case links =>
    intro k p q
    have hk : ocpQes.phaseLinks[k]? = some (p, q) ↔ k = 0 ∧ p = 1 ∧ q = 0 := by
      rcases k with _ | k <;> simp [ocpQes, eq_comm]
    have hk' : ocpSeq.phaseLinks[k]? = some (otherWay.phase p, otherWay.phase q) ↔
        k = 0 ∧ otherWay.phase p = 0 ∧ otherWay.phase q = 1 := by
      rcases k with _ | k <;> simp [ocpSeq, eq_comm]
    have e1 : otherWay.phase p = 0 ↔ p = 1 := by
      rw [← p1]; exact otherWay.phase.injective.eq_iff
    have e2 : otherWay.phase q = 1 ↔ q = 0 := by
      rw [← p0]; exact otherWay.phase.injective.eq_iff
    show ocpQes.phaseLinks[k]? = _ ↔ ocpSeq.phaseLinks[k]? = _
    rw [hk, hk', e1, e2]
  case jumps =>
    intro k hk j hj
    exact ⟨rfl, rfl⟩
  case mid =>
    exact dual (P := fun q ph => ocpQes.midu.getD ph false = ocpSeq.midu.getD q false) rfl rfl
  case cont =>
    exact dual (P := fun q ph => ocpQes.duContinuity.getD ph false = ocpSeq.duContinuity.getD q false) rfl rfl
  case slope =>
    exact dual (P := fun q ph => ocpQes.diffU.getD ph false = ocpSeq.diffU.getD q false) rfl rfl
  case slopes =>
    intro ph hp hd
    rcases two_cases hp with rfl | rfl <;> simp [ocpQes, ocpSeq] at hd
  all_goals rfl

theorem seq_ready : (ValidOCP ocpSeq ∧ ocpSeq.SettingsOK ∧ ocpSeq.PosScales) ∧
    ValidOCP ocpQes ∧ ocpQes.SettingsOK ∧ ocpQes.PosScales := by
  refine ⟨⟨(C40_validate_iff _).1 (by decide +kernel), ⟨by decide, rfl, rfl, rfl, rfl, rfl, by decide, by decide, by decide,
    by decide⟩, ?_⟩, (C40_validate_iff _).1 (by decide +kernel), ⟨by decide, rfl, rfl, rfl, rfl, rfl, by decide, by decide,
    by decide, by decide⟩, ?_⟩ <;> constructor <;> simp [ocpQes, ocpSeq, ocpQ]

/-- Stay at `v`, first in one phase, then in the other. -/
def trajStay (v : ℚ) (first : Nat) : Traj ℚ :=
  { x := fun _ _ _ => v, u := fun _ _ _ => 0, t0 := fun ph => if ph = first then 0 else 1
    tf := fun ph => if ph = first then 1 else 2, a := fun _ _ => 0, w := fun _ _ => 1 }

/-- **C105, first phase: false.** Two phases listed the other way round, everything renumbered: no trajectory of the first problem,
renumbered, solves the second. Both can be solved, the first by staying at 1 only, the second by staying at 0 only: the start
is that of the phase listed first, although it comes last. -/
theorem C105_first_phase_false : ocpSeq.Renumbers otherWay ocpQes ∧
    (∃ T, SolvesOCP ocpSeq meshE T) ∧ (∃ T, SolvesOCP ocpQes meshE T) ∧
    (∀ T, SolvesOCP ocpSeq meshE T → ∀ ph < 2, ∀ i < 2, T.x ph i 0 = 1) ∧
    (∀ T, SolvesOCP ocpQes meshE T → ∀ ph < 2, ∀ i < 2, T.x ph i 0 = 0) := by
  have own : meshE.Owns 0 0 := by simp [Mesh.Owns, meshE, Mesh.order]
  have still : ∀ {ocp : OCP ℚ} {T : Traj ℚ} {ph : Nat}, CollocationOK ocp meshE T ph → ocp.dynamics[ph]? = some ⟨1, fun _ _ => 0⟩ →
      0 < ocp.nx → T.x ph 1 0 = T.x ph 0 0 := by
    intro ocp T ph hC hF hn
    have := hC _ hF 0 hn 0 0 own
    rw [meshE_piece, mul_zero] at this
    have : (T.x ph 1 0 - T.x ph 0 0) / 2 = 0 := by simpa using this
    linarith
  have sol : ∀ {ocp : OCP ℚ} {T : Traj ℚ}, (ocp = ocpSeq ∧ T = trajStay 1 0 ∨ ocp = ocpQes ∧ T = trajStay 0 1) →
      SolvesOCP ocp meshE T := by
    intro ocp T h
    have row : ∀ {j : Nat}, j < 1 → j = 0 := fun h => by omega
    refine ⟨⟨fun ph hph => ?_, fun ph hph => ?_, fun ph hph => ?_, fun ph hph => ?_, fun ph hph _ => ?_,
      fun ph hph hh => ?_, fun _ => ?_⟩, fun ph hph hh => ?_⟩
    · rcases h with ⟨rfl, rfl⟩ | ⟨rfl, rfl⟩ <;> rcases two_cases hph with rfl | rfl <;>
        refine ⟨fun e j hj => ?_, fun i hi _ j hj => ?_, fun i _ j hj => ?_, ?_, ?_, fun k hk => absurd hk (Nat.not_lt_zero _)⟩ <;>
        first
        | (obtain rfl := row hj; simp [trajStay, entry, ocpQes, ocpSeq, ocpQ, Within, Ext.Below, Ext.Above])
        | (simp [trajStay, entry, ocpQes, ocpSeq, ocpQ, Within, Ext.Below, Ext.Above])
    · intro F hF j hj s i ho
      obtain ⟨rfl, -⟩ := meshE_owns ho
      have hF' : F = ⟨1, fun _ _ => 0⟩ := by
        rcases h with ⟨rfl, rfl⟩ | ⟨rfl, rfl⟩ <;> rcases two_cases hph with rfl | rfl <;>
          simpa [ocpQes, ocpSeq, eq_comm] using hF
      subst hF'
      rw [meshE_piece]
      rcases h with ⟨rfl, rfl⟩ | ⟨rfl, rfl⟩ <;> simp [trajStay]
    · intro F hF
      rcases h with ⟨rfl, rfl⟩ | ⟨rfl, rfl⟩ <;> rcases two_cases hph with rfl | rfl <;> simp [ocpQes, ocpSeq] at hF
    · intro F hF
      rcases h with ⟨rfl, rfl⟩ | ⟨rfl, rfl⟩ <;> rcases two_cases hph with rfl | rfl <;> simp [ocpQes, ocpSeq] at hF
    · intro j hj s hs i hi
      rcases h with ⟨rfl, rfl⟩ | ⟨rfl, rfl⟩ <;> rcases two_cases hph with rfl | rfl <;> obtain rfl := row hj <;>
        simp [entry, ocpQes, ocpSeq, Within, Ext.Below, Ext.Above]
    · rcases h with ⟨rfl, rfl⟩ | ⟨rfl, rfl⟩ <;> rcases two_cases hph with rfl | rfl <;> simp [ocpQes, ocpSeq] at hh
    · rcases h with ⟨rfl, rfl⟩ | ⟨rfl, rfl⟩ <;> refine ⟨fun k p q hk j hj => ?_, fun k p q hk j hj => ?_, fun k p q hk => ?_⟩ <;>
        rcases k with _ | k <;> simp [ocpQes, ocpSeq] at hk <;> obtain ⟨rfl, rfl⟩ := hk <;>
        first
        | (obtain rfl := row hj; simp [trajStay, entry, ocpQes, ocpSeq, ocpQ, Within, Ext.Below, Ext.Above])
        | (simp [trajStay])
    · rcases h with ⟨rfl, rfl⟩ | ⟨rfl, rfl⟩ <;> rcases two_cases hph with rfl | rfl <;> simp [ocpQes, ocpSeq] at hh
  have N1 : meshE.N - 1 = 1 := by decide
  refine ⟨seq_renumbers, ⟨_, sol (Or.inl ⟨rfl, rfl⟩)⟩, ⟨_, sol (Or.inr ⟨rfl, rfl⟩)⟩, fun T hT => ?_, fun T hT => ?_⟩
  · have a0 : T.x 0 0 0 = 1 := (hT.1.bounds 0 (by decide)).x0 rfl 0 (by decide)
    have a1 := still (hT.1.dynamics 0 (by decide)) rfl (by decide)
    have a2 := still (hT.1.dynamics 1 (by decide)) rfl (by decide)
    have a3 := (hT.1.links (by decide)).x 0 0 1 rfl 0 (by decide)
    rw [N1] at a3
    have a3 : 0 ≤ T.x 1 0 0 - T.x 0 1 0 ∧ T.x 1 0 0 - T.x 0 1 0 ≤ 0 := by
      simpa only [entry, ocpSeq, Within, Ext.Below, Ext.Above, List.getD_cons_zero] using a3
    intro ph hp i hi
    rcases two_cases hp with rfl | rfl <;> rcases two_cases hi with rfl | rfl <;> linarith [a3.1, a3.2]
  · have a0 : T.x 0 0 0 = 0 := (hT.1.bounds 0 (by decide)).x0 rfl 0 (by decide)
    have a1 := still (hT.1.dynamics 0 (by decide)) rfl (by decide)
    have a2 := still (hT.1.dynamics 1 (by decide)) rfl (by decide)
    have a3 := (hT.1.links (by decide)).x 0 1 0 rfl 0 (by decide)
    rw [N1] at a3
    have a3 : 0 ≤ T.x 0 0 0 - T.x 1 1 0 ∧ T.x 0 0 0 - T.x 1 1 0 ≤ 0 := by
      simpa only [entry, ocpQes, ocpSeq, Within, Ext.Below, Ext.Above, List.getD_cons_zero] using a3
    intro ph hp i hi
    rcases two_cases hp with rfl | rfl <;> rcases two_cases hi with rfl | rfl <;> linarith [a3.1, a3.2]

/-! ### Guesses -/

/-- **C105, guess: false.** Default starting points of the two problems of `C105_example` on two nodes, controls being guessed as
0 and 1 (scales 1 and 5): states are exchanged, but both problems start both controls from the guess of control 0 at the first
node, and from that of control 1 at the second. -/
theorem C105_guess_false :
    ocpTwo.initialGuess 2 = .ok [.fin 2, .fin 2, .fin 6, .fin 6, .fin 0, .fin 5, .fin 0, .fin 5, .fin 0, .fin 1] ∧
    ocpOwt.initialGuess 2 = .ok [.fin 6, .fin 6, .fin 2, .fin 2, .fin 5, .fin 0, .fin 5, .fin 0, .fin 0, .fin 1] := by
  constructor <;> decide +kernel

end MPOpt
