import Verif.Spec.Principle
import Verif.Props.Symmetry
import Verif.Props.BackwardEnd

/-! # C116: planning again at the start of the last phase -/

set_option autoImplicit false
set_option linter.unusedSectionVars false

namespace MPOpt
open Polynomial

section
variable {α : Type} {q : Nat} {l : List α}

theorem onlyRow_zero : (onlyRow q l)[0]? = l[q]? := by simp [onlyRow]

theorem onlyRow_getD (d : α) : (onlyRow q l).getD 0 d = l.getD q d := by
  simp [List.getD_eq_getElem?_getD, onlyRow_zero]

theorem onlyRow_length (h : q < l.length) : (onlyRow q l).length = 1 := by
  simp [onlyRow]; omega

theorem onlyRow_mem {a : α} (h : a ∈ onlyRow q l) : a ∈ l := List.mem_of_mem_drop (List.mem_of_mem_take h)

theorem onlyRow_later {k : Nat} (h : k ≠ 0) : (onlyRow q l)[k]? = none := by
  simp [onlyRow]; omega

theorem entry_onlyRow {l : List (List α)} (j : Nat) (d : α) : entry (onlyRow q l) 0 j d = entry l q j d := by
  unfold entry; rw [onlyRow_getD]

theorem HasShape.onlyRow {l : List (List α)} {n c : Nat} (h : HasShape l n c) (hq : q < n) : HasShape (onlyRow q l) 1 c :=
  ⟨onlyRow_length (h.1 ▸ hq), fun _ hm => h.2 _ (onlyRow_mem hm)⟩

end

section
variable {K V : Type} [Field K] [LinearOrder K] [IsStrictOrderedRing K]
variable {ocp : OCP K} {M : Mesh K} {T S : Traj K} {q n : Nat} {x : Nat → K} {t : K}

theorem RowOrdered.onlyRow {lo hi : List (List (Ext K))} (h : RowOrdered lo hi q) (ph : Nat) :
    RowOrdered (onlyRow q lo) (onlyRow q hi) ph := by
  intro l u hl hu
  by_cases hp : ph = 0
  · subst hp
    rw [onlyRow_zero] at hl hu
    exact h l u hl hu
  · rw [onlyRow_later hp] at hl; cases hl

theorem rowOrdered_refl_fin (t : K) (ph : Nat) : RowOrdered [[Ext.fin t]] [[Ext.fin t]] ph := by
  intro l u hl hu i a b ha hb
  rcases ph with _ | ph
  · simp only [List.getElem?_cons_zero, Option.some.injEq] at hl hu
    subst hl hu
    rcases i with _ | i
    · simp only [List.getElem?_cons_zero, Option.some.injEq] at ha hb
      subst ha hb
      simp [Ext.le]
    · simp at ha
  · simp at hl

/-- What is left of a well-formed problem is well-formed. -/
theorem only_ready (hv : ValidOCP ocp) (hs : ocp.SettingsOK) (hsc : ocp.PosScales) (hq : q < ocp.nPhases) :
    ValidOCP (ocp.only q x t) ∧ (ocp.only q x t).SettingsOK ∧ (ocp.only q x t).PosScales := by
  refine ⟨?_, ?_, ⟨hsc.1, hsc.2, hsc.3, hsc.4⟩⟩
  · constructor
    case phases => exact Nat.one_pos
    case dynamics => exact onlyRow_length (hv.dynamics ▸ hq)
    case runningCosts => exact onlyRow_length (hv.runningCosts ▸ hq)
    case terminalCosts => exact onlyRow_length (hv.terminalCosts ▸ hq)
    case pathConstraints => exact onlyRow_length (hv.pathConstraints ▸ hq)
    case terminalConstraints => exact onlyRow_length (hv.terminalConstraints ▸ hq)
    case dynLen => exact fun F hF => hv.dynLen F (onlyRow_mem hF)
    case pathLen => exact fun F hF => hv.pathLen F (onlyRow_mem hF)
    case termLen => exact fun F hF => hv.termLen F (onlyRow_mem hF)
    case scaleX => exact hv.scaleX
    case scaleU => exact hv.scaleU
    case scaleA => exact hv.scaleA
    case x00 => exact ⟨rfl, by simp [OCP.only]⟩
    case xf0 => exact hv.xf0.onlyRow hq
    case u00 => exact hv.u00.onlyRow hq
    case uf0 => exact hv.uf0.onlyRow hq
    case a0 => exact hv.a0.onlyRow hq
    case t00 => exact hv.t00.onlyRow hq
    case tf0 => exact hv.tf0.onlyRow hq
    case lbx => exact hv.lbx.onlyRow hq
    case ubx => exact hv.ubx.onlyRow hq
    case lbu => exact hv.lbu.onlyRow hq
    case ubu => exact hv.ubu.onlyRow hq
    case lba => exact hv.lba.onlyRow hq
    case uba => exact hv.uba.onlyRow hq
    case lbt0 => exact ⟨rfl, by simp [OCP.only]⟩
    case ubt0 => exact ⟨rfl, by simp [OCP.only]⟩
    case lbtf => exact hv.lbtf.onlyRow hq
    case ubtf => exact hv.ubtf.onlyRow hq
    case lbe => exact ⟨rfl, by simp [OCP.only]⟩
    case ube => exact ⟨rfl, by simp [OCP.only]⟩
    case ordX => exact (hv.ordX q).onlyRow
    case ordU => exact (hv.ordU q).onlyRow
    case ordA => exact (hv.ordA q).onlyRow
    case ordT0 =>
      show ∀ ph, RowOrdered [[Ext.fin t]] [[Ext.fin t]] ph
      exact rowOrdered_refl_fin t
    case ordTf => exact (hv.ordTf q).onlyRow
    case ordE =>
      intro ph l u hl
      simp [OCP.only] at hl
  · constructor
    case nx => exact hs.nx
    case diffU => exact onlyRow_length (hs.diffU ▸ hq)
    case midu => exact onlyRow_length (hs.midu ▸ hq)
    case duContinuity => exact onlyRow_length (hs.duContinuity ▸ hq)
    case lbdu => exact onlyRow_length (hs.lbdu ▸ hq)
    case ubdu => exact onlyRow_length (hs.ubdu ▸ hq)
    case nu => exact hs.nu.imp id fun h => ⟨fun b hb => h.1 b (onlyRow_mem hb), fun b hb => h.2 b (onlyRow_mem hb)⟩
    case links => exact fun h => absurd h (by simp [OCP.only])
    case linkCount => exact fun h => absurd h (by simp [OCP.only])
    case linkRange => exact fun l hl => absurd hl (by simp [OCP.only])

/-- Phase `p` of `T` and phase `r` of `S` are the same. -/
structure SamePhase (p r : Nat) (T S : Traj K) : Prop where
  x : T.x p = S.x r
  u : T.u p = S.u r
  t0 : T.t0 p = S.t0 r
  tf : T.tf p = S.tf r
  a : T.a p = S.a r
  w : ∀ s, T.w s p = S.w s r

theorem samePhase_only : SamePhase q 0 T (T.only q) := ⟨rfl, rfl, rfl, rfl, rfl, fun _ => rfl⟩

theorem samePhase_put : SamePhase q 0 (T.put q S) S := by constructor <;> simp [Traj.put]

theorem samePhase_other {p : Nat} (h : p ≠ q) : SamePhase p p (T.put q S) T := by constructor <;> simp [Traj.put, h]

section
variable {p r : Nat} (h : SamePhase p r T S)
include h

theorem SamePhase.half (s : Nat) : M.halfWidth T p s = M.halfWidth S r s := by
  unfold Mesh.halfWidth; rw [h.t0, h.tf, h.w]

theorem SamePhase.time (s : Nat) (tau : K) : M.time T p s tau = M.time S r s tau := by
  unfold Mesh.time; rw [h.half, h.t0, h.tf]; simp only [h.w]

theorem SamePhase.pArg (k : Nat) (t : K) : ocp.pArg T p k t = ocp.pArg S r k t := by
  unfold OCP.pArg; rw [h.x, h.u, h.a]

theorem SamePhase.tArg (k : Nat) : ocp.tArg T p k = ocp.tArg S r k := by
  unfold OCP.tArg; rw [h.x, h.a, h.t0, h.tf]

end

/-- A phase of one problem and a phase of another ask for the same. -/
structure SameTask (ocp o : OCP K) (p r : Nat) : Prop where
  nx : ocp.nx = o.nx
  nu : ocp.nu = o.nu
  na : ocp.na = o.na
  scaleU : ocp.scaleU = o.scaleU
  dynamics : ocp.dynamics[p]? = o.dynamics[r]?
  path : ocp.pathConstraints[p]? = o.pathConstraints[r]?
  terminal : ocp.terminalConstraints[p]? = o.terminalConstraints[r]?
  running : ocp.runningCosts[p]? = o.runningCosts[r]?
  cost : ocp.terminalCosts[p]? = o.terminalCosts[r]?
  lbu : ∀ j, entry ocp.lbu p j .nan = entry o.lbu r j .nan
  ubu : ∀ j, entry ocp.ubu p j .nan = entry o.ubu r j .nan
  lbdu : ocp.lbdu.getD p .nan = o.lbdu.getD r .nan
  ubdu : ocp.ubdu.getD p .nan = o.ubdu.getD r .nan
  diffU : ocp.diffU.getD p false = o.diffU.getD r false
  midu : ocp.midu.getD p false = o.midu.getD r false
  duContinuity : ocp.duContinuity.getD p false = o.duContinuity.getD r false

theorem sameTask_refl (p : Nat) : SameTask ocp ocp p p := by constructor <;> intros <;> rfl

theorem sameTask_only : SameTask ocp (ocp.only q x t) q 0 := by
  constructor <;> intros <;> first
    | rfl
    | exact onlyRow_zero.symm
    | exact (onlyRow_getD _).symm
    | exact (entry_onlyRow _ _).symm

/-- What a phase asks for besides its box. -/
structure PhaseOK (ocp : OCP K) (M : Mesh K) (T : Traj K) (p : Nat) : Prop where
  dynamics : CollocationOK ocp M T p
  path : PathOK ocp M T p
  terminal : TerminalOK ocp M T p
  mid : ocp.midu.getD p false = true → MidControlOK ocp M T p
  cont : ocp.duContinuity.getD p false = true → SlopeContinuous ocp M T p
  slope : ocp.diffU.getD p false = true → SlopeBounded ocp M T (fun j => ocp.scaleU.getD j 0) p

theorem SolvesOCP.phase (hT : SolvesOCP ocp M T) {p : Nat} (hp : p < ocp.nPhases) : PhaseOK ocp M T p :=
  ⟨hT.1.dynamics p hp, hT.1.path p hp, hT.1.terminal p hp, hT.1.mid p hp, hT.1.cont p hp, hT.2 p hp⟩

variable {o : OCP K}

theorem pArg_task {p r : Nat} (ht : SameTask ocp o p r) (h : SamePhase p r T S) (k : Nat) (t : K) :
    ocp.pArg T p k t = o.pArg S r k t := by
  rw [h.pArg]; unfold OCP.pArg; rw [ht.nx, ht.nu, ht.na]

theorem tArg_task {p r : Nat} (ht : SameTask ocp o p r) (h : SamePhase p r T S) (k : Nat) :
    ocp.tArg T p k = o.tArg S r k := by
  rw [h.tArg]; unfold OCP.tArg; rw [ht.nx, ht.na]

section
variable {p r : Nat} (ht : SameTask ocp o p r) (h : SamePhase p r T S)
include ht h

theorem collocation_task : CollocationOK ocp M T p ↔ CollocationOK o M S r := by
  unfold CollocationOK; simp only [ht.dynamics, ht.nx, h.x, h.half, h.time, pArg_task ht h]

theorem path_task : PathOK ocp M T p ↔ PathOK o M S r := by
  unfold PathOK; simp only [ht.path, h.time, pArg_task ht h]

theorem terminal_task : TerminalOK ocp M T p ↔ TerminalOK o M S r := by
  unfold TerminalOK; simp only [ht.terminal, tArg_task ht h]

theorem mid_task : MidControlOK ocp M T p ↔ MidControlOK o M S r := by
  unfold MidControlOK; simp only [ht.nu, ht.lbu, ht.ubu, h.u]

theorem cont_task : SlopeContinuous ocp M T p ↔ SlopeContinuous o M S r := by
  unfold SlopeContinuous; simp only [ht.nu, h.u]

theorem slope_task : SlopeBounded ocp M T (fun j => ocp.scaleU.getD j 0) p ↔ SlopeBounded o M S (fun j => o.scaleU.getD j 0) r := by
  unfold SlopeBounded; simp only [ht.nu, ht.lbdu, ht.ubdu, h.u, ht.scaleU]

end

theorem PhaseOK.iff {p r : Nat} (ht : SameTask ocp o p r) (h : SamePhase p r T S) : PhaseOK ocp M T p ↔ PhaseOK o M S r := by
  have e1 := collocation_task (M := M) ht h
  have e2 := path_task (M := M) ht h
  have e3 := terminal_task (M := M) ht h
  have e4 := mid_task (M := M) ht h
  have e5 := cont_task (M := M) ht h
  have e6 := slope_task (M := M) ht h
  constructor
  · rintro ⟨h1, h2, h3, h4, h5, h6⟩
    exact ⟨e1.1 h1, e2.1 h2, e3.1 h3, fun hm => e4.1 (h4 (ht.midu.trans hm)), fun hm => e5.1 (h5 (ht.duContinuity.trans hm)),
      fun hm => e6.1 (h6 (ht.diffU.trans hm))⟩
  · rintro ⟨h1, h2, h3, h4, h5, h6⟩
    exact ⟨e1.2 h1, e2.2 h2, e3.2 h3, fun hm => e4.2 (h4 (ht.midu.symm.trans hm)),
      fun hm => e5.2 (h5 (ht.duContinuity.symm.trans hm)), fun hm => e6.2 (h6 (ht.diffU.symm.trans hm))⟩

theorem entry_only_start {j : Nat} (hj : j < ocp.nx) : entry (ocp.only q x t).x00 0 j 0 = x j := by
  simp [entry, OCP.only, List.getD_eq_getElem?_getD, hj]

theorem only_bounds (hB : BoundsOK ocp M T q) : BoundsOK (ocp.only q (T.x q 0) (T.t0 q)) M (T.only q) 0 := by
  constructor
  · intro _ j hj
    exact (entry_only_start (ocp := ocp) hj).symm
  · intro i hi hne j hj
    rw [show (ocp.only q (T.x q 0) (T.t0 q)).lbx = onlyRow q ocp.lbx from rfl,
      show (ocp.only q (T.x q 0) (T.t0 q)).ubx = onlyRow q ocp.ubx from rfl, entry_onlyRow, entry_onlyRow]
    exact hB.x i hi (by omega) j hj
  · intro i hi j hj
    rw [show (ocp.only q (T.x q 0) (T.t0 q)).lbu = onlyRow q ocp.lbu from rfl,
      show (ocp.only q (T.x q 0) (T.t0 q)).ubu = onlyRow q ocp.ubu from rfl, entry_onlyRow, entry_onlyRow]
    exact hB.u i hi j hj
  · exact ⟨le_refl (T.t0 q), le_refl (T.t0 q)⟩
  · rw [show (ocp.only q (T.x q 0) (T.t0 q)).lbtf = onlyRow q ocp.lbtf from rfl,
      show (ocp.only q (T.x q 0) (T.t0 q)).ubtf = onlyRow q ocp.ubtf from rfl, entry_onlyRow, entry_onlyRow]
    exact hB.tf
  · intro k hk
    rw [show (ocp.only q (T.x q 0) (T.t0 q)).lba = onlyRow q ocp.lba from rfl,
      show (ocp.only q (T.x q 0) (T.t0 q)).uba = onlyRow q ocp.uba from rfl, entry_onlyRow, entry_onlyRow]
    exact hB.a k hk

/-- **C116** The last phase of a trajectory that solves the whole problem solves the problem that is left when that phase begins. -/
theorem C116_tail (hq : q < ocp.nPhases) (hT : SolvesOCP ocp M T) :
    SolvesOCP (ocp.only q (T.x q 0) (T.t0 q)) M (T.only q) := by
  have hP := (PhaseOK.iff (o := ocp.only q (T.x q 0) (T.t0 q)) sameTask_only samePhase_only).1 (hT.phase hq)
  have one : ∀ {P : Nat → Prop}, P 0 → ∀ ph < (ocp.only q (T.x q 0) (T.t0 q)).nPhases, P ph := by
    intro P h ph hp
    obtain rfl : ph = 0 := Nat.lt_one_iff.1 hp
    exact h
  exact ⟨⟨one (only_bounds (hT.1.bounds q hq)), one hP.dynamics, one hP.path, one hP.terminal, one hP.mid, one hP.cont, fun h => absurd h (by simp [OCP.only])⟩,
    one hP.slope⟩

theorem put_start (hB : BoundsOK (ocp.only q (T.x q 0) (T.t0 q)) M S 0) :
    (∀ j < ocp.nx, S.x 0 0 j = T.x q 0 j) ∧ S.t0 0 = T.t0 q :=
  ⟨fun j hj => (hB.x0 rfl j hj).trans (entry_only_start hj), le_antisymm hB.t0.2 hB.t0.1⟩

theorem put_bounds (hT : ∀ p < ocp.nPhases, BoundsOK ocp M T p) (hB : BoundsOK (ocp.only q (T.x q 0) (T.t0 q)) M S 0) :
    ∀ p < ocp.nPhases, BoundsOK ocp M (T.put q S) p := by
  obtain ⟨hx, ht⟩ := put_start hB
  intro p hp
  by_cases e : p = q
  · subst e
    have h := samePhase_put (q := p) (T := T) (S := S)
    constructor
    · rintro rfl j hj
      rw [h.x, hx j hj]; exact (hT 0 hp).x0 rfl j hj
    · intro i hi hne j hj
      rw [h.x]
      by_cases hi0 : i = 0
      · subst hi0
        rw [hx j hj]; exact (hT p hp).x 0 hi hne j hj
      · have := hB.x i hi (by omega) j hj
        rwa [show (ocp.only p (T.x p 0) (T.t0 p)).lbx = onlyRow p ocp.lbx from rfl,
          show (ocp.only p (T.x p 0) (T.t0 p)).ubx = onlyRow p ocp.ubx from rfl, entry_onlyRow, entry_onlyRow] at this
    · intro i hi j hj
      rw [h.u]
      have := hB.u i hi j hj
      rwa [show (ocp.only p (T.x p 0) (T.t0 p)).lbu = onlyRow p ocp.lbu from rfl,
        show (ocp.only p (T.x p 0) (T.t0 p)).ubu = onlyRow p ocp.ubu from rfl, entry_onlyRow, entry_onlyRow] at this
    · rw [h.t0, ht]; exact (hT p hp).t0
    · rw [h.tf]
      have := hB.tf
      rwa [show (ocp.only p (T.x p 0) (T.t0 p)).lbtf = onlyRow p ocp.lbtf from rfl,
        show (ocp.only p (T.x p 0) (T.t0 p)).ubtf = onlyRow p ocp.ubtf from rfl, entry_onlyRow, entry_onlyRow] at this
    · intro k hk
      rw [h.a]
      have := hB.a k hk
      rwa [show (ocp.only p (T.x p 0) (T.t0 p)).lba = onlyRow p ocp.lba from rfl,
        show (ocp.only p (T.x p 0) (T.t0 p)).uba = onlyRow p ocp.uba from rfl, entry_onlyRow, entry_onlyRow] at this
  · have h := samePhase_other (T := T) (S := S) e
    obtain ⟨b1, b2, b3, b4, b5, b6⟩ := hT p hp
    refine ⟨?_, ?_, ?_, ?_, ?_, ?_⟩
    · rintro rfl; rw [h.x]; exact b1 rfl
    · rw [h.x]; exact b2
    · rw [h.u]; exact b3
    · rw [h.t0]; exact b4
    · rw [h.tf]; exact b5
    · rw [h.a]; exact b6

theorem put_links (hf : ocp.Final q) (hB : BoundsOK (ocp.only q (T.x q 0) (T.t0 q)) M S 0)
    (hu : ∀ j < ocp.nu, S.u 0 0 j = T.u q 0 j) (hl : LinksOK ocp M T) : LinksOK ocp M (T.put q S) := by
  obtain ⟨hx, ht⟩ := put_start hB
  obtain ⟨l1, l2, l3⟩ := hl
  have key : ∀ k p r : Nat, ocp.phaseLinks[k]? = some (p, r) → SamePhase p p (T.put q S) T ∧
      (∀ j < ocp.nx, (T.put q S).x r 0 j = T.x r 0 j) ∧ (∀ j < ocp.nu, (T.put q S).u r 0 j = T.u r 0 j) ∧ (T.put q S).t0 r = T.t0 r := by
    intro k p r hk
    refine ⟨samePhase_other (hf _ (List.mem_of_getElem? hk)), ?_⟩
    by_cases e : r = q
    · subst e
      have h := samePhase_put (q := r) (T := T) (S := S)
      rw [h.x, h.u, h.t0]
      exact ⟨hx, hu, ht⟩
    · have h := samePhase_other (T := T) (S := S) e
      rw [h.x, h.u, h.t0]
      exact ⟨fun _ _ => rfl, fun _ _ => rfl, rfl⟩
  refine ⟨fun k p r hk j hj => ?_, fun k p r hk j hj => ?_, fun k p r hk => ?_⟩
  · obtain ⟨k1, k2, -, -⟩ := key k p r hk
    rw [k2 j hj, k1.x]; exact l1 k p r hk j hj
  · obtain ⟨k1, -, k2, -⟩ := key k p r hk
    rw [k2 j hj, k1.u]; exact l2 k p r hk j hj
  · obtain ⟨k1, -, -, k2⟩ := key k p r hk
    rw [k2, k1.tf]; exact l3 k p r hk

/-- **C116** The other way round: a plan for what is left, made from the state and the time at which the last phase began, may take
the place of that phase, provided that it begins with the control that was in use. -/
theorem C116_put (hq : q < ocp.nPhases) (hf : ocp.Final q) (hT : SolvesOCP ocp M T)
    (hS : SolvesOCP (ocp.only q (T.x q 0) (T.t0 q)) M S) (hu : ∀ j < ocp.nu, S.u 0 0 j = T.u q 0 j) :
    SolvesOCP ocp M (T.put q S) := by
  have hB := hS.1.bounds 0 Nat.one_pos
  have hP : ∀ p < ocp.nPhases, PhaseOK ocp M (T.put q S) p := by
    intro p hp
    by_cases e : p = q
    · subst e
      exact (PhaseOK.iff sameTask_only samePhase_put).2 (hS.phase Nat.one_pos)
    · exact (PhaseOK.iff (sameTask_refl p) (samePhase_other e)).2 (hT.phase hp)
  exact ⟨⟨put_bounds hT.1.bounds hB, fun p hp => (hP p hp).dynamics, fun p hp => (hP p hp).path, fun p hp => (hP p hp).terminal,
    fun p hp => (hP p hp).mid, fun p hp => (hP p hp).cont, fun h2 => put_links hf hB hu (hT.1.links h2)⟩, fun p hp => (hP p hp).slope⟩

theorem samples_task {p r : Nat} (ht : SameTask ocp o p r) (h : SamePhase p r T S) {v : Nat → K} :
    RunningSamples ocp M T p v ↔ RunningSamples o M S r v := by
  unfold RunningSamples; simp only [ht.running, h.half, h.time, pArg_task ht h]

theorem terminalCost_task {p r : Nat} (ht : SameTask ocp o p r) (h : SamePhase p r T S) :
    TerminalCost ocp M T p = TerminalCost o M S r := by
  unfold TerminalCost; rw [List.getD_eq_getElem?_getD, List.getD_eq_getElem?_getD, ht.cost, tArg_task ht h]

/-- **C116** The exchange changes the cost by the difference of the costs of the last phase. -/
theorem C116_cost (hM : M.Good) (hv : ValidOCP ocp) (hq : q < ocp.nPhases) {W : List K} (hW : W.length = M.N) {J L L' : K}
    (hJ : PhysCost ocp M W T J) (hL : PhysCost (ocp.only q (T.x q 0) (T.t0 q)) M W (T.only q) L)
    (hL' : PhysCost (ocp.only q (T.x q 0) (T.t0 q)) M W S L') : PhysCost ocp M W (T.put q S) (J - L + L') := by
  obtain ⟨v, hv1, rfl⟩ := hJ
  have hL2 : PhysCost (ocp.only q (T.x q 0) (T.t0 q)) M W (T.only q) (TerminalCost ocp M T q + weightedSum W (v q)) := by
    refine ⟨fun _ => v q, fun ph hp => ?_, ?_⟩
    · obtain rfl : ph = 0 := Nat.lt_one_iff.1 hp
      exact (samples_task sameTask_only samePhase_only).1 (hv1 q hq)
    · rw [show (ocp.only q (T.x q 0) (T.t0 q)).nPhases = 1 from rfl, Finset.sum_range_one,
        terminalCost_task (M := M) (sameTask_only (x := T.x q 0) (t := T.t0 q)) (samePhase_only (T := T))]
  have eL := PhysCost.unique hM hW (onlyRow_length (hv.runningCosts ▸ hq)) hL hL2
  obtain ⟨v', hv', e'⟩ := hL'
  rw [show (ocp.only q (T.x q 0) (T.t0 q)).nPhases = 1 from rfl, Finset.sum_range_one] at e'
  refine ⟨fun p => if p = q then v' 0 else v p, fun p hp => ?_, ?_⟩
  · by_cases e : p = q
    · subst e
      simp only [if_true]
      exact (samples_task sameTask_only samePhase_put).2 (hv' 0 Nat.one_pos)
    · simp only [e, if_false]
      exact (samples_task (sameTask_refl p) (samePhase_other e)).2 (hv1 p hp)
  · have hmem : q ∈ Finset.range ocp.nPhases := Finset.mem_range.2 hq
    rw [← Finset.add_sum_erase _ _ hmem, ← Finset.add_sum_erase _ _ hmem, eL, e']
    have : ∀ p ∈ (Finset.range ocp.nPhases).erase q,
        TerminalCost ocp M (T.put q S) p + weightedSum W (if p = q then v' 0 else v p) = TerminalCost ocp M T p + weightedSum W (v p) := by
      intro p hp
      have e := Finset.ne_of_mem_erase hp
      rw [if_neg e, terminalCost_task (sameTask_refl p) (samePhase_other e)]
    rw [Finset.sum_congr rfl this]
    dsimp only
    rw [if_pos rfl,
      terminalCost_task (M := M) (sameTask_only (x := T.x q 0) (t := T.t0 q)) (samePhase_put (T := T) (S := S))]
    ring

variable {w : Outside K V} {scheme : String} {arg : OrdersArg}

theorem widths_only (hq : q < ocp.nPhases) (h : WidthsAre ocp n none T) : WidthsAre (ocp.only q x t) n none (T.only q) :=
  fun _ _ s hs => h q hq s hs

theorem widths_put (h : WidthsAre ocp n none T) (hS : WidthsAre (ocp.only q x t) n none S) : WidthsAre ocp n none (T.put q S) := by
  intro p hp s hs
  by_cases e : p = q
  · subst e
    rw [samePhase_put.w]; exact hS 0 Nat.one_pos s hs
  · rw [(samePhase_other e).w]; exact h p hp s hs

/-- **C116** The principle of optimality: among the plans for what is left that begin with the control that was in use, the last phase of
a trajectory of least cost has least cost. -/
theorem C116_best (hM : MeshFor w scheme n arg M) (hv : ValidOCP ocp) (hq : q < ocp.nPhases) (hf : ocp.Final q)
    (hT : BestTraj w scheme ocp M n none T) {W : List K}
    (hW : compQuadWeights ⟨w.method, w.tau0, w.tau1, tausFn w.lib w.tau0 w.tau1 scheme⟩ M.orders = .ok W) {L L' : K}
    (hL : PhysCost (ocp.only q (T.x q 0) (T.t0 q)) M W (T.only q) L)
    (hS : SolvesOCP (ocp.only q (T.x q 0) (T.t0 q)) M S) (hSw : WidthsAre (ocp.only q (T.x q 0) (T.t0 q)) n none S)
    (hu : ∀ j < ocp.nu, S.u 0 0 j = T.u q 0 j) (hL' : PhysCost (ocp.only q (T.x q 0) (T.t0 q)) M W S L') : L ≤ L' := by
  obtain ⟨v, hv1⟩ := exists_samples ocp M T
  have hJ : PhysCost ocp M W T _ := ⟨v, hv1, rfl⟩
  have := hT.best W _ hW hJ _ _ (C116_put hq hf hT.solves hS hu) (widths_put hT.widths hSw)
    (C116_cost hM.good hv hq (hM.weights_length hW) hJ hL hL')
  linarith

variable {nlpsol nlpsol' : SolverCall K V → Py (List K)} {s s' : Session K V} {p p' : Post K} {r r' : Option (PyDict (ResidVal K))}
variable {a a' : SolveArgs K V} {ptp ptp' : List (List Nat)} {rx rdx rx' rdx' : Bool}

/-- **C116** For `solve`: let the whole problem be solved to optimality, and then what is left of it when phase `q`, the last of its
chain, begins as it was shown to begin. The second run shows a plan that costs no more than that phase did (it could have kept it);
and it costs less only if its first control is not the one that the phase began with: links carry controls as well as states. -/
theorem C116_solve (hrun : mpSolve w nlpsol ocp ptp n arg scheme a rx rdx = .ok (s, p, r)) (hwid : a.widths = none)
    (hv : ValidOCP ocp) (hs : ocp.SettingsOK) (hsc : ocp.PosScales) (hM : MeshFor w scheme n arg M)
    (hopt : ∀ c z, nlpsol c = .ok z → c.IsOptimal z) (hopt' : ∀ c z, nlpsol' c = .ok z → c.IsOptimal z)
    (hq : q < ocp.nPhases) (hf : ocp.Final q) (hwid' : a'.widths = none) :
    ∃ T W J L, compQuadWeights ⟨w.method, w.tau0, w.tau1, tausFn w.lib w.tau0 w.tau1 scheme⟩ M.orders = .ok W ∧
      p.Shows ocp M T ∧ PhysCost ocp M W T J ∧ PhysCost (ocp.only q (T.x q 0) (T.t0 q)) M W (T.only q) L ∧
      ∀ s' p' r', mpSolve w nlpsol' (ocp.only q (T.x q 0) (T.t0 q)) ptp' n arg scheme a' rx' rdx' = .ok (s', p', r') →
        ∃ S L', p'.Shows (ocp.only q (T.x q 0) (T.t0 q)) M S ∧ PhysCost (ocp.only q (T.x q 0) (T.t0 q)) M W S L' ∧ L' ≤ L ∧
          ((∀ j < ocp.nu, S.u 0 0 j = T.u q 0 j) → L' = L ∧ SolvesOCP ocp M (T.put q S) ∧ PhysCost ocp M W (T.put q S) J) := by
  obtain ⟨T, W, J, hW, hT, hTw, hsh, hJ, hb⟩ := C53_solve_optimal hrun hv hs hsc hM hopt
  rw [hwid] at hTw hb
  have hWl := hM.weights_length hW
  have hbest : BestTraj w scheme ocp M n none T := ⟨hT, hTw, fun W' J' hW' hJ' => by
    obtain rfl : W = W' := by rw [hW] at hW'; cases hW'; rfl
    obtain rfl := hJ'.unique hM.good hWl hv.runningCosts hJ
    exact hb⟩
  obtain ⟨hv', hs', hsc'⟩ := only_ready (x := T.x q 0) (t := T.t0 q) hv hs hsc hq
  obtain ⟨v, hv1⟩ := exists_samples (ocp.only q (T.x q 0) (T.t0 q)) M (T.only q)
  have hL : PhysCost (ocp.only q (T.x q 0) (T.t0 q)) M W (T.only q) _ := ⟨v, hv1, rfl⟩
  refine ⟨T, W, J, _, hW, hsh, hJ, hL, fun s' p' r' hrun' => ?_⟩
  obtain ⟨S, W', L', hW', hS, hSw, hsh', hL', hb'⟩ := C53_solve_optimal hrun' hv' hs' hsc' hM hopt'
  obtain rfl : W = W' := by rw [hW] at hW'; cases hW'; rfl
  rw [hwid'] at hSw hb'
  have hle := hb' _ _ (C116_tail hq hT) (widths_only hq hTw) hL
  refine ⟨S, L', hsh', hL', hle, fun hu => ?_⟩
  have e := le_antisymm hle (C116_best hM hv hq hf hbest hW hL hS hSw hu hL')
  refine ⟨e, C116_put hq hf hT hS hu, ?_⟩
  have := C116_cost hM.good hv hq hWl hJ hL hL'
  rw [e] at this
  simpa using this

end
end MPOpt
