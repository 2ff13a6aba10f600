import Verif.Spec.Renumber
import Verif.Props.Loosen

/-! # C105: the numbering of states, controls, parameters, links, constraints and later phases does not matter -/

set_option autoImplicit false
set_option linter.unusedSectionVars false

namespace MPOpt
open Polynomial

variable {K : Type} [Field K] [LinearOrder K] [IsStrictOrderedRing K] {ocp ocp' : OCP K} {M : Mesh K} {T : Traj K} {n : Nat}
variable {ν : Numbering}

theorem Permutes.symm {m : Nat} {π : Equiv.Perm Nat} (h : Permutes m π) : Permutes m π.symm := fun j => by
  have := h (π.symm j)
  rw [Equiv.apply_symm_apply] at this
  exact this.symm

theorem Traj.renumber_back (T : Traj K) (ν : Numbering) : (T.renumber ν.back).renumber ν = T := by
  ext <;> simp [Traj.renumber, Numbering.back]

theorem Traj.back_renumber (T : Traj K) (ν : Numbering) : (T.renumber ν).renumber ν.back = T := by
  ext <;> simp [Traj.renumber, Numbering.back]

theorem optionRel_symm {α β : Type} {R : α → β → Prop} {S : β → α → Prop} (h : ∀ a b, R a b → S b a) {o : Option α}
    {o' : Option β} (ho : Option.Rel R o o') : Option.Rel S o' o := by
  cases ho with
  | none => exact .none
  | some r => exact .some (h _ _ r)

namespace OCP.Renumbers
variable (h : ocp.Renumbers ν ocp')
include h

theorem pointArgs {p p' : PArg K} (hp : ocp'.PointArgs ν.back p' p) : ocp.PointArgs ν p p' := by
  obtain ⟨X, U, A, t, rfl, rfl⟩ := hp
  refine ⟨_, _, _, t, by rw [h.nx, h.nu, h.na], ?_⟩
  rw [h.nx, h.nu, h.na]
  congr 1 <;> funext j <;> simp [Numbering.back]

theorem endArgs {p p' : TArg K} (hp : ocp'.EndArgs ν.back p' p) : ocp.EndArgs ν p p' := by
  obtain ⟨Xf, X0, A, tf, t0, rfl, rfl⟩ := hp
  refine ⟨_, _, _, tf, t0, by rw [h.nx, h.na], ?_⟩
  rw [h.nx, h.na]
  congr 1 <;> funext j <;> simp [Numbering.back]

/-- Renumbering back. -/
theorem symm : ocp'.Renumbers ν.back ocp := by
  have ph : ∀ {q : Nat}, q < ocp'.nPhases → ν.phase.symm q < ocp.nPhases := fun hq => by
    rw [h.nPhases] at hq; exact (h.keepPhase.symm _).2 hq
  have xs : ∀ {j : Nat}, j < ocp'.nx → ν.x.symm j < ocp.nx := fun hq => by
    rw [h.nx] at hq; exact (h.keepX.symm _).2 hq
  have us : ∀ {j : Nat}, j < ocp'.nu → ν.u.symm j < ocp.nu := fun hq => by
    rw [h.nu] at hq; exact (h.keepU.symm _).2 hq
  have as : ∀ {j : Nat}, j < ocp'.na → ν.a.symm j < ocp.na := fun hq => by
    rw [h.na] at hq; exact (h.keepA.symm _).2 hq
  have reord : ∀ {A : Type} {R S : A → A → Prop}, (∀ p p', S p' p → R p p') → ∀ F F' : VFun A K, Reordered R F F' →
      Reordered S F' F := by
    rintro A R S hRS F F' ⟨e, κ, hκ, hF⟩
    refine ⟨e.symm, κ.symm, by rw [e]; exact hκ.symm, fun p' p hp c hc => ?_⟩
    rw [e] at hc
    have := hF p p' (hRS p p' hp) (κ.symm c) ((hκ.symm c).2 hc)
    rw [Equiv.apply_symm_apply] at this
    exact this.symm
  constructor
  case nx => exact h.nx.symm
  case nu => exact h.nu.symm
  case na => exact h.na.symm
  case nPhases => exact h.nPhases.symm
  case keepX => rw [h.nx]; exact h.keepX.symm
  case keepU => rw [h.nu]; exact h.keepU.symm
  case keepA => rw [h.na]; exact h.keepA.symm
  case keepPhase => rw [h.nPhases]; exact h.keepPhase.symm
  case dynamics =>
    intro q hq
    have := h.dynamics _ (ph hq)
    rw [Equiv.apply_symm_apply] at this
    refine optionRel_symm (fun F F' hF p' p hp j hj => ?_) this
    have := hF p p' (h.pointArgs hp) _ (xs hj)
    rw [Equiv.apply_symm_apply] at this
    exact this.symm
  case running =>
    intro q hq
    have := h.running _ (ph hq)
    rw [Equiv.apply_symm_apply] at this
    exact optionRel_symm (fun F F' hF p' p hp => (hF p p' (h.pointArgs hp)).symm) this
  case ends =>
    intro q hq
    have := h.ends _ (ph hq)
    rw [Equiv.apply_symm_apply] at this
    exact optionRel_symm (fun F F' hF p' p hp => (hF p p' (h.endArgs hp)).symm) this
  case path =>
    intro q hq
    have := h.path _ (ph hq)
    rw [Equiv.apply_symm_apply] at this
    exact optionRel_symm (reord fun p p' => h.pointArgs) this
  case terminal =>
    intro q hq
    have := h.terminal _ (ph hq)
    rw [Equiv.apply_symm_apply] at this
    exact optionRel_symm (reord fun p p' => h.endArgs) this
  case start =>
    intro q hq j hj
    have := h.start _ (ph hq) _ (xs hj)
    rw [Equiv.apply_symm_apply, Equiv.apply_symm_apply] at this
    exact this.symm
  case x =>
    intro q hq j hj
    have := h.x _ (ph hq) _ (xs hj)
    rw [Equiv.apply_symm_apply, Equiv.apply_symm_apply] at this
    exact ⟨this.1.symm, this.2.symm⟩
  case u =>
    intro q hq j hj
    have := h.u _ (ph hq) _ (us hj)
    rw [Equiv.apply_symm_apply, Equiv.apply_symm_apply] at this
    exact ⟨this.1.symm, this.2.symm⟩
  case a =>
    intro q hq j hj
    have := h.a _ (ph hq) _ (as hj)
    rw [Equiv.apply_symm_apply, Equiv.apply_symm_apply] at this
    exact ⟨this.1.symm, this.2.symm⟩
  case t0 =>
    intro q hq j hj
    have := h.t0 _ (ph hq) j hj
    rw [Equiv.apply_symm_apply] at this
    exact ⟨this.1.symm, this.2.symm⟩
  case tf =>
    intro q hq j hj
    have := h.tf _ (ph hq) j hj
    rw [Equiv.apply_symm_apply] at this
    exact ⟨this.1.symm, this.2.symm⟩
  case links =>
    intro k p q
    have := h.links (ν.link.symm k) (ν.phase.symm p) (ν.phase.symm q)
    simp only [Equiv.apply_symm_apply] at this
    exact this.symm
  case jumps =>
    intro k hk j hj
    obtain ⟨⟨p, q⟩, hpq⟩ : ∃ l, ocp.phaseLinks[k]? = some l := ⟨_, List.getElem?_eq_getElem hk⟩
    have hl := (h.links (ν.link.symm k) (ν.phase.symm p) (ν.phase.symm q)).2 (by simpa using hpq)
    have := h.jumps (ν.link.symm k) (List.getElem?_eq_some_iff.1 hl).1 _ (xs hj)
    rw [Equiv.apply_symm_apply, Equiv.apply_symm_apply] at this
    exact ⟨this.1.symm, this.2.symm⟩
  case mid =>
    intro q hq
    have := h.mid _ (ph hq)
    rw [Equiv.apply_symm_apply] at this
    exact this.symm
  case cont =>
    intro q hq
    have := h.cont _ (ph hq)
    rw [Equiv.apply_symm_apply] at this
    exact this.symm
  case slope =>
    intro q hq
    have := h.slope _ (ph hq)
    rw [Equiv.apply_symm_apply] at this
    exact this.symm
  case slopes =>
    intro q hq hd
    have e := h.slope _ (ph hq)
    rw [Equiv.apply_symm_apply] at e
    obtain ⟨e1, e2, e3⟩ := h.slopes _ (ph hq) (e.trans hd)
    rw [Equiv.apply_symm_apply] at e1 e2
    refine ⟨e1.symm, e2.symm, fun j hj => ?_⟩
    have := e3 _ (us hj)
    rw [Equiv.apply_symm_apply] at this
    exact this.symm

theorem pArg (T : Traj K) (ph k : Nat) (t : K) :
    ocp.PointArgs ν (ocp.pArg T (ν.phase ph) k t) (ocp'.pArg (T.renumber ν) ph k t) := by
  refine ⟨T.x (ν.phase ph) k, T.u (ν.phase ph) k, T.a (ν.phase ph), t, rfl, ?_⟩
  unfold OCP.pArg pointArg
  rw [h.nx, h.nu, h.na]
  rfl

theorem tArg (T : Traj K) (ph m : Nat) : ocp.EndArgs ν (ocp.tArg T (ν.phase ph) m) (ocp'.tArg (T.renumber ν) ph m) := by
  refine ⟨T.x (ν.phase ph) (m - 1), T.x (ν.phase ph) 0, T.a (ν.phase ph), T.tf (ν.phase ph), T.t0 (ν.phase ph), rfl, ?_⟩
  unfold OCP.tArg endArg
  rw [h.nx, h.na]
  rfl

theorem boundsOK (h0 : ν.phase 0 = 0) {ph : Nat} (hp : ph < ocp.nPhases) (hB : BoundsOK ocp M T (ν.phase ph)) :
    BoundsOK ocp' M (T.renumber ν) ph where
  x0 e j hj := by
    rw [h.nx] at hj
    subst e
    have := hB.x0 h0 (ν.x j) ((h.keepX j).2 hj)
    rw [h.start 0 hp j hj, h0, ← this]
    simp [Traj.renumber, h0]
  x i hi hne j hj := by
    rw [h.nx] at hj
    obtain ⟨e1, e2⟩ := h.x ph hp j hj
    rw [e1, e2]
    refine hB.x i hi (fun hh => hne ⟨?_, hh.2⟩) _ ((h.keepX j).2 hj)
    exact ν.phase.injective (hh.1.trans h0.symm)
  u i hi j hj := by
    rw [h.nu] at hj
    obtain ⟨e1, e2⟩ := h.u ph hp j hj
    rw [e1, e2]
    exact hB.u i hi _ ((h.keepU j).2 hj)
  t0 := by
    obtain ⟨e1, e2⟩ := h.t0 ph hp 0 Nat.one_pos
    rw [e1, e2]; exact hB.t0
  tf := by
    obtain ⟨e1, e2⟩ := h.tf ph hp 0 Nat.one_pos
    rw [e1, e2]; exact hB.tf
  a k hk := by
    rw [h.na] at hk
    obtain ⟨e1, e2⟩ := h.a ph hp k hk
    rw [e1, e2]
    exact hB.a _ ((h.keepA k).2 hk)

theorem collocationOK {ph : Nat} (hp : ph < ocp.nPhases) (hC : CollocationOK ocp M T (ν.phase ph)) :
    CollocationOK ocp' M (T.renumber ν) ph := by
  intro F' hF' j hj s i ho
  rw [h.nx] at hj
  have hd := h.dynamics ph hp
  rw [hF'] at hd
  generalize e : ocp.dynamics[ν.phase ph]? = o at hd
  cases hd with
  | some hF =>
    rw [hF _ _ (h.pArg T ph _ _) j hj]
    exact hC _ e _ ((h.keepX j).2 hj) s i ho

theorem pathOK {ph : Nat} (hp : ph < ocp.nPhases) (hC : PathOK ocp M T (ν.phase ph)) : PathOK ocp' M (T.renumber ν) ph := by
  intro F' hF' s i ho c hc
  have hd := h.path ph hp
  rw [show ocp'.pathConstraints.getD ph none = some F' by rw [List.getD_eq_getElem?_getD, hF']; rfl] at hd
  generalize e : ocp.pathConstraints.getD (ν.phase ph) none = o at hd
  cases hd with
  | @some F _ hF =>
    obtain ⟨el, κ, hκ, hF⟩ := hF
    rw [el] at hc
    rw [hF _ _ (h.pArg T ph _ _) c hc]
    refine hC F ?_ s i ho _ ((hκ c).2 hc)
    rw [List.getD_eq_getElem?_getD] at e
    cases e' : ocp.pathConstraints[ν.phase ph]? <;> rw [e'] at e <;> simp_all

theorem terminalOK {ph : Nat} (hp : ph < ocp.nPhases) (hC : TerminalOK ocp M T (ν.phase ph)) :
    TerminalOK ocp' M (T.renumber ν) ph := by
  intro F' hF' c hc
  have hd := h.terminal ph hp
  rw [show ocp'.terminalConstraints.getD ph none = some F' by rw [List.getD_eq_getElem?_getD, hF']; rfl] at hd
  generalize e : ocp.terminalConstraints.getD (ν.phase ph) none = o at hd
  cases hd with
  | @some F _ hF =>
    obtain ⟨el, κ, hκ, hF⟩ := hF
    rw [el] at hc
    rw [hF _ _ (h.tArg T ph _) c hc]
    refine hC F ?_ _ ((hκ c).2 hc)
    rw [List.getD_eq_getElem?_getD] at e
    cases e' : ocp.terminalConstraints[ν.phase ph]? <;> rw [e'] at e <;> simp_all

theorem midControlOK {ph : Nat} (hp : ph < ocp.nPhases) (hC : MidControlOK ocp M T (ν.phase ph)) :
    MidControlOK ocp' M (T.renumber ν) ph := by
  intro j hj s hs i hi
  rw [h.nu] at hj
  obtain ⟨e1, e2⟩ := h.u ph hp j hj
  rw [e1, e2]
  exact hC _ ((h.keepU j).2 hj) s hs i hi

theorem midStateOK {ph : Nat} (hp : ph < ocp.nPhases) (hC : MidStateOK ocp M T (ν.phase ph)) :
    MidStateOK ocp' M (T.renumber ν) ph := by
  intro j hj s hs i hi
  rw [h.nx] at hj
  obtain ⟨e1, e2⟩ := h.x ph hp j hj
  rw [e1, e2]
  exact hC _ ((h.keepX j).2 hj) s hs i hi

theorem linksOK (hL : LinksOK ocp M T) : LinksOK ocp' M (T.renumber ν) where
  x k p q hk j hj := by
    rw [h.nx] at hj
    obtain ⟨e1, e2⟩ := h.jumps k (List.getElem?_eq_some_iff.1 hk).1 j hj
    rw [e1, e2]
    exact hL.x _ _ _ ((h.links k p q).1 hk) _ ((h.keepX j).2 hj)
  u k p q hk j hj := by
    rw [h.nu] at hj
    exact hL.u _ _ _ ((h.links k p q).1 hk) _ ((h.keepU j).2 hj)
  t k p q hk := hL.t _ _ _ ((h.links k p q).1 hk)

theorem slopeBounded {ph : Nat} (hp : ph < ocp.nPhases) (hd : ocp'.diffU.getD ph false = true)
    (hT : SlopeBounded ocp M T (fun j => ocp.scaleU.getD j 0) (ν.phase ph)) :
    SlopeBounded ocp' M (T.renumber ν) (fun j => ocp'.scaleU.getD j 0) ph := by
  obtain ⟨e1, e2, e3⟩ := h.slopes ph hp hd
  intro j hj s i ho
  rw [h.nu] at hj
  beta_reduce
  rw [e1, e2, e3 j hj]
  exact hT _ ((h.keepU j).2 hj) s i ho

theorem solves (h0 : ν.phase 0 = 0) (hT : SolvesOCP ocp M T) : SolvesOCP ocp' M (T.renumber ν) := by
  obtain ⟨⟨b, d, p, t, m, c, l⟩, s⟩ := hT
  have k : ∀ {ph : Nat}, ph < ocp.nPhases → ν.phase ph < ocp.nPhases := fun hp => (h.keepPhase _).2 hp
  refine ⟨⟨?_, ?_, ?_, ?_, ?_, ?_, ?_⟩, ?_⟩ <;> rw [h.nPhases]
  · exact fun ph hp => h.boundsOK h0 hp (b _ (k hp))
  · exact fun ph hp => h.collocationOK hp (d _ (k hp))
  · exact fun ph hp => h.pathOK hp (p _ (k hp))
  · exact fun ph hp => h.terminalOK hp (t _ (k hp))
  · exact fun ph hp e => h.midControlOK hp (m _ (k hp) (h.mid ph hp ▸ e))
  · intro ph hp e j hj
    rw [h.nu] at hj
    exact c _ (k hp) (h.cont ph hp ▸ e) _ ((h.keepU j).2 hj)
  · exact fun hn => h.linksOK (l hn)
  · exact fun ph hp e => h.slopeBounded hp e (s _ (k hp) (h.slope ph hp ▸ e))

theorem solvesAdaptive (h0 : ν.phase 0 = 0) {lbh ubh tol lbh' ubh' tol' : List K} {mid : Bool}
    (hsc : mid = true → ∀ j < ocp.nx, ocp'.scaleX.getD j 0 = ocp.scaleX.getD (ν.x j) 0)
    (hlim : ∀ ph < ocp.nPhases, lbh'.getD ph 0 = lbh.getD (ν.phase ph) 0 ∧ ubh'.getD ph 0 = ubh.getD (ν.phase ph) 0 ∧
      tol'.getD ph 0 = tol.getD (ν.phase ph) 0)
    (hT : SolvesAdaptive ocp M T lbh ubh tol mid) : SolvesAdaptive ocp' M (T.renumber ν) lbh' ubh' tol' mid := by
  obtain ⟨⟨b, d, p, t, w, mc, ms, r, l⟩, s⟩ := hT
  have k : ∀ {ph : Nat}, ph < ocp.nPhases → ν.phase ph < ocp.nPhases := fun hp => (h.keepPhase _).2 hp
  refine ⟨⟨?_, ?_, ?_, ?_, ?_, ?_, ?_, ?_, ?_⟩, ?_⟩ <;> rw [h.nPhases]
  · exact fun ph hp => h.boundsOK h0 hp (b _ (k hp))
  · exact fun ph hp => h.collocationOK hp (d _ (k hp))
  · exact fun ph hp => h.pathOK hp (p _ (k hp))
  · exact fun ph hp => h.terminalOK hp (t _ (k hp))
  · intro ph hp
    obtain ⟨e1, e2, -⟩ := hlim ph hp
    rw [e1, e2]
    exact ⟨(w _ (k hp)).sum, (w _ (k hp)).lower, (w _ (k hp)).upper⟩
  · exact fun ph hp => h.midControlOK hp (mc _ (k hp))
  · exact fun ph hp => h.midStateOK hp (ms _ (k hp))
  · intro hm ph hp F' hF' j hj s hs i hi
    rw [h.nx] at hj
    obtain ⟨-, -, e3⟩ := hlim ph hp
    rw [e3, hsc hm j hj]
    have hd := h.dynamics ph hp
    rw [hF'] at hd
    generalize e : ocp.dynamics[ν.phase ph]? = o at hd
    cases hd with
    | some hF =>
      have := r hm _ (k hp) _ e (ν.x j) ((h.keepX j).2 hj) s hs i hi
      unfold OCP.defect at this ⊢
      rw [hF (ocp.pArgAt M T (ν.phase ph) s ((M.node s i + M.node s (i + 1)) / 2)) _ ?_ j hj]
      · exact this
      · refine ⟨_, _, T.a (ν.phase ph), _, rfl, ?_⟩
        unfold OCP.pArgAt pointArg
        rw [h.nx, h.nu, h.na]
        rfl
  · exact fun hn => h.linksOK (l hn)
  · exact fun ph hp e => h.slopeBounded hp e (s _ (k hp) (h.slope ph hp ▸ e))

theorem physCost {W : List K} {J : K} (hJ : PhysCost ocp M W T J) : PhysCost ocp' M W (T.renumber ν) J := by
  obtain ⟨v, hv, rfl⟩ := hJ
  refine ⟨fun ph => v (ν.phase ph), fun ph hp rc hrc s i ho => ?_, ?_⟩
  · rw [h.nPhases] at hp
    have hd := h.running ph hp
    rw [hrc] at hd
    generalize e : ocp.runningCosts[ν.phase ph]? = o at hd
    cases hd with
    | some hF =>
      rw [hF _ _ (h.pArg T ph _ _)]
      exact hv _ ((h.keepPhase ph).2 hp) _ e s i ho
  · rw [h.nPhases]
    symm
    refine Finset.sum_equiv ν.phase (fun ph => ?_) fun ph hp => ?_
    · rw [Finset.mem_range, Finset.mem_range]; exact (h.keepPhase ph).symm
    · rw [Finset.mem_range] at hp
      congr 1
      unfold TerminalCost
      have hd := h.ends ph hp
      rw [List.getD_eq_getElem?_getD, List.getD_eq_getElem?_getD]
      generalize ocp.terminalCosts[ν.phase ph]? = o at hd ⊢
      generalize ocp'.terminalCosts[ph]? = o' at hd ⊢
      cases hd with
      | none => rfl
      | some hF => exact hF _ _ (h.tArg T ph _)

end OCP.Renumbers

/-- Entry of widths packed phase by phase. -/
theorem packed_getD {g : Nat → Nat → K} {m n : Nat} {ph s : Nat} (hp : ph < m) (hs : s < n) :
    ((List.range m).flatMap fun ph => (List.range n).map (g ph)).getD (ph * n + s) 0 = g ph s := by
  induction m generalizing g ph with
  | zero => omega
  | succ m ih =>
    rw [List.range_succ_eq_map, List.flatMap_cons, List.getD_eq_getElem?_getD]
    rcases ph with _ | ph
    · rw [List.getElem?_append_left (by simpa using hs)]
      simp [hs]
    · rw [List.getElem?_append_right (by simp [Nat.succ_mul]; omega), ← List.getD_eq_getElem?_getD]
      have := ih (g := fun q => g (q + 1)) (ph := ph) (by omega)
      rw [← this, List.flatMap_map, List.length_map, List.length_range, show (ph + 1) * n + s - n = ph * n + s by
        rw [Nat.succ_mul]; omega]

theorem packed_length {g : Nat → Nat → K} {m n : Nat} :
    ((List.range m).flatMap fun ph => (List.range n).map (g ph)).length = m * n := by
  simp [List.length_flatMap]

/-- Widths packed phase by phase are these numbers. -/
theorem packed_eq_iff {g : Nat → Nat → K} {m n : Nat} {l : List K} (hl : l.length = m * n) :
    ((List.range m).flatMap fun ph => (List.range n).map (g ph)) = l ↔ ∀ ph < m, ∀ s < n, g ph s = l.getD (ph * n + s) 0 := by
  constructor
  · rintro rfl ph hp s hs
    rw [packed_getD hp hs]
  · intro hg
    have hn : ∀ i, i < m * n → 0 < n := fun i hi => by
      rcases Nat.eq_zero_or_pos n with rfl | h
      · omega
      · exact h
    apply List.ext_getElem (by rw [packed_length, hl])
    intro i h1 h2
    have hi : i < m * n := hl ▸ h2
    have hp : i / n < m := Nat.div_lt_of_lt_mul (by rwa [Nat.mul_comm] at hi)
    have hs : i % n < n := Nat.mod_lt _ (hn i hi)
    have e : i / n * n + i % n = i := Nat.div_add_mod' i n
    have a1 := packed_getD (g := g) hp hs
    have a2 := hg _ hp _ hs
    rw [e] at a1 a2
    rw [List.getD_eq_getElem _ _ h1] at a1
    rw [List.getD_eq_getElem _ _ h2] at a2
    rw [a1, a2]

theorem OCP.Renumbers.widthsAre (h : ocp.Renumbers ν ocp') {req req' : Option (List K)}
    (hw : SameWidths ν ocp.nPhases n req req') : WidthsAre ocp' n req' (T.renumber ν) ↔ WidthsAre ocp n req T := by
  have k : ∀ ph, ph < ocp.nPhases → ν.phase.symm ph < ocp.nPhases := fun ph hp => (h.keepPhase.symm _).2 hp
  rcases req with _ | l <;> rcases req' with _ | l' <;> simp only [SameWidths] at hw
  · simp only [WidthsAre, h.nPhases]
    constructor
    · intro H ph hp s hs
      have := H _ (k ph hp) s hs
      simpa [Traj.renumber] using this
    · exact fun H ph hp s hs => H _ ((h.keepPhase ph).2 hp) s hs
  · obtain ⟨h1, h2, h3⟩ := hw
    simp only [WidthsAre, OCP.packWidths, h.nPhases]
    rw [packed_eq_iff h1, packed_eq_iff h2]
    constructor
    · intro H ph hp s hs
      have := H _ (k ph hp) s hs
      rw [h3 _ (k ph hp) s hs] at this
      simpa [Traj.renumber] using this
    · intro H ph hp s hs
      rw [h3 ph hp s hs]
      exact H _ ((h.keepPhase ph).2 hp) s hs

/-- **C105** Renumbering states, controls, parameters, links, constraints and the phases after the first: the trajectories that
solve the new problem are the renumbered ones that solve the old problem, and they cost the same. -/
theorem C105_solves (h : ocp.Renumbers ν ocp') (h0 : ν.phase 0 = 0) (T : Traj K) :
    (SolvesOCP ocp' M (T.renumber ν) ↔ SolvesOCP ocp M T) ∧
    ∀ (W : List K) (J : K), PhysCost ocp' M W (T.renumber ν) J ↔ PhysCost ocp M W T J := by
  have h0' : ν.back.phase 0 = 0 := by
    show ν.phase.symm 0 = 0
    rw [Equiv.symm_apply_eq, h0]
  refine ⟨⟨fun H => ?_, h.solves h0⟩, fun W J => ⟨fun H => ?_, h.physCost⟩⟩
  · have := h.symm.solves h0' H
    rwa [T.back_renumber] at this
  · have := h.symm.physCost H
    rwa [T.back_renumber] at this

/-- **C105** The same with free segment widths; limits and tolerances belong to phases, and `mid_residuals` needs the scales of the
states to be renumbered too. -/
theorem C105_solves_adaptive (h : ocp.Renumbers ν ocp') (h0 : ν.phase 0 = 0) {lbh ubh tol lbh' ubh' tol' : List K} {mid : Bool}
    (hsc : mid = true → ∀ j < ocp.nx, ocp'.scaleX.getD j 0 = ocp.scaleX.getD (ν.x j) 0)
    (hlim : ∀ ph < ocp.nPhases, lbh'.getD ph 0 = lbh.getD (ν.phase ph) 0 ∧ ubh'.getD ph 0 = ubh.getD (ν.phase ph) 0 ∧
      tol'.getD ph 0 = tol.getD (ν.phase ph) 0) (T : Traj K) :
    SolvesAdaptive ocp' M (T.renumber ν) lbh' ubh' tol' mid ↔ SolvesAdaptive ocp M T lbh ubh tol mid := by
  have h0' : ν.back.phase 0 = 0 := by
    show ν.phase.symm 0 = 0
    rw [Equiv.symm_apply_eq, h0]
  refine ⟨fun H => ?_, h.solvesAdaptive h0 hsc hlim⟩
  have := h.symm.solvesAdaptive h0' (lbh' := lbh) (ubh' := ubh) (tol' := tol) (fun hm j hj => ?_) (fun ph hp => ?_) H
  · rwa [T.back_renumber] at this
  · have := hsc hm (ν.x.symm j) ((h.keepX.symm j).2 (h.nx ▸ hj))
    rw [Equiv.apply_symm_apply] at this
    exact this.symm
  · obtain ⟨e1, e2, e3⟩ := hlim (ν.phase.symm ph) ((h.keepPhase.symm ph).2 (h.nPhases ▸ hp))
    rw [Equiv.apply_symm_apply] at e1 e2 e3
    exact ⟨e1.symm, e2.symm, e3.symm⟩

section
variable {V : Type} {w : Outside K V} {nlpsol nlpsol' : SolverCall K V → Py (List K)} {ptp ptp' : List (List Nat)}
variable {arg : OrdersArg} {scheme : String} {a a' : SolveArgs K V} {rx rdx rx' rdx' : Bool}
variable {p p' : Post K} {r r' : Option (PyDict (ResidVal K))}

/-- **C105** With optimal solvers `solve` shows trajectories of the same cost for both problems, and each of them is, with the
numbers of the other problem, a best trajectory there. Plugins, options, starting points and guesses may differ. -/
theorem C105_solve (h : ocp.Renumbers ν ocp') (h0 : ν.phase 0 = 0) {S S' : Session K V}
    (hrun : mpSolve w nlpsol ocp ptp n arg scheme a rx rdx = .ok (S, p, r))
    (hrun' : mpSolve w nlpsol' ocp' ptp' n arg scheme a' rx' rdx' = .ok (S', p', r'))
    (ha : SameWidths ν ocp.nPhases n a.widths a'.widths)
    (hv : ValidOCP ocp) (hs : ocp.SettingsOK) (hsc : ocp.PosScales) (hv' : ValidOCP ocp') (hs' : ocp'.SettingsOK)
    (hsc' : ocp'.PosScales) (hM : MeshFor w scheme n arg M) (hopt : ∀ c z, nlpsol c = .ok z → c.IsOptimal z)
    (hopt' : ∀ c z, nlpsol' c = .ok z → c.IsOptimal z) :
    ∃ T T' J W, compQuadWeights ⟨w.method, w.tau0, w.tau1, tausFn w.lib w.tau0 w.tau1 scheme⟩ M.orders = .ok W ∧
      p.Shows ocp M T ∧ PhysCost ocp M W T J ∧ p'.Shows ocp' M T' ∧ PhysCost ocp' M W T' J ∧
      SolvesOCP ocp' M (T.renumber ν) ∧ WidthsAre ocp' n a'.widths (T.renumber ν) ∧ PhysCost ocp' M W (T.renumber ν) J ∧
      SolvesOCP ocp M (T'.renumber ν.back) ∧ WidthsAre ocp n a.widths (T'.renumber ν.back) ∧
      PhysCost ocp M W (T'.renumber ν.back) J := by
  obtain ⟨T, W, J, hW, hT, hwid, hsh, hJ, hle⟩ := C53_solve_optimal hrun hv hs hsc hM hopt
  obtain ⟨T', W', J', hW', hT', hwid', hsh', hJ', hle'⟩ := C53_solve_optimal hrun' hv' hs' hsc' hM hopt'
  rw [hW] at hW'; cases hW'
  obtain ⟨s1, c1⟩ := C105_solves (M := M) h h0 T
  obtain ⟨s2, c2⟩ := C105_solves (M := M) h h0 (T'.renumber ν.back)
  have w2 := h.widthsAre (T := T'.renumber ν.back) ha
  rw [T'.renumber_back] at s2 c2 w2
  have e : J' = J := le_antisymm (hle' _ J (s1.2 hT) ((h.widthsAre ha).2 hwid) ((c1 W J).2 hJ))
    (hle _ J' (s2.1 hT') (w2.1 hwid') ((c2 W J').1 hJ'))
  subst e
  exact ⟨T, T', J', W, hW, hsh, hJ, hsh', hJ', s1.2 hT, (h.widthsAre ha).2 hwid, (c1 W J').2 hJ, s2.1 hT', w2.1 hwid', (c2 W J').1 hJ'⟩

/-- **C105** The same for `mpopt_adaptive`, after any earlier calls on both objects. -/
theorem C105_adaptive (h : ocp.Renumbers ν ocp') (h0 : ν.phase 0 = 0) {s s₁ t t₁ : AdaptOpt K V}
    {lbh ubh tol lbh' ubh' tol' : List K} {mid : Bool}
    (hscale : mid = true → ∀ j < ocp.nx, ocp'.scaleX.getD j 0 = ocp.scaleX.getD (ν.x j) 0)
    (hlim : ∀ ph < ocp.nPhases, lbh'.getD ph 0 = lbh.getD (ν.phase ph) 0 ∧ ubh'.getD ph 0 = ubh.getD (ν.phase ph) 0 ∧
      tol'.getD ph 0 = tol.getD (ν.phase ph) 0)
    (hf : s.Ready w ocp n arg scheme lbh ubh tol mid) (hf' : t.Ready w ocp' n arg scheme lbh' ubh' tol' mid)
    (hv : ValidOCP ocp) (hs : ocp.SettingsOK) (hsc : ocp.PosScales) (hv' : ValidOCP ocp') (hs' : ocp'.SettingsOK)
    (hsc' : ocp'.PosScales) (hlb : lbh.length = ocp.nPhases) (hub : ubh.length = ocp.nPhases) (htol : tol.length = ocp.nPhases)
    (hlb' : lbh'.length = ocp'.nPhases) (hub' : ubh'.length = ocp'.nPhases) (htol' : tol'.length = ocp'.nPhases)
    (hM : MeshFor w scheme n arg M) (hopt : ∀ c z, nlpsol c = .ok z → c.IsOptimal z)
    (hopt' : ∀ c z, nlpsol' c = .ok z → c.IsOptimal z) (earlier earlier' : List (SolveArgs K V)) {z z' : List K}
    (hrun : (s.run w nlpsol earlier).solve w nlpsol a = (s₁, .ok z)) (hp : s₁.processResults w ptp false rx rdx = .ok (p, r))
    (hrun' : (t.run w nlpsol' earlier').solve w nlpsol' a' = (t₁, .ok z'))
    (hp' : t₁.processResults w ptp' false rx' rdx' = .ok (p', r')) :
    ∃ T T' J W, compQuadWeights ⟨w.method, w.tau0, w.tau1, tausFn w.lib w.tau0 w.tau1 scheme⟩ M.orders = .ok W ∧
      p.Shows ocp M T ∧ PhysCost ocp M W T J ∧ p'.Shows ocp' M T' ∧ PhysCost ocp' M W T' J ∧
      SolvesAdaptive ocp' M (T.renumber ν) lbh' ubh' tol' mid ∧ PhysCost ocp' M W (T.renumber ν) J ∧
      SolvesAdaptive ocp M (T'.renumber ν.back) lbh ubh tol mid ∧ PhysCost ocp M W (T'.renumber ν.back) J := by
  obtain ⟨T, W, J, hW, hT, hsh, hJ, hle⟩ := C55_adaptive_optimal hf hv hs hsc hlb hub htol hM hopt earlier a hrun hp
  obtain ⟨T', W', J', hW', hT', hsh', hJ', hle'⟩ :=
    C55_adaptive_optimal hf' hv' hs' hsc' hlb' hub' htol' hM hopt' earlier' a' hrun' hp'
  rw [hW] at hW'; cases hW'
  have c1 := (C105_solves (M := M) h h0 T).2
  have c2 := (C105_solves (M := M) h h0 (T'.renumber ν.back)).2
  have s1 := C105_solves_adaptive (M := M) h h0 hscale hlim T
  have s2 := C105_solves_adaptive (M := M) h h0 hscale hlim (T'.renumber ν.back)
  rw [T'.renumber_back] at s2 c2
  have e : J' = J := le_antisymm (hle' _ J (s1.2 hT) ((c1 W J).2 hJ)) (hle _ J' (s2.1 hT') ((c2 W J').1 hJ'))
  subst e
  exact ⟨T, T', J', W, hW, hsh, hJ, hsh', hJ', s1.2 hT, (c1 W J').2 hJ, s2.1 hT', (c2 W J').1 hJ'⟩

end

section
variable {V : Type} [FloorRing K] {w : HOutside K V} {nlpsol nlpsol' : Nat → Nat → SolverCall K V → Py (PyDict V)}
variable {ptp ptp' : List (List Nat)} {arg : OrdersArg} {scheme : String} {lbh ubh tol lbh' ubh' tol' : List K}
variable {s s₁ t t₁ : HOpt K V} {p p' : Post K} {r r' : Option (PyDict (ResidVal K))} {rx rdx rx' rdx' : Bool}

/-- **C105** And for `mpopt_h_adaptive`, if both objects stop at the same widths, phase by phase. -/
theorem C105_h (h : ocp.Renumbers ν ocp') (h0 : ν.phase 0 = 0) (hf : s.Ready w ocp n arg scheme lbh ubh tol)
    (hf' : t.Ready w ocp' n arg scheme lbh' ubh' tol') (hv : ValidOCP ocp) (hs : ocp.SettingsOK) (hsc : ocp.PosScales)
    (hv' : ValidOCP ocp') (hs' : ocp'.SettingsOK) (hsc' : ocp'.PosScales) (hM : MeshFor w.toOutside scheme n arg M)
    (hopt : ∀ n k c sol, nlpsol n k c = .ok sol → ∃ z, Returned w sol z ∧ c.IsOptimal z)
    (hopt' : ∀ n k c sol, nlpsol' n k c = .ok sol → ∃ z, Returned w sol z ∧ c.IsOptimal z)
    {calls calls' : List (HStart V × HArgs V)} (ho : OwnStarts calls) (ho' : OwnStarts calls') {sol sol' : PyDict V}
    (hrun : s.run w nlpsol calls 0 none = (s₁, some sol)) (hp : s₁.processResults w sol ptp false rx rdx = .ok (p, r))
    (hrun' : t.run w nlpsol' calls' 0 none = (t₁, some sol')) (hp' : t₁.processResults w sol' ptp' false rx' rdx' = .ok (p', r'))
    (hsame : SameWidths ν ocp.nPhases n s₁.widths t₁.widths) :
    ∃ T T' J W, compQuadWeights ⟨w.method, w.tau0, w.tau1, tausFn w.lib w.tau0 w.tau1 scheme⟩ M.orders = .ok W ∧
      p.Shows ocp M T ∧ PhysCost ocp M W T J ∧ p'.Shows ocp' M T' ∧ PhysCost ocp' M W T' J ∧
      SolvesOCP ocp' M (T.renumber ν) ∧ PhysCost ocp' M W (T.renumber ν) J ∧
      SolvesOCP ocp M (T'.renumber ν.back) ∧ PhysCost ocp M W (T'.renumber ν.back) J := by
  obtain ⟨T, W, J, hW, hT, hsh, hwid, hJ, hle⟩ := C60_h_optimal hf hv hs hsc hM hopt ho hrun hp
  obtain ⟨T', W', J', hW', hT', hsh', hwid', hJ', hle'⟩ := C60_h_optimal hf' hv' hs' hsc' hM hopt' ho' hrun' hp'
  rw [hW] at hW'; cases hW'
  obtain ⟨s1, c1⟩ := C105_solves (M := M) h h0 T
  obtain ⟨s2, c2⟩ := C105_solves (M := M) h h0 (T'.renumber ν.back)
  rw [T'.renumber_back] at s2 c2
  have k1 : t₁.widths = some (ocp'.packWidths n (T.renumber ν)) := by
    have := (h.widthsAre (T := T) hsame)
    rw [hwid, hwid'] at this
    rw [hwid']
    exact congrArg some (this.2 rfl).symm
  have k2 : s₁.widths = some (ocp.packWidths n (T'.renumber ν.back)) := by
    have := (h.widthsAre (T := T'.renumber ν.back) hsame)
    rw [T'.renumber_back, hwid, hwid'] at this
    rw [hwid]
    exact congrArg some (this.1 rfl).symm
  have e : J' = J := le_antisymm (hle' _ J (s1.2 hT) k1 ((c1 W J).2 hJ)) (hle _ J' (s2.1 hT') k2 ((c2 W J').1 hJ'))
  subst e
  exact ⟨T, T', J', W, hW, hsh, hJ, hsh', hJ', s1.2 hT, (c1 W J').2 hJ, s2.1 hT', (c2 W J').1 hJ'⟩

end

end MPOpt
