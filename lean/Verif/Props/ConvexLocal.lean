import Verif.Props.Local

/-! # C103: convex problems, where local minimisers are best -/

set_option autoImplicit false
set_option linter.unusedSectionVars false

namespace MPOpt
open Polynomial

variable {K V : Type} [Field K] [LinearOrder K] [IsStrictOrderedRing K] {ocp : OCP K} {M : Mesh K} {S T : Traj K} {θ : K} {n : Nat}

/-- Two trajectories with the same times and the same segment widths. -/
structure SameTimes (ocp : OCP K) (m : Nat) (S T : Traj K) : Prop where
  t0 : ∀ ph < ocp.nPhases, T.t0 ph = S.t0 ph
  tf : ∀ ph < ocp.nPhases, T.tf ph = S.tf ph
  w : ∀ ph < ocp.nPhases, ∀ s < m, T.w s ph = S.w s ph

theorem Within.mix {lo hi : Ext K} {a b : K} (ha : Within lo hi a) (hb : Within lo hi b) (h0 : 0 ≤ θ) (h1 : θ ≤ 1) :
    Within lo hi ((1 - θ) * a + θ * b) := by
  obtain ⟨a1, a2⟩ := ha
  obtain ⟨b1, b2⟩ := hb
  have h1' : 0 ≤ 1 - θ := sub_nonneg.2 h1
  refine ⟨?_, ?_⟩
  · cases lo with
    | fin l =>
      have a1 : l ≤ a := a1
      have b1 : l ≤ b := b1
      show l ≤ _
      nlinarith [mul_le_mul_of_nonneg_left a1 h1', mul_le_mul_of_nonneg_left b1 h0]
    | ninf => trivial
    | pinf => exact a1
    | nan => exact a1
  · cases hi with
    | fin l =>
      have a1 : a ≤ l := a2
      have b1 : b ≤ l := b2
      show _ ≤ l
      nlinarith [mul_le_mul_of_nonneg_left a1 h1', mul_le_mul_of_nonneg_left b1 h0]
    | ninf => exact a2
    | pinf => trivial
    | nan => exact a2

theorem piece_mix (M : Mesh K) (v v' : Nat → K) (s : Nat) :
    M.piece (fun k => (1 - θ) * v k + θ * v' k) s = C (1 - θ) * M.piece v s + C θ * M.piece v' s := by
  rw [← Mesh.piece_smul, ← Mesh.piece_smul]
  unfold Mesh.piece
  rw [← map_add]
  rfl

theorem mixList_map (f g : Nat → K) (n : Nat) :
    mixList θ ((List.range n).map f) ((List.range n).map g) = (List.range n).map fun j => (1 - θ) * f j + θ * g j := by
  unfold mixList
  rw [List.zipWith_map, List.zipWith_self]

theorem fits_params (ocp : OCP K) (f : Nat → K) : FitsParams ocp.na (if ocp.na = 0 then none else some ((List.range ocp.na).map f)) := by
  by_cases h : ocp.na = 0
  · rw [if_pos h]; exact h
  · rw [if_neg h]; exact ⟨h, by simp⟩

theorem pArg_fits (ocp : OCP K) (T : Traj K) (ph k : Nat) (t : K) : (ocp.pArg T ph k t).Fits ocp :=
  ⟨by simp [OCP.pArg], by simp [OCP.pArg], fits_params ocp _⟩

theorem tArg_fits (ocp : OCP K) (T : Traj K) (ph m : Nat) : (ocp.tArg T ph m).Fits ocp :=
  ⟨by simp [OCP.tArg], by simp [OCP.tArg], fits_params ocp _⟩

theorem pArg_mix (ocp : OCP K) (S T : Traj K) (ph k : Nat) (t : K) :
    ocp.pArg (S.mix θ T) ph k t = (ocp.pArg S ph k t).mix θ (ocp.pArg T ph k t) := by
  unfold OCP.pArg PArg.mix
  simp only [mixList_map]
  by_cases h : ocp.na = 0
  · simp [h, mixParams, Traj.mix]
  · simp [h, mixParams, mixList_map, Traj.mix]

theorem tArg_mix (ocp : OCP K) (S T : Traj K) (ph m : Nat) :
    ocp.tArg (S.mix θ T) ph m = (ocp.tArg S ph m).mix θ (ocp.tArg T ph m) := by
  unfold OCP.tArg TArg.mix
  simp only [mixList_map]
  by_cases h : ocp.na = 0
  · simp [h, mixParams, Traj.mix]
  · simp [h, mixParams, mixList_map, Traj.mix]

namespace SameTimes
variable (h : SameTimes ocp M.orders.length S T)
include h

theorem halfWidth {ph s : Nat} (hp : ph < ocp.nPhases) (hs : s < M.orders.length) : M.halfWidth T ph s = M.halfWidth S ph s := by
  unfold Mesh.halfWidth
  rw [h.t0 ph hp, h.tf ph hp, h.w ph hp s hs]

theorem time {ph s : Nat} (hp : ph < ocp.nPhases) (hs : s < M.orders.length) (tau : K) : M.time T ph s tau = M.time S ph s tau := by
  unfold Mesh.time
  rw [h.halfWidth hp hs, h.t0 ph hp, h.tf ph hp,
    Finset.sum_congr rfl fun r hr => h.w ph hp r ((Finset.mem_range.1 hr).trans hs)]

variable (hc : ocp.Convex) (h0 : 0 ≤ θ) (h1 : θ ≤ 1)
include hc h0 h1

theorem collocation {ph : Nat} (hp : ph < ocp.nPhases) (hS : CollocationOK ocp M S ph) (hT : CollocationOK ocp M T ph) :
    CollocationOK ocp M (S.mix θ T) ph := by
  intro F hF j hj s i ho
  have e1 := hS F hF j hj s i ho
  have e2 := hT F hF j hj s i ho
  rw [h.time hp ho.1, h.halfWidth hp ho.1] at e2
  rw [pArg_mix]
  show eval _ (derivative (M.piece (fun k => (1 - θ) * S.x ph k j + θ * T.x ph k j) s)) =
    M.halfWidth S ph s * F.f ((ocp.pArg S ph _ (M.time S ph s _)).mix θ (ocp.pArg T ph _ (M.time S ph s _))) j
  rw [hc.dynamics ph hp F hF j hj _ _ θ (pArg_fits ocp S _ _ _) (pArg_fits ocp T _ _ _) rfl h0 h1, piece_mix]
  simp only [derivative_add, derivative_mul, derivative_C, zero_mul, zero_add, eval_add, eval_mul, eval_C, e1, e2]
  ring

theorem path {ph : Nat} (hp : ph < ocp.nPhases) (hS : PathOK ocp M S ph) (hT : PathOK ocp M T ph) :
    PathOK ocp M (S.mix θ T) ph := by
  intro F hF s i ho c hcl
  have e1 := hS F hF s i ho c hcl
  have e2 := hT F hF s i ho c hcl
  rw [h.time hp ho.1] at e2
  rw [pArg_mix]
  refine (hc.path ph hp F hF c hcl _ _ θ (pArg_fits ocp S _ _ _) (pArg_fits ocp T _ _ _) rfl h0 h1).trans ?_
  have e1' := mul_nonpos_of_nonneg_of_nonpos (sub_nonneg.2 h1) e1
  have e2' := mul_nonpos_of_nonneg_of_nonpos h0 e2
  exact add_nonpos e1' e2'

theorem terminal {ph : Nat} (hp : ph < ocp.nPhases) (hS : TerminalOK ocp M S ph) (hT : TerminalOK ocp M T ph) :
    TerminalOK ocp M (S.mix θ T) ph := by
  intro F hF c hcl
  rw [tArg_mix, hc.terminal ph hp F hF c hcl _ _ θ (tArg_fits ..) (tArg_fits ..) (h.t0 ph hp).symm (h.tf ph hp).symm h0 h1,
    hS F hF c hcl, hT F hF c hcl]
  ring

omit h in
omit hc in
theorem bounds {ph : Nat} (hS : BoundsOK ocp M S ph) (hT : BoundsOK ocp M T ph) : BoundsOK ocp M (S.mix θ T) ph where
  x0 e j hj := by
    show (1 - θ) * _ + θ * _ = _
    rw [hS.x0 e j hj, hT.x0 e j hj]; ring
  x i hi hne j hj := (hS.x i hi hne j hj).mix (hT.x i hi hne j hj) h0 h1
  u i hi j hj := (hS.u i hi j hj).mix (hT.u i hi j hj) h0 h1
  t0 := hS.t0
  tf := hS.tf
  a k hk := (hS.a k hk).mix (hT.a k hk) h0 h1

omit h in
omit hc in
theorem mid {ph : Nat} (hS : MidControlOK ocp M S ph) (hT : MidControlOK ocp M T ph) : MidControlOK ocp M (S.mix θ T) ph := by
  intro j hj s hs i hi
  have := (hS j hj s hs i hi).mix (hT j hj s hs i hi) h0 h1
  show Within _ _ (eval _ (M.piece (fun k => (1 - θ) * S.u ph k j + θ * T.u ph k j) s))
  rw [piece_mix]
  simpa only [eval_add, eval_mul, eval_C] using this

omit h in
omit hc in
theorem slope {ph : Nat} {sc : Nat → K} (hS : SlopeBounded ocp M S sc ph) (hT : SlopeBounded ocp M T sc ph) :
    SlopeBounded ocp M (S.mix θ T) sc ph := by
  intro j hj s i ho
  have := (hS j hj s i ho).mix (hT j hj s i ho) h0 h1
  show Within _ _ (sc j * eval _ (derivative (M.piece (fun k => (1 - θ) * S.u ph k j + θ * T.u ph k j) s)))
  rw [piece_mix]
  simp only [derivative_add, derivative_mul, derivative_C, zero_mul, zero_add, eval_add, eval_mul, eval_C]
  convert this using 1
  ring

omit h in
omit hc h0 h1 in
theorem cont {ph : Nat} (hS : SlopeContinuous ocp M S ph) (hT : SlopeContinuous ocp M T ph) : SlopeContinuous ocp M (S.mix θ T) ph := by
  intro j hj s hs
  show eval _ (derivative (M.piece (fun k => (1 - θ) * S.u ph k j + θ * T.u ph k j) s)) =
    eval _ (derivative (M.piece (fun k => (1 - θ) * S.u ph k j + θ * T.u ph k j) (s + 1)))
  rw [piece_mix, piece_mix]
  simp only [derivative_add, derivative_mul, derivative_C, zero_mul, zero_add, eval_add, eval_mul, eval_C, hS j hj s hs, hT j hj s hs]

omit h in
omit hc in
theorem links (hS : LinksOK ocp M S) (hT : LinksOK ocp M T) : LinksOK ocp M (S.mix θ T) where
  x k p q hk j hj := by
    have := (hS.x k p q hk j hj).mix (hT.x k p q hk j hj) h0 h1
    show Within _ _ (((1 - θ) * S.x q 0 j + θ * T.x q 0 j) - ((1 - θ) * S.x p (M.N - 1) j + θ * T.x p (M.N - 1) j))
    convert this using 1
    ring
  u k p q hk j hj := by
    show (1 - θ) * S.u q 0 j + θ * T.u q 0 j = (1 - θ) * S.u p (M.N - 1) j + θ * T.u p (M.N - 1) j
    rw [hS.u k p q hk j hj, hT.u k p q hk j hj]
  t := hS.t

theorem solves (hS : SolvesOCP ocp M S) (hT : SolvesOCP ocp M T) : SolvesOCP ocp M (S.mix θ T) := by
  obtain ⟨⟨b, d, p, t, m, c, l⟩, s⟩ := hS
  obtain ⟨⟨b', d', p', t', m', c', l'⟩, s'⟩ := hT
  exact ⟨⟨fun ph hp => bounds h0 h1 (b ph hp) (b' ph hp), fun ph hp => h.collocation hc h0 h1 hp (d ph hp) (d' ph hp),
    fun ph hp => h.path hc h0 h1 hp (p ph hp) (p' ph hp), fun ph hp => h.terminal hc h0 h1 hp (t ph hp) (t' ph hp),
    fun ph hp e => mid h0 h1 (m ph hp e) (m' ph hp e), fun ph hp e => cont (c ph hp e) (c' ph hp e),
    fun hn => links h0 h1 (l hn) (l' hn)⟩, fun ph hp e => slope h0 h1 (s ph hp e) (s' ph hp e)⟩

end SameTimes

/-- What running cost needs: weights that are not negative, phases that run forwards, widths that are not negative. -/
structure NonnegCost (ocp : OCP K) (M : Mesh K) (W : List K) (T : Traj K) : Prop where
  tau : M.tau0 < M.tau1
  length : W.length = M.N
  weights : ∀ v ∈ W, 0 ≤ v
  times : ∀ ph < ocp.nPhases, T.t0 ph ≤ T.tf ph
  widths : ∀ ph < ocp.nPhases, ∀ s < M.orders.length, 0 ≤ T.w s ph

theorem NonnegCost.half {W : List K} (h : NonnegCost ocp M W T) {ph s : Nat} (hp : ph < ocp.nPhases) (hs : s < M.orders.length) :
    0 ≤ M.halfWidth T ph s := by
  unfold Mesh.halfWidth
  exact mul_nonneg (div_nonneg (sub_nonneg.2 (h.times ph hp)) (sub_nonneg.2 h.tau.le)) (h.widths ph hp s hs)

theorem terminalCost_mix (h : SameTimes ocp M.orders.length S T) (hc : ocp.Convex) (h0 : 0 ≤ θ) (h1 : θ ≤ 1)
    {ph : Nat} (hp : ph < ocp.nPhases) :
    TerminalCost ocp M (S.mix θ T) ph ≤ (1 - θ) * TerminalCost ocp M S ph + θ * TerminalCost ocp M T ph := by
  unfold TerminalCost
  rw [tArg_mix]
  rcases e : ocp.terminalCosts[ph]? with _ | f
  · simp [List.getD_eq_getElem?_getD, e]
  · simp only [List.getD_eq_getElem?_getD, e, Option.getD_some]
    exact hc.cost ph hp f e _ _ θ (tArg_fits ..) (tArg_fits ..) (h.t0 ph hp).symm (h.tf ph hp).symm h0 h1

/-- **C103** Convex problems: a trajectory on the line between two that solve the collocated problem, with the same times and
widths, solves it too, and costs no more than the line between the costs. -/
theorem C103_mix (h : SameTimes ocp M.orders.length S T) (hc : ocp.Convex) (hM : M.Good) (hr : ocp.runningCosts.length = ocp.nPhases)
    {W : List K} (hW : NonnegCost ocp M W S) (h0 : 0 ≤ θ) (h1 : θ ≤ 1) (hS : SolvesOCP ocp M S) (hT : SolvesOCP ocp M T) :
    SolvesOCP ocp M (S.mix θ T) ∧ ∀ J J' L, PhysCost ocp M W S J → PhysCost ocp M W T J' → PhysCost ocp M W (S.mix θ T) L →
      L ≤ (1 - θ) * J + θ * J' := by
  refine ⟨h.solves hc h0 h1 hS hT, ?_⟩
  rintro _ _ _ ⟨v, hv, rfl⟩ ⟨v', hv', rfl⟩ ⟨l, hl, rfl⟩
  rw [Finset.mul_sum, Finset.mul_sum, ← Finset.sum_add_distrib]
  apply Finset.sum_le_sum
  intro ph hp
  rw [Finset.mem_range] at hp
  have e1 := terminalCost_mix (θ := θ) h hc h0 h1 hp
  have e2 : weightedSum W (l ph) ≤ (1 - θ) * weightedSum W (v ph) + θ * weightedSum W (v' ph) := by
    unfold weightedSum
    rw [Finset.mul_sum, Finset.mul_sum, ← Finset.sum_add_distrib]
    apply Finset.sum_le_sum
    intro k hk
    rw [Finset.mem_range, hW.length] at hk
    obtain ⟨s, i, ho, rfl⟩ := M.exists_owner hM.nonempty hk
    have hw : 0 ≤ W.getD (M.idx s i) 0 := by
      rw [List.getD_eq_getElem _ _ (by rw [hW.length]; exact hk)]; exact hW.weights _ (List.getElem_mem _)
    have hpr : ph < ocp.runningCosts.length := by omega
    have a1 := hv ph hp _ (List.getElem?_eq_getElem hpr) s i ho
    have a2 := hv' ph hp _ (List.getElem?_eq_getElem hpr) s i ho
    have a3 := hl ph hp _ (List.getElem?_eq_getElem hpr) s i ho
    rw [h.time hp ho.1, h.halfWidth hp ho.1] at a2
    rw [pArg_mix] at a3
    have a4 := hc.running ph hp _ (List.getElem?_eq_getElem hpr) (ocp.pArg S ph (M.idx s i) (M.time S ph s (M.node s i)))
      (ocp.pArg T ph (M.idx s i) (M.time S ph s (M.node s i))) θ (pArg_fits ..) (pArg_fits ..) rfl h0 h1
    have a5 := mul_le_mul_of_nonneg_left a4 (mul_nonneg hw (hW.half hp ho.1))
    rw [a1, a2, a3]
    show W.getD (M.idx s i) 0 * (M.halfWidth S ph s * _) ≤ _
    calc _ = _ := (mul_assoc _ _ _).symm
      _ ≤ _ := a5
      _ = _ := by ring
  linarith

/-- Trajectories of a problem with fixed times have the same times. -/
theorem OCP.FixedTimes.same (hf : ocp.FixedTimes) {m : Nat} (hS : SolvesOCP ocp M S) (hT : SolvesOCP ocp M T)
    (hw : ∀ ph < ocp.nPhases, ∀ s < m, T.w s ph = S.w s ph) : SameTimes ocp m S T := by
  have key : ∀ {R : Traj K}, SolvesOCP ocp M R → ∀ ph < ocp.nPhases, ∀ b e : K, entry ocp.lbt0 ph 0 .nan = .fin b →
      entry ocp.ubt0 ph 0 .nan = .fin b → entry ocp.lbtf ph 0 .nan = .fin e → entry ocp.ubtf ph 0 .nan = .fin e →
      R.t0 ph = b ∧ R.tf ph = e := by
    intro R hR ph hp b e e1 e2 e3 e4
    obtain ⟨-, -, -, t0, tf, -⟩ := hR.1.bounds ph hp
    rw [e1, e2] at t0
    rw [e3, e4] at tf
    exact ⟨le_antisymm t0.2 t0.1, le_antisymm tf.2 tf.1⟩
  refine ⟨fun ph hp => ?_, fun ph hp => ?_, hw⟩ <;> obtain ⟨b, e, -, e1, e2, e3, e4⟩ := hf ph hp <;>
    obtain ⟨s1, s2⟩ := key hS ph hp b e e1 e2 e3 e4 <;> obtain ⟨t1, t2⟩ := key hT ph hp b e e1 e2 e3 e4
  · rw [s1, t1]
  · rw [s2, t2]

theorem OCP.FixedTimes.forwards (hf : ocp.FixedTimes) (hS : SolvesOCP ocp M S) {ph : Nat} (hp : ph < ocp.nPhases) :
    S.t0 ph ≤ S.tf ph := by
  obtain ⟨b, e, hbe, e1, e2, e3, e4⟩ := hf ph hp
  obtain ⟨-, -, -, t0, tf, -⟩ := hS.1.bounds ph hp
  rw [e1, e2] at t0
  rw [e3, e4] at tf
  exact (t0.2.trans hbe).trans tf.1

theorem SameOn.refl' (ocp : OCP K) (N m : Nat) (T : Traj K) : SameOn ocp N m T T :=
  ⟨fun _ _ _ _ _ _ => rfl, fun _ _ _ _ _ _ => rfl, fun _ _ => rfl, fun _ _ => rfl, fun _ _ _ _ => rfl, fun _ _ _ _ => rfl⟩

/-- Part of the way to `T` is part of the distance. -/
theorem near_mix {B : K} (hB : S.Near ocp n B T) (hB0 : 0 ≤ B) (h0 : 0 ≤ θ) : S.Near ocp n (θ * B) (S.mix θ T) := by
  have key : ∀ {a b : K}, |b - a| ≤ B → |((1 - θ) * a + θ * b) - a| ≤ θ * B := by
    intro a b h
    rw [show ((1 - θ) * a + θ * b) - a = θ * (b - a) by ring, abs_mul, abs_of_nonneg h0]
    exact mul_le_mul_of_nonneg_left h h0
  refine ⟨fun ph hp i hi j hj => key (hB.x ph hp i hi j hj), fun ph hp i hi j hj => key (hB.u ph hp i hi j hj), fun ph hp => ?_,
    fun ph hp => ?_, fun ph hp k hk => key (hB.a ph hp k hk)⟩
  · show |S.t0 ph - S.t0 ph| ≤ _
    rw [sub_self, abs_zero]; exact mul_nonneg h0 hB0
  · show |S.tf ph - S.tf ph| ≤ _
    rw [sub_self, abs_zero]; exact mul_nonneg h0 hB0

/-- A trajectory of a convex problem that is best among those nearby is best among all with the same times and widths. -/
theorem convex_best (hc : ocp.Convex) (hM : M.Good) (hr : ocp.runningCosts.length = ocp.nPhases) {W : List K}
    (hW : NonnegCost ocp M W S) (hS : SolvesOCP ocp M S) {J δ : K} (hJ : PhysCost ocp M W S J) (hδ : 0 < δ)
    (hbest : ∀ θ T' L, 0 ≤ θ → θ ≤ 1 → T' = S.mix θ T → SolvesOCP ocp M T' → S.Near ocp M.N δ T' → PhysCost ocp M W T' L → J ≤ L)
    (h : SameTimes ocp M.orders.length S T) (hT : SolvesOCP ocp M T) {J' : K} (hJ' : PhysCost ocp M W T J') : J ≤ J' := by
  obtain ⟨B, hB, hN⟩ := S.exists_near ocp M.N T
  have hpos : 0 < min 1 (δ / (B + 1)) := lt_min one_pos (by positivity)
  set θ := min 1 (δ / (B + 1)) with hθ
  have hθ1 : θ ≤ 1 := min_le_left _ _
  obtain ⟨m1, m2⟩ := C103_mix (θ := θ) h hc hM hr hW hpos.le hθ1 hS hT
  obtain ⟨v, hvv⟩ := exists_samples ocp M (S.mix θ T)
  have hL : PhysCost ocp M W (S.mix θ T) _ := ⟨v, hvv, rfl⟩
  have hnear := near_mix hN hB hpos.le
  have hle : θ * B ≤ δ := by
    have e : θ * (B + 1) ≤ δ := by
      have := mul_le_mul_of_nonneg_right (min_le_right 1 (δ / (B + 1))) (by positivity : 0 ≤ B + 1)
      rwa [div_mul_cancel₀ _ (by positivity : B + 1 ≠ 0)] at this
    nlinarith
  have hnear' : S.Near ocp M.N δ (S.mix θ T) :=
    ⟨fun ph hp i hi j hj => (hnear.x ph hp i hi j hj).trans hle, fun ph hp i hi j hj => (hnear.u ph hp i hi j hj).trans hle,
      fun ph hp => (hnear.t0 ph hp).trans hle, fun ph hp => (hnear.tf ph hp).trans hle,
      fun ph hp k hk => (hnear.a ph hp k hk).trans hle⟩
  have b1 := hbest θ _ _ hpos.le hθ1 rfl m1 hnear' hL
  have b2 := m2 J J' _ hJ hJ' hL
  have : θ * J ≤ θ * J' := by linarith
  exact le_of_mul_le_mul_left this hpos

theorem packWidths_agree : ocp.packWidths n S = ocp.packWidths n T ↔ ∀ ph < ocp.nPhases, ∀ s < n, S.w s ph = T.w s ph := by
  have e : ∀ T : Traj K, ocp.packWidths n T =
      ((List.range ocp.nPhases).flatMap fun ph => (List.range n).map fun s => (s, ph)).map fun q => T.w q.1 q.2 := by
    intro T
    simp only [OCP.packWidths, List.map_flatMap, List.map_map]
    rfl
  rw [e, e, List.map_inj_left]
  simp only [List.mem_flatMap, List.mem_map, List.mem_range]
  exact ⟨fun h ph hp s hs => h (s, ph) ⟨ph, hp, s, hs, rfl⟩, by
    rintro h _ ⟨ph, hp, s, hs, rfl⟩; exact h ph hp s hs⟩

/-- Widths asked for are the same, segment by segment. -/
theorem WidthsAre.same {req : Option (List K)} (hS : WidthsAre ocp n req S) (hT : WidthsAre ocp n req T) :
    ∀ ph < ocp.nPhases, ∀ s < n, T.w s ph = S.w s ph := by
  cases req with
  | none => exact fun ph hp s hs => (hT ph hp s hs).trans (hS ph hp s hs).symm
  | some l =>
    have e : ocp.packWidths n T = ocp.packWidths n S := Eq.trans hT (Eq.symm hS)
    exact fun ph hp s hs => packWidths_agree.1 e ph hp s hs

theorem WidthsAre.nonneg {req : Option (List K)} (hS : WidthsAre ocp n req S) (h : ∀ l, req = some l → ∀ v ∈ l, 0 ≤ v)
    {ph s : Nat} (hp : ph < ocp.nPhases) (hs : s < n) : 0 ≤ S.w s ph := by
  cases req with
  | none => rw [hS ph hp s hs]; positivity
  | some l =>
    have hS : ocp.packWidths n S = l := hS
    refine h l rfl _ ?_
    rw [← hS]
    unfold OCP.packWidths
    exact List.mem_flatMap.2 ⟨ph, List.mem_range.2 hp, List.mem_map.2 ⟨s, List.mem_range.2 hs, rfl⟩⟩

section
variable {w : Outside K V} {nlpsol nlpsol' : SolverCall K V → Py (List K)} {ptp ptp' : List (List Nat)} {arg : OrdersArg}
variable {scheme : String} {a a' : SolveArgs K V} {rx rdx rx' rdx' : Bool} {s s' : Session K V} {p p' : Post K}
variable {r r' : Option (PyDict (ResidVal K))}

/-- **C103** For a convex problem with fixed times a solver that finds local minimisers is as good as one that finds global ones:
the trajectory shown has the least cost of all that solve the collocated problem. Weights and widths must not be negative. -/
theorem C103_global (hrun : mpSolve w nlpsol ocp ptp n arg scheme a rx rdx = .ok (s, p, r)) (hc : ocp.Convex) (hft : ocp.FixedTimes)
    (hv : ValidOCP ocp) (hs : ocp.SettingsOK) (hsc : ocp.PosScales) (hM : MeshFor w scheme n arg M) (hlt : w.tau0 < w.tau1)
    (hn : M.orders.length = n)
    (hpos : ∀ W, compQuadWeights ⟨w.method, w.tau0, w.tau1, tausFn w.lib w.tau0 w.tau1 scheme⟩ M.orders = .ok W → ∀ v ∈ W, 0 ≤ v)
    (hwid : ∀ l, a.widths = some l → ∀ v ∈ l, 0 ≤ v) (hopt : ∀ c z, nlpsol c = .ok z → c.IsLocal z) :
    ∃ T W J, compQuadWeights ⟨w.method, w.tau0, w.tau1, tausFn w.lib w.tau0 w.tau1 scheme⟩ M.orders = .ok W ∧
      SolvesOCP ocp M T ∧ WidthsAre ocp n a.widths T ∧ p.Shows ocp M T ∧ PhysCost ocp M W T J ∧
      ∀ T' J', SolvesOCP ocp M T' → WidthsAre ocp n a.widths T' → PhysCost ocp M W T' J' → J ≤ J' := by
  obtain ⟨T, W, J, δ, hW, hT, hwT, hsh, hJ, hδ, hbest⟩ := C103_local hrun hv hs hsc hM hopt
  refine ⟨T, W, J, hW, hT, hwT, hsh, hJ, fun T' J' hT' hwT' hJ' => ?_⟩
  have hnn : NonnegCost ocp M W T := ⟨by rw [hM.tau0, hM.tau1]; exact hlt, hM.weights_length hW, hpos W hW,
    fun ph hp => hft.forwards hT hp, fun ph hp s hs => hwT.nonneg hwid hp (hn ▸ hs)⟩
  refine convex_best hc hM.good hv.runningCosts hnn hT hJ hδ ?_ (hft.same hT hT' (hn ▸ hwT.same hwT')) hT' hJ'
  rintro θ T'' L h0 h1 rfl hS hN hL
  refine hbest _ L hS ?_ hN hL
  cases hreq : a.widths with
  | none => rw [hreq] at hwT; exact hwT
  | some l => rw [hreq] at hwT; exact hwT

/-- Two best trajectories of a convex problem whose running cost is strict in the controls have the same controls wherever the
quadrature looks. -/
theorem strict_unique (hc : ocp.Convex) (hst : ocp.StrictInControls) (hM : M.Good) (hv : ValidOCP ocp) {W : List K}
    (hW : NonnegCost ocp M W S) (hS : SolvesOCP ocp M S) (hT : SolvesOCP ocp M T) (h : SameTimes ocp M.orders.length S T) {J : K}
    (hJ : PhysCost ocp M W S J) (hJ' : PhysCost ocp M W T J)
    (hbest : ∀ L, SolvesOCP ocp M (S.mix (1 / 2) T) → PhysCost ocp M W (S.mix (1 / 2) T) L → J ≤ L) {ph k : Nat}
    (hp : ph < ocp.nPhases) (hk : k < M.N) (hwk : 0 < W.getD k 0) (hlt : S.t0 ph < S.tf ph)
    (hpos : ∀ s < M.orders.length, 0 < S.w s ph) : ∀ j < ocp.nu, T.u ph k j = S.u ph k j := by
  have hr := hv.runningCosts
  have h0 : (0 : K) ≤ 1 / 2 := by norm_num
  have h1 : (1 / 2 : K) ≤ 1 := by norm_num
  by_contra hne
  have hS2 := h.solves hc h0 h1 hS hT
  obtain ⟨l, hl⟩ := exists_samples ocp M (S.mix (1 / 2) T)
  have hL : PhysCost ocp M W (S.mix (1 / 2) T) _ := ⟨l, hl, rfl⟩
  have hle := hbest _ hS2 hL
  obtain ⟨v, hvv, hJv⟩ := hJ
  obtain ⟨v', hvv', hJv'⟩ := hJ'
  have hterm : ∀ q < ocp.nPhases, ∀ m < M.N, W.getD m 0 * l q m ≤ (1 - 1 / 2) * (W.getD m 0 * v q m) + 1 / 2 * (W.getD m 0 * v' q m) ∧
      (q = ph → m = k → W.getD m 0 * l q m < (1 - 1 / 2) * (W.getD m 0 * v q m) + 1 / 2 * (W.getD m 0 * v' q m)) := by
    intro q hq m hm
    obtain ⟨s, i, ho, rfl⟩ := M.exists_owner hM.nonempty hm
    have hw : 0 ≤ W.getD (M.idx s i) 0 := by
      rw [List.getD_eq_getElem _ _ (by rw [hW.length]; exact hm)]; exact hW.weights _ (List.getElem_mem _)
    have hpr : q < ocp.runningCosts.length := by omega
    have a1 := hvv q hq _ (List.getElem?_eq_getElem hpr) s i ho
    have a2 := hvv' q hq _ (List.getElem?_eq_getElem hpr) s i ho
    have a3 := hl q hq _ (List.getElem?_eq_getElem hpr) s i ho
    rw [h.time hq ho.1, h.halfWidth hq ho.1] at a2
    rw [pArg_mix] at a3
    rw [a1, a2, a3]
    show W.getD (M.idx s i) 0 * (M.halfWidth S q s * _) ≤ _ ∧ (_ → _ → W.getD (M.idx s i) 0 * (M.halfWidth S q s * _) < _)
    constructor
    · have a4 := hc.running q hq _ (List.getElem?_eq_getElem hpr) (ocp.pArg S q (M.idx s i) (M.time S q s (M.node s i)))
        (ocp.pArg T q (M.idx s i) (M.time S q s (M.node s i))) (1 / 2) (pArg_fits ..) (pArg_fits ..) rfl h0 h1
      have a5 := mul_le_mul_of_nonneg_left a4 (mul_nonneg hw (hW.half hq ho.1))
      calc _ = _ := (mul_assoc _ _ _).symm
        _ ≤ _ := a5
        _ = _ := by ring
    · rintro rfl rfl
      have hh : 0 < M.halfWidth S q s := by
        unfold Mesh.halfWidth
        exact mul_pos (div_pos (sub_pos.2 hlt) (sub_pos.2 hW.tau)) (hpos s ho.1)
      have hu : (ocp.pArg S q (M.idx s i) (M.time S q s (M.node s i))).u ≠ (ocp.pArg T q (M.idx s i) (M.time S q s (M.node s i))).u := by
        intro e
        apply hne
        intro j hj
        have e : (List.range ocp.nu).map (S.u q (M.idx s i)) = (List.range ocp.nu).map (T.u q (M.idx s i)) := e
        rw [List.map_inj_left] at e
        exact (e j (List.mem_range.2 hj)).symm
      have a4 := hst q hq _ (List.getElem?_eq_getElem hpr) _ _ (pArg_fits ocp S _ _ _) (pArg_fits ocp T _ _ _) rfl hu
      have a5 := mul_lt_mul_of_pos_left a4 (mul_pos hwk hh)
      calc _ = _ := (mul_assoc _ _ _).symm
        _ < _ := a5
        _ = _ := by ring
  have hsum : ∀ q < ocp.nPhases, TerminalCost ocp M (S.mix (1 / 2) T) q + weightedSum W (l q) ≤
      (1 - 1 / 2) * (TerminalCost ocp M S q + weightedSum W (v q)) + 1 / 2 * (TerminalCost ocp M T q + weightedSum W (v' q)) ∧
      (q = ph → TerminalCost ocp M (S.mix (1 / 2) T) q + weightedSum W (l q) <
      (1 - 1 / 2) * (TerminalCost ocp M S q + weightedSum W (v q)) + 1 / 2 * (TerminalCost ocp M T q + weightedSum W (v' q))) := by
    intro q hq
    have e1 := terminalCost_mix (θ := 1 / 2) h hc h0 h1 hq
    have e2 : weightedSum W (l q) ≤ (1 - 1 / 2) * weightedSum W (v q) + 1 / 2 * weightedSum W (v' q) := by
      unfold weightedSum
      rw [Finset.mul_sum, Finset.mul_sum, ← Finset.sum_add_distrib]
      exact Finset.sum_le_sum fun m hm => (hterm q hq m (by rw [← hW.length]; exact Finset.mem_range.1 hm)).1
    refine ⟨by linarith, fun e => ?_⟩
    have e3 : weightedSum W (l q) < (1 - 1 / 2) * weightedSum W (v q) + 1 / 2 * weightedSum W (v' q) := by
      unfold weightedSum
      rw [Finset.mul_sum, Finset.mul_sum, ← Finset.sum_add_distrib]
      exact Finset.sum_lt_sum (fun m hm => (hterm q hq m (by rw [← hW.length]; exact Finset.mem_range.1 hm)).1)
        ⟨k, Finset.mem_range.2 (by rw [hW.length]; exact hk), (hterm q hq k hk).2 e rfl⟩
    linarith
  have := Finset.sum_lt_sum (s := Finset.range ocp.nPhases) (fun q hq => (hsum q (Finset.mem_range.1 hq)).1)
    ⟨ph, Finset.mem_range.2 hp, (hsum ph hp).2 rfl⟩
  have e : ∑ q ∈ Finset.range ocp.nPhases, ((1 - 1 / 2) * (TerminalCost ocp M S q + weightedSum W (v q)) +
      1 / 2 * (TerminalCost ocp M T q + weightedSum W (v' q))) = J := by
    rw [Finset.sum_add_distrib, ← Finset.mul_sum, ← Finset.mul_sum, ← hJv, ← hJv']
    ring
  rw [e] at this
  exact absurd hle (not_le.2 this)

/-- **C103** If moreover the running cost is strictly convex in the controls, two runs on the same mesh with the same widths show the
same controls at every node whose weight is positive. Solvers, options, guesses and starting points may differ. -/
theorem C103_unique (hrun : mpSolve w nlpsol ocp ptp n arg scheme a rx rdx = .ok (s, p, r))
    (hrun' : mpSolve w nlpsol' ocp ptp' n arg scheme a' rx' rdx' = .ok (s', p', r')) (ha : a'.widths = a.widths)
    (hc : ocp.Convex) (hst : ocp.StrictInControls) (hft : ocp.FixedTimes)
    (hfwd : ∀ ph < ocp.nPhases, entry ocp.lbt0 ph 0 .nan ≠ entry ocp.lbtf ph 0 .nan)
    (hv : ValidOCP ocp) (hs : ocp.SettingsOK) (hsc : ocp.PosScales) (hM : MeshFor w scheme n arg M) (hlt : w.tau0 < w.tau1)
    (hn : M.orders.length = n)
    (hpos : ∀ W, compQuadWeights ⟨w.method, w.tau0, w.tau1, tausFn w.lib w.tau0 w.tau1 scheme⟩ M.orders = .ok W → ∀ v ∈ W, 0 ≤ v)
    (hwid : ∀ l, a.widths = some l → ∀ v ∈ l, 0 < v) (hopt : ∀ c z, nlpsol c = .ok z → c.IsLocal z)
    (hopt' : ∀ c z, nlpsol' c = .ok z → c.IsLocal z) :
    ∃ T T' W J, compQuadWeights ⟨w.method, w.tau0, w.tau1, tausFn w.lib w.tau0 w.tau1 scheme⟩ M.orders = .ok W ∧
      p.Shows ocp M T ∧ p'.Shows ocp M T' ∧ PhysCost ocp M W T J ∧ PhysCost ocp M W T' J ∧
      ∀ ph < ocp.nPhases, ∀ k < M.N, 0 < W.getD k 0 → ∀ j < ocp.nu, T'.u ph k j = T.u ph k j := by
  have hwid0 : ∀ l, a.widths = some l → ∀ v ∈ l, 0 ≤ v := fun l e v hm => (hwid l e v hm).le
  obtain ⟨T, W, J, hW, hT, hwT, hsh, hJ, hbest⟩ := C103_global hrun hc hft hv hs hsc hM hlt hn hpos hwid0 hopt
  obtain ⟨T', W', J', hW', hT', hwT', hsh', hJ', hbest'⟩ :=
    C103_global hrun' hc hft hv hs hsc hM hlt hn hpos (by rw [ha]; exact hwid0) hopt'
  rw [hW] at hW'; cases hW'
  rw [ha] at hwT' hbest'
  have e : J' = J := le_antisymm (hbest' T J hT hwT hJ) (hbest T' J' hT' hwT' hJ')
  subst e
  have hsame : SameTimes ocp M.orders.length T T' := hft.same hT hT' (hn ▸ hwT.same hwT')
  have hnn : NonnegCost ocp M W T := ⟨by rw [hM.tau0, hM.tau1]; exact hlt, hM.weights_length hW, hpos W hW,
    fun ph hp => hft.forwards hT hp, fun ph hp s hs => hwT.nonneg hwid0 hp (hn ▸ hs)⟩
  refine ⟨T, T', W, J', hW, hsh, hsh', hJ, hJ', fun ph hp k hk hwk =>
    strict_unique hc hst hM.good hv hnn hT hT' hsame hJ hJ' (fun L hL hLc => hbest _ L hL ?_ hLc) hp hk hwk ?_ fun s hs => ?_⟩
  · cases hreq : a.widths with
    | none => rw [hreq] at hwT; exact hwT
    | some l => rw [hreq] at hwT; exact hwT
  · obtain ⟨b, e, hbe, e1, e2, e3, e4⟩ := hft ph hp
    have hne := hfwd ph hp
    rw [e1, e3] at hne
    obtain ⟨-, -, -, t0, tf, -⟩ := hT.1.bounds ph hp
    rw [e1, e2] at t0
    rw [e3, e4] at tf
    exact (lt_of_le_of_lt t0.2 (lt_of_le_of_ne hbe fun h => hne (by rw [h]))).trans_le tf.1
  · rw [hn] at hs
    have hn0 : (0 : K) < n := by exact_mod_cast (Nat.zero_le s).trans_lt hs
    cases hreq : a.widths with
    | none =>
      rw [hreq] at hwT
      rw [hwT ph hp s hs]; positivity
    | some l =>
      rw [hreq] at hwT
      have hwT : ocp.packWidths n T = l := hwT
      refine hwid l hreq _ ?_
      rw [← hwT]
      unfold OCP.packWidths
      exact List.mem_flatMap.2 ⟨ph, List.mem_range.2 hp, List.mem_map.2 ⟨s, List.mem_range.2 hs, rfl⟩⟩

end

section
variable [FloorRing K] {w : HOutside K V} {nlpsol : Nat → Nat → SolverCall K V → Py (PyDict V)}
variable {ptp : List (List Nat)} {arg : OrdersArg} {scheme : String} {lbh ubh tol : List K} {rx rdx : Bool} {s : HOpt K V}

/-- **C103** The same for `mpopt_h_adaptive`, among all trajectories with the stored widths, if none of these is negative. -/
theorem C103_global_h (hf : s.Ready w ocp n arg scheme lbh ubh tol) (hc : ocp.Convex) (hft : ocp.FixedTimes) (hv : ValidOCP ocp)
    (hs : ocp.SettingsOK) (hsc : ocp.PosScales) (hM : MeshFor w.toOutside scheme n arg M) (hlt : w.tau0 < w.tau1)
    (hn : M.orders.length = n)
    (hpos : ∀ W, compQuadWeights ⟨w.method, w.tau0, w.tau1, tausFn w.lib w.tau0 w.tau1 scheme⟩ M.orders = .ok W → ∀ v ∈ W, 0 ≤ v)
    (hopt : ∀ n k c sol, nlpsol n k c = .ok sol → ∃ z, Returned w sol z ∧ c.IsLocal z)
    {calls : List (HStart V × HArgs V)} (ho : OwnStarts calls) {s' : HOpt K V} {sol : PyDict V}
    (hrun : s.run w nlpsol calls 0 none = (s', some sol)) (hwid : ∀ l, s'.widths = some l → ∀ v ∈ l, 0 ≤ v)
    {p : Post K} {r : Option (PyDict (ResidVal K))} (hp : s'.processResults w sol ptp false rx rdx = .ok (p, r)) :
    ∃ T W J, compQuadWeights ⟨w.method, w.tau0, w.tau1, tausFn w.lib w.tau0 w.tau1 scheme⟩ M.orders = .ok W ∧
      SolvesOCP ocp M T ∧ p.Shows ocp M T ∧ s'.widths = some (ocp.packWidths n T) ∧ PhysCost ocp M W T J ∧
      ∀ T' J', SolvesOCP ocp M T' → s'.widths = some (ocp.packWidths n T') → PhysCost ocp M W T' J' → J ≤ J' := by
  obtain ⟨T, W, J, δ, hW, hT, hsh, hwT, hJ, hδ, hbest⟩ := C103_local_h hf hv hs hsc hM hopt ho hrun hp
  refine ⟨T, W, J, hW, hT, hsh, hwT, hJ, fun T' J' hT' hwT' hJ' => ?_⟩
  have w1 : WidthsAre ocp n (some (ocp.packWidths n T)) T := rfl
  have w2 : WidthsAre ocp n (some (ocp.packWidths n T)) T' := by
    rw [hwT] at hwT'
    exact (Option.some.inj hwT').symm
  have hnn : NonnegCost ocp M W T := ⟨by rw [hM.tau0, hM.tau1]; exact hlt, hM.weights_length hW, hpos W hW,
    fun ph hp => hft.forwards hT hp, fun ph hp s hs => w1.nonneg (fun l e => hwid l (hwT.trans e)) hp (hn ▸ hs)⟩
  refine convex_best hc hM.good hv.runningCosts hnn hT hJ hδ ?_ (hft.same hT hT' (hn ▸ w1.same w2)) hT' hJ'
  rintro θ T'' L h0 h1 rfl hS hN hL
  exact hbest _ L hS hwT hN hL

end

end MPOpt
