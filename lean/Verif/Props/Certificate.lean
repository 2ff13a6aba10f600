import Verif.Spec.Certificate
import Verif.Props.Shipped
import Verif.Props.KnownRateEnd
import Mathlib.MeasureTheory.Integral.IntervalIntegral.FundThmCalculus

/-! # C106: certificates for lower bounds carry over to the collocated problem -/

set_option autoImplicit false
set_option linter.unusedSectionVars false

namespace MPOpt
open Polynomial

variable {M : Mesh ℝ} {ocp : OCP ℝ} {T : Traj ℝ}

/-- No width is negative and together they are 1. -/
structure Shares (M : Mesh ℝ) (T : Traj ℝ) (ph : Nat) : Prop where
  nonneg : ∀ s < M.orders.length, 0 ≤ T.w s ph
  sum : ∑ s ∈ Finset.range M.orders.length, T.w s ph = 1

theorem PhysFeasible.core (h : PhysFeasible ocp M T) : CoreFeasible ocp M T :=
  ⟨h.bounds, h.dynamics, h.path, h.terminal, h.links⟩

theorem AdaptiveFeasible.core {lo hi tol : Nat → ℝ} {res : Prop} (h : AdaptiveFeasible ocp M T lo hi tol res) :
    CoreFeasible ocp M T :=
  ⟨h.bounds, h.dynamics, h.path, h.terminal, h.links⟩

theorem FullWidths.shares {ph : Nat} (h : FullWidths M T ph) : Shares M T ph :=
  ⟨fun s hs => (h.pos s hs).le, h.sum⟩

theorem Shares.times (hM : M.Good) (hI : M.Inside) {ph s : Nat} (ht : T.t0 ph ≤ T.tf ph) (hw : Shares M T ph)
    (hs : s < M.orders.length) :
    0 ≤ M.halfWidth T ph s ∧ (∀ tau, M.tau0 ≤ tau → T.t0 ph ≤ M.time T ph s tau) ∧
      ∀ tau, tau ≤ M.tau1 → M.time T ph s tau ≤ T.tf ph := by
  have hh : 0 ≤ M.halfWidth T ph s :=
    mul_nonneg (div_nonneg (sub_nonneg.2 ht) (sub_pos.2 (hI.tau_lt hM)).le) (hw.nonneg s hs)
  have hn : ∀ n ≤ M.orders.length, 0 ≤ ∑ r ∈ Finset.range n, T.w r ph ∧ ∑ r ∈ Finset.range n, T.w r ph ≤ 1 := by
    intro n hn
    refine ⟨Finset.sum_nonneg fun r hr => hw.nonneg r (by have := Finset.mem_range.1 hr; omega), ?_⟩
    rw [← hw.sum]
    apply Finset.sum_le_sum_of_subset_of_nonneg
    · intro r hr; have := Finset.mem_range.1 hr; exact Finset.mem_range.2 (by omega)
    · intro r hr _; exact hw.nonneg r (Finset.mem_range.1 hr)
  refine ⟨hh, fun tau htau => ?_, fun tau htau => ?_⟩
  · have h1 := mul_nonneg (sub_nonneg.2 ht) (hn s hs.le).1
    have h2 := mul_nonneg hh (sub_nonneg.2 htau)
    unfold Mesh.time; linarith
  · have h1 : M.time T ph s tau ≤ M.time T ph s M.tau1 := by
      unfold Mesh.time
      have := mul_le_mul_of_nonneg_left (sub_le_sub_right htau M.tau0) hh
      linarith
    rw [(C13_segment_ends hM T ph).2.1 s] at h1
    have h2 := mul_le_mul_of_nonneg_left (hn (s + 1) hs).2 (sub_nonneg.2 ht)
    linarith

theorem Ext.Below.trans {l : Ext ℝ} {a b : ℝ} (h : l.Below a) (hab : a ≤ b) : l.Below b := by
  cases l <;> simp only [Ext.Below] at h ⊢
  exact h.trans hab

theorem Ext.Above.trans {l : Ext ℝ} {a b : ℝ} (h : l.Above a) (hab : b ≤ a) : l.Above b := by
  cases l <;> simp only [Ext.Above] at h ⊢
  exact hab.trans h

/-- Node values of a trajectory are admissible. -/
theorem node_admissible (hM : M.Good) (hI : M.Inside) {ph : Nat} (hB : BoundsOK ocp M T ph) (hP : PathOK ocp M T ph)
    (hw : Shares M T ph) (ht : T.t0 ph ≤ T.tf ph) {s i : Nat} (ho : M.Owns s i) :
    ocp.Admissible ph (ocp.pArg T ph (M.idx s i) (M.time T ph s (M.node s i))) := by
  have hk : M.idx s i < M.N := Mesh.idx_lt ho.1 ho.2.1
  obtain ⟨-, tb, te⟩ := hw.times hM hI ht ho.1
  obtain ⟨n0, n1⟩ := hI.node hM ho.1 ho.2.1
  refine ⟨by simp [OCP.pArg], by simp [OCP.pArg], ?_, fun j hj => ?_, ⟨hB.t0.1.trans (tb _ n0), hB.tf.2.trans (te _ n1)⟩,
    fun h => by simp [OCP.pArg, h], fun h => ⟨(List.range ocp.na).map (T.a ph), by simp [OCP.pArg, h], by simp, fun k hk' => ?_⟩, fun F hF c hc => hP F hF s i ho c hc⟩
  · by_cases h0 : ph = 0 ∧ M.idx s i = 0
    · obtain ⟨rfl, h0⟩ := h0
      refine Or.inr ⟨rfl, fun j hj => ?_⟩
      simp only [OCP.pArg, getD_map_range _ _ _ hj, h0]
      exact hB.x0 rfl j hj
    · refine Or.inl fun j hj => ?_
      simp only [OCP.pArg, getD_map_range _ _ _ hj]
      exact hB.x _ hk h0 j hj
  · simp only [OCP.pArg, getD_map_range _ _ _ hj]
    exact hB.u _ hk j hj
  · rw [getD_map_range _ _ _ hk']; exact hB.a k hk'

/-- Starts and ends of a trajectory. -/
def Traj.endsOf (T : Traj ℝ) (N : Nat) : Traj ℝ :=
  { T with x := fun ph i => T.x ph (if i = 0 then 0 else N - 1), u := fun ph i => T.u ph (if i = 0 then 0 else N - 1) }

theorem endMesh_N : endMesh.N = 2 := rfl

theorem endsOf_hold (hB : ∀ ph < ocp.nPhases, BoundsOK ocp M T ph)
    (hT : ∀ ph < ocp.nPhases, TerminalOK ocp M T ph) (ht : ∀ ph < ocp.nPhases, T.t0 ph ≤ T.tf ph)
    (hN : 2 ≤ M.N) (hL : 2 ≤ ocp.nPhases → LinksOK ocp M T) : ocp.EndsHold (T.endsOf M.N) := by
  refine ⟨fun ph hp => ?_, fun ph hp F hF c hc => hT ph hp F hF c hc, ht, fun h => ?_⟩
  · obtain ⟨b1, b2, b3, b4, b5, b6⟩ := hB ph hp
    refine ⟨b1, fun i hi h0 j hj => ?_, fun i hi j hj => ?_, b4, b5, b6⟩
    · rcases i with _ | i
      · exact b2 0 (by omega) (by simpa using h0) j hj
      · exact b2 (M.N - 1) (by omega) (by omega) j hj
    · rcases i with _ | i
      · exact b3 0 (by omega) j hj
      · exact b3 (M.N - 1) (by omega) j hj
  · obtain ⟨l1, l2, l3⟩ := hL h
    exact ⟨l1, l2, l3⟩

/-- The states of neighbouring segments join. -/
theorem pieces_join (hM : M.Good) (v : Nat → ℝ) {s : Nat} (hs : s + 1 < M.orders.length) :
    (M.piece v (s + 1)).eval M.tau0 = (M.piece v s).eval M.tau1 := by
  have a := hM.piece_eval_node v hs (Nat.zero_le (M.order (s + 1)))
  have b := hM.piece_eval_node v (show s < M.orders.length by omega) (le_refl (M.order s))
  rw [hM.node_first hs] at a
  rw [hM.node_last (by omega)] at b
  rw [a, b]
  congr 1
  simp only [Mesh.idx, Nat.add_zero]
  rw [Mesh.order_eq (by omega : s < M.orders.length)]
  exact segStart_succ M.orders (by omega)

theorem pieces_ends (hM : M.Good) (v : Nat → ℝ) :
    (M.piece v 0).eval M.tau0 = v 0 ∧ (M.piece v (M.orders.length - 1)).eval M.tau1 = v (M.N - 1) := by
  have hlen : 0 < M.orders.length := List.length_pos_iff.2 hM.nonempty
  have a := hM.piece_eval_node v hlen (Nat.zero_le (M.order 0))
  have b := hM.piece_eval_node v (show M.orders.length - 1 < M.orders.length by omega) (le_refl (M.order (M.orders.length - 1)))
  rw [hM.node_first hlen] at a
  rw [hM.node_last (by omega)] at b
  refine ⟨by rw [a]; simp [Mesh.idx, segStart], ?_⟩
  rw [b]
  congr 1
  simp only [Mesh.idx]
  rw [Mesh.order_eq (by omega : M.orders.length - 1 < M.orders.length), ← segStart_succ M.orders (by omega)]
  simp [Nat.sub_add_cancel hlen, Mesh.N, segStart]

variable {c : Certificate}

/-- **C106** Quadrature of the rate of change of `V` along a collocated trajectory is the change of `V`. -/
theorem rate_quadrature (hM : M.Good) {W : List ℝ} {deg : Nat → Nat} (hW : M.Integrates W deg) {ph : Nat}
    (hw : Shares M T ph) (hC : CollocationOK ocp M T ph) {F : VFun (PArg ℝ) ℝ} (hF : ocp.dynamics[ph]? = some F)
    (hprice : ∀ s < M.orders.length, ∀ j < ocp.nx, (c.price ph j).natDegree + M.order s ≤ deg s + 1)
    (hfree : ∀ s < M.orders.length, (c.free ph).natDegree ≤ deg s + 1) {r : Nat → ℝ}
    (hr : ∀ s i, M.Owns s i → r (M.idx s i) = M.halfWidth T ph s *
      c.rate ocp.nx ph (M.time T ph s (M.node s i)) (T.x ph (M.idx s i))
        (F.f (ocp.pArg T ph (M.idx s i) (M.time T ph s (M.node s i))))) :
    weightedSum W r = c.value ocp.nx ph (T.tf ph) (T.x ph (M.N - 1)) - c.value ocp.nx ph (T.t0 ph) (T.x ph 0) := by
  obtain ⟨j1, -, j3, j4⟩ := C13_segment_ends hM T ph
  set P : Nat → ℝ[X] := fun s => (∑ j ∈ Finset.range ocp.nx,
    (c.price ph j).comp (M.clockPoly T ph s) * M.piece (fun k => T.x ph k j) s) +
      (c.free ph).comp (M.clockPoly T ph s) with hP
  have hPe : ∀ s tau, (P s).eval tau = c.value ocp.nx ph (M.time T ph s tau)
      fun j => (M.piece (fun k => T.x ph k j) s).eval tau := by
    intro s tau
    simp only [hP, eval_add, eval_finsetSum, eval_mul, (M.clockPoly_comp T ph s _ tau).1, Certificate.value]
  have hdeg : ∀ s < M.orders.length, (derivative (P s)).natDegree ≤ deg s := by
    intro s hs
    refine (natDegree_derivative_le _).trans ?_
    have : (P s).natDegree ≤ deg s + 1 := by
      refine (natDegree_add_le _ _).trans (max_le (natDegree_sum_le_of_forall_le _ _ fun j hj => ?_)
        (((M.clockPoly_comp T ph s _ 0).2.2).trans (hfree s hs)))
      have h1 := (M.clockPoly_comp T ph s (c.price ph j) 0).2.2
      have h2 := hM.piece_degrees (fun k => T.x ph k j) s hs
      rw [← Mesh.order_eq hs] at h2
      have h3 := hprice s hs j (Finset.mem_range.1 hj)
      exact natDegree_mul_le.trans (by omega)
    omega
  rw [hW.telescope hM hdeg (fun s hs => ?_) (fun s i ho => ?_), hPe, hPe, j1, j4 hw.sum]
  · congr 2 <;> funext j
    · exact (pieces_ends hM fun k => T.x ph k j).2
    · exact (pieces_ends hM fun k => T.x ph k j).1
  · rw [hPe, hPe, j3]
    congr 1
    funext j
    exact pieces_join hM _ hs
  · rw [hr s i ho]
    simp only [hP, derivative_add, derivative_sum, derivative_mul, eval_add, eval_finsetSum, eval_mul,
      (M.clockPoly_comp T ph s _ _).1, (M.clockPoly_comp T ph s _ _).2.1, Certificate.rate]
    rw [mul_add, Finset.mul_sum]
    congr 1
    refine Finset.sum_congr rfl fun j hj => ?_
    rw [hC F hF j (Finset.mem_range.1 hj) s i ho, hM.piece_eval_node _ ho.1 ho.2.1]
    ring

/-- **C106** A certificate bounds the cost of everything that solves the collocated problem, whatever the mesh and the
widths, when no quadrature weight is negative and the weights integrate the rate of change of `V`. -/
theorem C106_bound {lower : ℝ} (hc : c.Proves ocp lower) (hM : M.Good) (hI : M.Inside) {W : List ℝ}
    {deg : Nat → Nat} (hW : M.Integrates W deg) (hWn : ∀ x ∈ W, 0 ≤ x) (hWl : W.length = M.N) (hv : ValidOCP ocp)
    (hprice : ∀ ph < ocp.nPhases, ∀ s < M.orders.length, ∀ j < ocp.nx, (c.price ph j).natDegree + M.order s ≤ deg s + 1)
    (hfree : ∀ ph < ocp.nPhases, ∀ s < M.orders.length, (c.free ph).natDegree ≤ deg s + 1)
    (hT : CoreFeasible ocp M T) (hw : ∀ ph < ocp.nPhases, Shares M T ph) (ht : ∀ ph < ocp.nPhases, T.t0 ph ≤ T.tf ph)
    {J : ℝ} (hJ : PhysCost ocp M W T J) : lower ≤ J := by
  obtain ⟨v, hvs, rfl⟩ := hJ
  have hN : 2 ≤ M.N := by
    have hlen : 0 < M.orders.length := List.length_pos_iff.2 hM.nonempty
    have h1 := hM.pos _ (hM.order_mem hlen)
    have := Mesh.idx_lt (M := M) hlen (le_refl (M.order 0))
    simp only [Mesh.idx, segStart] at this
    omega
  refine (hc.ends _ (endsOf_hold hT.bounds hT.terminal ht hN hT.links)).trans
    (Finset.sum_le_sum fun ph hp => ?_)
  replace hp := Finset.mem_range.1 hp
  obtain ⟨F, hF⟩ : ∃ F, ocp.dynamics[ph]? = some F := by
    rw [← hv.dynamics] at hp; exact ⟨_, List.getElem?_eq_getElem hp⟩
  obtain ⟨L, hL⟩ : ∃ L, ocp.runningCosts[ph]? = some L := by
    rw [← hv.runningCosts] at hp; exact ⟨_, List.getElem?_eq_getElem hp⟩
  obtain ⟨r, hr⟩ := M.exists_owned fun s i => M.halfWidth T ph s *
      c.rate ocp.nx ph (M.time T ph s (M.node s i)) (T.x ph (M.idx s i))
        (F.f (ocp.pArg T ph (M.idx s i) (M.time T ph s (M.node s i))))
  have hsum := rate_quadrature hM hW (hw ph hp) (hT.dynamics ph hp) hF (hprice ph hp) (hfree ph hp) hr
  have hpos : 0 ≤ weightedSum W (v ph) + weightedSum W r := by
    unfold weightedSum
    rw [← Finset.sum_add_distrib]
    refine Finset.sum_nonneg fun k hk => ?_
    rw [Finset.mem_range] at hk
    rw [← mul_add, List.getD_eq_getElem _ _ hk]
    refine mul_nonneg (hWn _ (List.getElem_mem hk)) ?_
    obtain ⟨s, i, ho, rfl⟩ := M.exists_owner hM.nonempty (k := k) (by omega)
    rw [hvs ph hp L hL s i ho, hr s i ho, ← mul_add]
    refine mul_nonneg ((hw ph hp).times hM hI (ht ph hp) ho.1).1 ?_
    have := hc.running ph hp F L hF hL _ (node_admissible hM hI (hT.bounds ph hp) (hT.path ph hp) (hw ph hp) (ht ph hp) ho)
    refine this.trans (le_of_eq ?_)
    congr 1
    simp only [Certificate.rate]
    congr 1
    refine Finset.sum_congr rfl fun j hj => ?_
    simp only [OCP.pArg, getD_map_range _ _ _ (Finset.mem_range.1 hj)]
  have e : ocp.terminalCosts.getD ph (fun _ => 0) (ocp.tArg (T.endsOf M.N) ph 2) = TerminalCost ocp M T ph := rfl
  rw [e]
  have e1 : (T.endsOf M.N).x ph 0 = T.x ph 0 := rfl
  have e2 : (T.endsOf M.N).x ph 1 = T.x ph (M.N - 1) := rfl
  have e3 : (T.endsOf M.N).t0 ph = T.t0 ph := rfl
  have e4 : (T.endsOf M.N).tf ph = T.tf ph := rfl
  rw [e1, e2, e3, e4]
  linarith

/-! ### Continuous time -/

/-- A function whose derivatives from the left are at least `-φ` falls by at most the integral of `φ`. -/
theorem fall_le_integral {a b : ℝ} (hab : a ≤ b) {g g' φ : ℝ → ℝ} (hg : ContinuousOn g (Set.Icc a b))
    (hd : ∀ t ∈ Set.Ioo a b, HasDerivWithinAt g (g' t) (Set.Iic t) t) (hφ : IntervalIntegrable φ MeasureTheory.volume a b)
    (hle : ∀ t ∈ Set.Ioo a b, 0 ≤ φ t + g' t) : g a - g b ≤ ∫ t in a..b, φ t := by
  have key := intervalIntegral.sub_le_integral_of_hasDeriv_right_of_le (a := -b) (b := -a) (g := fun s => g (-s))
    (g' := fun s => -g' (-s)) (φ := fun s => φ (-s)) (by linarith)
    (hg.comp continuous_neg.continuousOn fun s hs => ⟨by linarith [hs.2], by linarith [hs.1]⟩)
    (fun s hs => by
      have h := hd (-s) ⟨by linarith [hs.2], by linarith [hs.1]⟩
      have h2 := h.comp s (hasDerivAt_neg s).hasDerivWithinAt (s := Set.Ioi s)
        (fun y hy => by simp only [Set.mem_Iic, Set.mem_Ioi] at hy ⊢; linarith)
      have h3 : HasDerivWithinAt (fun s => g (-s)) (g' (-s) * -1) (Set.Ioi s) s := h2
      exact h3.congr_deriv (by ring))
    (by
      have h : IntervalIntegrable (fun s => φ (-s)) MeasureTheory.volume (-b) (-a) := by
        have := (hφ.symm.comp_mul_left (c := -1)); simpa [div_neg] using this
      rw [intervalIntegrable_iff_integrableOn_Icc_of_le (by linarith)] at h
      exact h)
    (fun s hs => by have := hle (-s) ⟨by linarith [hs.2], by linarith [hs.1]⟩; linarith)
  simp only [neg_neg] at key
  rwa [intervalIntegral.integral_comp_neg, neg_neg, neg_neg] at key

/-- Starts and ends of a motion. -/
noncomputable def CTraj.endsOf (C : CTraj) : Traj ℝ :=
  ⟨fun ph i j => C.x ph j (if i = 0 then C.t0 ph else C.tf ph), fun ph i j => C.u ph j (if i = 0 then C.t0 ph else C.tf ph),
    C.t0, C.tf, C.a, fun _ _ => 1⟩

theorem CTraj.endsOf_hold {C : CTraj} (hC : SolvesContinuously ocp C) : ocp.EndsHold C.endsOf := by
  refine ⟨fun ph hp => ?_, fun ph hp F hF k hk => (hC.phase ph hp).terminal F hF k hk,
    fun ph hp => (hC.phase ph hp).order.le, fun _ => ⟨hC.linkX, hC.linkU, hC.linkT⟩⟩
  obtain ⟨o, -, -, -, b1, b2, b3, b4, b5, b6⟩ := hC.phase ph hp
  have hl : C.t0 ph ∈ Set.Icc (C.t0 ph) (C.tf ph) := ⟨le_rfl, o.le⟩
  have hr : C.tf ph ∈ Set.Icc (C.t0 ph) (C.tf ph) := ⟨o.le, le_rfl⟩
  refine ⟨b1, fun i hi h0 j hj => ?_, fun i hi j hj => ?_, b4, b5, b6⟩
  · rcases i with _ | i
    · exact b2 _ hl (fun h => h0 ⟨h.1, rfl⟩) j hj
    · exact b2 _ hr (fun h => by obtain ⟨rfl, h⟩ := h; exact o.ne' h) j hj
  · rcases i with _ | i
    · exact b3 _ hl j hj
    · exact b3 _ hr j hj

theorem motion_admissible {C : CTraj} {ph : Nat} (hC : PhaseHolds ocp C ph) {t : ℝ}
    (ht : t ∈ Set.Icc (C.t0 ph) (C.tf ph)) : ocp.Admissible ph (ocp.cArg C ph t) := by
  obtain ⟨o, -, b0, -, b1, b2, b3, b4, b5, b6⟩ := hC
  refine ⟨by simp [OCP.cArg], by simp [OCP.cArg], ?_, fun j hj => ?_, ⟨b4.1.trans ht.1, b5.2.trans ht.2⟩,
    fun h => by simp [OCP.cArg, h], fun h => ⟨(List.range ocp.na).map (C.a ph), by simp [OCP.cArg, h], by simp, fun k hk => ?_⟩,
    fun F hF c hc => b0 F hF c hc t ht⟩
  · by_cases h0 : ph = 0 ∧ t = C.t0 0
    · obtain ⟨rfl, rfl⟩ := h0
      refine Or.inr ⟨rfl, fun j hj => ?_⟩
      simp only [OCP.cArg, getD_map_range _ _ _ hj]
      exact b1 rfl j hj
    · refine Or.inl fun j hj => ?_
      simp only [OCP.cArg, getD_map_range _ _ _ hj]
      exact b2 t ht h0 j hj
  · simp only [OCP.cArg, getD_map_range _ _ _ hj]
    exact b3 t ht j hj
  · rw [getD_map_range _ _ _ hk]; exact b6 k hk

/-- **C106** The certificate bounds the true cost of every solution of the continuous-time problem. -/
theorem C106_continuous {lower : ℝ} (hc : c.Proves ocp lower) (hv : ValidOCP ocp) {C : CTraj}
    (hC : SolvesContinuously ocp C)
    (hint : ∀ ph < ocp.nPhases, IntervalIntegrable
      (fun t => ocp.runningCosts.getD ph (fun _ => 0) (ocp.cArg C ph t)) MeasureTheory.volume (C.t0 ph) (C.tf ph)) :
    lower ≤ ocp.trueCost C := by
  refine (hc.ends _ (CTraj.endsOf_hold hC)).trans (Finset.sum_le_sum fun ph hp => ?_)
  replace hp := Finset.mem_range.1 hp
  obtain ⟨F, hF⟩ : ∃ F, ocp.dynamics[ph]? = some F := by
    rw [← hv.dynamics] at hp; exact ⟨_, List.getElem?_eq_getElem hp⟩
  obtain ⟨L, hL⟩ : ∃ L, ocp.runningCosts[ph]? = some L := by
    rw [← hv.runningCosts] at hp; exact ⟨_, List.getElem?_eq_getElem hp⟩
  have hLD : ocp.runningCosts.getD ph (fun _ => 0) = L := by simp [List.getD, hL]
  have hph := hC.phase ph hp
  have key := fall_le_integral hph.order.le
    (g := fun t => c.value ocp.nx ph t fun j => C.x ph j t)
    (g' := fun t => c.rate ocp.nx ph t (fun j => C.x ph j t) (F.f (ocp.cArg C ph t)))
    (by
      unfold Certificate.value
      refine ContinuousOn.add (continuousOn_finsetSum _ fun j hj => ?_) (Polynomial.continuous _).continuousOn
      exact (Polynomial.continuous _).continuousOn.mul (hph.dynamics.continuous j (Finset.mem_range.1 hj)))
    (by
      intro t ht
      unfold Certificate.value Certificate.rate
      refine HasDerivWithinAt.add (HasDerivWithinAt.fun_sum fun j hj => ?_) (Polynomial.hasDerivAt _ _).hasDerivWithinAt
      exact (Polynomial.hasDerivAt _ _).hasDerivWithinAt.mul
        (hph.dynamics.left F hF j (Finset.mem_range.1 hj) t ht.1 ht.2.le))
    (hint ph hp)
    (by
      intro t ht
      rw [hLD]
      have := hc.running ph hp F L hF hL _ (motion_admissible hph ⟨ht.1.le, ht.2.le⟩)
      refine this.trans (le_of_eq ?_)
      congr 1
      simp only [Certificate.rate]
      congr 1
      refine Finset.sum_congr rfl fun j hj => ?_
      simp only [OCP.cArg, getD_map_range _ _ _ (Finset.mem_range.1 hj)])
  have e : ocp.terminalCosts.getD ph (fun _ => 0) (ocp.tArg C.endsOf ph 2) =
      ocp.terminalCosts.getD ph (fun _ => 0) (ocp.cEnd C ph) := rfl
  rw [e]
  have e1 : C.endsOf.x ph 0 = fun j => C.x ph j (C.t0 ph) := rfl
  have e2 : C.endsOf.x ph 1 = fun j => C.x ph j (C.tf ph) := rfl
  have e3 : C.endsOf.t0 ph = C.t0 ph := rfl
  have e4 : C.endsOf.tf ph = C.tf ph := rfl
  rw [e1, e2, e3, e4]
  linarith

/-! ### The solvers -/

/-- The multipliers have degrees below the orders, the free terms below twice the orders. -/
def Certificate.Fits (c : Certificate) (ocp : OCP ℝ) (orders : List Nat) : Prop :=
  ∀ ph < ocp.nPhases, ∀ p ∈ orders, (∀ j < ocp.nx, (c.price ph j).natDegree + 1 ≤ p) ∧ (c.free ph).natDegree + 1 ≤ 2 * p

variable {V : Type} {w : Outside ℝ V} {n : Nat} {arg : OrdersArg}

/-- **C106** The bound for LGR nodes of orders at least 2, for every trajectory of the collocated problem. -/
theorem C106_lgr {lower : ℝ} (hc : c.Proves ocp lower) (hv : ValidOCP ocp) (hM : MeshFor w "LGR" n arg M)
    (hlt : w.tau0 < w.tau1) (hord : ∀ q ∈ M.orders, 2 ≤ q)
    (hj : ∀ q ∈ M.orders, IsJacobiRoots 1 0 (q - 1) (w.lib.jroots (q - 1) 1 0)) (hfit : c.Fits ocp M.orders) {W : List ℝ}
    (hW : compQuadWeights ⟨w.method, w.tau0, w.tau1, tausFn w.lib w.tau0 w.tau1 "LGR"⟩ M.orders = .ok W)
    (hT : CoreFeasible ocp M T) (hw : ∀ ph < ocp.nPhases, Shares M T ph) (ht : ∀ ph < ocp.nPhases, T.t0 ph ≤ T.tf ph)
    {J : ℝ} (hJ : PhysCost ocp M W T J) : lower ≤ J := by
  obtain ⟨hI, hint⟩ := C57_lgr_integrates hM hlt hord hj hW
  obtain ⟨ws, rfl, hl, hp⟩ := C67_lgr_composite w.lib w.method w.tau0 w.tau1 hlt hord hj hW
  have ho : ∀ s < M.orders.length, 2 ≤ M.order s := fun s hs => hord _ (hM.good.order_mem hs)
  refine C106_bound hc hM.good hI hint ?_ (by rw [List.length_cons, hl]; rfl) hv ?_ ?_ hT hw ht hJ
  · intro x hx
    rcases List.mem_cons.1 hx with rfl | hx
    · exact le_rfl
    · exact (hp x hx).le
  · intro ph hph s hs j hjx
    have h1 := (hfit ph hph _ (hM.good.order_mem hs)).1 j hjx
    have h2 := ho s hs
    omega
  · intro ph hph s hs
    have h1 := (hfit ph hph _ (hM.good.order_mem hs)).2
    have h2 := ho s hs
    omega

variable {ptp : List (List Nat)} {rx rdx : Bool} {p : Post ℝ} {r : Option (PyDict (ResidVal ℝ))}

/-- Cost at least `lower`, if no phase ends before it starts. -/
def AtLeast (lower : ℝ) (ocp : OCP ℝ) (M : Mesh ℝ) (W : List ℝ) (T : Traj ℝ) : Prop :=
  (∀ ph < ocp.nPhases, T.t0 ph ≤ T.tf ph) → ∀ J, PhysCost ocp M W T J → lower ≤ J

/-- **C106** Whatever feasible point the NLP solver returns, the trajectory shown by `solve` costs at least what the
certificate proves. -/
theorem C106_solve {lower : ℝ} (hc : c.Proves ocp lower) {nlpsol : SolverCall ℝ V → Py (List ℝ)} {a : SolveArgs ℝ V}
    {s : Session ℝ V} (hrun : mpSolve w nlpsol ocp ptp n arg "LGR" a rx rdx = .ok (s, p, r)) (hv : ValidOCP ocp)
    (hs : ocp.SettingsOK) (hsc : ocp.PosScales) (hM : MeshFor w "LGR" n arg M) (hlt : w.tau0 < w.tau1)
    (hord : ∀ q ∈ M.orders, 2 ≤ q) (hj : ∀ q ∈ M.orders, IsJacobiRoots 1 0 (q - 1) (w.lib.jroots (q - 1) 1 0))
    (hfit : c.Fits ocp M.orders) (hwid : GoodWidths ocp n a.widths) (hsound : ∀ c z, nlpsol c = .ok z → c.IsSolution z) :
    ∃ T, SolvesOCP ocp M T ∧ WidthsAre ocp n a.widths T ∧ p.Shows ocp M T ∧
      ∀ W, compQuadWeights ⟨w.method, w.tau0, w.tau1, tausFn w.lib w.tau0 w.tau1 "LGR"⟩ M.orders = .ok W →
        AtLeast lower ocp M W T := by
  obtain ⟨T, hT, hw, hsh⟩ := C52_solve_feasible hrun hv hs hsc hM hsound
  refine ⟨T, hT, hw, hsh, fun W hW ht J hJ => C106_lgr hc hv hM hlt hord hj hfit hW hT.1.core (fun ph hp => ?_) ht hJ⟩
  have hn : M.orders.length = n := mpSolve_length hrun hM
  subst hn
  obtain ⟨h1, h2⟩ := hw.fills (List.length_pos_iff.2 hM.good.nonempty) hwid ph hp
  exact ⟨fun s hs => (h1 s hs).le, h2⟩

/-- **C106** The same for `mpopt_adaptive`, if its width limits are not negative. -/
theorem C106_adaptive {lower : ℝ} (hc : c.Proves ocp lower) {nlpsol : SolverCall ℝ V → Py (List ℝ)}
    {s s' : AdaptOpt ℝ V} {lbh ubh tol : List ℝ} {mid : Bool} (hf : s.Ready w ocp n arg "LGR" lbh ubh tol mid)
    (hv : ValidOCP ocp) (hs : ocp.SettingsOK) (hsc : ocp.PosScales) (hlb : lbh.length = ocp.nPhases)
    (hub : ubh.length = ocp.nPhases) (htol : tol.length = ocp.nPhases) (hlbn : ∀ l ∈ lbh, 0 ≤ l)
    (hM : MeshFor w "LGR" n arg M) (hlt : w.tau0 < w.tau1) (hord : ∀ q ∈ M.orders, 2 ≤ q)
    (hj : ∀ q ∈ M.orders, IsJacobiRoots 1 0 (q - 1) (w.lib.jroots (q - 1) 1 0)) (hfit : c.Fits ocp M.orders)
    (hsound : ∀ c z, nlpsol c = .ok z → c.IsSolution z) (earlier : List (SolveArgs ℝ V)) (a : SolveArgs ℝ V)
    {z : List ℝ} (hrun : (s.run w nlpsol earlier).solve w nlpsol a = (s', .ok z))
    (hp : s'.processResults w ptp false rx rdx = .ok (p, r)) :
    ∃ T, SolvesAdaptive ocp M T lbh ubh tol mid ∧ p.Shows ocp M T ∧
      ∀ W, compQuadWeights ⟨w.method, w.tau0, w.tau1, tausFn w.lib w.tau0 w.tau1 "LGR"⟩ M.orders = .ok W →
        AtLeast lower ocp M W T := by
  obtain ⟨T, hT, hsh, -⟩ := C54_adaptive_feasible hf hv hs hsc hlb hub htol hM hsound earlier a hrun hp
  refine ⟨T, hT, hsh, fun W hW ht J hJ => C106_lgr hc hv hM hlt hord hj hfit hW hT.1.core (fun ph hp => ?_) ht hJ⟩
  obtain ⟨h1, h2, -⟩ := hT.1.widths ph hp
  refine ⟨fun s hs => le_trans ?_ (h2 s hs), h1⟩
  have : ph < lbh.length := by omega
  rw [List.getD_eq_getElem _ _ this]
  exact hlbn _ (List.getElem_mem this)

/-- **C106** The same for `mpopt_h_adaptive`, if the refinement ends with positive widths of sum 1. -/
theorem C106_h {lower : ℝ} (hc : c.Proves ocp lower) {wh : HOutside ℝ V}
    {nlpsolH : Nat → Nat → SolverCall ℝ V → Py (PyDict V)} {lbh ubh tol : List ℝ} {sh : HOpt ℝ V}
    (hf : sh.Ready wh ocp n arg "LGR" lbh ubh tol) (hv : ValidOCP ocp) (hs : ocp.SettingsOK) (hsc : ocp.PosScales)
    (hM : MeshFor wh.toOutside "LGR" n arg M) (hlt : wh.tau0 < wh.tau1) (hord : ∀ q ∈ M.orders, 2 ≤ q)
    (hj : ∀ q ∈ M.orders, IsJacobiRoots 1 0 (q - 1) (wh.lib.jroots (q - 1) 1 0)) (hfit : c.Fits ocp M.orders)
    (hsound : ∀ n k c sol, nlpsolH n k c = .ok sol → ∃ z, Returned wh sol z ∧ c.IsSolution z)
    {calls : List (HStart V × HArgs V)} (ho : OwnStarts calls) {s' : HOpt ℝ V} {sol : PyDict V}
    (hrun : sh.run wh nlpsolH calls 0 none = (s', some sol))
    (hp : s'.processResults wh sol ptp false rx rdx = .ok (p, r)) (hwid : GoodWidths ocp n s'.widths) :
    ∃ T, SolvesOCP ocp M T ∧ p.Shows ocp M T ∧ s'.widths = some (ocp.packWidths n T) ∧
      ∀ W, compQuadWeights ⟨wh.method, wh.tau0, wh.tau1, tausFn wh.lib wh.tau0 wh.tau1 "LGR"⟩ M.orders = .ok W →
        AtLeast lower ocp M W T := by
  obtain ⟨T, hT, hsh, hw⟩ := C59_h_feasible hf hv hs hsc hM hsound ho hrun hp
  refine ⟨T, hT, hsh, hw, fun W hW ht J hJ => C106_lgr hc hv hM hlt hord hj hfit hW hT.1.core (fun ph hp => ?_) ht hJ⟩
  have hn : M.orders.length = n := by rw [OrdersArg.Means.unique hM.orders hf.orders]; exact hf.length
  subst hn
  obtain ⟨h1, h2⟩ := packed_widths (T := T) hp ((hwid _ hw).2 ph hp) rfl
  exact ⟨fun s hs => (h1 s hs).le, h2⟩

end MPOpt
