import Verif.Props.UnitChange
import Verif.Props.MayerEnd
import Verif.Props.AdaptiveEnd
import Verif.Spec.Interval

/-! # C104: the interval on which nodes are placed -/

set_option autoImplicit false
set_option linter.unusedSectionVars false

namespace MPOpt
open Polynomial

section
variable {K : Type} [Field K] [LinearOrder K] [IsStrictOrderedRing K] {ocp : OCP K} {M M' : Mesh K} {T : Traj K} {c b : K}

namespace Mesh.Moved

theorem ne (h : M.Moved M' c b) : c ≠ 0 := h.pos.ne'

theorem order_eq (h : M.Moved M' c b) (s : Nat) : M'.order s = M.order s := by
  unfold Mesh.order; rw [h.orders]

theorem idx_eq (h : M.Moved M' c b) (s i : Nat) : M'.idx s i = M.idx s i := by
  unfold Mesh.idx; rw [h.orders]

theorem N_eq (h : M.Moved M' c b) : M'.N = M.N := by
  unfold Mesh.N; rw [h.orders]

theorem owns_iff (h : M.Moved M' c b) (s i : Nat) : M'.Owns s i ↔ M.Owns s i := by
  unfold Mesh.Owns; rw [h.orders, h.order_eq]

theorem mem_order {s : Nat} (hs : s < M.orders.length) : M.order s ∈ M.orders := by
  unfold Mesh.order; rw [List.getD_eq_getElem _ _ hs]; exact List.getElem_mem hs

theorem node_eq (h : M.Moved M' c b) (hM : M.Good) {s i : Nat} (hs : s < M.orders.length) (hi : i ≤ M.order s) :
    M'.node s i = c * M.node s i + b := by
  have hm := mem_order hs
  have hl := hM.length _ hm
  unfold Mesh.node
  rw [h.order_eq, h.nodes _ hm, List.getD_eq_getElem _ _ (by rw [List.length_map]; omega),
    List.getD_eq_getElem _ _ (by omega), List.getElem_map]

/-- The moved mesh is good too. -/
theorem good (h : M.Moved M' c b) (hM : M.Good) : M'.Good where
  nonempty := by rw [h.orders]; exact hM.nonempty
  pos := by rw [h.orders]; exact hM.pos
  length p hp := by
    rw [h.orders] at hp; rw [h.nodes p hp, List.length_map]; exact hM.length p hp
  nodup p hp := by
    rw [h.orders] at hp; rw [h.nodes p hp]
    exact (hM.nodup p hp).map fun x y e => mul_left_cancel₀ h.ne (add_right_cancel e)
  first p hp := by
    rw [h.orders] at hp; rw [h.nodes p hp, List.getElem?_map, hM.first p hp, h.tau0]; rfl
  last p hp := by
    rw [h.orders] at hp; rw [h.nodes p hp, List.getElem?_map, hM.last p hp, h.tau1]; rfl

/-- Moving back. -/
theorem symm (h : M.Moved M' c b) : M'.Moved M c⁻¹ (-(c⁻¹ * b)) where
  pos := inv_pos.2 h.pos
  orders := h.orders.symm
  tau0 := by rw [h.tau0]; have := h.ne; field_simp; ring
  tau1 := by rw [h.tau1]; have := h.ne; field_simp; ring
  nodes p hp := by
    rw [h.orders] at hp
    rw [h.nodes p hp, List.map_map]
    conv_lhs => rw [← List.map_id (M.nodes p)]
    refine List.map_congr_left fun r _ => ?_
    have := h.ne
    simp only [Function.comp, id]
    field_simp; ring

/-- The pieces take the same values at corresponding points. -/
theorem piece_eval (h : M.Moved M' c b) (hM : M.Good) {s : Nat} (hs : s < M.orders.length) (v : Nat → K) (tau : K) :
    (M'.piece v s).eval (c * tau + b) = (M.piece v s).eval tau := by
  have hM' := h.good hM
  have hs' : s < M'.orders.length := by rw [h.orders]; exact hs
  have key : (M'.piece v s).comp (C c * X + C b) = M.piece v s := by
    unfold Mesh.piece
    apply Lagrange.eq_interpolate_of_eval_eq
    · exact hM.node_injOn hs
    · rw [Finset.card_range]
      have h1 := Lagrange.degree_interpolate_lt (s := Finset.range (M'.order s + 1)) (v := M'.node s)
        (fun i => v (M'.idx s i)) (hM'.node_injOn hs')
      rw [Finset.card_range, h.order_eq] at h1
      rw [h.order_eq]
      set P := Lagrange.interpolate (Finset.range (M.order s + 1)) (M'.node s) fun i => v (M'.idx s i) with hP
      by_cases h0 : P.comp (C c * X + C b) = 0
      · rw [h0, degree_zero]; exact WithBot.bot_lt_coe _
      · have hP0 : P ≠ 0 := fun e => h0 (by rw [e, zero_comp])
        have hn : P.natDegree < M.order s + 1 := (natDegree_lt_iff_degree_lt hP0).2 h1
        refine (natDegree_lt_iff_degree_lt h0).1 ?_
        rw [natDegree_comp, natDegree_linear h.ne, mul_one]; exact hn
    · intro i hi
      have hi : i ≤ M.order s := by simpa [Nat.lt_succ_iff] using hi
      rw [eval_comp]
      have e : (C c * X + C b : K[X]).eval (M.node s i) = M'.node s i := by
        rw [h.node_eq hM hs hi]; simp
      have := hM'.piece_eval_node v hs' (i := i) (by rw [h.order_eq]; exact hi)
      unfold Mesh.piece at this
      rw [e, this, h.idx_eq]
  rw [← key, eval_comp]; simp

/-- Slopes with respect to `tau` are divided by `c`. -/
theorem slope_eval (h : M.Moved M' c b) (hM : M.Good) {s : Nat} (hs : s < M.orders.length) (v : Nat → K) (tau : K) :
    (derivative (M'.piece v s)).eval (c * tau + b) = c⁻¹ * (derivative (M.piece v s)).eval tau := by
  have key : (M'.piece v s).comp (C c * X + C b) = M.piece v s := by
    apply Polynomial.funext
    intro t
    rw [eval_comp, ← h.piece_eval hM hs v t]; simp
  rw [← key, derivative_comp]
  simp [inv_mul_cancel_left₀ h.ne]

theorem halfWidth_eq (h : M.Moved M' c b) (T : Traj K) (ph s : Nat) : M'.halfWidth T ph s = c⁻¹ * M.halfWidth T ph s := by
  unfold Mesh.halfWidth
  rw [h.tau0, h.tau1, show c * M.tau1 + b - (c * M.tau0 + b) = c * (M.tau1 - M.tau0) by ring, div_mul_eq_div_div, inv_mul_eq_div]
  have := h.ne
  field_simp

/-- Corresponding points lie at the same time. -/
theorem time_eq (h : M.Moved M' c b) (T : Traj K) (ph s : Nat) (tau : K) :
    M'.time T ph s (c * tau + b) = M.time T ph s tau := by
  unfold Mesh.time
  rw [h.halfWidth_eq, h.tau0]
  have := h.ne
  field_simp
  ring

theorem time_node (h : M.Moved M' c b) (hM : M.Good) (T : Traj K) (ph : Nat) {s i : Nat} (ho : M.Owns s i) :
    M'.time T ph s (M'.node s i) = M.time T ph s (M.node s i) := by
  rw [h.node_eq hM ho.1 ho.2.1, h.time_eq]

theorem mid_eq (h : M.Moved M' c b) (hM : M.Good) {s i : Nat} (hs : s < M.orders.length) (hi : i < M.order s) :
    (M'.node s i + M'.node s (i + 1)) / 2 = c * ((M.node s i + M.node s (i + 1)) / 2) + b := by
  rw [h.node_eq hM hs hi.le, h.node_eq hM hs hi]; ring

/-- Defects are divided by `c`. -/
theorem defect_eq (h : M.Moved M' c b) (hM : M.Good) (F : VFun (PArg K) K) (ph : Nat) {s : Nat} (hs : s < M.orders.length)
    (tau : K) (j : Nat) : ocp.defect M' T F ph s (c * tau + b) j = c⁻¹ * ocp.defect M T F ph s tau j := by
  have e : ocp.pArgAt M' T ph s (c * tau + b) = ocp.pArgAt M T ph s tau := by
    unfold OCP.pArgAt
    simp only [h.piece_eval hM hs, h.time_eq]
  unfold OCP.defect
  rw [e, h.slope_eval hM hs, h.halfWidth_eq]; ring

end Mesh.Moved

theorem nodes_iff (h : M.Moved M' c b) {P Q : Nat → Nat → Prop} (hPQ : ∀ s i, M.Owns s i → (P s i ↔ Q s i)) :
    (∀ s i, M'.Owns s i → P s i) ↔ ∀ s i, M.Owns s i → Q s i :=
  forall₂_congr fun s i => by
    rw [h.owns_iff]
    exact ⟨fun k ho => (hPQ s i ho).1 (k ho), fun k ho => (hPQ s i ho).2 (k ho)⟩

theorem mids_iff (h : M.Moved M' c b) {P Q : Nat → Nat → Prop} (hPQ : ∀ s i, s < M.orders.length → i < M.order s → (P s i ↔ Q s i)) :
    (∀ s < M'.orders.length, ∀ i < M'.order s, P s i) ↔ ∀ s < M.orders.length, ∀ i < M.order s, Q s i := by
  rw [h.orders]
  refine forall₂_congr fun s hs => ?_
  rw [h.order_eq]
  exact forall₂_congr fun i hi => hPQ s i hs hi

theorem bounds_moved (h : M.Moved M' c b) (k : K) {ph : Nat} : BoundsOK (ocp.slopesTimes k) M' T ph ↔ BoundsOK ocp M T ph :=
  ⟨fun g => ⟨g.x0, fun i hi => g.x i (by rw [h.N_eq]; exact hi), fun i hi => g.u i (by rw [h.N_eq]; exact hi), g.t0, g.tf, g.a⟩,
    fun g => ⟨g.x0, fun i hi => g.x i (by rw [← h.N_eq]; exact hi), fun i hi => g.u i (by rw [← h.N_eq]; exact hi), g.t0, g.tf, g.a⟩⟩

theorem links_moved (h : M.Moved M' c b) (k : K) : LinksOK (ocp.slopesTimes k) M' T ↔ LinksOK ocp M T := by
  constructor
  · intro g
    refine ⟨fun l p q hl j hj => ?_, fun l p q hl j hj => ?_, g.t⟩
    · have := g.x l p q hl j hj; rwa [h.N_eq] at this
    · have := g.u l p q hl j hj; rwa [h.N_eq] at this
  · intro g
    refine ⟨fun l p q hl j hj => ?_, fun l p q hl j hj => ?_, g.t⟩
    · rw [h.N_eq]; exact g.x l p q hl j hj
    · rw [h.N_eq]; exact g.u l p q hl j hj

theorem dynamics_moved (h : M.Moved M' c b) (hM : M.Good) (k : K) {ph : Nat} :
    CollocationOK (ocp.slopesTimes k) M' T ph ↔ CollocationOK ocp M T ph := by
  refine forall₂_congr fun F _ => forall₂_congr fun j _ => nodes_iff h fun s i ho => ?_
  rw [h.time_node hM T ph ho, h.idx_eq, h.node_eq hM ho.1 ho.2.1, h.slope_eval hM ho.1, h.halfWidth_eq, mul_assoc]
  exact ⟨fun e => mul_left_cancel₀ (inv_ne_zero h.ne) e, fun e => congrArg _ e⟩

theorem path_moved (h : M.Moved M' c b) (hM : M.Good) (k : K) {ph : Nat} :
    PathOK (ocp.slopesTimes k) M' T ph ↔ PathOK ocp M T ph := by
  refine forall₂_congr fun F _ => nodes_iff h fun s i ho => ?_
  rw [h.time_node hM T ph ho, h.idx_eq]; rfl

theorem terminal_moved (h : M.Moved M' c b) (k : K) {ph : Nat} :
    TerminalOK (ocp.slopesTimes k) M' T ph ↔ TerminalOK ocp M T ph := by
  refine forall₂_congr fun F _ => ?_
  rw [h.N_eq]; rfl

theorem midControl_moved (h : M.Moved M' c b) (hM : M.Good) (k : K) {ph : Nat} :
    MidControlOK (ocp.slopesTimes k) M' T ph ↔ MidControlOK ocp M T ph := by
  refine forall₂_congr fun j _ => mids_iff h fun s i hs hi => ?_
  rw [h.mid_eq hM hs hi, h.piece_eval hM hs]; rfl

theorem midState_moved (h : M.Moved M' c b) (hM : M.Good) (k : K) {ph : Nat} :
    MidStateOK (ocp.slopesTimes k) M' T ph ↔ MidStateOK ocp M T ph := by
  refine forall₂_congr fun j _ => mids_iff h fun s i hs hi => ?_
  rw [h.mid_eq hM hs hi, h.piece_eval hM hs]; rfl

theorem midResidual_moved (h : M.Moved M' c b) (hM : M.Good) (k tol : K) {ph : Nat} :
    MidResidualOK (ocp.slopesTimes k) M' T (c⁻¹ * tol) ph ↔ MidResidualOK ocp M T tol ph := by
  refine forall₂_congr fun F _ => forall₂_congr fun j _ => mids_iff h fun s i hs hi => ?_
  rw [h.mid_eq hM hs hi]
  have e : (ocp.slopesTimes k).defect M' T F ph s (c * ((M.node s i + M.node s (i + 1)) / 2) + b) j =
      c⁻¹ * ocp.defect M T F ph s ((M.node s i + M.node s (i + 1)) / 2) j := h.defect_eq hM F ph hs _ j
  rw [e]
  have := Within_affine (lo := .fin (-tol)) (hi := .fin tol) (b := 0) (v := T.w s ph * (ocp.scaleX.getD j 0 *
    ocp.defect M T F ph s ((M.node s i + M.node s (i + 1)) / 2) j)) (inv_pos.2 h.pos)
  rw [← this]
  simp only [Ext.affine, add_zero, mul_neg]
  have hsc : (ocp.slopesTimes k).scaleX = ocp.scaleX := rfl
  rw [hsc, show T.w s ph * (ocp.scaleX.getD j 0 * (c⁻¹ * ocp.defect M T F ph s ((M.node s i + M.node s (i + 1)) / 2) j)) =
    c⁻¹ * (T.w s ph * (ocp.scaleX.getD j 0 * ocp.defect M T F ph s ((M.node s i + M.node s (i + 1)) / 2) j)) by ring]

theorem slopeContinuous_moved (h : M.Moved M' c b) (hM : M.Good) (k : K) {ph : Nat} :
    SlopeContinuous (ocp.slopesTimes k) M' T ph ↔ SlopeContinuous ocp M T ph := by
  refine forall₂_congr fun j _ => ?_
  rw [h.orders]
  refine forall₂_congr fun s hs => ?_
  rw [h.tau0, h.tau1, h.slope_eval hM (by omega), h.slope_eval hM hs]
  exact ⟨fun e => mul_left_cancel₀ (inv_ne_zero h.ne) e, fun e => congrArg _ e⟩

theorem getD_affine (l : List (Ext K)) (a d : K) (i : Nat) :
    (l.map (Ext.affine a d)).getD i .nan = (l.getD i .nan).affine a d := by
  simp only [List.getD_eq_getElem?_getD, List.getElem?_map]
  cases l[i]? <;> rfl

theorem slopeBounded_moved (h : M.Moved M' c b) (hM : M.Good) (sc : Nat → K) {ph : Nat} :
    SlopeBounded (ocp.slopesTimes c⁻¹) M' T sc ph ↔ SlopeBounded ocp M T sc ph := by
  refine forall₂_congr fun j _ => nodes_iff h fun s i ho => ?_
  rw [h.node_eq hM ho.1 ho.2.1, h.slope_eval hM ho.1]
  have := Within_affine (lo := ocp.lbdu.getD ph .nan) (hi := ocp.ubdu.getD ph .nan) (b := 0)
    (v := sc j * (derivative (M.piece (fun k => T.u ph k j) s)).eval (M.node s i)) (inv_pos.2 h.pos)
  rw [← this, ← getD_affine, ← getD_affine, add_zero, mul_left_comm]
  rfl

/-- **C104** On another interval the collocated problem has the same solutions if the limits on control slopes are converted: the
code takes slopes with respect to `tau`. -/
theorem C104_solves (h : M.Moved M' c b) (hM : M.Good) (T : Traj K) :
    SolvesOCP (ocp.slopesTimes c⁻¹) M' T ↔ SolvesOCP ocp M T := by
  refine and_congr ⟨fun g => ?_, fun g => ?_⟩ (forall₃_congr fun ph _ _ => slopeBounded_moved h hM _)
  · exact ⟨fun p hp => (bounds_moved h _).1 (g.bounds p hp), fun p hp => (dynamics_moved h hM _).1 (g.dynamics p hp),
      fun p hp => (path_moved h hM _).1 (g.path p hp), fun p hp => (terminal_moved h _).1 (g.terminal p hp),
      fun p hp e => (midControl_moved h hM _).1 (g.mid p hp e), fun p hp e => (slopeContinuous_moved h hM _).1 (g.cont p hp e),
      fun e => (links_moved h _).1 (g.links e)⟩
  · exact ⟨fun p hp => (bounds_moved h _).2 (g.bounds p hp), fun p hp => (dynamics_moved h hM _).2 (g.dynamics p hp),
      fun p hp => (path_moved h hM _).2 (g.path p hp), fun p hp => (terminal_moved h _).2 (g.terminal p hp),
      fun p hp e => (midControl_moved h hM _).2 (g.mid p hp e), fun p hp e => (slopeContinuous_moved h hM _).2 (g.cont p hp e),
      fun e => (links_moved h _).2 (g.links e)⟩

/-- **C104** Without limits on control slopes nothing has to be converted. -/
theorem C104_solves_free (h : M.Moved M' c b) (hM : M.Good) (hf : ocp.FreeSlopes) (T : Traj K) :
    SolvesOCP ocp M' T ↔ SolvesOCP ocp M T := by
  have e : SolvesOCP (ocp.slopesTimes c⁻¹) M' T ↔ SolvesOCP ocp M' T := by
    refine and_congr ⟨fun g => ⟨fun p hp => ?_, g.dynamics, g.path, g.terminal, g.mid, g.cont, fun k => ?_⟩,
      fun g => ⟨fun p hp => ?_, g.dynamics, g.path, g.terminal, g.mid, g.cont, fun k => ?_⟩⟩
      ⟨fun _ ph hp hd => (Bool.false_ne_true ((hf ph hp).symm.trans hd)).elim,
        fun _ ph hp hd => (Bool.false_ne_true ((hf ph hp).symm.trans hd)).elim⟩
    · have g := g.bounds p hp; exact ⟨g.x0, g.x, g.u, g.t0, g.tf, g.a⟩
    · have g := g.links k; exact ⟨g.x, g.u, g.t⟩
    · have g := g.bounds p hp; exact ⟨g.x0, g.x, g.u, g.t0, g.tf, g.a⟩
    · have g := g.links k; exact ⟨g.x, g.u, g.t⟩
  rw [← e]; exact C104_solves h hM T

/-- **C104** For `mpopt_adaptive` the tolerances of the mid-point residuals have to be converted too. -/
theorem C104_adaptive (h : M.Moved M' c b) (hM : M.Good) (T : Traj K) {lbh ubh tol : List K} {mid : Bool} :
    SolvesAdaptive (ocp.slopesTimes c⁻¹) M' T lbh ubh (tol.map (c⁻¹ * ·)) mid ↔ SolvesAdaptive ocp M T lbh ubh tol mid := by
  have ht : ∀ ph, (tol.map (c⁻¹ * ·)).getD ph 0 = c⁻¹ * tol.getD ph 0 := by
    intro ph
    simp only [List.getD_eq_getElem?_getD, List.getElem?_map]
    cases tol[ph]? <;> simp
  have hw : ∀ lo hi ph, WidthsOK M' T lo hi ph ↔ WidthsOK M T lo hi ph := by
    intro lo hi ph
    exact ⟨fun g => ⟨by rw [← h.orders]; exact g.sum, by rw [← h.orders]; exact g.lower, by rw [← h.orders]; exact g.upper⟩,
      fun g => ⟨by rw [h.orders]; exact g.sum, by rw [h.orders]; exact g.lower, by rw [h.orders]; exact g.upper⟩⟩
  refine and_congr ⟨fun g => ?_, fun g => ?_⟩ (forall₃_congr fun ph _ _ => slopeBounded_moved h hM _)
  · exact ⟨fun p hp => (bounds_moved h _).1 (g.bounds p hp), fun p hp => (dynamics_moved h hM _).1 (g.dynamics p hp),
      fun p hp => (path_moved h hM _).1 (g.path p hp), fun p hp => (terminal_moved h _).1 (g.terminal p hp),
      fun p hp => (hw _ _ _).1 (g.widths p hp),
      fun p hp => (midControl_moved h hM _).1 (g.midControl p hp), fun p hp => (midState_moved h hM _).1 (g.midState p hp),
      fun e p hp => (midResidual_moved h hM c⁻¹ _).1 (ht p ▸ g.midResidual e p hp), fun e => (links_moved h _).1 (g.links e)⟩
  · exact ⟨fun p hp => (bounds_moved h _).2 (g.bounds p hp), fun p hp => (dynamics_moved h hM _).2 (g.dynamics p hp),
      fun p hp => (path_moved h hM _).2 (g.path p hp), fun p hp => (terminal_moved h _).2 (g.terminal p hp),
      fun p hp => (hw _ _ _).2 (g.widths p hp),
      fun p hp => (midControl_moved h hM _).2 (g.midControl p hp), fun p hp => (midState_moved h hM _).2 (g.midState p hp),
      fun e p hp => by simp only [ht p]; exact (midResidual_moved h hM c⁻¹ _).2 (g.midResidual e p hp),
      fun e => (links_moved h _).2 (g.links e)⟩

/-- **C104** Costs are the same with weights multiplied by `c`. -/
theorem C104_cost (h : M.Moved M' c b) (hM : M.Good) {W : List K} {J : K} (k : K) (hJ : PhysCost ocp M W T J) :
    PhysCost (ocp.slopesTimes k) M' (W.map (c * ·)) T J := by
  obtain ⟨v, hv, rfl⟩ := hJ
  refine ⟨fun ph i => c⁻¹ * v ph i, fun ph hp rc hrc => ?_, ?_⟩
  · refine (nodes_iff h (Q := fun s i => c⁻¹ * v ph (M.idx s i) = c⁻¹ * (M.halfWidth T ph s *
      rc (ocp.pArg T ph (M.idx s i) (M.time T ph s (M.node s i))))) fun s i ho => ?_).2 fun s i ho => by rw [hv ph hp rc hrc s i ho]
    rw [h.time_node hM T ph ho, h.idx_eq, h.halfWidth_eq, mul_assoc]; rfl
  · refine Finset.sum_congr rfl fun ph _ => ?_
    congr 1
    · unfold TerminalCost; rw [h.N_eq]; rfl
    · unfold weightedSum
      rw [List.length_map]
      refine Finset.sum_congr rfl fun j hj => ?_
      have hj : j < W.length := Finset.mem_range.1 hj
      rw [List.getD_eq_getElem _ _ hj, List.getD_eq_getElem _ _ (by simpa using hj), List.getElem_map]
      have := h.ne
      field_simp

end
end MPOpt
