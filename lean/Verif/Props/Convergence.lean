import Verif.Spec.Convergence
import Verif.Props.ResponseEnd

/-! # C77: on fine meshes a collocated solution is close to the exact response to its controls -/

set_option autoImplicit false

namespace MPOpt
open Polynomial

variable {ocp : OCP ℝ} {M : Mesh ℝ} {T : Traj ℝ} {F : VFun (PArg ℝ) ℝ} {ph : Nat} {X : Nat → ℝ → ℝ}
  {S U : List ℝ → Prop} {L C : ℝ}

/-- The defect per unit of time bounded by `E` on the whole phase: error `(δ + E (t - t0)) exp (L (t - t0))`. -/
theorem rate_error (hM : M.Good) (hI : M.Inside) (ht : T.t0 ph < T.tf ph) (hw : FullWidths M T ph)
    (hpos : ∀ j < ocp.nx, 0 < ocp.scaleX.getD j 0)
    (hX : Response ocp M T F ph X) (hL : 0 ≤ L) (hlip : LipschitzDynamics ocp M T F ph S L)
    (hS : StayIn ocp M T ph X S) {E : ℝ} (hE0 : 0 ≤ E)
    (hD : ∀ s < M.orders.length, ∀ tau ∈ Set.Ico M.tau0 M.tau1, ∀ j < ocp.nx,
      |ocp.scaleX.getD j 0 * ocp.defect M T F ph s tau j| ≤ M.halfWidth T ph s * E) {δ : ℝ} (hδ0 : 0 ≤ δ)
    (hδ : ocp.CloseBy (fun k => T.x ph 0 k) (fun k => X k (T.t0 ph)) δ) {s : Nat} (hs : s < M.orders.length)
    {tau : ℝ} (htau : tau ∈ Set.Icc M.tau0 M.tau1) :
    ocp.CloseBy (M.stateAt T ph s tau) (fun k => X k (M.time T ph s tau))
      ((δ + E * (M.time T ph s tau - T.t0 ph)) * Real.exp (L * (M.time T ph s tau - T.t0 ph))) := by
  have hlt := hI.tau_lt hM
  have hends := C13_segment_ends hM T ph
  have step : ∀ s < M.orders.length,
      ocp.CloseBy (M.stateAt T ph s M.tau0) (fun k => X k (M.time T ph s M.tau0))
        ((δ + E * (M.time T ph s M.tau0 - T.t0 ph)) * Real.exp (L * (M.time T ph s M.tau0 - T.t0 ph))) →
      ∀ tau ∈ Set.Icc M.tau0 M.tau1, ocp.CloseBy (M.stateAt T ph s tau) (fun k => X k (M.time T ph s tau))
        ((δ + E * (M.time T ph s tau - T.t0 ph)) * Real.exp (L * (M.time T ph s tau - T.t0 ph))) := by
    intro s hs h0 tau htau k hk
    obtain ⟨b1, b2, b3⟩ := time_bounds hM hI ht hw hs
    have hp0 : 0 ≤ M.time T ph s M.tau0 - T.t0 ph := sub_nonneg.2 (b2 _ le_rfl)
    have hA : 0 ≤ δ + E * (M.time T ph s M.tau0 - T.t0 ph) := add_nonneg hδ0 (mul_nonneg hE0 hp0)
    have h1 := segment_error hs b1 b2 b3 hpos hX hL hlip (hS.solution s hs) (hS.response s hs)
      (mul_nonneg b1.le hE0) (hD s hs) (mul_nonneg hA (Real.exp_pos _).le) h0 htau k hk
    refine h1.trans ?_
    have hE : 1 ≤ Real.exp (L * (M.time T ph s M.tau0 - T.t0 ph)) := Real.one_le_exp (mul_nonneg hL hp0)
    have e : Real.exp (L * (M.time T ph s tau - T.t0 ph)) =
        Real.exp (L * (M.time T ph s M.tau0 - T.t0 ph)) * Real.exp (L * (M.time T ph s tau - M.time T ph s M.tau0)) := by
      rw [← Real.exp_add]; congr 1; ring
    rw [e, ← mul_assoc]
    refine mul_le_mul_of_nonneg_right ?_ (Real.exp_pos _).le
    have h2 : M.halfWidth T ph s * E * (tau - M.tau0) = E * (M.time T ph s tau - M.time T ph s M.tau0) := by
      simp only [Mesh.time]; ring
    have h4 : 0 ≤ M.halfWidth T ph s * E * (tau - M.tau0) :=
      mul_nonneg (mul_nonneg b1.le hE0) (sub_nonneg.2 htau.1)
    have h3 := le_mul_of_one_le_right h4 hE
    calc _ ≤ (δ + E * (M.time T ph s M.tau0 - T.t0 ph)) * Real.exp (L * (M.time T ph s M.tau0 - T.t0 ph)) +
          M.halfWidth T ph s * E * (tau - M.tau0) * Real.exp (L * (M.time T ph s M.tau0 - T.t0 ph)) := by linarith
      _ = _ := by rw [h2]; ring
  have starts : ∀ s < M.orders.length,
      ocp.CloseBy (M.stateAt T ph s M.tau0) (fun k => X k (M.time T ph s M.tau0))
        ((δ + E * (M.time T ph s M.tau0 - T.t0 ph)) * Real.exp (L * (M.time T ph s M.tau0 - T.t0 ph))) := by
    intro s
    induction s with
    | zero =>
      intro hs k hk
      have h1 : M.stateAt T ph 0 M.tau0 k = T.x ph 0 k := by
        unfold Mesh.stateAt
        have := hM.piece_eval_node (fun i => T.x ph i k) hs (Nat.zero_le _)
        rw [hM.node_first hs] at this
        rw [this]; rfl
      have := hδ k hk
      rw [h1, hends.1]
      simpa using this
    | succ s ih =>
      intro hs k hk
      have hs' : s < M.orders.length := by omega
      have h1 : M.stateAt T ph (s + 1) M.tau0 k = M.stateAt T ph s M.tau1 k := by
        unfold Mesh.stateAt
        have e1 := hM.piece_eval_node (fun i => T.x ph i k) hs (Nat.zero_le _)
        have e2 := hM.piece_eval_node (fun i => T.x ph i k) hs' le_rfl
        rw [hM.node_first hs] at e1
        rw [hM.node_last hs'] at e2
        rw [e1, e2]
        unfold Mesh.idx
        rw [segStart_succ _ hs', Mesh.order_eq hs', Nat.add_zero]
      have := step s hs' (ih hs') M.tau1 ⟨hlt.le, le_rfl⟩ k hk
      rw [h1, hends.2.2.1]
      exact this
  exact step s hs (starts s hs) tau htau

theorem Mesh.Good.node_injOn_tail (hM : M.Good) {s : Nat} (hs : s < M.orders.length) :
    Set.InjOn (M.node s) (Finset.Icc 1 (M.order s) : Finset Nat) :=
  (hM.node_injOn hs).mono fun i hi => by
    have := Finset.mem_Icc.1 hi
    simpa using (show i < M.order s + 1 by omega)

/-- The derivative of a piece is the interpolation of its values at all nodes of the segment but the first. -/
theorem Mesh.Good.derivative_eval (hM : M.Good) {s : Nat} (hs : s < M.orders.length) (v : Nat → ℝ) (tau : ℝ) :
    (derivative (M.piece v s)).eval tau = ∑ i ∈ Finset.Icc 1 (M.order s),
      (derivative (M.piece v s)).eval (M.node s i) * (Lagrange.basis (Finset.Icc 1 (M.order s)) (M.node s) i).eval tau := by
  have hp := hM.order_pos hs
  have hdeg : (derivative (M.piece v s)).degree < ((Finset.Icc 1 (M.order s)).card : WithBot ℕ) := by
    have h1 := Lagrange.degree_interpolate_lt (s := Finset.range (M.order s + 1)) (v := M.node s)
      (fun i => v (M.idx s i)) (hM.node_injOn hs)
    rw [Finset.card_range] at h1
    rw [degree_lt_iff_coeff_zero] at h1
    rw [Nat.card_Icc, Nat.add_sub_cancel, degree_lt_iff_coeff_zero]
    intro m hm
    rw [coeff_derivative]
    exact mul_eq_zero_of_left (h1 (m + 1) (by omega)) _
  have := Lagrange.eq_interpolate (hM.node_injOn_tail hs) hdeg
  conv_lhs => rw [this, Lagrange.interpolate_apply]
  rw [eval_finsetSum]
  simp

theorem CollocationOK.rate (hC : CollocationOK ocp M T ph) : CollocationRate 0 ocp M T ph := by
  intro F hF j hj s i ho
  rw [hC F hF j hj s i ho, sub_self, mul_zero, mul_zero, abs_zero]

/-- **C82** If the collocation equations hold up to `κ` per unit of time: the scaled defect at any instant of a segment is at most
`dt/dtau` times the Lebesgue constant times the sum of `κ` and the variation of the scaled dynamics between that instant and the
nodes. -/
theorem C82_defect {κ : ℝ} (hM : M.Good) (hC : CollocationRate κ ocp M T ph) (hF : ocp.dynamics[ph]? = some F)
    (hLeb : M.Lebesgue C) {s : Nat} (hs : s < M.orders.length) (hh : 0 ≤ M.halfWidth T ph s) {tau : ℝ}
    (htau : tau ∈ Set.Icc M.tau0 M.tau1) {j : Nat} (hj : j < ocp.nx) {e : ℝ} (he : 0 ≤ e) (hκ : 0 ≤ κ)
    (hv : ∀ i, 1 ≤ i → i ≤ M.order s → |ocp.scaleX.getD j 0 * (F.f (ocp.pArgAt M T ph s (M.node s i)) j -
      F.f (ocp.pArgAt M T ph s tau) j)| ≤ e) :
    |ocp.scaleX.getD j 0 * ocp.defect M T F ph s tau j| ≤ M.halfWidth T ph s * (C * (e + κ)) := by
  set h := M.halfWidth T ph s with hh'
  set b : Nat → ℝ := fun i => (Lagrange.basis (Finset.Icc 1 (M.order s)) (M.node s) i).eval tau with hb
  set r : Nat → ℝ := fun i => (derivative (M.piece (fun k => T.x ph k j) s)).eval (M.node s i) -
    h * F.f (ocp.pArgAt M T ph s (M.node s i)) j with hr
  have hp := hM.order_pos hs
  have hsum : ∑ i ∈ Finset.Icc 1 (M.order s), b i = 1 := by
    have := Lagrange.sum_basis (hM.node_injOn_tail hs) (Finset.nonempty_Icc.2 hp)
    have := congrArg (Polynomial.eval tau) this
    rwa [eval_finsetSum, eval_one] at this
  have hcol : ∀ i ∈ Finset.Icc 1 (M.order s), |ocp.scaleX.getD j 0 * r i| ≤ h * κ := by
    intro i hi
    obtain ⟨h1, h2⟩ := Finset.mem_Icc.1 hi
    have := hC F hF j hj s i ⟨hs, h2, Or.inr h1⟩
    rwa [← pArgAt_node hM ocp T ph hs h2] at this
  have e1 : ocp.defect M T F ph s tau j = ∑ i ∈ Finset.Icc 1 (M.order s),
      (h * (F.f (ocp.pArgAt M T ph s (M.node s i)) j - F.f (ocp.pArgAt M T ph s tau) j) + r i) * b i := by
    unfold OCP.defect
    rw [hM.derivative_eval hs]
    have e2 : h * F.f (ocp.pArgAt M T ph s tau) j =
        ∑ i ∈ Finset.Icc 1 (M.order s), h * F.f (ocp.pArgAt M T ph s tau) j * b i := by
      rw [← Finset.mul_sum, hsum, mul_one]
    rw [← hh', e2, ← Finset.sum_sub_distrib]
    refine Finset.sum_congr rfl fun i _ => ?_
    simp only [hr, hb]
    ring
  rw [e1, Finset.mul_sum]
  refine (Finset.abs_sum_le_sum_abs _ _).trans ?_
  calc _ ≤ ∑ i ∈ Finset.Icc 1 (M.order s), h * (e + κ) * |b i| := by
        refine Finset.sum_le_sum fun i hi => ?_
        obtain ⟨h1, h2⟩ := Finset.mem_Icc.1 hi
        rw [← mul_assoc, abs_mul]
        refine mul_le_mul_of_nonneg_right ?_ (abs_nonneg _)
        rw [mul_add, mul_left_comm, mul_add]
        refine (abs_add_le _ _).trans (add_le_add ?_ (hcol i hi))
        rw [abs_mul, abs_of_nonneg hh]
        exact mul_le_mul_of_nonneg_left (hv i h1 h2) hh
    _ = h * (e + κ) * ∑ i ∈ Finset.Icc 1 (M.order s), |b i| := by rw [Finset.mul_sum]
    _ ≤ h * (e + κ) * C := mul_le_mul_of_nonneg_left (hLeb s hs tau htau) (mul_nonneg hh (add_nonneg he hκ))
    _ = h * (C * (e + κ)) := by ring

/-- **C77** The scaled defect of a collocated trajectory, at any instant of a segment, is at most `dt/dtau` times the Lebesgue
constant times the variation of the scaled dynamics between that instant and the nodes. -/
theorem C77_defect (hM : M.Good) (hC : CollocationOK ocp M T ph) (hF : ocp.dynamics[ph]? = some F) (hLeb : M.Lebesgue C)
    {s : Nat} (hs : s < M.orders.length) (hh : 0 ≤ M.halfWidth T ph s) {tau : ℝ} (htau : tau ∈ Set.Icc M.tau0 M.tau1)
    {j : Nat} (hj : j < ocp.nx) {e : ℝ} (he : 0 ≤ e)
    (hv : ∀ i, 1 ≤ i → i ≤ M.order s → |ocp.scaleX.getD j 0 * (F.f (ocp.pArgAt M T ph s (M.node s i)) j -
      F.f (ocp.pArgAt M T ph s tau) j)| ≤ e) :
    |ocp.scaleX.getD j 0 * ocp.defect M T F ph s tau j| ≤ M.halfWidth T ph s * (C * e) := by
  have := C82_defect hM hC.rate hF hLeb hs hh htau hj he le_rfl hv
  rwa [add_zero] at this

/-- Within a segment the scaled states vary by at most `C * (B + κ) * H`. -/
theorem state_varies {κ : ℝ} (hM : M.Good) (hI : M.Inside) (hC : CollocationRate κ ocp M T ph) (hF : ocp.dynamics[ph]? = some F)
    (hLeb : M.Lebesgue C) {H B : ℝ} (hB : RatesBounded ocp M T F ph B) (hB0 : 0 ≤ B) (hκ : 0 ≤ κ) (hH : M.Lasts T ph H)
    (hC0 : 0 ≤ C) {s : Nat} (hs : s < M.orders.length) (hh : 0 ≤ M.halfWidth T ph s) {tau tau' : ℝ}
    (htau : tau ∈ Set.Icc M.tau0 M.tau1) (htau' : tau' ∈ Set.Icc M.tau0 M.tau1) {j : Nat} (hj : j < ocp.nx) :
    |ocp.scaleX.getD j 0 * (M.stateAt T ph s tau j - M.stateAt T ph s tau' j)| ≤ C * (B + κ) * H := by
  have hB1 : 0 ≤ B + κ := add_nonneg hB0 hκ
  set h := M.halfWidth T ph s with hh'
  set P := M.piece (fun k => T.x ph k j) s with hP
  have hlt := hI.tau_lt hM
  have hder : ∀ t ∈ Set.Icc M.tau0 M.tau1, ‖ocp.scaleX.getD j 0 * (derivative P).eval t‖ ≤ h * (C * (B + κ)) := by
    intro t ht
    rw [hM.derivative_eval hs, Real.norm_eq_abs, Finset.mul_sum]
    refine (Finset.abs_sum_le_sum_abs _ _).trans ?_
    calc _ ≤ ∑ i ∈ Finset.Icc 1 (M.order s), h * (B + κ) *
          |(Lagrange.basis (Finset.Icc 1 (M.order s)) (M.node s) i).eval t| := by
          refine Finset.sum_le_sum fun i hi => ?_
          obtain ⟨h1, h2⟩ := Finset.mem_Icc.1 hi
          rw [← mul_assoc, abs_mul]
          refine mul_le_mul_of_nonneg_right ?_ (abs_nonneg _)
          have c1 := hC F hF j hj s i ⟨hs, h2, Or.inr h1⟩
          have c2 := mul_le_mul_of_nonneg_left (hB s i ⟨hs, h2, Or.inr h1⟩ j hj) hh
          rw [← abs_of_nonneg hh, ← abs_mul, abs_of_nonneg hh, mul_left_comm] at c2
          rw [mul_sub] at c1
          rw [abs_le] at c1 c2 ⊢
          constructor <;> linarith [c1.1, c1.2, c2.1, c2.2]
      _ = h * (B + κ) * ∑ i ∈ Finset.Icc 1 (M.order s),
          |(Lagrange.basis (Finset.Icc 1 (M.order s)) (M.node s) i).eval t| := by rw [Finset.mul_sum]
      _ ≤ h * (B + κ) * C := mul_le_mul_of_nonneg_left (hLeb s hs t ht) (mul_nonneg hh hB1)
      _ = h * (C * (B + κ)) := by ring
  have hmv := (convex_Icc M.tau0 M.tau1).norm_image_sub_le_of_norm_hasDerivWithin_le
    (f := fun t => ocp.scaleX.getD j 0 * P.eval t) (f' := fun t => ocp.scaleX.getD j 0 * (derivative P).eval t)
    (fun t _ => ((P.hasDerivAt t).const_mul _).hasDerivWithinAt) hder htau' htau
  rw [Real.norm_eq_abs, Real.norm_eq_abs, ← mul_sub] at hmv
  refine hmv.trans ?_
  have hd : |tau - tau'| ≤ M.tau1 - M.tau0 := by
    rw [abs_le]; constructor <;> linarith [htau.1, htau.2, htau'.1, htau'.2]
  have hdur : h * (M.tau1 - M.tau0) = (T.tf ph - T.t0 ph) * T.w s ph := by
    rw [hh', Mesh.halfWidth]
    have := (sub_pos.2 hlt).ne'
    field_simp
  calc h * (C * (B + κ)) * |tau - tau'| ≤ h * (C * (B + κ)) * (M.tau1 - M.tau0) :=
        mul_le_mul_of_nonneg_left hd (mul_nonneg hh (mul_nonneg hC0 hB1))
    _ = C * (B + κ) * (h * (M.tau1 - M.tau0)) := by ring
    _ ≤ C * (B + κ) * H := by rw [hdur]; exact mul_le_mul_of_nonneg_left (hH s hs) (mul_nonneg hC0 hB1)

section
variable {B H e Lx Lu Lt κ : ℝ}

theorem Mesh.Lebesgue.one_le (hM : M.Good) (hI : M.Inside) (hLeb : M.Lebesgue C) : 1 ≤ C := by
  have h0 : 0 < M.orders.length := List.length_pos_iff.2 hM.nonempty
  refine le_trans ?_ (hLeb 0 h0 M.tau0 ⟨le_rfl, (hI.tau_lt hM).le⟩)
  have := Lagrange.sum_basis (hM.node_injOn_tail h0) (Finset.nonempty_Icc.2 (hM.order_pos h0))
  have := congrArg (Polynomial.eval M.tau0) this
  rw [eval_finsetSum, eval_one] at this
  rw [← this]
  exact Finset.sum_le_sum fun i _ => le_abs_self _

/-- **C82** Beforehand: the scaled defect of a trajectory that is collocated up to `κ` per unit of time, on a tame
phase. -/
theorem C82_small_defect (hM : M.Good) (hI : M.Inside) (ht : T.t0 ph < T.tf ph) (hw : FullWidths M T ph)
    (hκ : 0 ≤ κ) (hC : CollocationRate κ ocp M T ph) (hF : ocp.dynamics[ph]? = some F) (h : Tame ocp M T F ph S U C B Lx Lu Lt H e)
    {s : Nat} (hs : s < M.orders.length) {tau : ℝ} (htau : tau ∈ Set.Icc M.tau0 M.tau1) {j : Nat} (hj : j < ocp.nx) :
    |ocp.scaleX.getD j 0 * ocp.defect M T F ph s tau j| ≤
      M.halfWidth T ph s * (C * (Lx * (C * (B + κ) * H) + Lu * e + Lt * H + κ)) := by
  obtain ⟨b1, b2, b3⟩ := time_bounds hM hI ht hw hs
  have hlt := hI.tau_lt hM
  have hC0 : 0 ≤ C := zero_le_one.trans (h.lebesgue.one_le hM hI)
  have hdur : 0 < (T.tf ph - T.t0 ph) * T.w s ph := mul_pos (sub_pos.2 ht) (hw.pos s hs)
  have hH0 : 0 ≤ H := hdur.le.trans (h.lasts s hs)
  refine C82_defect hM hC hF h.lebesgue hs b1.le htau hj (by
    have := mul_nonneg (mul_nonneg hC0 (add_nonneg h.B hκ)) hH0
    have := mul_nonneg h.Lx this
    have := mul_nonneg h.Lu h.e
    have := mul_nonneg h.Lt hH0
    linarith) hκ fun i h1 h2 => ?_
  have hnode : M.node s i ∈ Set.Icc M.tau0 M.tau1 := by
    have hp := hM.order_mem hs
    have hl := hM.length _ hp
    refine hI _ hp _ ?_
    unfold Mesh.node
    rw [List.getD_eq_getElem _ _ (by omega)]
    exact List.getElem_mem _
  have hgx : ∀ t, ∀ k < ocp.nx, (ocp.pArgAt M T ph s t).x.getD k 0 = M.stateAt T ph s t k := by
    intro t k hk
    simp [OCP.pArgAt, Mesh.stateAt, List.getD_eq_getElem?_getD, hk]
  have hgu : ∀ t, ∀ k < ocp.nu, (ocp.pArgAt M T ph s t).u.getD k 0 = M.controlAt T ph s t k := by
    intro t k hk
    simp [OCP.pArgAt, Mesh.controlAt, List.getD_eq_getElem?_getD, hk]
  have hlip := h.lipschitz (ocp.pArgAt M T ph s (M.node s i)) (ocp.pArgAt M T ph s tau) (h.states s hs _ hnode)
    (h.states s hs _ htau) (h.controls s hs _ hnode) (h.controls s hs _ htau)
    ⟨b2 _ hnode.1, b3 _ hnode.2⟩ ⟨b2 _ htau.1, b3 _ htau.2⟩ rfl rfl (C * (B + κ) * H) e
    (fun k hk => by
      rw [hgx _ k hk, hgx _ k hk]
      exact state_varies hM hI hC hF h.lebesgue h.rates h.B hκ h.lasts hC0 hs b1.le hnode htau hk)
    (fun k hk => by
      rw [hgu _ k hk, hgu _ k hk]
      exact h.varies s hs _ hnode _ htau k hk) j hj
  refine hlip.trans (by
    have hd : |M.time T ph s (M.node s i) - M.time T ph s tau| ≤ H := by
      have e1 : M.time T ph s (M.node s i) - M.time T ph s tau = M.halfWidth T ph s * (M.node s i - tau) := by
        simp only [Mesh.time]; ring
      have hd : |M.node s i - tau| ≤ M.tau1 - M.tau0 := by
        rw [abs_le]; constructor <;> linarith [htau.1, htau.2, hnode.1, hnode.2]
      rw [e1, abs_mul, abs_of_pos b1]
      refine (mul_le_mul_of_nonneg_left hd b1.le).trans (le_trans (le_of_eq ?_) (h.lasts s hs))
      rw [Mesh.halfWidth]
      have := (sub_pos.2 hlt).ne'
      field_simp
    have := mul_le_mul_of_nonneg_left hd h.Lt
    show _ + _ + Lt * |M.time T ph s (M.node s i) - M.time T ph s tau| ≤ _
    linarith)

/-- **C82** Beforehand: on a phase of which the segments last at most `H` and on each of which the scaled controls vary by at most
`e`, a trajectory that is collocated up to `κ` per unit of time is close to the exact response to its controls. -/
theorem C82_error (hM : M.Good) (hI : M.Inside) (ht : T.t0 ph < T.tf ph) (hw : FullWidths M T ph)
    (hpos : ∀ j < ocp.nx, 0 < ocp.scaleX.getD j 0)
    (hκ : 0 ≤ κ) (hC : CollocationRate κ ocp M T ph) (hF : ocp.dynamics[ph]? = some F) (h : Tame ocp M T F ph S U C B Lx Lu Lt H e)
    (hX : Response ocp M T F ph X)
    (hS : ∀ s < M.orders.length, ∀ tau ∈ Set.Ico M.tau0 M.tau1, S ((List.range ocp.nx).map fun k => X k (M.time T ph s tau)))
    {δ : ℝ} (hδ0 : 0 ≤ δ) (hδ : ocp.CloseBy (fun k => T.x ph 0 k) (fun k => X k (T.t0 ph)) δ) {s : Nat}
    (hs : s < M.orders.length) {tau : ℝ} (htau : tau ∈ Set.Icc M.tau0 M.tau1) {j : Nat} (hj : j < ocp.nx) :
    |ocp.scaleX.getD j 0 * (M.stateAt T ph s tau j - X j (M.time T ph s tau))| ≤
      (δ + C * (Lx * (C * (B + κ) * H) + Lu * e + Lt * H + κ) * (M.time T ph s tau - T.t0 ph)) *
        Real.exp (Lx * (M.time T ph s tau - T.t0 ph)) := by
  have hC0 : 0 ≤ C := zero_le_one.trans (h.lebesgue.one_le hM hI)
  have h00 : 0 < M.orders.length := List.length_pos_iff.2 hM.nonempty
  have hH0 : 0 ≤ H := (mul_pos (sub_pos.2 ht) (hw.pos 0 h00)).le.trans (h.lasts 0 h00)
  have hE : 0 ≤ C * (Lx * (C * (B + κ) * H) + Lu * e + Lt * H + κ) := by
    have h1 := mul_nonneg h.Lx (mul_nonneg (mul_nonneg hC0 (add_nonneg h.B hκ)) hH0)
    have h2 := mul_nonneg h.Lu h.e
    have h3 := mul_nonneg h.Lt hH0
    exact mul_nonneg hC0 (by linarith)
  have hlip : LipschitzDynamics ocp M T F ph S Lx := by
    intro s hs tau htau p q d hp hq hpq j hj
    obtain ⟨b1, b2, b3⟩ := time_bounds hM hI ht hw hs
    have htau' : tau ∈ Set.Icc M.tau0 M.tau1 := ⟨htau.1, htau.2.le⟩
    have hg : ∀ r : Nat → ℝ, ∀ k < ocp.nx, (ocp.argWith M T ph s tau r).x.getD k 0 = r k := by
      intro r k hk
      simp [OCP.argWith, List.getD_eq_getElem?_getD, hk]
    have := h.lipschitz (ocp.argWith M T ph s tau p) (ocp.argWith M T ph s tau q) hp hq
      (h.controls s hs _ htau') (h.controls s hs _ htau') ⟨b2 _ htau'.1, b3 _ htau'.2⟩ ⟨b2 _ htau'.1, b3 _ htau'.2⟩ rfl rfl d 0
      (fun k hk => by rw [hg p k hk, hg q k hk]; exact hpq k hk)
      (fun k hk => by simp [OCP.argWith]) j hj
    simpa [OCP.argWith] using this
  exact rate_error hM hI ht hw hpos hX h.Lx hlip ⟨fun s hs tau htau => h.states s hs tau ⟨htau.1, htau.2.le⟩, hS⟩ hE
    (fun s hs tau htau j hj => C82_small_defect hM hI ht hw hκ hC hF h hs ⟨htau.1, htau.2.le⟩ hj) hδ0 hδ hs htau j hj

/-- **C77** Beforehand: the scaled defect of a collocated trajectory on a tame phase. -/
theorem C77_small_defect (hM : M.Good) (hI : M.Inside) (ht : T.t0 ph < T.tf ph) (hw : FullWidths M T ph)
    (hC : CollocationOK ocp M T ph) (hF : ocp.dynamics[ph]? = some F) (h : Tame ocp M T F ph S U C B Lx Lu Lt H e)
    {s : Nat} (hs : s < M.orders.length) {tau : ℝ} (htau : tau ∈ Set.Icc M.tau0 M.tau1) {j : Nat} (hj : j < ocp.nx) :
    |ocp.scaleX.getD j 0 * ocp.defect M T F ph s tau j| ≤
      M.halfWidth T ph s * (C * (Lx * (C * B * H) + Lu * e + Lt * H)) := by
  have := C82_small_defect hM hI ht hw le_rfl hC.rate hF h hs htau hj
  rwa [add_zero, add_zero] at this

/-- **C77** Beforehand: on a phase of which the segments last at most `H` and on each of which the scaled controls vary by at most
`e`, a collocated trajectory is close to the exact response to its controls. -/
theorem C77_error (hM : M.Good) (hI : M.Inside) (ht : T.t0 ph < T.tf ph) (hw : FullWidths M T ph)
    (hpos : ∀ j < ocp.nx, 0 < ocp.scaleX.getD j 0)
    (hC : CollocationOK ocp M T ph) (hF : ocp.dynamics[ph]? = some F) (h : Tame ocp M T F ph S U C B Lx Lu Lt H e)
    (hX : Response ocp M T F ph X)
    (hS : ∀ s < M.orders.length, ∀ tau ∈ Set.Ico M.tau0 M.tau1, S ((List.range ocp.nx).map fun k => X k (M.time T ph s tau)))
    {δ : ℝ} (hδ0 : 0 ≤ δ) (hδ : ocp.CloseBy (fun k => T.x ph 0 k) (fun k => X k (T.t0 ph)) δ) {s : Nat}
    (hs : s < M.orders.length) {tau : ℝ} (htau : tau ∈ Set.Icc M.tau0 M.tau1) {j : Nat} (hj : j < ocp.nx) :
    |ocp.scaleX.getD j 0 * (M.stateAt T ph s tau j - X j (M.time T ph s tau))| ≤
      (δ + C * (Lx * (C * B * H) + Lu * e + Lt * H) * (M.time T ph s tau - T.t0 ph)) *
        Real.exp (Lx * (M.time T ph s tau - T.t0 ph)) := by
  have := C82_error hM hI ht hw hpos le_rfl hC.rate hF h hX hS hδ0 hδ hs htau hj
  rwa [add_zero, add_zero] at this

/-- **C77** The error the h-adaptive class records is small on fine meshes. -/
theorem C77_recorded (hM : M.Good) (hI : M.Inside) (ht : ∀ ph < ocp.nPhases, T.t0 ph < T.tf ph)
    (hw : ∀ ph < ocp.nPhases, FullWidths M T ph) (hC : ∀ ph < ocp.nPhases, CollocationOK ocp M T ph)
    (h : ∀ ph < ocp.nPhases, ∀ F, ocp.dynamics[ph]? = some F → Tame ocp M T F ph S U C B Lx Lu Lt H e) {N : Nat} {r : ℝ}
    (hr : LargestDefect ocp M T N r) :
    r ≤ max 0 (H / (M.tau1 - M.tau0) * (C * (Lx * (C * B * H) + Lu * e + Lt * H))) := by
  rcases hr.1.eq_or_lt with h0 | h0
  · rw [← h0]; exact le_max_left _ _
  · obtain ⟨ph, hp, v, ⟨F, s, tau, j, hF, hcp, hj, rfl⟩, hve⟩ := hr.2.2 h0
    refine le_max_of_le_right (hve ▸ ?_)
    have hs := hcp.segment
    obtain ⟨b1, -, -⟩ := time_bounds hM hI (ht ph hp) (hw ph hp) hs
    have htame := h ph hp F hF
    refine (C77_small_defect hM hI (ht ph hp) (hw ph hp) (hC ph hp) hF htame hs ⟨hcp.inside.1.le, hcp.inside.2⟩ hj).trans ?_
    have hlt := sub_pos.2 (hI.tau_lt hM)
    have hC0 : 0 ≤ C := zero_le_one.trans (htame.lebesgue.one_le hM hI)
    have hH0 : 0 ≤ H := (mul_pos (sub_pos.2 (ht ph hp)) ((hw ph hp).pos s hs)).le.trans (htame.lasts s hs)
    have hE : 0 ≤ C * (Lx * (C * B * H) + Lu * e + Lt * H) := by
      have h1 := mul_nonneg htame.Lx (mul_nonneg (mul_nonneg hC0 htame.B) hH0)
      have h2 := mul_nonneg htame.Lu htame.e
      have h3 := mul_nonneg htame.Lt hH0
      exact mul_nonneg hC0 (by linarith)
    refine mul_le_mul_of_nonneg_right ?_ hE
    rw [Mesh.halfWidth, div_mul_eq_mul_div]
    exact div_le_div_of_nonneg_right (htame.lasts s hs) hlt.le

end

/-- **C77** For given nodes there is one Lebesgue constant for all meshes of orders up to `P`, however many segments they have. -/
theorem C77_lebesgue (nd : Nat → List ℝ) (a b : ℝ) (P : Nat) :
    ∃ C, ∀ M : Mesh ℝ, M.nodes = nd → M.tau0 = a → M.tau1 = b → (∀ p ∈ M.orders, p ≤ P) → M.Lebesgue C := by
  set g : Nat → ℝ → ℝ := fun p tau => ∑ i ∈ Finset.Icc 1 p,
    |(Lagrange.basis (Finset.Icc 1 p) (fun i => (nd p).getD i 0) i).eval tau| with hg
  have hb : ∀ p, ∃ c, ∀ tau ∈ Set.Icc a b, ‖g p tau‖ ≤ c := by
    intro p
    refine isCompact_Icc.exists_bound_of_continuousOn (Continuous.continuousOn ?_)
    exact continuous_finsetSum _ fun i _ => (Polynomial.continuous _).abs
  choose c hc using hb
  refine ⟨∑ p ∈ Finset.range (P + 1), |c p|, fun M h1 h2 h3 h4 s hs tau htau => ?_⟩
  have hP : M.order s ≤ P := h4 _ (by rw [Mesh.order_eq hs]; exact List.getElem_mem hs)
  rw [h2, h3] at htau
  have h5 : g (M.order s) tau ≤ |c (M.order s)| :=
    (le_abs_self _).trans ((hc _ tau htau).trans (le_abs_self _))
  have h6 : |c (M.order s)| ≤ ∑ p ∈ Finset.range (P + 1), |c p| :=
    Finset.single_le_sum (f := fun p => |c p|) (fun p _ => abs_nonneg _) (Finset.mem_range.2 (by omega))
  have e : M.node s = fun i => (nd (M.order s)).getD i 0 := by funext i; rw [Mesh.node, h1]
  rw [e]
  exact h5.trans h6

/-- **C77** Convergence: with fixed constants the trajectory and the exact response differ by less than any `ε` as soon as segments
are short enough, the controls vary little enough on each, and the initial states are close enough. -/
theorem C77_converges {C B Lx Lu Lt D : ℝ} (hC0 : 0 ≤ C) (hB : 0 ≤ B) (hLx : 0 ≤ Lx) (hLu : 0 ≤ Lu) (hLt : 0 ≤ Lt)
    (hD : 0 ≤ D) {ε : ℝ} (hε : 0 < ε) :
    ∃ ρ > 0, ∀ (ocp : OCP ℝ) (M : Mesh ℝ) (T : Traj ℝ) (F : VFun (PArg ℝ) ℝ) (ph : Nat) (X : Nat → ℝ → ℝ)
      (S U : List ℝ → Prop), M.Good → M.Inside → T.t0 ph < T.tf ph → T.tf ph - T.t0 ph ≤ D → FullWidths M T ph →
      (∀ j < ocp.nx, 0 < ocp.scaleX.getD j 0) → CollocationOK ocp M T ph → ocp.dynamics[ph]? = some F →
      Tame ocp M T F ph S U C B Lx Lu Lt ρ ρ → Response ocp M T F ph X →
      (∀ s < M.orders.length, ∀ tau ∈ Set.Ico M.tau0 M.tau1, S ((List.range ocp.nx).map fun k => X k (M.time T ph s tau))) →
      ocp.CloseBy (fun k => T.x ph 0 k) (fun k => X k (T.t0 ph)) ρ →
      ∀ s < M.orders.length, ∀ tau ∈ Set.Icc M.tau0 M.tau1, ∀ j < ocp.nx,
        |ocp.scaleX.getD j 0 * (M.stateAt T ph s tau j - X j (M.time T ph s tau))| ≤ ε := by
  set Q := (1 + C * (Lx * (C * B) + Lu + Lt) * D) * Real.exp (Lx * D) with hQ
  have hA : 0 ≤ C * (Lx * (C * B) + Lu + Lt) := by
    have := mul_nonneg hLx (mul_nonneg hC0 hB)
    exact mul_nonneg hC0 (by linarith)
  have hQ0 : 0 < Q := mul_pos (by have := mul_nonneg hA hD; linarith) (Real.exp_pos _)
  refine ⟨ε / Q, div_pos hε hQ0, ?_⟩
  intro ocp M T F ph X S U hM hI ht hdur hw hpos hcol hF h hX hS hδ s hs tau htau j hj
  set ρ := ε / Q with hρ
  have hρ0 : 0 < ρ := div_pos hε hQ0
  have h1 := C77_error hM hI ht hw hpos hcol hF h hX hS hρ0.le hδ hs htau hj
  refine h1.trans ?_
  obtain ⟨-, b2, b3⟩ := time_bounds hM hI ht hw hs
  set r := M.time T ph s tau - T.t0 ph with hr
  have hr0 : 0 ≤ r := sub_nonneg.2 (b2 _ htau.1)
  have hrD : r ≤ D := (sub_le_sub_right (b3 _ htau.2) _).trans hdur
  have e1 : ρ + C * (Lx * (C * B * ρ) + Lu * ρ + Lt * ρ) * r = ρ * (1 + C * (Lx * (C * B) + Lu + Lt) * r) := by ring
  rw [e1]
  have h2 : 1 + C * (Lx * (C * B) + Lu + Lt) * r ≤ 1 + C * (Lx * (C * B) + Lu + Lt) * D := by
    have := mul_le_mul_of_nonneg_left hrD hA; linarith
  have h3 : Real.exp (Lx * r) ≤ Real.exp (Lx * D) := Real.exp_le_exp.2 (mul_le_mul_of_nonneg_left hrD hLx)
  calc ρ * (1 + C * (Lx * (C * B) + Lu + Lt) * r) * Real.exp (Lx * r)
      = ρ * ((1 + C * (Lx * (C * B) + Lu + Lt) * r) * Real.exp (Lx * r)) := by ring
    _ ≤ ρ * Q := by
        refine mul_le_mul_of_nonneg_left ?_ hρ0.le
        exact mul_le_mul h2 h3 (Real.exp_pos _).le (by have := mul_nonneg hA hD; linarith)
    _ = ε := div_mul_cancel₀ _ hQ0.ne'

section
variable {V : Type} {w : Outside ℝ V} {ptp : List (List Nat)} {n : Nat} {arg : OrdersArg} {scheme : String}
variable {a : SolveArgs ℝ V} {rx rdx : Bool}

theorem WidthsAre.equal_full (hn : M.orders.length = n) (hn0 : 0 < n) (hp : ph < ocp.nPhases) (h : WidthsAre ocp n none T) :
    FullWidths M T ph := by
  have hw : ∀ s < n, T.w s ph = 1 / (n : ℝ) := fun s hs => h ph hp s hs
  have hnr : (0 : ℝ) < n := Nat.cast_pos.2 hn0
  refine ⟨fun s hs => ?_, ?_⟩
  · rw [hw s (by omega)]; positivity
  · rw [hn, Finset.sum_congr rfl fun s hs => hw s (Finset.mem_range.1 hs)]
    rw [Finset.sum_const, Finset.card_range, nsmul_eq_mul]
    field_simp

/-- **C77** The module-level `solve` with `n` segments of equal width and a sound solver: what is shown are the node values of a
trajectory within `O(1/n + e)` of the exact response to its own controls, `e` being how much the controls vary on a segment. -/
theorem C77_solve {nlpsol : SolverCall ℝ V → Py (List ℝ)} {s : Session ℝ V} {p : Post ℝ}
    {r : Option (PyDict (ResidVal ℝ))} (hrun : mpSolve w nlpsol ocp ptp n arg scheme a rx rdx = .ok (s, p, r))
    (hv : ValidOCP ocp) (hs : ocp.SettingsOK) (hsc : ocp.PosScales) (hM : MeshFor w scheme n arg M)
    (hn : M.orders.length = n) (hI : M.Inside) (hnone : a.widths = none)
    (hsound : ∀ c z, nlpsol c = .ok z → c.IsSolution z) :
    ∃ T, SolvesOCP ocp M T ∧ p.Shows ocp M T ∧ ∀ ph < ocp.nPhases, T.t0 ph < T.tf ph → ∀ F, ocp.dynamics[ph]? = some F →
      M.Lasts T ph ((T.tf ph - T.t0 ph) / n) ∧
      ∀ S U C B Lx Lu Lt e, Tame ocp M T F ph S U C B Lx Lu Lt ((T.tf ph - T.t0 ph) / n) e →
      ∀ X, Response ocp M T F ph X → (∀ s < M.orders.length, ∀ tau ∈ Set.Ico M.tau0 M.tau1,
        S ((List.range ocp.nx).map fun k => X k (M.time T ph s tau))) → (∀ j < ocp.nx, X j (T.t0 ph) = T.x ph 0 j) →
      ∀ s < M.orders.length, ∀ tau ∈ Set.Icc M.tau0 M.tau1, ∀ j < ocp.nx,
        |ocp.scaleX.getD j 0 * (M.stateAt T ph s tau j - X j (M.time T ph s tau))| ≤
          C * ((Lx * (C * B) + Lt) * ((T.tf ph - T.t0 ph) / n) + Lu * e) * (M.time T ph s tau - T.t0 ph) *
            Real.exp (Lx * (M.time T ph s tau - T.t0 ph)) := by
  obtain ⟨T, hT, hw, hsh⟩ := C52_solve_feasible hrun hv hs hsc hM hsound
  rw [hnone] at hw
  have hn0 : 0 < n := by rw [← hn]; exact List.length_pos_iff.2 hM.good.nonempty
  refine ⟨T, hT, hsh, fun ph hp ht F hF => ⟨fun s hs => ?_, ?_⟩⟩
  · rw [show T.w s ph = 1 / (n : ℝ) from hw ph hp s (by omega)]
    exact le_of_eq (by ring)
  · intro S U C B Lx Lu Lt e htame X hX hS h0 s hs tau htau j hj
    have := C77_error (δ := 0) hM.good hI ht (hw.equal_full hn hn0 hp) (fun j hj => by
      rw [List.getD_eq_getElem _ _ (by rw [hv.scaleX]; exact hj)]; exact hsc.x _ (List.getElem_mem _))
      (hT.1.dynamics ph hp) hF htame hX hS le_rfl (fun j hj => by simp [h0 j hj]) hs htau hj
    refine this.trans (le_of_eq ?_)
    ring

end

/-! ### A concrete case: `x' = u` on two segments of order 1, controls `1, 1, 0` and states `0, 1/2, 1/2` -/

/-- The trajectory. -/
noncomputable def trajStep : Traj ℝ :=
  ⟨fun _ i _ => if i = 0 then 0 else 1 / 2, fun _ i _ => if i = 2 then 0 else 1, fun _ => 0, fun _ => 1,
    fun _ _ => 0, fun _ _ => 1 / 2⟩

/-- The exact response: uniform motion, then braking. -/
noncomputable def stepX (t : ℝ) : ℝ := if t ≤ 1 / 2 then t else 2 * t - t ^ 2 - 1 / 4

/-- The dynamics of `ocpR`. -/
noncomputable def stepF : VFun (PArg ℝ) ℝ := ⟨1, fun p _ => p.u.getD 0 0⟩

theorem stepPieces : meshGrow.piece (fun k => trajStep.x 0 k 0) 0 = Polynomial.C (1 / 4) * Polynomial.X + Polynomial.C (1 / 4) ∧
    meshGrow.piece (fun k => trajStep.x 0 k 0) 1 = Polynomial.C (1 / 2) ∧
    meshGrow.piece (fun k => trajStep.u 0 k 0) 0 = Polynomial.C 1 ∧
    meshGrow.piece (fun k => trajStep.u 0 k 0) 1 = Polynomial.C (-1 / 2) * Polynomial.X + Polynomial.C (1 / 2) := by
  refine ⟨?_, ?_, ?_, ?_⟩ <;> apply meshGrow_good.piece_eq (by simp [meshGrow]) <;>
    first
    | exact degree_linear_le.trans_lt (by simp [meshGrow, Mesh.order])
    | exact degree_C_le.trans_lt (by simp [meshGrow, Mesh.order])
    | (intro i hi
       have : i ≤ 1 := hi
       interval_cases i <;> norm_num [meshGrow, Mesh.node, Mesh.order, Mesh.idx, segStart, trajStep])

theorem stepTime (s : Nat) (tau : ℝ) : meshGrow.time trajStep 0 s tau = s / 2 + (1 + tau) / 4 := by
  unfold Mesh.time Mesh.halfWidth
  simp [meshGrow, trajStep]
  ring

theorem stepControl (tau : ℝ) : meshGrow.controlAt trajStep 0 0 tau 0 = 1 ∧
    meshGrow.controlAt trajStep 0 1 tau 0 = (1 - tau) / 2 := by
  unfold Mesh.controlAt
  rw [stepPieces.2.2.1, stepPieces.2.2.2]
  simp
  ring

/-- The hypotheses of `C77_error` (and so of the theorems built on it) are met. -/
theorem exampleStep :
    meshGrow.Good ∧ meshGrow.Inside ∧ FullWidths meshGrow trajStep 0 ∧ CollocationOK ocpR meshGrow trajStep 0 ∧
    Tame ocpR meshGrow trajStep stepF 0 (fun _ => True) (fun _ => True) 1 2 0 2 0 (1 / 2) 1 ∧
    Response ocpR meshGrow trajStep stepF 0 (fun _ => stepX) ∧ stepX 0 = trajStep.x 0 0 0 ∧
    |(2 : ℝ) * (1 / 2 - stepX 1)| ≤ 2 := by
  have hcol : CollocationOK ocpR meshGrow trajStep 0 := by
    intro F hF j hj s i hi
    obtain rfl : j = 0 := by simpa [ocpR] using hj
    have hF : stepF = F := by simpa [ocpR, stepF] using hF
    rw [← hF]
    obtain ⟨h1, h2, h3⟩ := hi
    have h1 : s < 2 := h1
    interval_cases s
    · have h2 : i ≤ 1 := h2
      rw [stepPieces.1]
      interval_cases i <;>
        norm_num [OCP.pArg, ocpR, Mesh.idx, segStart, trajStep, meshGrow, Mesh.halfWidth, stepF]
    · have h2 : i ≤ 1 := h2
      obtain rfl : i = 1 := by omega
      rw [stepPieces.2.1]
      norm_num [OCP.pArg, ocpR, Mesh.idx, segStart, trajStep, meshGrow, Mesh.halfWidth, stepF]
  have hwid : FullWidths meshGrow trajStep 0 := by
    refine ⟨fun _ _ => by norm_num [trajStep], ?_⟩
    simp [meshGrow, trajStep]
  have hord : ∀ s < meshGrow.orders.length, meshGrow.order s = 1 := by
    intro s hs
    have hs : s < 2 := hs
    interval_cases s <;> rfl
  have htame : Tame ocpR meshGrow trajStep stepF 0 (fun _ => True) (fun _ => True) 1 2 0 2 0 (1 / 2) 1 := by
    constructor
    case lebesgue =>
      intro s hs tau _
      rw [hord s hs]
      simp
    case rates =>
      intro s i hi j hj
      obtain rfl : j = 0 := by simpa [ocpR] using hj
      simp only [stepF, ocpR, OCP.pArg, trajStep]
      simp
      split <;> norm_num
    case lipschitz =>
      intro p q _ _ _ _ _ _ _ _ dx du _ hu j hj
      have := hu 0 (by simp [ocpR])
      obtain rfl : j = 0 := by simpa [ocpR] using hj
      simp only [stepF, ocpR] at *
      simp only [List.getD_cons_zero, one_mul] at this ⊢
      rw [abs_mul, abs_of_pos (by norm_num : (0 : ℝ) < 2)]
      linarith
    case lasts => intro s hs; norm_num [trajStep]
    case varies =>
      intro s hs tau ht tau' ht' k hk
      obtain rfl : k = 0 := by simpa [ocpR] using hk
      have hs : s < 2 := hs
      have e : ocpR.scaleU.getD 0 0 = (1 : ℝ) := by simp [ocpR]
      obtain ⟨a1, a2⟩ := ht
      obtain ⟨a3, a4⟩ := ht'
      simp only [meshGrow] at a1 a2 a3 a4
      rw [e, one_mul]
      interval_cases s
      · rw [(stepControl tau).1, (stepControl tau').1]; simp
      · rw [(stepControl tau).2, (stepControl tau').2, abs_le]; constructor <;> linarith
    all_goals norm_num
  have hresp : Response ocpR meshGrow trajStep stepF 0 (fun _ => stepX) := by
    have hq : ∀ t : ℝ, HasDerivAt (fun t : ℝ => 2 * t - t ^ 2 - 1 / 4) (2 - 2 * t) t := by
      intro t
      have := (((hasDerivAt_id t).const_mul 2).sub (hasDerivAt_pow 2 t)).sub_const (1 / 4)
      simpa using this
    refine ⟨fun j _ => Continuous.continuousOn ?_, ?_⟩
    · unfold stepX
      refine Continuous.if_le continuous_id (by fun_prop) continuous_id continuous_const fun t ht => ?_
      have ht : t = 1 / 2 := ht
      rw [ht]; norm_num
    · intro s hs tau ht j hj
      have hs : s < 2 := hs
      obtain ⟨a1, a2⟩ := ht
      simp only [meshGrow] at a1 a2
      have hF : ∀ s, stepF.f (ocpR.argWith meshGrow trajStep 0 s tau fun k => stepX (meshGrow.time trajStep 0 s tau)) j =
          meshGrow.controlAt trajStep 0 s tau 0 := by
        intro s
        simp [stepF, OCP.argWith, OCP.pArgAt, Mesh.controlAt, ocpR]
      rw [hF]
      interval_cases s
      · rw [(stepControl tau).1, stepTime]
        set t : ℝ := ((0 : Nat) : ℝ) / 2 + (1 + tau) / 4 with htd
        have htl : t < 1 / 2 := by rw [htd]; push_cast; linarith
        refine (hasDerivAt_id t).hasDerivWithinAt.congr_of_eventuallyEq ?_ (by simp only [stepX, if_pos htl.le]; rfl)
        filter_upwards [mem_nhdsWithin_of_mem_nhds (gt_mem_nhds htl)] with r hr
        simp only [stepX, if_pos hr.le]; rfl
      · rw [(stepControl tau).2, stepTime]
        set t : ℝ := ((1 : Nat) : ℝ) / 2 + (1 + tau) / 4 with htd
        have htl : 1 / 2 ≤ t := by rw [htd]; push_cast; linarith
        have heq : ∀ r, 1 / 2 ≤ r → stepX r = 2 * r - r ^ 2 - 1 / 4 := by
          intro r hr
          unfold stepX
          split
          · rename_i h
            obtain rfl : r = 1 / 2 := le_antisymm h hr
            norm_num
          · rfl
        have e : (1 - tau) / 2 = 2 - 2 * t := by rw [htd]; push_cast; ring
        rw [e]
        exact (hq t).hasDerivWithinAt.congr (fun r hr => heq r (htl.trans hr)) (heq t htl)
  refine ⟨meshGrow_good, meshGrow_inside, hwid, hcol, htame, hresp, by norm_num [stepX, trajStep], ?_⟩
  have hF : ocpR.dynamics[0]? = some stepF := by simp [ocpR, stepF]
  have := C77_error (δ := 0) (s := 1) (tau := 1) (j := 0) meshGrow_good meshGrow_inside (by norm_num [trajStep]) hwid
    (fun j hj => by
      obtain rfl : j = 0 := by simpa [ocpR] using hj
      norm_num [ocpR]) hcol hF htame hresp (fun _ _ _ _ => trivial) le_rfl
    (fun j hj => by norm_num [trajStep, stepX]) (by simp [meshGrow]) (by norm_num [meshGrow]) (by simp [ocpR])
  have h1 : meshGrow.stateAt trajStep 0 1 1 0 = 1 / 2 := by
    unfold Mesh.stateAt; rw [stepPieces.2.1]; simp
  rw [h1, stepTime] at this
  have h2 : ocpR.scaleX.getD 0 0 = (2 : ℝ) := by simp [ocpR]
  rw [h2] at this
  norm_num [trajStep] at this
  norm_num
  exact this

end MPOpt
