import Verif.Spec.KnownRate
import Verif.Lemmas.Clock
import Verif.Props.FirstSegment

/-!
# C89: states driven by the clock

A combination of states whose rate is a polynomial in time of degree below all orders is exact everywhere, at and between the
nodes, on every mesh. If the degree is the order of the first segment, nothing meets the collocation equations.
-/

set_option autoImplicit false
set_option linter.unusedSectionVars false

namespace MPOpt
open Polynomial

variable {K : Type} [Field K] [LinearOrder K] [IsStrictOrderedRing K] {ocp : OCP K} {M : Mesh K} {T : Traj K} {ph : Nat}

/-- The polynomial of the combination `c` on segment `s`. -/
noncomputable def Mesh.modePiece (M : Mesh K) (T : Traj K) (nx : Nat) (c : Nat → K) (ph s : Nat) : K[X] :=
  ∑ j ∈ Finset.range nx, C (c j) * M.piece (fun k => T.x ph k j) s

theorem Mesh.modePiece_eval (M : Mesh K) (T : Traj K) (nx : Nat) (c : Nat → K) (ph s : Nat) (tau : K) :
    (M.modePiece T nx c ph s).eval tau =
      ∑ j ∈ Finset.range nx, c j * (M.piece (fun k => T.x ph k j) s).eval tau := by
  simp [Mesh.modePiece, eval_finsetSum]

theorem Mesh.modePiece_degree (hM : M.Good) (nx : Nat) (c : Nat → K) {s : Nat} (hs : s < M.orders.length) :
    (M.modePiece T nx c ph s).natDegree ≤ M.order s := by
  refine natDegree_sum_le_of_forall_le _ _ fun j _ => (natDegree_C_mul_le _ _).trans ?_
  rw [Mesh.order_eq hs]
  exact hM.piece_degrees _ s hs

theorem Mesh.modePiece_node (hM : M.Good) (nx : Nat) (c : Nat → K) {s i : Nat} (hs : s < M.orders.length)
    (hi : i ≤ M.order s) : (M.modePiece T nx c ph s).eval (M.node s i) = T.mode nx c ph (M.idx s i) := by
  rw [M.modePiece_eval]
  exact Finset.sum_congr rfl fun j _ => by rw [hM.piece_eval_node _ hs hi]

theorem Mesh.modePiece_rate (hC : CollocationOK ocp M T ph) {F : VFun (PArg K) K} (hF : ocp.dynamics[ph]? = some F)
    (c : Nat → K) {s i : Nat} (ho : M.Owns s i) :
    (derivative (M.modePiece T ocp.nx c ph s)).eval (M.node s i) = M.halfWidth T ph s *
      ∑ j ∈ Finset.range ocp.nx, c j * F.f (ocp.pArg T ph (M.idx s i) (M.time T ph s (M.node s i))) j := by
  unfold Mesh.modePiece
  rw [derivative_sum, eval_finsetSum, Finset.mul_sum]
  refine Finset.sum_congr rfl fun j hj => ?_
  rw [derivative_C_mul, eval_mul, eval_C, hC F hF j (Finset.mem_range.1 hj) s i ho]
  ring

theorem KnownRate.along {F : VFun (PArg K) K} {c : Nat → K} {R : K[X]} (h : KnownRate F ocp.nx c R) :
    RateAlong ocp F M T ph c R := fun s i _ => h _ (by simp [OCP.pArg])

/-- A polynomial of degree below `m` with the rate `R` at `m` nodes has it everywhere. -/
theorem derivative_eq_of_nodes {y Q : K[X]} {p : Nat} {node : Nat → K} {I : Finset Nat} (hI : Set.InjOn node I)
    (hy : y.natDegree ≤ p) (hQ : (derivative Q).natDegree < p) (hcard : p ≤ I.card)
    (h : ∀ i ∈ I, (derivative y).eval (node i) = (derivative Q).eval (node i)) : derivative y = derivative Q := by
  refine eq_of_degrees_lt_of_eval_index_eq I hI ?_ ?_ h
  · refine (degree_le_natDegree).trans_lt ?_
    have := natDegree_derivative_le y
    exact_mod_cast (by omega : (derivative y).natDegree < I.card)
  · refine (degree_le_natDegree).trans_lt ?_
    exact_mod_cast (by omega : (derivative Q).natDegree < I.card)

/-- **C89** A combination of states whose rate along the trajectory is a polynomial in time of degree below all orders follows
its integral exactly: at and between the nodes, on every segment, for any scheme, any widths and any times. -/
theorem C89_exact (hM : M.Good) (hC : CollocationOK ocp M T ph) {F : VFun (PArg K) K} (hF : ocp.dynamics[ph]? = some F)
    {c : Nat → K} {Q : K[X]} (hr : RateAlong ocp F M T ph c (derivative Q))
    (hdeg : ∀ p ∈ M.orders, (derivative Q).natDegree < p) {s : Nat} (hs : s < M.orders.length) (tau : K) :
    ∑ j ∈ Finset.range ocp.nx, c j * (M.piece (fun k => T.x ph k j) s).eval tau =
      T.mode ocp.nx c ph 0 + (Q.eval (M.time T ph s tau) - Q.eval (T.t0 ph)) := by
  have seg : ∀ s, s < M.orders.length → ∀ tau, (M.modePiece T ocp.nx c ph s).eval tau =
      T.mode ocp.nx c ph (M.idx s 0) + (Q.eval (M.time T ph s tau) - Q.eval (M.time T ph s M.tau0)) := by
    intro s hs tau
    set y := M.modePiece T ocp.nx c ph s with hy
    have hR : (derivative (Q.comp (M.clockPoly T ph s))).natDegree < M.order s := by
      have hk := (M.clockPoly_comp T ph s (derivative Q) 0).2.2
      rw [derivative_comp, Mesh.clockPoly]
      simp only [derivative_add, derivative_mul, derivative_C, zero_mul, derivative_X, mul_one, zero_add, add_zero]
      exact ((natDegree_C_mul_le _ _).trans hk).trans_lt (hdeg _ (hM.order_mem hs))
    have hd : derivative y = derivative (Q.comp (M.clockPoly T ph s)) := by
      refine derivative_eq_of_nodes (I := Finset.Icc 1 (M.order s)) (node := M.node s)
        ((hM.node_injOn hs).mono fun i hi => ?_) (Mesh.modePiece_degree hM _ _ hs) hR (by simp) fun i hi => ?_
      · have := Finset.mem_Icc.1 hi
        simpa using (show i < M.order s + 1 by omega)
      · have hi := Finset.mem_Icc.1 hi
        have ho : M.Owns s i := ⟨hs, hi.2, Or.inr hi.1⟩
        rw [hy, Mesh.modePiece_rate hC hF c ho, hr s i ho, (M.clockPoly_comp T ph s Q _).2.1]
    have hc : derivative (y - Q.comp (M.clockPoly T ph s)) = 0 := by rw [derivative_sub, hd, sub_self]
    have hconst := eq_C_of_natDegree_eq_zero (derivative_eq_zero.1 hc)
    set a := (y - Q.comp (M.clockPoly T ph s)).coeff 0
    have hev : ∀ tau, y.eval tau - Q.eval (M.time T ph s tau) = a := by
      intro tau
      rw [← (M.clockPoly_comp T ph s Q tau).1, ← eval_sub, hconst, eval_C]
    have h0 := hev M.tau0
    have h1 := hev tau
    have hn := Mesh.modePiece_node hM (T := T) (ph := ph) ocp.nx c hs (Nat.zero_le (M.order s))
    rw [hM.node_first hs, ← hy] at hn
    rw [← hn]
    linear_combination h1 - h0
  rw [← M.modePiece_eval, seg s hs tau]
  have starts : ∀ s, s < M.orders.length →
      T.mode ocp.nx c ph (M.idx s 0) = T.mode ocp.nx c ph 0 + (Q.eval (M.time T ph s M.tau0) - Q.eval (T.t0 ph)) := by
    intro s
    induction s with
    | zero =>
      intro _
      rw [(C13_segment_ends hM T ph).1, sub_self, add_zero]
      rfl
    | succ s ih =>
      intro hs
      have hs' : s < M.orders.length := by omega
      have e : M.idx (s + 1) 0 = M.idx s (M.order s) := by
        unfold Mesh.idx
        rw [segStart_succ _ hs', Mesh.order_eq hs', Nat.add_zero]
      have h1 := seg s hs' M.tau1
      have hn := Mesh.modePiece_node hM (T := T) (ph := ph) ocp.nx c hs' (le_refl (M.order s))
      rw [hM.node_last hs'] at hn
      rw [e, ← hn, h1, ih hs', (C13_segment_ends hM T ph).2.2.1]
      ring
  rw [starts s hs]
  ring

/-- **C89** For a rate known from the dynamics alone, at the nodes and at the end of the phase. -/
theorem C89_nodes (hM : M.Good) (hC : CollocationOK ocp M T ph) {F : VFun (PArg K) K} (hF : ocp.dynamics[ph]? = some F)
    {c : Nat → K} {Q : K[X]} (hr : KnownRate F ocp.nx c (derivative Q))
    (hdeg : ∀ p ∈ M.orders, (derivative Q).natDegree < p) :
    (∀ s i, M.Owns s i → T.mode ocp.nx c ph (M.idx s i) =
      T.mode ocp.nx c ph 0 + (Q.eval (M.time T ph s (M.node s i)) - Q.eval (T.t0 ph))) ∧
    ((∑ r ∈ Finset.range M.orders.length, T.w r ph) = 1 →
      T.mode ocp.nx c ph (M.N - 1) = T.mode ocp.nx c ph 0 + (Q.eval (T.tf ph) - Q.eval (T.t0 ph))) := by
  have key : ∀ s i, M.Owns s i → T.mode ocp.nx c ph (M.idx s i) =
      T.mode ocp.nx c ph 0 + (Q.eval (M.time T ph s (M.node s i)) - Q.eval (T.t0 ph)) := by
    intro s i ho
    rw [← C89_exact hM hC hF hr.along hdeg ho.1, ← M.modePiece_eval, Mesh.modePiece_node hM _ _ ho.1 ho.2.1]
  refine ⟨key, fun hw => ?_⟩
  have hl := List.length_pos_iff.2 hM.nonempty
  have hs : M.orders.length - 1 < M.orders.length := by omega
  have h := key (M.orders.length - 1) (M.order (M.orders.length - 1)) ⟨hs, le_rfl, Or.inr (hM.order_pos hs)⟩
  have e : M.idx (M.orders.length - 1) (M.order (M.orders.length - 1)) = M.N - 1 := by
    have := segStart_succ M.orders hs
    unfold Mesh.idx Mesh.N
    rw [Mesh.order_eq hs, ← this, Nat.sub_add_cancel hl]
    simp [segStart]
  rw [e, hM.node_last hs, (C13_segment_ends hM T ph).2.2.2 hw] at h
  exact h

/-- **C89** What the dynamics conserve, the polynomials conserve: at and between the nodes, for every order. -/
theorem C89_conserved (hM : M.Good) (hC : CollocationOK ocp M T ph) {F : VFun (PArg K) K}
    (hF : ocp.dynamics[ph]? = some F) {c : Nat → K} (hr : KnownRate F ocp.nx c 0) {s : Nat} (hs : s < M.orders.length)
    (tau : K) : ∑ j ∈ Finset.range ocp.nx, c j * (M.piece (fun k => T.x ph k j) s).eval tau = T.mode ocp.nx c ph 0 := by
  have h := C89_exact hM hC hF (c := c) (Q := 0) (by rw [derivative_zero]; exact hr.along)
    (fun p hp => by rw [derivative_zero, natDegree_zero]; exact hM.pos p hp) hs tau
  simpa using h

/-- **C89** On the first segment a combination with `y' = lam * y + R(t)` is the polynomial solution of this equation, if there
is one of degree at most the order: nothing else meets the collocation equations. -/
theorem C89_driven (hM : M.Good) (hC : CollocationOK ocp M T ph) {F : VFun (PArg K) K} (hF : ocp.dynamics[ph]? = some F)
    {c : Nat → K} {lam : K} {R P : K[X]} (hm : DrivenMode F ocp.nx c lam R) (hl : lam ≠ 0)
    (hP : derivative P = C lam * P + R) (hdeg : P.natDegree ≤ M.order 0) (ht : T.t0 ph ≠ T.tf ph) (hw : T.w 0 ph ≠ 0)
    (tau : K) :
    ∑ j ∈ Finset.range ocp.nx, c j * (M.piece (fun k => T.x ph k j) 0).eval tau = P.eval (M.time T ph 0 tau) := by
  have h0 : 0 < M.orders.length := List.length_pos_iff.2 hM.nonempty
  set h := M.halfWidth T ph 0 with hh
  have hne : h ≠ 0 := mul_ne_zero (div_ne_zero (sub_ne_zero.2 ht.symm) hM.tau_ne) hw
  set y := M.modePiece T ocp.nx c ph 0 with hy
  set v := y - P.comp (M.clockPoly T ph 0) with hv
  have hvdeg : v.natDegree ≤ M.order 0 := by
    refine (natDegree_sub_le _ _).trans (max_le (Mesh.modePiece_degree hM _ _ h0) ?_)
    exact (M.clockPoly_comp T ph 0 P 0).2.2.trans hdeg
  have hq : derivative v = C (h * lam) * v + C 0 := by
    refine eq_of_degrees_lt_of_eval_index_eq (Finset.range (M.order 0 + 1)) (hM.node_injOn h0) ?_ ?_ ?_
    · rw [Finset.card_range]
      refine degree_le_natDegree.trans_lt ?_
      have := natDegree_derivative_le v
      exact_mod_cast (by omega : (derivative v).natDegree < M.order 0 + 1)
    · rw [Finset.card_range, C_0, add_zero]
      refine (degree_C_mul_le_self _ _).trans_lt (degree_le_natDegree.trans_lt ?_)
      exact_mod_cast (by omega : v.natDegree < M.order 0 + 1)
    · intro i hi
      have hi : i ≤ M.order 0 := Nat.lt_succ_iff.1 (Finset.mem_range.1 hi)
      have ho : M.Owns 0 i := ⟨h0, hi, Or.inl rfl⟩
      have hmode := hm (ocp.pArg T ph (M.idx 0 i) (M.time T ph 0 (M.node 0 i))) (by simp [OCP.pArg])
      have hx : ∑ j ∈ Finset.range ocp.nx, c j * (ocp.pArg T ph (M.idx 0 i) (M.time T ph 0 (M.node 0 i))).x.getD j 0 =
          y.eval (M.node 0 i) := by
        rw [hy, Mesh.modePiece_node hM _ _ h0 hi]
        refine Finset.sum_congr rfl fun j hj => ?_
        have hj : j < ocp.nx := Finset.mem_range.1 hj
        simp [OCP.pArg, List.getD_eq_getElem?_getD, hj]
      have htime : (ocp.pArg T ph (M.idx 0 i) (M.time T ph 0 (M.node 0 i))).t = M.time T ph 0 (M.node 0 i) := rfl
      rw [hx, htime] at hmode
      rw [hv, derivative_sub, eval_sub, (M.clockPoly_comp T ph 0 P _).2.1, hy, Mesh.modePiece_rate hC hF c ho, ← hy, hmode, hP]
      simp only [eval_add, eval_mul, eval_C, eval_sub, (M.clockPoly_comp T ph 0 P _).1]
      ring
  have hz := poly_linear_ode (mul_ne_zero hne hl) hq
  have he : v.eval tau = 0 := by rw [hz]; simp
  rw [hv, eval_sub, (M.clockPoly_comp T ph 0 P _).1] at he
  rw [← M.modePiece_eval]
  exact sub_eq_zero.1 he

theorem natDegree_comp_clock (P : K[X]) {s : Nat} (h : M.halfWidth T ph s ≠ 0) :
    (P.comp (M.clockPoly T ph s)).natDegree = P.natDegree := by
  rw [natDegree_comp, Mesh.clockPoly, natDegree_linear h, mul_one]

/-- **C89** If the degree of a known rate is the order of the first segment, no trajectory meets the collocation equations of
that segment, whatever the controls do. -/
theorem C89_too_steep (hM : M.Good) {F : VFun (PArg K) K} (hF : ocp.dynamics[ph]? = some F) {c : Nat → K} {R : K[X]}
    (hr : KnownRate F ocp.nx c R) (hdeg : R.natDegree = M.order 0) (ht : T.t0 ph ≠ T.tf ph) (hw : T.w 0 ph ≠ 0) :
    ¬ CollocationOK ocp M T ph := by
  intro hC
  have h0 : 0 < M.orders.length := List.length_pos_iff.2 hM.nonempty
  have hp := hM.order_pos h0
  have hne : M.halfWidth T ph 0 ≠ 0 := mul_ne_zero (div_ne_zero (sub_ne_zero.2 ht.symm) hM.tau_ne) hw
  set y := M.modePiece T ocp.nx c ph 0 with hy
  have hydeg : (derivative y).natDegree < M.order 0 := by
    have h1 := natDegree_derivative_le y
    have h2 : y.natDegree ≤ M.order 0 := Mesh.modePiece_degree hM _ _ h0
    omega
  have hnd := natDegree_comp_clock (M := M) (T := T) (ph := ph) R hne
  have hCdeg : (C (M.halfWidth T ph 0) * R.comp (M.clockPoly T ph 0)).natDegree = M.order 0 := by
    rw [natDegree_C_mul hne, hnd, hdeg]
  have hq : derivative y = C (M.halfWidth T ph 0) * R.comp (M.clockPoly T ph 0) := by
    refine eq_of_degrees_lt_of_eval_index_eq (Finset.range (M.order 0 + 1)) (hM.node_injOn h0) ?_ ?_ ?_
    · rw [Finset.card_range]
      refine degree_le_natDegree.trans_lt ?_
      exact_mod_cast (by omega : (derivative y).natDegree < M.order 0 + 1)
    · rw [Finset.card_range]
      refine degree_le_natDegree.trans_lt ?_
      exact_mod_cast (by omega : (C (M.halfWidth T ph 0) * R.comp (M.clockPoly T ph 0)).natDegree < M.order 0 + 1)
    · intro i hi
      have hi : i ≤ M.order 0 := Nat.lt_succ_iff.1 (Finset.mem_range.1 hi)
      have ho : M.Owns 0 i := ⟨h0, hi, Or.inl rfl⟩
      rw [hy, Mesh.modePiece_rate hC hF c ho, (hr.along (M := M) (T := T) (ph := ph)) 0 i ho, eval_mul, eval_C,
        (M.clockPoly_comp T ph 0 R _).1]
  rw [hq, hCdeg] at hydeg
  exact lt_irrefl _ hydeg

end MPOpt
