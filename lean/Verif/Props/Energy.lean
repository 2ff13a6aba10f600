import Verif.Spec.Energy
import Verif.Props.ImpossibleEnd
import Verif.Props.PostInterp
import Verif.Props.OneSegment

/-! # C114: quadratic quantities of the states at LGR nodes -/

set_option autoImplicit false
set_option linter.unusedSectionVars false

namespace MPOpt
open Polynomial

/-! ### The rule at the nodes after the first -/

/-- LGR nodes of any order: the nodes after the first carry a rule with positive weights, exact for the derivatives of
polynomials of degree up to `2d - 1`. -/
theorem lgr_right_rule (lib : NodeLib ℝ) {lo hi : ℝ} (h : lo < hi) (d : Nat) (hd : 1 ≤ d)
    (hj : 2 ≤ d → IsJacobiRoots 1 0 (d - 1) (lib.jroots (d - 1) 1 0)) :
    ∃ r, tausFn lib lo hi "LGR" d = .ok r ∧ NodesSpan lo hi d r ∧ ∃ c : Nat → ℝ, (∀ i ∈ Finset.Icc 1 d, 0 < c i) ∧
      ∀ Q : ℝ[X], Q.natDegree ≤ 2 * d - 1 →
        ∑ i ∈ Finset.Icc 1 d, c i * (derivative Q).eval (r.getD i 0) = Q.eval hi - Q.eval lo := by
  obtain ⟨r, hr, hs⟩ := C01_lgr_nodes lib lo hi h d hd hj
  refine ⟨r, hr, hs, ?_⟩
  rcases Nat.lt_or_ge 1 d with h1 | h1
  · obtain ⟨r', hr', ws, hws, hl, hp⟩ := C67_lgr lib .symbolic lo hi h d h1 (hj h1)
    rw [hr] at hr'; cases hr'
    have hpos : ∀ i ∈ Finset.Icc 1 d, 0 < (0 :: ws).getD i 0 := by
      intro i hi
      obtain ⟨i1, i2⟩ := Finset.mem_Icc.1 hi
      obtain ⟨k, rfl⟩ : ∃ k, i = k + 1 := ⟨i - 1, by omega⟩
      have hk : k < ws.length := by omega
      rw [List.getD_cons_succ, List.getD_eq_getElem _ _ hk]
      exact hp _ (List.getElem_mem hk)
    refine ⟨fun i => (0 :: ws).getD i 0, hpos, fun Q hQ => ?_⟩
    obtain ⟨r', hr', e⟩ := C05_lgr_gauss lib .symbolic lo hi h d h1 (hj h1) Q
      (by have := natDegree_derivative_le Q; omega)
    rw [hr] at hr'; cases hr'
    have e := e (fun j => (derivative Q).eval (r.getD j 0)) fun j hj => by rw [List.getD_eq_getElem _ _ hj]
    rw [← e, hws]
    unfold weightedSum
    rw [List.length_cons, hl, Finset.sum_range_succ', List.getD_cons_zero, zero_mul, add_zero,
      Finset.range_eq_Ico, Finset.sum_Ico_add' (fun i => (0 :: ws).getD i 0 * (derivative Q).eval (r.getD i 0)) 0 d 1]
    rfl
  · obtain rfl : d = 1 := by omega
    refine ⟨fun _ => hi - lo, fun _ _ => sub_pos.2 h, fun Q hQ => ?_⟩
    obtain ⟨a, b, rfl⟩ := exists_eq_X_add_C_of_natDegree_le_one (show Q.natDegree ≤ 1 from hQ)
    simp
    ring

/-- One degree further the rule is wrong by a fixed positive multiple of the leading coefficient. -/
theorem lgr_deficit {lo hi : ℝ} (h : lo < hi) {d : Nat} (hd : 1 ≤ d) {r : List ℝ} (hs : NodesSpan lo hi d r) {c : Nat → ℝ}
    (hc : ∀ Q : ℝ[X], Q.natDegree ≤ 2 * d - 1 →
      ∑ i ∈ Finset.Icc 1 d, c i * (derivative Q).eval (r.getD i 0) = Q.eval hi - Q.eval lo) :
    ∃ κ : ℝ, 0 < κ ∧ ∀ Q : ℝ[X], Q.natDegree ≤ 2 * d →
      Q.eval hi - Q.eval lo = ∑ i ∈ Finset.Icc 1 d, c i * (derivative Q).eval (r.getD i 0) - κ * Q.coeff (2 * d) := by
  set N : ℝ[X] := Lagrange.nodal (Finset.Ioo 0 d) (fun i => r.getD i 0) with hN
  set S : ℝ[X] := (X - C hi) * N ^ 2 with hS
  have hNm : N.Monic := Lagrange.nodal_monic
  have hSm : S.Monic := (monic_X_sub_C hi).mul (hNm.pow 2)
  have hSd : S.natDegree = 2 * d - 1 := by
    rw [hS, (monic_X_sub_C hi).natDegree_mul (hNm.pow 2), natDegree_X_sub_C, hNm.natDegree_pow, hN,
      Lagrange.natDegree_nodal, Nat.card_Ioo]
    omega
  obtain ⟨A, hA, hAd⟩ := exists_antiderivative S
  have hlast : r.getD d 0 = hi := by
    have := hs.last
    rw [List.getLast?_eq_getElem?, hs.length, Nat.add_sub_cancel] at this
    rw [List.getD_eq_getElem?_getD, this]; rfl
  have hSz : ∀ i ∈ Finset.Icc 1 d, S.eval (r.getD i 0) = 0 := by
    intro i hi'
    obtain ⟨i1, i2⟩ := Finset.mem_Icc.1 hi'
    rcases Nat.lt_or_ge i d with h1 | h1
    · have : N.eval (r.getD i 0) = 0 :=
        Lagrange.eval_nodal_at_node (v := fun j => r.getD j 0) (Finset.mem_Ioo.2 ⟨i1, h1⟩)
      simp [hS, -List.getD_eq_getElem?_getD, this]
    · obtain rfl : i = d := by omega
      simp [hS, -List.getD_eq_getElem?_getD, hlast]
  have hAc : A.coeff (2 * d) * (2 * d : ℝ) = 1 := by
    have h1 : S.coeff (2 * d - 1) = 1 := by rw [← hSd]; exact hSm.coeff_natDegree
    rw [← hA, coeff_derivative, Nat.sub_add_cancel (by omega)] at h1
    rw [← h1]
    congr 1
    have : ((2 * d - 1 : Nat) : ℝ) = 2 * d - 1 := by
      rw [Nat.cast_sub (by omega)]; push_cast; ring
    rw [this]; ring
  have hneg : A.eval hi - A.eval lo < 0 := by
    have hint' : ∫ x in lo..hi, S.eval x = A.eval hi - A.eval lo := by
      rw [← hA]
      apply intervalIntegral.integral_eq_sub_of_hasDerivAt (f := fun x => A.eval x)
      · intro x _; exact A.hasDerivAt x
      · exact (derivative A).continuous.intervalIntegrable _ _
    obtain ⟨x₀, ⟨c0, c1⟩, hx₀⟩ : ∃ c, c ∈ Set.Ioo lo hi ∧ N.eval c ≠ 0 := by
      obtain ⟨c, h1, h2⟩ := ((Set.Ioo_infinite h).sdiff (N.roots.toFinset.finite_toSet)).nonempty
      refine ⟨c, h1, fun h => h2 ?_⟩
      simpa using ⟨hNm.ne_zero, h⟩
    have hpos : 0 < ∫ x in lo..hi, -S.eval x := by
      refine intervalIntegral.integral_pos h S.continuous.neg.continuousOn (fun x hx => ?_) ⟨x₀, ⟨c0.le, c1.le⟩, ?_⟩
      · simp only [hS, eval_mul, eval_sub, eval_C, eval_X, eval_pow]
        nlinarith [mul_nonneg (sub_nonneg.2 hx.2) (sq_nonneg (N.eval x))]
      · simp only [hS, eval_mul, eval_sub, eval_C, eval_X, eval_pow]
        nlinarith [mul_pos (sub_pos.2 c1) (show (0 : ℝ) < N.eval x₀ ^ 2 by positivity)]
    rw [intervalIntegral.integral_neg, hint'] at hpos
    linarith
  refine ⟨-(2 * d * (A.eval hi - A.eval lo)), ?_, fun Q hQ => ?_⟩
  · have : (0 : ℝ) < d := by exact_mod_cast hd
    nlinarith
  · set k : ℝ := Q.coeff (2 * d) * (2 * d) with hk
    have hd' : (Q - C k * A).natDegree ≤ 2 * d - 1 := by
      rw [natDegree_le_iff_coeff_eq_zero]
      intro m hm
      rcases Nat.lt_or_ge (2 * d) m with h1 | h1
      · rw [coeff_sub, coeff_C_mul, coeff_eq_zero_of_natDegree_lt (by omega), coeff_eq_zero_of_natDegree_lt (p := A) (by omega)]
        ring
      · obtain rfl : m = 2 * d := by omega
        rw [coeff_sub, coeff_C_mul, hk]
        linear_combination -Q.coeff (2 * d) * hAc
    have e := hc _ hd'
    have e2 : ∑ i ∈ Finset.Icc 1 d, c i * (derivative (Q - C k * A)).eval (r.getD i 0) =
        ∑ i ∈ Finset.Icc 1 d, c i * (derivative Q).eval (r.getD i 0) := by
      refine Finset.sum_congr rfl fun i hi => ?_
      rw [derivative_sub, derivative_C_mul, hA, eval_sub, eval_mul, hSz i hi]
      ring
    rw [e2] at e
    rw [e, eval_sub, eval_sub, eval_mul, eval_mul, eval_C, eval_C, hk]
    ring

/-! ### The quantity along polynomials -/

/-- `xᵀ q x` along polynomial states. -/
noncomputable def quadPoly (q : Nat → Nat → ℝ) (n : Nat) (P : Nat → ℝ[X]) : ℝ[X] :=
  ∑ j ∈ Finset.range n, ∑ k ∈ Finset.range n, C (q j k) * (P j * P k)

theorem quadPoly_eval (q : Nat → Nat → ℝ) (n : Nat) (P : Nat → ℝ[X]) (t : ℝ) :
    (quadPoly q n P).eval t = quadForm q n fun j => (P j).eval t := by
  simp [quadPoly, quadForm, eval_finsetSum]

theorem quadPoly_derivative (q : Nat → Nat → ℝ) (n : Nat) (P : Nat → ℝ[X]) (t : ℝ) :
    (derivative (quadPoly q n P)).eval t =
      quadPower q n (fun j => (P j).eval t) fun j => (derivative (P j)).eval t := by
  simp [quadPoly, quadPower, eval_finsetSum]

theorem quadPoly_natDegree (q : Nat → Nat → ℝ) {n d : Nat} {P : Nat → ℝ[X]} (h : ∀ j < n, (P j).natDegree ≤ d) :
    (quadPoly q n P).natDegree ≤ 2 * d := by
  refine natDegree_sum_le_of_forall_le _ _ fun j hj => natDegree_sum_le_of_forall_le _ _ fun k hk => ?_
  refine (natDegree_C_mul_le _ _).trans (natDegree_mul_le.trans ?_)
  have := h j (Finset.mem_range.1 hj)
  have := h k (Finset.mem_range.1 hk)
  omega

theorem quadPoly_coeff (q : Nat → Nat → ℝ) {n d : Nat} {P : Nat → ℝ[X]} (h : ∀ j < n, (P j).natDegree ≤ d) :
    (quadPoly q n P).coeff (2 * d) = quadForm q n fun j => (P j).coeff d := by
  unfold quadPoly quadForm
  rw [finsetSum_coeff]
  refine Finset.sum_congr rfl fun j hj => ?_
  rw [finsetSum_coeff]
  refine Finset.sum_congr rfl fun k hk => ?_
  rw [coeff_C_mul, two_mul, coeff_mul_add_eq_of_natDegree_le (h j (Finset.mem_range.1 hj)) (h k (Finset.mem_range.1 hk))]

theorem quadPower_smul (q : Nat → Nat → ℝ) (n : Nat) (x v : Nat → ℝ) (a : ℝ) :
    quadPower q n x (fun j => a * v j) = a * quadPower q n x v := by
  unfold quadPower
  rw [Finset.mul_sum]
  refine Finset.sum_congr rfl fun j _ => ?_
  rw [Finset.mul_sum]
  exact Finset.sum_congr rfl fun k _ => by ring

theorem quadForm_congr {q : Nat → Nat → ℝ} {n : Nat} {x y : Nat → ℝ} (h : ∀ j < n, x j = y j) :
    quadForm q n x = quadForm q n y :=
  Finset.sum_congr rfl fun j hj => Finset.sum_congr rfl fun k hk => by
    rw [h j (Finset.mem_range.1 hj), h k (Finset.mem_range.1 hk)]

theorem quadPower_congr {q : Nat → Nat → ℝ} {n : Nat} {x y v u : Nat → ℝ} (h : ∀ j < n, x j = y j) (h' : ∀ j < n, v j = u j) :
    quadPower q n x v = quadPower q n y u :=
  Finset.sum_congr rfl fun j hj => Finset.sum_congr rfl fun k hk => by
    rw [h j (Finset.mem_range.1 hj), h k (Finset.mem_range.1 hk), h' j (Finset.mem_range.1 hj), h' k (Finset.mem_range.1 hk)]

/-! ### One segment -/

variable {M : Mesh ℝ} {ocp : OCP ℝ} {T : Traj ℝ} {V : Type} {w : Outside ℝ V} {n : Nat} {arg : OrdersArg}
  {q : Nat → Nat → ℝ} {ph : Nat}

/-- **C114** On every segment of LGR nodes there are positive weights for the nodes after the first and a positive constant such
that the change of any quadratic quantity of the states, from the start of the segment to its end, is the weighted sum of what
the dynamics make of it at those nodes, minus the constant times the quantity at the leading coefficients of the states. -/
theorem C114_balance (hM : MeshFor w "LGR" n arg M) (hlt : w.tau0 < w.tau1)
    (hj : ∀ p ∈ M.orders, 2 ≤ p → IsJacobiRoots 1 0 (p - 1) (w.lib.jroots (p - 1) 1 0)) {s : Nat} (hs : s < M.orders.length) :
    ∃ c : Nat → ℝ, (∀ i ∈ Finset.Icc 1 (M.order s), 0 < c i) ∧ ∃ κ : ℝ, 0 < κ ∧
      ∀ (ocp : OCP ℝ) (T : Traj ℝ) (ph : Nat) (F : VFun (PArg ℝ) ℝ), ocp.dynamics[ph]? = some F → CollocationOK ocp M T ph →
      ∀ q : Nat → Nat → ℝ,
        quadForm q ocp.nx (T.x ph (M.idx s (M.order s))) - quadForm q ocp.nx (T.x ph (M.idx s 0)) =
          M.halfWidth T ph s * (∑ i ∈ Finset.Icc 1 (M.order s), c i * quadPower q ocp.nx (T.x ph (M.idx s i))
            (F.f (ocp.pArg T ph (M.idx s i) (M.time T ph s (M.node s i))))) -
          κ * quadForm q ocp.nx fun j => (M.piece (fun k => T.x ph k j) s).coeff (M.order s) := by
  have hg := hM.good
  have hmem := hg.order_mem hs
  have hp := hg.order_pos hs
  obtain ⟨r, hr, hspan, c, hc, hrule⟩ := lgr_right_rule w.lib hlt (M.order s) hp (hj _ hmem)
  rw [hM.nodes _ hmem] at hr
  obtain rfl : M.nodes (M.order s) = r := Except.ok.inj hr
  obtain ⟨κ, hκ, hdef⟩ := lgr_deficit hlt hp hspan hrule
  refine ⟨c, hc, κ, hκ, fun ocp T ph F hF hC q => ?_⟩
  set P : Nat → ℝ[X] := fun j => M.piece (fun k => T.x ph k j) s with hP
  have hdeg : ∀ j < ocp.nx, (P j).natDegree ≤ M.order s := fun j _ => by
    have := hg.piece_degrees (fun k => T.x ph k j) s hs
    rwa [← Mesh.order_eq hs] at this
  have e := hdef (quadPoly q ocp.nx P) (quadPoly_natDegree q hdeg)
  rw [quadPoly_coeff q hdeg, quadPoly_eval, quadPoly_eval] at e
  have hval : ∀ i ≤ M.order s, ∀ j, (P j).eval (M.node s i) = T.x ph (M.idx s i) j := fun i hi j =>
    hg.piece_eval_node _ hs hi
  have e1 : ∀ j, (P j).eval w.tau1 = T.x ph (M.idx s (M.order s)) j := fun j => by
    rw [← hM.tau1, ← hg.node_last hs]; exact hval _ le_rfl j
  have e0 : ∀ j, (P j).eval w.tau0 = T.x ph (M.idx s 0) j := fun j => by
    rw [← hM.tau0, ← hg.node_first hs]; exact hval _ (Nat.zero_le _) j
  simp only [e0, e1] at e
  rw [e, Finset.mul_sum]
  congr 1
  refine Finset.sum_congr rfl fun i hi => ?_
  obtain ⟨i1, i2⟩ := Finset.mem_Icc.1 hi
  have hn : (M.nodes (M.order s)).getD i 0 = M.node s i := rfl
  rw [hn, quadPoly_derivative, quadPower_congr (u := fun j => M.halfWidth T ph s *
    F.f (ocp.pArg T ph (M.idx s i) (M.time T ph s (M.node s i))) j) (fun j _ => hval i i2 j)
    (fun j hj => hC F hF j hj s i ⟨hs, i2, Or.inr i1⟩), quadPower_smul]
  ring

theorem pArg_states (T : Traj ℝ) (ph k : Nat) (t : ℝ) : ∀ j < ocp.nx, (ocp.pArg T ph k t).x.getD j 0 = T.x ph k j :=
  fun j hj => by simp [OCP.pArg, hj]

/-- **C114** What the dynamics never increase does not grow from the start of a segment to its end. -/
theorem C114_shrink (hM : MeshFor w "LGR" n arg M) (hlt : w.tau0 < w.tau1)
    (hj : ∀ p ∈ M.orders, 2 ≤ p → IsJacobiRoots 1 0 (p - 1) (w.lib.jroots (p - 1) 1 0)) (hv : ValidOCP ocp)
    (hp : ph < ocp.nPhases) (hq : QuadNonneg q ocp.nx) (hd : ocp.Dissipates q ph) (hC : CollocationOK ocp M T ph) {s : Nat}
    (hs : s < M.orders.length) (hh : 0 ≤ M.halfWidth T ph s) :
    quadForm q ocp.nx (T.x ph (M.idx s (M.order s))) ≤ quadForm q ocp.nx (T.x ph (M.idx s 0)) := by
  obtain ⟨F, hF⟩ : ∃ F, ocp.dynamics[ph]? = some F := by
    rw [← hv.dynamics] at hp; exact ⟨_, List.getElem?_eq_getElem hp⟩
  obtain ⟨c, hc, κ, hκ, e⟩ := C114_balance hM hlt hj hs
  have e := e ocp T ph F hF hC q
  have h1 : ∑ i ∈ Finset.Icc 1 (M.order s), c i * quadPower q ocp.nx (T.x ph (M.idx s i))
      (F.f (ocp.pArg T ph (M.idx s i) (M.time T ph s (M.node s i)))) ≤ 0 := by
    refine Finset.sum_nonpos fun i hi => mul_nonpos_of_nonneg_of_nonpos (hc i hi).le ?_
    have := hd F hF (ocp.pArg T ph (M.idx s i) (M.time T ph s (M.node s i)))
    rwa [quadPower_congr (pArg_states T ph _ _) fun _ _ => rfl] at this
  have h2 := mul_nonpos_of_nonneg_of_nonpos hh h1
  have h3 := mul_nonneg hκ.le (hq fun j => (M.piece (fun k => T.x ph k j) s).coeff (M.order s))
  linarith

theorem segment_start_succ {s : Nat} (hs : s < M.orders.length) : M.idx (s + 1) 0 = M.idx s (M.order s) := by
  simp only [Mesh.idx, Nat.add_zero]
  rw [Mesh.order_eq hs, ← segStart_succ M.orders hs]

/-- **C114** So it falls from segment to segment, and over the phase. -/
theorem C114_falls (hM : MeshFor w "LGR" n arg M) (hlt : w.tau0 < w.tau1)
    (hj : ∀ p ∈ M.orders, 2 ≤ p → IsJacobiRoots 1 0 (p - 1) (w.lib.jroots (p - 1) 1 0)) (hv : ValidOCP ocp)
    (hp : ph < ocp.nPhases) (hq : QuadNonneg q ocp.nx) (hd : ocp.Dissipates q ph) (hC : CollocationOK ocp M T ph)
    (hh : ∀ s < M.orders.length, 0 ≤ M.halfWidth T ph s) {s s' : Nat} (hss : s ≤ s') (hs' : s' ≤ M.orders.length) :
    quadForm q ocp.nx (T.x ph (M.idx s' 0)) ≤ quadForm q ocp.nx (T.x ph (M.idx s 0)) := by
  induction s', hss using Nat.le_induction with
  | base => exact le_rfl
  | succ k hk ih =>
    rw [segment_start_succ (by omega)]
    exact (C114_shrink hM hlt hj hv hp hq hd hC (by omega) (hh k (by omega))).trans (ih (by omega))

theorem halfWidth_nonneg (hM : MeshFor w "LGR" n arg M) (hlt : w.tau0 < w.tau1) (hw : Shares M T ph) (ht : T.t0 ph ≤ T.tf ph)
    {s : Nat} (hs : s < M.orders.length) : 0 ≤ M.halfWidth T ph s := by
  unfold Mesh.halfWidth
  rw [hM.tau0, hM.tau1]
  exact mul_nonneg (div_nonneg (sub_nonneg.2 ht) (sub_nonneg.2 hlt.le)) (hw.nonneg s hs)

/-- The quantity falls from the start of a segment to the start of every later one, and to the end of the phase. -/
def Falls (q : Nat → Nat → ℝ) (ocp : OCP ℝ) (M : Mesh ℝ) (T : Traj ℝ) (ph : Nat) : Prop :=
  ∀ s s', s ≤ s' → s' ≤ M.orders.length → quadForm q ocp.nx (T.x ph (M.idx s' 0)) ≤ quadForm q ocp.nx (T.x ph (M.idx s 0))

variable {nlpsol : SolverCall ℝ V → Py (List ℝ)} {ptp : List (List Nat)} {rx rdx : Bool} {po : Post ℝ}
  {r : Option (PyDict (ResidVal ℝ))}

/-- **C114** Whatever feasible point the NLP solver returns, the trajectory shown by `solve` has that property. -/
theorem C114_solve (hq : QuadNonneg q ocp.nx) (hp : ph < ocp.nPhases) (hd : ocp.Dissipates q ph) {a : SolveArgs ℝ V}
    {s : Session ℝ V} (hrun : mpSolve w nlpsol ocp ptp n arg "LGR" a rx rdx = .ok (s, po, r)) (hv : ValidOCP ocp)
    (hs : ocp.SettingsOK) (hsc : ocp.PosScales) (ht : ocp.TimesOrdered) (hM : MeshFor w "LGR" n arg M)
    (hlt : w.tau0 < w.tau1) (hj : ∀ p ∈ M.orders, 2 ≤ p → IsJacobiRoots 1 0 (p - 1) (w.lib.jroots (p - 1) 1 0))
    (hwid : GoodWidths ocp n a.widths) (hsound : ∀ c z, nlpsol c = .ok z → c.IsSolution z) :
    ∃ T, SolvesOCP ocp M T ∧ WidthsAre ocp n a.widths T ∧ po.Shows ocp M T ∧ Falls q ocp M T ph := by
  obtain ⟨T, hT, hw, hsh⟩ := C52_solve_feasible hrun hv hs hsc hM hsound
  refine ⟨T, hT, hw, hsh, fun k k' h1 h2 => C114_falls hM hlt hj hv hp hq hd (hT.1.dynamics ph hp) (fun i hi => ?_) h1 h2⟩
  have hn : M.orders.length = n := mpSolve_length hrun hM
  subst hn
  obtain ⟨h1, h2⟩ := hw.fills (List.length_pos_iff.2 hM.good.nonempty) hwid ph hp
  exact halfWidth_nonneg hM hlt ⟨fun s hs => (h1 s hs).le, h2⟩ (C107_forward ht hT.1.bounds hT.1.links ph hp) hi

/-- **C114** The same for `mpopt_adaptive`, if its width limits are not negative. -/
theorem C114_adaptive (hq : QuadNonneg q ocp.nx) (hp : ph < ocp.nPhases) (hd : ocp.Dissipates q ph)
    {s s' : AdaptOpt ℝ V} {lbh ubh tol : List ℝ} {mid : Bool} (hf : s.Ready w ocp n arg "LGR" lbh ubh tol mid)
    (hv : ValidOCP ocp) (hs : ocp.SettingsOK) (hsc : ocp.PosScales) (ht : ocp.TimesOrdered) (hlb : lbh.length = ocp.nPhases)
    (hub : ubh.length = ocp.nPhases) (htol : tol.length = ocp.nPhases) (hlbn : ∀ l ∈ lbh, 0 ≤ l)
    (hM : MeshFor w "LGR" n arg M) (hlt : w.tau0 < w.tau1)
    (hj : ∀ p ∈ M.orders, 2 ≤ p → IsJacobiRoots 1 0 (p - 1) (w.lib.jroots (p - 1) 1 0))
    (hsound : ∀ c z, nlpsol c = .ok z → c.IsSolution z) (earlier : List (SolveArgs ℝ V)) (a : SolveArgs ℝ V)
    {z : List ℝ} (hrun : (s.run w nlpsol earlier).solve w nlpsol a = (s', .ok z))
    (hpr : s'.processResults w ptp false rx rdx = .ok (po, r)) :
    ∃ T, SolvesAdaptive ocp M T lbh ubh tol mid ∧ po.Shows ocp M T ∧ Falls q ocp M T ph := by
  obtain ⟨T, hT, hsh, -⟩ := C54_adaptive_feasible hf hv hs hsc hlb hub htol hM hsound earlier a hrun hpr
  refine ⟨T, hT, hsh, fun k k' h1 h2 => C114_falls hM hlt hj hv hp hq hd (hT.1.core.dynamics ph hp) (fun i hi => ?_) h1 h2⟩
  obtain ⟨h1, h2, -⟩ := hT.1.widths ph hp
  refine halfWidth_nonneg hM hlt ⟨fun s hs => le_trans ?_ (h2 s hs), h1⟩
    (C107_forward ht hT.1.core.bounds hT.1.core.links ph hp) hi
  have : ph < lbh.length := by omega
  rw [List.getD_eq_getElem _ _ this]
  exact hlbn _ (List.getElem_mem this)

/-- **C114** The same for `mpopt_h_adaptive`, if the refinement ends with positive widths of sum 1. -/
theorem C114_h (hq : QuadNonneg q ocp.nx) (hp : ph < ocp.nPhases) (hd : ocp.Dissipates q ph) {wh : HOutside ℝ V}
    {nlpsolH : Nat → Nat → SolverCall ℝ V → Py (PyDict V)} {lbh ubh tol : List ℝ} {sh : HOpt ℝ V}
    (hf : sh.Ready wh ocp n arg "LGR" lbh ubh tol) (hv : ValidOCP ocp) (hs : ocp.SettingsOK) (hsc : ocp.PosScales)
    (ht : ocp.TimesOrdered) (hM : MeshFor wh.toOutside "LGR" n arg M) (hlt : wh.tau0 < wh.tau1)
    (hj : ∀ p ∈ M.orders, 2 ≤ p → IsJacobiRoots 1 0 (p - 1) (wh.lib.jroots (p - 1) 1 0))
    (hsound : ∀ n k c sol, nlpsolH n k c = .ok sol → ∃ z, Returned wh sol z ∧ c.IsSolution z)
    {calls : List (HStart V × HArgs V)} (ho : OwnStarts calls) {s' : HOpt ℝ V} {sol : PyDict V}
    (hrun : sh.run wh nlpsolH calls 0 none = (s', some sol))
    (hpr : s'.processResults wh sol ptp false rx rdx = .ok (po, r)) (hwid : GoodWidths ocp n s'.widths) :
    ∃ T, SolvesOCP ocp M T ∧ po.Shows ocp M T ∧ s'.widths = some (ocp.packWidths n T) ∧ Falls q ocp M T ph := by
  obtain ⟨T, hT, hsh, hw⟩ := C59_h_feasible hf hv hs hsc hM hsound ho hrun hpr
  refine ⟨T, hT, hsh, hw, fun k k' h1 h2 => C114_falls hM hlt hj hv hp hq hd (hT.1.dynamics ph hp) (fun i hi => ?_) h1 h2⟩
  have hn : M.orders.length = n := by rw [OrdersArg.Means.unique hM.orders hf.orders]; exact hf.length
  subst hn
  obtain ⟨h1, h2⟩ := packed_widths (T := T) hp ((hwid _ hw).2 ph hp) rfl
  exact halfWidth_nonneg hM hlt ⟨fun s hs => (h1 s hs).le, h2⟩ (C107_forward ht hT.1.bounds hT.1.links ph hp) hi

/-! ### What must keep its size cannot move -/

/-- **C114** A positive definite quantity that the dynamics do not change is kept over a segment of order at most 2 only by
states that stand still on the segment. -/
theorem C114_still (hM : MeshFor w "LGR" n arg M) (hlt : w.tau0 < w.tau1)
    (hj : ∀ p ∈ M.orders, 2 ≤ p → IsJacobiRoots 1 0 (p - 1) (w.lib.jroots (p - 1) 1 0)) (hv : ValidOCP ocp)
    (hp : ph < ocp.nPhases) (hq : QuadPos q ocp.nx) (hd : ocp.Conserves q ph) (hC : CollocationOK ocp M T ph) {s : Nat}
    (hs : s < M.orders.length) (h2 : M.order s ≤ 2)
    (heq : quadForm q ocp.nx (T.x ph (M.idx s (M.order s))) = quadForm q ocp.nx (T.x ph (M.idx s 0))) :
    ∀ i ≤ M.order s, ∀ j < ocp.nx, T.x ph (M.idx s i) j = T.x ph (M.idx s 0) j := by
  obtain ⟨F, hF⟩ : ∃ F, ocp.dynamics[ph]? = some F := by
    rw [← hv.dynamics] at hp; exact ⟨_, List.getElem?_eq_getElem hp⟩
  have hg := hM.good
  have hpos := hg.order_pos hs
  obtain ⟨c, hc, κ, hκ, e⟩ := C114_balance hM hlt hj hs
  have e := e ocp T ph F hF hC q
  have hzero : ∀ i, quadPower q ocp.nx (T.x ph (M.idx s i))
      (F.f (ocp.pArg T ph (M.idx s i) (M.time T ph s (M.node s i)))) = 0 := fun i => by
    have := hd F hF (ocp.pArg T ph (M.idx s i) (M.time T ph s (M.node s i)))
    rwa [quadPower_congr (pArg_states T ph _ _) fun _ _ => rfl] at this
  simp only [hzero, mul_zero, Finset.sum_const_zero, heq, sub_self, zero_sub] at e
  set P : Nat → ℝ[X] := fun j => M.piece (fun k => T.x ph k j) s with hP
  have hdeg : ∀ j < ocp.nx, (P j).natDegree ≤ M.order s := fun j _ => by
    have := hg.piece_degrees (fun k => T.x ph k j) s hs
    rwa [← Mesh.order_eq hs] at this
  have htop : ∀ j < ocp.nx, (P j).coeff (M.order s) = 0 := by
    refine hq.2 (fun j => (P j).coeff (M.order s)) ?_
    have : κ * quadForm q ocp.nx (fun j => (P j).coeff (M.order s)) = 0 := by linarith
    exact (mul_eq_zero.1 this).resolve_left hκ.ne'
  have hval : ∀ i ≤ M.order s, ∀ j, (P j).eval (M.node s i) = T.x ph (M.idx s i) j := fun i hi j =>
    hg.piece_eval_node _ hs hi
  have hone : ∀ j < ocp.nx, (P j).natDegree ≤ 1 := fun j hj => by
    rw [natDegree_le_iff_coeff_eq_zero]
    intro m hm
    rcases Nat.lt_or_ge (M.order s) m with h | h
    · exact coeff_eq_zero_of_natDegree_lt (lt_of_le_of_lt (hdeg j hj) h)
    · obtain rfl : m = M.order s := by omega
      exact htop j hj
  have hconst : ∀ j < ocp.nx, (P j).coeff 1 = 0 := by
    rcases Nat.lt_or_ge 1 (M.order s) with h | h
    · have hE : derivative (quadPoly q ocp.nx P) = 0 := by
        by_contra hne
        have hd1 : (derivative (quadPoly q ocp.nx P)).natDegree ≤ 1 := by
          have := natDegree_derivative_le (quadPoly q ocp.nx P)
          have := quadPoly_natDegree q hone
          omega
        have hroot : ∀ i, 1 ≤ i → i ≤ M.order s → (derivative (quadPoly q ocp.nx P)).eval (M.node s i) = 0 := fun i i1 i2 => by
          rw [quadPoly_derivative, quadPower_congr (u := fun j => M.halfWidth T ph s *
            F.f (ocp.pArg T ph (M.idx s i) (M.time T ph s (M.node s i))) j) (fun j _ => hval i i2 j)
            (fun j hj => hC F hF j hj s i ⟨hs, i2, Or.inr i1⟩), quadPower_smul, hzero, mul_zero]
        have hdist : M.node s 1 ≠ M.node s 2 := fun he => by
          have := hg.node_injOn hs (show (1 : Nat) ∈ _ by simp; omega) (show (2 : Nat) ∈ _ by simp; omega) he
          omega
        have : derivative (quadPoly q ocp.nx P) = 0 := by
          refine Polynomial.eq_zero_of_natDegree_lt_card_of_eval_eq_zero' _ {M.node s 1, M.node s 2} ?_ ?_
          · intro x hx
            rcases Finset.mem_insert.1 hx with rfl | hx
            · exact hroot 1 le_rfl (by omega)
            · rw [Finset.mem_singleton.1 hx]; exact hroot 2 (by omega) (by omega)
          · rw [Finset.card_pair hdist]; omega
        exact hne this
      refine hq.2 (fun j => (P j).coeff 1) ?_
      rw [← quadPoly_coeff q hone]
      have : (derivative (quadPoly q ocp.nx P)).coeff 1 = 0 := by rw [hE, coeff_zero]
      rw [coeff_derivative] at this
      norm_num at this
      exact this
    · have : M.order s = 1 := by omega
      rw [this] at htop
      exact htop
  intro i hi j hj
  rw [← hval i hi j, ← hval 0 (Nat.zero_le _) j]
  obtain ⟨a, b, hab⟩ := exists_eq_X_add_C_of_natDegree_le_one (hone j hj)
  have : a = 0 := by have := hconst j hj; rw [hab] at this; simpa using this
  rw [hab, this]
  simp

/-- **C114** If all segments have order at most 2 and the phase ends with the same amount as it starts, its states do not move. -/
theorem C114_still_phase (hM : MeshFor w "LGR" n arg M) (hlt : w.tau0 < w.tau1)
    (hj : ∀ p ∈ M.orders, 2 ≤ p → IsJacobiRoots 1 0 (p - 1) (w.lib.jroots (p - 1) 1 0)) (hv : ValidOCP ocp)
    (hp : ph < ocp.nPhases) (hq : QuadPos q ocp.nx) (hd : ocp.Conserves q ph) (hC : CollocationOK ocp M T ph)
    (h2 : ∀ p ∈ M.orders, p ≤ 2) (heq : quadForm q ocp.nx (T.x ph 0) ≤ quadForm q ocp.nx (T.x ph (M.N - 1))) :
    ∀ s < M.orders.length, ∀ i ≤ M.order s, ∀ j < ocp.nx, T.x ph (M.idx s i) j = T.x ph 0 j := by
  obtain ⟨F, hF⟩ : ∃ F, ocp.dynamics[ph]? = some F := by
    rw [← hv.dynamics] at hp; exact ⟨_, List.getElem?_eq_getElem hp⟩
  have hg := hM.good
  have hstep : ∀ s < M.orders.length,
      quadForm q ocp.nx (T.x ph (M.idx s (M.order s))) ≤ quadForm q ocp.nx (T.x ph (M.idx s 0)) := by
    intro s hs
    obtain ⟨c, hc, κ, hκ, e⟩ := C114_balance hM hlt hj hs
    have e := e ocp T ph F hF hC q
    have hzero : ∀ i, quadPower q ocp.nx (T.x ph (M.idx s i))
        (F.f (ocp.pArg T ph (M.idx s i) (M.time T ph s (M.node s i)))) = 0 := fun i => by
      have := hd F hF (ocp.pArg T ph (M.idx s i) (M.time T ph s (M.node s i)))
      rwa [quadPower_congr (pArg_states T ph _ _) fun _ _ => rfl] at this
    simp only [hzero, mul_zero, Finset.sum_const_zero, zero_sub] at e
    have h3 := mul_nonneg hκ.le (hq.1 fun j => (M.piece (fun k => T.x ph k j) s).coeff (M.order s))
    linarith
  have hfall : ∀ s s', s ≤ s' → s' ≤ M.orders.length →
      quadForm q ocp.nx (T.x ph (M.idx s' 0)) ≤ quadForm q ocp.nx (T.x ph (M.idx s 0)) := by
    intro s s' hss
    induction s', hss using Nat.le_induction with
    | base => exact fun _ => le_rfl
    | succ k hk ih =>
      intro hs'
      rw [segment_start_succ (by omega)]
      exact (hstep k (by omega)).trans (ih (by omega))
  have hlast : M.idx M.orders.length 0 = M.N - 1 := by simp [Mesh.idx, Mesh.N, segStart]
  have hfirst : M.idx 0 0 = 0 := by simp [Mesh.idx, segStart]
  have hsame : ∀ s < M.orders.length,
      quadForm q ocp.nx (T.x ph (M.idx s (M.order s))) = quadForm q ocp.nx (T.x ph (M.idx s 0)) := by
    intro s hs
    refine le_antisymm (hstep s hs) ?_
    have a := hfall 0 s (Nat.zero_le _) hs.le
    have b := hfall (s + 1) M.orders.length hs le_rfl
    rw [hlast, segment_start_succ hs] at b
    rw [hfirst] at a
    linarith
  have hstill := fun s (hs : s < M.orders.length) =>
    C114_still hM hlt hj hv hp hq hd hC hs (h2 _ (hg.order_mem hs)) (hsame s hs)
  have hstart : ∀ s < M.orders.length, ∀ j < ocp.nx, T.x ph (M.idx s 0) j = T.x ph 0 j := by
    intro s
    induction s with
    | zero => intro _ j _; rw [hfirst]
    | succ s ih =>
      intro hs j hj
      rw [segment_start_succ (by omega), hstill s (by omega) _ le_rfl j hj]
      exact ih (by omega) j hj
  intro s hs i hi j hj
  rw [hstill s hs i hi j hj, hstart s hs j hj]

/-- **C114** A problem that asks for an end with at least as much as the start, at another place, has no trajectory on LGR
meshes of orders at most 2, however many segments there are and however they share the phase. -/
theorem C114_stuck (hM : MeshFor w "LGR" n arg M) (hlt : w.tau0 < w.tau1)
    (hj : ∀ p ∈ M.orders, 2 ≤ p → IsJacobiRoots 1 0 (p - 1) (w.lib.jroots (p - 1) 1 0)) (hv : ValidOCP ocp)
    (hp : ph < ocp.nPhases) (hq : QuadPos q ocp.nx) (hd : ocp.Conserves q ph) (h2 : ∀ p ∈ M.orders, p ≤ 2)
    (hends : ∀ E, ocp.EndsMeet E → quadForm q ocp.nx (E.x ph 0) ≤ quadForm q ocp.nx (E.x ph 1) ∧
      ∃ j < ocp.nx, E.x ph 1 j ≠ E.x ph 0 j) : NoTrajectory ocp M := by
  intro T hw hT
  obtain ⟨h1, j, hjx, hne⟩ := hends _ (endsOf_meet hM.good hT hw)
  have hlen : 0 < M.orders.length := List.length_pos_iff.2 hM.good.nonempty
  have key := C114_still_phase hM hlt hj hv hp hq hd (hT.dynamics ph hp) h2 h1 (M.orders.length - 1) (by omega) _ le_rfl j hjx
  rw [Mesh.last_idx (by omega)] at key
  exact hne key

/-! ### One segment of LGL nodes -/

/-- **C114** On a single segment of LGL nodes the change of any quadratic quantity over the phase is the weighted sum of what
the dynamics make of it at the nodes, with the quadrature weights of the cost; nothing is lost. -/
theorem C114_lobatto {p : Nat} (h2 : 2 ≤ p) (hj : IsJacobiRoots 1 1 (p - 1) (w.lib.jroots (p - 1) 1 1))
    (hM : MeshFor w "LGL" n arg M) (ho : M.orders = [p]) (hlt : w.tau0 < w.tau1) {W : List ℝ}
    (hW : compQuadWeights ⟨w.method, w.tau0, w.tau1, tausFn w.lib w.tau0 w.tau1 "LGL"⟩ M.orders = .ok W)
    {F : VFun (PArg ℝ) ℝ} (hF : ocp.dynamics[ph]? = some F) (hC : CollocationOK ocp M T ph) (q : Nat → Nat → ℝ) :
    quadForm q ocp.nx (T.x ph p) - quadForm q ocp.nx (T.x ph 0) =
      M.halfWidth T ph 0 * weightedSum W fun i => quadPower q ocp.nx (T.x ph i)
        (F.f (ocp.pArg T ph i (M.time T ph 0 (M.node 0 i)))) := by
  have hg := hM.good
  have hs : 0 < M.orders.length := by rw [ho]; simp
  have hord : M.order 0 = p := by simp [Mesh.order, ho]
  have hidx : ∀ i, M.idx 0 i = i := fun i => by simp [Mesh.idx, segStart]
  have h := OneSegment.lgl h2 hj
  have hWq := h.weights hM ho hlt hW
  obtain ⟨r, hr, hspan, -, -, hrule⟩ := h.rule w.method hlt
  rw [hM.nodes p (by rw [ho]; simp)] at hr
  obtain rfl : M.nodes p = r := Except.ok.inj hr
  set P : Nat → ℝ[X] := fun j => M.piece (fun k => T.x ph k j) 0 with hP
  have hdeg : ∀ j < ocp.nx, (P j).natDegree ≤ p := fun j _ => by
    have := hg.piece_degrees (fun k => T.x ph k j) 0 hs
    rwa [← Mesh.order_eq hs, hord] at this
  have e := hrule (quadPoly q ocp.nx P) (by
    have := natDegree_derivative_le (quadPoly q ocp.nx P)
    have := quadPoly_natDegree q hdeg
    omega)
  have hval : ∀ i ≤ p, ∀ j, (P j).eval (M.node 0 i) = T.x ph i j := fun i hi j => by
    have := hg.piece_eval_node (fun k => T.x ph k j) hs (i := i) (by omega)
    rwa [hidx] at this
  rw [quadPoly_eval, quadPoly_eval, ← hM.tau0, ← hM.tau1, ← hg.node_first hs, ← hg.node_last hs, hord] at e
  simp only [hval p le_rfl, hval 0 (Nat.zero_le _)] at e
  rw [← e, hg.node_first hs, ← hord, hg.node_last hs, hord, hM.tau0, hM.tau1, ← hWq]
  unfold weightedSum
  rw [Finset.mul_sum]
  refine Finset.sum_congr rfl fun i hi => ?_
  have hi : i ≤ p := by
    have := Finset.mem_range.1 hi
    rw [hWq, length_quadWeights, hspan.length] at this
    omega
  have hn : (M.nodes p).getD i 0 = M.node 0 i := by rw [Mesh.node, hord]
  dsimp only
  rw [hn, quadPoly_derivative, quadPower_congr (u := fun j => M.halfWidth T ph 0 *
    F.f (ocp.pArg T ph i (M.time T ph 0 (M.node 0 i))) j) (fun j _ => hval i hi j)
    (fun j hj => by
      have := hC F hF j hj 0 i ⟨hs, by omega, Or.inl rfl⟩
      rwa [hidx] at this), quadPower_smul]
  ring

end MPOpt
