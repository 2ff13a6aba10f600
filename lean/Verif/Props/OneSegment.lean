import Verif.Props.Certificate
import Verif.Props.ChebWeights
import Verif.Props.ExactFree
import Verif.Props.Rest
import Verif.Props.Existence

/-! # C112: with one segment per phase all three node schemes keep the guarantees of LGR -/

set_option autoImplicit false
set_option linter.unusedSectionVars false

namespace MPOpt
open Polynomial

variable {M : Mesh ℝ} {ocp : OCP ℝ} {T : Traj ℝ}

/-- Node scheme, order of the only segment, and the degree of polynomials that scheme integrates exactly there. -/
inductive OneSegment (lib : NodeLib ℝ) : String → Nat → Nat → Prop
  | lgr {p : Nat} : 2 ≤ p → IsJacobiRoots 1 0 (p - 1) (lib.jroots (p - 1) 1 0) → OneSegment lib "LGR" p (2 * p - 2)
  | lgl {p : Nat} : 2 ≤ p → IsJacobiRoots 1 1 (p - 1) (lib.jroots (p - 1) 1 1) → OneSegment lib "LGL" p (2 * p - 1)
  | cgl {p : Nat} : 1 ≤ p → IsCosine lib → OneSegment lib "CGL" p p

/-- Nodes and weights of the schemes. -/
theorem OneSegment.rule {lib : NodeLib ℝ} {scheme : String} {p d : Nat} (h : OneSegment lib scheme p d) (m : Method)
    {lo hi : ℝ} (hlt : lo < hi) : ∃ r, tausFn lib lo hi scheme p = .ok r ∧ NodesSpan lo hi p r ∧
      (∀ x ∈ quadWeights m r lo hi, 0 ≤ x) ∧ (∀ x ∈ (quadWeights m r lo hi).tail, 0 < x) ∧ ∀ Q : ℝ[X], (derivative Q).natDegree ≤ d →
        weightedSum (quadWeights m r lo hi) (fun j => (derivative Q).eval (r.getD j 0)) = Q.eval hi - Q.eval lo := by
  cases h with
  | lgr h2 hj =>
    obtain ⟨r, hr, hs⟩ := C01_lgr_nodes lib lo hi hlt p (by omega) fun _ => hj
    obtain ⟨r', hr', ws, hws, -, hp⟩ := C67_lgr lib m lo hi hlt p h2 hj
    rw [hr] at hr'; cases hr'
    refine ⟨r, hr, hs, fun x hx => ?_, by rw [hws]; exact hp, fun Q hQ => ?_⟩
    · rw [hws] at hx
      rcases List.mem_cons.1 hx with rfl | hx
      · exact le_rfl
      · exact (hp x hx).le
    · obtain ⟨r', hr', e⟩ := C05_lgr_gauss lib m lo hi hlt p h2 hj Q hQ
      rw [hr] at hr'; cases hr'
      exact e _ fun j hj => by rw [List.getD_eq_getElem _ _ hj]
  | lgl h2 hj =>
    obtain ⟨r, hr, hs, hp⟩ := lgl_positive lib m hlt (orders := [p]) (by simpa using h2) (by simpa using hj) p (by simp)
    refine ⟨r, hr, hs, fun x hx => (hp x hx).le, fun x hx => hp x (List.mem_of_mem_tail hx), fun Q hQ => ?_⟩
    obtain ⟨r', hr', e⟩ := C05_lgl_gauss lib m lo hi hlt p h2 hj Q hQ
    rw [hr] at hr'; cases hr'
    exact e _ fun j hj => by rw [List.getD_eq_getElem _ _ hj]
  | cgl h1 hc =>
    obtain ⟨r, hr, hs, hp⟩ := cgl_positive lib hc m hlt (orders := [p]) (by simpa using h1) p (by simp)
    refine ⟨r, hr, hs, fun x hx => (hp x hx).le, fun x hx => hp x (List.mem_of_mem_tail hx), fun Q hQ => ?_⟩
    exact C05_quadrature_exact m r (hs.sorted.imp fun h => h.ne) p hs.length lo hi Q hQ _
      fun j hj => by rw [List.getD_eq_getElem _ _ hj]

section
variable {V : Type} {w : Outside ℝ V} {scheme : String} {n : Nat} {arg : OrdersArg} {p d : Nat}

/-- The composite weights of a single segment are the weights of the scheme. -/
theorem OneSegment.weights (h : OneSegment w.lib scheme p d) (hM : MeshFor w scheme n arg M) (ho : M.orders = [p])
    (hlt : w.tau0 < w.tau1) {W : List ℝ}
    (hW : compQuadWeights ⟨w.method, w.tau0, w.tau1, tausFn w.lib w.tau0 w.tau1 scheme⟩ M.orders = .ok W) :
    W = quadWeights w.method (M.nodes p) w.tau0 w.tau1 := by
  obtain ⟨r, hr, hs, -⟩ := h.rule w.method hlt
  have hnodes := hM.nodes p (by rw [ho]; simp)
  rw [hr] at hnodes
  obtain rfl : r = M.nodes p := by injection hnodes
  rw [ho] at hW
  unfold compQuadWeights at hW
  simp only [List.mapM_cons, List.mapM_nil, hr, py_bind_ok] at hW
  cases hq : quadWeights w.method (M.nodes p) w.tau0 w.tau1 with
  | nil =>
    have := length_quadWeights w.method (M.nodes p) w.tau0 w.tau1
    rw [hq, hs.length] at this
    simp at this
  | cons a l =>
    simp only [hq] at hW
    injection hW with hW
    rw [← hW]; simp

/-- **C112** On a single segment the weights are nonnegative and integrate polynomials of degree `2 p - 2` (LGR), `2 p - 1`
(LGL) and `p` (CGL). All weights but perhaps the first are positive. -/
theorem C112_integrates (h : OneSegment w.lib scheme p d) (hM : MeshFor w scheme n arg M) (ho : M.orders = [p])
    (hlt : w.tau0 < w.tau1) {W : List ℝ}
    (hW : compQuadWeights ⟨w.method, w.tau0, w.tau1, tausFn w.lib w.tau0 w.tau1 scheme⟩ M.orders = .ok W) :
    M.Inside ∧ M.Integrates W (fun _ => d) ∧ W.length = M.N ∧ (∀ x ∈ W, 0 ≤ x) ∧ ∀ x ∈ W.tail, 0 < x := by
  obtain ⟨r, hr, hs, hp, hp', hex⟩ := h.rule w.method hlt
  have hnodes := hM.nodes p (by rw [ho]; simp)
  rw [hr] at hnodes
  obtain rfl : r = M.nodes p := by injection hnodes
  have hG : GoodNodes ⟨w.method, w.tau0, w.tau1, tausFn w.lib w.tau0 w.tau1 scheme⟩ M.orders M.nodes := by
    intro q hq
    rw [ho] at hq
    obtain rfl := List.mem_singleton.1 hq
    exact ⟨hr, hs.length, hs.sorted.imp fun h => h.ne⟩
  have hlen1 : M.orders.length = 1 := by rw [ho]; rfl
  refine ⟨fun q hq v hv => ?_, fun Q k v hQ hv => ?_, weights_length hM hW, ?_, ?_⟩
  · rw [ho] at hq
    obtain rfl := List.mem_singleton.1 hq
    obtain ⟨k, hk, rfl⟩ := List.getElem_of_mem hv
    have hlen := hs.length
    have hmono : ∀ i j (hi : i < (M.nodes q).length) (hj : j < (M.nodes q).length), i ≤ j →
        (M.nodes q)[i] ≤ (M.nodes q)[j] := by
      intro i j hi hj hij
      rcases Nat.eq_or_lt_of_le hij with rfl | h
      · exact le_rfl
      · exact (List.pairwise_iff_getElem.1 hs.sorted i j hi hj h).le
    have h0 := hM.good.first q (by rw [ho]; simp)
    have h1 := hM.good.last q (by rw [ho]; simp)
    rw [List.getElem?_eq_getElem (by omega)] at h0 h1
    rw [← Option.some.inj h0, ← Option.some.inj h1]
    exact ⟨hmono _ _ _ _ (Nat.zero_le _), hmono _ _ _ _ (by omega)⟩
  · obtain ⟨W', hW', -, e⟩ := composite_quadrature _ M.orders hM.good.nonempty M.nodes hG Q (fun s hs => by
      obtain rfl : s = 0 := by omega
      have e : M.orders[0] = p := by simp [ho]
      rw [e]
      exact hex (Q 0) (hQ 0 hs)) k v hv
    rw [hW] at hW'
    obtain rfl : W = W' := by injection hW'
    rw [e, hM.tau0, hM.tau1, hlen1]
    simp
  · rw [h.weights hM ho hlt hW]
    exact hp
  · rw [h.weights hM ho hlt hW]
    exact hp'

/-- **C112** These degrees are the largest possible: degree `2 p - 1` is not integrated by LGR, and degree `2 p` by no scheme. -/
theorem C112_sharp (h : OneSegment w.lib scheme p d) (hM : MeshFor w scheme n arg M) (ho : M.orders = [p])
    (hlt : w.tau0 < w.tau1) {W : List ℝ}
    (hW : compQuadWeights ⟨w.method, w.tau0, w.tau1, tausFn w.lib w.tau0 w.tau1 scheme⟩ M.orders = .ok W) :
    ¬ M.Integrates W (fun _ => if scheme = "LGR" then 2 * p - 1 else 2 * p) := by
  intro hint
  obtain ⟨r, hr, hs, -⟩ := h.rule w.method hlt
  have hnodes := hM.nodes p (by rw [ho]; simp)
  rw [hr] at hnodes
  obtain rfl : r = M.nodes p := by injection hnodes
  have hWq := h.weights hM ho hlt hW
  have hlen1 : M.orders.length = 1 := by rw [ho]; rfl
  have h1p : 1 ≤ p := by cases h <;> omega
  -- vanishes at all inner nodes
  set N := Lagrange.nodal (Finset.Ioo 0 p) (fun j => (M.nodes p).getD j 0) with hN
  have hNdeg : N.natDegree = p - 1 := by rw [hN, Lagrange.natDegree_nodal]; simp
  set L : ℝ[X] := if scheme = "LGR" then 1 else X - C w.tau0 with hL
  set P : ℝ[X] := L * (C w.tau1 - X) * N ^ 2 with hP
  have hdegL : L.natDegree ≤ if scheme = "LGR" then 0 else 1 := by
    rw [hL]; split
    · simp
    · exact natDegree_X_sub_C_le _
  have hdeg : P.natDegree ≤ if scheme = "LGR" then 2 * p - 1 else 2 * p := by
    have h1 : (C w.tau1 - X : ℝ[X]).natDegree ≤ 1 :=
      (natDegree_sub_le _ _).trans (max_le (by simp) natDegree_X_le)
    have h2 : (N ^ 2).natDegree ≤ 2 * (p - 1) := natDegree_pow_le.trans (by rw [hNdeg])
    have h3 : P.natDegree ≤ L.natDegree + 1 + 2 * (p - 1) :=
      natDegree_mul_le.trans (Nat.add_le_add (natDegree_mul_le.trans (Nat.add_le_add le_rfl h1)) h2)
    split at hdegL <;> rename_i hsch
    · rw [if_pos hsch]; omega
    · rw [if_neg hsch]; omega
  obtain ⟨Q, hQ, -⟩ := exists_antiderivative P
  have hfirst : (M.nodes p).getD 0 0 = w.tau0 := by
    have := hM.good.first p (by rw [ho]; simp)
    rw [List.getD_eq_getElem?_getD, this, hM.tau0]; rfl
  have hlast : (M.nodes p).getD p 0 = w.tau1 := by
    have := hM.good.last p (by rw [ho]; simp)
    rw [List.getD_eq_getElem?_getD, this, hM.tau1]; rfl
  have hinner : ∀ i, 0 < i → i < p → N.eval ((M.nodes p).getD i 0) = 0 := fun i h0 h1 =>
    Lagrange.eval_nodal_at_node (v := fun j => (M.nodes p).getD j 0) (Finset.mem_Ioo.2 ⟨h0, h1⟩)
  have e := hint (fun _ => Q) (fun _ => 1) (fun i => P.eval ((M.nodes p).getD i 0)) (fun s _ => by rw [hQ]; exact hdeg) (by
    intro s hs' i _ _
    obtain rfl : s = 0 := by omega
    have e0 : M.orders[0] = p := by simp [ho]
    simp only [hQ, e0, one_mul]
    simp [segStart])
  have hzero : weightedSum W (fun i => P.eval ((M.nodes p).getD i 0)) = 0 := by
    unfold weightedSum
    refine Finset.sum_eq_zero fun i hi => ?_
    have hi : i < p + 1 := by
      have := Finset.mem_range.1 hi
      rwa [hWq, length_quadWeights, hs.length] at this
    rcases Nat.eq_zero_or_pos i with rfl | h0
    · by_cases hsch : scheme = "LGR"
      · have hj : 2 ≤ p ∧ IsJacobiRoots 1 0 (p - 1) (w.lib.jroots (p - 1) 1 0) := by
          clear_value L P N
          clear hint hr hW hM hL hdegL hdeg
          cases h with
          | lgr h2 hj => exact ⟨h2, hj⟩
          | lgl _ _ => exact absurd hsch (by decide)
          | cgl _ _ => exact absurd hsch (by decide)
        · subst hsch
          obtain ⟨r', hr', hz⟩ := C05_lgr_first_weight_zero w.lib w.method w.tau0 w.tau1 hlt p hj.1 hj.2
          rw [hr] at hr'
          cases hr'
          rw [hWq, List.getD_eq_getElem?_getD, ← List.head?_eq_getElem?, hz]
          simp
      · simp [hP, hL, hsch, -List.getD_eq_getElem?_getD, hfirst]
    · rcases Nat.lt_or_ge i p with h1 | h1
      · simp [hP, -List.getD_eq_getElem?_getD, hinner i h0 h1]
      · obtain rfl : i = p := by omega
        simp [hP, -List.getD_eq_getElem?_getD, hlast]
  rw [hzero, hlen1] at e
  simp only [Finset.sum_range_one, one_mul] at e
  have hint' : ∫ x in w.tau0..w.tau1, P.eval x = Q.eval w.tau1 - Q.eval w.tau0 := by
    rw [← hQ]
    apply intervalIntegral.integral_eq_sub_of_hasDerivAt (f := fun x => Q.eval x)
    · intro x _; exact Q.hasDerivAt x
    · exact (derivative Q).continuous.intervalIntegrable _ _
  have hLpos : ∀ x, w.tau0 < x → 0 < L.eval x := fun x hx => by
    rw [hL]; split
    · simp
    · simpa using hx
  obtain ⟨c, ⟨c0, c1⟩, hc⟩ : ∃ c, c ∈ Set.Ioo w.tau0 w.tau1 ∧ N.eval c ≠ 0 := by
    have hne : N ≠ 0 := Lagrange.nodal_ne_zero
    obtain ⟨c, h1, h2⟩ := ((Set.Ioo_infinite hlt).sdiff (N.roots.toFinset.finite_toSet)).nonempty
    refine ⟨c, h1, fun h => h2 ?_⟩
    simpa using ⟨hne, h⟩
  have hpos : 0 < ∫ x in w.tau0..w.tau1, P.eval x := by
    refine intervalIntegral.integral_pos hlt P.continuous.continuousOn (fun x hx => ?_) ⟨c, ⟨c0.le, c1.le⟩, ?_⟩
    · simp only [hP, eval_mul, eval_sub, eval_C, eval_X, eval_pow]
      exact mul_nonneg (mul_nonneg (hLpos x hx.1).le (sub_nonneg.2 hx.2)) (sq_nonneg _)
    · simp only [hP, eval_mul, eval_sub, eval_C, eval_X, eval_pow]
      exact mul_pos (mul_pos (hLpos c c0) (sub_pos.2 c1)) (by positivity)
  rw [hint', ← hM.tau0, ← hM.tau1, ← e] at hpos
  exact lt_irrefl _ hpos

/-- **C112** Certificates bound the cost on a single segment of any scheme. -/
theorem C112_certificate {c : Certificate} {lower : ℝ} (hc : c.Proves ocp lower) (hv : ValidOCP ocp)
    (h : OneSegment w.lib scheme p d) (hM : MeshFor w scheme n arg M) (ho : M.orders = [p]) (hlt : w.tau0 < w.tau1)
    (hprice : ∀ ph < ocp.nPhases, ∀ j < ocp.nx, (c.price ph j).natDegree + p ≤ d + 1)
    (hfree : ∀ ph < ocp.nPhases, (c.free ph).natDegree ≤ d + 1) {W : List ℝ}
    (hW : compQuadWeights ⟨w.method, w.tau0, w.tau1, tausFn w.lib w.tau0 w.tau1 scheme⟩ M.orders = .ok W)
    (hT : CoreFeasible ocp M T) (hw : ∀ ph < ocp.nPhases, T.w 0 ph = 1) (ht : ∀ ph < ocp.nPhases, T.t0 ph ≤ T.tf ph)
    {J : ℝ} (hJ : PhysCost ocp M W T J) : lower ≤ J := by
  obtain ⟨hI, hint, hl, hnn, -⟩ := C112_integrates h hM ho hlt hW
  have hlen1 : M.orders.length = 1 := by rw [ho]; rfl
  have hzero : ∀ s < M.orders.length, s = 0 := fun s hs => by omega
  refine C106_bound hc hM.good hI hint hnn hl hv (fun ph hp s hs j hj => ?_) (fun ph hp s hs => hfree ph hp) hT
    (fun ph hp => ⟨fun s hs => ?_, by rw [hlen1]; simpa using hw ph hp⟩) ht hJ
  · rw [hzero s hs]
    have : M.order 0 = p := by simp [Mesh.order, ho]
    rw [this]
    exact hprice ph hp j hj
  · rw [hzero s hs, hw ph hp]; norm_num

variable {nlpsol : SolverCall ℝ V → Py (List ℝ)} {ptp : List (List Nat)} {rx rdx : Bool} {po : Post ℝ}
  {r : Option (PyDict (ResidVal ℝ))}

/-- With one segment per phase the only admissible width is 1. -/
theorem WidthsAre.one {req : Option (List ℝ)} (h : WidthsAre ocp 1 req T) (hg : GoodWidths ocp 1 req) :
    ∀ ph < ocp.nPhases, T.w 0 ph = 1 := fun ph hp => by simpa using (h.fills Nat.one_pos hg ph hp).2

/-- **C112** Certificates bound what `solve` shows, whatever feasible point the NLP solver returns. -/
theorem C112_solve_certificate {c : Certificate} {lower : ℝ} (hc : c.Proves ocp lower) {a : SolveArgs ℝ V} {s : Session ℝ V}
    (hrun : mpSolve w nlpsol ocp ptp 1 arg scheme a rx rdx = .ok (s, po, r)) (hv : ValidOCP ocp) (hs : ocp.SettingsOK)
    (hsc : ocp.PosScales) (hM : MeshFor w scheme 1 arg M) (h : OneSegment w.lib scheme p d) (ho : M.orders = [p])
    (hlt : w.tau0 < w.tau1) (hprice : ∀ ph < ocp.nPhases, ∀ j < ocp.nx, (c.price ph j).natDegree + p ≤ d + 1)
    (hfree : ∀ ph < ocp.nPhases, (c.free ph).natDegree ≤ d + 1) (hwid : GoodWidths ocp 1 a.widths)
    (hsound : ∀ c z, nlpsol c = .ok z → c.IsSolution z) :
    ∃ T, SolvesOCP ocp M T ∧ WidthsAre ocp 1 a.widths T ∧ po.Shows ocp M T ∧
      ∀ W, compQuadWeights ⟨w.method, w.tau0, w.tau1, tausFn w.lib w.tau0 w.tau1 scheme⟩ M.orders = .ok W →
        AtLeast lower ocp M W T := by
  obtain ⟨T, hT, hw, hsh⟩ := C52_solve_feasible hrun hv hs hsc hM hsound
  exact ⟨T, hT, hw, hsh, fun W hW ht J hJ => C112_certificate hc hv h hM ho hlt hprice hfree hW hT.1.core (hw.one hwid) ht hJ⟩

/-- **C112** With a globally optimal NLP solver `solve` on a single segment of order `p` shows a trajectory that costs no more
than any solution of the continuous-time problem whose states are polynomials of degree `p` and whose running cost is one of
degree at most `2 p - 2` (LGR), `2 p - 1` (LGL) or `p` (CGL). -/
theorem C112_solve_beats {a : SolveArgs ℝ V} {s : Session ℝ V}
    (hrun : mpSolve w nlpsol ocp ptp 1 arg scheme a rx rdx = .ok (s, po, r)) (hv : ValidOCP ocp) (hs : ocp.SettingsOK)
    (hsc : ocp.PosScales) (hM : MeshFor w scheme 1 arg M) (h : OneSegment w.lib scheme p d) (ho : M.orders = [p])
    (hlt : w.tau0 < w.tau1) (hwid : GoodWidths ocp 1 a.widths) (hopt : ∀ c z, nlpsol c = .ok z → c.IsOptimal z)
    (hdu : ∀ ph < ocp.nPhases, ocp.duContinuity.getD ph false = false)
    (hdf : ∀ ph < ocp.nPhases, ocp.diffU.getD ph false = false) :
    ∃ T W J, compQuadWeights ⟨w.method, w.tau0, w.tau1, tausFn w.lib w.tau0 w.tau1 scheme⟩ M.orders = .ok W ∧
      SolvesOCP ocp M T ∧ WidthsAre ocp 1 a.widths T ∧ po.Shows ocp M T ∧ PhysCost ocp M W T J ∧
      ∀ C, SolvesContinuously ocp C →
        (∀ ph < ocp.nPhases, ∀ j < ocp.nx, ∃ P : ℝ[X], P.natDegree ≤ p ∧ ∀ t ∈ Set.Icc (C.t0 ph) (C.tf ph), C.x ph j t = P.eval t) →
        (∀ ph < ocp.nPhases, ocp.midu.getD ph false = true → ∀ j < ocp.nu,
          ∃ P : ℝ[X], P.natDegree ≤ p ∧ ∀ t ∈ Set.Icc (C.t0 ph) (C.tf ph), C.u ph j t = P.eval t) →
        (∀ ph < ocp.nPhases, ∃ P : ℝ[X], P.natDegree ≤ d ∧ ∀ t ∈ Set.Icc (C.t0 ph) (C.tf ph),
          ocp.runningCosts.getD ph (fun _ => 0) (ocp.cArg C ph t) = P.eval t) →
        J ≤ ocp.trueCost C := by
  obtain ⟨T, W, J, h1, h2, h3, h4, h5, h6⟩ := C53_solve_optimal hrun hv hs hsc hM hopt
  obtain ⟨hI, hW, -⟩ := C112_integrates h hM ho hlt h1
  have hlen1 : M.orders.length = 1 := by rw [ho]; rfl
  have hord : M.order 0 = p := by simp [Mesh.order, ho]
  refine ⟨T, W, J, h1, h2, h3, h4, h5, fun C hC hx hu hc => ?_⟩
  obtain ⟨T', hT', hw'⟩ := exists_samples_of ocp M C T.w
  have hww : ∀ ph < ocp.nPhases, T'.w 0 ph = 1 := by rw [hw']; exact h3.one hwid
  have hb : ∀ ph < ocp.nPhases, C.breakTime T'.w ph 0 = C.t0 ph ∧ C.breakTime T'.w ph (0 + 1) = C.tf ph := fun ph hp => by
    simp [CTraj.breakTime, hww ph hp]
  have hf : ∀ ph < ocp.nPhases, FullWidths M T' ph := fun ph hp => by
    refine ⟨fun s hs => ?_, by rw [hlen1]; simpa using hww ph hp⟩
    obtain rfl : s = 0 := by omega
    rw [hww ph hp]; norm_num
  have hz : ∀ s < M.orders.length, s = 0 := fun s hs => by omega
  refine h6 T' _ (C56_exact_feasible hM.good hI hC hs.linkRange hT' hf (fun ph hp j hj s hs' => ?_)
    (fun ph hp hm j hj s hs' => ?_) hdu hdf) (by unfold WidthsAre OCP.packWidths at h3 ⊢; rw [hw']; exact h3)
    (C57_cost hM.good hI hW hv.runningCosts hT' hf (fun ph hp => (hC.phase ph hp).order) fun ph hp s hs' => ?_)
  · obtain rfl := hz s hs'
    rw [(hb ph hp).1, (hb ph hp).2, hord]; exact hx ph hp j hj
  · obtain rfl := hz s hs'
    rw [(hb ph hp).1, (hb ph hp).2, hord]; exact hu ph hp hm j hj
  · obtain rfl := hz s hs'
    rw [(hb ph hp).1, (hb ph hp).2]
    obtain ⟨P, h1, h2⟩ := hc ph hp
    exact ⟨P, h1, fun t ht _ => h2 t ht⟩

/-- **C112** With a globally optimal NLP solver a single segment of any scheme costs no more than a rest point. -/
theorem C112_rest {R : Rest} {rate : Nat → ℝ} (hr : ValidOCP ocp ∧ ocp.SettingsOK ∧ ocp.PosScales) (hR : R.Holds ocp)
    (hc : R.Costs ocp rate) {a : SolveArgs ℝ V} {s : Session ℝ V}
    (hrun : mpSolve w nlpsol ocp ptp 1 arg scheme a rx rdx = .ok (s, po, r)) (hM : MeshFor w scheme 1 arg M)
    (h : OneSegment w.lib scheme p d) (ho : M.orders = [p]) (hlt : w.tau0 < w.tau1) (hwid : GoodWidths ocp 1 a.widths)
    (hopt : ∀ c z, nlpsol c = .ok z → c.IsOptimal z) :
    ∃ T W J, compQuadWeights ⟨w.method, w.tau0, w.tau1, tausFn w.lib w.tau0 w.tau1 scheme⟩ M.orders = .ok W ∧
      SolvesOCP ocp M T ∧ WidthsAre ocp 1 a.widths T ∧ po.Shows ocp M T ∧ PhysCost ocp M W T J ∧ J ≤ ocp.restCost R rate := by
  obtain ⟨hv, hs, hsc⟩ := hr
  obtain ⟨T, W, J, h1, h2, h3, h4, h5, h6⟩ := C53_solve_optimal hrun hv hs hsc hM hopt
  obtain ⟨hI, hint, -⟩ := C112_integrates h hM ho hlt h1
  have hW' : WidthsAre ocp 1 a.widths (R.traj T.w) := h3
  have hsh : ∀ ph < ocp.nPhases, Shares M (R.traj T.w) ph := fun ph hp => by
    have e := hW'.one hwid ph hp
    refine ⟨fun s hs => ?_, by rw [ho]; simpa using e⟩
    obtain rfl : s = 0 := by rw [ho] at hs; simpa using hs
    rw [e]; norm_num
  exact ⟨T, W, J, h1, h2, h3, h4, h5, h6 _ _ (C111_feasible hM.good hI hR hsh) hW'
    (C111_cost hM.good hI hR hv.runningCosts hsh hint hc)⟩

end

end MPOpt
