import Verif.Model.Adaptive
import Verif.Spec.Adaptive
import Verif.Lemmas.Nlp

/-! # The blocks of `mpopt_adaptive` in closed form -/

set_option autoImplicit false
set_option linter.unusedSectionVars false

namespace MPOpt
open Polynomial
open Disc (Block NodeArg NLP)

variable {K : Type} [Field K] [LinearOrder K] {d : Disc K} {M : Mesh K}

/-- The midpoints of the nodes of every segment. -/
def Mesh.midTaus (M : Mesh K) : List (List K) := M.orders.map fun p => Disc.midPoints (M.nodes p)

theorem Disc.OnMesh.midTaus_ok (h : d.OnMesh M) :
    (d.orders.mapM fun p => do return Disc.midPoints (← d.colloc.taus p)) = .ok M.midTaus := by
  unfold Mesh.midTaus
  rw [h.orders]
  apply mapM_ok
  intro p hp
  rw [h.taus p hp]; rfl

theorem Mesh.Good.midTaus_lens (h : M.Good) : M.midTaus.map List.length = M.orders := by
  unfold Mesh.midTaus
  rw [List.map_map]
  conv_rhs => rw [← List.map_id M.orders]
  apply List.map_congr_left
  intro p hp
  simp only [Function.comp_apply, id_eq, length_midPoints, h.length p hp]
  omega

theorem Mesh.midTaus_length : M.midTaus.length = M.orders.length := by simp [Mesh.midTaus]

theorem Mesh.midTaus_getElem (s : Nat) (hs : s < M.midTaus.length) (i : Nat)
    (hi : i < M.midTaus[s].length) :
    M.midTaus[s][i] = (M.node s i + M.node s (i + 1)) / 2 := by
  have hs2 : s < M.orders.length := by simpa [Mesh.midTaus] using hs
  simp only [Mesh.midTaus, List.getElem_map, midPoints_getElem]
  unfold Mesh.node
  rw [Mesh.order_eq hs2]

theorem Mesh.Good.midTaus_seg (h : M.Good) {s : Nat} (hs : s < M.midTaus.length) :
    M.midTaus[s].length = M.order s := by
  have hs2 : s < M.orders.length := by simpa [Mesh.midTaus] using hs
  rw [Mesh.order_eq hs2]
  have : (M.midTaus.map List.length)[s]'(by simpa using hs) = M.orders[s] := by
    simp only [h.midTaus_lens]
  simpa using this

/-- Rows of a composite interpolation at the midpoints, one after the other. -/
theorem Mesh.Good.mid_rows (h : M.Good) (P : Nat → Prop) :
    (∀ r < M.orders.sum, P r) ↔
      ∀ s < M.orders.length, ∀ i < M.order s, P (segStart M.orders s + i) := by
  constructor
  · intro hh s hs i hi
    apply hh
    have := Mesh.idx_lt (M := M) hs (i := i + 1) (by omega)
    unfold Mesh.idx Mesh.N at this
    omega
  · intro hh r hr
    obtain ⟨s, i, ho, hi⟩ := M.exists_owner h.nonempty (k := r + 1) (by unfold Mesh.N; omega)
    have hi1 : 1 ≤ i := by
      rcases ho.2.2 with rfl | h
      · unfold Mesh.idx at hi; rw [segStart_zero] at hi; omega
      · exact h
    have hlt : i - 1 < M.order s := by have := ho.2.1; omega
    have hr' : r = segStart M.orders s + (i - 1) := by unfold Mesh.idx at hi; omega
    rw [hr']
    exact hh s ho.1 _ hlt

variable [IsStrictOrderedRing K]

/-- Rows on interpolated values ⇔ the scaled values are within the scaled bounds, in the sense of `W`. -/
theorem boxBlock_rows (hM : M.Good) {n : Nat} {lo hi : List (Ext K)} {sc : List K}
    (hlo : lo.length = n) (hhi : hi.length = n) (hscl : sc.length = n) (hsc : ∀ s ∈ sc, 0 < s)
    (hord : ∀ (i : Nat) (a b : Ext K), lo[i]? = some a → hi[i]? = some b → Ext.le a b = true)
    (e : Mat (SX K)) (hr : e.rows = M.orders.sum) (hc : e.cols = n) (val : Env K → Nat → Nat → Nat → K)
    (hval : ∀ σ, ∀ j < n, ∀ s < M.orders.length, ∀ i < M.order s,
      e.e (segStart M.orders s + i) j σ = sc.getD j 0 * val σ j s i) :
    ∃ B, boxBlock e lo hi sc = .ok B ∧ B.Sized ∧
      ∀ (W : Ext K → Ext K → K → Prop) (σ : Env K), (∀ v, W .ninf .pinf v) →
        (B.SatBy W σ ↔ ∀ j < n, ∀ s < M.orders.length, ∀ i < M.order s,
          W (Ext.mul (lo.getD j .nan) (sc.getD j 0)) (Ext.mul (hi.getD j .nan) (sc.getD j 0))
            (sc.getD j 0 * val σ j s i)) := by
  unfold boxBlock
  by_cases hany : (lo.any (fun b => Ext.lt .ninf b) || hi.any (fun b => Ext.lt b .pinf)) = true
  · rw [if_pos hany]
    have e2 : (List.zipWith Ext.mul lo sc).length = n := by simp [hlo, hscl]
    have e3 : (List.zipWith Ext.mul hi sc).length = n := by simp [hhi, hscl]
    unfold scaleRow
    rw [if_pos (by rw [hlo, hscl]), if_pos (by rw [hhi, hscl])]
    simp only [py_bind_ok]
    refine ⟨_, rfl, ?_, fun W σ _ => ?_⟩
    · constructor
      · rw [Mat.length_vec, List.length_flatMap]
        simp only [List.length_replicate, List.map_const', List.sum_replicate, e2, hc]
        rfl
      · rw [Mat.length_vec, List.length_flatMap]
        simp only [List.length_replicate, List.map_const', List.sum_replicate, e3, hc]
        rfl
    · unfold Block.SatBy
      simp only []
      rw [flatMap_eq_range (List.zipWith Ext.mul lo sc) .nan,
        flatMap_eq_range (List.zipWith Ext.mul hi sc) .nan, e2, e3]
      have hv : evalAll e.vec σ = (List.range n).flatMap fun j =>
          (List.range e.rows).map fun r => e.e r j σ := by
        unfold evalAll Mat.vec
        rw [List.map_flatMap, hc]
        simp only [List.map_map, Function.comp_def]
      rw [hv]
      simp only [replicate_eq_map_range]
      rw [holdsBy_flatMap _ _ _ _ (by simp) (by simp)]
      simp only [holdsBy_map_range]
      rw [hr]
      apply forall_congr'
      intro j
      apply imp_congr_right
      intro hj
      rw [hM.mid_rows]
      apply forall_congr'
      intro s
      apply imp_congr_right
      intro hs
      apply forall_congr'
      intro i
      apply imp_congr_right
      intro hi'
      rw [getD_zipWith_mul hlo hscl hj, getD_zipWith_mul hhi hscl hj, hval σ j hj s hs i hi']
  · rw [if_neg hany]
    refine ⟨_, rfl, sized_empty, fun W σ hW => ⟨fun _ => ?_, fun _ => satBy_empty σ⟩⟩
    simp only [Bool.or_eq_true, List.any_eq_true, not_or, not_exists, not_and] at hany
    intro j hj s hs2 i hi'
    have j2 : j < lo.length := by omega
    have j3 : j < hi.length := by omega
    rw [List.getD_eq_getElem _ _ j2, List.getD_eq_getElem _ _ j3]
    have hle := hord j _ _ (List.getElem?_eq_getElem j2) (List.getElem?_eq_getElem j3)
    have n2 := hany.1 _ (List.getElem_mem j2)
    have n3 := hany.2 _ (List.getElem_mem j3)
    obtain ⟨m2, m3⟩ := ext_of_le hle
    have q2 : lo[j] = .ninf := by
      generalize lo[j] = b at *
      cases b <;> simp_all [Ext.lt]
    have q3 : hi[j] = .pinf := by
      generalize hi[j] = b at *
      cases b <;> simp_all [Ext.lt]
    have hpos : 0 < sc.getD j 0 := getD_mem_ne hscl hsc hj
    rw [q2, q3]
    simp only [Ext.mul, hpos, if_true]
    exact hW _

/-- Product of a constant matrix with a matrix of symbols, row by row. -/
theorem mtimes_syms (I : Mat K) (N n : Nat) (hc : I.cols = N) (S : Nat → Nat → Sym) :
    ∃ E : Mat (SX K), (Disc.constMat I).mtimes ⟨N, n, fun i j => sym (S i j)⟩ = .ok E ∧
      E.rows = I.rows ∧ E.cols = n ∧ ∀ i j σ, E.e i j σ = I.rowDot i fun k => σ (S k j) := by
  refine ⟨⟨I.rows, n, fun i j => ∑ k ∈ Finset.range I.cols, (Disc.constMat I).e i k * sym (S k j)⟩,
    ?_, rfl, rfl, fun i j σ => ?_⟩
  · unfold Mat.mtimes
    rw [if_pos (by show I.cols = N; exact hc)]; rfl
  · simp only [Finset.sum_apply]; rfl

/-- Times at the midpoints of the grid are the times of the midpoints of the nodes. -/
theorem Disc.OnMesh.midTimes_spec (h : d.OnMesh M) {ph : Nat} (hph : ph < d.ocp.nPhases) :
    ∃ g, d.nodeGrid ph = .ok g ∧ (Adapt.midTimes (g.map (·.1))).length = M.orders.sum ∧
      ∀ s < M.orders.length, ∀ i < M.order s, ∃ t,
        (Adapt.midTimes (g.map (·.1)))[segStart M.orders s + i]? = some t ∧
        ∀ σ, t σ = M.time (physOf d.ocp σ) ph s ((M.node s i + M.node s (i + 1)) / 2) := by
  obtain ⟨g, hg, hlen, hspec⟩ := h.nodeGrid_spec hph
  have start : ∀ s < M.orders.length, ∃ th, g[segStart M.orders s]? = some th ∧
      ∀ σ, th.1 σ = M.time (physOf d.ocp σ) ph s (M.node s 0) := by
    intro s hs
    rcases Nat.eq_zero_or_pos s with rfl | hpos
    · obtain ⟨th, h1, h2, -⟩ := hspec 0 0 ⟨hs, by omega, Or.inl rfl⟩
      exact ⟨th, h1, h2⟩
    · obtain ⟨r, rfl⟩ : ∃ r, s = r + 1 := ⟨s - 1, by omega⟩
      have hr : r < M.orders.length := by omega
      have hp := h.good.order_pos hr
      obtain ⟨th, h1, h2, -⟩ := hspec r (M.order r) ⟨hr, le_rfl, Or.inr hp⟩
      refine ⟨th, ?_, fun σ => ?_⟩
      · rw [← h1]; congr 1
        unfold Mesh.idx
        rw [segStart_succ _ hr, Mesh.order_eq hr]
      · rw [h2, h.good.node_last hr, h.good.node_first hs]
        have := h.good.tau_ne
        simp only [Mesh.time, Mesh.halfWidth, Finset.sum_range_succ]
        field_simp
        ring
  refine ⟨g, hg, ?_, fun s hs i hi => ?_⟩
  · unfold Adapt.midTimes
    simp only [List.length_zipWith, List.length_map, List.length_tail, hlen]
    unfold Mesh.N
    omega
  · have hb : ∃ th, g[segStart M.orders s + (i + 1)]? = some th ∧
        ∀ σ, th.1 σ = M.time (physOf d.ocp σ) ph s (M.node s (i + 1)) := by
      obtain ⟨th, h1, h2, -⟩ := hspec s (i + 1) ⟨hs, by omega, Or.inr (by omega)⟩
      exact ⟨th, h1, h2⟩
    have ha : ∃ th, g[segStart M.orders s + i]? = some th ∧
        ∀ σ, th.1 σ = M.time (physOf d.ocp σ) ph s (M.node s i) := by
      rcases Nat.eq_zero_or_pos i with rfl | hpos
      · exact start s hs
      · obtain ⟨th, h1, h2, -⟩ := hspec s i ⟨hs, by omega, Or.inr hpos⟩
        exact ⟨th, h1, h2⟩
    obtain ⟨ta, ha1, ha2⟩ := ha
    obtain ⟨tb, hb1, hb2⟩ := hb
    refine ⟨fun σ => (ta.1 σ + tb.1 σ) / 2, ?_, fun σ => ?_⟩
    · unfold Adapt.midTimes
      rw [List.getElem?_zipWith, List.getElem?_tail, List.getElem?_map, List.getElem?_map, ha1,
        show segStart M.orders s + i + 1 = segStart M.orders s + (i + 1) by omega, hb1]
      rfl
    · simp only [ha2, hb2, Mesh.time]
      ring

/-- Settings of `mpopt_adaptive`: one entry per phase. The constructor sets them so
(`mkAdapt_ready`). -/
structure Adapt.Ready (ad : Adapt K) : Prop where
  lbh : ad.lbh.length = ad.disc.ocp.nPhases
  ubh : ad.ubh.length = ad.disc.ocp.nPhases
  tol : ad.tol.length = ad.disc.ocp.nPhases

omit [LinearOrder K] [IsStrictOrderedRing K] in
theorem mkAdapt_ready (d : Disc K) : (mkAdapt d).Ready :=
  ⟨by simp [mkAdapt], by simp [mkAdapt], by simp [mkAdapt]⟩

variable {ad : Adapt K}

/-- Residual rows of a segment ⇔ width-weighted scaled defects within tolerance, in the sense of `W`. -/
theorem residualSeg_rows (h : ad.disc.OnMesh M) (hv : ValidOCP ad.disc.ocp) (hsc : ad.disc.ocp.PosScales)
    {ph : Nat} (hph : ph < ad.disc.ocp.nPhases) {F : VFun (PArg K) K} (hF : F.len = ad.disc.ocp.nx)
    {I D : Mat K} {xi ui dxi : Mat (SX K)} {ti : List (SX K)}
    (hI : ∀ (v p : Nat → K) (c : K), c ≠ 0 → (∀ k, p k = v k / c) →
      ∀ s < M.orders.length, ∀ i < M.order s, I.rowDot (segStart M.orders s + i) v =
        c * (M.piece p s).eval ((M.node s i + M.node s (i + 1)) / 2))
    (hD : ∀ (v p : Nat → K) (c : K), c ≠ 0 → (∀ k, p k = v k / c) →
      ∀ s < M.orders.length, ∀ i < M.order s, D.rowDot (segStart M.orders s + i) v =
        c * (derivative (M.piece p s)).eval ((M.node s i + M.node s (i + 1)) / 2))
    (hxi : ∀ i j σ, xi.e i j σ = I.rowDot i fun k => σ (.X ph k j))
    (hui : ∀ i j σ, ui.e i j σ = I.rowDot i fun k => σ (.U ph k j))
    (hdxi : ∀ i j σ, dxi.e i j σ = D.rowDot i fun k => σ (.X ph k j))
    (hti : ∀ s < M.orders.length, ∀ i < M.order s, ∃ t,
        ti[segStart M.orders s + i]? = some t ∧
        ∀ σ, t σ = M.time (physOf ad.disc.ocp σ) ph s ((M.node s i + M.node s (i + 1)) / 2))
    {s : Nat} (hs : s < M.orders.length) :
    ∃ g, ad.residualSeg F M.midTaus xi ui dxi ti ph s = .ok g ∧
      g.length = ad.disc.ocp.nx * M.order s ∧
      ∀ (W : Ext K → Ext K → K → Prop) σ lo hi, (∀ e ∈ g, W lo hi (e σ)) ↔ ∀ j < ad.disc.ocp.nx, ∀ i < M.order s,
        W lo hi ((physOf ad.disc.ocp σ).w s ph * (ad.disc.ocp.scaleX.getD j 0 *
          ad.disc.ocp.defect M (physOf ad.disc.ocp σ) F ph s
            ((M.node s i + M.node s (i + 1)) / 2) j)) := by
  set d := ad.disc with hd
  have hseg : s < d.nSegments := by rw [← h.segLen]; exact hs
  have hw : d.segWidth s ph = .ok (sym (.H s ph)) := if_pos ⟨hseg, hph⟩
  have hms : s < M.midTaus.length := by rw [Mesh.midTaus_length]; exact hs
  have htau : pyIdx M.midTaus s = .ok M.midTaus[s] := pyIdx_ok hms
  have hlen : M.midTaus[s].length = M.order s := h.good.midTaus_seg hms
  have hst : ((M.midTaus.map List.length).take s).sum = segStart M.orders s := by
    rw [h.good.midTaus_lens]; rfl
  have ha : d.au ph = .ok _ := if_pos hv.scaleA
  set hh : SX K := fun σ => (σ (.Tf ph) - σ (.T0 ph)) / d.ocp.scaleT / (d.colloc.tau1 - d.colloc.tau0) *
    sym (.H s ph) σ with hhdef
  have hhh : ∀ σ, hh σ = M.halfWidth (physOf d.ocp σ) ph s := by
    intro σ
    simp only [hhdef, Mesh.halfWidth, physOf, h.tau0, h.tau1, sym, sub_div]
  have px : ∀ j < d.ocp.nx, d.ocp.scaleX.getD j 0 ≠ 0 :=
    fun j hj => (getD_mem_ne hv.scaleX hsc.x hj : (0:K) < _).ne'
  have pu : ∀ j < d.ocp.nu, d.ocp.scaleU.getD j 0 ≠ 0 :=
    fun j hj => (getD_mem_ne hv.scaleU hsc.u hj : (0:K) < _).ne'
  -- dynamics rows
  have hrow : ((List.range M.midTaus[s].length).mapM fun i => do
      let x ← unscale d.ocp.nx d.ocp.scaleX fun j => xi.e (segStart M.orders s + i) j
      let u ← unscale d.ocp.nu d.ocp.scaleU fun j => ui.e (segStart M.orders s + i) j
      let t ← pyIdx ti (segStart M.orders s + i)
      d.dynRow F ⟨x, u, t, d.ocp.aArg
        ((List.range d.ocp.na).map fun k => fun σ => sym (.A k ph) σ / d.ocp.scaleA.getD k 0), hh⟩) =
      .ok ((List.range M.midTaus[s].length).map fun i => (List.range d.ocp.nx).map fun j =>
        (fun σ => M.halfWidth (physOf d.ocp σ) ph s * (d.ocp.scaleX.getD j 0 *
          F.f (d.ocp.pArgAt M (physOf d.ocp σ) ph s ((M.node s i + M.node s (i + 1)) / 2)) j) :
            SX K)) := by
    apply mapM_ok
    intro i hi
    have hi : i < M.order s := by rw [← hlen]; simpa using hi
    obtain ⟨t, ht1, ht2⟩ := hti s hs i hi
    have e1 : unscale d.ocp.nx d.ocp.scaleX (fun j => xi.e (segStart M.orders s + i) j) = .ok _ :=
      if_pos hv.scaleX
    have e2 : unscale d.ocp.nu d.ocp.scaleU (fun j => ui.e (segStart M.orders s + i) j) = .ok _ :=
      if_pos hv.scaleU
    rw [e1, py_bind_ok, e2, py_bind_ok, pyIdx_eq_ok.2 ht1, py_bind_ok]
    unfold Disc.dynRow
    have hl : (F.traceP ((List.range d.ocp.nx).map fun j => fun σ =>
        xi.e (segStart M.orders s + i) j σ / d.ocp.scaleX.getD j 0)
        ((List.range d.ocp.nu).map fun j => fun σ =>
        ui.e (segStart M.orders s + i) j σ / d.ocp.scaleU.getD j 0) t (d.ocp.aArg
        ((List.range d.ocp.na).map fun k => fun σ =>
          sym (.A k ph) σ / d.ocp.scaleA.getD k 0))).length = d.ocp.nx := by
      simp [VFun.traceP, hF]
    simp only []
    rw [if_pos ⟨hl, hv.scaleX⟩]
    congr 1
    apply List.map_congr_left
    intro j hj
    have hj : j < d.ocp.nx := by simpa using hj
    funext σ
    rw [hhh]
    congr 2
    unfold VFun.traceP
    rw [getD_map_range _ _ _ (by rw [hF]; exact hj)]
    congr 1
    unfold OCP.pArgAt
    rw [PArg.mk.injEq]
    refine ⟨?_, ?_, ht2 σ, ?_⟩
    · rw [evalAll_unscale]
      apply List.map_congr_left
      intro k hk
      have hk : k < d.ocp.nx := by simpa using hk
      rw [hxi, hI _ (fun n => (physOf d.ocp σ).x ph n k) _ (px k hk) (fun n => rfl) s hs i hi,
        mul_div_cancel_left₀ _ (px k hk)]
    · rw [evalAll_unscale]
      apply List.map_congr_left
      intro k hk
      have hk : k < d.ocp.nu := by simpa using hk
      rw [hui, hI _ (fun n => (physOf d.ocp σ).u ph n k) _ (pu k hk) (fun n => rfl) s hs i hi,
        mul_div_cancel_left₀ _ (pu k hk)]
    · unfold OCP.aArg
      by_cases h0 : d.ocp.na = 0
      · simp [h0]
      · simp only [if_neg h0, Option.map_some, Option.some.injEq]
        rw [evalAll_unscale]; rfl
  have hpos := h.good.order_pos hs
  have key : ad.residualSeg F M.midTaus xi ui dxi ti ph s = .ok
      (⟨M.midTaus[s].length, d.ocp.nx, fun i j σ => σ (.H s ph) *
        (dxi.e (segStart M.orders s + i) j σ -
          (Mat.ofRows d.ocp.nx ((List.range M.midTaus[s].length).map fun i =>
            (List.range d.ocp.nx).map fun j => (fun σ => M.halfWidth (physOf d.ocp σ) ph s *
              (d.ocp.scaleX.getD j 0 * F.f (d.ocp.pArgAt M (physOf d.ocp σ) ph s
                ((M.node s i + M.node s (i + 1)) / 2)) j) : SX K))).e i j σ)⟩ : Mat (SX K)).vec := by
    unfold Adapt.residualSeg
    simp only [hhdef] at hrow
    simp only [← hd, hw, htau, ha, hst, py_bind_ok, hrow]
    rw [if_neg (by rw [hlen]; omega)]
    rfl
  refine ⟨_, key, ?_, fun W σ lo hi => ?_⟩
  · rw [Mat.length_vec]; simp only [hlen]
  have hval : ∀ j < d.ocp.nx, ∀ i < M.order s, σ (.H s ph) *
      (dxi.e (segStart M.orders s + i) j σ -
          (Mat.ofRows d.ocp.nx ((List.range M.midTaus[s].length).map fun i =>
            (List.range d.ocp.nx).map fun j => (fun σ => M.halfWidth (physOf d.ocp σ) ph s *
              (d.ocp.scaleX.getD j 0 * F.f (d.ocp.pArgAt M (physOf d.ocp σ) ph s
                ((M.node s i + M.node s (i + 1)) / 2)) j) : SX K))).e i j σ) =
      (physOf d.ocp σ).w s ph * (d.ocp.scaleX.getD j 0 *
          d.ocp.defect M (physOf d.ocp σ) F ph s ((M.node s i + M.node s (i + 1)) / 2) j) := by
    intro j hj i hi
    rw [hdxi, hD _ (fun n => (physOf d.ocp σ).x ph n j) _ (px j hj) (fun n => rfl) s hs i hi]
    simp only [Mat.ofRows]
    rw [getD_map_range _ _ _ (by rw [hlen]; exact hi), getD_map_range _ _ _ hj]
    unfold OCP.defect
    simp only [physOf]
    ring
  simp only [hlen] at hval
  simp only [Mat.vec, List.mem_flatMap, List.mem_map, List.mem_range, hlen]
  constructor
  · intro hh j hj i hi
    have := hh _ ⟨j, hj, i, hi, rfl⟩
    beta_reduce at this
    rwa [hval j hj i hi] at this
  · rintro hh e ⟨j, hj, i, hi, rfl⟩
    simp only []
    rw [hval j hj i hi]
    exact hh j hj i hi

/-- The rows on the segment widths of a phase in physical terms, each within its bounds in the sense of `W`. -/
structure WidthRowsBy (W : Ext K → Ext K → K → Prop) (ocp : OCP K) (M : Mesh K) (T : Traj K) (tol : K) (mid : Bool)
    (ph : Nat) : Prop where
  sum : W (.fin 0) (.fin 0) ((∑ s ∈ Finset.range M.orders.length, T.w s ph) - 1)
  midU : ∀ j < ocp.nu, ∀ s < M.orders.length, ∀ i < M.order s,
    W (Ext.mul (entry ocp.lbu ph j .nan) (ocp.scaleU.getD j 0)) (Ext.mul (entry ocp.ubu ph j .nan) (ocp.scaleU.getD j 0))
      (ocp.scaleU.getD j 0 * (M.piece (fun k => T.u ph k j) s).eval ((M.node s i + M.node s (i + 1)) / 2))
  midX : ∀ j < ocp.nx, ∀ s < M.orders.length, ∀ i < M.order s,
    W (Ext.mul (entry ocp.lbx ph j .nan) (ocp.scaleX.getD j 0)) (Ext.mul (entry ocp.ubx ph j .nan) (ocp.scaleX.getD j 0))
      (ocp.scaleX.getD j 0 * (M.piece (fun k => T.x ph k j) s).eval ((M.node s i + M.node s (i + 1)) / 2))
  res : mid = true → ∀ F, ocp.dynamics[ph]? = some F → ∀ j < ocp.nx, ∀ s < M.orders.length, ∀ i < M.order s,
    W (.fin (-tol)) (.fin tol) (T.w s ph * (ocp.scaleX.getD j 0 *
      ocp.defect M T F ph s ((M.node s i + M.node s (i + 1)) / 2) j))

/-- Rows on the segment widths of a phase. -/
theorem Adapt.widthBlock_rows (h : ad.disc.OnMesh M) (hv : ValidOCP ad.disc.ocp)
    (hsc : ad.disc.ocp.PosScales) (hr : ad.Ready) {ph : Nat} (hph : ph < ad.disc.ocp.nPhases) :
    ∃ B, ad.widthBlock ph = .ok B ∧ B.Sized ∧
      ∀ (W : Ext K → Ext K → K → Prop) (σ : Env K), (∀ v, W .ninf .pinf v) →
        (B.SatBy W σ ↔ WidthRowsBy W ad.disc.ocp M (physOf ad.disc.ocp σ) (ad.tol.getD ph 0) ad.midResiduals ph) := by
  set d := ad.disc with hd
  have hM := h.good
  obtain ⟨g, hg, -, hti⟩ := h.midTimes_spec hph
  obtain ⟨I, hI, hIr, hIc, hIrow⟩ := h.interp_scaled M.midTaus Mesh.midTaus_length
  obtain ⟨D, hD, hDr, hDc, hDrow⟩ := h.interpD_scaled M.midTaus Mesh.midTaus_length 1 (Or.inl rfl)
  rw [hM.midTaus_lens] at hIr hIrow hDr hDrow
  have hI' : ∀ (v p : Nat → K) (c : K), c ≠ 0 → (∀ k, p k = v k / c) →
      ∀ s < M.orders.length, ∀ i < M.order s, I.rowDot (segStart M.orders s + i) v =
        c * (M.piece p s).eval ((M.node s i + M.node s (i + 1)) / 2) := by
    intro v p c hc hp s hs i hi
    have hms : s < M.midTaus.length := by rw [Mesh.midTaus_length]; exact hs
    have hi' : i < M.midTaus[s].length := by rw [hM.midTaus_seg hms]; exact hi
    rw [hIrow v p c hc hp s hms i hi', Mesh.midTaus_getElem]
  have hD' : ∀ (v p : Nat → K) (c : K), c ≠ 0 → (∀ k, p k = v k / c) →
      ∀ s < M.orders.length, ∀ i < M.order s, D.rowDot (segStart M.orders s + i) v =
        c * (derivative (M.piece p s)).eval ((M.node s i + M.node s (i + 1)) / 2) := by
    intro v p c hc hp s hs i hi
    have hms : s < M.midTaus.length := by rw [Mesh.midTaus_length]; exact hs
    have hi' : i < M.midTaus[s].length := by rw [hM.midTaus_seg hms]; exact hi
    rw [hDrow v p c hc hp s hms i hi', Mesh.midTaus_getElem]
    rfl
  have hN : M.N = d.N := h.N_eq
  obtain ⟨xi, hxi, xr, xc, xe⟩ := mtimes_syms I d.N d.ocp.nx (by rw [hIc, hN]) fun i j => .X ph i j
  obtain ⟨ui, hui, ur, uc, ue⟩ := mtimes_syms I d.N d.ocp.nu (by rw [hIc, hN]) fun i j => .U ph i j
  obtain ⟨dxi, hdxi, -, -, dxe⟩ := mtimes_syms D d.N d.ocp.nx (by rw [hDc, hN]) fun i j => .X ph i j
  have l1 : ph < d.ocp.lbu.length := by rw [hv.lbu.1]; exact hph
  have l2 : ph < d.ocp.ubu.length := by rw [hv.ubu.1]; exact hph
  have l3 : ph < d.ocp.lbx.length := by rw [hv.lbx.1]; exact hph
  have l4 : ph < d.ocp.ubx.length := by rw [hv.ubx.1]; exact hph
  have l5 : ph < d.ocp.dynamics.length := by rw [hv.dynamics]; exact hph
  have l6 : ph < ad.tol.length := by rw [hr.tol]; exact hph
  obtain ⟨U, hU, hUs, hUsat⟩ := boxBlock_rows hM (hv.lbu.2 _ (List.getElem_mem l1))
    (hv.ubu.2 _ (List.getElem_mem l2)) hv.scaleU hsc.u
    (hv.ordU ph _ _ (List.getElem?_eq_getElem l1) (List.getElem?_eq_getElem l2)) ui (by rw [ur, hIr]) uc
    (fun σ j s i => (M.piece (fun k => (physOf d.ocp σ).u ph k j) s).eval
      ((M.node s i + M.node s (i + 1)) / 2)) (by
      intro σ j hj s hs i hi
      rw [ue, hI' _ (fun k => (physOf d.ocp σ).u ph k j) _
        (getD_mem_ne hv.scaleU hsc.u hj : (0:K) < _).ne' (fun k => rfl) s hs i hi])
  obtain ⟨X, hX, hXs, hXsat⟩ := boxBlock_rows hM (hv.lbx.2 _ (List.getElem_mem l3))
    (hv.ubx.2 _ (List.getElem_mem l4)) hv.scaleX hsc.x
    (hv.ordX ph _ _ (List.getElem?_eq_getElem l3) (List.getElem?_eq_getElem l4)) xi (by rw [xr, hIr]) xc
    (fun σ j s i => (M.piece (fun k => (physOf d.ocp σ).x ph k j) s).eval
      ((M.node s i + M.node s (i + 1)) / 2)) (by
      intro σ j hj s hs i hi
      rw [xe, hI' _ (fun k => (physOf d.ocp σ).x ph k j) _
        (getD_mem_ne hv.scaleX hsc.x hj : (0:K) < _).ne' (fun k => rfl) s hs i hi])
  -- residuals
  have hFlen : d.ocp.dynamics[ph].len = d.ocp.nx := hv.dynLen _ (List.getElem_mem l5)
  have hres : ∀ s, ∃ gs, s < M.orders.length →
      ad.residualSeg d.ocp.dynamics[ph] M.midTaus xi ui dxi (Adapt.midTimes (g.map (·.1))) ph s =
        .ok gs ∧ ∀ (W : Ext K → Ext K → K → Prop) σ lo hi, (∀ e ∈ gs, W lo hi (e σ)) ↔ ∀ j < d.ocp.nx, ∀ i < M.order s,
        W lo hi ((physOf d.ocp σ).w s ph * (d.ocp.scaleX.getD j 0 *
          d.ocp.defect M (physOf d.ocp σ) d.ocp.dynamics[ph] ph s
            ((M.node s i + M.node s (i + 1)) / 2) j)) := by
    intro s
    by_cases hs : s < M.orders.length
    · obtain ⟨gs, h1, -, h2⟩ := residualSeg_rows h hv hsc hph hFlen hI' hD' xe ue dxe hti hs
      exact ⟨gs, fun _ => ⟨h1, h2⟩⟩
    · exact ⟨[], fun h => absurd h hs⟩
  choose gs hgs using hres
  have hsegs : (List.range d.nSegments).mapM (ad.residualSeg d.ocp.dynamics[ph] M.midTaus xi ui dxi
      (Adapt.midTimes (g.map (·.1))) ph) = .ok ((List.range d.nSegments).map gs) := by
    apply mapM_ok
    intro s hs
    exact (hgs s (by rw [h.segLen]; simpa using hs)).1
  have hsum : ad.widthSum ph = .ok fun σ =>
      (∑ s ∈ Finset.range M.orders.length, (physOf d.ocp σ).w s ph) - 1 := by
    have hm : ((List.range d.nSegments).mapM fun s => d.segWidth s ph) =
        .ok ((List.range d.nSegments).map fun s => sym (.H s ph)) := by
      apply mapM_ok
      intro s hs
      exact if_pos ⟨by simpa using hs, hph⟩
    unfold Adapt.widthSum
    rw [← hd, hm, py_bind_ok]
    congr 1
    funext σ
    rw [h.segLen, Finset.sum_range, ← List.sum_ofFn]
    congr 2
    apply List.ext_getElem <;> simp [physOf, sym]
  set R : Block K := if ad.midResiduals then Block.const ((List.range d.nSegments).map gs).flatten
    (.fin (-ad.tol[ph])) (.fin ad.tol[ph]) else Block.empty with hRdef
  have key : ad.widthBlock ph = .ok ((Block.const [fun σ =>
      (∑ s ∈ Finset.range M.orders.length, (physOf d.ocp σ).w s ph) - 1] (.fin 0) (.fin 0)).append
      (U.append (X.append R))) := by
    unfold Adapt.widthBlock
    have hxi' : (Disc.constMat I).mtimes (d.matX ph) = .ok xi := hxi
    have hui' : (Disc.constMat I).mtimes (d.matU ph) = .ok ui := hui
    have hdxi' : (Disc.constMat D).mtimes (d.matX ph) = .ok dxi := hdxi
    simp only [← hd, hsum, h.midTaus_ok, hg, hI, hD, hxi', hui', pyIdx_ok l1, pyIdx_ok l2, pyIdx_ok l3,
      pyIdx_ok l4, hU, hX, py_bind_ok]
    rw [hRdef]
    by_cases hres : ad.midResiduals = true
    · simp only [hres, if_true, pyIdx_ok l5, pyIdx_ok l6, hdxi', hsegs, py_bind_ok]
      rfl
    · simp only [hres, Bool.false_eq_true, if_false]
      rfl
  have hRs : R.Sized := by
    rw [hRdef]; split
    · exact sized_const _ _ _
    · exact sized_empty
  refine ⟨_, key, sized_append (sized_const _ _ _) (sized_append hUs (sized_append hXs hRs)),
    fun W σ hW => ?_⟩
  rw [satBy_append (sized_const _ _ _), satBy_append hUs, satBy_append hXs, satBy_const, hUsat W σ hW, hXsat W σ hW]
  have hRsat : R.SatBy W σ ↔ (ad.midResiduals = true → ∀ F, d.ocp.dynamics[ph]? = some F → ∀ j < d.ocp.nx,
      ∀ s < M.orders.length, ∀ i < M.order s, W (.fin (-ad.tol.getD ph 0)) (.fin (ad.tol.getD ph 0))
        ((physOf d.ocp σ).w s ph * (d.ocp.scaleX.getD j 0 *
          d.ocp.defect M (physOf d.ocp σ) F ph s ((M.node s i + M.node s (i + 1)) / 2) j))) := by
    rw [hRdef]
    by_cases hres : ad.midResiduals = true
    · simp only [hres, if_true, true_imp_iff]
      rw [satBy_const]
      rw [List.getD_eq_getElem _ _ l6]
      simp only [List.mem_flatten, List.mem_map, List.mem_range, List.getElem?_eq_getElem l5,
        Option.some.injEq, forall_eq']
      constructor
      · intro hh j hj s hs i hi
        exact ((hgs s hs).2 W σ _ _).1 (fun e he => hh e ⟨gs s, ⟨s, by rw [← h.segLen]; exact hs, rfl⟩, he⟩)
          j hj i hi
      · rintro hh e ⟨-, ⟨s, hs, rfl⟩, he⟩
        have hs : s < M.orders.length := by rw [h.segLen]; exact hs
        exact ((hgs s hs).2 W σ _ _).2 (fun j hj i hi => hh j hj s hs i hi) e he
    · simp only [hres, Bool.false_eq_true, if_false, false_imp_iff, iff_true]
      exact satBy_empty σ
  rw [hRsat]
  have eU : ∀ j, entry d.ocp.lbu ph j .nan = d.ocp.lbu[ph].getD j .nan ∧
      entry d.ocp.ubu ph j .nan = d.ocp.ubu[ph].getD j .nan := fun j => by
    unfold entry; rw [List.getD_eq_getElem _ _ l1, List.getD_eq_getElem _ _ l2]; exact ⟨rfl, rfl⟩
  have eX : ∀ j, entry d.ocp.lbx ph j .nan = d.ocp.lbx[ph].getD j .nan ∧
      entry d.ocp.ubx ph j .nan = d.ocp.ubx[ph].getD j .nan := fun j => by
    unfold entry; rw [List.getD_eq_getElem _ _ l3, List.getD_eq_getElem _ _ l4]; exact ⟨rfl, rfl⟩
  simp only [List.mem_singleton, forall_eq, ← (eU _).1, ← (eU _).2, ← (eX _).1, ← (eX _).2]
  exact ⟨fun ⟨a, b, c, e⟩ => ⟨a, b, c, e⟩, fun ⟨a, b, c, e⟩ => ⟨a, b, c, e⟩⟩

/-- The rows on the widths, each within its bounds exactly. -/
theorem widthRowsBy_within {ocp : OCP K} (hv : ValidOCP ocp) (hsc : ocp.PosScales) (T : Traj K) (tol : K) (mid : Bool)
    (ph : Nat) :
    WidthRowsBy Within ocp M T tol mid ph ↔ (∑ s ∈ Finset.range M.orders.length, T.w s ph = 1) ∧
      MidControlOK ocp M T ph ∧ MidStateOK ocp M T ph ∧ (mid = true → MidResidualOK ocp M T tol ph) := by
  have px : ∀ j < ocp.nx, 0 < ocp.scaleX.getD j 0 := fun j hj => getD_mem_ne hv.scaleX hsc.x hj
  have pu : ∀ j < ocp.nu, 0 < ocp.scaleU.getD j 0 := fun j hj => getD_mem_ne hv.scaleU hsc.u hj
  have z : Within (.fin 0) (.fin 0) ((∑ s ∈ Finset.range M.orders.length, T.w s ph) - 1) ↔
      ∑ s ∈ Finset.range M.orders.length, T.w s ph = 1 := by rw [within_zero_zero, sub_eq_zero]
  have m : ∀ (lo hi : Ext K) (s v : K), 0 < s →
      (Within (Ext.mul lo s) (Ext.mul hi s) (s * v) ↔ Within lo hi v) := by
    intro lo hi s v hs
    rw [within_mul _ _ _ _ hs, mul_div_cancel_left₀ _ hs.ne']
  constructor
  · rintro ⟨a, b, c, e⟩
    exact ⟨z.1 a, fun j hj s hs i hi => (m _ _ _ _ (pu j hj)).1 (b j hj s hs i hi),
      fun j hj s hs i hi => (m _ _ _ _ (px j hj)).1 (c j hj s hs i hi), e⟩
  · rintro ⟨a, b, c, e⟩
    exact ⟨z.2 a, fun j hj s hs i hi => (m _ _ _ _ (pu j hj)).2 (b j hj s hs i hi),
      fun j hj s hs i hi => (m _ _ _ _ (px j hj)).2 (c j hj s hs i hi), e⟩

/-- `create_nlp` in closed form, given the variables, bounds and rows of every phase. -/
theorem Disc.OnMesh.createNlpWith_spec (h : d.OnMesh M) (hv : ValidOCP d.ocp)
    (hs : d.ocp.SettingsOK) (hsc : d.ocp.PosScales)
    {vars : Nat → Py (List Sym × List (Ext K) × List (Ext K))} {disc : Nat → Py (Block K × SX K)}
    {pv : Nat → List Sym} {lower upper : Sym → Ext K}
    (hvars : ∀ ph < d.ocp.nPhases, vars ph = .ok (pv ph, (pv ph).map lower, (pv ph).map upper))
    (hdisc : ∀ ph < d.ocp.nPhases, ∃ BJ, disc ph = .ok BJ ∧ BJ.1.Sized) :
    ∃ (bs : List (Block K)) (J : Nat → SX K) (nlp : NLP K), d.createNlpWith vars disc = .ok nlp ∧
      bs.length = d.ocp.nPhases ∧
      (∀ (ph : Nat) (b : Block K), bs[ph]? = some b → disc ph = .ok (b, J ph)) ∧
      (∀ b ∈ bs, b.Sized) ∧
      nlp.x = (List.range d.ocp.nPhases).flatMap pv ∧
      nlp.lbx = nlp.x.map lower ∧ nlp.ubx = nlp.x.map upper ∧
      nlp.p = d.widthParams ∧
      (∀ σ, nlp.f σ = ∑ ph ∈ Finset.range d.ocp.nPhases, J ph σ) ∧
      ∃ ev : List (Block K), (∀ b ∈ ev, b.Sized) ∧
        (d.ocp.nPhases < 2 → ev = []) ∧
        (2 ≤ d.ocp.nPhases → ∃ e, d.eventBlock = .ok e ∧ ev = [e]) ∧
        nlp.g = ((bs ++ ev).map (·.g)).flatten ∧ nlp.lbg = ((bs ++ ev).map (·.lo)).flatten ∧
        nlp.ubg = ((bs ++ ev).map (·.hi)).flatten := by
  have hphase : ∀ ph, ∃ BJ : Block K × SX K, ph < d.ocp.nPhases → disc ph = .ok BJ ∧ BJ.1.Sized := by
    intro ph
    by_cases hph : ph < d.ocp.nPhases
    · obtain ⟨BJ, h1, h2⟩ := hdisc ph hph
      exact ⟨BJ, fun _ => ⟨h1, h2⟩⟩
    · exact ⟨(Block.empty, fun _ => 0), fun h => absurd h hph⟩
  choose BJ hBJ using hphase
  have hev : ∃ e : Block K, d.eventBlock = .ok e ∧ e.Sized := by
    by_cases h2 : 2 ≤ d.ocp.nPhases
    · obtain ⟨e, he, hes, -⟩ := h.eventBlock_spec hv hs hsc h2
      exact ⟨e, he, hes⟩
    · refine ⟨Block.empty, ?_, sized_empty⟩
      unfold eventBlock
      rw [if_pos (by omega)]
  obtain ⟨e, he, hes⟩ := hev
  have hm : ((List.range d.ocp.nPhases).mapM fun ph => do
      let z ← vars ph
      let g ← disc ph
      return (z, g)) = .ok ((List.range d.ocp.nPhases).map fun ph =>
        ((pv ph, (pv ph).map lower, (pv ph).map upper), BJ ph)) := by
    apply mapM_ok
    intro ph hph
    have hph : ph < d.ocp.nPhases := by simpa using hph
    rw [hvars ph hph, (hBJ ph hph).1]
    rfl
  have hpos := hv.phases
  have hne : ∀ {β : Type} (f : Nat → β) (l : List β), (List.range d.ocp.nPhases).map f ++ l ≠ [] := by
    intro β f l hh
    have := congrArg List.length hh
    simp at this; omega
  have hne' : ∀ {β : Type} (f : Nat → β), (List.range d.ocp.nPhases).map f ≠ [] := by
    intro β f hh
    have := congrArg List.length hh
    simp at this; omega
  refine ⟨(List.range d.ocp.nPhases).map fun ph => (BJ ph).1, fun ph => (BJ ph).2,
    { f := fun σ => ((List.range d.ocp.nPhases).map fun ph => (BJ ph).2 σ).sum
      x := ((List.range d.ocp.nPhases).map pv).flatten
      g := ((List.range d.ocp.nPhases).map (fun ph => (BJ ph).1.g) ++
        (if 1 < d.ocp.nPhases then [e] else []).map (·.g)).flatten
      p := d.widthParams
      lbx := ((List.range d.ocp.nPhases).map fun ph => (pv ph).map lower).flatten
      ubx := ((List.range d.ocp.nPhases).map fun ph => (pv ph).map upper).flatten
      lbg := ((List.range d.ocp.nPhases).map (fun ph => (BJ ph).1.lo) ++
        (if 1 < d.ocp.nPhases then [e] else []).map (·.lo)).flatten
      ubg := ((List.range d.ocp.nPhases).map (fun ph => (BJ ph).1.hi) ++
        (if 1 < d.ocp.nPhases then [e] else []).map (·.hi)).flatten },
    ?_, by simp, ?_, ?_, ?_, ?_, ?_, rfl, ?_, if 1 < d.ocp.nPhases then [e] else [], ?_, ?_, ?_, ?_,
    ?_, ?_⟩
  · unfold createNlpWith
    rw [hm, py_bind_ok, he, py_bind_ok]
    simp only [List.map_map, Function.comp_def]
    rw [npConcat_ok (hne _ _), npConcat_ok (hne _ _), npConcat_ok (hne' _), npConcat_ok (hne' _)]
    rfl
  · intro ph b hb
    have hph : ph < d.ocp.nPhases := by
      have := (List.getElem?_eq_some_iff.1 hb).1
      simpa using this
    simp only [List.getElem?_map, List.getElem?_range hph, Option.map_some, Option.some.injEq] at hb
    rw [← hb]
    exact (hBJ ph hph).1
  · simp only [List.mem_map, List.mem_range]
    rintro b ⟨ph, hph, rfl⟩
    exact (hBJ ph hph).2
  · simp only [List.flatMap_def]
  · simp only [List.map_flatten, List.map_map, Function.comp_def]
  · simp only [List.map_flatten, List.map_map, Function.comp_def]
  · intro σ
    simp only [Finset.sum_range, ← List.sum_ofFn]
    congr 1
    apply List.ext_getElem <;> simp
  · intro b hb
    split at hb
    · simp only [List.mem_singleton] at hb; rw [hb]; exact hes
    · simp at hb
  · intro h2; rw [if_neg (by omega)]
  · intro h2; exact ⟨e, he, by rw [if_pos (by omega)]⟩
  · simp only [List.map_append, List.map_map, Function.comp_def]
  · simp only [List.map_append, List.map_map, Function.comp_def]
  · simp only [List.map_append, List.map_map, Function.comp_def]

/-- The rows of a phase of `mpopt_adaptive` other than those on widths, in the sense of `W`. -/
structure PlainRowsBy (W : Ext K → Ext K → K → Prop) (ocp : OCP K) (M : Mesh K) (T : Traj K) (ph : Nat) : Prop where
  dyn : ∀ F, ocp.dynamics[ph]? = some F → ∀ j < ocp.nx, ∀ s i, M.Owns s i →
    W (.fin 0) (.fin 0) (ocp.scaleX.getD j 0 *
      ((derivative (M.piece (fun k => T.x ph k j) s)).eval (M.node s i) -
        M.halfWidth T ph s * F.f (ocp.pArg T ph (M.idx s i) (M.time T ph s (M.node s i))) j))
  path : ∀ F, ocp.pathConstraints[ph]? = some (some F) → ∀ s i, M.Owns s i → ∀ c < F.len,
    W .ninf (.fin 0) (F.f (ocp.pArg T ph (M.idx s i) (M.time T ph s (M.node s i))) c)
  slope : ocp.diffU.getD ph false = true → ∀ j < ocp.nu, ∀ s i, M.Owns s i →
    W (ocp.lbdu.getD ph .nan) (ocp.ubdu.getD ph .nan)
      (ocp.scaleU.getD j 0 * (derivative (M.piece (fun k => T.u ph k j) s)).eval (M.node s i))
  term : ∀ F, ocp.terminalConstraints[ph]? = some (some F) → ∀ c < F.len,
    W (.fin 0) (.fin 0) (F.f (ocp.tArg T ph M.N) c)

/-- These rows, each within its bounds exactly. -/
theorem plainRowsBy_within {ocp : OCP K} (hv : ValidOCP ocp) (hsc : ocp.PosScales) (T : Traj K) (ph : Nat) :
    PlainRowsBy Within ocp M T ph ↔ CollocationOK ocp M T ph ∧ PathOK ocp M T ph ∧
        (ocp.diffU.getD ph false = true → SlopeBounded ocp M T (fun j => ocp.scaleU.getD j 0) ph) ∧
        TerminalOK ocp M T ph := by
  have px : ∀ j < ocp.nx, 0 < ocp.scaleX.getD j 0 := fun j hj => getD_mem_ne hv.scaleX hsc.x hj
  have z : ∀ a b c : K, 0 < a → (Within (.fin 0) (.fin 0) (a * (b - c)) ↔ b = c) := by
    intro a b c ha
    rw [within_zero_zero, mul_eq_zero, or_iff_right ha.ne', sub_eq_zero]
  constructor
  · rintro ⟨a, b, c, g⟩
    exact ⟨fun F hF j hj s i ho => (z _ _ _ (px j hj)).1 (a F hF j hj s i ho),
      fun F hF s i ho k hk => (within_ninf_zero _).1 (b F hF s i ho k hk), c,
      fun F hF k hk => (within_zero_zero _).1 (g F hF k hk)⟩
  · rintro ⟨a, b, c, g⟩
    exact ⟨fun F hF j hj s i ho => (z _ _ _ (px j hj)).2 (a F hF j hj s i ho),
      fun F hF s i ho k hk => (within_ninf_zero _).2 (b F hF s i ho k hk), c,
      fun F hF k hk => (within_zero_zero _).2 (g F hF k hk)⟩

/-- Rows and objective of a phase of `mpopt_adaptive`. -/
theorem Adapt.discretizePhase_rows (h : ad.disc.OnMesh M) (hv : ValidOCP ad.disc.ocp)
    (hs : ad.disc.ocp.SettingsOK) (hsc : ad.disc.ocp.PosScales) (hr : ad.Ready) {ph : Nat}
    (hph : ph < ad.disc.ocp.nPhases) :
    ∃ B J rc tc, ad.discretizePhase ph = .ok (B, J) ∧ B.Sized ∧
      (∀ (W : Ext K → Ext K → K → Prop) (σ : Env K), (∀ v, W .ninf .pinf v) →
        (B.SatBy W σ ↔ PlainRowsBy W ad.disc.ocp M (physOf ad.disc.ocp σ) ph ∧
          WidthRowsBy W ad.disc.ocp M (physOf ad.disc.ocp σ) (ad.tol.getD ph 0) ad.midResiduals ph)) ∧
      ad.disc.ocp.runningCosts[ph]? = some rc ∧ ad.disc.ocp.terminalCosts[ph]? = some tc ∧
      ∀ σ, ∃ v : Nat → K, J σ = tc (ad.disc.ocp.tArg (physOf ad.disc.ocp σ) ph M.N) +
          weightedSum ad.disc.compW v ∧
        ∀ s i, M.Owns s i → v (M.idx s i) = M.halfWidth (physOf ad.disc.ocp σ) ph s *
          rc (ad.disc.ocp.pArg (physOf ad.disc.ocp σ) ph (M.idx s i)
            (M.time (physOf ad.disc.ocp σ) ph s (M.node s i))) := by
  obtain ⟨f, c, q, F, hdisc, hF, -, hFs, hFsat⟩ :=
    h.dynBlock_rows hv hs.nx (fun s hs => (hsc.x s hs).ne') hph
  obtain ⟨f', c', q', pc, hdisc', hpc, hCs, -, hCsat⟩ := h.pathBlock_rows hv hph
  rw [hdisc] at hdisc'; cases hdisc'
  obtain ⟨TC, mayer, cost, hT, hcost, hTs, hTsat, hmayer⟩ := h.termBlock_rows hv hph
  obtain ⟨DU, hDU, hDUs, hDUsat⟩ := h.slopeBlock_rows hv hs (fun s hs => (hsc.u s hs).ne') hph
  obtain ⟨SW, hSW, hSWs, hSWsat⟩ := Adapt.widthBlock_rows h hv hsc hr hph
  obtain ⟨f', c', q', J, rc, hdisc', hrc, hJ, hJs⟩ := h.quadCost_spec hv hph
  rw [hdisc] at hdisc'; cases hdisc'
  refine ⟨F.append ((Disc.pathBlock c (Disc.pathLen pc)).append (DU.append (TC.append SW))),
    fun σ => mayer σ + J σ, rc, cost, ?_, ?_, ?_, hrc, hcost, ?_⟩
  · unfold Adapt.discretizePhase
    simp only [hdisc, hF, hpc, hT, hDU, hSW, hJ, py_bind_ok]
    rfl
  · exact sized_append hFs (sized_append hCs (sized_append hDUs (sized_append hTs hSWs)))
  · intro W σ hW
    rw [satBy_append hFs, satBy_append hCs, satBy_append hDUs, satBy_append hTs, hFsat, hCsat, hDUsat, hTsat,
      hSWsat W σ hW]
    exact ⟨fun ⟨a, b, c, e, f⟩ => ⟨⟨a, b, c, e⟩, f⟩, fun ⟨⟨a, b, c, e⟩, f⟩ => ⟨a, b, c, e, f⟩⟩
  · intro σ
    obtain ⟨v, hv1, hv2⟩ := hJs σ
    exact ⟨v, by simp only [hmayer, hv1], hv2⟩

/-- Rows and objective of a phase of `mpopt_adaptive`, each row within its bounds exactly. -/
theorem Adapt.discretizePhase_spec (h : ad.disc.OnMesh M) (hv : ValidOCP ad.disc.ocp)
    (hs : ad.disc.ocp.SettingsOK) (hsc : ad.disc.ocp.PosScales) (hr : ad.Ready) {ph : Nat}
    (hph : ph < ad.disc.ocp.nPhases) :
    ∃ B J rc tc, ad.discretizePhase ph = .ok (B, J) ∧ B.Sized ∧
      (∀ σ, B.Sat σ ↔ CollocationOK ad.disc.ocp M (physOf ad.disc.ocp σ) ph ∧
        PathOK ad.disc.ocp M (physOf ad.disc.ocp σ) ph ∧
        (ad.disc.ocp.diffU.getD ph false = true → SlopeBounded ad.disc.ocp M (physOf ad.disc.ocp σ)
          (fun j => ad.disc.ocp.scaleU.getD j 0) ph) ∧
        TerminalOK ad.disc.ocp M (physOf ad.disc.ocp σ) ph ∧
        (∑ s ∈ Finset.range M.orders.length, (physOf ad.disc.ocp σ).w s ph = 1) ∧
        MidControlOK ad.disc.ocp M (physOf ad.disc.ocp σ) ph ∧
        MidStateOK ad.disc.ocp M (physOf ad.disc.ocp σ) ph ∧
        (ad.midResiduals = true →
          MidResidualOK ad.disc.ocp M (physOf ad.disc.ocp σ) (ad.tol.getD ph 0) ph)) ∧
      ad.disc.ocp.runningCosts[ph]? = some rc ∧ ad.disc.ocp.terminalCosts[ph]? = some tc ∧
      ∀ σ, ∃ v : Nat → K, J σ = tc (ad.disc.ocp.tArg (physOf ad.disc.ocp σ) ph M.N) +
          weightedSum ad.disc.compW v ∧
        ∀ s i, M.Owns s i → v (M.idx s i) = M.halfWidth (physOf ad.disc.ocp σ) ph s *
          rc (ad.disc.ocp.pArg (physOf ad.disc.ocp σ) ph (M.idx s i)
            (M.time (physOf ad.disc.ocp σ) ph s (M.node s i))) := by
  obtain ⟨B, J, rc, tc, h1, h2, h3, h4⟩ := Adapt.discretizePhase_rows h hv hs hsc hr hph
  refine ⟨B, J, rc, tc, h1, h2, fun σ => ?_, h4⟩
  rw [Block.sat_iff_by, h3 Within σ within_trivial, plainRowsBy_within hv hsc, widthRowsBy_within hv hsc]
  simp only [and_assoc]

end MPOpt
