import Verif.Lemmas.Phase2
import Verif.Spec.Bounds

/-! # The assembled NLP in closed form -/

set_option autoImplicit false
set_option linter.unusedSectionVars false

namespace MPOpt
open Polynomial
open Disc (Block NodeArg NLP)

theorem zipWith_eq_map_range {α β γ : Type} (f : α → β → γ) {l : List α} {m : List β} {n : Nat}
    (h1 : l.length = n) (h2 : m.length = n) (da : α) (db : β) :
    List.zipWith f l m = (List.range n).map fun j => f (l.getD j da) (m.getD j db) := by
  apply List.ext_getElem
  · simp [h1, h2]
  · intro i hi1 hi2
    simp only [List.length_zipWith] at hi1
    have a : i < l.length := by omega
    have b : i < m.length := by omega
    simp [a, b]

variable {K : Type} [Field K] [LinearOrder K] {d : Disc K} {M : Mesh K}

theorem entry_eq {α : Type} {arr : List (List α)} {i j : Nat} (h : i < arr.length) (dflt : α) :
    entry arr i j dflt = arr[i].getD j dflt := by
  unfold entry
  rw [List.getD_eq_getElem _ _ h]

/-- The bound vector of a phase lists, variable by variable, its scaled bound. -/
theorem Disc.varBounds_spec (hv : ValidOCP d.ocp) (hnx : 0 < d.ocp.nx) {ph : Nat}
    (hph : ph < d.ocp.nPhases) (bx bu bt0 btf ba : List (List (Ext K)))
    (sx : HasShape bx d.ocp.nPhases d.ocp.nx) (su : HasShape bu d.ocp.nPhases d.ocp.nu)
    (st0 : HasShape bt0 d.ocp.nPhases 1) (stf : HasShape btf d.ocp.nPhases 1)
    (sa : HasShape ba d.ocp.nPhases d.ocp.na) :
    d.varBounds ph bx bu bt0 btf ba =
      .ok ((d.phaseVars ph).map (scaledBound d.ocp bx bu bt0 btf ba)) := by
  have l1 : ph < bx.length := by rw [sx.1]; exact hph
  have l2 : ph < bu.length := by rw [su.1]; exact hph
  have l3 : ph < bt0.length := by rw [st0.1]; exact hph
  have l4 : ph < btf.length := by rw [stf.1]; exact hph
  have l5 : ph < ba.length := by rw [sa.1]; exact hph
  have l6 : 0 < d.ocp.x00.length := by rw [hv.x00.1]; exact hv.phases
  have r1 := sx.2 _ (List.getElem_mem l1)
  have r2 := su.2 _ (List.getElem_mem l2)
  have r3 := st0.2 _ (List.getElem_mem l3)
  have r4 := stf.2 _ (List.getElem_mem l4)
  have r5 := sa.2 _ (List.getElem_mem l5)
  have r6 := hv.x00.2 _ (List.getElem_mem l6)
  unfold varBounds
  rw [pyIdx_ok l1, pyIdx_ok l2, pyIdx_ok l3, pyIdx_ok l4, pyIdx_ok l5, pyIdx_ok l6]
  simp only [py_bind_ok, scaleRow, mulRow, r1, r2, r5, r6, hv.scaleX, hv.scaleU, hv.scaleA, if_true]
  rw [zipWith_eq_map_range Ext.mul r1 hv.scaleX .nan 0, zipWith_eq_map_range Ext.mul r2 hv.scaleU .nan 0,
    zipWith_eq_map_range Ext.mul r5 hv.scaleA .nan 0,
    zipWith_eq_map_range (fun x1 x2 : K => x1 * x2) r6 hv.scaleX 0 0]
  have hfirst : (if ph = 0 then do
        pure (((List.range d.ocp.nx).map fun j => d.ocp.x00[0].getD j 0 *
          d.ocp.scaleX.getD j 0).map Ext.fin)
      else pure ((List.range d.ocp.nx).map fun j => (bx[ph].getD j .nan).mul
          (d.ocp.scaleX.getD j 0)) : Py (List (Ext K))) =
      .ok ((List.range d.ocp.nx).map fun j =>
        scaledBound d.ocp bx bu bt0 btf ba (.X ph 0 j)) := by
    by_cases h0 : ph = 0
    · simp only [h0, if_true, scaledBound, and_self, List.map_map, entry_eq l6]
      rfl
    · simp only [h0, if_false, scaledBound, false_and, entry_eq l1]
      rfl
  rw [hfirst, py_bind_ok]
  have hst : d.stateBounds ((List.range d.ocp.nx).map fun j => (bx[ph].getD j .nan).mul
          (d.ocp.scaleX.getD j 0)) ((List.range d.ocp.nx).map fun j =>
        scaledBound d.ocp bx bu bt0 btf ba (.X ph 0 j)) =
      .ok ((List.range d.ocp.nx).flatMap fun j => (List.range d.N).map fun i =>
        scaledBound d.ocp bx bu bt0 btf ba (.X ph i j)) := by
    unfold stateBounds npConcat
    have hne : ((List.range d.ocp.nx).map fun j => (List.range d.N).map fun i =>
        if i = 0 then ((List.range d.ocp.nx).map fun j =>
          scaledBound d.ocp bx bu bt0 btf ba (.X ph 0 j)).getD j .nan
        else ((List.range d.ocp.nx).map fun j => (bx[ph].getD j .nan).mul
          (d.ocp.scaleX.getD j 0)).getD j .nan).isEmpty = false := by
      rw [List.isEmpty_eq_false_iff]
      intro hh
      have := congrArg List.length hh
      simp at this; omega
    rw [hne]
    simp only [Bool.false_eq_true, if_false]
    rw [List.flatMap_def]
    congr 2
    apply List.map_congr_left
    intro j hj
    have hj : j < d.ocp.nx := by simpa using hj
    apply List.map_congr_left
    intro i _
    rw [getD_map_range _ _ _ hj, getD_map_range _ _ _ hj]
    by_cases hi : i = 0
    · simp [hi]
    · simp [hi, scaledBound, entry_eq l1]
  rw [hst, py_bind_ok]
  have e3 : bt0[ph].map (Ext.mul · d.ocp.scaleT) =
      [scaledBound d.ocp bx bu bt0 btf ba (.T0 ph)] := by
    simp only [scaledBound, entry_eq l3]
    obtain ⟨a, ha⟩ := List.length_eq_one_iff.1 r3
    rw [ha]; rfl
  have e4 : btf[ph].map (Ext.mul · d.ocp.scaleT) =
      [scaledBound d.ocp bx bu bt0 btf ba (.Tf ph)] := by
    simp only [scaledBound, entry_eq l4]
    obtain ⟨a, ha⟩ := List.length_eq_one_iff.1 r4
    rw [ha]; rfl
  rw [e3, e4, py_pure_eq_ok]
  unfold phaseVars
  simp only [List.map_append, List.map_flatMap, List.map_map, List.map_cons,
    List.append_assoc, List.flatMap_map, replicate_eq_map_range, List.cons_append, List.nil_append]
  congr 2
  · simp only [scaledBound, entry_eq l2, Function.comp_def]
  · simp only [scaledBound, entry_eq l5, Function.comp_def]

theorem Disc.nlpVariables_spec (hv : ValidOCP d.ocp) (hnx : 0 < d.ocp.nx) {ph : Nat}
    (hph : ph < d.ocp.nPhases) :
    d.nlpVariables ph = .ok (d.phaseVars ph, (d.phaseVars ph).map (scaledLower d.ocp),
      (d.phaseVars ph).map (scaledUpper d.ocp)) := by
  unfold nlpVariables
  rw [varBounds_spec hv hnx hph _ _ _ _ _ hv.lbx hv.lbu hv.lbt0 hv.lbtf hv.lba,
    varBounds_spec hv hnx hph _ _ _ _ _ hv.ubx hv.ubu hv.ubt0 hv.ubtf hv.uba]
  rfl

theorem holdsBy_map {W : Ext K → Ext K → K → Prop} {α : Type} (l : List α) (g : α → K) (lo hi : α → Ext K) :
    HoldsBy W (l.map g) (l.map lo) (l.map hi) ↔ ∀ a ∈ l, W (lo a) (hi a) (g a) := by
  constructor
  · rintro ⟨-, -, h⟩ a ha
    obtain ⟨i, hi, rfl⟩ := List.mem_iff_getElem.1 ha
    exact h i _ _ _ (by simp [hi]) (by simp [hi]) (by simp [hi])
  · intro h
    refine ⟨by simp, by simp, fun i v l' u hv hl hu => ?_⟩
    rw [List.getElem?_map, Option.map_eq_some_iff] at hv hl hu
    obtain ⟨a, ha, rfl⟩ := hv
    obtain ⟨b, hb, rfl⟩ := hl
    obtain ⟨c, hc, rfl⟩ := hu
    rw [ha] at hb hc
    cases hb; cases hc
    exact h a (List.mem_of_getElem? ha)

theorem holds_map {α : Type} (l : List α) (g : α → K) (lo hi : α → Ext K) :
    Holds (l.map g) (l.map lo) (l.map hi) ↔ ∀ a ∈ l, Within (lo a) (hi a) (g a) := holdsBy_map l g lo hi

theorem Disc.mem_phaseVars {ph : Nat} {s : Sym} : s ∈ d.phaseVars ph ↔
    (∃ i < d.N, ∃ j < d.ocp.nx, s = .X ph i j) ∨ (∃ i < d.N, ∃ j < d.ocp.nu, s = .U ph i j) ∨
      s = .T0 ph ∨ s = .Tf ph ∨ ∃ k < d.ocp.na, s = .A k ph := by
  unfold phaseVars
  simp only [List.mem_append, List.mem_flatMap, List.mem_map, List.mem_range, List.mem_cons,
    List.not_mem_nil, or_false]
  constructor
  · rintro (((⟨j, hj, i, hi, rfl⟩ | ⟨j, hj, i, hi, rfl⟩) | rfl | rfl) | ⟨k, hk, rfl⟩)
    · exact Or.inl ⟨i, hi, j, hj, rfl⟩
    · exact Or.inr (Or.inl ⟨i, hi, j, hj, rfl⟩)
    · simp
    · simp
    · simp [hk]
  · rintro (⟨i, hi, j, hj, rfl⟩ | ⟨i, hi, j, hj, rfl⟩ | rfl | rfl | ⟨k, hk, rfl⟩)
    · exact Or.inl (Or.inl (Or.inl ⟨j, hj, i, hi, rfl⟩))
    · exact Or.inl (Or.inl (Or.inr ⟨j, hj, i, hi, rfl⟩))
    · simp
    · simp
    · exact Or.inr ⟨k, hk, rfl⟩

theorem nodup_flatMap_range {n m : Nat} (g : Nat → Nat → Sym)
    (hg : ∀ j i j' i', g j i = g j' i' → j = j' ∧ i = i') :
    ((List.range n).flatMap fun j => (List.range m).map (g j)).Nodup := by
  rw [List.nodup_flatMap]
  refine ⟨fun j _ => (List.nodup_range.map fun i i' h => (hg _ _ _ _ h).2), ?_⟩
  apply List.nodup_range.imp
  intro j j' hne
  simp only [Function.onFun, List.disjoint_left, List.mem_map]
  rintro a ⟨i, -, rfl⟩ ⟨i', -, h⟩
  exact hne (hg _ _ _ _ h).1.symm

theorem Disc.nodup_phaseVars (ph : Nat) : (d.phaseVars ph).Nodup := by
  unfold phaseVars
  rw [List.nodup_append, List.nodup_append, List.nodup_append]
  refine ⟨⟨⟨?_, ?_, ?_⟩, by simp, ?_⟩, ?_, ?_⟩
  · exact nodup_flatMap_range _ fun j i j' i' h => by cases h; exact ⟨rfl, rfl⟩
  · exact nodup_flatMap_range _ fun j i j' i' h => by cases h; exact ⟨rfl, rfl⟩
  · simp only [List.mem_flatMap, List.mem_map]
    rintro a ⟨j, -, i, -, rfl⟩ b ⟨j', -, i', -, rfl⟩
    simp
  · simp only [List.mem_append, List.mem_flatMap, List.mem_map, List.mem_cons, List.not_mem_nil,
      or_false]
    rintro a (⟨j, -, i, -, rfl⟩ | ⟨j, -, i, -, rfl⟩) b (rfl | rfl) <;> simp
  · exact List.nodup_range.map fun k k' h => by cases h; rfl
  · simp only [List.mem_append, List.mem_flatMap, List.mem_map, List.mem_cons, List.not_mem_nil,
      or_false]
    rintro a ((⟨j, -, i, -, rfl⟩ | ⟨j, -, i, -, rfl⟩) | rfl | rfl) b ⟨k, -, rfl⟩ <;> simp

theorem Disc.length_phaseVars (ph : Nat) :
    (d.phaseVars ph).length = d.N * (d.ocp.nx + d.ocp.nu) + 2 + d.ocp.na := by
  unfold phaseVars
  simp only [List.length_append, length_flatMap_range, List.length_cons, List.length_nil,
    List.length_map, List.length_range]
  ring

variable [IsStrictOrderedRing K]

/-- Box constraints of a phase. -/
theorem Disc.OnMesh.bounds_spec (h : d.OnMesh M) (hv : ValidOCP d.ocp) (hsc : d.ocp.PosScales)
    {ph : Nat} (σ : Env K) :
    (∀ s ∈ d.phaseVars ph, Within (scaledLower d.ocp s) (scaledUpper d.ocp s) (σ s)) ↔
      BoundsOK d.ocp M (physOf d.ocp σ) ph := by
  have px : ∀ j < d.ocp.nx, 0 < d.ocp.scaleX.getD j 0 := fun j hj => getD_mem_ne hv.scaleX hsc.x hj
  have pu : ∀ j < d.ocp.nu, 0 < d.ocp.scaleU.getD j 0 := fun j hj => getD_mem_ne hv.scaleU hsc.u hj
  have pa : ∀ j < d.ocp.na, 0 < d.ocp.scaleA.getD j 0 := fun j hj => getD_mem_ne hv.scaleA hsc.a hj
  have pt := hsc.t
  have c0 : ∀ j < d.ocp.nx, ((Within (scaledLower d.ocp (.X 0 0 j)) (scaledUpper d.ocp (.X 0 0 j))
      (σ (.X 0 0 j))) ↔ (physOf d.ocp σ).x 0 0 j = entry d.ocp.x00 0 j 0) := by
    intro j hj
    simp only [scaledLower, scaledUpper, scaledBound, and_self, if_true, within_fin_fin, physOf]
    rw [div_eq_iff (px j hj).ne']
  have cx : ∀ i, ¬ (ph = 0 ∧ i = 0) → ∀ j < d.ocp.nx,
      ((Within (scaledLower d.ocp (.X ph i j)) (scaledUpper d.ocp (.X ph i j)) (σ (.X ph i j))) ↔
        Within (entry d.ocp.lbx ph j .nan) (entry d.ocp.ubx ph j .nan)
          ((physOf d.ocp σ).x ph i j)) := by
    intro i hi j hj
    simp only [scaledLower, scaledUpper, scaledBound, hi, if_false, within_mul _ _ _ _ (px j hj)]
    rfl
  have cu : ∀ i, ∀ j < d.ocp.nu,
      ((Within (scaledLower d.ocp (.U ph i j)) (scaledUpper d.ocp (.U ph i j)) (σ (.U ph i j))) ↔
        Within (entry d.ocp.lbu ph j .nan) (entry d.ocp.ubu ph j .nan)
          ((physOf d.ocp σ).u ph i j)) := by
    intro i j hj
    simp only [scaledLower, scaledUpper, scaledBound, within_mul _ _ _ _ (pu j hj)]
    rfl
  have c1 : ((Within (scaledLower d.ocp (.T0 ph)) (scaledUpper d.ocp (.T0 ph)) (σ (.T0 ph))) ↔
        Within (entry d.ocp.lbt0 ph 0 .nan) (entry d.ocp.ubt0 ph 0 .nan)
          ((physOf d.ocp σ).t0 ph)) := by
    simp only [scaledLower, scaledUpper, scaledBound, within_mul _ _ _ _ pt]
    rfl
  have c2 : ((Within (scaledLower d.ocp (.Tf ph)) (scaledUpper d.ocp (.Tf ph)) (σ (.Tf ph))) ↔
        Within (entry d.ocp.lbtf ph 0 .nan) (entry d.ocp.ubtf ph 0 .nan)
          ((physOf d.ocp σ).tf ph)) := by
    simp only [scaledLower, scaledUpper, scaledBound, within_mul _ _ _ _ pt]
    rfl
  have ca : ∀ k < d.ocp.na,
      ((Within (scaledLower d.ocp (.A k ph)) (scaledUpper d.ocp (.A k ph)) (σ (.A k ph))) ↔
        Within (entry d.ocp.lba ph k .nan) (entry d.ocp.uba ph k .nan)
          ((physOf d.ocp σ).a ph k)) := by
    intro k hk
    simp only [scaledLower, scaledUpper, scaledBound, within_mul _ _ _ _ (pa k hk)]
    rfl
  have hN : M.N = d.N := h.N_eq
  have hNpos : 0 < d.N := by unfold Disc.N; omega
  constructor
  · intro hh
    refine ⟨?_, ?_, ?_, ?_, ?_, ?_⟩
    · rintro rfl j hj
      exact (c0 j hj).1 (hh _ (mem_phaseVars.2 (Or.inl ⟨0, hNpos, j, hj, rfl⟩)))
    · intro i hi hne j hj
      exact (cx i hne j hj).1 (hh _ (mem_phaseVars.2 (Or.inl ⟨i, hN ▸ hi, j, hj, rfl⟩)))
    · intro i hi j hj
      exact (cu i j hj).1 (hh _ (mem_phaseVars.2 (Or.inr (Or.inl ⟨i, hN ▸ hi, j, hj, rfl⟩))))
    · exact c1.1 (hh _ (mem_phaseVars.2 (by simp)))
    · exact c2.1 (hh _ (mem_phaseVars.2 (by simp)))
    · intro k hk
      exact (ca k hk).1 (hh _ (mem_phaseVars.2 (by simp [hk])))
  · intro hb s hs
    rcases mem_phaseVars.1 hs with ⟨i, hi, j, hj, rfl⟩ | ⟨i, hi, j, hj, rfl⟩ | rfl | rfl | ⟨k, hk, rfl⟩
    · by_cases h0 : ph = 0 ∧ i = 0
      · obtain ⟨rfl, rfl⟩ := h0
        exact (c0 j hj).2 (hb.x0 rfl j hj)
      · exact (cx i h0 j hj).2 (hb.x i (hN ▸ hi) h0 j hj)
    · exact (cu i j hj).2 (hb.u i (hN ▸ hi) j hj)
    · exact c1.2 hb.t0
    · exact c2.2 hb.tf
    · exact (ca k hk).2 (hb.a k hk)

/-- The constraint rows of a phase in physical terms, each within its bounds in the sense of `W`. -/
structure RowsBy (W : Ext K → Ext K → K → Prop) (ocp : OCP K) (M : Mesh K) (T : Traj K) (ph : Nat) : Prop where
  dyn : ∀ F, ocp.dynamics[ph]? = some F → ∀ j < ocp.nx, ∀ s i, M.Owns s i →
    W (.fin 0) (.fin 0) (ocp.scaleX.getD j 0 *
      ((derivative (M.piece (fun k => T.x ph k j) s)).eval (M.node s i) -
        M.halfWidth T ph s * F.f (ocp.pArg T ph (M.idx s i) (M.time T ph s (M.node s i))) j))
  path : ∀ F, ocp.pathConstraints[ph]? = some (some F) → ∀ s i, M.Owns s i → ∀ c < F.len,
    W .ninf (.fin 0) (F.f (ocp.pArg T ph (M.idx s i) (M.time T ph s (M.node s i))) c)
  slope : ocp.diffU.getD ph false = true → ∀ j < ocp.nu, ∀ s i, M.Owns s i →
    W (ocp.lbdu.getD ph .nan) (ocp.ubdu.getD ph .nan)
      (ocp.scaleU.getD j 0 * (derivative (M.piece (fun k => T.u ph k j) s)).eval (M.node s i))
  mid : ocp.midu.getD ph false = true → ∀ j < ocp.nu, ∀ s < M.orders.length, ∀ i < M.order s,
    W (Ext.mul (entry ocp.lbu ph j .nan) (ocp.scaleU.getD j 0))
      (Ext.mul (entry ocp.ubu ph j .nan) (ocp.scaleU.getD j 0))
      (ocp.scaleU.getD j 0 * (M.piece (fun k => T.u ph k j) s).eval ((M.node s i + M.node s (i + 1)) / 2))
  cont : ocp.duContinuity.getD ph false = true → ∀ j < ocp.nu, ∀ s, s + 1 < M.orders.length →
    W (.fin 0) (.fin 0) (ocp.scaleU.getD j 0 *
      ((derivative (M.piece (fun k => T.u ph k j) s)).eval M.tau1 -
        (derivative (M.piece (fun k => T.u ph k j) (s + 1))).eval M.tau0))
  term : ∀ F, ocp.terminalConstraints[ph]? = some (some F) → ∀ c < F.len,
    W (.fin 0) (.fin 0) (F.f (ocp.tArg T ph M.N) c)

/-- All constraint rows of a phase, and its contribution to the objective. -/
theorem Disc.OnMesh.discretizePhase_rows (h : d.OnMesh M) (hv : ValidOCP d.ocp)
    (hs : d.ocp.SettingsOK) (hsc : d.ocp.PosScales) {ph : Nat} (hph : ph < d.ocp.nPhases) :
    ∃ B J rc tc, d.discretizePhase ph = .ok (B, J) ∧ B.Sized ∧
      (∀ (W : Ext K → Ext K → K → Prop) (σ : Env K), (∀ v, W .ninf .pinf v) →
        (B.SatBy W σ ↔ RowsBy W d.ocp M (physOf d.ocp σ) ph)) ∧
      d.ocp.runningCosts[ph]? = some rc ∧ d.ocp.terminalCosts[ph]? = some tc ∧
      ∀ σ, ∃ v : Nat → K, J σ = tc (d.ocp.tArg (physOf d.ocp σ) ph M.N) + weightedSum d.compW v ∧
        ∀ s i, M.Owns s i → v (M.idx s i) = M.halfWidth (physOf d.ocp σ) ph s *
          rc (d.ocp.pArg (physOf d.ocp σ) ph (M.idx s i)
            (M.time (physOf d.ocp σ) ph s (M.node s i))) := by
  obtain ⟨f, c, q, F, hdisc, hF, -, hFs, hFsat⟩ :=
    h.dynBlock_rows hv hs.nx (fun s hs => (hsc.x s hs).ne') hph
  obtain ⟨f', c', q', pc, hdisc', hpc, hCs, -, hCsat⟩ := h.pathBlock_rows hv hph
  rw [hdisc] at hdisc'; cases hdisc'
  obtain ⟨TC, mayer, cost, hT, hcost, hTs, hTsat, hmayer⟩ := h.termBlock_rows hv hph
  obtain ⟨DU, hDU, hDUs, hDUsat⟩ := h.slopeBlock_rows hv hs (fun s hs => (hsc.u s hs).ne') hph
  obtain ⟨mU, hmU, hmUs, hmUsat⟩ := h.midBlock_rows hv hs hsc.u hph
  obtain ⟨dU, hdU, hdUs, hdUsat⟩ := h.contBlock_rows hv hs (fun s hs => (hsc.u s hs).ne') hph
  obtain ⟨f', c', q', J, rc, hdisc', hrc, hJ, hJs⟩ := h.quadCost_spec hv hph
  rw [hdisc] at hdisc'; cases hdisc'
  refine ⟨F.append ((Disc.pathBlock c (Disc.pathLen pc)).append
    (DU.append (mU.append (dU.append TC)))), fun σ => mayer σ + J σ, rc, cost, ?_, ?_, ?_, hrc, hcost,
    ?_⟩
  · unfold discretizePhase
    simp only [hdisc, hF, hpc, hT, hDU, hmU, hdU, hJ, py_bind_ok]
    rfl
  · exact sized_append hFs (sized_append hCs (sized_append hDUs (sized_append hmUs
      (sized_append hdUs hTs))))
  · intro W σ hW
    rw [satBy_append hFs, satBy_append hCs, satBy_append hDUs, satBy_append hmUs, satBy_append hdUs, hFsat,
      hCsat, hDUsat, hmUsat W σ hW, hdUsat, hTsat]
    exact ⟨fun ⟨a, b, c, e, f, g⟩ => ⟨a, b, c, e, f, g⟩, fun ⟨a, b, c, e, f, g⟩ => ⟨a, b, c, e, f, g⟩⟩
  · intro σ
    obtain ⟨v, hv1, hv2⟩ := hJs σ
    exact ⟨v, by simp only [hmayer, hv1], hv2⟩

/-- The rows of a phase, each within its bounds exactly. -/
theorem rowsBy_within {ocp : OCP K} (hv : ValidOCP ocp) (hsc : ocp.PosScales) (T : Traj K) (ph : Nat) :
    RowsBy Within ocp M T ph ↔ CollocationOK ocp M T ph ∧ PathOK ocp M T ph ∧
        (ocp.diffU.getD ph false = true → SlopeBounded ocp M T (fun j => ocp.scaleU.getD j 0) ph) ∧
        (ocp.midu.getD ph false = true → MidControlOK ocp M T ph) ∧
        (ocp.duContinuity.getD ph false = true → SlopeContinuous ocp M T ph) ∧
        TerminalOK ocp M T ph := by
  have px : ∀ j < ocp.nx, 0 < ocp.scaleX.getD j 0 := fun j hj => getD_mem_ne hv.scaleX hsc.x hj
  have pu : ∀ j < ocp.nu, 0 < ocp.scaleU.getD j 0 := fun j hj => getD_mem_ne hv.scaleU hsc.u hj
  have z : ∀ a b c : K, 0 < a → (Within (.fin 0) (.fin 0) (a * (b - c)) ↔ b = c) := by
    intro a b c ha
    rw [within_zero_zero, mul_eq_zero, or_iff_right ha.ne', sub_eq_zero]
  have m : ∀ (lo hi : Ext K) (s v : K), 0 < s →
      (Within (Ext.mul lo s) (Ext.mul hi s) (s * v) ↔ Within lo hi v) := by
    intro lo hi s v hs
    rw [within_mul _ _ _ _ hs, mul_div_cancel_left₀ _ hs.ne']
  constructor
  · rintro ⟨a, b, c, e, f, g⟩
    refine ⟨fun F hF j hj s i ho => (z _ _ _ (px j hj)).1 (a F hF j hj s i ho),
      fun F hF s i ho k hk => (within_ninf_zero _).1 (b F hF s i ho k hk), c,
      fun hm j hj s hs i hi => (m _ _ _ _ (pu j hj)).1 (e hm j hj s hs i hi),
      fun hm j hj s hs => (z _ _ _ (pu j hj)).1 (f hm j hj s hs),
      fun F hF k hk => (within_zero_zero _).1 (g F hF k hk)⟩
  · rintro ⟨a, b, c, e, f, g⟩
    refine ⟨fun F hF j hj s i ho => (z _ _ _ (px j hj)).2 (a F hF j hj s i ho),
      fun F hF s i ho k hk => (within_ninf_zero _).2 (b F hF s i ho k hk), c,
      fun hm j hj s hs i hi => (m _ _ _ _ (pu j hj)).2 (e hm j hj s hs i hi),
      fun hm j hj s hs => (z _ _ _ (pu j hj)).2 (f hm j hj s hs),
      fun F hF k hk => (within_zero_zero _).2 (g F hF k hk)⟩

/-- All constraint rows of a phase, and its contribution to the objective. -/
theorem Disc.OnMesh.discretizePhase_spec (h : d.OnMesh M) (hv : ValidOCP d.ocp)
    (hs : d.ocp.SettingsOK) (hsc : d.ocp.PosScales) {ph : Nat} (hph : ph < d.ocp.nPhases) :
    ∃ B J rc tc, d.discretizePhase ph = .ok (B, J) ∧ B.Sized ∧
      (∀ σ, B.Sat σ ↔ CollocationOK d.ocp M (physOf d.ocp σ) ph ∧
        PathOK d.ocp M (physOf d.ocp σ) ph ∧
        (d.ocp.diffU.getD ph false = true →
          SlopeBounded d.ocp M (physOf d.ocp σ) (fun j => d.ocp.scaleU.getD j 0) ph) ∧
        (d.ocp.midu.getD ph false = true → MidControlOK d.ocp M (physOf d.ocp σ) ph) ∧
        (d.ocp.duContinuity.getD ph false = true →
          SlopeContinuous d.ocp M (physOf d.ocp σ) ph) ∧
        TerminalOK d.ocp M (physOf d.ocp σ) ph) ∧
      d.ocp.runningCosts[ph]? = some rc ∧ d.ocp.terminalCosts[ph]? = some tc ∧
      ∀ σ, ∃ v : Nat → K, J σ = tc (d.ocp.tArg (physOf d.ocp σ) ph M.N) + weightedSum d.compW v ∧
        ∀ s i, M.Owns s i → v (M.idx s i) = M.halfWidth (physOf d.ocp σ) ph s *
          rc (d.ocp.pArg (physOf d.ocp σ) ph (M.idx s i)
            (M.time (physOf d.ocp σ) ph s (M.node s i))) := by
  obtain ⟨B, J, rc, tc, h1, h2, h3, h4⟩ := h.discretizePhase_rows hv hs hsc hph
  refine ⟨B, J, rc, tc, h1, h2, fun σ => ?_, h4⟩
  rw [Block.sat_iff_by, h3 Within σ within_trivial, rowsBy_within hv hsc]

/-- The phase-linking rows in physical terms, each within its bounds in the sense of `W`. -/
structure LinkRowsBy (W : Ext K → Ext K → K → Prop) (ocp : OCP K) (M : Mesh K) (T : Traj K) : Prop where
  x : ∀ (k p q : Nat), ocp.phaseLinks[k]? = some (p, q) → ∀ j < ocp.nx,
    W (Ext.mul (entry ocp.lbe k j .nan) (ocp.scaleX.getD j 0))
      (Ext.mul (entry ocp.ube k j .nan) (ocp.scaleX.getD j 0))
      (ocp.scaleX.getD j 0 * (T.x q 0 j - T.x p (M.N - 1) j))
  u : ∀ (k p q : Nat), ocp.phaseLinks[k]? = some (p, q) → ∀ j < ocp.nu,
    W (.fin 0) (.fin 0) (ocp.scaleU.getD j 0 * (T.u q 0 j - T.u p (M.N - 1) j))
  t : ∀ (k p q : Nat), ocp.phaseLinks[k]? = some (p, q) →
    W (.fin 0) (.fin 0) (ocp.scaleT * (T.t0 q - T.tf p))

/-- Phase-linking rows. -/
theorem Disc.OnMesh.eventBlock_rows (h : d.OnMesh M) (hv : ValidOCP d.ocp)
    (hs : d.ocp.SettingsOK) (hsc : d.ocp.PosScales) (h2 : 2 ≤ d.ocp.nPhases) :
    ∃ B, d.eventBlock = .ok B ∧ B.Sized ∧
      ∀ (W : Ext K → Ext K → K → Prop) (σ : Env K), B.SatBy W σ ↔ LinkRowsBy W d.ocp M (physOf d.ocp σ) := by
  have px : ∀ j < d.ocp.nx, 0 < d.ocp.scaleX.getD j 0 := fun j hj => getD_mem_ne hv.scaleX hsc.x hj
  have pu : ∀ j < d.ocp.nu, 0 < d.ocp.scaleU.getD j 0 := fun j hj => getD_mem_ne hv.scaleU hsc.u hj
  set links := d.ocp.phaseLinks with hlinks
  set n := links.length with hn
  have hn0 : 0 < n := List.length_pos_iff.2 (hs.links h2)
  have hnle : n ≤ d.ocp.nPhases - 1 := hs.linkCount h2
  have hrange : links.any (fun l => decide (d.ocp.nPhases ≤ l.1) || decide (d.ocp.nPhases ≤ l.2)) =
      false := by
    rw [List.any_eq_false]
    intro l hl
    have := hs.linkRange l hl
    simp; omega
  have hrow : ∀ (b : List (List (Ext K))), HasShape b (d.ocp.nPhases - 1) d.ocp.nx →
      ((List.range n).mapM fun k => do scaleRow (← pyIdx b k) d.ocp.scaleX) =
        .ok ((List.range n).map fun k => (List.range d.ocp.nx).map fun j =>
          Ext.mul (entry b k j .nan) (d.ocp.scaleX.getD j 0)) := by
    intro b hb
    apply mapM_ok
    intro k hk
    have hk : k < b.length := by
      have : k < n := by simpa using hk
      rw [hb.1]; omega
    have hl := hb.2 _ (List.getElem_mem hk)
    rw [pyIdx_ok hk, py_bind_ok]
    unfold scaleRow
    rw [if_pos (by rw [hl, hv.scaleX]), zipWith_eq_map_range Ext.mul hl hv.scaleX .nan 0]
    simp only [entry_eq hk]
  have hne : ∀ {β : Type} (f : Nat → β), ((List.range n).map f).isEmpty = false := by
    intro β f
    rw [List.isEmpty_eq_false_iff]
    intro hh
    have := congrArg List.length hh
    simp at this; omega
  have hcat : ∀ {β : Type} (f : Nat → List β),
      npConcat ((List.range n).map f) = .ok ((List.range n).flatMap f) := by
    intro β f
    unfold npConcat
    rw [hne, List.flatMap_def]; rfl
  have hlk : links.flatMap (fun l => (List.range d.ocp.nx).map fun j =>
      (fun σ => σ (.X l.2 0 j) - σ (.X l.1 (d.N - 1) j) : SX K)) =
      (List.range n).flatMap fun k => (List.range d.ocp.nx).map fun j =>
        (fun σ => σ (.X (links.getD k (0, 0)).2 0 j) - σ (.X (links.getD k (0, 0)).1 (d.N - 1) j)) :=
    flatMap_eq_range links (0, 0) _
  have hlk1 : links.flatMap (fun l => (List.range d.ocp.nu).map fun j =>
      (fun σ => σ (.U l.2 0 j) - σ (.U l.1 (d.N - 1) j) : SX K)) =
      (List.range n).flatMap fun k => (List.range d.ocp.nu).map fun j =>
        (fun σ => σ (.U (links.getD k (0, 0)).2 0 j) - σ (.U (links.getD k (0, 0)).1 (d.N - 1) j)) :=
    flatMap_eq_range links (0, 0) _
  have hlk2 : links.map (fun l => (fun σ => σ (.T0 l.2) - σ (.Tf l.1) : SX K)) =
      (List.range n).map fun k =>
        (fun σ => σ (.T0 (links.getD k (0, 0)).2) - σ (.Tf (links.getD k (0, 0)).1)) := by
    apply List.ext_getElem
    · simp [hn]
    · intro i h1 h2
      have : i < links.length := by simpa using h1
      simp [this]
  unfold eventBlock
  rw [if_neg (by omega)]
  simp only [← hlinks, ← hn, hrange, Bool.false_eq_true, if_false, hrow _ hv.lbe, hrow _ hv.ube,
    py_bind_ok, hcat, hlk, hlk1, hlk2]
  refine ⟨_, rfl, ?_, fun W σ => ?_⟩
  · constructor <;> simp
  unfold Block.SatBy evalAll
  simp only [List.map_append, List.map_flatMap, List.map_map, Function.comp_def,
    replicate_eq_map_range]
  rw [holdsBy_append (by simp) (by simp),
    holdsBy_append (by simp) (by simp),
    holdsBy_flatMap _ _ _ _ (by simp) (by simp), holdsBy_flatMap _ _ _ _ (by simp) (by simp)]
  simp only [holdsBy_map_range]
  have get : ∀ (k p q : Nat), links[k]? = some (p, q) → k < n ∧ links.getD k (0, 0) = (p, q) := by
    intro k p q hk
    refine ⟨(List.getElem?_eq_some_iff.1 hk).1, by simp [hk]⟩
  have get' : ∀ k < n, links[k]? = some ((links.getD k (0,0)).1, (links.getD k (0,0)).2) := by
    intro k hk
    have hk : k < links.length := hk
    simp [hk]
  have hN : M.N = d.N := h.N_eq
  have ex : ∀ p q j, j < d.ocp.nx → σ (.X q 0 j) - σ (.X p (d.N - 1) j) = d.ocp.scaleX.getD j 0 *
      ((physOf d.ocp σ).x q 0 j - (physOf d.ocp σ).x p (M.N - 1) j) := by
    intro p q j hj
    simp only [physOf, hN]
    rw [mul_sub, mul_div_cancel₀ _ (px j hj).ne', mul_div_cancel₀ _ (px j hj).ne']
  have eu : ∀ p q j, j < d.ocp.nu → σ (.U q 0 j) - σ (.U p (d.N - 1) j) = d.ocp.scaleU.getD j 0 *
      ((physOf d.ocp σ).u q 0 j - (physOf d.ocp σ).u p (M.N - 1) j) := by
    intro p q j hj
    simp only [physOf, hN]
    rw [mul_sub, mul_div_cancel₀ _ (pu j hj).ne', mul_div_cancel₀ _ (pu j hj).ne']
  have et : ∀ p q, σ (.T0 q) - σ (.Tf p) = d.ocp.scaleT *
      ((physOf d.ocp σ).t0 q - (physOf d.ocp σ).tf p) := by
    intro p q
    simp only [physOf]
    rw [mul_sub, mul_div_cancel₀ _ hsc.t.ne', mul_div_cancel₀ _ hsc.t.ne']
  constructor
  · rintro ⟨hx, hu, ht⟩
    refine ⟨?_, ?_, ?_⟩
    · intro k p q hk j hj
      obtain ⟨hkn, hg⟩ := get k p q hk
      have := hx k hkn j hj
      rw [hg] at this
      rw [← ex p q j hj]; exact this
    · intro k p q hk j hj
      obtain ⟨hkn, hg⟩ := get k p q hk
      have := hu k hkn j hj
      rw [hg] at this
      rw [← eu p q j hj]; exact this
    · intro k p q hk
      obtain ⟨hkn, hg⟩ := get k p q hk
      have := ht k hkn
      rw [hg] at this
      rw [← et p q]; exact this
  · intro hl
    refine ⟨?_, ?_, ?_⟩
    · intro k hk j hj
      have := hl.x k _ _ (get' k hk) j hj
      rw [← ex _ _ j hj] at this; exact this
    · intro k hk j hj
      have := hl.u k _ _ (get' k hk) j hj
      rw [← eu _ _ j hj] at this; exact this
    · intro k hk
      have := hl.t k _ _ (get' k hk)
      rw [← et] at this; exact this

/-- Phase-linking rows ⇔ phase links. -/
theorem Disc.OnMesh.eventBlock_spec (h : d.OnMesh M) (hv : ValidOCP d.ocp)
    (hs : d.ocp.SettingsOK) (hsc : d.ocp.PosScales) (h2 : 2 ≤ d.ocp.nPhases) :
    ∃ B, d.eventBlock = .ok B ∧ B.Sized ∧
      ∀ σ, B.Sat σ ↔ LinksOK d.ocp M (physOf d.ocp σ) := by
  have px : ∀ j < d.ocp.nx, 0 < d.ocp.scaleX.getD j 0 := fun j hj => getD_mem_ne hv.scaleX hsc.x hj
  have pu : ∀ j < d.ocp.nu, 0 < d.ocp.scaleU.getD j 0 := fun j hj => getD_mem_ne hv.scaleU hsc.u hj
  have z : ∀ a b c : K, 0 < a → (Within (.fin 0) (.fin 0) (a * (b - c)) ↔ b = c) := by
    intro a b c ha
    rw [within_zero_zero, mul_eq_zero, or_iff_right ha.ne', sub_eq_zero]
  have m : ∀ (lo hi : Ext K) (s v : K), 0 < s →
      (Within (Ext.mul lo s) (Ext.mul hi s) (s * v) ↔ Within lo hi v) := by
    intro lo hi s v hs
    rw [within_mul _ _ _ _ hs, mul_div_cancel_left₀ _ hs.ne']
  obtain ⟨B, h1, h2, h3⟩ := h.eventBlock_rows hv hs hsc h2
  refine ⟨B, h1, h2, fun σ => ?_⟩
  rw [Block.sat_iff_by, h3]
  exact ⟨fun ⟨a, b, c⟩ => ⟨fun k p q hk j hj => (m _ _ _ _ (px j hj)).1 (a k p q hk j hj),
      fun k p q hk j hj => (z _ _ _ (pu j hj)).1 (b k p q hk j hj),
      fun k p q hk => (z _ _ _ hsc.t).1 (c k p q hk)⟩,
    fun ⟨a, b, c⟩ => ⟨fun k p q hk j hj => (m _ _ _ _ (px j hj)).2 (a k p q hk j hj),
      fun k p q hk j hj => (z _ _ _ (pu j hj)).2 (b k p q hk j hj),
      fun k p q hk => (z _ _ _ hsc.t).2 (c k p q hk)⟩⟩

theorem npConcat_ok {α : Type} {l : List (List α)} (h : l ≠ []) : npConcat l = .ok l.flatten := by
  unfold npConcat
  rw [if_neg (by simpa using h)]

theorem satBy_flatten {W : Ext K → Ext K → K → Prop} {bs : List (Block K)} (h : ∀ b ∈ bs, b.Sized) (σ : Env K) :
    HoldsBy W (evalAll (bs.map (·.g)).flatten σ) (bs.map (·.lo)).flatten (bs.map (·.hi)).flatten ↔
      ∀ b ∈ bs, b.SatBy W σ := by
  induction bs with
  | nil => simp [evalAll, holdsBy_nil]
  | cons b bs ih =>
    have hb := h b (by simp)
    have := ih fun b' hb' => h b' (by simp [hb'])
    simp only [List.map_cons, List.flatten_cons, evalAll, List.map_append]
    rw [holdsBy_append (by simpa using hb.1) (by simpa using hb.2)]
    simp only [evalAll] at this
    rw [this]
    simp [Block.SatBy, evalAll]

theorem sat_flatten {bs : List (Block K)} (h : ∀ b ∈ bs, b.Sized) (σ : Env K) :
    Holds (evalAll (bs.map (·.g)).flatten σ) (bs.map (·.lo)).flatten (bs.map (·.hi)).flatten ↔
      ∀ b ∈ bs, b.Sat σ := satBy_flatten h σ

theorem sized_flatten {bs : List (Block K)} (h : ∀ b ∈ bs, b.Sized) :
    (bs.map (·.g)).flatten.length = (bs.map (·.lo)).flatten.length ∧
      (bs.map (·.g)).flatten.length = (bs.map (·.hi)).flatten.length := by
  induction bs with
  | nil => simp
  | cons b bs ih =>
    have hb := h b (by simp)
    have := ih fun b' hb' => h b' (by simp [hb'])
    simp only [List.map_cons, List.flatten_cons, List.length_append]
    have h1 := hb.1
    have h2 := hb.2
    omega

/-- `create_nlp` succeeds; its parts in closed form. -/
theorem Disc.OnMesh.createNlp_spec (h : d.OnMesh M) (hv : ValidOCP d.ocp)
    (hs : d.ocp.SettingsOK) (hsc : d.ocp.PosScales) :
    ∃ (bs : List (Block K)) (J : Nat → SX K) (nlp : NLP K), d.createNlp = .ok nlp ∧
      bs.length = d.ocp.nPhases ∧
      (∀ (ph : Nat) (b : Block K), bs[ph]? = some b →
        d.discretizePhase ph = .ok (b, J ph)) ∧
      (∀ b ∈ bs, b.Sized) ∧
      nlp.x = (List.range d.ocp.nPhases).flatMap d.phaseVars ∧
      nlp.lbx = nlp.x.map (scaledLower d.ocp) ∧ nlp.ubx = nlp.x.map (scaledUpper d.ocp) ∧
      nlp.p = d.widthParams ∧
      (∀ σ, nlp.f σ = ∑ ph ∈ Finset.range d.ocp.nPhases, J ph σ) ∧
      ∃ ev : List (Block K), (∀ b ∈ ev, b.Sized) ∧
        (d.ocp.nPhases < 2 → ev = []) ∧
        (2 ≤ d.ocp.nPhases → ∃ e, d.eventBlock = .ok e ∧ ev = [e]) ∧
        nlp.g = ((bs ++ ev).map (·.g)).flatten ∧ nlp.lbg = ((bs ++ ev).map (·.lo)).flatten ∧
        nlp.ubg = ((bs ++ ev).map (·.hi)).flatten := by
  have hphase : ∀ ph, ∃ BJ : Block K × SX K, ph < d.ocp.nPhases →
      d.discretizePhase ph = .ok BJ ∧ BJ.1.Sized := by
    intro ph
    by_cases hph : ph < d.ocp.nPhases
    · obtain ⟨B, J, -, -, hB, hBs, -⟩ := h.discretizePhase_spec hv hs hsc hph
      exact ⟨(B, J), fun _ => ⟨hB, hBs⟩⟩
    · exact ⟨(Block.empty, fun _ => 0), fun h => absurd h hph⟩
  choose BJ hBJ using hphase
  have hev : ∃ e : Block K, d.eventBlock = .ok e ∧ e.Sized := by
    by_cases h2 : 2 ≤ d.ocp.nPhases
    · obtain ⟨e, he, hes, -⟩ := h.eventBlock_spec hv hs hsc h2
      exact ⟨e, he, hes⟩
    · refine ⟨Block.empty, ?_, sized_empty⟩
      unfold eventBlock
      rw [if_pos (by omega)]
  obtain ⟨e, he, hes⟩ := hev
  have hm : ((List.range d.ocp.nPhases).mapM fun ph => do
      let z ← d.nlpVariables ph
      let g ← d.discretizePhase ph
      return (z, g)) = .ok ((List.range d.ocp.nPhases).map fun ph =>
        ((d.phaseVars ph, (d.phaseVars ph).map (scaledLower d.ocp),
          (d.phaseVars ph).map (scaledUpper d.ocp)), BJ ph)) := by
    apply mapM_ok
    intro ph hph
    have hph : ph < d.ocp.nPhases := by simpa using hph
    rw [nlpVariables_spec hv hs.nx hph, (hBJ ph hph).1]
    rfl
  have hpos := hv.phases
  have hne : ∀ {β : Type} (f : Nat → β) (l : List β), (List.range d.ocp.nPhases).map f ++ l ≠ [] := by
    intro β f l hh
    have := congrArg List.length hh
    simp at this; omega
  have hne' : ∀ {β : Type} (f : Nat → β), (List.range d.ocp.nPhases).map f ≠ [] := by
    intro β f hh
    have := congrArg List.length hh
    simp at this; omega
  refine ⟨(List.range d.ocp.nPhases).map fun ph => (BJ ph).1, fun ph => (BJ ph).2,
    { f := fun σ => ((List.range d.ocp.nPhases).map fun ph => (BJ ph).2 σ).sum
      x := ((List.range d.ocp.nPhases).map d.phaseVars).flatten
      g := ((List.range d.ocp.nPhases).map (fun ph => (BJ ph).1.g) ++
        (if 1 < d.ocp.nPhases then [e] else []).map (·.g)).flatten
      p := d.widthParams
      lbx := ((List.range d.ocp.nPhases).map fun ph =>
        (d.phaseVars ph).map (scaledLower d.ocp)).flatten
      ubx := ((List.range d.ocp.nPhases).map fun ph =>
        (d.phaseVars ph).map (scaledUpper d.ocp)).flatten
      lbg := ((List.range d.ocp.nPhases).map (fun ph => (BJ ph).1.lo) ++
        (if 1 < d.ocp.nPhases then [e] else []).map (·.lo)).flatten
      ubg := ((List.range d.ocp.nPhases).map (fun ph => (BJ ph).1.hi) ++
        (if 1 < d.ocp.nPhases then [e] else []).map (·.hi)).flatten },
    ?_, by simp, ?_, ?_, ?_, ?_, ?_, rfl, ?_, if 1 < d.ocp.nPhases then [e] else [], ?_, ?_, ?_, ?_,
    ?_, ?_⟩
  · unfold createNlp
    rw [hm, py_bind_ok, he, py_bind_ok]
    simp only [List.map_map, Function.comp_def]
    rw [npConcat_ok (hne _ _), npConcat_ok (hne _ _), npConcat_ok (hne' _), npConcat_ok (hne' _)]
    rfl
  · intro ph b hb
    have hph : ph < d.ocp.nPhases := by
      have := (List.getElem?_eq_some_iff.1 hb).1
      simpa using this
    simp only [List.getElem?_map, List.getElem?_range hph, Option.map_some, Option.some.injEq] at hb
    rw [← hb]
    exact (hBJ ph hph).1
  · simp only [List.mem_map, List.mem_range]
    rintro b ⟨ph, hph, rfl⟩
    exact (hBJ ph hph).2
  · simp only [List.flatMap_def]
  · simp only [List.map_flatten, List.map_map, Function.comp_def]
  · simp only [List.map_flatten, List.map_map, Function.comp_def]
  · intro σ
    simp only [Finset.sum_range, ← List.sum_ofFn]
    congr 1
    apply List.ext_getElem <;> simp
  · intro b hb
    split at hb
    · simp only [List.mem_singleton] at hb; rw [hb]; exact hes
    · simp at hb
  · intro h2; rw [if_neg (by omega)]
  · intro h2; exact ⟨e, he, by rw [if_pos (by omega)]⟩
  · simp only [List.map_append, List.map_map, Function.comp_def]
  · simp only [List.map_append, List.map_map, Function.comp_def]
  · simp only [List.map_append, List.map_map, Function.comp_def]

end MPOpt
