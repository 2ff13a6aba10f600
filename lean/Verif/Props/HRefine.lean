import Verif.Props.CheckPoint

/-! # When the width computation of `mpopt_h_adaptive` returns, and the error it returns -/

set_option autoImplicit false
set_option linter.unusedSectionVars false

namespace MPOpt
variable {K : Type} [Field K] [LinearOrder K] [IsStrictOrderedRing K]

/-- `v` is an entry of a residual of phase `ph`. -/
def Probe.Entry (P : Probe K) (ph : Nat) (v : K) : Prop :=
  ∃ errs rows, P.residuals[ph]? = some errs ∧ some rows ∈ errs ∧ v ∈ rows.flatten

/-- Per phase one residual for each of `n` segments, without empty matrices. -/
def Probe.Full (P : Probe K) (n nPhases : Nat) : Prop :=
  ∀ ph < nPhases, ∃ errs, P.residuals[ph]? = some errs ∧ errs.length = n ∧
    ∀ rows, some rows ∈ errs → rows.flatten ≠ []

/-- `m` is the largest absolute entry over all phases, 0 if there are none. -/
def Probe.Largest (P : Probe K) (nPhases : Nat) (m : K) : Prop :=
  0 ≤ m ∧ (∀ ph < nPhases, ∀ v, P.Entry ph v → |v| ≤ m) ∧
    (0 < m → ∃ ph < nPhases, ∃ v, P.Entry ph v ∧ |v| = m)

theorem Probe.Full.largest {P : Probe K} {n nPhases : Nat} (hn : 0 < n) (h : P.Full n nPhases)
    {rows : List (List K × K)}
    (hrows : (List.range nPhases).Forall₂ (fun ph r => ∃ res, P.residuals[ph]? = some res ∧
      maxResidual res = .ok r.2) rows) :
    P.Largest nPhases ((rows.map (·.2)).foldl (fun e m => if e < m then m else e) 0) := by
  obtain ⟨f1, f2, f3⟩ := foldErr_spec (rows.map (·.2)) 0
  have hlen : rows.length = nPhases := by simpa using hrows.length_eq.symm
  have key : ∀ ph (hp : ph < nPhases), ∃ errs, P.residuals[ph]? = some errs ∧
      (∀ r, some r ∈ errs → ∀ v ∈ r.flatten, |v| ≤ (rows[ph]'(by omega)).2) ∧
      (0 < (rows[ph]'(by omega)).2 → ∃ r, some r ∈ errs ∧ ∃ v ∈ r.flatten, |v| = (rows[ph]'(by omega)).2) := by
    intro ph hp
    obtain ⟨errs, e1, e2, e3⟩ := h ph hp
    obtain ⟨res, r1, r2⟩ := (List.forall₂_iff_get.1 hrows).2 ph (by simpa using hp) (by omega)
    simp only [List.get_eq_getElem, List.getElem_range] at r1 r2
    rw [e1] at r1; cases r1
    obtain ⟨-, m, -, -, m1, -, m3, m4⟩ := maxResidual_spec (errs := errs)
      (by intro h0; rw [h0] at e2; simp at e2; omega) e3
    rw [m1] at r2
    have := Except.ok.inj r2
    rw [← this]
    exact ⟨errs, e1, m3, m4⟩
  refine ⟨f1, ?_, fun hpos => ?_⟩
  · rintro ph hp v ⟨errs, r, e1, e2, e3⟩
    obtain ⟨errs', k1, k2, -⟩ := key ph hp
    rw [k1] at e1; cases e1
    exact (k2 r e2 v e3).trans (f2 _ (List.mem_map.2 ⟨_, List.getElem_mem _, rfl⟩))
  · rcases f3 with f3 | f3
    · rw [f3] at hpos; exact absurd hpos (lt_irrefl _)
    · obtain ⟨r, hr, hre⟩ := List.mem_map.1 f3
      obtain ⟨ph, hp, rfl⟩ := List.getElem_of_mem hr
      obtain ⟨errs, k1, -, k3⟩ := key ph (by omega)
      rw [← hre] at hpos
      obtain ⟨rr, h1, v, h2, h3⟩ := k3 hpos
      exact ⟨ph, by omega, v, ⟨errs, rr, k1, h1, h2⟩, by rw [h3, hre]⟩

/-- A method is given that measures residuals. -/
def HConfig.Measuring (C : HConfig K) : Prop :=
  C.options.get? "method" = some "control_slope" ∨ C.options.get? "method" = some "residual"

/-- The error returned with new widths is the largest residual. -/
theorem refine_error [FloorRing K] {C : HConfig K} (hn : 0 < C.nSegments) (hm : C.Measuring) {P : Py (Probe K)}
    (hP : ∀ p, P = .ok p → p.Full C.nSegments C.nPhases) {w new : List K} {err : Option K}
    (h : C.refine P w = .ok (new, err)) :
    ∃ p m, P = .ok p ∧ err = some m ∧ p.Largest C.nPhases m := by
  unfold HConfig.refine at h
  rcases hm with hm | hm
  · rw [hm] at h
    simp only [py_bind_eq_ok] at h
    obtain ⟨p, hp, ⟨w', e⟩, h2, h3⟩ := h
    cases h3
    refine ⟨p, e, hp, rfl, ?_⟩
    unfold slopeWidths at h2
    simp only [py_bind_eq_ok] at h2
    obtain ⟨rows, h4, h5⟩ := h2
    cases h5
    rw [mapM_eq_ok] at h4
    refine (hP p hp).largest hn (h4.imp ?_)
    intro ph r hr
    simp only [py_bind_eq_ok, pyIdx_eq_ok] at hr
    obtain ⟨res, hres, m, hm2, d, hd, tol, htol, l, hl', u, hu, w1, hw1, hret⟩ := hr
    cases hret
    exact ⟨res, hres, hm2⟩
  · rw [hm] at h
    simp only [py_bind_eq_ok] at h
    obtain ⟨p, hp, ⟨w', e⟩, h2, h3⟩ := h
    cases h3
    refine ⟨p, e, hp, rfl, ?_⟩
    unfold residualWidths at h2
    simp only [py_bind_eq_ok] at h2
    obtain ⟨rows, h4, h5⟩ := h2
    cases h5
    rw [mapM_eq_ok] at h4
    refine (hP p hp).largest hn (h4.imp ?_)
    intro ph r hr
    simp only [py_bind_eq_ok, pyIdx_eq_ok] at hr
    obtain ⟨res, hres, m, hm2, tol, htol, w1, hw1, hret⟩ := hr
    cases hret
    exact ⟨res, hres, hm2⟩

theorem allFinite_some (l : List K) : allFinite (l.map some) = .ok l := by
  unfold allFinite
  induction l with
  | nil => rfl
  | cons a l ih => rw [List.map_cons, List.mapM_cons, ih]; rfl

theorem residualPhase_total {norm : List K → K} {n : Nat} {res : List (SegResidual K)} {old : List K}
    {tol m : K} {method : String} (hn : 0 < n) (hnorm : ∀ l, 0 ≤ norm l) (hold : ValidPhase n old)
    (hres : ∃ ms, res.mapM absMax = .ok ms ∧ ms.length = n)
    (harea : method = "equal_area" → tol ≤ m → EndsWithArea (samples norm res)) :
    ∃ new, residualPhase norm n res old tol m method = .ok new := by
  unfold residualPhase
  by_cases hlt : m < tol
  · exact ⟨old, by rw [if_pos hlt]; rfl⟩
  rw [if_neg hlt]
  unfold refineWidths
  by_cases hms : method = "merge_split"
  · subst hms
    obtain ⟨ms, h1, h2⟩ := hres
    obtain ⟨w, e1, -⟩ := C31_merge_split ms old tol (by rw [h2, hold.1])
    simp only [beq_self_eq_true, if_true, h1, py_bind_ok, e1]
    rw [show (pure (w.map some) : Py (List (Option K))) = .ok (w.map some) from rfl, py_bind_ok, allFinite_some,
      py_bind_ok, if_neg (by decide)]
    exact ⟨w, rfl⟩
  · by_cases hea : method = "equal_area"
    · subst hea
      have hs := harea rfl (not_lt.1 hlt)
      have hnn : ∀ v ∈ samples norm res, 0 ≤ v := by
        intro v hv
        obtain ⟨e, -, hv⟩ := List.mem_flatMap.1 hv
        cases e with
        | none => simp only [List.mem_singleton] at hv; rw [hv]
        | some rows => obtain ⟨l, -, rfl⟩ := List.mem_map.1 hv; exact hnorm l
      have htot : 0 < trapezoid (samples norm res) ((samples norm res).length - 1) := by
        have h5 := trapezoid_succ (samples norm res) ((samples norm res).length - 2)
        have h6 := trapezoid_mono hnn (Nat.zero_le ((samples norm res).length - 2))
        have h7 : trapezoid (samples norm res) 0 = 0 := by simp [trapezoid]
        rw [show (samples norm res).length - 2 + 1 = (samples norm res).length - 1 by
          have := hs.1; omega] at h5
        rw [h5]
        have := hs.2
        rw [h7] at h6
        linarith
      obtain ⟨w1, e1, e2, -⟩ := C32_equal_area (samples norm res) n hn hnn htot
      rw [if_neg (by decide), if_pos (by decide)]
      show ∃ new, (Except.ok (equalArea (samples norm res) n) >>= _) = _
      rw [py_bind_ok, e1, allFinite_some, py_bind_ok, if_pos (by decide), if_neg (by rw [e2, hold.1]; simp)]
      exact ⟨_, rfl⟩
    · rw [if_neg (by simpa using hms), if_neg (by simpa using hea),
        show (pure (old.map some) : Py (List (Option K))) = .ok (old.map some) from rfl, py_bind_ok, allFinite_some,
        py_bind_ok, if_neg (by simpa using hea)]
      exact ⟨old, rfl⟩

theorem slopePhase_total [FloorRing K] {norm : List K → K} {n : Nat} {d : SlopeData K} {old : List K}
    {tol m thr lbh ubh : K} (hn : 2 ≤ n) (hd : d.OK) (h0 : 0 < lbh) (hle : lbh ≤ ubh) :
    ∃ new, slopePhase norm n d old tol m thr lbh ubh = .ok new := by
  unfold slopePhase
  by_cases hlt : m < tol
  · exact ⟨old, by rw [if_pos hlt]; rfl⟩
  rw [if_neg hlt]
  simp only
  by_cases hlen : (timesAtMax norm d.t (d.du.map fun r => r.map fun v => |v|) thr).length = 0
  · exact ⟨old, by rw [if_pos hlen]; rfl⟩
  rw [if_neg hlen]
  obtain ⟨idx, e1, e2, e3, -⟩ := C34_interior_instants norm d.t
    (d.du.map fun r => r.map fun v => |v|) thr (by simpa using hd.rows)
  have hfirst : d.t[0]? = some d.t0 := by rw [← List.head?_eq_getElem?]; exact hd.first
  have hlast : d.t[d.t.length - 1]? = some d.tf := by rw [← List.getLast?_eq_getElem?]; exact hd.last
  have hmem : ∀ t ∈ timesAtMax norm d.t (d.du.map fun r => r.map fun v => |v|) thr, d.t0 < t ∧ t < d.tf := by
    intro t ht
    rw [e1] at ht
    obtain ⟨i, hi, rfl⟩ := List.mem_map.1 ht
    obtain ⟨i1, i2, -⟩ := (e3 i).1 hi
    have a1 := getD_lt hd.increasing i1 (by omega : i < d.t.length)
    have a2 := getD_lt hd.increasing (by omega : i < d.t.length - 1) (by omega)
    rw [List.getD_eq_getElem?_getD (i := 0), hfirst] at a1
    rw [List.getD_eq_getElem?_getD (i := d.t.length - 1), hlast] at a2
    exact ⟨a1, a2⟩
  have hnd : (timesAtMax norm d.t (d.du.map fun r => r.map fun v => |v|) thr).Nodup := by
    rw [e1]
    apply List.Nodup.map_on _ e2
    intro i hi j hj hij
    obtain ⟨-, i2, -⟩ := (e3 i).1 hi
    obtain ⟨-, j2, -⟩ := (e3 j).1 hj
    by_contra hne
    rcases lt_or_gt_of_ne hne with h | h
    · exact absurd hij (getD_lt hd.increasing h (by omega)).ne
    · exact absurd hij (getD_lt hd.increasing h (by omega)).ne'
  obtain ⟨w1, f1, f2, f3, f4, -⟩ := C33_widths_at_times _ n d.t0 d.tf hn
    (by intro hh; rw [hh] at hlen; exact hlen rfl) hnd hmem
  obtain ⟨w2, g1, -⟩ := C35_clamp lbh ubh w1 h0 hle
    (by intro hh; rw [hh] at f2; simp at f2; omega) (fun v hv => (f3 v hv).le) f4
  exact ⟨w2, by rw [f1, py_bind_ok, g1]⟩

/-- The width computation returns. -/
theorem refine_total [FloorRing K] {C : HConfig K} (hC : C.OK) (h1 : C.nSegments ≠ 1)
    (htol : C.tolResidual.length = C.nPhases) (hlb : C.lbh.length = C.nPhases) (hub : C.ubh.length = C.nPhases)
    {p : Probe K} (hfull : C.Measuring → p.Full C.nSegments C.nPhases)
    (hslopes : C.options.get? "method" = some "control_slope" → p.slopes.length = C.nPhases)
    (hp : p.OK C) {w : List K} (hw : ValidWidths C.nSegments C.nPhases w) :
    ∃ new err, C.refine (.ok p) w = .ok (new, err) ∧ (C.Measuring → err ≠ none) := by
  have hseg := hC.segments
  unfold HConfig.refine
  by_cases hs : C.options.get? "method" = some "control_slope"
  · have hf := hfull (Or.inl hs)
    rw [hs]
    obtain ⟨rows, hrows⟩ := mapM_succeeds (l := List.range C.nPhases) (f := fun ph => do
        let res ← pyIdx p.residuals ph
        let m ← maxResidual res
        let d ← pyIdx p.slopes ph
        let w ← slopePhase C.norm C.nSegments d (phaseSlice C.nSegments ph w) (← pyIdx C.tolResidual ph) m
          C.threshold (← pyIdx C.lbh ph) (← pyIdx C.ubh ph)
        return (w, m)) (fun ph hph => by
      have hph : ph < C.nPhases := by simpa using hph
      obtain ⟨errs, e1, e2, e3⟩ := hf ph hph
      obtain ⟨-, m, -, -, m1, -⟩ := maxResidual_spec (errs := errs)
        (by intro h0; rw [h0] at e2; simp at e2; omega) e3
      have i1 : pyIdx p.slopes ph = .ok (p.slopes[ph]'(by rw [hslopes hs]; exact hph)) := pyIdx_ok _
      have i2 : pyIdx C.tolResidual ph = .ok (C.tolResidual[ph]'(by rw [htol]; exact hph)) := pyIdx_ok _
      have i3 : pyIdx C.lbh ph = .ok (C.lbh[ph]'(by rw [hlb]; exact hph)) := pyIdx_ok _
      have i4 : pyIdx C.ubh ph = .ok (C.ubh[ph]'(by rw [hub]; exact hph)) := pyIdx_ok _
      obtain ⟨l0, l1⟩ := hC.lbh ph _ _ (List.getElem?_eq_getElem (by rw [hlb]; exact hph))
        (List.getElem?_eq_getElem (by rw [hub]; exact hph))
      obtain ⟨new, hnew⟩ := slopePhase_total (norm := C.norm) (n := C.nSegments)
        (old := phaseSlice C.nSegments ph w) (tol := C.tolResidual[ph]'(by rw [htol]; exact hph)) (m := m)
        (thr := C.threshold) (by omega) (hp.slope hs _ (List.getElem_mem (by rw [hslopes hs]; exact hph))) l0 l1
      simp only [pyIdx_eq_ok.2 e1, py_bind_ok, m1, i1, i2, i3, i4, hnew]
      exact ⟨_, rfl⟩)
    refine ⟨(rows.map (·.1)).flatten, some ((rows.map (·.2)).foldl (fun e m => if e < m then m else e) 0), ?_,
      fun _ h => by cases h⟩
    simp only [py_bind_ok]
    unfold slopeWidths
    rw [hrows]
    rfl
  by_cases hr : C.options.get? "method" = some "residual"
  · have hf := hfull (Or.inr hr)
    rw [hr]
    obtain ⟨rows, hrows⟩ := mapM_succeeds (l := List.range C.nPhases) (f := fun ph => do
        let res ← pyIdx p.residuals ph
        let m ← maxResidual res
        let w ← residualPhase C.norm C.nSegments res (phaseSlice C.nSegments ph w) (← pyIdx C.tolResidual ph) m
          ((C.options.get? "sub_method").getD "equal_area")
        return (w, m)) (fun ph hph => by
      have hph : ph < C.nPhases := by simpa using hph
      obtain ⟨errs, e1, e2, e3⟩ := hf ph hph
      obtain ⟨ms, m, ms1, ms2, m1, -⟩ := maxResidual_spec (errs := errs)
        (by intro h0; rw [h0] at e2; simp at e2; omega) e3
      have i2 : pyIdx C.tolResidual ph = .ok (C.tolResidual[ph]'(by rw [htol]; exact hph)) := pyIdx_ok _
      obtain ⟨new, hnew⟩ := residualPhase_total (norm := C.norm) (n := C.nSegments)
        (old := phaseSlice C.nSegments ph w) (tol := C.tolResidual[ph]'(by rw [htol]; exact hph)) (m := m)
        (method := (C.options.get? "sub_method").getD "equal_area") (res := errs) hseg hC.norm (hw.slice hph)
        ⟨ms, ms1, ms2.trans e2⟩ (fun hsub => hp.area hr hsub ph errs m _ e1 m1 (List.getElem?_eq_getElem (by rw [htol]; exact hph)))
      simp only [pyIdx_eq_ok.2 e1, py_bind_ok, m1, i2, hnew]
      exact ⟨_, rfl⟩)
    refine ⟨(rows.map (·.1)).flatten, some ((rows.map (·.2)).foldl (fun e m => if e < m then m else e) 0), ?_,
      fun _ h => by cases h⟩
    simp only [py_bind_ok]
    unfold residualWidths
    rw [hrows]
    rfl
  · refine ⟨C.dflt, none, ?_, fun hm => ?_⟩
    · split
      · rename_i h; exact absurd h hs
      · rename_i h; exact absurd h hr
      · rfl
    · rcases hm with hm | hm
      · exact absurd hm hs
      · exact absurd hm hr

theorem mapM_then_total {α β γ : Type} {f : α → Py β} {g : List β → γ} {l : List α}
    (h : ∀ a ∈ l, ∃ b, f a = .ok b) : ∃ c, (l.mapM f >>= fun v => pure (g v)) = Except.ok c := by
  obtain ⟨v, hv⟩ := mapM_succeeds h
  exact ⟨g v, by rw [hv]; rfl⟩

/-- Comparing valid widths returns, and equal widths compare equal. -/
theorem unchanged_total {C : HConfig K} {a b : List K} (ha : a.length = b.length) :
    ∃ f, C.unchanged a b = .ok f := by
  unfold HConfig.unchanged
  apply mapM_then_total
  intro i hi
  have hi : i < a.length := by simpa using hi
  rw [pyIdx_ok hi, py_bind_ok, pyIdx_ok (by omega), py_bind_ok]
  exact ⟨_, rfl⟩

theorem unchanged_same {C : HConfig K} {a : List K} (hpos : ∀ v ∈ a, 0 < v) (htol : 0 ≤ C.tolChange) :
    C.unchanged a a = .ok true := by
  unfold HConfig.unchanged
  rw [mapM_ok _ (fun _ => true) _ (fun i hi => by
    have hi : i < a.length := by simpa using hi
    have hp := hpos _ (List.getElem_mem hi)
    simp only [pyIdx_ok hi, py_bind_ok, sub_self, abs_zero, npDiv, if_neg hp.ne', zero_div, htol, decide_true]
    rfl)]
  rw [py_bind_ok]
  simp
  rfl

end MPOpt
