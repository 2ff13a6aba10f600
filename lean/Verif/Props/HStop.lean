import Verif.Props.HCourse
import Verif.Props.HMeasure
import Verif.Props.HEndExample

/-! # C72 for the code's own widths, and for objects -/

set_option autoImplicit false

namespace MPOpt
variable {K : Type} [Field K] [LinearOrder K]

section
variable {Sol W : Type}

omit [Field K] in
theorem infoAt_range {m j : Nat} (hj : 0 < j) (hjm : j ≤ m) (e : Nat → Option K) :
    infoAt ((List.range m).map fun i => (i + 1, e (i + 1))) j = some (e j) := by
  obtain ⟨i, rfl⟩ : ∃ i, j = i + 1 := ⟨j - 1, by omega⟩
  unfold infoAt
  have : ∀ m, i < m → ((List.range m).map fun i => (i + 1, e (i + 1))).find? (fun x => x.1 == i + 1) = some (i + 1, e (i + 1)) := by
    intro m
    induction m with
    | zero => intro h; omega
    | succ m ih =>
      intro h
      rw [List.range_succ, List.map_append, List.find?_append]
      rcases Nat.lt_or_ge i m with hlt | hge
      · rw [ih hlt]; rfl
      · have : i = m := by omega
        subst this
        have hn : ((List.range i).map fun i => (i + 1, e (i + 1))).find? (fun x => x.1 == i + 1) = none := by
          rw [List.find?_eq_none]
          intro x hx
          obtain ⟨k, hk, rfl⟩ := List.mem_map.1 hx
          have := List.mem_range.1 hk
          simp
          omega
        rw [hn]
        simp
  rw [this m (by omega)]
  rfl

/-- The entry of the last stage in the record. -/
theorem C72_record_last (E : HEnv K Sol W) (initial : Option Sol) (sw : Option W) (maxIter : Nat) {s : HState K Sol W}
    {sol : Sol} (h : E.solve initial sw maxIter = (s, .ok sol)) :
    s.count = s.calls.length ∧ ∃ g, E.stage initial (sw.getD E.dflt) s.calls.length = .ok g ∧
      infoAt s.info s.count = some g.err := by
  obtain ⟨-, -, -, g, hg, -⟩ := (C72_course E initial sw maxIter sol s.calls.length).1 (by rw [h]; exact ⟨rfl, rfl⟩)
  by_cases hm : s.calls = []
  · have h0 : s.calls.length = 0 := by rw [hm]; rfl
    obtain ⟨-, -, hend, -⟩ := (C72_course E initial sw maxIter sol 0).1 (by rw [h]; exact ⟨rfl, h0⟩)
    rw [h0] at hg ⊢
    have h0' : E.stage initial (sw.getD E.dflt) 0 = (do
        let m ← E.measure 0 initial (sw.getD E.dflt)
        return ⟨initial, m.1, m.2⟩) := rfl
    rcases hme : E.measure 0 initial (sw.getD E.dflt) with er | ⟨new, err⟩
    · rw [h0', hme] at hg; cases hg
    · rw [hme, py_bind_ok] at h0'
      rw [h0'] at hg
      cases hg
      obtain ⟨sw', hW⟩ : ∃ sw', E.widths 0 initial sw = .ok (sw', new, err) := by
        rw [E.widths_measure, hme]
        exact ⟨_, rfl⟩
      rcases hend with ⟨g', e, k1, k2, k3⟩ | ⟨hlt, -⟩
      · rw [h0'] at k1
        cases k1
        rw [HEnv.solve_eq hW, if_pos ((accepts_iff _).2 ⟨e, k2, k3⟩)] at h
        injection h with h1 h2
        rw [← h1]
        exact ⟨rfl, _, h0', infoAt_setInfo [] 0 err⟩
      · exact absurd hlt (lt_irrefl _)
  · obtain ⟨h1, -, e, h3, h4⟩ := C72_record E initial sw maxIter h hm
    obtain ⟨g', g1, g2⟩ := h4 _ (le_refl _)
    refine ⟨h1, g', g1, ?_⟩
    have hp := List.length_pos_iff.2 hm
    rw [h1, h3, infoAt_range hp (le_refl _) e, g2]

end

/-! ### The code's own test for unchanged widths -/

theorem mapM_ok_mem {A B : Type} {f : A → Py B} {l : List A} {r : List B} (h : l.mapM f = .ok r) {a : A} (ha : a ∈ l) :
    ∃ b, f a = .ok b := by
  rcases hf : f a with e | b
  · obtain ⟨e', he⟩ := mapM_error_of_mem f l a ha ⟨e, hf⟩
    rw [he] at h
    cases h
  · exact ⟨b, rfl⟩

theorem unchanged_length {C : HConfig K} {new old : List K} {b : Bool} (h : C.unchanged new old = .ok b) :
    new.length ≤ old.length := by
  by_contra hlt
  unfold HConfig.unchanged at h
  simp only [py_bind_eq_ok] at h
  obtain ⟨fl, h1, -⟩ := h
  obtain ⟨c, hc⟩ := mapM_ok_mem h1 (a := old.length) (by simp; omega)
  simp only [py_bind_eq_ok, pyIdx_eq_ok] at hc
  obtain ⟨_, -, y, hy, -⟩ := hc
  simp at hy

/-- **C72** Widths count as unchanged when each of them moved by at most the tolerance, relative to its new value. -/
theorem C72_unchanged (C : HConfig K) {new old : List K} (hl : new.length ≤ old.length) :
    C.unchanged new old = .ok true ↔ ∀ (i : Nat) (a b : K), new[i]? = some a → old[i]? = some b →
      a ≠ 0 ∧ |a - b| / a ≤ C.tolChange := by
  unfold HConfig.unchanged
  rw [mapM_ok _ (fun i => decide (new.getD i 0 ≠ 0 ∧ |new.getD i 0 - old.getD i 0| / new.getD i 0 ≤ C.tolChange)) _ ?_, py_bind_ok]
  swap
  · intro i hi
    have hi : i < new.length := List.mem_range.1 hi
    rw [pyIdx_ok hi, py_bind_ok, pyIdx_ok (hi.trans_le hl), py_bind_ok]
    rw [List.getD_eq_getElem _ _ hi, List.getD_eq_getElem _ _ (hi.trans_le hl)]
    unfold npDiv
    by_cases h0 : new[i] = 0
    · simp [h0, pure, Except.pure]
    · simp [h0, pure, Except.pure]
  simp only [pure, Except.pure, Except.ok.injEq, List.all_map, List.all_eq_true, List.mem_range, Function.comp_apply, id_eq,
    decide_eq_true_eq]
  constructor
  · intro h i a b ha hb
    have hi := (List.getElem?_eq_some_iff.1 ha).1
    have := h i hi
    rw [List.getD_eq_getElem?_getD, List.getD_eq_getElem?_getD, ha, hb] at this
    exact this
  · intro h i hi
    rw [List.getD_eq_getElem _ _ hi, List.getD_eq_getElem _ _ (hi.trans_le hl)]
    exact h i _ _ (List.getElem?_eq_getElem hi) (List.getElem?_eq_getElem (hi.trans_le hl))

variable [IsStrictOrderedRing K]

omit [IsStrictOrderedRing K] in
/-- When the default widths are proposed whatever happens, and no error is measured, a call that returns has run the solver
exactly once, with the default widths. -/
theorem HEnv.solves_once {Sol : Type} {E : HEnv K Sol (List K)} (hmeas : ∀ k sl w, E.measure k sl w = .ok (E.dflt, none))
    (hun : E.unchanged E.dflt E.dflt = .ok true) (initial : Option Sol) (sw : Option (List K)) {maxIter : Nat}
    {s : HState K Sol (List K)} {sol : Sol} (h : E.solve initial sw maxIter = (s, .ok sol)) :
    s.calls.length = 1 ∧ s.sw = some E.dflt ∧ E.solver 0 initial E.dflt = .ok sol ∧ s.count = 1 ∧ s.info = [(1, none)] := by
  have hst : ∀ k g, E.stage initial (sw.getD E.dflt) k = .ok g → g.w = E.dflt ∧ g.err = none := by
    intro k g hg
    cases k with
    | zero =>
      rw [HEnv.stage, hmeas, py_bind_ok] at hg
      cases hg
      exact ⟨rfl, rfl⟩
    | succ k =>
      simp only [HEnv.stage, py_bind_eq_ok, hmeas] at hg
      obtain ⟨_, -, _, -, m, hm, hg⟩ := hg
      cases hm; cases hg
      exact ⟨rfl, rfl⟩
  obtain ⟨hle, hgo, hend, -⟩ := (C72_course E initial sw maxIter sol s.calls.length).1 (by rw [h]; exact ⟨rfl, rfl⟩)
  have hpos : 0 < s.calls.length := by
    rcases hend with ⟨g, e, g1, g2, -⟩ | ⟨hp, -⟩
    · rw [(hst _ g g1).2] at g2; cases g2
    · exact hp
  have hone : s.calls.length = 1 := by
    by_contra hne
    obtain ⟨g, g', g1, g2, g3⟩ := (hgo 1 (by omega)).2.2 Nat.one_pos
    rw [(hst _ g g1).1, (hst _ g' g2).1, hun] at g3
    cases g3
  refine ⟨hone, ?_⟩
  have hne : s.calls ≠ [] := List.length_pos_iff.1 hpos
  obtain ⟨hcount, hc, e, hinfo, herr⟩ := C72_record E initial sw maxIter h hne
  obtain ⟨-, c36, c36'⟩ := C36_consistent_pair E initial sw maxIter
  rw [h] at c36 c36'
  rcases c36' sol rfl with ⟨pre, c, k1, k2, k3⟩ | ⟨k1, -⟩
  · simp only at k1 k3
    have hpre : pre = [] := by
      rw [k1] at hone
      exact List.length_eq_zero_iff.1 (by simpa using hone)
    subst hpre
    have h0 : s.calls[0]? = some c := by rw [k1]; rfl
    obtain ⟨g, g', g1, g2, g3, g4, g5⟩ := hc 0 c h0
    have hgs : g.sol = initial := by
      rw [HEnv.stage, hmeas, py_bind_ok] at g1
      cases g1
      rfl
    have hr := c36 0 c h0
    rw [g3, g4, hgs, (hst _ g g1).1, k2] at hr
    obtain ⟨g6, g7, g8⟩ := herr 1 (by omega)
    rw [(hst _ g6 g7).2] at g8
    refine ⟨?_, hr, by rw [hcount, hone], by rw [hinfo, hone]; simp [← g8]⟩
    rw [k3, g4, (hst _ g g1).1]
  · exact absurd k1 hne

/-- The default widths count as unchanged. -/
theorem HConfig.dflt_unchanged {C : HConfig K} (h0 : C.nSegments ≠ 0) (ht : 0 ≤ C.tolChange) :
    C.unchanged C.dflt C.dflt = .ok true := by
  rw [C72_unchanged C (le_refl _)]
  intro i a b ha hb
  rw [ha] at hb
  cases hb
  refine ⟨?_, by simpa using ht⟩
  have := List.mem_of_getElem? ha
  unfold HConfig.dflt at this
  rw [List.eq_of_mem_replicate this]
  simpa using h0

/-- **C72** With one segment a call that returns has run the solver exactly once, however large `max_iter` is. -/
theorem C72_single [FloorRing K] {Sol : Type} {C : HConfig K} {solver : Nat → Option Sol → List K → Py Sol}
    {probe : Nat → Sol → List K → Py (Probe K)} {E : HEnv K Sol (List K)} (hE : C.env solver probe = .ok E)
    (h1 : C.nSegments = 1) (ht : 0 ≤ C.tolChange) (initial : Option Sol) (sw : Option (List K)) {maxIter : Nat}
    {s : HState K Sol (List K)} {sol : Sol} (h : E.solve initial sw maxIter = (s, .ok sol)) :
    s.calls.length = 1 ∧ s.sw = some C.dflt ∧ solver 0 initial C.dflt = .ok sol := by
  obtain ⟨j0, j1, j2, j3, -, j5, -⟩ := HConfig.env_inv hE
  have hmeas : ∀ k sl w, E.measure k sl w = .ok (E.dflt, none) := by
    intro k sl w
    unfold HEnv.measure
    cases sl with
    | none => rfl
    | some x => simp only [j1, h1, if_true]
  obtain ⟨k1, k2, k3, -⟩ := E.solves_once hmeas (by rw [j5, j2]; exact HConfig.dflt_unchanged j0 ht) initial sw h
  rw [j2] at k2 k3
  rw [j3] at k3
  exact ⟨k1, k2, k3⟩

/-! ### Objects -/

omit [Field K] [IsStrictOrderedRing K] in
theorem foldl_min_le (l : List K) (a : K) : ∀ t ∈ a :: l, l.foldl min a ≤ t := by
  induction l generalizing a with
  | nil => intro t ht; rw [List.mem_singleton.1 ht]; exact le_refl _
  | cons b l ih =>
    intro t ht
    rw [List.foldl_cons]
    have h1 := ih (min a b) (min a b) List.mem_cons_self
    rcases List.mem_cons.1 ht with rfl | ht
    · exact h1.trans (min_le_left _ _)
    · rcases List.mem_cons.1 ht with rfl | ht
      · exact h1.trans (min_le_right _ _)
      · exact ih _ t (List.mem_cons_of_mem _ ht)

variable {V : Type} [FloorRing K] {w : HOutside K V} {M : Mesh K}
variable {nlpsol : Nat → Nat → SolverCall K V → Py (PyDict V)}
variable {ocp : OCP K} {n : Nat} {arg : OrdersArg} {scheme : String} {lbh ubh tol : List K} {s : HOpt K V}

/-- The widths an object would propose next, for a solution at given widths. -/
def HOpt.nextWidths (w : HOutside K V) (s : HOpt K V) (method : PyDict String) (sol : PyDict V) (sw : List K) :
    Py (List K × Option K) :=
  (s.config w (hMethodDict method)).refine (s.probe w (hMethodDict method) sol sw) sw

/-- **C72** Why the last call stopped. It ran the solver at most `max_iter` times, and one of these holds: the largest
defect of the returned trajectory is below every entry of `tol_residual`; the solver has been run `max_iter` times; more
than four times, and the last error is within five per cent of the mean of the last four; or the widths proposed next are
within `_TOL_SEG_WIDTH_CHANGE` of those the solution was computed with. -/
theorem C72_reasons (hf : s.Ready w ocp n arg scheme lbh ubh tol) (hv : ValidOCP ocp) (hs : ocp.SettingsOK)
    (hsc : ocp.PosScales) (hM : MeshFor w.toOutside scheme n arg M) (hlt : w.tau0 < w.tau1)
    (hgt : s.gridType = List.replicate ocp.nPhases "fixed")
    (hvec : ∀ i k c sol, nlpsol i k c = .ok sol → ∃ z, Returned w sol z ∧ z.length = c.solver.problem.x.length)
    {pre : List (HStart V × HArgs V)} {st : HStart V} {a : HArgs V} (ho : OwnStarts (pre ++ [(st, a)]))
    {s' : HOpt K V} {sol : PyDict V} (hrun : s.run w nlpsol (pre ++ [(st, a)]) 0 none = (s', some sol))
    {sw : List K} (hsw : s'.widths = some sw) (hval : ValidWidths n ocp.nPhases sw) (hn1 : n ≠ 1)
    (hmeth : asksFor a.method = some "residual" ∨ asksFor a.method = some "control_slope") :
    s'.iterCount ≤ a.maxIter ∧ ∃ T e, Holding w ocp M sol sw T ∧ LargestDefect ocp M T (max (M.orders.sum + 2) (s.maxGrid + 2)) e ∧
      infoAt s'.iterInfo s'.iterCount = some (some e) ∧
      ((∀ t ∈ tol, e < t) ∨ s'.iterCount = a.maxIter ∨
        (4 < s'.iterCount ∧ ∃ e1 e2 e3, infoAt s'.iterInfo (s'.iterCount - 1) = some (some e1) ∧
          infoAt s'.iterInfo (s'.iterCount - 2) = some (some e2) ∧ infoAt s'.iterInfo (s'.iterCount - 3) = some (some e3) ∧
          |e - (e3 + e2 + e1 + e) / 4| < |e| / 20) ∨
        ∃ new err, s'.nextWidths w a.method sol sw = .ok (new, err) ∧ ∀ (i : Nat) (x y : K), new[i]? = some x →
          sw[i]? = some y → x ≠ 0 ∧ |x - y| / x ≤ s.tolChange) := by
  obtain ⟨-, hrep⟩ := C61_reported_error hf hv hs hsc hM hlt hgt hvec ho hrun
  obtain ⟨T, e, hT, hL, hinfo⟩ := hrep sw hsw hval hn1 hmeth
  obtain ⟨d, honM, rfl, rfl, -, hc⟩ := hf.coherent hM
  obtain ⟨hcp, hsame, -⟩ := hc.run (nlpsol := nlpsol) (calls := pre)
    (fun x hx => ho x (List.mem_append_left _ hx)) (n := 0) (last := none) (fun _ h => by cases h)
  rw [HOpt.run_append] at hrun
  simp only at hrun
  generalize hr : s.run w nlpsol pre 0 none = r at hrun hcp hsame
  have hstep : r.1.solve w (nlpsol (0 + pre.length)) { a with initial := st.value r.2 } = (s', .ok sol) := by
    obtain ⟨h1, h2⟩ := Prod.mk.inj hrun
    refine Prod.ext h1 ?_
    show (r.1.solve w (nlpsol (0 + pre.length)) { a with initial := st.value r.2 }).2 = .ok sol
    rcases hx : (r.1.solve w (nlpsol (0 + pre.length)) { a with initial := st.value r.2 }).2 with e | v
    · rw [hx] at h2; cases h2
    · rw [hx] at h2; cases h2; rfl
  obtain ⟨s1, E, h1, h2, h3, h4, h5, h6⟩ := hcp.solve_inv hstep
  simp only at h5 h6
  obtain ⟨j0, j1, j2, j3, j4, j5, ta, tl, j6, j7⟩ := HConfig.env_inv h4
  have hsn : s1.nSegments = d.nSegments := by rw [h2.nSegments, hsame.nSegments, hf.nSegments]
  have hst : s1.tol = tol := by rw [h2.tol, hsame.tol, hf.tol]
  have hEn : E.nSegments ≠ 1 := by
    rw [j1]
    show s1.nSegments ≠ 1
    rw [hsn]; exact hn1
  generalize hR : E.solve (st.value r.2) r.1.widths a.maxIter = R at h5 h6
  obtain ⟨q, rr⟩ := R
  simp only at h5
  subst h5
  have hcount : s'.iterCount = q.count := by rw [h6]
  have hinf : s'.iterInfo = q.info := by rw [h6]
  have hwid : q.sw = some sw := by rw [← hsw, h6]
  obtain ⟨hle, -, hend, g, hg, hgs⟩ := (C72_course E (st.value r.2) r.1.widths a.maxIter sol q.calls.length).1
    (by rw [hR]; exact ⟨rfl, rfl⟩)
  obtain ⟨hcl, g', hg', hlast⟩ := C72_record_last E _ _ _ hR
  have hgg : g' = g := by rw [hg] at hg'; exact (Except.ok.inj hg').symm
  subst hgg
  have hge : g'.err = some e := by
    rw [hcount, hinf, hlast] at hinfo
    exact Option.some.inj hinfo
  refine ⟨by rw [hcount, hcl]; exact hle, T, e, hT, hL, hinfo, ?_⟩
  rw [hcount, hinf, hcl]
  rcases hend with ⟨g2, e2, k1, k2, k3⟩ | ⟨hp, -, hend⟩
  · left
    rw [hg] at k1
    cases k1
    rw [hge] at k2
    cases k2
    intro t ht
    have j6 : s1.tol = ta :: tl := j6
    rw [← hst, j6] at ht
    rw [j7] at k3
    exact k3.trans_le (foldl_min_le tl ta t ht)
  · have hne : q.calls ≠ [] := List.length_pos_iff.1 hp
    obtain ⟨-, hcalls, ee, hee1, hee2⟩ := C72_record E _ _ _ hR hne
    rcases hend with hmax | ⟨-, ⟨h4', v, hv1, hv2⟩ | ⟨-, g1, g0, hg1, hg0, hun⟩⟩
    · exact Or.inr (Or.inl hmax)
    · refine Or.inr (Or.inr (Or.inl ⟨h4', v (q.calls.length - 1), v (q.calls.length - 2), v (q.calls.length - 3), ?_⟩))
      have hat : ∀ j, q.calls.length - 3 ≤ j → j ≤ q.calls.length → infoAt q.info j = some (some (v j)) := by
        intro j hj1 hj2
        obtain ⟨x, x1, x2⟩ := hv1 j hj1 hj2
        obtain ⟨y, y1, y2⟩ := hee2 j hj2
        rw [x1] at y1
        cases y1
        rw [hee1, infoAt_range (by omega) hj2, ← y2, x2]
      have hve : v q.calls.length = e := by
        have := hat q.calls.length (by omega) (le_refl _)
        rw [hcount, hinf, hcl, this] at hinfo
        exact Option.some.inj (Option.some.inj hinfo)
      refine ⟨hat _ (by omega) (by omega), hat _ (by omega) (by omega), hat _ (by omega) (by omega), ?_⟩
      rw [hve] at hv2
      exact hv2.2 trivial
    · refine Or.inr (Or.inr (Or.inr ?_))
      obtain ⟨m, hm⟩ : ∃ m, q.calls.length = m + 1 := ⟨q.calls.length - 1, by omega⟩
      rw [hm] at hg hg1 hg0
      rw [Nat.add_sub_cancel] at hg0
      rw [hg] at hg1
      cases hg1
      -- the widths of the last call are those of the stage before
      have hsw0 : g0.w = sw := by
        obtain ⟨-, -, c36⟩ := C36_consistent_pair E (st.value r.2) r.1.widths a.maxIter
        rw [hR] at c36
        rcases c36 sol rfl with ⟨pre', c, k1, -, k3⟩ | ⟨k1, -⟩
        · have hlen : pre'.length = m := by
            have : q.calls.length = pre'.length + 1 := by
              have k1 : q.calls = pre' ++ [c] := k1
              rw [k1]; simp
            omega
          have hcm : q.calls[m]? = some c := by
            have k1 : q.calls = pre' ++ [c] := k1
            rw [k1, ← hlen]; simp
          obtain ⟨x, -, x1, -, -, x2, -⟩ := hcalls m c hcm
          rw [hg0] at x1
          cases x1
          rw [← x2]
          have k3 : q.sw = some c.p := k3
          rw [hwid] at k3
          exact (Option.some.inj k3).symm
        · exact absurd k1 hne
      have hmeas : E.refine (m + 1) sol sw = .ok (g'.w, g'.err) := by
        simp only [HEnv.stage, py_bind_eq_ok] at hg
        obtain ⟨y, y1, sl, -, z, z1, z2⟩ := hg
        rw [hg0] at y1
        cases y1
        cases z2
        simp only at hgs
        cases hgs
        unfold HEnv.measure at z1
        simp only [hEn, if_false] at z1
        rw [hsw0] at z1
        exact z1
      rw [j4] at hmeas
      refine ⟨g'.w, g'.err, ?_, ?_⟩
      · rw [h6]; exact hmeas
      · rw [j5, hsw0] at hun
        have := (C72_unchanged _ (unchanged_length hun)).1 hun
        rw [← hsame.tolChange, ← h2.tolChange]
        exact this

/-! ### Examples -/

/-- The hypotheses of `C72_reasons` are met by the run of `exampleH`. -/
example : ∃ s' sol p, hoptH.run outsideH nlpsolH callsH 0 none = (s', some sol) ∧ s'.widths = some p ∧
    s'.iterCount ≤ 2 ∧ ∃ T e, Holding outsideH ocpQ meshH sol p T ∧ infoAt s'.iterInfo s'.iterCount = some (some e) := by
  obtain ⟨hv, hs, hsc⟩ := ocpQ_ready
  obtain ⟨h1, h2, s', sol, p, h3, h4, h5, -⟩ := exampleH
  refine ⟨s', sol, p, h3, h4, ?_⟩
  obtain ⟨k1, T, e, k2, -, k3, -⟩ := C72_reasons (a := ⟨none, false, "ipopt", [], [("method", "control_slope")], 2⟩)
    (pre := callsH.take 3) (st := .previous) hoptH_fresh.ready hv hs hsc meshH_for (by norm_num [outsideH]) rfl
    (fun i k c sol h => by
      obtain ⟨z, z1, -, z2⟩ := h2 i k c sol h
      exact ⟨z, z1, z2⟩) h1 h3 h4 h5 (by decide) (Or.inr (by decide +kernel))
  exact ⟨k1, T, e, k2, k3⟩

/-- The hypotheses of `C72_single` are met: one segment, nine iterations allowed. -/
example : ∃ E : HEnv ℚ Nat (List ℚ), (⟨1, 1, [1 / 100], [1 / 100000], [1], 1 / 10, 1 / 20, fun _ => 0, []⟩ : HConfig ℚ).env
    (fun k _ _ => .ok k) (fun _ _ _ => .ok ⟨[], []⟩) = .ok E ∧ (E.solve none none 9).2 = .ok 0 :=
  ⟨_, rfl, by decide +kernel⟩

/-- A stand-in for the problem: the errors are given, the widths are numbers that grow until they reach `cap`. -/
def toyH (errs : List ℚ) (cap : Nat) : HEnv ℚ Nat Nat :=
  ⟨2, 1 / 100, 0, fun k _ _ => .ok k, fun k _ w => .ok (min (w + 1) cap, some (errs.getD k 0)), fun a b => .ok (a == b)⟩

/-- It ends with a small error after three calls, … -/
example : (toyH [0, 1, 1, 0] 100).Ends none 0 9 3 :=
  ((C72_course (toyH [0, 1, 1, 0] 100) none none 9 2 3).1 (by decide +kernel)).2.2.1

/-- … with widths that do not change after four calls, … -/
example : ((toyH [0, 9, 7, 5, 3, 1] 3).solve none none 9).1.calls.length = 4 ∧ (toyH [0, 9, 7, 5, 3, 1] 3).Same none 0 4 true := by
  have h := (C72_course (toyH [0, 9, 7, 5, 3, 1] 3) none none 9 3 4).1 (by decide +kernel)
  refine ⟨by decide +kernel, ?_⟩
  exact ⟨⟨some 3, 3, some 3⟩, ⟨some 2, 3, some 5⟩, rfl, rfl, by decide⟩

/-- … with errors that stagnate after six calls, … -/
example : (toyH [0, 9, 7, 5, 5, 5, 5, 5] 100).Ends none 0 9 6 :=
  ((C72_course (toyH [0, 9, 7, 5, 5, 5, 5, 5] 100) none none 9 5 6).1 (by decide +kernel)).2.2.1

/-- … or after the calls that are allowed. -/
example : (toyH [0, 9, 7, 5, 3, 1] 100).Ends none 0 2 2 :=
  ((C72_course (toyH [0, 9, 7, 5, 3, 1] 100) none none 2 1 2).1 (by decide +kernel)).2.2.1

end MPOpt
