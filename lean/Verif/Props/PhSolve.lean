import Verif.Model.PhSolve
import Verif.Props.PhAdaptive
import Verif.Props.Residuals

/-! # C94: what `solve_ph` would do behind its first statement -/

set_option autoImplicit false
set_option linter.unusedSectionVars false

namespace MPOpt

variable {K S : Type} [Field K] [LinearOrder K] [IsStrictOrderedRing K]

/-! ### Specification -/

/-- Orders respect the limits of the object. -/
def PhObj.Within (o : PhObj K) (os : List Nat) : Prop := ∀ p ∈ os, 1 ≤ p ∧ o.polyMin ≤ (p : Int) ∧ (p : Int) ≤ o.polyMax

/-- The object is as the constructor leaves it: at least one segment, an order for each, within the limits. -/
structure PhObj.Made (o : PhObj K) : Prop where
  pos : o.nSegments ≠ 0
  length : o.orders.length = o.nSegments
  within : o.Within o.orders

/-- Meshes at which an iteration starts. -/
inductive PhEnv.Reaches (E : PhEnv K S) (o : PhObj K) : Nat → Nat → List Nat → Prop
  | start : E.Reaches o 0 o.nSegments o.orders
  | next {k n : Nat} {os os' : List Nat} {s : S} {w : List K} : E.Reaches o k n os →
      E.round o k n os = .ok (.inr (s, w, os')) → E.Reaches o (k + 1) w.length os'

/-- Widths of every call: as given, or all equal. -/
def PhEnv.widthsFor (E : PhEnv K S) (n : Nat) : List K :=
  E.given.getD (List.replicate (n * E.nPhases) (1 / (n : K)))

/-- The residuals of a phase are within the tolerance, at all points of all segments. -/
def PhEnv.Good (E : PhEnv K S) (tol : K) (s : S) (os : List Nat) (w : List K) (ph : Nat) : Prop :=
  ∃ R phase, E.residual s os w = .ok R ∧ R[ph]? = some phase ∧
    ∀ seg ∈ phase, ∃ rows, seg = some rows ∧ ∀ row ∈ rows, ∀ j < E.nx, |row.getD j 0| ≤ tol

/-- Residuals come by phase and segment. -/
def PhEnv.Regular (E : PhEnv K S) : Prop := ∀ s os w R, E.residual s os w = .ok R →
  R.length = E.nPhases ∧ ∀ phase ∈ R, phase.length = os.length

/-! ### Pieces of an iteration -/

theorem made_of_mkPh {nPhases : Nat} {a : PhArgs K} {o : PhObj K} (h : mkPh nPhases a = .ok o) (hp : ∀ p ∈ a.orders, 1 ≤ p) :
    o.Made := by
  obtain ⟨h1, h2, h3, -⟩ := C41_limits h
  obtain ⟨h4, h5⟩ := (C41_constructs_iff nPhases a).1 ⟨o, h⟩
  exact ⟨by rw [h2]; exact h5, by rw [h1, h2]; exact h4, fun p hm => ⟨hp p (by rwa [h1] at hm), h3 p hm⟩⟩

theorem limited_within {o : PhObj K} (h : o.Made) {os : List Nat} (hp : ∀ p ∈ os, 1 ≤ p) : o.Within (o.limited os) := by
  obtain ⟨q, hq⟩ : ∃ q, q ∈ o.orders := by
    cases ho : o.orders with
    | nil => exact absurd (by rw [← h.length, ho]; rfl) h.pos
    | cons a l => exact ⟨a, by simp⟩
  obtain ⟨q1, q2, q3⟩ := h.within q hq
  intro p hp'
  simp only [PhObj.limited, PhObj.limitOrders, List.map_map, List.mem_map, Function.comp_apply] at hp'
  obtain ⟨r, hr, rfl⟩ := hp'
  have := hp r hr
  simp only [Int.ofNat_eq_natCast]
  refine ⟨?_, ?_, ?_⟩ <;> omega

theorem limited_length (o : PhObj K) (os : List Nat) : (o.limited os).length = os.length := by
  simp [PhObj.limited, PhObj.limitOrders]

theorem limited_getElem? (o : PhObj K) (os : List Nat) (i : Nat) :
    (o.limited os)[i]? = os[i]?.map fun p : Nat => (min (max o.polyMin (p : Int)) o.polyMax).toNat := by
  simp only [PhObj.limited, PhObj.limitOrders, List.map_map, List.getElem?_map]
  rfl

/-- Every entry of a `mapM`. -/
theorem mapM_at {A B : Type} {l : List A} {f : A → Py B} {r : List B} (h : l.mapM f = .ok r) {i : Nat} {a : A}
    (hi : l[i]? = some a) : ∃ b, r[i]? = some b ∧ f a = .ok b := by
  obtain ⟨h1, h2⟩ := List.getElem?_eq_some_iff.1 hi
  have h3 : i < r.length := by rw [mapM_length h]; exact h1
  exact ⟨r[i], List.getElem?_eq_getElem h3, by rw [← h2]; exact mapM_getElem h i h1 h3⟩

theorem mapM_zipIdx_at {A B : Type} {l : List A} {f : A × Nat → Py B} {r : List B} (h : l.zipIdx.mapM f = .ok r) :
    r.length = l.length ∧ ∀ (i : Nat) (a : A), l[i]? = some a → ∃ b, r[i]? = some b ∧ f (a, i) = .ok b := by
  refine ⟨by rw [mapM_length h, List.length_zipIdx], fun i a hi => mapM_at h ?_⟩
  rw [List.getElem?_zipIdx, hi]
  simp

theorem pyIdx_inv {A : Type} {l : List A} {i : Nat} {a : A} (h : pyIdx l i = .ok a) : l[i]? = some a := by
  unfold pyIdx at h
  split at h
  · cases h; assumption
  · cases h

/-- A raise by 3 in the segments marked. -/
def RaisedBy (st : List Bool) (os r : List Nat) : Prop :=
  r.length = st.length ∧ ∀ (i : Nat) (b : Bool), st[i]? = some b → ∃ p, os[i]? = some p ∧ r[i]? = some (p + if b then 3 else 0)

theorem phRaise_inv {orders r : List Nat} {status : List (List Bool)} (h : phRaise orders status = .ok r) :
    (r = orders ∧ ∀ st ∈ status, st.any id = false) ∨
    ∃ pre st post, status = pre ++ st :: post ∧ st.any id = true ∧ (∀ st' ∈ post, st'.any id = false) ∧ RaisedBy st orders r := by
  unfold phRaise at h
  have key : ∀ (status : List (List Bool)) (acc : List Nat), status.foldlM (fun acc st => if st.any id then
      st.zipIdx.mapM fun si => do return (← pyIdx orders si.2) + (if si.1 then 3 else 0) else .ok acc) acc = (.ok r : Py (List Nat)) →
      (r = acc ∧ ∀ st ∈ status, st.any id = false) ∨
      ∃ pre st post, status = pre ++ st :: post ∧ st.any id = true ∧ (∀ st' ∈ post, st'.any id = false) ∧ RaisedBy st orders r := by
    intro status
    induction status with
    | nil =>
      intro acc h
      rw [List.foldlM_nil, py_pure_eq_ok] at h
      exact Or.inl ⟨h.symm, by simp⟩
    | cons st status ih =>
      intro acc h
      rw [List.foldlM_cons, py_bind_eq_ok] at h
      obtain ⟨acc', h1, h2⟩ := h
      rcases ih acc' h2 with ⟨rfl, h3⟩ | ⟨pre, st', post, h3, h4, h5, h6⟩
      · by_cases hst : st.any id = true
        · rw [if_pos hst] at h1
          refine Or.inr ⟨[], st, status, rfl, hst, h3, ?_⟩
          obtain ⟨l1, l2⟩ := mapM_zipIdx_at h1
          refine ⟨l1, fun i b hb => ?_⟩
          obtain ⟨v, v1, v2⟩ := l2 i b hb
          simp only [py_bind_eq_ok, py_pure_eq_ok] at v2
          obtain ⟨p, p1, p2⟩ := v2
          exact ⟨p, pyIdx_inv p1, by rw [v1, p2]⟩
        · rw [if_neg hst] at h1
          cases h1
          refine Or.inl ⟨rfl, ?_⟩
          intro s hs
          rcases List.mem_cons.1 hs with rfl | hs
          · exact Bool.not_eq_true _ ▸ hst
          · exact h3 s hs
      · exact Or.inr ⟨st :: pre, st', post, by rw [h3]; rfl, h4, h5, h6⟩
  exact key status orders h

/-- What a solve on a mesh has to do with the mesh. -/
theorem solveOn_inv {E : PhEnv K S} {k n : Nat} {os : List Nat} {s : S} {w : List K} (h : E.solveOn k n os = .ok (s, w)) :
    os.length = n ∧ w = E.widthsFor n ∧ E.solve k os w = .ok s ∧ (E.given = none → n ≠ 0) := by
  unfold PhEnv.solveOn at h
  simp only [py_bind_eq_ok, py_pure_eq_ok, Prod.mk.injEq] at h
  obtain ⟨_, h1, w', h2, s', h3, rfl, rfl⟩ := h
  have hl : os.length = n := by simpa using pyAssert_eq_ok'.1 h1
  unfold PhEnv.widthsFor
  cases hg : E.given with
  | none =>
    rw [hg] at h2
    change equalWidths n E.nPhases = _ at h2
    unfold equalWidths at h2
    by_cases hn : n = 0
    · rw [if_pos hn] at h2
      cases h2
    · rw [if_neg hn] at h2
      cases h2
      exact ⟨hl, rfl, h3, fun _ => hn⟩
  | some v =>
    rw [hg] at h2
    cases h2
    exact ⟨hl, rfl, h3, fun h => by cases h⟩

/-- What one iteration has done. -/
theorem round_inv {E : PhEnv K S} {o : PhObj K} {k n : Nat} {os : List Nat} {out : S ⊕ (S × List K × List Nat)}
    (h : E.round o k n os = .ok out) : ∃ s w st r, E.solveOn (2 * k) n os = .ok (s, w) ∧ E.status o s os w = .ok st ∧
      phRaise os st = .ok r ∧ ((st.all (·.any id) = false ∧ out = .inl s) ∨ (st.all (·.any id) = true ∧
        ∃ s' w' st', E.solveOn (2 * k + 1) n (o.limited r) = .ok (s', w') ∧ E.status o s' (o.limited r) w' = .ok st' ∧
          ((st'.all (·.any id) = false ∧ out = .inl s') ∨ (st'.all (·.any id) = true ∧
            ∃ marks w'' os', phMesh w' (o.limited r) marks = .ok (w'', os') ∧ marks.length = st'.length ∧
              (∃ before after, E.second s os w r = .ok before ∧ E.second s' (o.limited r) w' r = .ok after ∧
                ∀ (ph : Nat) m, marks[ph]? = some m → ∃ t bp ap, st'[ph]? = some t ∧ before[ph]? = some bp ∧ after[ph]? = some ap ∧
                  m.length = t.length ∧ ∀ (i : Nat) b, m[i]? = some b → ∃ c bs as rough, t[i]? = some c ∧ bp[i]? = some bs ∧
                    ap[i]? = some as ∧ phRough E.threshold E.nx bs as = .ok rough ∧ b = (c && rough)) ∧
              out = .inr (s', w'', os'))))) := by
  unfold PhEnv.round at h
  rw [py_bind_eq_ok] at h
  obtain ⟨⟨s, w⟩, h1, h⟩ := h
  simp only [py_bind_eq_ok] at h
  obtain ⟨st, h2, r, h3, h⟩ := h
  refine ⟨s, w, st, r, h1, h2, h3, ?_⟩
  cases hc : st.all (·.any id) with
  | false =>
    simp only [hc, if_true, py_pure_eq_ok] at h
    exact Or.inl ⟨rfl, h.symm⟩
  | true =>
    simp only [hc, Bool.true_eq_false, if_false, py_bind_eq_ok, py_pure_eq_ok] at h
    refine Or.inr ⟨rfl, ?_⟩
    obtain ⟨before, h4, ⟨s', w'⟩, h5, R, h6, m, h7, after, h8, st', h9, marks, h10, h⟩ := h
    have hstat : E.status o s' (o.limited r) w' = .ok st' := by
      unfold PhEnv.status
      simp only [h6, h7, py_bind_ok]
      exact h9
    refine ⟨s', w', st', h5, hstat, ?_⟩
    cases hc' : st'.all (·.any id) with
    | false =>
      simp only [hc', if_true, py_pure_eq_ok] at h
      exact Or.inl ⟨rfl, h.symm⟩
    | true =>
      simp only [hc', Bool.true_eq_false, if_false, py_bind_eq_ok, py_pure_eq_ok] at h
      obtain ⟨⟨w'', os'⟩, h11, h⟩ := h
      obtain ⟨m1, m2⟩ := mapM_zipIdx_at h10
      refine Or.inr ⟨rfl, marks, w'', os', h11, m1, ⟨before, after, h4, h8, ?_⟩, h.symm⟩
      intro ph mk hmk
      obtain ⟨hlt, -⟩ := List.getElem?_eq_some_iff.1 hmk
      have hlt' : ph < st'.length := by rw [← m1]; exact hlt
      obtain ⟨b, b1, b2⟩ := m2 ph st'[ph] (List.getElem?_eq_getElem hlt')
      have : b = mk := by rw [b1] at hmk; exact Option.some.inj hmk
      subst this
      have hany : st'[ph].any id = true := List.all_eq_true.1 hc' _ (List.getElem_mem hlt')
      simp only [hany, if_true] at b2
      obtain ⟨c1, c2⟩ := mapM_zipIdx_at b2
      have hat : ∀ (i : Nat) x, b[i]? = some x → ∃ bp ap c bs as rough, before[ph]? = some bp ∧ after[ph]? = some ap ∧
          st'[ph][i]? = some c ∧ bp[i]? = some bs ∧ ap[i]? = some as ∧ phRough E.threshold E.nx bs as = .ok rough ∧ x = (c && rough) := by
        intro i x hi
        obtain ⟨hlt2, -⟩ := List.getElem?_eq_some_iff.1 hi
        have hlt3 : i < st'[ph].length := by rw [← c1]; exact hlt2
        obtain ⟨v, v1, v2⟩ := c2 i _ (List.getElem?_eq_getElem hlt3)
        have : v = x := by rw [v1] at hi; exact Option.some.inj hi
        subst this
        simp only [py_bind_eq_ok, py_pure_eq_ok] at v2
        obtain ⟨bp, k1, bs, k2, ap, k3, as, k4, rough, k5, k6⟩ := v2
        exact ⟨bp, ap, _, bs, as, rough, pyIdx_inv k1, pyIdx_inv k3, List.getElem?_eq_getElem hlt3, pyIdx_inv k2, pyIdx_inv k4, k5, k6.symm⟩
      have hpos : 0 < b.length := by
        rw [c1]
        rcases hl : st'[ph] with _ | ⟨x, l⟩
        · rw [hl] at hany; cases hany
        · simp
      obtain ⟨bp, ap, -, -, -, -, k1, k2, -⟩ := hat 0 _ (List.getElem?_eq_getElem hpos)
      refine ⟨_, bp, ap, List.getElem?_eq_getElem hlt', k1, k2, c1, fun i x hi => ?_⟩
      obtain ⟨bp', ap', c, bs, as, rough, q1, q2, q3, q4, q5, q6, q7⟩ := hat i x hi
      rw [k1] at q1
      rw [k2] at q2
      cases q1
      cases q2
      exact ⟨c, bs, as, rough, q3, q4, q5, q6, q7⟩

/-! ### Tolerance of a phase -/

theorem npMax_inv {l : List K} {v : K} (h : npMax l = .ok v) : (∀ x ∈ l, x ≤ v) ∧ v ∈ l := by
  cases l with
  | nil => cases h
  | cons a l =>
    cases h
    obtain ⟨f1, f2, f3⟩ := foldl_max_le l a
    refine ⟨fun x hx => ?_, ?_⟩
    · rcases List.mem_cons.1 hx with rfl | hx
      · exact f1
      · exact f2 x hx
    · rcases f3 with f3 | f3
      · rw [f3]; simp
      · exact List.mem_cons_of_mem _ f3

theorem absMaxCol_inv {col : List K} {r : Nat × K} (h : absMaxCol col = .ok r) : (∀ w ∈ col, |w| ≤ r.2) ∧ ∃ w ∈ col, r.2 = |w| := by
  have hne : col ≠ [] := by rintro rfl; cases h
  obtain ⟨i, v, h1, h2, h3, -⟩ := absMaxCol_spec hne
  rw [h1] at h
  cases h
  exact ⟨h3, v, List.mem_of_getElem? h2, rfl⟩

/-- The residuals of a segment, at all points. -/
def SegGood (nx : Nat) (tol : K) (seg : SegResidual K) : Prop :=
  ∃ rows, seg = some rows ∧ ∀ row ∈ rows, ∀ j < nx, |row.getD j 0| ≤ tol

theorem seg_good {nx : Nat} {seg : SegResidual K} {Rs : List (Nat × K)} {v tol : K}
    (h : (match seg with
      | none => .error .type
      | some rows => (List.range nx).mapM fun j => absMaxCol (rows.map fun row => row.getD j 0) : Py (List (Nat × K))) = .ok Rs)
    (hv : npMax (Rs.map (·.2)) = .ok v) : SegGood nx tol seg ↔ ¬ tol < v := by
  obtain ⟨v1, v2⟩ := npMax_inv hv
  cases seg with
  | none => cases h
  | some rows =>
    change (List.range nx).mapM (fun j => absMaxCol (rows.map fun row => row.getD j 0)) = .ok Rs at h
    rw [not_lt]
    constructor
    · rintro ⟨rows', h1, h2⟩
      cases h1
      obtain ⟨r, hr, rfl⟩ := List.mem_map.1 v2
      obtain ⟨j, hj, rfl⟩ := List.mem_iff_getElem.1 hr
      have hj' : j < nx := by
        have := mapM_length h
        rw [List.length_range] at this
        omega
      have := mapM_getElem h j (by simpa using hj') hj
      rw [List.getElem_range] at this
      obtain ⟨-, w, hw, e⟩ := absMaxCol_inv this
      rw [e]
      obtain ⟨row, hrow, rfl⟩ := List.mem_map.1 hw
      exact h2 row hrow j hj'
    · intro hle
      refine ⟨rows, rfl, fun row hrow j hj => ?_⟩
      have hj2 : j < Rs.length := by rw [mapM_length h]; simpa using hj
      have := mapM_getElem h j (by simpa using hj) hj2
      rw [List.getElem_range] at this
      obtain ⟨w1, -⟩ := absMaxCol_inv this
      exact le_trans (w1 _ (List.mem_map.2 ⟨row, hrow, rfl⟩)) (le_trans (v1 _ (List.mem_map.2 ⟨_, List.getElem_mem hj2, rfl⟩)) hle)

/-- Marks tell which phases are within the tolerance. -/
theorem status_inv {E : PhEnv K S} {o : PhObj K} {s : S} {os : List Nat} {w : List K} {st : List (List Bool)}
    (h : E.status o s os w = .ok st) : ∃ R, E.residual s os w = .ok R ∧ st.length = R.length ∧
      ∀ (ph : Nat) t, st[ph]? = some t → ∃ phase, R[ph]? = some phase ∧ t.length = phase.length ∧
        (∀ (i : Nat) seg, phase[i]? = some seg → ∃ b, t[i]? = some b ∧ (b = false ↔ SegGood E.nx o.maxResidual seg)) ∧
        (t.any id = false ↔ E.Good o.maxResidual s os w ph) := by
  unfold PhEnv.status at h
  simp only [py_bind_eq_ok] at h
  obtain ⟨R, hR, M, hM, hst⟩ := h
  unfold absMaxResidual at hM
  refine ⟨R, hR, by rw [mapM_length hst, mapM_length hM], fun ph t ht => ?_⟩
  obtain ⟨h1, h2⟩ := List.getElem?_eq_some_iff.1 ht
  have l1 : ph < M.length := by rw [← mapM_length hst]; exact h1
  have l2 : ph < R.length := by rw [← mapM_length hM]; exact l1
  have e1 := mapM_getElem hst ph l1 h1
  have e2 := mapM_getElem hM ph l2 l1
  rw [h2] at e1
  unfold phStatus at e1
  have len : t.length = R[ph].length := by rw [mapM_length e1, mapM_length e2]
  have each : ∀ (i : Nat) seg, R[ph][i]? = some seg → ∃ b, t[i]? = some b ∧ (b = false ↔ SegGood E.nx o.maxResidual seg) := by
    intro i seg hi
    obtain ⟨Rs, r1, r2⟩ := mapM_at e2 hi
    obtain ⟨b, b1, b2⟩ := mapM_at e1 r1
    simp only [py_bind_eq_ok, py_pure_eq_ok] at b2
    obtain ⟨v, v1, v2⟩ := b2
    exact ⟨b, b1, by rw [← v2, decide_eq_false_iff_not]; exact (seg_good r2 v1).symm⟩
  refine ⟨R[ph], List.getElem?_eq_getElem l2, len, each, ?_⟩
  rw [List.any_eq_false]
  constructor
  · intro hall
    refine ⟨R, R[ph], hR, List.getElem?_eq_getElem l2, fun seg hseg => ?_⟩
    obtain ⟨i, hi, rfl⟩ := List.mem_iff_getElem.1 hseg
    obtain ⟨b, b1, b2⟩ := each i _ (List.getElem?_eq_getElem hi)
    exact b2.1 (by simpa using hall b (List.mem_of_getElem? b1))
  · rintro ⟨R', phase, g1, g2, g3⟩ b hb
    rw [hR] at g1
    cases g1
    rw [List.getElem?_eq_getElem l2] at g2
    cases g2
    obtain ⟨i, hi, rfl⟩ := List.mem_iff_getElem.1 hb
    have hi' : i < R[ph].length := by rw [← len]; exact hi
    obtain ⟨b', b1, b2⟩ := each i _ (List.getElem?_eq_getElem hi')
    rw [List.getElem?_eq_getElem hi] at b1
    have := b2.2 (g3 _ (List.getElem_mem hi'))
    rw [Option.some.inj b1, this]
    simp

theorem status_all_false {E : PhEnv K S} {o : PhObj K} {s : S} {os : List Nat} {w : List K} {st : List (List Bool)}
    (h : E.status o s os w = .ok st) : st.all (·.any id) = false ↔ ∃ ph, E.Good o.maxResidual s os w ph := by
  obtain ⟨R, hR, hl, hph⟩ := status_inv h
  rw [List.all_eq_false]
  constructor
  · rintro ⟨t, ht, hany⟩
    obtain ⟨ph, hph1, rfl⟩ := List.mem_iff_getElem.1 ht
    obtain ⟨phase, -, -, -, e⟩ := hph ph _ (List.getElem?_eq_getElem hph1)
    exact ⟨ph, e.1 (by simpa using hany)⟩
  · rintro ⟨ph, hg⟩
    have hg' := hg
    obtain ⟨R', phase, g1, g2, -⟩ := hg'
    rw [hR] at g1
    cases g1
    have hlt : ph < st.length := by rw [hl]; exact (List.getElem?_eq_some_iff.1 g2).1
    obtain ⟨_, -, -, -, e⟩ := hph ph _ (List.getElem?_eq_getElem hlt)
    exact ⟨_, List.getElem_mem hlt, by rw [e.2 hg]; simp⟩

/-- A segment is not smooth: some state has, at some point, a second derivative whose size exceeds the threshold times all its sizes
before. -/
def NotSmooth (threshold : K) (nx : Nat) (before after : List (List K)) : Prop :=
  ∃ j < nx, ∃ row ∈ after, ∀ r ∈ before, threshold * |r.getD j 0| < |row.getD j 0|

theorem phRough_inv {threshold : K} (h0 : 0 ≤ threshold) {nx : Nat} {before after : List (List K)} {b : Bool}
    (h : phRough threshold nx before after = .ok b) : b = true ↔ NotSmooth threshold nx before after := by
  unfold phRough at h
  simp only [py_bind_eq_ok, py_pure_eq_ok] at h
  obtain ⟨cols, h1, rfl⟩ := h
  have hcol : ∀ j < nx, ∃ c, cols[j]? = some c ∧ (c = true ↔ ∃ row ∈ after, ∀ r ∈ before, threshold * |r.getD j 0| < |row.getD j 0|) := by
    intro j hj
    obtain ⟨c, c1, c2⟩ := mapM_at h1 (List.getElem?_range hj)
    simp only [py_bind_eq_ok, py_pure_eq_ok] at c2
    obtain ⟨m, m1, m2⟩ := c2
    obtain ⟨v1, v2⟩ := npMax_inv m1
    refine ⟨c, c1, ?_⟩
    rw [← m2, List.any_eq_true]
    obtain ⟨r0, hr0, rfl⟩ := List.mem_map.1 v2
    have hm : ∀ a : K, 0 ≤ a → (ratioAbove threshold a |r0.getD j 0| = true ↔ threshold * |r0.getD j 0| < a) := by
      intro a ha
      unfold ratioAbove
      by_cases hz : |r0.getD j 0| = 0
      · rw [if_pos hz, hz, mul_zero, decide_eq_true_iff]
        exact ⟨fun h => lt_of_le_of_ne ha h.symm, fun h => h.ne'⟩
      · have hp : 0 < |r0.getD j 0| := lt_of_le_of_ne (abs_nonneg _) (Ne.symm hz)
        rw [if_neg hz, decide_eq_true_iff, lt_div_iff₀ hp]
    constructor
    · rintro ⟨row, hrow, hr⟩
      refine ⟨row, hrow, fun r hr' => ?_⟩
      have := (hm _ (abs_nonneg _)).1 hr
      exact lt_of_le_of_lt (mul_le_mul_of_nonneg_left (v1 _ (List.mem_map.2 ⟨r, hr', rfl⟩)) h0) this
    · rintro ⟨row, hrow, hr⟩
      exact ⟨row, hrow, (hm _ (abs_nonneg _)).2 (hr r0 hr0)⟩
  have hlen : cols.length = nx := by rw [mapM_length h1, List.length_range]
  rw [List.any_eq_true]
  constructor
  · rintro ⟨c, hc, hid⟩
    obtain ⟨j, hj, rfl⟩ := List.mem_iff_getElem.1 hc
    obtain ⟨c', e1, e2⟩ := hcol j (by omega)
    rw [List.getElem?_eq_getElem hj] at e1
    exact ⟨j, by omega, e2.1 ((Option.some.inj e1).symm.trans hid)⟩
  · rintro ⟨j, hj, hr⟩
    obtain ⟨c, e1, e2⟩ := hcol j hj
    exact ⟨c, List.mem_of_getElem? e1, e2.2 hr⟩

/-! ### Split of the mesh -/

/-- Entries marked appear twice. -/
def phTwice {A : Type} (split : List Bool) (l : List A) : List A :=
  (List.zipWith (fun b x => if b then [x, x] else [x]) split l).flatten

theorem phTwice_length {A : Type} (split : List Bool) (l : List A) (h : split.length ≤ l.length) :
    (phTwice split l).length = split.length + split.count true := by
  induction split generalizing l with
  | nil => simp [phTwice]
  | cons b split ih =>
    cases l with
    | nil => simp at h
    | cons x l =>
      have := ih l (by simpa using h)
      unfold phTwice at this ⊢
      cases b <;> simp [this] <;> omega

theorem phTwice_mem {A : Type} (split : List Bool) (l : List A) : ∀ x ∈ phTwice split l, x ∈ l := by
  induction split generalizing l with
  | nil => simp [phTwice]
  | cons b split ih =>
    cases l with
    | nil => simp [phTwice]
    | cons y l =>
      intro x hx
      have := ih l
      unfold phTwice at this hx
      cases b
      · simp only [List.zipWith_cons_cons, List.flatten_cons, List.mem_append, Bool.false_eq_true, if_false, List.mem_singleton] at hx
        rcases hx with rfl | hx
        · simp
        · exact List.mem_cons_of_mem _ (this x hx)
      · simp only [List.zipWith_cons_cons, List.flatten_cons, List.mem_append, if_true, List.mem_cons, List.not_mem_nil, or_false, or_self] at hx
        rcases hx with rfl | hx
        · simp
        · exact List.mem_cons_of_mem _ (this x hx)

theorem phTwice_sum (split : List Bool) (l : List Nat) (h : split.length = l.length) (hp : ∀ p ∈ l, 1 ≤ p) :
    l.sum + split.count true ≤ (phTwice split l).sum := by
  induction split generalizing l with
  | nil =>
    cases l with
    | nil => simp [phTwice]
    | cons => simp at h
  | cons b split ih =>
    cases l with
    | nil => simp at h
    | cons x l =>
      have := ih l (by simpa using h) (fun p hp' => hp p (List.mem_cons_of_mem _ hp'))
      have hx := hp x (by simp)
      unfold phTwice at this ⊢
      cases b <;> simp at this ⊢ <;> omega

theorem phTwice_none {A : Type} (split : List Bool) (l : List A) (h : split.length = l.length) (hc : split.count true = 0) :
    phTwice split l = l := by
  induction split generalizing l with
  | nil =>
    cases l with
    | nil => rfl
    | cons => simp at h
  | cons b split ih =>
    cases l with
    | nil => simp at h
    | cons x l =>
      cases b
      · have := ih l (by simpa using h) (by simpa using hc)
        unfold phTwice at this ⊢
        simpa using this
      · simp at hc

/-- Widths after a split. -/
def phHalves (split : List Bool) (l : List K) : List K :=
  (List.zipWith (fun b x => if b then [x / 2, x / 2] else [x]) split l).flatten

theorem phSplit_inv {widths w : List K} {orders os : List Nat} {split : List Bool} (h : phSplit widths orders split = .ok (w, os)) :
    split ≠ [] ∧ split.length ≤ widths.length ∧ split.length ≤ orders.length ∧ w = phHalves split widths ∧ os = phTwice split orders := by
  unfold phSplit at h
  rw [py_bind_eq_ok] at h
  obtain ⟨parts, h1, h2⟩ := h
  by_cases he : parts.isEmpty = true
  · rw [if_pos he] at h2
    cases h2
  rw [if_neg he] at h2
  simp only [py_pure_eq_ok, Prod.mk.injEq] at h2
  obtain ⟨rfl, rfl⟩ := h2
  obtain ⟨l1, l2⟩ := mapM_zipIdx_at h1
  have hat : ∀ (i : Nat) (hi : i < split.length), ∃ x p, widths[i]? = some x ∧ orders[i]? = some p ∧
      parts[i]? = some (if split[i] then ([x / 2, x / 2], [p, p]) else ([x], [p])) := by
    intro i hi
    obtain ⟨b, b1, b2⟩ := l2 i _ (List.getElem?_eq_getElem hi)
    simp only [py_bind_eq_ok, py_pure_eq_ok] at b2
    obtain ⟨x, x1, p, p1, e⟩ := b2
    exact ⟨x, p, pyIdx_inv x1, pyIdx_inv p1, by rw [b1, ← e]⟩
  have hne : split ≠ [] := by
    rintro rfl
    exact he (by rw [List.isEmpty_iff]; exact List.length_eq_zero_iff.1 l1)
  have hw : split.length ≤ widths.length := by
    have hpos := List.length_pos_iff.2 hne
    obtain ⟨x, p, e1, -⟩ := hat (split.length - 1) (by omega)
    have := (List.getElem?_eq_some_iff.1 e1).1
    omega
  have ho : split.length ≤ orders.length := by
    have hpos := List.length_pos_iff.2 hne
    obtain ⟨x, p, -, e1, -⟩ := hat (split.length - 1) (by omega)
    have := (List.getElem?_eq_some_iff.1 e1).1
    omega
  refine ⟨hne, hw, ho, ?_, ?_⟩
  · unfold phHalves
    congr 1
    apply List.ext_getElem
    · simp only [List.length_map, List.length_zipWith]; omega
    · intro i h1 h2
      have hi : i < split.length := by simp only [List.length_map] at h1; omega
      obtain ⟨x, p, e1, e2, e3⟩ := hat i hi
      obtain ⟨q, e3⟩ := List.getElem?_eq_some_iff.1 e3
      obtain ⟨q', e1⟩ := List.getElem?_eq_some_iff.1 e1
      simp only [List.getElem_map, List.getElem_zipWith, e3, e1]
      split <;> rfl
  · unfold phTwice
    congr 1
    apply List.ext_getElem
    · simp only [List.length_map, List.length_zipWith]; omega
    · intro i h1 h2
      have hi : i < split.length := by simp only [List.length_map] at h1; omega
      obtain ⟨x, p, e1, e2, e3⟩ := hat i hi
      obtain ⟨q, e3⟩ := List.getElem?_eq_some_iff.1 e3
      obtain ⟨q', e2⟩ := List.getElem?_eq_some_iff.1 e2
      simp only [List.getElem_map, List.getElem_zipWith, e3, e2]
      split <;> rfl

theorem phHalves_length (split : List Bool) (l : List K) (h : split.length ≤ l.length) :
    (phHalves split l).length = split.length + split.count true := by
  induction split generalizing l with
  | nil => simp [phHalves]
  | cons b split ih =>
    cases l with
    | nil => simp at h
    | cons x l =>
      have := ih l (by simpa using h)
      unfold phHalves at this ⊢
      cases b <;> simp [this] <;> omega

theorem phMesh_inv {widths w : List K} {orders os : List Nat} {marks : List (List Bool)} (h : phMesh widths orders marks = .ok (w, os)) :
    ∃ m, marks.getLast? = some m ∧ phSplit widths orders m = .ok (w, os) := by
  unfold phMesh at h
  rw [py_bind_eq_ok] at h
  obtain ⟨ms, h1, h2⟩ := h
  cases hl : ms.getLast? with
  | none => rw [hl] at h2; cases h2
  | some m =>
    rw [hl] at h2
    cases h2
    rw [List.getLast?_eq_getElem?] at hl
    obtain ⟨q, e⟩ := List.getElem?_eq_some_iff.1 hl
    have len := mapM_length h1
    have q' : ms.length - 1 < marks.length := by omega
    have e2 := mapM_getElem h1 (ms.length - 1) q' q
    rw [e] at e2
    refine ⟨marks[ms.length - 1], ?_, e2⟩
    rw [List.getLast?_eq_getElem?, ← len]
    exact List.getElem?_eq_getElem q'

/-! ### The mesh of the next iteration -/

theorem status_lengths {E : PhEnv K S} (hE : E.Regular) {o : PhObj K} {s : S} {os : List Nat} {w : List K} {st : List (List Bool)}
    (h : E.status o s os w = .ok st) : st.length = E.nPhases ∧ ∀ t ∈ st, t.length = os.length := by
  obtain ⟨R, hR, hl, hph⟩ := status_inv h
  obtain ⟨r1, r2⟩ := hE s os w R hR
  refine ⟨hl.trans r1, fun t ht => ?_⟩
  obtain ⟨ph, hph1, rfl⟩ := List.mem_iff_getElem.1 ht
  obtain ⟨phase, e1, e2, -⟩ := hph ph _ (List.getElem?_eq_getElem hph1)
  rw [e2]
  exact r2 phase (List.mem_of_getElem? e1)

/-- Raised orders are at least the orders. -/
theorem phRaise_ge {os r : List Nat} {st : List (List Bool)} (hst : ∀ t ∈ st, t.length = os.length) (h : phRaise os st = .ok r) :
    r.length = os.length ∧ ∀ (i : Nat) p, os[i]? = some p → r[i]? = some p ∨ r[i]? = some (p + 3) := by
  rcases phRaise_inv h with ⟨rfl, -⟩ | ⟨pre, t, post, h1, -, -, h2, h3⟩
  · exact ⟨rfl, fun i p hp => Or.inl hp⟩
  · have hl : t.length = os.length := hst t (by rw [h1]; simp)
    refine ⟨h2.trans hl, fun i p hp => ?_⟩
    obtain ⟨hi, -⟩ := List.getElem?_eq_some_iff.1 hp
    obtain ⟨q, q1, q2⟩ := h3 i _ (List.getElem?_eq_getElem (by rw [hl]; exact hi))
    rw [hp] at q1
    cases q1
    cases hb : t[i]'(by rw [hl]; exact hi) <;> rw [hb] at q2
    · exact Or.inl q2
    · exact Or.inr q2

theorem raised_within {o : PhObj K} (hM : o.Made) {os r : List Nat} {st : List (List Bool)} (hst : ∀ t ∈ st, t.length = os.length)
    (h : phRaise os st = .ok r) (hos : o.Within os) : (o.limited r).length = os.length ∧ o.Within (o.limited r) ∧
      ∀ (i : Nat) p, os[i]? = some p → ∃ q, (o.limited r)[i]? = some q ∧ p ≤ q ∧ q ≤ p + 3 := by
  obtain ⟨h1, h2⟩ := phRaise_ge hst h
  refine ⟨by rw [limited_length, h1], limited_within hM ?_, fun i p hp => ?_⟩
  · intro q hq
    obtain ⟨i, hi, rfl⟩ := List.mem_iff_getElem.1 hq
    have hi' : i < os.length := by rw [← h1]; exact hi
    have := (hos _ (List.getElem_mem hi')).1
    rcases h2 i _ (List.getElem?_eq_getElem hi') with e | e <;>
    · obtain ⟨_, e⟩ := List.getElem?_eq_some_iff.1 e
      omega
  · obtain ⟨p1, p2, p3⟩ := hos p (List.mem_of_getElem? hp)
    rw [limited_getElem?]
    rcases h2 i p hp with e | e <;> rw [e] <;> refine ⟨_, rfl, ?_, ?_⟩ <;> push_cast <;> omega

/-- One step of the mesh. -/
theorem next_inv {E : PhEnv K S} (hE : E.Regular) {o : PhObj K} (hM : o.Made) {k n : Nat} {os os' : List Nat} {s : S} {w : List K}
    (hn : os.length = n) (hos : o.Within os) (h : E.round o k n os = .ok (.inr (s, w, os'))) :
    ∃ (r : List Nat) (split : List Bool), r.length = n ∧ o.Within r ∧
      (∀ (i : Nat) p, os[i]? = some p → ∃ q, r[i]? = some q ∧ p ≤ q ∧ q ≤ p + 3) ∧
      E.solve (2 * k + 1) r (E.widthsFor n) = .ok s ∧ (∀ ph, ¬ E.Good o.maxResidual s r (E.widthsFor n) ph) ∧
      split.length = n ∧ n ≤ (E.widthsFor n).length ∧ w = phHalves split (E.widthsFor n) ∧ os' = phTwice split r := by
  obtain ⟨s0, w0, st, r, h1, h2, h3, hout⟩ := round_inv h
  obtain ⟨-, rfl, -, -⟩ := solveOn_inv h1
  obtain ⟨-, l2⟩ := status_lengths hE h2
  obtain ⟨r1, r2, r3⟩ := raised_within hM l2 h3 hos
  rcases hout with ⟨-, hout⟩ | ⟨-, s', w', st', h4, h5, hout⟩
  · cases hout
  obtain ⟨-, rfl, e3, -⟩ := solveOn_inv h4
  rcases hout with ⟨-, hout⟩ | ⟨hall, marks, w'', os'', h6, h7, h8, hout⟩
  · cases hout
  cases hout
  obtain ⟨m, m1, m2⟩ := phMesh_inv h6
  obtain ⟨-, s2, s3, s4, s5⟩ := phSplit_inv m2
  rw [List.getLast?_eq_getElem?] at m1
  obtain ⟨_, _, -, -, h8⟩ := h8
  obtain ⟨t, _, _, t1, -, -, t2, -⟩ := h8 _ m m1
  have hlen : m.length = n := by
    rw [t2, (status_lengths hE h5).2 t (List.mem_of_getElem? t1), r1, hn]
  refine ⟨o.limited r, m, r1.trans hn, r2, r3, e3, ?_, hlen, by omega, s4, s5⟩
  intro ph hg
  rw [(status_all_false h5).2 ⟨ph, hg⟩] at hall
  cases hall

/-! ### Theorems -/

/-- Every mesh the loop starts an iteration on has as many orders as segments, at least the segments of the object and at most twice as
many per iteration; its orders respect the limits. -/
theorem C94_meshes {E : PhEnv K S} (hE : E.Regular) {o : PhObj K} (hM : o.Made) {k n : Nat} {os : List Nat} (h : E.Reaches o k n os) :
    os.length = n ∧ o.nSegments ≤ n ∧ n ≤ 2 ^ k * o.nSegments ∧ o.Within os := by
  induction h with
  | start => exact ⟨hM.length, le_refl _, by simp, hM.within⟩
  | @next k n os os' s w _ hr ih =>
    obtain ⟨i1, i2, i3, i4⟩ := ih
    obtain ⟨r, split, r1, r2, -, -, -, s1, s2, rfl, rfl⟩ := next_inv hE hM i1 i4 hr
    have l1 := phHalves_length split (E.widthsFor n) (by omega)
    have l2 := phTwice_length split r (by omega)
    have hc : split.count true ≤ split.length := List.count_le_length
    refine ⟨by omega, by omega, ?_, fun p hp => r2 p (phTwice_mem split r p hp)⟩
    rw [l1, pow_succ]
    have : n + n ≤ 2 ^ k * 2 * o.nSegments := by
      calc n + n = n * 2 := by omega
        _ ≤ 2 ^ k * o.nSegments * 2 := Nat.mul_le_mul_right 2 i3
        _ = _ := by ring
    omega

theorem sum_le_of_ge : ∀ (a b : List Nat), b.length = a.length →
    (∀ (i : Nat) p, a[i]? = some p → ∃ q, b[i]? = some q ∧ p ≤ q) → a.sum ≤ b.sum ∧ (a.sum = b.sum → a = b)
  | [], b, h, _ => by
    cases b with
    | nil => simp
    | cons => simp at h
  | x :: a, b, h, hle => by
    cases b with
    | nil => simp at h
    | cons y b =>
      obtain ⟨q, q1, q2⟩ := hle 0 x (by simp)
      simp only [List.getElem?_cons_zero, Option.some.injEq] at q1
      subst q1
      obtain ⟨i1, i2⟩ := sum_le_of_ge a b (by simpa using h) fun i p hp => by simpa using hle (i + 1) p (by simpa using hp)
      simp only [List.sum_cons, List.cons.injEq]
      refine ⟨by omega, fun e => ⟨by omega, i2 (by omega)⟩⟩

/-- Every further iteration starts on a mesh with more collocation points, or on the very same mesh. -/
theorem C94_progress {E : PhEnv K S} (hE : E.Regular) {o : PhObj K} (hM : o.Made) {k n : Nat} {os os' : List Nat} {s : S} {w : List K}
    (h : E.Reaches o k n os) (hr : E.round o k n os = .ok (.inr (s, w, os'))) : os.sum < os'.sum ∨ w.length = n ∧ os' = os := by
  obtain ⟨i1, i2, i3, i4⟩ := C94_meshes hE hM h
  obtain ⟨r, split, r1, r2, r3, -, -, s1, s2, rfl, rfl⟩ := next_inv hE hM i1 i4 hr
  obtain ⟨t1, t2⟩ := sum_le_of_ge os r (by omega) fun i p hp => by
    obtain ⟨q, q1, q2, -⟩ := r3 i p hp
    exact ⟨q, q1, q2⟩
  have t3 := phTwice_sum split r (by omega) fun p hp => (r2 p hp).1
  by_cases hc : split.count true = 0
  · have e := phTwice_none split r (by omega) hc
    have l1 := phHalves_length split (E.widthsFor n) (by omega)
    rw [e] at t3 ⊢
    by_cases hs : os.sum = r.sum
    · exact Or.inr ⟨by omega, (t2 hs).symm⟩
    · left; omega
  · left; omega

theorem same_of_max {o : PhObj K} {os r : List Nat} (hr : o.Within r) (hl : r.length = os.length)
    (hge : ∀ (i : Nat) p, os[i]? = some p → ∃ q, r[i]? = some q ∧ p ≤ q ∧ q ≤ p + 3) (hmax : ∀ p ∈ os, (p : Int) = o.polyMax) :
    r = os := by
  apply List.ext_getElem hl
  intro i h1 h2
  obtain ⟨q, q1, q2, -⟩ := hge i _ (List.getElem?_eq_getElem h2)
  rw [List.getElem?_eq_getElem h1] at q1
  have e := Option.some.inj q1
  have a := (hr _ (List.getElem_mem h1)).2.2
  have b := hmax _ (List.getElem_mem h2)
  omega

/-- With all orders at the limit and nothing split, the same mesh is solved again. -/
theorem C94_stuck {E : PhEnv K S} (hE : E.Regular) {o : PhObj K} (hM : o.Made) {k n : Nat} {os os' : List Nat} {s : S} {w : List K}
    (h : E.Reaches o k n os) (hmax : ∀ p ∈ os, (p : Int) = o.polyMax) (hr : E.round o k n os = .ok (.inr (s, w, os')))
    (hw : w.length = n) : os' = os := by
  obtain ⟨i1, i2, i3, i4⟩ := C94_meshes hE hM h
  obtain ⟨r, split, r1, r2, r3, -, -, s1, s2, rfl, rfl⟩ := next_inv hE hM i1 i4 hr
  have l1 := phHalves_length split (E.widthsFor n) (by omega)
  rw [phTwice_none split r (by omega) (by omega)]
  exact same_of_max r2 (by omega) r3 hmax

/-- A solver that answers the same question in the same way is then asked it twice in every iteration left, and its last answer
is returned. -/
theorem C94_repeats {E : PhEnv K S} {o : PhObj K} (hdet : ∀ k k' os w, E.solve k os w = E.solve k' os w) {k n : Nat} {os : List Nat}
    {s : S} {w : List K} (hr : E.round o k n os = .ok (.inr (s, w, os))) (hw : w.length = n) (fuel k' : Nat) (last : Option S) :
    E.loop o (fuel + 1) k' n os last = .ok s := by
  have hs : ∀ a b, E.solveOn a = E.solveOn b := by
    intro a b
    funext n os
    unfold PhEnv.solveOn
    simp only [hdet a b]
  have hround : ∀ k', E.round o k' n os = .ok (.inr (s, w, os)) := by
    intro k'
    rw [← hr]
    unfold PhEnv.round
    rw [hs (2 * k') (2 * k), hs (2 * k' + 1) (2 * k + 1)]
  induction fuel generalizing k' last with
  | zero =>
    rw [PhEnv.loop, hround k', py_bind_ok]
    rfl
  | succ fuel ih =>
    rw [PhEnv.loop, hround k', py_bind_ok]
    change E.loop o (fuel + 1) (k' + 1) w.length os (some s) = _
    rw [hw]
    exact ih (k' + 1) (some s)

/-- Refined widths: with equal widths they are those the solver uses next only if all segments of the last phase are halved or none. -/
theorem C94_widths {E : PhEnv K S} (hE : E.Regular) {o : PhObj K} (hM : o.Made) {k n : Nat} {os os' : List Nat} {s : S} {w : List K}
    (h : E.Reaches o k n os) (hg : E.given = none) (hr : E.round o k n os = .ok (.inr (s, w, os'))) :
    w.sum = 1 ∧ (E.widthsFor w.length = List.replicate (w.length * E.nPhases) (1 / (w.length : K))) ∧
      (w = List.replicate w.length (1 / (w.length : K)) ↔ w.length = n ∨ w.length = 2 * n) := by
  obtain ⟨i1, i2, i3, i4⟩ := C94_meshes hE hM h
  obtain ⟨r, split, r1, r2, -, -, -, s1, s2, rfl, rfl⟩ := next_inv hE hM i1 i4 hr
  have hn : n ≠ 0 := by have := hM.pos; omega
  have hnK : (n : K) ≠ 0 := by exact_mod_cast hn
  have hW : E.widthsFor n = List.replicate (n * E.nPhases) (1 / (n : K)) := by
    unfold PhEnv.widthsFor
    rw [hg]
    rfl
  rw [hW] at s2 ⊢
  rw [List.length_replicate] at s2
  generalize n * E.nPhases = N at s2
  have key : ∀ (split : List Bool) (N : Nat) (x : K), split.length ≤ N →
      (phHalves split (List.replicate N x)).sum = (split.length : K) * x ∧
      (split.count true = 0 → phHalves split (List.replicate N x) = List.replicate split.length x) ∧
      (split.count true = split.length → phHalves split (List.replicate N x) = List.replicate (2 * split.length) (x / 2)) ∧
      (true ∈ split → x / 2 ∈ phHalves split (List.replicate N x)) ∧ (false ∈ split → x ∈ phHalves split (List.replicate N x)) := by
    intro split
    induction split with
    | nil => intro N x _; simp [phHalves]
    | cons b split ih =>
      intro N x hN
      cases N with
      | zero => simp at hN
      | succ N =>
        obtain ⟨a1, a2, a3, a4, a5⟩ := ih N x (by simpa using hN)
        have hc : split.count true ≤ split.length := List.count_le_length
        cases b
        · have e : phHalves (false :: split) (List.replicate (N + 1) x) = x :: phHalves split (List.replicate N x) := by
            simp [phHalves, List.replicate_succ]
          rw [e]
          refine ⟨?_, ?_, ?_, ?_, by simp⟩
          · rw [List.sum_cons, a1, List.length_cons]; push_cast; ring
          · intro h0
            rw [a2 (by simpa using h0), List.length_cons, List.replicate_succ]
          · intro h0
            simp only [List.length_cons] at h0
            rw [List.count_cons_of_ne (by simp)] at h0
            omega
          · intro h0
            exact List.mem_cons_of_mem _ (a4 (by simpa using h0))
        · have e : phHalves (true :: split) (List.replicate (N + 1) x) = x / 2 :: x / 2 :: phHalves split (List.replicate N x) := by
            simp [phHalves, List.replicate_succ]
          rw [e]
          refine ⟨?_, ?_, ?_, by simp, ?_⟩
          · rw [List.sum_cons, List.sum_cons, a1, List.length_cons]; push_cast; ring
          · intro h0
            simp at h0
          · intro h0
            have h0 : split.count true = split.length := by simpa using h0
            rw [a3 h0, List.length_cons, show 2 * (split.length + 1) = 2 * split.length + 1 + 1 by ring, List.replicate_succ,
              List.replicate_succ]
          · intro h0
            exact List.mem_cons_of_mem _ (List.mem_cons_of_mem _ (a5 (by simpa using h0)))
  obtain ⟨a1, a2, a3, a4, a5⟩ := key split N (1 / (n : K)) (by omega)
  have l1 := phHalves_length split (List.replicate N (1 / (n : K))) (by rw [List.length_replicate]; omega)
  have hc : split.count true ≤ split.length := List.count_le_length
  refine ⟨by rw [a1, s1]; field_simp, ?_, ?_⟩
  · unfold PhEnv.widthsFor
    rw [hg]
    rfl
  rw [l1, s1]
  constructor
  · intro he
    by_contra hcon
    rw [not_or] at hcon
    have ht : true ∈ split := List.count_pos_iff.1 (by omega)
    have hf : false ∈ split := by
      by_contra hf
      have : split.count true = split.length := by
        rw [List.count_eq_length]
        intro b hb
        cases b
        · exact absurd hb hf
        · rfl
      omega
    have e1 := a4 ht
    have e2 := a5 hf
    rw [he] at e1 e2
    have e3 := (List.eq_of_mem_replicate e1).trans (List.eq_of_mem_replicate e2).symm
    have : (1 : K) / n = 0 := by linarith
    rw [div_eq_zero_iff] at this
    rcases this with h1 | h1
    · exact one_ne_zero h1
    · exact hnK h1
  · rintro (hz | hz)
    · rw [hz, a2 (by omega), s1]
    · rw [hz, a3 (by omega), s1]
      push_cast
      rw [div_div, mul_comm (n : K) 2]

/-- `solve_ph` never gets there. -/
theorem C94_unreached (E : PhEnv K S) (o : PhObj K) (maxIter : Nat) : o.solvePhFull E maxIter = .error .unboundLocal :=
  C41_solve_ph_false o _

/-- Without iterations there is no solution to return. -/
theorem C94_zero (E : PhEnv K S) (o : PhObj K) : E.body o 0 = .error .unboundLocal := rfl

theorem loop_inv {E : PhEnv K S} {o : PhObj K} {s : S} : ∀ (fuel k n : Nat) (os : List Nat) (last : Option S),
    E.Reaches o k n os → E.loop o (fuel + 1) k n os last = .ok s →
    ∃ k' n' os', k ≤ k' ∧ k' < k + fuel + 1 ∧ E.Reaches o k' n' os' ∧ (E.round o k' n' os' = .ok (.inl s) ∨
      k' = k + fuel ∧ ∃ w os'', E.round o k' n' os' = .ok (.inr (s, w, os'')))
  | 0, k, n, os, last, hR, h => by
    rw [PhEnv.loop, py_bind_eq_ok] at h
    obtain ⟨out, h1, h2⟩ := h
    refine ⟨k, n, os, le_refl _, by omega, hR, ?_⟩
    rcases out with s' | ⟨s', w, os'⟩
    · cases h2
      exact Or.inl h1
    · change readLocal (some s') = _ at h2
      cases h2
      exact Or.inr ⟨rfl, w, os', h1⟩
  | fuel + 1, k, n, os, last, hR, h => by
    rw [PhEnv.loop, py_bind_eq_ok] at h
    obtain ⟨out, h1, h2⟩ := h
    rcases out with s' | ⟨s', w, os'⟩
    · cases h2
      exact ⟨k, n, os, le_refl _, by omega, hR, Or.inl h1⟩
    · obtain ⟨k', n', os'', a1, a2, a3, a4⟩ := loop_inv fuel (k + 1) w.length os' (some s') (.next hR h1) h2
      exact ⟨k', n', os'', by omega, by omega, a3, by
        rcases a4 with a4 | ⟨a4, a5⟩
        · exact Or.inl a4
        · exact Or.inr ⟨by omega, a5⟩⟩

/-- What is returned answers a question put to the solver on a mesh within the limits, with the widths given or equal ones, and has a
phase within the tolerance unless the iterations ran out. -/
theorem C94_returns {E : PhEnv K S} (hE : E.Regular) {o : PhObj K} (hM : o.Made) {maxIter : Nat} {s : S}
    (h : E.body o maxIter = .ok s) : ∃ i n r, i < 2 * maxIter ∧ r.length = n ∧ o.nSegments ≤ n ∧ n ≤ 2 ^ (i / 2) * o.nSegments ∧
      o.Within r ∧ E.solve i r (E.widthsFor n) = .ok s ∧
      ((∃ ph, E.Good o.maxResidual s r (E.widthsFor n) ph) ∨ i + 1 = 2 * maxIter) := by
  unfold PhEnv.body at h
  cases maxIter with
  | zero => cases h
  | succ fuel =>
    obtain ⟨k, n, os, a1, a2, a3, a4⟩ := loop_inv fuel 0 _ _ _ .start h
    obtain ⟨i1, i2, i3, i4⟩ := C94_meshes hE hM a3
    rcases a4 with a4 | ⟨a4, w, os', a5⟩
    · obtain ⟨s0, w0, st, r, h1, h2, h3, hout⟩ := round_inv a4
      obtain ⟨-, rfl, e1, -⟩ := solveOn_inv h1
      rcases hout with ⟨b1, hout⟩ | ⟨-, s', w', st', h4, h5, hout⟩
      · cases hout
        exact ⟨2 * k, n, os, by omega, i1, i2, by rw [Nat.mul_div_cancel_left k (by omega)]; exact i3, i4, e1,
          Or.inl ((status_all_false h2).1 b1)⟩
      · obtain ⟨-, l2⟩ := status_lengths hE h2
        obtain ⟨r1, r2, -⟩ := raised_within hM l2 h3 i4
        obtain ⟨-, rfl, e2, -⟩ := solveOn_inv h4
        rcases hout with ⟨b1, hout⟩ | ⟨_, _, _, _, _, _, _, hout⟩
        · cases hout
          exact ⟨2 * k + 1, n, o.limited r, by omega, by omega, i2, by
            rw [show (2 * k + 1) / 2 = k by omega]; exact i3, r2, e2, Or.inl ((status_all_false h5).1 b1)⟩
        · cases hout
    · obtain ⟨r, split, r1, r2, -, e, -⟩ := next_inv hE hM i1 i4 a5
      exact ⟨2 * k + 1, n, r, by omega, r1, i2, by rw [show (2 * k + 1) / 2 = k by omega]; exact i3, r2, e, Or.inr (by omega)⟩

/-- For one phase this is the solution wanted, or that of the last call. -/
theorem C94_returns_one {E : PhEnv K S} (hE : E.Regular) (h1 : E.nPhases = 1) {o : PhObj K} (hM : o.Made) {maxIter : Nat} {s : S}
    (h : E.body o maxIter = .ok s) : ∃ i r, o.Within r ∧ E.solve i r (E.widthsFor r.length) = .ok s ∧
      ((∀ ph < E.nPhases, E.Good o.maxResidual s r (E.widthsFor r.length) ph) ∨ i + 1 = 2 * maxIter) := by
  obtain ⟨i, n, r, a1, rfl, a3, a4, a5, a6, a7⟩ := C94_returns hE hM h
  refine ⟨i, r, a5, a6, a7.imp ?_ id⟩
  rintro ⟨ph, hg⟩ ph' hph'
  have : ph = ph' := by
    obtain ⟨R, phase, g1, g2, -⟩ := hg
    have := (List.getElem?_eq_some_iff.1 g2).1
    have := (hE _ _ _ _ g1).1
    omega
  exact this ▸ hg

theorem phRaise_ok {os : List Nat} : ∀ {st : List (List Bool)}, (∀ t ∈ st, t.length = os.length) → ∃ r, phRaise os st = .ok r := by
  intro st hst
  unfold phRaise
  have : ∀ acc : List Nat, ∃ r, st.foldlM (fun acc st => if st.any id then
      st.zipIdx.mapM fun si => do return (← pyIdx os si.2) + (if si.1 then 3 else 0) else .ok acc) acc = (.ok r : Py (List Nat)) := by
    induction st with
    | nil => exact fun acc => ⟨acc, rfl⟩
    | cons t st ih =>
      intro acc
      rw [List.foldlM_cons]
      have ih := ih fun t ht => hst t (List.mem_cons_of_mem _ ht)
      by_cases hany : t.any id = true
      · rw [if_pos hany]
        have hl := hst t (by simp)
        obtain ⟨r, hr⟩ := mapM_exists (l := t.zipIdx)
          (f := fun si : Bool × Nat => (do return (← pyIdx os si.2) + (if si.1 then 3 else 0) : Py Nat)) (by
            intro si hsi
            have hlt : si.2 < os.length := by
              have := List.snd_lt_of_mem_zipIdx hsi
              omega
            have : pyIdx os si.2 = .ok os[si.2] := by
              unfold pyIdx
              rw [List.getElem?_eq_getElem hlt]
            exact ⟨os[si.2] + (if si.1 then 3 else 0), by rw [this]; rfl⟩)
        rw [hr, py_bind_ok]
        exact ih r
      · rw [if_neg hany, py_bind_ok]
        exact ih acc
  exact this os

/-- One phase of the first solution within the tolerance is enough: it is returned, whatever the other phases are like. -/
theorem C94_one_good_phase {E : PhEnv K S} (hE : E.Regular) {o : PhObj K} (hM : o.Made) {s : S} {st : List (List Bool)}
    (hs : E.solve 0 o.orders (E.widthsFor o.nSegments) = .ok s)
    (hst : E.status o s o.orders (E.widthsFor o.nSegments) = .ok st)
    (hg : ∃ ph, E.Good o.maxResidual s o.orders (E.widthsFor o.nSegments) ph) (maxIter : Nat) : E.body o (maxIter + 1) = .ok s := by
  have h1 : E.solveOn 0 o.nSegments o.orders = .ok (s, E.widthsFor o.nSegments) := by
    unfold PhEnv.solveOn
    rw [pyAssert_eq_ok.2 (by rw [hM.length]; simp), py_bind_ok]
    unfold PhEnv.widthsFor at hs ⊢
    cases hgv : E.given with
    | some v =>
      rw [hgv] at hs
      simp only [py_bind_ok]
      rw [show E.solve 0 o.orders v = .ok s from hs]
      rfl
    | none =>
      rw [hgv] at hs
      unfold equalWidths
      rw [if_neg hM.pos]
      simp only [Option.getD_none, py_bind_ok] at hs ⊢
      rw [hs]
      rfl
  obtain ⟨r, hr⟩ := phRaise_ok (status_lengths hE hst).2
  unfold PhEnv.body
  rw [PhEnv.loop]
  unfold PhEnv.round
  simp only [Nat.mul_zero, h1, py_bind_ok, hst, hr, (status_all_false hst).2 hg, if_true]
  rfl

/-- The refined widths do not matter: a solver that agrees with this one for the widths given, or for equal ones, gives the same
result. -/
theorem C94_equal_widths (E : PhEnv K S) (o : PhObj K) (solve' : Nat → List Nat → List K → Py S)
    (h : ∀ k os, solve' k os (E.widthsFor os.length) = E.solve k os (E.widthsFor os.length)) (maxIter : Nat) :
    ({ E with solve := solve' } : PhEnv K S).body o maxIter = E.body o maxIter := by
  have h1 : ∀ k, ({ E with solve := solve' } : PhEnv K S).solveOn k = E.solveOn k := by
    intro k
    funext n os
    unfold PhEnv.solveOn
    by_cases hn : os.length = n
    · subst hn
      have := h k os
      unfold PhEnv.widthsFor at this
      cases hg : E.given with
      | some v =>
        rw [hg] at this
        simp only [Option.getD_some] at this
        simp only [py_bind_ok, this]
      | none =>
        rw [hg] at this
        simp only [Option.getD_none] at this
        unfold equalWidths
        by_cases h0 : os.length = 0
        · simp only [if_pos h0]
          rfl
        · simp only [if_neg h0, py_bind_ok, this]
    · have : pyAssert (os.length == n) = .error .assertion := by
        unfold pyAssert
        rw [if_neg (by simpa using hn)]
      rw [this]
      rfl
  have h2 : ∀ k n os, ({ E with solve := solve' } : PhEnv K S).round o k n os = E.round o k n os := by
    intro k n os
    unfold PhEnv.round
    rw [h1, h1]
    rfl
  have h3 : ∀ fuel k n os last, ({ E with solve := solve' } : PhEnv K S).loop o fuel k n os last = E.loop o fuel k n os last := by
    intro fuel
    induction fuel with
    | zero => intros; rfl
    | succ fuel ih =>
      intro k n os last
      rw [PhEnv.loop, PhEnv.loop, h2]
      congr 1
      funext out
      rcases out with s | ⟨s, w, os'⟩
      · rfl
      · exact ih _ _ _ _
  exact h3 _ _ _ _ _

/-- The next mesh is made from the last phase alone: its orders are those of before, 3 more where the first solution misses the
tolerance in the last phase, within the limits; the segments halved are those where the second solution misses it in the last phase and is not smooth. -/
theorem C94_last_phase {E : PhEnv K S} (hE : E.Regular) {o : PhObj K} (hM : o.Made) {k n : Nat} {os os' : List Nat} {s : S} {w : List K}
    (hth : 0 ≤ E.threshold) (h : E.Reaches o k n os) (hr : E.round o k n os = .ok (.inr (s, w, os'))) :
    ∃ s0 R0 R phase0 phase r split before after raised, E.solve (2 * k) os (E.widthsFor n) = .ok s0 ∧ E.residual s0 os (E.widthsFor n) = .ok R0 ∧
      R0[E.nPhases - 1]? = some phase0 ∧ r.length = n ∧
      (∀ (i : Nat) p seg, os[i]? = some p → phase0[i]? = some seg →
        (SegGood E.nx o.maxResidual seg → r[i]? = some p) ∧
        (¬ SegGood E.nx o.maxResidual seg → r[i]? = some (min (p + 3) o.polyMax.toNat))) ∧
      E.solve (2 * k + 1) r (E.widthsFor n) = .ok s ∧ E.residual s r (E.widthsFor n) = .ok R ∧ R[E.nPhases - 1]? = some phase ∧
      E.second s0 os (E.widthsFor n) raised = .ok before ∧ E.second s r (E.widthsFor n) raised = .ok after ∧
      (∀ (i : Nat) p, os[i]? = some p → ∃ seg, phase0[i]? = some seg ∧ ((SegGood E.nx o.maxResidual seg ∧ raised[i]? = some p) ∨
        (¬ SegGood E.nx o.maxResidual seg ∧ raised[i]? = some (p + 3)))) ∧
      split.length = n ∧ (∀ i < n, ∃ seg bp ap bs as, phase[i]? = some seg ∧ before[E.nPhases - 1]? = some bp ∧
        after[E.nPhases - 1]? = some ap ∧ bp[i]? = some bs ∧ ap[i]? = some as ∧
        (split[i]? = some true ↔ ¬ SegGood E.nx o.maxResidual seg ∧ NotSmooth E.threshold E.nx bs as)) ∧
      w = phHalves split (E.widthsFor n) ∧ os' = phTwice split r := by
  obtain ⟨i1, i2, i3, i4⟩ := C94_meshes hE hM h
  obtain ⟨s0, w0, st, r, h1, h2, h3, hout⟩ := round_inv hr
  obtain ⟨-, rfl, e0, -⟩ := solveOn_inv h1
  obtain ⟨l1, l2⟩ := status_lengths hE h2
  obtain ⟨r1, r2, r3⟩ := raised_within hM l2 h3 i4
  rcases hout with ⟨-, hout⟩ | ⟨hall0, s', w', st', h4, h5, hout⟩
  · cases hout
  obtain ⟨-, rfl, e3, -⟩ := solveOn_inv h4
  rcases hout with ⟨-, hout⟩ | ⟨hall, marks, w'', os'', h6, h7, h8, hout⟩
  · cases hout
  cases hout
  obtain ⟨m, m1, m2⟩ := phMesh_inv h6
  obtain ⟨-, s2, s3, s4, s5⟩ := phSplit_inv m2
  rw [List.getLast?_eq_getElem?] at m1
  obtain ⟨before, after, b1, b2, h8⟩ := h8
  obtain ⟨t, bp, ap, t1, t4, t5, t2, t3⟩ := h8 _ m m1
  obtain ⟨k1, k2⟩ := status_lengths hE h5
  have hlen : m.length = n := by
    rw [t2, k2 t (List.mem_of_getElem? t1), r1, i1]
  obtain ⟨R, hR, -, hph⟩ := status_inv h5
  rw [h7, k1] at t1 t4 t5
  obtain ⟨phase, p1, p2, p3, -⟩ := hph _ t t1
  obtain ⟨R0, hR0, hl0, hph0⟩ := status_inv h2
  -- the last phase that misses is the last phase
  rcases phRaise_inv h3 with ⟨-, hnone⟩ | ⟨pre, t0, post, q1, q2, q3, q4, q5⟩
  · have hpos : E.nPhases - 1 < st'.length := (List.getElem?_eq_some_iff.1 t1).1
    have : E.nPhases - 1 < st.length := by omega
    have a := hnone _ (List.getElem_mem this)
    have b := List.all_eq_true.1 hall0 _ (List.getElem_mem this)
    rw [a] at b
    cases b
  have hpost : post = [] := by
    cases post with
    | nil => rfl
    | cons t' post =>
      have a := q3 t' (by simp)
      have b := List.all_eq_true.1 hall0 t' (by rw [q1]; simp)
      rw [a] at b
      cases b
  subst hpost
  have ht0 : st[E.nPhases - 1]? = some t0 := by
    rw [← l1, q1]
    simp
  obtain ⟨phase0, c1, c2, c3, -⟩ := hph0 _ t0 ht0
  refine ⟨s0, R0, R, phase0, phase, o.limited r, m, before, after, r, e0, hR0, c1, r1.trans i1, ?_, e3, hR, p1, b1, b2, ?_, hlen, ?_, s4, s5⟩
  · intro i p seg hp hseg
    obtain ⟨b, b1, b2⟩ := c3 i seg hseg
    obtain ⟨p', d1, d2⟩ := q5 i b b1
    rw [hp] at d1
    cases d1
    obtain ⟨z1, z2, z3⟩ := i4 p (List.mem_of_getElem? hp)
    rw [limited_getElem?, d2]
    constructor
    · intro hg
      rw [b2.2 hg]
      simp only [Bool.false_eq_true, if_false, Nat.add_zero, Option.map_some, Option.some.injEq]
      omega
    · intro hg
      have : b = true := by
        cases b
        · exact absurd (b2.1 rfl) hg
        · rfl
      rw [this]
      simp only [if_true, Option.map_some, Option.some.injEq]
      push_cast
      omega
  · intro i p hp
    have hi : i < phase0.length := by
      rw [← c2, l2 t0 (List.mem_of_getElem? ht0)]
      exact (List.getElem?_eq_some_iff.1 hp).1
    obtain ⟨b, b1, b2⟩ := c3 i _ (List.getElem?_eq_getElem hi)
    obtain ⟨p', d1, d2⟩ := q5 i b b1
    rw [hp] at d1
    cases d1
    refine ⟨_, List.getElem?_eq_getElem hi, ?_⟩
    cases b
    · exact Or.inl ⟨b2.1 rfl, d2⟩
    · exact Or.inr ⟨fun hg => absurd (b2.2 hg) (by simp), d2⟩
  · intro i hi
    have hi1 : i < m.length := by omega
    have hi2 : i < phase.length := by rw [← p2, ← t2]; exact hi1
    obtain ⟨c, bs, as, rough, k1, k2, k3, k4, k5⟩ := t3 i _ (List.getElem?_eq_getElem hi1)
    obtain ⟨b, b1, b2⟩ := p3 i _ (List.getElem?_eq_getElem hi2)
    rw [k1] at b1
    cases b1
    refine ⟨_, bp, ap, bs, as, List.getElem?_eq_getElem hi2, t4, t5, k2, k3, ?_⟩
    rw [List.getElem?_eq_getElem hi1, k5, ← phRough_inv hth k4, ← b2]
    cases c <;> cases rough <;> simp

end MPOpt
