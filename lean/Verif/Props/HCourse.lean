import Verif.Spec.HCourse
import Verif.Props.HAdaptive

/-! # C72: when the h-adaptive iteration stops -/

set_option autoImplicit false
set_option linter.unusedSectionVars false

namespace MPOpt
variable {K : Type} [Field K] [LinearOrder K]
variable {Sol W : Type} {E : HEnv K Sol W} {initial : Option Sol} {w : W}

theorem HEnv.widths_measure (E : HEnv K Sol W) (k : Nat) (sol : Option Sol) (sw : Option W) :
    E.widths k sol sw = do
      let m ← E.measure k sol (sw.getD E.dflt)
      return (if E.nSegments = 1 ∨ sol.isNone then sw else some (sw.getD E.dflt), m.1, m.2) := by
  unfold HEnv.widths HEnv.measure
  cases sol with
  | none =>
    by_cases h : E.nSegments = 1
    · rw [if_pos h]; simp only [h, true_or, if_true]; rfl
    · rw [if_neg h]; simp only [h, false_or, Option.isNone_none, if_true]; rfl
  | some s =>
    by_cases h : E.nSegments = 1
    · rw [if_pos h]; simp only [h, true_or, if_true]; rfl
    · rw [if_neg h]; simp only [h, false_or, Option.isNone_some, Bool.false_eq_true, if_false]

/-- The solver calls lead from stage to stage. -/
def CallsOK (E : HEnv K Sol W) (initial : Option Sol) (w : W) (calls : List (HCall Sol W)) : Prop :=
  ∀ k c, calls[k]? = some c → ∃ g g', E.stage initial w k = .ok g ∧ E.stage initial w (k + 1) = .ok g' ∧
    c.start = g.sol ∧ c.p = g.w ∧ g'.sol = some c.result

/-- State at the start of iteration `i`. -/
structure AtStage (E : HEnv K Sol W) (initial : Option Sol) (w : W) (i : Nat) (s : HState K Sol W) : Prop where
  stage : E.stage initial w i = .ok ⟨s.init, s.newSw, s.maxErr⟩
  notSmall : E.accepts s.maxErr = false
  calls : s.calls.length = i
  trail : CallsOK E initial w s.calls
  count : s.count = i
  old : 0 < i → ∃ g, E.stage initial w (i - 1) = .ok g ∧ s.swOld = some g.w
  solution : s.solution = if i = 0 then none else s.init
  info : ∃ e : Nat → Option K, s.info = (List.range (i - 1)).map (fun j => (j + 1, e (j + 1))) ∧
    ∀ j, j < i → ∃ g, E.stage initial w j = .ok g ∧ g.err = e j

theorem accepts_iff (err : Option K) : E.accepts err = true ↔ ∃ e, err = some e ∧ e < E.tol := by
  unfold HEnv.accepts
  cases err <;> simp

theorem not_accepts_iff (err : Option K) : E.accepts err = false ↔ ∀ e, err = some e → E.tol ≤ e := by
  unfold HEnv.accepts
  cases err <;> simp

theorem AtStage.notSmall' {i : Nat} {s : HState K Sol W} (h : AtStage E initial w i s) : E.NotSmall initial w i :=
  ⟨_, h.stage, (not_accepts_iff _).1 h.notSmall⟩

theorem not_small {k : Nat} (h : E.NotSmall initial w k) : ¬ E.Small initial w k := by
  rintro ⟨g, e, h1, h2, h3⟩
  obtain ⟨g', h4, h5⟩ := h
  rw [h1] at h4
  cases h4
  exact absurd (h5 e h2) (not_le.2 h3)

/-- The test for stagnation, for the entries the dictionary has. -/
theorem stagnates_iff {i : Nat} (hi : 4 < i) (e : Nat → Option K) (b : Bool) :
    stagnates ((List.range i).map fun j => (j + 1, e (j + 1))) (e i) = .ok b ↔
      ∃ v : Nat → K, (∀ j, i - 3 ≤ j → j ≤ i → e j = some (v j)) ∧
        (|v i - (v (i - 3) + v (i - 2) + v (i - 1) + v i) / 4| < |v i| / 20 ↔ b = true) := by
  obtain ⟨k, rfl⟩ : ∃ k, i = k + 4 := ⟨i - 4, by omega⟩
  have hv : (((List.range (k + 4)).map fun j => (j + 1, e (j + 1))).map (·.2)).drop
      (((List.range (k + 4)).map fun j => (j + 1, e (j + 1))).length - 4) = [e (k + 1), e (k + 2), e (k + 3), e (k + 4)] := by
    rw [List.map_map, List.length_map, List.length_range, show k + 4 - 4 = k by omega, List.range_add, List.map_append,
      List.drop_append_of_le_length (by simp), List.drop_of_length_le (by simp)]
    rfl
  unfold stagnates
  simp only
  rw [hv]
  constructor
  · intro h
    rcases h1 : e (k + 1) with _ | a
    · rw [h1] at h; cases h
    rcases h2 : e (k + 2) with _ | b'
    · rw [h1, h2] at h; cases h
    rcases h3 : e (k + 3) with _ | c
    · rw [h1, h2, h3] at h; cases h
    rcases h4 : e (k + 4) with _ | d
    · rw [h1, h2, h3, h4] at h; cases h
    rw [h1, h2, h3, h4] at h
    have h : (.ok (decide (|d - [a, b', c, d].sum / (([a, b', c, d].length : Nat) : K)| < 1 / 20 * |d|)) : Py Bool) = .ok b := h
    refine ⟨fun j => (e j).getD 0, fun j hj1 hj2 => ?_, ?_⟩
    · have : j = k + 1 ∨ j = k + 2 ∨ j = k + 3 ∨ j = k + 4 := by omega
      rcases this with rfl | rfl | rfl | rfl <;> simp [*]
    · injection h with h
      rw [← h]
      simp only [show k + 4 - 3 = k + 1 by omega, show k + 4 - 2 = k + 2 by omega, show k + 4 - 1 = k + 3 by omega, h1, h2,
        h3, h4, Option.getD_some, decide_eq_true_eq]
      have e1 : [a, b', c, d].sum / (([a, b', c, d].length : Nat) : K) = (a + b' + c + d) / 4 := by
        simp only [List.sum_cons, List.sum_nil, List.length_cons, List.length_nil]
        push_cast
        ring
      rw [e1, show 1 / 20 * |d| = |d| / 20 by ring]
  · rintro ⟨v, hv1, hv2⟩
    simp only [show k + 4 - 3 = k + 1 by omega, show k + 4 - 2 = k + 2 by omega, show k + 4 - 1 = k + 3 by omega] at hv1 hv2
    rw [hv1 (k + 1) (by omega) (by omega), hv1 (k + 2) (by omega) (by omega), hv1 (k + 3) (by omega) (by omega),
      hv1 (k + 4) (by omega) (by omega)]
    show (.ok (decide (|v (k + 4) - [v (k + 1), v (k + 2), v (k + 3), v (k + 4)].sum /
      (([v (k + 1), v (k + 2), v (k + 3), v (k + 4)].length : Nat) : K)| < 1 / 20 * |v (k + 4)|)) : Py Bool) = .ok b
    have e1 : [v (k + 1), v (k + 2), v (k + 3), v (k + 4)].sum /
        (([v (k + 1), v (k + 2), v (k + 3), v (k + 4)].length : Nat) : K) = (v (k + 1) + v (k + 2) + v (k + 3) + v (k + 4)) / 4 := by
      simp only [List.sum_cons, List.sum_nil, List.length_cons, List.length_nil]
      push_cast
      ring
    rw [e1, show 1 / 20 * |v (k + 4)| = |v (k + 4)| / 20 by ring]
    congr 1
    rw [Bool.eq_iff_iff, decide_eq_true_eq]
    exact hv2

/-- A new key goes to the end. -/
theorem setInfo_new (i : Nat) (hi : 0 < i) (e : Nat → Option K) :
    setInfo ((List.range (i - 1)).map fun j => (j + 1, e (j + 1))) i (e i) =
      (List.range i).map fun j => (j + 1, e (j + 1)) := by
  unfold setInfo
  rw [if_neg]
  · obtain ⟨k, rfl⟩ : ∃ k, i = k + 1 := ⟨i - 1, by omega⟩
    rw [Nat.add_sub_cancel, List.range_succ, List.map_append]
    rfl
  · rw [List.any_eq_true]
    rintro ⟨x, hx, hxi⟩
    obtain ⟨j, hj, rfl⟩ := List.mem_map.1 hx
    have := List.mem_range.1 hj
    simp only [beq_iff_eq] at hxi
    omega

section
variable {i : Nat} {s : HState K Sol W}

/-- What happens before the solver is called. -/
theorem AtStage.before (h : AtStage E initial w i s) :
    ((E.before i s).2 = .stop ↔ 0 < i ∧ (4 < i ∧ E.Flat initial w i True ∨
      (4 < i → E.Flat initial w i False) ∧ E.Same initial w i true)) ∧
    ((E.before i s).2 = .next ↔ E.GoesOn initial w i) ∧
    (E.before i s).1.solution = s.solution ∧ (E.before i s).1.calls = s.calls ∧
    ((E.before i s).2 = .next → (E.before i s).1.newSw = s.newSw ∧ (E.before i s).1.init = s.init ∧
      (E.before i s).1.sw = some s.newSw ∧ (E.before i s).1.count = i ∧
      ∃ e : Nat → Option K, (E.before i s).1.info = (List.range i).map (fun j => (j + 1, e (j + 1))) ∧
        ∀ j, j ≤ i → ∃ g, E.stage initial w j = .ok g ∧ g.err = e j) := by
  obtain ⟨e0, he1, he2⟩ := h.info
  -- errors up to this stage
  set e : Nat → Option K := fun j => if j = i then s.maxErr else e0 j with he
  have hstage : ∀ j, j ≤ i → ∃ g, E.stage initial w j = .ok g ∧ g.err = e j := by
    intro j hj
    by_cases hji : j = i
    · subst hji
      exact ⟨_, h.stage, by simp [he]⟩
    · obtain ⟨g, g1, g2⟩ := he2 j (by omega)
      exact ⟨g, g1, by simp [he, hji, g2]⟩
  have hei : e i = s.maxErr := by simp [he]
  have hinfo : s.info = (List.range (i - 1)).map (fun j => (j + 1, e (j + 1))) := by
    rw [he1]
    apply List.map_congr_left
    intro j hj
    have := List.mem_range.1 hj
    simp only [he, if_neg (by omega : ¬ j + 1 = i)]
  have hfl : 4 < i → ∀ b : Bool, stagnates ((List.range i).map fun j => (j + 1, e (j + 1))) s.maxErr = .ok b ↔
      E.Flat initial w i (b = true) := by
    intro hi b
    rw [← hei, stagnates_iff hi e b]
    unfold HEnv.Flat
    constructor
    · rintro ⟨v, h1, h2⟩
      refine ⟨v, fun j hj1 hj2 => ?_, h2⟩
      obtain ⟨g, g1, g2⟩ := hstage j hj2
      exact ⟨g, g1, by rw [g2, h1 j hj1 hj2]⟩
    · rintro ⟨v, h1, h2⟩
      refine ⟨v, fun j hj1 hj2 => ?_, h2⟩
      obtain ⟨g, g1, g2⟩ := hstage j hj2
      obtain ⟨g', g1', g2'⟩ := h1 j hj1 hj2
      rw [g1] at g1'
      cases g1'
      rw [← g2, g2']
  have hflT := fun hi => hfl hi true
  have hflF := fun hi => hfl hi false
  simp only [Bool.false_eq_true, eq_self_iff_true] at hflT hflF
  have hex : 4 < i → E.Flat initial w i True → E.Flat initial w i False → False := by
    intro hi a b
    have := ((hflT hi).2 a).symm.trans ((hflF hi).2 b)
    cases this
  rcases Nat.eq_zero_or_pos i with rfl | hi
  · have hb : E.before 0 s = (if s.init.isNone = true then { { s with sw := some s.newSw } with maxErr := none }
        else { s with sw := some s.newSw }, .next) := by
      unfold HEnv.before
      simp only [h.count, lt_irrefl, if_false, show ¬ 4 < 0 by omega, true_and]
    have hgo : E.GoesOn initial w 0 := ⟨h.notSmall', by omega, by omega⟩
    rw [hb]
    refine ⟨⟨nofun, fun hh => absurd hh.1 (lt_irrefl 0)⟩, ⟨fun _ => hgo, fun _ => rfl⟩, ?_, ?_, fun _ => ?_⟩
    · split <;> rfl
    · split <;> rfl
    · have hs : s.info = (List.range 0).map (fun j => (j + 1, e (j + 1))) := hinfo
      refine ⟨by split <;> rfl, by split <;> rfl, by split <;> rfl, by split <;> exact h.count, e, ?_, hstage⟩
      split <;> exact hs
  · obtain ⟨g, hg1, hg2⟩ := h.old hi
    have hsame : ∀ b, E.unchanged s.newSw g.w = .ok b ↔ E.Same initial w i b := by
      intro b
      unfold HEnv.Same
      constructor
      · intro hu
        exact ⟨_, _, h.stage, hg1, hu⟩
      · rintro ⟨g1, g2, a1, a2, a3⟩
        rw [h.stage] at a1
        rw [hg1] at a2
        cases a1; cases a2
        exact a3
    have hsx : E.Same initial w i true → E.Same initial w i false → False := by
      intro a b
      have := ((hsame _).2 a).symm.trans ((hsame _).2 b)
      cases this
    have hset : setInfo s.info i s.maxErr = (List.range i).map fun j => (j + 1, e (j + 1)) := by
      rw [hinfo, ← hei]; exact setInfo_new i hi e
    have hb : E.before i s =
        match (if 4 < i then stagnates ((List.range i).map fun j => (j + 1, e (j + 1))) s.maxErr else .ok false) with
        | .error er => ({ s with sw := some s.newSw, info := (List.range i).map fun j => (j + 1, e (j + 1)) }, .raise er)
        | .ok true => ({ s with sw := s.swOld, info := (List.range i).map fun j => (j + 1, e (j + 1)) }, .stop)
        | .ok false => match E.unchanged s.newSw g.w with
          | .error er => ({ s with sw := some s.newSw, info := (List.range i).map fun j => (j + 1, e (j + 1)) }, .raise er)
          | .ok true => ({ s with sw := s.swOld, info := (List.range i).map fun j => (j + 1, e (j + 1)) }, .stop)
          | .ok false => ({ s with sw := some s.newSw, info := (List.range i).map fun j => (j + 1, e (j + 1)) }, .next) := by
      unfold HEnv.before
      simp only [h.count, hi, if_true, hset, hg2, hi.ne', false_and, if_false]
      generalize (if 4 < i then stagnates ((List.range i).map fun j => (j + 1, e (j + 1))) s.maxErr else .ok false) = X
      rcases X with er | b
      · rfl
      · cases b with
        | true => rfl
        | false =>
          rcases E.unchanged s.newSw g.w with er | b
          · rfl
          · cases b <;> rfl
    rw [hb]
    have hgo : (4 < i → E.Flat initial w i False) → E.Same initial w i false → E.GoesOn initial w i :=
      fun a b => ⟨h.notSmall', a, fun _ => b⟩
    have hrest : ∀ hf : (4 < i → E.Flat initial w i False),
        let r : HState K Sol W × Flow := match E.unchanged s.newSw g.w with
          | .error er => ({ s with sw := some s.newSw, info := (List.range i).map fun j => (j + 1, e (j + 1)) }, .raise er)
          | .ok true => ({ s with sw := s.swOld, info := (List.range i).map fun j => (j + 1, e (j + 1)) }, .stop)
          | .ok false => ({ s with sw := some s.newSw, info := (List.range i).map fun j => (j + 1, e (j + 1)) }, .next)
        (r.2 = .stop ↔ 0 < i ∧ (4 < i ∧ E.Flat initial w i True ∨
          (4 < i → E.Flat initial w i False) ∧ E.Same initial w i true)) ∧
        (r.2 = .next ↔ E.GoesOn initial w i) ∧ r.1.solution = s.solution ∧ r.1.calls = s.calls ∧
        (r.2 = .next → r.1.newSw = s.newSw ∧ r.1.init = s.init ∧ r.1.sw = some s.newSw ∧ r.1.count = i ∧
          ∃ e : Nat → Option K, r.1.info = (List.range i).map (fun j => (j + 1, e (j + 1))) ∧
            ∀ j, j ≤ i → ∃ g, E.stage initial w j = .ok g ∧ g.err = e j) := by
      intro hf
      rcases hu : E.unchanged s.newSw g.w with er | b
      · refine ⟨⟨nofun, ?_⟩, ⟨nofun, fun hh => ?_⟩, rfl, rfl, nofun⟩
        · rintro ⟨-, ⟨h4, hT⟩ | ⟨-, hT⟩⟩
          · exact (hex h4 hT (hf h4)).elim
          · have := (hsame _).2 hT
            rw [hu] at this; cases this
        · have := (hsame _).2 (hh.2.2 hi)
          rw [hu] at this; cases this
      · cases b with
        | true =>
          refine ⟨⟨fun _ => ⟨hi, Or.inr ⟨hf, (hsame _).1 hu⟩⟩, fun _ => rfl⟩, ⟨nofun, fun hh => ?_⟩, rfl, rfl, nofun⟩
          exact (hsx ((hsame _).1 hu) (hh.2.2 hi)).elim
        | false =>
          refine ⟨⟨nofun, ?_⟩, ⟨fun _ => hgo hf ((hsame _).1 hu), fun _ => rfl⟩, rfl, rfl, fun _ =>
            ⟨rfl, rfl, rfl, h.count, e, rfl, hstage⟩⟩
          rintro ⟨-, ⟨h4, hT⟩ | ⟨-, hT⟩⟩
          · exact (hex h4 hT (hf h4)).elim
          · exact (hsx hT ((hsame _).1 hu)).elim
    by_cases h4 : 4 < i
    · rw [if_pos h4]
      rcases hst : stagnates ((List.range i).map fun j => (j + 1, e (j + 1))) s.maxErr with er | b
      · refine ⟨⟨nofun, ?_⟩, ⟨nofun, fun hh => ?_⟩, rfl, rfl, nofun⟩
        · rintro ⟨-, ⟨-, hT⟩ | ⟨hF, -⟩⟩
          · have := (hflT h4).2 hT
            rw [hst] at this; cases this
          · have := (hflF h4).2 (hF h4)
            rw [hst] at this; cases this
        · have := (hflF h4).2 (hh.2.1 h4)
          rw [hst] at this; cases this
      · cases b with
        | true =>
          have hT := (hflT h4).1 hst
          refine ⟨⟨fun _ => ⟨hi, Or.inl ⟨h4, hT⟩⟩, fun _ => rfl⟩, ⟨nofun, fun hh => ?_⟩, rfl, rfl, nofun⟩
          exact (hex h4 hT (hh.2.1 h4)).elim
        | false => exact hrest fun _ => (hflF h4).1 hst
    · rw [if_neg h4]
      exact hrest fun hh => absurd hh h4

/-- Before a stop the dictionary holds the errors of all stages so far. -/
theorem AtStage.before_stop (h : AtStage E initial w i s) (hst : (E.before i s).2 = .stop) :
    (E.before i s).1.count = i ∧ ∃ e : Nat → Option K, (E.before i s).1.info = (List.range i).map (fun j => (j + 1, e (j + 1))) ∧
      ∀ j, j ≤ i → ∃ g, E.stage initial w j = .ok g ∧ g.err = e j := by
  have hi : 0 < i := (h.before.1.1 hst).1
  obtain ⟨e0, he1, he2⟩ := h.info
  set e : Nat → Option K := fun j => if j = i then s.maxErr else e0 j with he
  have hei : e i = s.maxErr := by simp [he]
  have hinfo : s.info = (List.range (i - 1)).map (fun j => (j + 1, e (j + 1))) := by
    rw [he1]
    apply List.map_congr_left
    intro j hj
    have := List.mem_range.1 hj
    simp only [he, if_neg (by omega : ¬ j + 1 = i)]
  have hset : setInfo s.info i s.maxErr = (List.range i).map fun j => (j + 1, e (j + 1)) := by
    rw [hinfo, ← hei]; exact setInfo_new i hi e
  have hb : (E.before i s).1.info = setInfo s.info i s.maxErr ∧ (E.before i s).1.count = i := by
    unfold HEnv.before
    simp only [h.count, hi, if_true, hi.ne', false_and, if_false]
    split
    · exact ⟨rfl, rfl⟩
    · exact ⟨rfl, rfl⟩
    · split <;> exact ⟨rfl, rfl⟩
  refine ⟨hb.2, e, hb.1.trans hset, fun j hj => ?_⟩
  by_cases hji : j = i
  · subst hji
    exact ⟨_, h.stage, by simp [he]⟩
  · obtain ⟨g, g1, g2⟩ := he2 j (by omega)
    exact ⟨g, g1, by simp [he, hji, g2]⟩

/-- What the dictionary holds at the end. -/
def InfoOK (E : HEnv K Sol W) (initial : Option Sol) (w : W) (m : Nat) (s : HState K Sol W) : Prop :=
  s.count = m ∧ CallsOK E initial w s.calls ∧ ∃ e : Nat → Option K, s.info = (List.range m).map (fun j => (j + 1, e (j + 1))) ∧
    ∀ j, j ≤ m → ∃ g, E.stage initial w j = .ok g ∧ g.err = e j

/-- An iteration that calls the solver. -/
theorem AtStage.iter (h : AtStage E initial w i s) (hgo : E.GoesOn initial w i) (maxIter : Nat) :
    ((E.iter maxIter i s).2 = .stop ↔ E.Small initial w (i + 1)) ∧
    ((E.iter maxIter i s).2 = .next ↔ E.NotSmall initial w (i + 1)) ∧
    (∀ g, E.stage initial w (i + 1) = .ok g → (E.iter maxIter i s).1.solution = g.sol ∧
      (E.iter maxIter i s).1.calls.length = i + 1 ∧
      (E.accepts g.err = true ∨ i + 1 = maxIter → InfoOK E initial w (i + 1) (E.iter maxIter i s).1) ∧
      (E.accepts g.err = false → i + 1 ≠ maxIter → AtStage E initial w (i + 1) (E.iter maxIter i s).1)) := by
  obtain ⟨-, hnext, -, hcalls, hs1⟩ := h.before
  have hn := hnext.2 hgo
  obtain ⟨k1, k2, k3, k4, e, k5, k6⟩ := hs1 hn
  generalize hB : E.before i s = B at hn k1 k2 k3 k4 k5 hcalls
  obtain ⟨s1, fl⟩ := B
  simp only at hn k1 k2 k3 k4 k5 hcalls
  subst hn
  have hit : E.iter maxIter i s = E.after maxIter i s1 := by unfold HEnv.iter; rw [hB]
  rw [hit]
  have hlen : s1.calls.length = i := by rw [hcalls, h.calls]
  have hst : E.stage initial w (i + 1) = (do
      let sl ← E.solver i s1.init s1.newSw
      let m ← E.measure (i + 1) (some sl) s1.newSw
      return ⟨some sl, m.1, m.2⟩) := by
    rw [HEnv.stage, h.stage, py_bind_ok, k1, k2]
  unfold HEnv.after
  rw [hlen]
  rcases hsl : E.solver i s1.init s1.newSw with er | sl
  · have hst' : E.stage initial w (i + 1) = .error er := by rw [hst, hsl]; rfl
    refine ⟨⟨nofun, ?_⟩, ⟨nofun, ?_⟩, ?_⟩
    · rintro ⟨g, _, hg, -⟩; rw [hst'] at hg; cases hg
    · rintro ⟨g, hg, -⟩; rw [hst'] at hg; cases hg
    · intro g hg; rw [hst'] at hg; cases hg
  · simp only [List.length_append, hlen, List.length_cons, List.length_nil, Nat.zero_add]
    rw [E.widths_measure, k3, Option.getD_some, ← k1]
    rw [hsl, py_bind_ok] at hst
    rcases hm : E.measure (i + 1) (some sl) s1.newSw with er | ⟨new, err⟩
    · have hst' : E.stage initial w (i + 1) = .error er := by rw [hst, hm]; rfl
      refine ⟨⟨nofun, ?_⟩, ⟨nofun, ?_⟩, ?_⟩
      · rintro ⟨g, _, hg, -⟩; rw [hst'] at hg; cases hg
      · rintro ⟨g, hg, -⟩; rw [hst'] at hg; cases hg
      · intro g hg; rw [hst'] at hg; cases hg
    · rw [hm, py_bind_ok] at hst
      have hst' : E.stage initial w (i + 1) = .ok ⟨some sl, new, err⟩ := hst
      rw [py_bind_ok]
      simp only [pure, Except.pure]
      -- errors up to the new stage
      set e' : Nat → Option K := fun j => if j = i + 1 then err else e j with he'
      have hinfo' : s1.info = (List.range i).map (fun j => (j + 1, e' (j + 1))) := by
        rw [k5]
        apply List.map_congr_left
        intro j hj
        have := List.mem_range.1 hj
        simp only [he', if_neg (by omega : ¬ j + 1 = i + 1)]
      have he1 : e' (i + 1) = err := by simp [he']
      have hset : setInfo s1.info (i + 1) err = (List.range (i + 1)).map fun j => (j + 1, e' (j + 1)) := by
        rw [hinfo', ← he1]; exact setInfo_new (i + 1) (by omega) e'
      have hall : ∀ j, j ≤ i + 1 → ∃ g, E.stage initial w j = .ok g ∧ g.err = e' j := by
        intro j hj
        by_cases hji : j = i + 1
        · subst hji
          exact ⟨_, hst', he1.symm⟩
        · obtain ⟨g, g1, g2⟩ := k6 j (by omega)
          exact ⟨g, g1, by simp [he', hji, g2]⟩
      have htr : CallsOK E initial w (s1.calls ++ [⟨s1.init, s1.newSw, sl⟩]) := by
        intro k c hc
        rcases Nat.lt_or_ge k i with hk | hk
        · rw [List.getElem?_append_left (by rw [hlen]; exact hk), hcalls] at hc
          exact h.trail k c hc
        · rw [List.getElem?_append_right (by rw [hlen]; exact hk), hlen] at hc
          have hki : k = i := by
            have := (List.getElem?_eq_some_iff.1 hc).1
            simp at this
            omega
          subst hki
          rw [Nat.sub_self] at hc
          cases hc
          exact ⟨_, _, h.stage, hst', k2, k1, rfl⟩
      rw [k4]
      by_cases ha : E.accepts err = true
      · rw [if_pos ha]
        have hsm : E.Small initial w (i + 1) := by
          obtain ⟨v, v1, v2⟩ := (accepts_iff _).1 ha
          exact ⟨_, v, hst', v1, v2⟩
        refine ⟨⟨fun _ => hsm, fun _ => rfl⟩, ⟨nofun, fun hns => (not_small hns hsm).elim⟩, ?_⟩
        intro g hg
        rw [hst'] at hg
        cases hg
        refine ⟨rfl, by simp [hlen], fun _ => ⟨rfl, htr, e', hset, hall⟩, fun hf => ?_⟩
        simp only [ha] at hf
        cases hf
      · have hf : E.accepts err = false := by simpa using ha
        rw [if_neg ha]
        have hns : E.NotSmall initial w (i + 1) := ⟨_, hst', (not_accepts_iff _).1 hf⟩
        by_cases hl : i + 1 = maxIter
        · rw [if_pos hl]
          refine ⟨⟨nofun, fun hsm => (not_small hns hsm).elim⟩, ⟨fun _ => hns, fun _ => rfl⟩, ?_⟩
          intro g hg
          rw [hst'] at hg
          cases hg
          exact ⟨rfl, by simp [hlen], fun _ => ⟨rfl, htr, e', hset, hall⟩, fun _ hne => absurd hl hne⟩
        · rw [if_neg hl]
          refine ⟨⟨nofun, fun hsm => (not_small hns hsm).elim⟩, ⟨fun _ => hns, fun _ => rfl⟩, ?_⟩
          intro g hg
          rw [hst'] at hg
          cases hg
          refine ⟨rfl, by simp [hlen], fun hh => ?_, fun _ _ => ?_⟩
          · rcases hh with hh | hh
            · rw [hf] at hh; cases hh
            · exact absurd hh hl
          · exact {
              stage := hst', notSmall := hf, calls := by simp [hlen], trail := htr, count := rfl
              old := fun _ => ⟨_, h.stage, by rw [← k1]⟩
              solution := (if_neg (Nat.succ_ne_zero i)).symm
              info := ⟨e', hinfo', fun j hj => hall j (by omega)⟩ }

end

/-- What is claimed of the loop, from stage `i` on. -/
def FromStage (E : HEnv K Sol W) (initial : Option Sol) (w : W) (maxIter i : Nat) (sol : Sol) (m : Nat)
    (L : HState K Sol W × Option PyErr) : Prop :=
  ((L.2 = none ∧ L.1.solution = some sol ∧ L.1.calls.length = m) ↔
    i ≤ m ∧ m ≤ maxIter ∧ (∀ j, i ≤ j → j < m → E.GoesOn initial w j) ∧ E.Ends initial w maxIter m ∧
      ∃ g, E.stage initial w m = .ok g ∧ g.sol = some sol) ∧
  (L.2 = none → 0 < L.1.calls.length ∧ InfoOK E initial w L.1.calls.length L.1)

theorem FromStage.step {maxIter i k m : Nat} {s : HState K Sol W} {sol : Sol} (h : AtStage E initial w i s)
    (hik : i + (k + 1) = maxIter)
    (hrest : E.GoesOn initial w i → E.NotSmall initial w (i + 1) →
      FromStage E initial w maxIter (i + 1) sol m (E.loop maxIter k (i + 1) (E.iter maxIter i s).1)) :
    FromStage E initial w maxIter i sol m (E.loop maxIter (k + 1) i s) := by
  obtain ⟨b1, b2, b3, b4, -⟩ := h.before
  have hns := not_small h.notSmall'
  -- ending with this very stage
  have hend : E.Ends initial w maxIter i ↔ (E.before i s).2 = .stop := by
    rw [b1]
    unfold HEnv.Ends
    constructor
    · rintro (hsm | ⟨hi, -, hh | ⟨-, hh⟩⟩)
      · exact (hns hsm).elim
      · omega
      · exact ⟨hi, hh⟩
    · rintro ⟨hi, hh⟩
      exact Or.inr ⟨hi, h.notSmall', Or.inr ⟨by omega, hh⟩⟩
  have hloop : E.loop maxIter (k + 1) i s = match E.iter maxIter i s with
      | (s, .next) => E.loop maxIter k (i + 1) s
      | (s, .stop) => (s, none)
      | (s, .raise e) => (s, some e) := rfl
  rcases hB : E.before i s with ⟨s1, fl⟩
  cases fl with
  | stop =>
    have hst : (E.before i s).2 = .stop := by rw [hB]
    have hL : E.loop maxIter (k + 1) i s = (s1, none) := by rw [hloop]; unfold HEnv.iter; rw [hB]
    have hi := (b1.1 hst).1
    obtain ⟨c1, c2⟩ := h.before_stop hst
    rw [hB] at b3 b4 c1 c2
    simp only at b3 b4 c1 c2
    rw [hL]
    have hlen : s1.calls.length = i := by rw [b4, h.calls]
    refine ⟨⟨?_, ?_⟩, fun _ => ?_⟩
    · rintro ⟨-, h1, h2⟩
      simp only at h1 h2
      rw [hlen] at h2
      subst h2
      rw [b3, h.solution, if_neg (by omega)] at h1
      exact ⟨le_refl _, by omega, fun j hj hj2 => absurd hj (by omega), hend.2 hst, _, h.stage, h1⟩
    · rintro ⟨h1, -, h3, -, g, h5, h6⟩
      rcases Nat.eq_or_lt_of_le h1 with rfl | hlt
      · rw [h.stage] at h5
        cases h5
        refine ⟨rfl, ?_, hlen⟩
        rw [b3, h.solution, if_neg (by omega)]
        exact h6
      · have := b2.2 (h3 i (le_refl _) hlt)
        rw [hst] at this
        cases this
    · rw [hlen]
      exact ⟨hi, c1, by rw [b4]; exact h.trail, c2⟩
  | raise er =>
    have hL : E.loop maxIter (k + 1) i s = (s1, some er) := by rw [hloop]; unfold HEnv.iter; rw [hB]
    rw [hL]
    refine ⟨⟨nofun, ?_⟩, nofun⟩
    rintro ⟨h1, -, h3, h4, -⟩
    rcases Nat.eq_or_lt_of_le h1 with rfl | hlt
    · have := hend.1 h4
      rw [hB] at this
      cases this
    · have := b2.2 (h3 i (le_refl _) hlt)
      rw [hB] at this
      cases this
  | next =>
    have hgo : E.GoesOn initial w i := b2.1 (by rw [hB])
    have hne : E.Ends initial w maxIter i → False := by
      intro hh
      have := hend.1 hh
      rw [hB] at this
      cases this
    obtain ⟨d1, d2, d3⟩ := h.iter hgo maxIter
    have hpast : (i ≤ m ∧ m ≤ maxIter ∧ (∀ j, i ≤ j → j < m → E.GoesOn initial w j) ∧ E.Ends initial w maxIter m ∧
        ∃ g, E.stage initial w m = .ok g ∧ g.sol = some sol) ↔
        (i + 1 ≤ m ∧ m ≤ maxIter ∧ (∀ j, i + 1 ≤ j → j < m → E.GoesOn initial w j) ∧ E.Ends initial w maxIter m ∧
        ∃ g, E.stage initial w m = .ok g ∧ g.sol = some sol) := by
      constructor
      · rintro ⟨h1, h2, h3, h4, h5⟩
        rcases Nat.eq_or_lt_of_le h1 with rfl | hlt
        · exact (hne h4).elim
        · exact ⟨hlt, h2, fun j hj => h3 j (by omega), h4, h5⟩
      · rintro ⟨h1, h2, h3, h4, h5⟩
        refine ⟨by omega, h2, fun j hj hjm => ?_, h4, h5⟩
        rcases Nat.eq_or_lt_of_le hj with rfl | hlt
        · exact hgo
        · exact h3 j hlt hjm
    rcases hI : E.iter maxIter i s with ⟨s2, fl⟩
    rw [hI] at d1 d2 d3 hrest
    unfold FromStage
    rw [hpast]
    cases fl with
    | next =>
      have hL : E.loop maxIter (k + 1) i s = E.loop maxIter k (i + 1) s2 := by rw [hloop, hI]
      rw [hL]
      exact hrest hgo (d2.1 rfl)
    | stop =>
      have hL : E.loop maxIter (k + 1) i s = (s2, none) := by rw [hloop, hI]
      rw [hL]
      have hsm := d1.1 rfl
      obtain ⟨g, v, g1, g2, g3⟩ := id hsm
      obtain ⟨q1, q2, q3, -⟩ := d3 g g1
      simp only at q1 q2 q3
      have hq := q3 (Or.inl ((accepts_iff _).2 ⟨v, g2, g3⟩))
      refine ⟨⟨?_, ?_⟩, fun _ => ?_⟩
      · rintro ⟨-, h1, h2⟩
        simp only at h1 h2
        rw [q2] at h2
        subst h2
        exact ⟨le_refl _, by omega, fun j hj hj2 => absurd hj (by omega), Or.inl hsm, g, g1, by rw [← q1, h1]⟩
      · rintro ⟨h1, -, h3, -, g', h5, h6⟩
        rcases Nat.eq_or_lt_of_le h1 with rfl | hlt
        · rw [g1] at h5
          cases h5
          exact ⟨rfl, by rw [q1, h6], q2⟩
        · exact (not_small (h3 (i + 1) (le_refl _) hlt).1 hsm).elim
      · simp only
        rw [q2]
        exact ⟨by omega, hq⟩
    | raise er =>
      have hL : E.loop maxIter (k + 1) i s = (s2, some er) := by rw [hloop, hI]
      rw [hL]
      refine ⟨⟨nofun, ?_⟩, nofun⟩
      rintro ⟨h1, -, h3, h4, -⟩
      rcases Nat.eq_or_lt_of_le h1 with rfl | hlt
      · rcases h4 with hsm | ⟨-, hsm, -⟩
        · cases d1.2 hsm
        · cases d2.2 hsm
      · cases d2.2 (h3 (i + 1) (le_refl _) hlt).1

/-- The loop. -/
theorem loop_course {maxIter : Nat} (sol : Sol) (m : Nat) : ∀ (k i : Nat) (s : HState K Sol W), AtStage E initial w i s →
    i + (k + 1) = maxIter → FromStage E initial w maxIter i sol m (E.loop maxIter (k + 1) i s) := by
  intro k
  induction k with
  | zero =>
    intro i s h hik
    apply FromStage.step h hik
    intro hgo hns
    obtain ⟨g, g1, g2⟩ := id hns
    obtain ⟨-, -, d3⟩ := h.iter hgo maxIter
    obtain ⟨q1, q2, q3, -⟩ := d3 g g1
    have hq := q3 (Or.inr (by omega))
    show FromStage E initial w maxIter (i + 1) sol m ((E.iter maxIter i s).1, none)
    refine ⟨⟨?_, ?_⟩, fun _ => ?_⟩
    · rintro ⟨-, h1, h2⟩
      simp only at h1 h2
      rw [q2] at h2
      subst h2
      exact ⟨le_refl _, by omega, fun j hj hj2 => absurd hj (by omega),
        Or.inr ⟨by omega, hns, Or.inl (by omega)⟩, g, g1, by rw [← q1, h1]⟩
    · rintro ⟨h1, h2, h3, -, g', h5, h6⟩
      have : m = i + 1 := by omega
      subst this
      rw [g1] at h5
      cases h5
      exact ⟨rfl, by rw [q1, h6], q2⟩
    · simp only
      rw [q2]
      exact ⟨by omega, hq⟩
  | succ k ih =>
    intro i s h hik
    apply FromStage.step h hik
    intro hgo hns
    obtain ⟨g, g1, g2⟩ := id hns
    obtain ⟨-, -, d3⟩ := h.iter hgo maxIter
    obtain ⟨-, -, -, q4⟩ := d3 g g1
    exact ih _ _ (q4 ((not_accepts_iff _).2 g2) (by omega)) (by omega)

/-- What `solve` returns after the loop. -/
def loopValue (L : HState K Sol W × Option PyErr) : Py Sol :=
  match L.2 with
  | some e => .error e
  | none => match L.1.solution with
    | some sol => .ok sol
    | none => .error .unboundLocal

theorem loopValue_eq_ok (L : HState K Sol W × Option PyErr) (sol : Sol) :
    loopValue L = .ok sol ↔ L.2 = none ∧ L.1.solution = some sol := by
  rcases L with ⟨s, r⟩
  unfold loopValue
  cases r with
  | some e => simp
  | none =>
    simp only [true_and]
    rcases s.solution with _ | x <;> simp

theorem HEnv.solve_eq {sw sw' : Option W} {new : W} {err : Option K} (hW : E.widths 0 initial sw = .ok (sw', new, err))
    (maxIter : Nat) : E.solve initial sw maxIter =
      (fun L => (L.1, loopValue L)) (if E.accepts err = true
        then (⟨sw', none, new, err, initial, initial, 0, setInfo [] 0 err, []⟩, none)
        else E.loop maxIter maxIter 0 ⟨sw', none, new, err, initial, none, 0, [], []⟩) := by
  unfold HEnv.solve
  rw [hW]
  by_cases ha : E.accepts err = true
  · simp only [ha, if_true]; rfl
  · simp only [ha, if_false]; rfl

/-- **C72, the course of the iteration.** `solve` returns `sol` after `m` solver calls exactly when the stages before
`m` do not end the iteration, stage `m` does, and `sol` is the solution there. -/
theorem C72_course (E : HEnv K Sol W) (initial : Option Sol) (sw : Option W) (maxIter : Nat) (sol : Sol) (m : Nat) :
    ((E.solve initial sw maxIter).2 = .ok sol ∧ (E.solve initial sw maxIter).1.calls.length = m) ↔
      m ≤ maxIter ∧ (∀ k, k < m → E.GoesOn initial (sw.getD E.dflt) k) ∧ E.Ends initial (sw.getD E.dflt) maxIter m ∧
        ∃ g, E.stage initial (sw.getD E.dflt) m = .ok g ∧ g.sol = some sol := by
  set w := sw.getD E.dflt with hw
  have h0 : E.stage initial w 0 = (do
      let m ← E.measure 0 initial w
      return ⟨initial, m.1, m.2⟩) := rfl
  rcases hm : E.measure 0 initial w with er | ⟨new, err⟩
  · have h0' : E.stage initial w 0 = .error er := by rw [h0, hm]; rfl
    have hW : E.widths 0 initial sw = .error er := by rw [E.widths_measure, ← hw, hm]; rfl
    have hS : (E.solve initial sw maxIter).2 = .error er := by unfold HEnv.solve; rw [hW]
    rw [hS]
    refine ⟨fun h => (nomatch h.1), ?_⟩
    rintro ⟨-, h2, -, g, h4, -⟩
    rcases Nat.eq_zero_or_pos m with rfl | hp
    · rw [h0'] at h4; cases h4
    · obtain ⟨⟨g, h5, -⟩, -⟩ := h2 0 hp
      rw [h0'] at h5; cases h5
  · have h0' : E.stage initial w 0 = .ok ⟨initial, new, err⟩ := by rw [h0, hm]; rfl
    obtain ⟨sw', hW⟩ : ∃ sw', E.widths 0 initial sw = .ok (sw', new, err) := by
      rw [E.widths_measure, ← hw, hm]
      exact ⟨_, rfl⟩
    rw [HEnv.solve_eq hW]
    by_cases ha : E.accepts err = true
    · rw [if_pos ha]
      have hsm : E.Small initial w 0 := by
        obtain ⟨v, v1, v2⟩ := (accepts_iff _).1 ha
        exact ⟨_, v, h0', v1, v2⟩
      simp only [loopValue_eq_ok, true_and, List.length_nil]
      constructor
      · rintro ⟨h1, rfl⟩
        exact ⟨Nat.zero_le _, fun k hk => absurd hk (Nat.not_lt_zero _), Or.inl hsm, _, h0', h1⟩
      · rintro ⟨-, h2, -, g, h4, h5⟩
        rcases Nat.eq_zero_or_pos m with rfl | hp
        · rw [h0'] at h4
          cases h4
          exact ⟨h5, rfl⟩
        · exact (not_small (h2 0 hp).1 hsm).elim
    · have hf : E.accepts err = false := by simpa using ha
      have hat : AtStage E initial w 0 ⟨sw', none, new, err, initial, none, 0, [], []⟩ := {
        stage := h0', notSmall := hf, calls := rfl, trail := nofun, count := rfl, old := fun h => absurd h (lt_irrefl _)
        solution := rfl, info := ⟨fun _ => none, rfl, fun j hj => absurd hj (Nat.not_lt_zero _)⟩ }
      rw [if_neg ha]
      simp only [loopValue_eq_ok]
      rw [and_assoc]
      rcases maxIter with _ | n
      · refine ⟨fun h => (nomatch h.2.1), ?_⟩
        rintro ⟨h1, -, h3, -⟩
        have : m = 0 := by omega
        subst this
        rcases h3 with h3 | ⟨h3, -⟩
        · exact (not_small hat.notSmall' h3).elim
        · exact absurd h3 (lt_irrefl _)
      · obtain ⟨k1, -⟩ := loop_course (maxIter := n + 1) sol m n 0 _ hat (by omega)
        rw [k1]
        constructor
        · rintro ⟨-, h2, h3, h4⟩
          exact ⟨h2, fun k hk => h3 k (Nat.zero_le _) hk, h4⟩
        · rintro ⟨h2, h3, h4⟩
          exact ⟨Nat.zero_le _, h2, fun k _ hk => h3 k hk, h4⟩

/-- **C72, the record.** After a call that ran the solver, `iter_count` is the number of solver calls, these lead from
stage to stage, and `iter_info` lists the errors of the stages in order. -/
theorem C72_record (E : HEnv K Sol W) (initial : Option Sol) (sw : Option W) (maxIter : Nat) {s : HState K Sol W} {sol : Sol}
    (h : E.solve initial sw maxIter = (s, .ok sol)) (hm : s.calls ≠ []) :
    s.count = s.calls.length ∧
    (∀ k c, s.calls[k]? = some c → ∃ g g', E.stage initial (sw.getD E.dflt) k = .ok g ∧
      E.stage initial (sw.getD E.dflt) (k + 1) = .ok g' ∧ c.start = g.sol ∧ c.p = g.w ∧ g'.sol = some c.result) ∧
    ∃ e : Nat → Option K, s.info = (List.range s.calls.length).map (fun j => (j + 1, e (j + 1))) ∧
      ∀ j, j ≤ s.calls.length → ∃ g, E.stage initial (sw.getD E.dflt) j = .ok g ∧ g.err = e j := by
  have h0 : E.stage initial (sw.getD E.dflt) 0 = (do
      let m ← E.measure 0 initial (sw.getD E.dflt)
      return ⟨initial, m.1, m.2⟩) := rfl
  rcases hme : E.measure 0 initial (sw.getD E.dflt) with er | ⟨new, err⟩
  · have hW : E.widths 0 initial sw = .error er := by rw [E.widths_measure, hme]; rfl
    have hS : (E.solve initial sw maxIter).2 = .error er := by unfold HEnv.solve; rw [hW]
    rw [h] at hS
    cases hS
  · rw [hme, py_bind_ok] at h0
    obtain ⟨sw', hW⟩ : ∃ sw', E.widths 0 initial sw = .ok (sw', new, err) := by
      rw [E.widths_measure, hme]
      exact ⟨_, rfl⟩
    rw [HEnv.solve_eq hW] at h
    by_cases ha : E.accepts err = true
    · rw [if_pos ha] at h
      injection h with h1 h2
      rw [← h1] at hm
      exact absurd rfl hm
    · have hf : E.accepts err = false := by simpa using ha
      have hat : AtStage E initial (sw.getD E.dflt) 0 ⟨sw', none, new, err, initial, none, 0, [], []⟩ := {
        stage := h0, notSmall := hf, calls := rfl, trail := nofun, count := rfl, old := fun h => absurd h (lt_irrefl _)
        solution := rfl, info := ⟨fun _ => none, rfl, fun j hj => absurd hj (Nat.not_lt_zero _)⟩ }
      rw [if_neg ha] at h
      injection h with h1 h2
      rw [loopValue_eq_ok] at h2
      rcases maxIter with _ | n
      · rw [← h1] at hm
        exact absurd rfl hm
      · obtain ⟨-, k2⟩ := loop_course (maxIter := n + 1) sol 0 n 0 _ hat (by omega)
        have := (k2 h2.1).2
        rw [h1] at this
        exact this

end MPOpt
