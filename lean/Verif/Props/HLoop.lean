import Verif.Props.HAdaptive

/-! # The h-adaptive loop: when it returns, and what `iter_info` says about the solution it returns -/

set_option autoImplicit false
set_option linter.unusedSectionVars false

namespace MPOpt
variable {K : Type} [Field K] [LinearOrder K]
variable {Sol W : Type}

/-! ### `iter_info` -/

/-- `d[k]` for `iter_info`. -/
def infoAt (d : List (Nat × Option K)) (k : Nat) : Option (Option K) := (d.find? fun e => e.1 == k).map (·.2)

theorem infoAt_setInfo (d : List (Nat × Option K)) (k : Nat) (v : Option K) :
    infoAt (setInfo d k v) k = some v := by
  unfold setInfo infoAt
  split
  next h =>
    induction d with
    | nil => simp at h
    | cons e d ih =>
      rw [List.map_cons]
      by_cases hk : e.1 == k
      · simp [hk]
      · have : (d.any fun e => e.1 == k) = true := by simpa [hk] using h
        simp only [hk, Bool.false_eq_true, if_false]
        rw [List.find?_cons_of_neg (by simpa using hk)]
        exact ih this
  next h =>
    have : d.find? (fun e => e.1 == k) = none := by
      rw [List.find?_eq_none]
      rw [Bool.not_eq_true, List.any_eq_false] at h
      exact h
    rw [List.find?_append, this]
    simp

theorem mem_setInfo {d : List (Nat × Option K)} {k : Nat} {v : Option K} {e : Nat × Option K}
    (h : e ∈ setInfo d k v) : e ∈ d ∨ e.2 = v := by
  unfold setInfo at h
  split at h
  · obtain ⟨e', h1, rfl⟩ := List.mem_map.1 h
    split
    · exact Or.inr rfl
    · exact Or.inl h1
  · rcases List.mem_append.1 h with h | h
    · exact Or.inl h
    · rw [List.mem_singleton.1 h]; exact Or.inr rfl

/-- The error `err` was measured for the solution and stored widths of the state. -/
def Measured (E : HEnv K Sol W) (s : HState K Sol W) (new : W) (err : Option K) : Prop :=
  ∃ sol sw n, s.solution = some sol ∧ s.sw = some sw ∧ E.widths n (some sol) (some sw) = .ok (some sw, new, err)

/-- At the start of iteration `i`. -/
structure InfoInv (E : HEnv K Sol W) (i : Nat) (s : HState K Sol W) : Prop where
  count : s.count = i
  pos : 0 < i → Measured E s s.newSw s.maxErr ∧ s.swOld = s.sw

/-- What is left after the loop. -/
def InfoEnd (E : HEnv K Sol W) (s : HState K Sol W) : Prop :=
  ∃ new err, Measured E s new err ∧ infoAt s.info s.count = some err

theorem iter_info {E : HEnv K Sol W} {maxIter i : Nat} {s : HState K Sol W} (h : InfoInv E i s) :
    let r := E.iter maxIter i s
    (r.2 = .stop → InfoEnd E r.1) ∧
      (r.2 = .next → InfoInv E (i + 1) r.1 ∧ (i + 1 = maxIter → InfoEnd E r.1)) := by
  simp only
  have hbefore : ((E.before i s).2 = .stop → InfoEnd E (E.before i s).1) ∧
      ((E.before i s).2 = .next → (E.before i s).1.count = i ∧ (E.before i s).1.newSw = s.newSw ∧
        (E.before i s).1.sw = some s.newSw) := by
    have hstop : ∀ s' : HState K Sol W, 0 < i → s'.solution = s.solution → s'.sw = s.swOld →
        s'.count = s.count → s'.info = setInfo s.info s.count s.maxErr → InfoEnd E s' := by
      intro s' hi h1 h2 h3 h4
      obtain ⟨⟨sol, sw, n, e1, e2, e3⟩, e4⟩ := h.pos hi
      exact ⟨s.newSw, s.maxErr, ⟨sol, sw, n, by rw [h1, e1], by rw [h2, e4, e2], e3⟩,
        by rw [h3, h4, infoAt_setInfo]⟩
    unfold HEnv.before
    by_cases hc : 0 < s.count
    · have hi : 0 < i := by rw [← h.count]; exact hc
      simp only [hc, if_true]
      split
      · exact ⟨nofun, nofun⟩
      · exact ⟨fun _ => hstop _ hi rfl rfl rfl rfl, nofun⟩
      · split
        · exact ⟨nofun, nofun⟩
        · exact ⟨fun _ => hstop _ hi rfl rfl rfl rfl, nofun⟩
        · split
          · exact ⟨nofun, fun _ => ⟨h.count, rfl, rfl⟩⟩
          · exact ⟨nofun, fun _ => ⟨h.count, rfl, rfl⟩⟩
    · have hi : i = 0 := by have := h.count; omega
      have h4 : ¬ 4 < s.count := by omega
      simp only [hc, h4, hi, if_false, lt_irrefl, true_and]
      split
      · exact ⟨nofun, fun _ => ⟨by simp only; omega, rfl, rfl⟩⟩
      · exact ⟨nofun, fun _ => ⟨by simp only; omega, rfl, rfl⟩⟩
  unfold HEnv.iter
  rcases hb : E.before i s with ⟨s1, f⟩
  rw [hb] at hbefore
  simp only at hbefore
  obtain ⟨b1, b2⟩ := hbefore
  cases f with
  | stop => exact ⟨fun _ => b1 rfl, nofun⟩
  | raise e => exact ⟨nofun, nofun⟩
  | next =>
    obtain ⟨c1, c2, c3⟩ := b2 rfl
    simp only
    unfold HEnv.after
    cases hsol : E.solver s1.calls.length s1.init s1.newSw with
    | error e => exact ⟨nofun, nofun⟩
    | ok sol =>
      simp only
      cases hw : E.widths (s1.calls ++ [(⟨s1.init, s1.newSw, sol⟩ : HCall Sol W)]).length (some sol) s1.sw with
      | error e => exact ⟨nofun, nofun⟩
      | ok v =>
        obtain ⟨sw', new, err⟩ := v
        simp only
        have hsw : sw' = some s1.newSw := by
          rcases widths_spec hw with ⟨e1, -, -⟩ | ⟨s', -, -, e1, -⟩
          · rw [e1, c3, c2]
          · rw [e1, c3, c2]; rfl
        subst hsw
        rw [c3, ← c2] at hw
        have hm : ∀ s' : HState K Sol W, s'.solution = some sol → s'.sw = some s1.newSw →
            Measured E s' new err := fun s' h1 h2 => ⟨sol, _, _, h1, h2, hw⟩
        split
        · exact ⟨fun _ => ⟨new, err, hm _ rfl rfl, infoAt_setInfo _ _ _⟩, nofun⟩
        · split
          · exact ⟨nofun, fun _ => ⟨⟨by simp only; omega, fun _ => ⟨hm _ rfl rfl, rfl⟩⟩,
              fun _ => ⟨new, err, hm _ rfl rfl, infoAt_setInfo _ _ _⟩⟩⟩
          · rename_i hne
            exact ⟨nofun, fun _ => ⟨⟨by simp only; omega, fun _ => ⟨hm _ rfl rfl, rfl⟩⟩,
              fun he => absurd he hne⟩⟩

theorem loop_info {E : HEnv K Sol W} (maxIter : Nat) :
    ∀ (k i : Nat) (s : HState K Sol W), i + k = maxIter → 0 < k → InfoInv E i s →
      (E.loop maxIter k i s).2 = none → InfoEnd E (E.loop maxIter k i s).1 := by
  intro k
  induction k with
  | zero => intro i s _ h0; omega
  | succ k ih =>
    intro i s hk _ h
    obtain ⟨h1, h2⟩ := iter_info (maxIter := maxIter) h
    unfold HEnv.loop
    rcases hit : E.iter maxIter i s with ⟨s1, f⟩
    rw [hit] at h1 h2
    simp only at h1 h2
    cases f with
    | stop => exact fun _ => h1 rfl
    | raise e => exact nofun
    | next =>
      obtain ⟨g1, g2⟩ := h2 rfl
      rcases Nat.eq_zero_or_pos k with rfl | hk0
      · exact fun _ => g2 (by omega)
      · exact ih (i + 1) s1 (by omega) hk0 g1

/-- When `solve` returns, `iter_info[iter_count]` is what `get_segment_width_parameters` measures of the returned
solution at the stored widths. -/
theorem solve_info {E : HEnv K Sol W} {initial : Option Sol} {sw : Option W} {maxIter : Nat} {sol : Sol}
    (h : (E.solve initial sw maxIter).2 = .ok sol) :
    ∃ p n new err, (E.solve initial sw maxIter).1.sw = some p ∧
      E.widths n (some sol) (some p) = .ok (some p, new, err) ∧
      infoAt (E.solve initial sw maxIter).1.info (E.solve initial sw maxIter).1.count = some err := by
  unfold HEnv.solve at h ⊢
  cases hw : E.widths 0 initial sw with
  | error e => rw [hw] at h; cases h
  | ok v =>
    obtain ⟨sw', new, err⟩ := v
    rw [hw] at h
    simp only at h ⊢
    by_cases hacc : E.accepts err = true
    · simp only [hacc, if_true] at h ⊢
      cases initial with
      | none => cases h
      | some s =>
        cases h
        rcases widths_spec hw with ⟨-, -, e3⟩ | ⟨s', e0, hne, e1, e2⟩
        · rw [e3] at hacc; cases hacc
        · cases e0
          refine ⟨sw.getD E.dflt, 0, new, err, e1, ?_, infoAt_setInfo _ _ _⟩
          unfold HEnv.widths
          rw [if_neg hne]
          simp only [Option.getD_some, e2, py_bind_ok]
          rfl
    · simp only [hacc, Bool.false_eq_true, if_false] at h ⊢
      generalize hl : E.loop maxIter maxIter 0 ⟨sw', none, new, err, initial, none, 0, [], []⟩ = r at *
      obtain ⟨s', o⟩ := r
      cases o with
      | some e => cases h
      | none =>
        simp only at h ⊢
        cases hs : s'.solution with
        | none => rw [hs] at h; cases h
        | some sol' =>
          rw [hs] at h
          cases h
          rcases Nat.eq_zero_or_pos maxIter with rfl | hpos
          · cases hl; cases hs
          · have := loop_info (E := E) maxIter maxIter 0 ⟨sw', none, new, err, initial, none, 0, [], []⟩ (by omega) hpos
              ⟨rfl, fun h => absurd h (lt_irrefl 0)⟩
            rw [hl] at this
            obtain ⟨new', err', ⟨sol', p, n, e1, e2, e3⟩, e4⟩ := this rfl
            simp only at e1 e2 e4
            rw [hs] at e1
            cases e1
            exact ⟨p, n, new', err', e2, e3, e4⟩

/-! ### Progress -/

/-- The solver returns for all valid widths, with results that are good for these widths; widths can be compared. -/
structure Works (E : HEnv K Sol W) (Valid : W → Prop) (Good : W → Sol → Prop) : Prop where
  dflt : Valid E.dflt
  solver : ∀ k init p, Valid p → ∃ sol, E.solver k init p = .ok sol ∧ Good p sol
  unchanged : ∀ a b, Valid a → Valid b → ∃ f, E.unchanged a b = .ok f
  same : E.unchanged E.dflt E.dflt = .ok true

/-- Every measurement gives valid widths and an error. -/
def Measures (E : HEnv K Sol W) (Valid : W → Prop) (Good : W → Sol → Prop) : Prop :=
  E.nSegments ≠ 1 ∧ ∀ n s w, Valid w → Good w s → ∃ new e, E.refine n s w = .ok (new, some e) ∧ Valid new

/-- Widths are always the equal ones, without an error. -/
def Idle (E : HEnv K Sol W) : Prop :=
  E.nSegments = 1 ∨ ∀ n s w, E.refine n s w = .ok (E.dflt, none)

theorem stagnates_ok {info : List (Nat × Option K)} {err : Option K} (h : ∀ e ∈ info, e.2.isSome)
    (he : err.isSome) : ∃ b, stagnates info err = .ok b := by
  obtain ⟨v, rfl⟩ := Option.isSome_iff_exists.1 he
  unfold stagnates
  have key : ∀ (f : Option K → Py K) (g : List K → Py Bool) (l : List (Option K)), (∀ v, f (some v) = .ok v) →
      (∀ l, ∃ b, g l = .ok b) → (∀ o ∈ l, o.isSome) → ∃ b, (l.mapM f >>= g) = .ok b := by
    intro f g l hf hg hl
    suffices h : ∃ nums, l.mapM f = .ok nums by
      obtain ⟨nums, hn⟩ := h
      obtain ⟨b, hb⟩ := hg nums
      exact ⟨b, by rw [hn, py_bind_ok, hb]⟩
    induction l with
    | nil => exact ⟨[], rfl⟩
    | cons o l ih =>
      obtain ⟨v, hv⟩ := Option.isSome_iff_exists.1 (hl o (by simp))
      obtain ⟨nums, hn⟩ := ih fun o h => hl o (by simp [h])
      exact ⟨v :: nums, by rw [List.mapM_cons, hv, hn, hf]; rfl⟩
  refine key _ _ _ (fun v => rfl) (fun l => ⟨_, rfl⟩) ?_
  intro o ho
  obtain ⟨e, h1, rfl⟩ := List.mem_map.1 (List.mem_of_mem_drop ho)
  exact h e h1

/-- A good solution goes with the valid widths stored. -/
def Kept (Valid : W → Prop) (Good : W → Sol → Prop) (s : HState K Sol W) : Prop :=
  ∃ sol p, s.solution = some sol ∧ s.sw = some p ∧ Valid p ∧ Good p sol

/-- Start of iteration `i` when all measurements give an error. -/
structure RunInv (Valid : W → Prop) (Good : W → Sol → Prop) (i : Nat) (s : HState K Sol W) : Prop where
  count : s.count = i
  new : Valid s.newSw
  info : ∀ e ∈ s.info, e.2.isSome
  pos : 0 < i → Kept Valid Good s ∧ s.swOld = s.sw ∧ s.maxErr.isSome

theorem iter_runs {E : HEnv K Sol W} {Valid : W → Prop} {Good : W → Sol → Prop} (hE : Works E Valid Good)
    (hm : Measures E Valid Good) {maxIter i : Nat} {s : HState K Sol W} (h : RunInv Valid Good i s) :
    let r := E.iter maxIter i s
    (r.2 = .stop ∧ Kept Valid Good r.1) ∨ (r.2 = .next ∧ RunInv Valid Good (i + 1) r.1) := by
  simp only
  have hbefore : ((E.before i s).2 = .stop ∧ Kept Valid Good (E.before i s).1) ∨
      ((E.before i s).2 = .next ∧ (E.before i s).1.count = i ∧ (E.before i s).1.newSw = s.newSw ∧
        (E.before i s).1.sw = some s.newSw ∧ ∀ e ∈ (E.before i s).1.info, e.2.isSome) := by
    unfold HEnv.before
    by_cases hc : 0 < s.count
    · have hi : 0 < i := by rw [← h.count]; exact hc
      obtain ⟨⟨sol, old, hs, ho, ho2, hg⟩, ho1, he⟩ := h.pos hi
      rw [ho] at ho1
      have hinfo : ∀ e ∈ setInfo s.info s.count s.maxErr, e.2.isSome := by
        intro e hm
        rcases mem_setInfo hm with h' | h'
        · exact h.info e h'
        · rw [h']; exact he
      simp only [hc, hi, if_true, ho1]
      obtain ⟨b, hb⟩ : ∃ b, (if 4 < s.count then stagnates (setInfo s.info s.count s.maxErr) s.maxErr
          else .ok false : Py Bool) = .ok b := by
        split
        · exact stagnates_ok hinfo he
        · exact ⟨_, rfl⟩
      rw [hb]
      cases b with
      | true => exact Or.inl ⟨rfl, sol, old, hs, rfl, ho2, hg⟩
      | false =>
        obtain ⟨f, hf⟩ := hE.unchanged s.newSw old h.new ho2
        simp only [hf]
        cases f with
        | true => exact Or.inl ⟨rfl, sol, old, hs, rfl, ho2, hg⟩
        | false =>
          right
          dsimp only
          have hi0 : ¬ (i = 0 ∧ s.init.isNone = true) := by omega
          rw [if_neg hi0]
          exact ⟨rfl, h.count, rfl, rfl, hinfo⟩
    · have hi : i = 0 := by have := h.count; omega
      have h4 : ¬ 4 < s.count := by omega
      simp only [hc, h4, hi, if_false, lt_irrefl, true_and]
      right
      split <;> exact ⟨by simp only; omega, rfl, rfl, h.info⟩
  unfold HEnv.iter
  rcases hb : E.before i s with ⟨s1, f⟩
  rw [hb] at hbefore
  simp only at hbefore
  rcases hbefore with ⟨rfl, hs⟩ | ⟨rfl, c1, c2, c3, c4⟩
  · exact Or.inl ⟨rfl, hs⟩
  · simp only
    unfold HEnv.after
    obtain ⟨sol, hsol, hgood⟩ := hE.solver s1.calls.length s1.init s1.newSw (by rw [c2]; exact h.new)
    simp only [hsol]
    obtain ⟨new, e, hr, hnew⟩ := hm.2 (s1.calls ++ [(⟨s1.init, s1.newSw, sol⟩ : HCall Sol W)]).length sol s1.newSw
      (by rw [c2]; exact h.new) hgood
    have hw : E.widths (s1.calls ++ [(⟨s1.init, s1.newSw, sol⟩ : HCall Sol W)]).length (some sol) s1.sw =
        .ok (some s1.newSw, new, some e) := by
      unfold HEnv.widths
      rw [if_neg hm.1, c3, ← c2]
      simp only [Option.getD_some, hr, py_bind_ok]
      rfl
    simp only [hw]
    have hval : Valid s1.newSw := by rw [c2]; exact h.new
    split
    · exact Or.inl ⟨rfl, _, _, rfl, rfl, hval, hgood⟩
    · right
      split
      · refine ⟨rfl, by simp only; omega, hnew, fun e' he' => ?_,
          fun _ => ⟨⟨_, _, rfl, rfl, hval, hgood⟩, rfl, rfl⟩⟩
        rcases mem_setInfo he' with h' | h'
        · exact c4 _ h'
        · rw [h']; rfl
      · exact ⟨rfl, by simp only; omega, hnew, c4, fun _ => ⟨⟨_, _, rfl, rfl, hval, hgood⟩, rfl, rfl⟩⟩

theorem loop_runs {E : HEnv K Sol W} {Valid : W → Prop} {Good : W → Sol → Prop} (hE : Works E Valid Good)
    (hm : Measures E Valid Good) (maxIter : Nat) :
    ∀ (k i : Nat) (s : HState K Sol W), RunInv Valid Good i s → 0 < i + k →
      (E.loop maxIter k i s).2 = none ∧ Kept Valid Good (E.loop maxIter k i s).1 := by
  intro k
  induction k with
  | zero => intro i s h hpos; exact ⟨rfl, (h.pos hpos).1⟩
  | succ k ih =>
    intro i s h _
    have h1 := iter_runs hE hm (maxIter := maxIter) h
    unfold HEnv.loop
    rcases hit : E.iter maxIter i s with ⟨s1, f⟩
    rw [hit] at h1
    simp only at h1
    rcases h1 with ⟨rfl, h1⟩ | ⟨rfl, h1⟩
    · exact ⟨rfl, h1⟩
    · exact ih (i + 1) s1 h1 (by omega)

/-- Equal widths all the time: the second iteration stops. -/
theorem loop_idle {E : HEnv K Sol W} {Valid : W → Prop} {Good : W → Sol → Prop} (hE : Works E Valid Good)
    (hm : Idle E) (maxIter : Nat) (hpos : 0 < maxIter) (sw : Option W) (initial : Option Sol) :
    (E.loop maxIter maxIter 0 ⟨sw, none, E.dflt, none, initial, none, 0, [], []⟩).2 = none ∧
      Kept Valid Good (E.loop maxIter maxIter 0 ⟨sw, none, E.dflt, none, initial, none, 0, [], []⟩).1 := by
  obtain ⟨k, rfl⟩ : ∃ k, maxIter = k + 1 := ⟨maxIter - 1, by omega⟩
  obtain ⟨sol, hsol, hgood⟩ := hE.solver 0 initial E.dflt hE.dflt
  have hw : E.widths 1 (some sol) (some E.dflt) = .ok (some E.dflt, E.dflt, none) := by
    unfold HEnv.widths
    rcases hm with h1 | h1
    · rw [if_pos h1]
    · split
      · rfl
      · simp only [Option.getD_some, h1, py_bind_ok]; rfl
  have hb : E.before 0 (⟨sw, none, E.dflt, none, initial, none, 0, [], []⟩ : HState K Sol W) =
      (⟨some E.dflt, none, E.dflt, none, initial, none, 0, [], []⟩, .next) := by
    unfold HEnv.before
    simp
  have hit : ∃ info, E.iter (k + 1) 0 (⟨sw, none, E.dflt, none, initial, none, 0, [], []⟩ : HState K Sol W) =
      (⟨some E.dflt, some E.dflt, E.dflt, none, some sol, some sol, 1, info, [⟨initial, E.dflt, sol⟩]⟩, .next) := by
    unfold HEnv.iter
    rw [hb]
    simp only
    unfold HEnv.after
    simp only [List.length_nil, hsol, List.nil_append, List.length_cons, zero_add, hw, HEnv.accepts,
      Bool.false_eq_true, if_false]
    split
    · exact ⟨_, rfl⟩
    · exact ⟨_, rfl⟩
  obtain ⟨info, hit⟩ := hit
  unfold HEnv.loop
  rw [hit]
  simp only
  cases k with
  | zero => exact ⟨rfl, _, _, rfl, rfl, hE.dflt, hgood⟩
  | succ k =>
    unfold HEnv.loop
    have : E.iter (k + 1 + 1) (0 + 1) (⟨some E.dflt, some E.dflt, E.dflt, none, some sol, some sol, 1, info,
        [⟨initial, E.dflt, sol⟩]⟩ : HState K Sol W) =
        (⟨some E.dflt, some E.dflt, E.dflt, none, some sol, some sol, 1, setInfo info 1 none,
          [⟨initial, E.dflt, sol⟩]⟩, .stop) := by
      unfold HEnv.iter HEnv.before
      simp [hE.same]
    rw [this]
    exact ⟨rfl, _, _, rfl, rfl, hE.dflt, hgood⟩

/-- `solve` returns a good solution and stores its widths. -/
theorem solve_returns {E : HEnv K Sol W} {Valid : W → Prop} {Good : W → Sol → Prop} (hE : Works E Valid Good)
    (hm : Measures E Valid Good ∨ Idle E) {initial : Option Sol} {sw : Option W} {maxIter : Nat} (hpos : 0 < maxIter)
    (hsw : ∀ w, sw = some w → Valid w) (hinit : ∀ s, initial = some s → Good (sw.getD E.dflt) s) :
    ∃ sol p, (E.solve initial sw maxIter).2 = .ok sol ∧ (E.solve initial sw maxIter).1.sw = some p ∧ Valid p ∧
      Good p sol := by
  have fin : ∀ r : HState K Sol W × Option PyErr, r.2 = none → Kept Valid Good r.1 → ∃ sol p,
      (match r.2 with
      | some e => (.error e : Py Sol)
      | none => match r.1.solution with
        | some sol => .ok sol
        | none => .error .unboundLocal) = .ok sol ∧ r.1.sw = some p ∧ Valid p ∧ Good p sol := by
    rintro ⟨s, o⟩ h1 ⟨sol, p, h2, h3, h4, h5⟩
    simp only at h1 h2 h3
    subst h1
    exact ⟨sol, p, by simp only [h2], h3, h4, h5⟩
  have hv : Valid (sw.getD E.dflt) := by
    cases sw with
    | none => exact hE.dflt
    | some w => exact hsw w rfl
  unfold HEnv.solve
  rcases hm with hm | hm
  · obtain ⟨sw', new, err, hw, hnew, hacc⟩ : ∃ sw' new err, E.widths 0 initial sw = .ok (sw', new, err) ∧
        Valid new ∧ (E.accepts err = true → initial.isSome ∧ sw' = some (sw.getD E.dflt)) := by
      unfold HEnv.widths
      rw [if_neg hm.1]
      cases initial with
      | none => exact ⟨_, _, _, rfl, hE.dflt, fun h => by cases h⟩
      | some s =>
        obtain ⟨new, e, hr, hnew⟩ := hm.2 0 s (sw.getD E.dflt) hv (hinit s rfl)
        refine ⟨some (sw.getD E.dflt), new, some e, ?_, hnew, fun _ => ⟨rfl, rfl⟩⟩
        simp only [hr, py_bind_ok]
        rfl
    rw [hw]
    simp only
    by_cases ha : E.accepts err = true
    · simp only [ha, if_true]
      obtain ⟨hi, rfl⟩ := hacc ha
      obtain ⟨s, rfl⟩ := Option.isSome_iff_exists.1 hi
      exact ⟨s, _, rfl, rfl, hv, hinit s rfl⟩
    · simp only [ha, Bool.false_eq_true, if_false]
      obtain ⟨h1, h2⟩ := loop_runs hE hm maxIter maxIter 0 ⟨sw', none, new, err, initial, none, 0, [], []⟩
        ⟨rfl, hnew, fun e h => by simp at h, fun h => absurd h (lt_irrefl 0)⟩ (by omega)
      exact fin _ h1 h2
  · obtain ⟨sw', hw⟩ : ∃ sw', E.widths 0 initial sw = .ok (sw', E.dflt, none) := by
      unfold HEnv.widths
      by_cases h1 : E.nSegments = 1
      · exact ⟨_, by rw [if_pos h1]⟩
      · rw [if_neg h1]
        cases initial with
        | none => exact ⟨_, rfl⟩
        | some s =>
          rcases hm with h2 | h2
          · exact absurd h2 h1
          · exact ⟨some (sw.getD E.dflt), by simp only [h2, py_bind_ok]; rfl⟩
    rw [hw]
    simp only [HEnv.accepts, Bool.false_eq_true, if_false]
    obtain ⟨h1, h2⟩ := loop_idle hE hm maxIter hpos sw' initial
    exact fin _ h1 h2

end MPOpt
