import Verif.Props.Guess

/-! # C21 (warm start), C22 (options), C23 (life cycle) -/

set_option autoImplicit false
set_option linter.unusedSectionVars false

namespace MPOpt

namespace PyDict
variable {V : Type}

theorem has_iff (d : PyDict V) (k : String) : d.has k = true ↔ k ∈ d.map (·.1) := by
  simp [has]

theorem get?_eq_none (d : PyDict V) (k : String) : d.get? k = none ↔ k ∉ d.map (·.1) := by
  simp only [get?, Option.map_eq_none_iff, List.find?_eq_none, List.mem_map, not_exists, not_and,
    beq_iff_eq]

theorem get?_cons (e : String × V) (d : PyDict V) (k : String) :
    get? (e :: d) k = if e.1 = k then some e.2 else d.get? k := by
  unfold get?
  by_cases h : e.1 = k
  · simp [h]
  · simp [h, List.find?_cons_of_neg]

theorem get?_append (d e : PyDict V) (k : String) :
    get? (d ++ e) k = (d.get? k).or (e.get? k) := by
  induction d with
  | nil => simp [get?]
  | cons x d ih =>
    rw [List.cons_append, get?_cons, get?_cons, ih]
    split <;> rfl

theorem keys_set (d : PyDict V) (k : String) (v : V) :
    (d.set k v).map (·.1) = if d.has k then d.map (·.1) else d.map (·.1) ++ [k] := by
  unfold set
  split
  · rw [List.map_map]
    apply List.map_congr_left
    intro e _
    by_cases h : e.1 = k <;> simp [h]
  · simp

theorem get?_set (d : PyDict V) (k : String) (v : V) (k' : String) :
    (d.set k v).get? k' = if k' = k then some v else d.get? k' := by
  unfold set
  split
  · rename_i hh
    have hh := (has_iff d k).1 hh
    induction d with
    | nil => simp at hh
    | cons e d ih =>
      rw [List.map_cons, get?_cons, get?_cons]
      by_cases he : e.1 = k
      · have hb : (e.1 == k) = true := by simp [he]
        simp only [hb, if_true]
        by_cases hk : k = k'
        · simp [hk]
        · have hk' : k' ≠ k := fun h => hk h.symm
          rw [if_neg hk, if_neg hk', if_neg (by rw [he]; exact hk)]
          by_cases hm : k ∈ d.map (·.1)
          · rw [ih ((has_iff d k).2 hm) hm, if_neg hk']
          · congr 1
            conv_rhs => rw [← List.map_id d]
            apply List.map_congr_left
            intro x hx
            have : x.1 ≠ k := fun h => hm (h ▸ List.mem_map_of_mem hx)
            simp [this]
      · have hb : (e.1 == k) = false := by simp [he]
        simp only [hb, Bool.false_eq_true, if_false]
        have hm : k ∈ d.map (·.1) := by
          rcases List.mem_cons.1 hh with h | h
          · exact absurd h.symm he
          · exact h
        rw [ih ((has_iff d k).2 hm) hm]
        by_cases h1 : e.1 = k'
        · rw [if_pos h1, if_pos h1, if_neg (fun h => he (h1.trans h))]
        · rw [if_neg h1, if_neg h1]
  · rename_i hh
    have hh : k ∉ d.map (·.1) := fun h => hh ((has_iff d k).2 h)
    rw [get?_append]
    by_cases hk : k' = k
    · subst hk
      rw [(get?_eq_none d k').2 hh, if_pos rfl, get?_cons]; simp
    · rw [if_neg hk, get?_cons, if_neg (fun h => hk h.symm)]
      simp [get?]

theorem WF.set {d : PyDict V} (h : d.WF) (k : String) (v : V) : (d.set k v).WF := by
  unfold WF
  rw [keys_set]
  split
  · exact h
  · rename_i hh
    rw [List.nodup_append]
    refine ⟨h, by simp, ?_⟩
    intro a ha b hb
    rw [List.mem_singleton] at hb
    subst hb
    rintro rfl
    exact hh ((has_iff d a).2 ha)

theorem has_eq (d : PyDict V) (k : String) : d.has k = (d.get? k).isSome := by
  rw [Bool.eq_iff_iff, has_iff, Option.isSome_iff_ne_none, ne_eq, get?_eq_none, not_not]

end PyDict

/-! ## C22 -/

section
variable {V : Type}

theorem foldl_set_get? (options d : PyDict V) (hw : options.WF) (k : String) :
    (options.foldl (fun d e => d.set e.1 e.2) d).get? k = (options.get? k).or (d.get? k) := by
  induction options generalizing d with
  | nil => simp [PyDict.get?]
  | cons e l ih =>
    have hw' : e.1 ∉ l.map (·.1) ∧ PyDict.WF l := by
      have := hw; unfold PyDict.WF at this ⊢; rw [List.map_cons, List.nodup_cons] at this; exact this
    rw [List.foldl_cons, ih _ hw'.2, PyDict.get?_set, PyDict.get?_cons]
    by_cases h : e.1 = k
    · subst h
      rw [(PyDict.get?_eq_none l e.1).2 hw'.1]; simp
    · rw [if_neg h, if_neg (fun h' => h h'.symm)]

theorem foldl_set_nil (options pre : PyDict V) (hw : PyDict.WF (pre ++ options)) :
    options.foldl (fun d e => d.set e.1 e.2) pre = pre ++ options := by
  induction options generalizing pre with
  | nil => simp
  | cons e l ih =>
    have hn : pre.has e.1 = false := by
      by_contra hh
      have hh := (PyDict.has_iff pre e.1).1 (by simpa using hh)
      unfold PyDict.WF at hw
      rw [List.map_append, List.nodup_append] at hw
      exact hw.2.2 e.1 hh e.1 (by simp) rfl
    rw [List.foldl_cons]
    have : pre.set e.1 e.2 = pre ++ [e] := by unfold PyDict.set; rw [hn]; simp
    rw [this, ih _ (by simpa using hw)]
    simp

/-- **C22** Options handed to the solver: every user option as given; with ipopt the five defaults where
the user gave nothing, and nothing else. -/
theorem C22_options_ipopt (c : OptVals V) (options : PyDict V) (hw : options.WF) (k : String) :
    (solverOptions c "ipopt" options).get? k =
      match options.get? k with
      | some v => some v
      | none =>
        if k = "ipopt.max_iter" then some c.maxIter
        else if k = "ipopt.acceptable_tol" then some c.accTol
        else if k = "ipopt.print_level" then some c.printLevel
        else if k = "ipopt.sb" then some c.sb
        else if k = "print_time" then some c.printTime
        else none := by
  unfold solverOptions
  simp only [beq_self_eq_true, if_true]
  rw [foldl_set_get? _ _ hw]
  cases options.get? k with
  | some v => rfl
  | none =>
    simp only [Option.none_or, PyDict.get?_cons, eq_comm (b := k)]
    rfl

/-- **C22** Other solvers get exactly the user's options. -/
theorem C22_options_other (c : OptVals V) (solver : String) (hs : solver ≠ "ipopt") (options : PyDict V)
    (hw : options.WF) : solverOptions c solver options = options := by
  unfold solverOptions
  have : (solver == "ipopt") = false := by simp [hs]
  simp only [this, Bool.false_eq_true, if_false]
  rw [foldl_set_nil _ [] (by simpa using hw)]
  simp

example : PyDict.WF [("ipopt.max_iter", 5), ("expand", 1)] ∧
    (solverOptions (V := Nat) ⟨2000, 0, 0, 1, 0⟩ "ipopt" [("ipopt.max_iter", 5), ("expand", 1)]) =
      [("ipopt.max_iter", 5), ("ipopt.acceptable_tol", 0), ("ipopt.print_level", 0), ("ipopt.sb", 1),
        ("print_time", 0), ("expand", 1)] := by
  refine ⟨?_, by decide⟩
  unfold PyDict.WF; decide

/-! ## C21 -/

/-- Keys of a solution dictionary accepted for solver input `t`. -/
def Alias (t k : String) : Prop :=
  (t = "x0" ∧ (k = "x" ∨ k = "x0")) ∨ (t = "lam_x0" ∧ (k = "lam_x" ∨ k = "lam_x0")) ∨
    (t = "lam_g0" ∧ (k = "lam_g" ∨ k = "lam_g0"))

theorem warmTarget_iff (t k : String) : warmTarget k = some t ↔ Alias t k := by
  unfold warmTarget Alias
  simp only [beq_iff_eq]
  constructor
  · intro h
    repeat' split at h
    all_goals simp_all
  · rintro (⟨rfl, rfl | rfl⟩ | ⟨rfl, rfl | rfl⟩ | ⟨rfl, rfl | rfl⟩) <;> decide

/-- `v` is the value of the last item of `s` whose key is an alias of `t`. -/
def LastAlias (s : PyDict V) (t : String) (v : V) : Prop :=
  ∃ pre k post, s = pre ++ (k, v) :: post ∧ Alias t k ∧ ∀ e ∈ post, ¬ Alias t e.1

/-- The loop over the solution's items (mpopt.py:846-848). -/
def warmFold (s : PyDict V) : PyDict V :=
  s.foldl (fun (d : PyDict V) e =>
    match warmTarget e.1 with
    | some t => d.set t e.2
    | none => d) []

theorem warmFold_snoc (s : PyDict V) (e : String × V) : warmFold (s ++ [e]) =
    match warmTarget e.1 with
    | some t => (warmFold s).set t e.2
    | none => warmFold s := by
  unfold warmFold; rw [List.foldl_append]; rfl

theorem warmFold_get? (s : PyDict V) (t : String) (v : V) :
    (warmFold s).get? t = some v ↔ LastAlias s t v := by
  induction s using List.reverseRecOn generalizing v with
  | nil =>
    constructor
    · intro h; simp [warmFold, PyDict.get?] at h
    · rintro ⟨pre, k, post, h, -⟩; simp at h
  | append_singleton s e ih =>
    rw [warmFold_snoc]
    by_cases ha : Alias t e.1
    · rw [(warmTarget_iff t e.1).2 ha]
      simp only [PyDict.get?_set, if_true, Option.some.injEq]
      constructor
      · rintro rfl; exact ⟨s, e.1, [], rfl, ha, by simp⟩
      · rintro ⟨pre, k, post, h, -, hp⟩
        rcases List.eq_nil_or_concat post with rfl | ⟨post', x, rfl⟩
        · have := List.append_inj_right' h rfl
          cases this; rfl
        · exfalso
          have h' : s ++ [e] = (pre ++ (k, v) :: post') ++ [x] := by rw [h]; simp
          have := List.append_inj_right' h' rfl
          cases this
          exact hp e (by simp) ha
    · have key : (match warmTarget e.1 with
          | some t => (warmFold s).set t e.2
          | none => warmFold s).get? t = (warmFold s).get? t := by
        cases hw : warmTarget e.1 with
        | none => rfl
        | some t' =>
          simp only [PyDict.get?_set]
          rw [if_neg]
          rintro rfl
          exact ha ((warmTarget_iff t e.1).1 hw)
      rw [key, ih]
      constructor
      · rintro ⟨pre, k, post, rfl, h1, h2⟩
        refine ⟨pre, k, post ++ [e], by simp, h1, fun x hx => ?_⟩
        rcases List.mem_append.1 hx with hx | hx
        · exact h2 x hx
        · rw [List.mem_singleton.1 hx]; exact ha
      · rintro ⟨pre, k, post, h, h1, h2⟩
        rcases List.eq_nil_or_concat post with rfl | ⟨post', x, rfl⟩
        · have := List.append_inj_right' h rfl
          cases this
          exact absurd h1 ha
        · have h' : s ++ [e] = (pre ++ (k, v) :: post') ++ [x] := by rw [h]; simp
          exact ⟨pre, k, post', List.append_inj_left' h' rfl, h1, fun y hy => h2 y (by simp [hy])⟩

theorem warmFold_keys (s : PyDict V) : (warmFold s).WF ∧
    ∀ k ∈ (warmFold s).map (·.1), k = "x0" ∨ k = "lam_x0" ∨ k = "lam_g0" := by
  induction s using List.reverseRecOn with
  | nil => exact ⟨by simp [warmFold, PyDict.WF], by simp [warmFold]⟩
  | append_singleton s e ih =>
    rw [warmFold_snoc]
    cases hw : warmTarget e.1 with
    | none => exact ih
    | some t =>
      refine ⟨ih.1.set _ _, fun k hk => ?_⟩
      have ht : t = "x0" ∨ t = "lam_x0" ∨ t = "lam_g0" := by
        rcases (warmTarget_iff t e.1).1 hw with ⟨h, -⟩ | ⟨h, -⟩ | ⟨h, -⟩ <;> simp [h]
      simp only [PyDict.keys_set] at hk
      split at hk
      · exact ih.2 k hk
      · rcases List.mem_append.1 hk with hk | hk
        · exact ih.2 k hk
        · rw [List.mem_singleton.1 hk]; exact ht

/-- **C21** Without a solution the solver gets the default guess and nothing else. -/
theorem C21_no_solution (g : V) : warmStart (.ok g) none = .ok [("x0", g)] := by
  rfl

/-- **C21** With a solution dictionary, whatever its keys and their order: the solver inputs are among
`x0`, `lam_x0`, `lam_g0`, each at most once; multipliers are given iff an alias is present and carry the
value of the last alias; `x0` is always given, from the last alias of `x0` or, without one, the default
guess. -/
theorem C21_warm_start (g : V) (s : PyDict V) : ∃ r, warmStart (.ok g) (some s) = .ok r ∧ r.WF ∧
    (∀ k ∈ r.map (·.1), k = "x0" ∨ k = "lam_x0" ∨ k = "lam_g0") ∧
    (∀ t, t = "lam_x0" ∨ t = "lam_g0" → ∀ v, r.get? t = some v ↔ LastAlias s t v) ∧
    (∀ v, LastAlias s "x0" v → r.get? "x0" = some v) ∧
    ((∀ e ∈ s, e.1 ≠ "x" ∧ e.1 ≠ "x0") → r.get? "x0" = some g) := by
  have hk := warmFold_keys s
  have hnone : (∀ e ∈ s, e.1 ≠ "x" ∧ e.1 ≠ "x0") → (warmFold s).get? "x0" = none := by
    intro h
    rw [Option.eq_none_iff_forall_not_mem]
    intro v hv
    obtain ⟨pre, k, post, rfl, ha, -⟩ := (warmFold_get? s "x0" v).1 hv
    have := h (k, v) (by simp)
    rcases ha with ⟨-, h | h⟩ | ⟨h, -⟩ | ⟨h, -⟩
    · exact this.1 h
    · exact this.2 h
    · exact absurd h (by decide)
    · exact absurd h (by decide)
  by_cases hx : (warmFold s).has "x0" = true
  · refine ⟨warmFold s, ?_, hk.1, hk.2, fun t _ v => warmFold_get? s t v,
      fun v => (warmFold_get? s "x0" v).2, fun h => ?_⟩
    · show (if (warmFold s).has "x0" = true then _ else _) = _
      rw [if_pos hx]; rfl
    · have := hnone h
      rw [PyDict.has_eq, this] at hx; cases hx
  · have hx0 : (warmFold s).get? "x0" = none := by
      rw [PyDict.has_eq] at hx; simpa using hx
    refine ⟨(warmFold s).set "x0" g, ?_, hk.1.set _ _, fun k hkk => ?_, fun t ht v => ?_, fun v hv => ?_,
      fun _ => ?_⟩
    · show (if (warmFold s).has "x0" = true then _ else _) = _
      rw [if_neg hx]; rfl
    · rw [PyDict.keys_set, if_neg hx] at hkk
      rcases List.mem_append.1 hkk with h | h
      · exact hk.2 k h
      · exact Or.inl (List.mem_singleton.1 h)
    · rw [PyDict.get?_set, if_neg (by rcases ht with rfl | rfl <;> decide)]
      exact warmFold_get? s t v
    · rw [← warmFold_get?, hx0] at hv; cases hv
    · rw [PyDict.get?_set, if_pos rfl]

/-- The default guess is not even computed when `x` or `x0` is present. -/
theorem C21_guess_unused (e : PyErr) (s : PyDict V) (h : ∃ v, LastAlias s "x0" v) :
    warmStart (.error e) (some s) = .ok (warmFold s) := by
  obtain ⟨v, hv⟩ := h
  show (if (warmFold s).has "x0" = true then _ else _) = _
  rw [if_pos (by rw [PyDict.has_eq, (warmFold_get? s "x0" v).2 hv]; rfl)]
  rfl

example : LastAlias [("x", 1), ("f", 2), ("x0", 3), ("lam_g", 4)] "x0" 3 :=
  ⟨[("x", 1), ("f", 2)], "x0", [("lam_g", 4)], rfl, Or.inl ⟨rfl, Or.inr rfl⟩, by simp [Alias]⟩

end
end MPOpt
