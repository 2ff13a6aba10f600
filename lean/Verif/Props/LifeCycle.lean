import Verif.Props.Solver

/-! # C23: life cycle of the solver object -/

set_option autoImplicit false
set_option linter.unusedSectionVars false

namespace MPOpt
variable {K V : Type} [Field K] [LinearOrder K]

/-- No operation of a history raised. -/
def NoneRaised (w : Outside K V) (s : Session K V) (ops : List (Op K V)) : Prop :=
  ∀ r ∈ (s.run w ops).2, ∃ v, r = .ok v

/-- A `solve` that has to build the NLP: it asks for it, or there was no `solve` yet since the last reset
(or since construction). -/
def Builds (pre : List (Op K V)) (a : SolveArgs K V) : Prop :=
  a.reinitialize = true ∨ ∀ p b q, pre = p ++ Op.solve b :: q → ∃ o ∈ q, o = Op.reset

/-- Operations that do not ask for a new NLP. -/
def Quiet (o : Op K V) : Prop :=
  match o with
  | .reset => False
  | .solve a => a.reinitialize = false
  | _ => True

theorem run_snoc (w : Outside K V) (s : Session K V) (ops : List (Op K V)) (o : Op K V) :
    s.run w (ops ++ [o]) =
      (((s.run w ops).1.step w o).1, (s.run w ops).2 ++ [((s.run w ops).1.step w o).2]) := by
  induction ops generalizing s with
  | nil => rfl
  | cons x ops ih =>
    rw [List.cons_append]
    simp only [Session.run]
    rw [ih]
    rfl

/-- State of the solver object after a history without exceptions. -/
def Inv (w : Outside K V) (s₀ : Session K V) (ops : List (Op K V)) : Prop :=
  let s := (s₀.run w ops).1
  (s.opt.initialized = false → ∀ p b q, ops = p ++ Op.solve b :: q → ∃ o ∈ q, o = Op.reset) ∧
  (s.opt.initialized = true → ∃ pre b post nlp, ops = pre ++ Op.solve b :: post ∧ Builds pre b ∧
    (∀ o ∈ post, Quiet o) ∧ (s₀.run w pre).1.buildNlp w = .ok nlp ∧
    s.opt.solver = some ⟨nlp, b.plugin, solverOptions w.vals b.plugin b.options⟩ ∧
    s.opt.bounds = some nlp)

theorem createSolver_ok {w : Outside K V} {s s' : Session K V} {pl : String} {o : PyDict V}
    (h : s.createSolver w pl o = (s', .ok ())) : ∃ nlp, s.buildNlp w = .ok nlp ∧
      s'.heap = s.heap ∧ s'.opt.initialized = true ∧
      s'.opt.solver = some ⟨nlp, pl, solverOptions w.vals pl o⟩ ∧ s'.opt.bounds = some nlp := by
  unfold Session.createSolver at h
  split at h
  · cases h
  · rename_i nlp hn
    simp only at h
    split at h
    · cases h; exact ⟨nlp, hn, rfl, rfl, rfl, rfl⟩
    · cases h

/-- Solver object and bounds after a `solve` without exception, and the call that was made. -/
theorem solve_state {w : Outside K V} {s : Session K V} {a : SolveArgs K V} {c : SolverCall K V}
    (h : (s.solve w a).2 = .ok c) :
    (s.solve w a).1.opt.initialized = true ∧ (s.solve w a).1.opt.solver = some c.solver ∧
      (s.solve w a).1.opt.bounds = some c.bounds ∧
      ((s.opt.initialized = false ∨ a.reinitialize = true) → s.buildNlp w = .ok c.bounds ∧
        c.solver = ⟨c.bounds, a.plugin, solverOptions w.vals a.plugin a.options⟩) ∧
      (¬ (s.opt.initialized = false ∨ a.reinitialize = true) →
        s.opt.solver = some c.solver ∧ s.opt.bounds = some c.bounds) := by
  have fin : ∀ (s' : Session K V) (x : Py (PyDict V)) (sw : List K),
      (do
        let inputs ← x
        match s'.opt.solver, s'.opt.bounds with
        | some sol, some b => return ⟨sol, b, inputs, sw⟩
        | _, _ => Except.error PyErr.attribute) = (.ok c : Py (SolverCall K V)) →
      s'.opt.solver = some c.solver ∧ s'.opt.bounds = some c.bounds := by
    intro s' x sw h
    cases x with
    | error e => cases h
    | ok i =>
      rw [py_bind_ok] at h
      split at h
      · rename_i h1 h2; cases h; exact ⟨h1, h2⟩
      · cases h
  unfold Session.solve at *
  by_cases hc : s.opt.initialized = false ∨ a.reinitialize = true
  · simp only [hc, if_true] at h ⊢
    rcases hcs : s.createSolver w a.plugin a.options with ⟨s', r⟩
    rw [hcs] at h
    cases r with
    | error e => cases h
    | ok u =>
      obtain ⟨nlp, hn, -, h2, h3, h4⟩ := createSolver_ok hcs
      simp only at h ⊢
      split at h
      · cases h
      · rename_i sw hsw
        obtain ⟨e1, e2⟩ := fin _ _ _ h
        refine ⟨h2, e1, e2, fun _ => ?_, fun hh => absurd trivial hh⟩
        simp only [h3, h4, Option.some.injEq] at e1 e2
        rw [← e1, ← e2]
        exact ⟨hn, rfl⟩
  · simp only [hc, if_false] at h ⊢
    have hi : s.opt.initialized = true := by
      by_contra hh; exact hc (Or.inl (by simpa using hh))
    split at h
    · cases h
    · rename_i sw hsw
      obtain ⟨e1, e2⟩ := fin _ _ _ h
      exact ⟨hi, e1, e2, fun hh => hh.elim, fun _ => ⟨e1, e2⟩⟩

theorem snoc_solve_cases {ops p q : List (Op K V)} {o : Op K V} {b : SolveArgs K V}
    (h : ops ++ [o] = p ++ Op.solve b :: q) :
    (q = [] ∧ o = .solve b ∧ p = ops) ∨ ∃ q', q = q' ++ [o] ∧ ops = p ++ Op.solve b :: q' := by
  rcases List.eq_nil_or_concat q with rfl | ⟨q', x, rfl⟩
  · left
    have h1 := List.append_inj_left' h rfl
    have h2 := List.append_inj_right' h rfl
    cases h2
    exact ⟨rfl, rfl, h1.symm⟩
  · right
    have h' : ops ++ [o] = (p ++ Op.solve b :: q') ++ [x] := by rw [h]; simp
    have h1 := List.append_inj_left' h' rfl
    have h2 := List.append_inj_right' h' rfl
    cases h2
    exact ⟨q', by simp, h1⟩

theorem inv_run (w : Outside K V) (s₀ : Session K V) (h0 : s₀.opt.initialized = false)
    (ops : List (Op K V)) (hok : NoneRaised w s₀ ops) : Inv w s₀ ops := by
  induction ops using List.reverseRecOn with
  | nil =>
    refine ⟨fun _ p b q h => by simp at h, fun h => ?_⟩
    simp only [Session.run] at h
    rw [h0] at h; cases h
  | append_singleton ops o ih =>
    have hok' : NoneRaised w s₀ ops := by
      intro r hr
      apply hok r
      rw [run_snoc]; simp [hr]
    have hlast : ∃ v, ((s₀.run w ops).1.step w o).2 = .ok v := by
      apply hok
      rw [run_snoc]; simp
    obtain ⟨i1, i2⟩ := ih hok'
    unfold Inv
    rw [run_snoc]
    simp only
    generalize hs : (s₀.run w ops).1 = s at *
    have quiet : ∀ s' : Session K V, s'.opt.initialized = s.opt.initialized →
        (s'.opt.solver, s'.opt.bounds) = (s.opt.solver, s.opt.bounds) → Quiet o →
        (∀ b, o ≠ .solve b) →
        (s'.opt.initialized = false → ∀ p b q, ops ++ [o] = p ++ Op.solve b :: q → ∃ o ∈ q, o = Op.reset) ∧
        (s'.opt.initialized = true → ∃ pre b post nlp, ops ++ [o] = pre ++ Op.solve b :: post ∧
          Builds pre b ∧ (∀ o ∈ post, Quiet o) ∧ (s₀.run w pre).1.buildNlp w = .ok nlp ∧
          s'.opt.solver = some ⟨nlp, b.plugin, solverOptions w.vals b.plugin b.options⟩ ∧
          s'.opt.bounds = some nlp) := by
      intro s' q1 q2 q3 q4
      rw [Prod.mk.injEq] at q2
      rw [q1, q2.1, q2.2]
      refine ⟨fun hh p b q h => ?_, fun hh => ?_⟩
      · rcases snoc_solve_cases h with ⟨-, h, -⟩ | ⟨q', rfl, h'⟩
        · exact absurd h (q4 b)
        · obtain ⟨o', ho, rfl⟩ := i1 hh p b q' h'
          exact ⟨.reset, by simp [ho], rfl⟩
      · obtain ⟨pre, b, post, nlp, e1, e2, e3, e4, e5, e6⟩ := i2 hh
        refine ⟨pre, b, post ++ [o], nlp, by rw [e1]; simp, e2, fun o' ho => ?_, e4, e5, e6⟩
        rcases List.mem_append.1 ho with ho | ho
        · exact e3 o' ho
        · rw [List.mem_singleton.1 ho]; exact q3
    cases o with
    | reset =>
      simp only [Session.step] at hlast ⊢
      split
      · refine ⟨fun _ p b q h => ?_, fun h => by cases h⟩
        rcases snoc_solve_cases h with ⟨-, h, -⟩ | ⟨q', rfl, -⟩
        · cases h
        · exact ⟨.reset, by simp, rfl⟩
      · rename_i hh; rw [if_neg hh] at hlast; obtain ⟨v, hv⟩ := hlast; cases hv
    | solve a =>
      simp only [Session.step] at hlast ⊢
      obtain ⟨v, hv⟩ := hlast
      obtain ⟨c, hc⟩ : ∃ c, (s.solve w a).2 = .ok c := by
        cases hh : (s.solve w a).2 with
        | error e => rw [hh] at hv; cases hv
        | ok c => exact ⟨c, rfl⟩
      obtain ⟨j1, j2, j3, j4, j5⟩ := solve_state hc
      refine ⟨fun hh => ?_, fun _ => ?_⟩
      · rw [j1] at hh; cases hh
      · by_cases hb : s.opt.initialized = false ∨ a.reinitialize = true
        · obtain ⟨k1, k2⟩ := j4 hb
          refine ⟨ops, a, [], c.bounds, rfl, ?_, by simp, by rw [hs]; exact k1, by rw [j2, k2], j3⟩
          rcases hb with hb | hb
          · exact Or.inr (i1 hb)
          · exact Or.inl hb
        · obtain ⟨k1, k2⟩ := j5 hb
          have hi : s.opt.initialized = true := by
            by_contra hh; exact hb (Or.inl (by simpa using hh))
          obtain ⟨pre, b, post, nlp, e1, e2, e3, e4, e5, e6⟩ := i2 hi
          rw [k1] at e5
          rw [k2] at e6
          refine ⟨pre, b, post ++ [.solve a], nlp, by rw [e1]; simp, e2, fun o ho => ?_, e4, ?_, ?_⟩
          · rcases List.mem_append.1 ho with ho | ho
            · exact e3 o ho
            · rw [List.mem_singleton.1 ho]
              show a.reinitialize = false
              by_contra hh; exact hb (Or.inr (by simpa using hh))
          · rw [j2]; exact e5
          · rw [j3]; exact e6
    | editUser f => exact quiet _ rfl rfl trivial (fun b h => by cases h)
    | editOwn f => exact quiet _ rfl rfl trivial (fun b h => by cases h)
    | assign => exact quiet _ rfl rfl trivial (fun b h => by cases h)
    | setMesh n os => exact quiet _ rfl rfl trivial (fun b h => by cases h)

/-- **C23** Over any history without exceptions, the solver object called by a `solve` and the bounds handed
to it belong to the NLP built, from the problem and mesh as they then were, at the most recent `solve`
that asked for reinitialisation or was the first one since construction or reset. -/
theorem C23_life_cycle (w : Outside K V) (problem : OCP K) (n : Nat) (orders : OrdersArg)
    (scheme : String) (s₀ : Session K V) (hnew : newSession problem n orders scheme = .ok s₀)
    (ops : List (Op K V)) (a : SolveArgs K V) (hok : NoneRaised w s₀ (ops ++ [.solve a])) :
    ∃ c pre b post, ((s₀.run w ops).1.solve w a).2 = .ok c ∧
      ops ++ [.solve a] = pre ++ Op.solve b :: post ∧ Builds pre b ∧ (∀ o ∈ post, Quiet o) ∧
      (s₀.run w pre).1.buildNlp w = .ok c.solver.problem ∧ c.bounds = c.solver.problem ∧
      c.solver.plugin = b.plugin ∧ c.solver.options = solverOptions w.vals b.plugin b.options := by
  have h0 : s₀.opt.initialized = false := by
    unfold newSession at hnew
    cases hi : initOrders n orders with
    | error e => rw [hi] at hnew; cases hnew
    | ok r => rw [hi] at hnew; cases hnew; rfl
  obtain ⟨-, i2⟩ := inv_run w s₀ h0 _ hok
  have hlast : ∃ v, ((s₀.run w ops).1.step w (.solve a)).2 = .ok v := by
    apply hok
    rw [run_snoc]; simp
  obtain ⟨v, hv⟩ := hlast
  obtain ⟨c, hc⟩ : ∃ c, ((s₀.run w ops).1.solve w a).2 = .ok c := by
    simp only [Session.step] at hv
    cases hh : ((s₀.run w ops).1.solve w a).2 with
    | error e => rw [hh] at hv; cases hv
    | ok c => exact ⟨c, rfl⟩
  obtain ⟨j1, j2, j3, -, -⟩ := solve_state hc
  rw [run_snoc] at i2
  simp only [Session.step] at i2
  obtain ⟨pre, b, post, nlp, e1, e2, e3, e4, e5, e6⟩ := i2 j1
  rw [j2] at e5; rw [j3] at e6
  simp only [Option.some.injEq] at e5 e6
  refine ⟨c, pre, b, post, hc, e1, e2, e3, ?_, ?_, ?_, ?_⟩
  · rw [e5]; exact e4
  · rw [e5, e6]
  · rw [e5]
  · rw [e5]

/-! ### Edits of the user's problem object -/

/-- Sessions that agree on everything the optimiser can reach. -/
def SameOpt (s s' : Session K V) : Prop :=
  s.opt = s'.opt ∧ s.opt.ocp = 1 ∧ s.heap[1]? = s'.heap[1]?

/-- Not an edit of the user's object. -/
def notUser : Op K V → Bool
  | .editUser _ => false
  | _ => true

theorem SameOpt.build {w : Outside K V} {s s' : Session K V} (h : SameOpt s s') :
    s.buildNlp w = s'.buildNlp w := by
  obtain ⟨h1, h2, h3⟩ := h
  unfold Session.buildNlp Session.ocp? pyIdx
  rw [← h1, h2, h3]

theorem SameOpt.solve {w : Outside K V} {s s' : Session K V} (h : SameOpt s s') (a : SolveArgs K V) :
    SameOpt (s.solve w a).1 (s'.solve w a).1 ∧ (s.solve w a).2 = (s'.solve w a).2 := by
  have hb := h.build (w := w)
  obtain ⟨h1, h2, h3⟩ := h
  obtain ⟨heap, opt⟩ := s
  obtain ⟨heap', opt'⟩ := s'
  obtain rfl : opt = opt' := h1
  simp only at h2 h3
  unfold Session.solve Session.createSolver
  rw [hb]
  have hidx : ∀ o : Opt K V, o.ocp = 1 → pyIdx heap o.ocp = pyIdx heap' o.ocp := by
    intro o ho
    unfold pyIdx; rw [ho, h3]
  simp only [Session.ocp?, Session.guess]
  by_cases hc : opt.initialized = false ∨ a.reinitialize = true
  · simp only [hc, if_true]
    cases hn : Session.buildNlp w ⟨heap', opt⟩ with
    | error e => exact ⟨⟨rfl, h2, h3⟩, rfl⟩
    | ok nlp =>
      simp only
      by_cases hacc : w.accepts a.plugin (solverOptions w.vals a.plugin a.options) = true
      · simp only [hacc, if_true, hidx opt h2]
        split
        · exact ⟨⟨rfl, h2, h3⟩, rfl⟩
        · exact ⟨⟨rfl, h2, h3⟩, rfl⟩
      · simp only [hacc]
        exact ⟨⟨rfl, h2, h3⟩, rfl⟩
  · simp only [hc, if_false, hidx opt h2]
    split
    · exact ⟨⟨rfl, h2, h3⟩, rfl⟩
    · exact ⟨⟨rfl, h2, h3⟩, rfl⟩

theorem SameOpt.step {w : Outside K V} {s s' : Session K V} (h : SameOpt s s') (o : Op K V) (hna : o ≠ .assign) :
    SameOpt (s.step w o).1 (s'.step w o).1 := by
  have hs := h
  obtain ⟨h1, h2, h3⟩ := h
  cases o with
  | editUser f =>
    refine ⟨h1, h2, ?_⟩
    simp only [Session.step, List.getElem?_modify]
    simpa using h3
  | editOwn f =>
    refine ⟨h1, h2, ?_⟩
    simp only [Session.step, List.getElem?_modify, ← h1, h2, h3]
  | assign => exact absurd rfl hna
  | setMesh n o =>
    refine ⟨?_, h2, h3⟩
    simp only [Session.step, h1]
  | reset =>
    simp only [Session.step, ← h1]
    split
    · exact ⟨rfl, h2, h3⟩
    · exact ⟨h1, h2, h3⟩
  | solve a => exact (hs.solve a).1

theorem SameOpt.run {w : Outside K V} (ops : List (Op K V)) (hna : Op.assign ∉ ops) :
    ∀ {s s' : Session K V}, SameOpt s s' → SameOpt (s.run w ops).1 (s'.run w (ops.filter notUser)).1 := by
  induction ops with
  | nil => intro s s' h; exact h
  | cons o ops ih =>
    intro s s' h
    have ih := @ih fun hm => hna (List.mem_cons_of_mem _ hm)
    by_cases ho : notUser o = true
    · rw [List.filter_cons_of_pos ho]
      exact ih (h.step o fun e => hna (by rw [e]; exact List.mem_cons_self))
    · rw [List.filter_cons_of_neg ho]
      cases o with
      | editUser f =>
        apply ih
        refine ⟨h.1, h.2.1, ?_⟩
        simp only [List.getElem?_modify]
        simpa using h.2.2
      | _ => simp [notUser] at ho

/-- **C23** Edits of the problem object passed to the constructor are never seen, unless that object is assigned to
`opt._ocp`: after any history without such an assignment, a `solve` does the same as after the history without these
edits. -/
theorem C23_user_edits_unseen (w : Outside K V) (problem : OCP K) (n : Nat) (orders : OrdersArg)
    (scheme : String) (s₀ : Session K V) (hnew : newSession problem n orders scheme = .ok s₀)
    (ops : List (Op K V)) (hna : Op.assign ∉ ops) (a : SolveArgs K V) :
    ((s₀.run w ops).1.solve w a).2 = ((s₀.run w (ops.filter notUser)).1.solve w a).2 := by
  have h0 : SameOpt s₀ s₀ := by
    unfold newSession at hnew
    cases hi : initOrders n orders with
    | error e => rw [hi] at hnew; cases hnew
    | ok r => rw [hi] at hnew; cases hnew; exact ⟨rfl, rfl, rfl⟩
  exact ((h0.run ops hna).solve a).2

/-! ### After an exception -/

/-- Solver plugins other than ipopt are refused. -/
def outsideQ : Outside ℚ Nat :=
  ⟨libQ, .numerical, -1, 1, ⟨0, 0, 0, 0, 0⟩, fun p _ => p == "ipopt", fun _ => 0⟩

/-- Solve; tighten the state bound; reinitialise with an unknown plugin, which raises; solve again. -/
def historyQ : List (Op ℚ Nat) :=
  [.solve ⟨none, false, "ipopt", [], none⟩, .editOwn fun o => { o with ubx := [[.fin 4]] },
    .solve ⟨none, true, "nosuch", [], none⟩]

/-- **C23, after an exception: false.** A failed reinitialisation leaves the old solver object together with
the new bounds: the next `solve` calls the solver of one NLP with the bounds of another. -/
theorem C23_after_failure_false : ∃ (s₀ : Session ℚ Nat) (c : SolverCall ℚ Nat),
    newSession ocpQ 2 (.list [1, 2]) "LGR" = .ok s₀ ∧
    ((s₀.run outsideQ historyQ).1.solve outsideQ ⟨none, false, "ipopt", [], none⟩).2 = .ok c ∧
    c.bounds.ubx ≠ c.solver.problem.ubx := by
  have key : (match newSession (V := Nat) ocpQ 2 (.list [1, 2]) "LGR" with
    | .error _ => false
    | .ok s₀ =>
      match ((s₀.run outsideQ historyQ).1.solve outsideQ ⟨none, false, "ipopt", [], none⟩).2 with
      | .error _ => false
      | .ok c => decide (c.bounds.ubx ≠ c.solver.problem.ubx)) = true := by decide +kernel
  split at key
  · cases key
  · rename_i s₀ h0
    split at key
    · cases key
    · rename_i c hc
      exact ⟨s₀, c, h0, hc, of_decide_eq_true key⟩

/-- Non-vacuity of `C23_life_cycle`: solve, edit both problem objects, solve again, reset, solve. -/
example : ∃ s₀ : Session ℚ Nat, newSession ocpQ 2 (.list [1, 2]) "LGR" = .ok s₀ ∧
    NoneRaised outsideQ s₀ [.solve ⟨none, false, "ipopt", [], none⟩,
      .editOwn fun o => { o with ubx := [[.fin 4]] }, .editUser fun o => { o with nx := 7 },
      .solve ⟨none, false, "ipopt", [], none⟩, .reset, .solve ⟨none, false, "ipopt", [], none⟩] := by
  refine ⟨_, rfl, ?_⟩
  have key : ((⟨[ocpQ, ocpQ], ⟨1, 2, [1, 2], "LGR", 4, false, none, none, none⟩⟩ : Session ℚ Nat).run
      outsideQ [.solve ⟨none, false, "ipopt", [], none⟩,
      .editOwn fun o => { o with ubx := [[.fin 4]] }, .editUser fun o => { o with nx := 7 },
      .solve ⟨none, false, "ipopt", [], none⟩, .reset,
      .solve ⟨none, false, "ipopt", [], none⟩]).2.all (fun r => r.isOk) = true := by decide +kernel
  intro r hr
  have := List.all_eq_true.1 key r hr
  cases r with
  | error e => cases this
  | ok v => exact ⟨v, rfl⟩

end MPOpt
