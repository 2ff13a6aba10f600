import Verif.Model.HWatch
import Verif.Spec.HWatch
import Verif.Props.PlotVars
import Verif.Props.HMeasure
import Verif.Props.DefaultGrid

/-! # C85: watching the residuals while the h-adaptive loop runs (`plot_residual_evolution`) -/

set_option autoImplicit false
set_option linter.unusedSectionVars false

namespace MPOpt
variable {K V : Type} [Field K] [LinearOrder K]

/-! ### What one drawing shows -/

/-- `plot_residuals` into given axes. -/
theorem plotResiduals_on (norm : List K → K) {time : List (List (List K))}
    {residuals : List (List (SegResidual K))} {phases : List Nat} {r ts : List K}
    (h : sortResidualData norm time residuals phases = .ok (r, ts.map .num)) (hl : ts.length = r.length)
    (name : Option String) (tic : String) (tics : List String) (ax : Option (Axes K)) :
    plotResiduals norm time residuals phases name ax (some (tic :: tics)) =
      .ok ⟨(ax.getD .empty).curves ++ [⟨ts, r, tic, name.map fun n => n ++ " "⟩, ⟨ts, r, "-", none⟩], some "Time, s",
        some "residuals", (ax.getD .empty).legend || name.isSome⟩ := by
  have hts : (ts.map PlotCell.num).mapM PlotCell.time = (.ok ts : Py (List K)) := by
    rw [List.mapM_map, mapM_ok (PlotCell.time ∘ PlotCell.num) id ts fun a _ => rfl, List.map_id]
  have hcol : (colMat r).column 0 = r := by
    apply List.ext_getElem (by simp [Mat.column, colMat])
    intro i h1 h2
    simp [Mat.column, colMat, h2]
  have hrow : ts.length = (colMat r).rows := hl
  have hone : (colMat r).cols = 1 := rfl
  unfold plotResiduals
  simp only [h, py_bind_ok]
  rw [hts, py_bind_ok]
  rw [plotCurve_ok _ _ _ hrow (by rw [hone]; simp) (by rintro l ⟨⟩; rw [hone]; simp), py_bind_ok,
    plotCurve_ok _ _ _ hrow (by rw [hone]; simp [strokes]) (by rintro l ⟨⟩; rw [hone]; simp), py_bind_ok]
  simp only [hone, List.range_one, List.map_cons, List.map_nil, hcol]
  cases name <;> simp [curveLabel, legendEntry, strokes] <;> rfl

/-- Times and residuals of a phase belong together, segment by segment. -/
def Paired (n : Nat) (p : List (List K) × List (SegResidual K)) : Prop :=
  p.1.length = n ∧ List.Forall₂ (fun t r => t.length = (Option.getD r []).length) p.1 p.2

theorem dynPhase_paired {e : Solved K} {ph : Nat} {nodes : Option (List (List K))} {r : Solved.PhaseRes K}
    (h : e.dynPhase ph nodes = .ok r) : Paired e.disc.nSegments (r.t, r.res) := by
  unfold Solved.dynPhase at h
  simp only [py_bind_eq_ok, py_pure_eq_ok] at h
  obtain ⟨ri, -, dyn, -, segs, hsegs, rfl⟩ := h
  have hl := mapM_length hsegs
  refine ⟨by simpa using hl, ?_⟩
  simp only
  rw [List.forall₂_map_left_iff, List.forall₂_map_right_iff, List.forall₂_same]
  intro x hx
  obtain ⟨i, hi, rfl⟩ := List.getElem_of_mem hx
  rw [mapM_eq_ok] at hsegs
  have hseg := List.Forall₂.get hsegs (i := i) (by rw [hsegs.length_eq]; exact hi) hi
  simp only [py_bind_eq_ok, List.get_eq_getElem] at hseg
  obtain ⟨taus, -, f, -, t, ht, hx⟩ := hseg
  have htl := mapM_length ht
  split at hx
  · rw [py_pure_eq_ok] at hx
    rw [← hx]
    rfl
  · simp only [py_bind_eq_ok, py_pure_eq_ok] at hx
    obtain ⟨h, -, F, -, res, hres, hx⟩ := hx
    have := mapM_length hres
    rw [← hx]
    simp only [Option.getD_some]
    omega

theorem dynLoop_paired {e : Solved K} : ∀ (n ph : Nat) (gt : Option String) {res : List (List (List K) × List (SegResidual K))},
    e.dynLoop none false n ph gt = .ok res → res.length = n ∧ ∀ p ∈ res, Paired e.disc.nSegments p := by
  intro n
  induction n with
  | zero => intro ph gt res h; cases h; simp
  | succ n ih =>
    intro ph gt res h
    unfold Solved.dynLoop at h
    simp only [py_bind_eq_ok, py_pure_eq_ok] at h
    obtain ⟨g, -, r, hr, res1, hres, rest, hrest, rfl⟩ := h
    obtain ⟨i1, i2⟩ := ih _ _ hrest
    refine ⟨by simp [i1], fun p hp => ?_⟩
    rcases List.mem_cons.1 hp with rfl | hp
    · cases hres
      exact dynPhase_paired hr
    · exact i2 p hp

theorem Paired.lengths {n : Nat} {p : List (List K) × List (SegResidual K)} (h : Paired n p) (norm : List K → K) :
    p.2.length = n ∧ p.1.flatten.length = (normsOf norm p.2).length := by
  obtain ⟨h1, h2⟩ := h
  refine ⟨by rw [← h2.length_eq, h1], ?_⟩
  have : ∀ (a : List (List K)) (b : List (SegResidual K)), List.Forall₂ (fun t r => t.length = (Option.getD r []).length) a b →
      a.flatten.length = (normsOf norm b).length := by
    intro a b hab
    induction hab with
    | nil => rfl
    | cons h _ ih =>
      unfold normsOf at ih ⊢
      rw [List.flatten_cons, List.length_append, List.flatMap_cons, List.length_append, List.length_map, ih, h]
  exact this _ _ h2

theorem sort_first (norm : List K → K) {n : Nat} (hn : 0 < n) {p : List (List K) × List (SegResidual K)}
    {rest : List (List (List K) × List (SegResidual K))} (h : Paired n p) :
    sortResidualData norm ((p :: rest).map (·.1)) ((p :: rest).map (·.2)) [0] =
      .ok (normsOf norm p.2, p.1.flatten.map .num) := by
  obtain ⟨h1, h2⟩ := h.lengths norm
  have n1 : p.1 ≠ [] := by rintro h'; have := h.1; rw [h'] at this; simp at this; omega
  have n2 : p.2 ≠ [] := by rintro h'; rw [h'] at h1; simp at h1; omega
  unfold sortResidualData
  have e1 : pyIdx ((p :: rest).map (·.1)) 0 = .ok p.1 := rfl
  have e2 : pyIdx ((p :: rest).map (·.2)) 0 = .ok p.2 := rfl
  rw [e1, py_bind_ok, e2, py_bind_ok, normResidual_ok norm n2, py_bind_ok, if_neg (by simp), npConcat_ok n1]
  simp only [py_bind_ok, pure_bind, List.length_map]
  rw [if_pos h2.symm]
  rfl

theorem watchTics_at : ∀ c < 75, watchTics[c]? = some (evolutionTic true c) := by decide

/-- **C85** A drawing for at most one entry of `phases_to_plot` adds the residuals of phase 0 and nothing else, whatever phases the entry
names. -/
theorem C85_draw (norm : List K → K) {groups : List (List Nat)} (hg : groups.length ≤ 1) {slopes : Bool} {count : Nat}
    (hc : slopes = true → count < 75) {n : Nat} (hn : 0 < n) {p : List (List K) × List (SegResidual K)}
    {rest : List (List (List K) × List (SegResidual K))} (h : Paired n p) (ax : Option (Axes K)) :
    drawEvolution norm groups slopes count ((p :: rest).map (·.1)) ((p :: rest).map (·.2)) ax = .ok
      ⟨(ax.getD .empty).curves ++ evolutionCurves slopes count p.1.flatten (normsOf norm p.2), some "Time, s",
        some "residuals", true⟩ := by
  have hs := sort_first norm hn h (rest := rest)
  obtain ⟨-, h2⟩ := h.lengths norm
  have key : ∀ (name : Option String) (tic : String) (tics : List String) (ax : Option (Axes K)),
      plotResidualGroups norm ((p :: rest).map (·.1)) ((p :: rest).map (·.2)) groups name ax (tic :: tics) =
        .ok ⟨(ax.getD .empty).curves ++ [⟨p.1.flatten, normsOf norm p.2, tic, name.map fun n => n ++ " "⟩,
          ⟨p.1.flatten, normsOf norm p.2, "-", none⟩], some "Time, s", some "residuals",
          (ax.getD .empty).legend || name.isSome⟩ := by
    intro name tic tics ax
    unfold plotResidualGroups
    rw [if_neg (by omega), plotResiduals_on norm hs h2]
  have ht : (if slopes then do return List.replicate 15 (← pyIdx watchTics count) else .ok (strokes 15) : Py (List String)) =
      .ok (evolutionTic slopes count :: List.replicate 14 (evolutionTic slopes count)) := by
    cases slopes with
    | false => rfl
    | true =>
      rw [if_pos rfl, pyIdx_eq_ok.2 (watchTics_at count (hc rfl)), py_bind_ok]
      rfl
  unfold drawEvolution
  rw [ht, py_bind_ok, key, py_bind_ok, show strokes 15 = "-" :: strokes 14 from rfl, key]
  simp [evolutionCurves, List.replicate]

/-- **C85** With more entries every drawing raises `TypeError`. -/
theorem C85_draw_groups (norm : List K → K) {groups : List (List Nat)} (hg : 1 < groups.length) {slopes : Bool} {count : Nat}
    (hc : slopes = true → count < 75) {n : Nat} (hn : 0 < n) {p : List (List K) × List (SegResidual K)}
    {rest : List (List (List K) × List (SegResidual K))} (h : Paired n p) (ax : Option (Axes K)) :
    drawEvolution norm groups slopes count ((p :: rest).map (·.1)) ((p :: rest).map (·.2)) ax = .error .type := by
  obtain ⟨h1, -⟩ := h.lengths norm
  have n2 : p.2 ≠ [] := by rintro h'; rw [h'] at h1; simp at h1; omega
  have key : ∀ (name : Option String) (tics : List String) (ax : Option (Axes K)),
      plotResidualGroups norm ((p :: rest).map (·.1)) ((p :: rest).map (·.2)) groups name ax tics = .error .type := by
    intro name tics ax
    unfold plotResidualGroups
    have e1 : pyIdx ((p :: rest).map (·.1)) 0 = .ok p.1 := rfl
    have e2 : pyIdx ((p :: rest).map (·.2)) 0 = .ok p.2 := rfl
    rw [if_pos hg, e1, py_bind_ok, e2, py_bind_ok, normResidual_ok norm n2, py_bind_ok]
  unfold drawEvolution
  cases slopes with
  | false => rw [if_neg (by simp), py_bind_ok, key]; rfl
  | true => rw [if_pos rfl, pyIdx_eq_ok.2 (watchTics_at count (hc rfl)), py_bind_ok, pure_bind, key]; rfl

/-- **C85** The control-slope method runs out of markers at the 76th drawing within one call of `solve`. -/
theorem C85_draw_markers (norm : List K → K) (groups : List (List Nat)) {count : Nat} (hc : 75 ≤ count) (time : List (List (List K)))
    (residuals : List (List (SegResidual K))) (ax : Option (Axes K)) :
    drawEvolution norm groups true count time residuals ax = .error .index := by
  unfold drawEvolution
  have : pyIdx watchTics count = .error .index := by
    unfold pyIdx
    rw [List.getElem?_eq_none (by rw [show watchTics.length = 75 from by decide]; exact hc)]
  rw [if_pos rfl, this]
  rfl

/-- For an object with phases and segments, drawing succeeds or raises what computing the residuals does. -/
theorem HOpt.drawAt_cases (w : HOutside K V) (s : HOpt K V) (groups : List (List Nat)) {slopes : Bool} {n : Nat} (sol : PyDict V)
    (sw : List K) (hp : 0 < s.ocp.nPhases) (hn : 0 < s.nSegments) :
    (∃ err, (do let e ← s.solvedAt w sol sw; e.dynResiduals none none false : Py _) = .error err ∧
      ∀ ax, s.drawAt w groups slopes n sol sw ax = .error err) ∨
    ∃ e p rest, s.solvedAt w sol sw = .ok e ∧ e.dynResiduals none none false = .ok (p :: rest) ∧ Paired s.nSegments p ∧
      ∀ ax, s.drawAt w groups slopes n sol sw ax = drawEvolution w.norm groups slopes (n - 1) ((p :: rest).map (·.1))
        ((p :: rest).map (·.2)) ax := by
  unfold HOpt.drawAt
  cases h : s.solvedAt w sol sw with
  | error err => exact Or.inl ⟨err, rfl, fun _ => rfl⟩
  | ok e =>
    simp only [py_bind_ok]
    cases hr : e.dynResiduals none none false with
    | error err => exact Or.inl ⟨err, rfl, fun _ => rfl⟩
    | ok res =>
      obtain ⟨h1, h2⟩ := dynLoop_paired _ _ _ hr
      have hd : e.disc.ocp = s.ocp ∧ e.disc.nSegments = s.nSegments := by
        unfold HOpt.solvedAt at h
        simp only [py_bind_eq_ok] at h
        obtain ⟨d, hd, h⟩ := h
        obtain ⟨-, g1, g2, -⟩ := mkDisc_inv hd
        split at h
        · cases h
        · simp only [py_bind_eq_ok, py_pure_eq_ok] at h
          obtain ⟨z, -, rfl⟩ := h
          exact ⟨g1, g2⟩
      rw [hd.1] at h1
      rw [hd.2] at h2
      match res, h1 with
      | [], h1 => simp at h1; omega
      | p :: rest, _ => exact Or.inr ⟨e, p, rest, rfl, hr, h2 p (by simp), fun _ => rfl⟩

/-! ### The loop -/

section
variable {Sol W : Type} {E : HEnv K Sol W} {g : Nat → Sol → W → Py (W × Option K)}

theorem HEnv.widths_congr {m : Nat} (h : ∀ n ≤ m, ∀ s w, g n s w = E.refine n s w) {n : Nat} (hn : n ≤ m) (sol : Option Sol)
    (sw : Option W) : HEnv.widths { E with refine := g } n sol sw = E.widths n sol sw := by
  unfold HEnv.widths
  split
  · rfl
  · cases sol with
    | none => rfl
    | some s => simp only [h n hn]

theorem HEnv.before_calls (E : HEnv K Sol W) (i : Nat) (s : HState K Sol W) : (E.before i s).1.calls = s.calls := by
  unfold HEnv.before
  simp only
  repeat' split
  all_goals rfl

theorem HEnv.after_calls (E : HEnv K Sol W) (m i : Nat) (s : HState K Sol W) {s' : HState K Sol W} (h : E.after m i s = (s', .next)) :
    s'.calls.length = s.calls.length + 1 := by
  unfold HEnv.after at h
  split at h
  · simp at h
  · simp only at h
    split at h
    · simp at h
    · split at h
      · simp at h
      · split at h <;>
        · simp only [Prod.mk.injEq, and_true] at h
          rw [← h]; simp

theorem HEnv.after_calls_le (E : HEnv K Sol W) (m i : Nat) (s : HState K Sol W) :
    (E.after m i s).1.calls.length ≤ s.calls.length + 1 := by
  unfold HEnv.after
  split
  · exact Nat.le_succ _
  · dsimp only
    repeat' split
    all_goals simp

theorem HEnv.loop_congr {m : Nat} (h : ∀ n ≤ m, ∀ s w, g n s w = E.refine n s w) :
    ∀ (k i : Nat) (s : HState K Sol W), i + k ≤ m → s.calls.length = i →
      HEnv.loop { E with refine := g } m k i s = E.loop m k i s := by
  intro k
  induction k with
  | zero => intro i s _ _; rfl
  | succ k ih =>
    intro i s hi hs
    have hit : HEnv.iter { E with refine := g } m i s = E.iter m i s := by
      unfold HEnv.iter
      rw [show HEnv.before { E with refine := g } i s = E.before i s from rfl]
      have hc := E.before_calls i s
      rcases hb : E.before i s with ⟨s1, (_ | _ | e)⟩ <;> simp only
      rw [hb] at hc
      unfold HEnv.after
      simp only
      split
      · rfl
      · rw [HEnv.widths_congr h (by simp only [List.length_append, List.length_singleton]; rw [hc]; omega)]
        rfl
    unfold HEnv.loop
    rw [hit]
    rcases hr : E.iter m i s with ⟨s1, (_ | _ | e)⟩ <;> simp only
    refine ih _ _ (by omega) ?_
    unfold HEnv.iter at hr
    have hc := E.before_calls i s
    rcases hb : E.before i s with ⟨s2, (_ | _ | e)⟩ <;> rw [hb] at hr hc <;> simp only at hr
    · rw [E.after_calls m i s2 hr, hc, hs]
    · cases hr
    · cases hr

theorem HEnv.solve_congr {m : Nat} (h : ∀ n ≤ m, ∀ s w, g n s w = E.refine n s w) (initial : Option Sol) (sw : Option W) :
    HEnv.solve { E with refine := g } initial sw m = E.solve initial sw m := by
  unfold HEnv.solve
  rw [HEnv.widths_congr h (Nat.zero_le _)]
  split
  · rfl
  · dsimp only
    rw [HEnv.loop_congr h m 0 _ (by omega) rfl]
    rfl

/-- When the widths for the first solution cannot be computed, `solve` raises that error. -/
theorem HEnv.solve_first (hn : E.nSegments ≠ 1) (sw : Option W) (m : Nat) {sol : Sol} {e : PyErr}
    (hs : E.solver 0 none E.dflt = .ok sol) (hr : E.refine 1 sol E.dflt = .error e) : (E.solve none sw (m + 1)).2 = .error e := by
  have h0 : E.widths 0 none sw = .ok (sw, E.dflt, none) := by unfold HEnv.widths; rw [if_neg hn]
  have h1 : E.widths 1 (some sol) (some E.dflt) = .error e := by
    unfold HEnv.widths
    rw [if_neg hn]
    simp only [Option.getD_some, hr]
    rfl
  simp [HEnv.solve, h0, HEnv.accepts, HEnv.loop, HEnv.iter, HEnv.before, HEnv.after, hs, h1]

theorem HEnv.solve_first_fails (hn : E.nSegments ≠ 1) (sw : Option W) (m : Nat) {e : PyErr}
    (hs : E.solver 0 none E.dflt = .error e) : (E.solve none sw (m + 1)).2 = .error e := by
  have h0 : E.widths 0 none sw = .ok (sw, E.dflt, none) := by unfold HEnv.widths; rw [if_neg hn]
  simp [HEnv.solve, h0, HEnv.accepts, HEnv.loop, HEnv.iter, HEnv.before, HEnv.after, hs]

theorem HEnv.solve_given_fails (hn : E.nSegments ≠ 1) (sw : Option W) (m : Nat) {sol : Sol} {e : PyErr}
    (hr : E.refine 0 sol (sw.getD E.dflt) = .error e) : (E.solve (some sol) sw m).2 = .error e := by
  have h1 : E.widths 0 (some sol) sw = .error e := by
    unfold HEnv.widths
    rw [if_neg hn]
    simp only [hr]
    rfl
  simp [HEnv.solve, h1]

/-- Where widths can never be computed, `solve` never returns. -/
theorem HEnv.solve_raises (hn : E.nSegments ≠ 1) (h : ∀ n s w, ∃ e, E.refine n s w = .error e) (initial : Option Sol)
    (sw : Option W) (m : Nat) : ∃ e, (E.solve initial sw m).2 = .error e := by
  cases initial with
  | some s =>
    obtain ⟨e, he⟩ := h 0 s (sw.getD E.dflt)
    exact ⟨e, HEnv.solve_given_fails hn sw m he⟩
  | none =>
    cases m with
    | zero =>
      have h0 : E.widths 0 none sw = .ok (sw, E.dflt, none) := by unfold HEnv.widths; rw [if_neg hn]
      exact ⟨.unboundLocal, by simp [HEnv.solve, h0, HEnv.accepts, HEnv.loop]⟩
    | succ m =>
      cases hs : E.solver 0 none E.dflt with
      | error e => exact ⟨e, HEnv.solve_first_fails hn sw m hs⟩
      | ok sol =>
        obtain ⟨e, he⟩ := h 1 sol E.dflt
        exact ⟨e, HEnv.solve_first hn sw m hs he⟩

theorem HEnv.before_next (E : HEnv K Sol W) (i : Nat) (s : HState K Sol W) {s' : HState K Sol W} (h : E.before i s = (s', .next)) :
    s'.sw = some s'.newSw := by
  unfold HEnv.before at h
  simp only at h
  repeat' split at h
  all_goals first
    | (cases h; rfl)
    | cases h

/-- Widths were computed for every solution in the list. -/
def HEnv.Computed (E : HEnv K Sol W) (calls : List (HCall Sol W)) : Prop :=
  ∀ j c, calls[j]? = some c → ∃ r, E.refine (j + 1) c.result c.p = .ok r

theorem HEnv.iter_computed (hn : E.nSegments ≠ 1) {m i : Nat} {s s' : HState K Sol W} {f : Flow} (hf : ∀ e, f ≠ .raise e)
    (h : E.iter m i s = (s', f)) (hs : E.Computed s.calls) : E.Computed s'.calls := by
  unfold HEnv.iter at h
  have hc := E.before_calls i s
  rcases hb : E.before i s with ⟨s1, (_ | _ | e)⟩ <;> rw [hb] at h hc <;> simp only at h hc
  · have hsw := E.before_next i s hb
    unfold HEnv.after at h
    simp only at h
    split at h
    · cases h; exact absurd rfl (hf _)
    · rename_i sol hsol
      split at h
      · cases h; exact absurd rfl (hf _)
      · rename_i sw new err hw
        have hcalls : s'.calls = s.calls ++ [⟨s1.init, s1.newSw, sol⟩] := by
          rw [← hc]
          split at h
          · cases h; rfl
          · split at h <;> · cases h; rfl
        rw [hcalls]
        intro j c hj
        rcases Nat.lt_trichotomy j s.calls.length with hl | hl | hl
        · rw [List.getElem?_append_left hl] at hj
          exact hs j c hj
        · subst hl
          rw [List.getElem?_append_right (Nat.le_refl _), Nat.sub_self] at hj
          simp only [List.getElem?_cons_zero, Option.some.injEq] at hj
          subst hj
          unfold HEnv.widths at hw
          rw [if_neg hn, hsw] at hw
          simp only [Option.getD_some, py_bind_eq_ok, List.length_append, List.length_singleton, hc] at hw
          obtain ⟨r, hr, -⟩ := hw
          exact ⟨r, hr⟩
        · rw [List.getElem?_eq_none (by simp; omega)] at hj
          cases hj
  · cases h; rw [hc]; exact hs
  · cases h; exact absurd rfl (hf _)

theorem HEnv.loop_computed (hn : E.nSegments ≠ 1) {m : Nat} : ∀ (k i : Nat) (s s' : HState K Sol W),
    E.loop m k i s = (s', none) → E.Computed s.calls → E.Computed s'.calls := by
  intro k
  induction k with
  | zero => intro i s s' h hs; cases h; exact hs
  | succ k ih =>
    intro i s s' h hs
    unfold HEnv.loop at h
    rcases hi : E.iter m i s with ⟨s1, (_ | _ | e)⟩ <;> rw [hi] at h <;> simp only at h
    · exact ih _ _ _ h (HEnv.iter_computed hn (by simp) hi hs)
    · cases h
      exact HEnv.iter_computed hn (by simp) hi hs
    · cases h

/-- When `solve` returns, widths were computed for every solution. -/
theorem HEnv.solve_computed (hn : E.nSegments ≠ 1) {initial : Option Sol} {sw : Option W} {m : Nat} {st : HState K Sol W} {sol : Sol}
    (h : E.solve initial sw m = (st, .ok sol)) :
    (∀ s0, initial = some s0 → ∃ r, E.refine 0 s0 (sw.getD E.dflt) = .ok r) ∧ E.Computed st.calls := by
  refine ⟨?_, ?_⟩
  · rintro s0 rfl
    cases hr : E.refine 0 s0 (sw.getD E.dflt) with
    | ok r => exact ⟨r, rfl⟩
    | error e =>
      have := HEnv.solve_given_fails hn sw m hr
      rw [h] at this
      cases this
  · unfold HEnv.solve at h
    split at h
    · cases h
    · dsimp only at h
      split at h
      · have h1 := congrArg Prod.fst h
        simp only at h1
        rw [← h1]
        intro j c hj
        simp at hj
      · rename_i sw' new err _ _
        rcases hl : E.loop m m 0 ⟨sw', none, new, err, initial, none, 0, [], []⟩ with ⟨s1, (_ | e)⟩ <;> rw [hl] at h
        · have := HEnv.loop_computed hn _ _ _ _ hl (fun j c hj => by simp at hj)
          have h1 := congrArg Prod.fst h
          simp only at h1
          rw [← h1]
          exact this
        · simp at h

/-- If computing widths fails after `b + 1` solver calls, a run that would make more and return raises the error. -/
theorem HEnv.loop_cut {b : Nat} {err : PyErr} (hn : E.nSegments ≠ 1) (h : ∀ n ≤ b, ∀ s w, g n s w = E.refine n s w)
    (hb : ∀ s w r, E.refine (b + 1) s w = .ok r → g (b + 1) s w = .error err) {m : Nat} : ∀ (k i : Nat) (s : HState K Sol W), s.calls.length = i → i ≤ b →
      b < (E.loop m k i s).1.calls.length → (E.loop m k i s).2 = none →
      (HEnv.loop { E with refine := g } m k i s).2 = some err := by
  intro k
  induction k with
  | zero => intro i s hs hi hc; unfold HEnv.loop at hc; simp only at hc; omega
  | succ k ih =>
    intro i s hs hi hc ho
    unfold HEnv.loop at hc ho ⊢
    unfold HEnv.iter at hc ho ⊢
    rw [show HEnv.before { E with refine := g } i s = E.before i s from rfl]
    have hcb := E.before_calls i s
    rcases hbf : E.before i s with ⟨s1, (_ | _ | e)⟩ <;> rw [hbf] at hc ho hcb <;> simp only at hc ho hcb ⊢
    · cases hsol : E.solver s1.calls.length s1.init s1.newSw with
      | error e =>
        simp only [HEnv.after, hsol] at hc
        rw [hcb] at hc; omega
      | ok sol =>
        by_cases hib : i = b
        · have hl : ∀ a : HCall Sol W, (s1.calls ++ [a]).length = b + 1 := by intro a; simp [hcb, hs, hib]
          cases hr : E.refine (b + 1) sol (s1.sw.getD E.dflt) with
          | error e =>
            have hw : E.widths (b + 1) (some sol) s1.sw = .error e := by
              unfold HEnv.widths
              rw [if_neg hn]
              simp only [hr]
              rfl
            simp [HEnv.after, hsol, hl, hw] at ho
          | ok r =>
            have hw : HEnv.widths { E with refine := g } (b + 1) (some sol) s1.sw = .error err := by
              unfold HEnv.widths
              rw [if_neg (by exact hn)]
              simp only [hb _ _ _ hr]
              rfl
            simp only [HEnv.after, hsol, hl, hw]
        · have ha : HEnv.after { E with refine := g } m i s1 = E.after m i s1 := by
            unfold HEnv.after
            simp only
            split
            · rfl
            · rw [HEnv.widths_congr h (by simp only [List.length_append, List.length_singleton]; rw [hcb]; omega)]
              rfl
          rw [ha]
          rcases hr : E.after m i s1 with ⟨s2, (_ | _ | e)⟩ <;> rw [hr] at hc ho <;> simp only at hc ho ⊢
          · exact ih _ _ (by rw [E.after_calls m i s1 hr, hcb, hs]) (by omega) hc ho
          all_goals
            exfalso
            have := E.after_calls_le m i s1
            rw [hr, hcb] at this
            simp only at this
            omega
    all_goals rw [hcb] at hc; omega

end

theorem forall₂_append {α β : Type} {R : α → β → Prop} : ∀ {a b : List α} {c : List β}, List.Forall₂ R (a ++ b) c →
    ∃ c1 c2, List.Forall₂ R a c1 ∧ List.Forall₂ R b c2 ∧ c = c1 ++ c2
  | [], b, c, h => ⟨[], c, .nil, h, rfl⟩
  | x :: a, b, c, h => by
    cases h with
    | cons h1 h2 =>
      obtain ⟨c1, c2, i1, i2, rfl⟩ := forall₂_append h2
      exact ⟨_, c2, .cons h1 i1, i2, rfl⟩

/-! ### The watched loop -/

section
variable [FloorRing K] {w : HOutside K V} {nlpsol : Nat → SolverCall K V → Py (PyDict V)} {s : HOpt K V}

theorem HOpt.env_ok {method : PyDict String} {E : HEnv K (PyDict V) (List K)} (h : s.env w nlpsol method = .ok E) :
    0 < s.nSegments ∧ E.nSegments = s.nSegments ∧ (∀ n sol sw, E.refine n sol sw =
      (s.config w method).refine (s.probe w method sol sw) sw) := by
  unfold HOpt.env HConfig.env at h
  split at h
  · cases h
  · rename_i h0
    split at h
    · cases h
    · cases h
      exact ⟨Nat.pos_of_ne_zero h0, rfl, fun _ _ _ => rfl⟩

/-- Both methods look at the residuals first. -/
theorem HConfig.refine_error {C : HConfig K} {b : Bool} (h : watchMethod C.options = some b) {P : Py (Probe K)} {e : PyErr}
    (hP : P = .error e) (sw : List K) : C.refine P sw = .error e := by
  unfold watchMethod at h
  unfold HConfig.refine
  subst hP
  split at h <;> rename_i hm <;> simp only [hm]
  · rfl
  · rfl
  · cases h

theorem HOpt.probe_error {method : PyDict String} {sol : PyDict V} {sw : List K} {e : PyErr}
    (h : (do let e ← s.solvedAt w sol sw; e.dynResiduals none none false : Py _) = .error e) : s.probe w method sol sw = .error e := by
  unfold HOpt.probe
  cases h1 : s.solvedAt w sol sw with
  | error e1 => rw [h1] at h; cases h; rfl
  | ok x =>
    rw [h1, py_bind_ok] at h
    rw [py_bind_ok, h]
    rfl

/-- The figure is drawn without raising, or computing the widths would raise the same. -/
theorem HOpt.watch_refine {groups : List (List Nat)} (hg : groups.length ≤ 1) (hp : 0 < s.ocp.nPhases) {method : PyDict String}
    {E : HEnv K (PyDict V) (List K)} (h : s.env w nlpsol method = .ok E) {slopes : Bool} (hm : watchMethod method = some slopes)
    {n : Nat} (hc : slopes = true → n ≤ 75) (sol : PyDict V) (sw : List K) :
    (do let _ ← s.drawAt w groups slopes n sol sw none; E.refine n sol sw : Py _) = E.refine n sol sw := by
  obtain ⟨hn, -, hr⟩ := HOpt.env_ok h
  rcases HOpt.drawAt_cases w s groups sol sw hp hn (slopes := slopes) (n := n) with ⟨err, h1, h2⟩ | ⟨e, p, rest, -, -, h3, h4⟩
  · rw [h2, hr, HConfig.refine_error hm (HOpt.probe_error h1)]
    rfl
  · rw [h4, C85_draw w.norm hg (fun hs => by have := hc hs; omega) hn h3]
    rfl

theorem HOpt.createSolver_same (plugin : String) (options : PyDict V) :
    (s.createSolver w plugin options).1.ocp = s.ocp ∧ (s.createSolver w plugin options).1.nSegments = s.nSegments ∧
      (s.createSolver w plugin options).1.widths = s.widths ∧
      ∀ sol sw, (s.createSolver w plugin options).1.solvedAt w sol sw = s.solvedAt w sol sw := by
  unfold HOpt.createSolver
  split
  · exact ⟨rfl, rfl, rfl, fun _ _ => rfl⟩
  · dsimp only
    split <;> exact ⟨rfl, rfl, rfl, fun _ _ => rfl⟩

/-- The object the loop runs on. -/
def HOpt.begun (w : HOutside K V) (s : HOpt K V) (a : HArgs V) : HOpt K V × Py Unit :=
  if s.initialized = false ∨ a.reinitialize = true
    then s.createSolver w a.plugin (hSolverDict w.zero a.options) else (s, .ok ())

theorem HOpt.begun_same (w : HOutside K V) (s : HOpt K V) (a : HArgs V) :
    (s.begun w a).1.ocp = s.ocp ∧ (s.begun w a).1.nSegments = s.nSegments ∧ (s.begun w a).1.widths = s.widths ∧
      ∀ sol sw, (s.begun w a).1.solvedAt w sol sw = s.solvedAt w sol sw := by
  unfold HOpt.begun
  split
  · exact HOpt.createSolver_same _ _
  · exact ⟨rfl, rfl, rfl, fun _ _ => rfl⟩

theorem HOpt.watchEnv_eq {groups : List (List Nat)} {method : PyDict String} {E : HEnv K (PyDict V) (List K)}
    (h : s.env w nlpsol method = .ok E) {slopes : Bool} (hm : watchMethod method = some slopes) :
    s.watchEnv w nlpsol groups method = .ok { E with refine := fun n sol sw => do
      let _ ← s.drawAt w groups slopes n sol sw none
      E.refine n sol sw } := by
  unfold HOpt.watchEnv
  rw [h, py_bind_ok, hm]
  rfl

/-- **C85** With at most one entry in `phases_to_plot`, watching changes neither the result nor the object — unless the control-slope
method may iterate more than 75 times. -/
theorem C85_unchanged {groups : List (List Nat)} (hg : groups.length ≤ 1) (hp : 0 < s.ocp.nPhases) (ax : Option (Axes K)) (a : HArgs V)
    (hm : watchMethod (hMethodDict a.method) = some true → a.maxIter ≤ 75) :
    (s.solveWatched w nlpsol groups ax a).1 = (s.solve w nlpsol a).1 ∧
      (s.solveWatched w nlpsol groups ax a).2.2 = (s.solve w nlpsol a).2 := by
  obtain ⟨b1, b2, -⟩ := s.begun_same w a
  unfold HOpt.solveWatched HOpt.solve
  rw [show (if s.initialized = false ∨ a.reinitialize = true
    then s.createSolver w a.plugin (hSolverDict w.zero a.options) else (s, .ok ())) = s.begun w a from rfl]
  generalize s.begun w a = q at b1 b2
  obtain ⟨s1, r⟩ := q
  cases r with
  | error e => exact ⟨rfl, rfl⟩
  | ok _ =>
    simp only at b1 b2 ⊢
    cases hE : s1.env w nlpsol (hMethodDict a.method) with
    | error e =>
      have : s1.watchEnv w nlpsol groups (hMethodDict a.method) = .error e := by unfold HOpt.watchEnv; rw [hE]; rfl
      rw [this]
      exact ⟨rfl, rfl⟩
    | ok E =>
      cases hw : watchMethod (hMethodDict a.method) with
      | none =>
        have : s1.watchEnv w nlpsol groups (hMethodDict a.method) = .ok E := by
          unfold HOpt.watchEnv
          rw [hE, py_bind_ok, hw]
          rfl
        rw [this]
        exact ⟨rfl, rfl⟩
      | some slopes =>
        rw [HOpt.watchEnv_eq hE hw]
        simp only
        rw [HEnv.solve_congr (E := E) (m := a.maxIter) fun n hn sol sw =>
          HOpt.watch_refine hg (by rw [b1]; exact hp) hE hw (fun hs => by subst hs; exact hn.trans (hm hw)) sol sw]
        exact ⟨rfl, rfl⟩

/-- **C85** With two or more entries, no watched run with one of the two methods and several segments returns. -/
theorem C85_groups {groups : List (List Nat)} (hg : 1 < groups.length) (hp : 0 < s.ocp.nPhases) (hn : s.nSegments ≠ 1)
    (ax : Option (Axes K)) (a : HArgs V) {slopes : Bool} (hm : watchMethod (hMethodDict a.method) = some slopes) :
    ∃ e, (s.solveWatched w nlpsol groups ax a).2.2 = .error e := by
  obtain ⟨b1, b2, -⟩ := s.begun_same w a
  unfold HOpt.solveWatched
  rw [show (if s.initialized = false ∨ a.reinitialize = true
    then s.createSolver w a.plugin (hSolverDict w.zero a.options) else (s, .ok ())) = s.begun w a from rfl]
  generalize s.begun w a = q at b1 b2
  obtain ⟨s1, r⟩ := q
  cases r with
  | error e => exact ⟨e, rfl⟩
  | ok _ =>
    simp only at b1 b2 ⊢
    cases hE : s1.env w nlpsol (hMethodDict a.method) with
    | error e =>
      have : s1.watchEnv w nlpsol groups (hMethodDict a.method) = .error e := by unfold HOpt.watchEnv; rw [hE]; rfl
      rw [this]
      exact ⟨e, rfl⟩
    | ok E =>
      rw [HOpt.watchEnv_eq hE hm]
      obtain ⟨h0, h1, -⟩ := HOpt.env_ok hE
      refine HEnv.solve_raises (by simpa [h1, b2] using hn) (fun n sol sw => ?_) _ _ _
      simp only
      rcases HOpt.drawAt_cases w s1 groups sol sw (by rw [b1]; exact hp) h0 (slopes := slopes) (n := n) with
        ⟨err, -, h2⟩ | ⟨e, p, rest, -, -, h3, h4⟩
      · rw [h2]; exact ⟨err, rfl⟩
      · rw [h4]
        by_cases hc : slopes = true ∧ 75 ≤ n - 1
        · rw [hc.1, C85_draw_markers w.norm groups hc.2]
          exact ⟨_, rfl⟩
        · rw [C85_draw_groups w.norm hg (fun hs => by by_contra h'; exact hc ⟨hs, by omega⟩) h0 h3]
          exact ⟨_, rfl⟩

/-- What is drawn for a solution with widths `sw` as number `count`. -/
def HOpt.Shows (w : HOutside K V) (s : HOpt K V) (slopes : Bool) (count : Nat) (sol : PyDict V) (sw : List K) (cs : List (Curve K)) :
    Prop :=
  ∃ e p rest, s.solvedAt w sol sw = .ok e ∧ e.dynResiduals none none false = .ok (p :: rest) ∧
    cs = evolutionCurves slopes count p.1.flatten (normsOf w.norm p.2)

theorem HOpt.evolution_shows {groups : List (List Nat)} {method : PyDict String} {slopes : Bool}
    (hm : watchMethod method = some slopes) : ∀ (draws : List (Nat × PyDict V × List K)) (ax : Option (Axes K)),
      (∀ d ∈ draws, ∃ cs, s.Shows w slopes (d.1 - 1) d.2.1 d.2.2 cs ∧ ∀ ax : Option (Axes K), s.drawAt w groups slopes d.1 d.2.1 d.2.2 ax =
        .ok ⟨(ax.getD .empty).curves ++ cs, some "Time, s", some "residuals", true⟩) →
      ∃ css : List (List (Curve K)), List.Forall₂ (fun d cs => s.Shows w slopes (d.1 - 1) d.2.1 d.2.2 cs) draws css ∧
        ((s.evolution w groups method draws ax).getD .empty).curves = (ax.getD .empty).curves ++ css.flatten := by
  intro draws
  unfold HOpt.evolution
  rw [hm]
  simp only
  induction draws with
  | nil => intro ax _; exact ⟨[], .nil, by simp⟩
  | cons d draws ih =>
    intro ax h
    obtain ⟨cs, h1, h2⟩ := h d (by simp)
    obtain ⟨css, i1, i2⟩ := ih (some ⟨(ax.getD .empty).curves ++ cs, some "Time, s", some "residuals", true⟩)
      fun d hd => h d (by simp [hd])
    refine ⟨cs :: css, .cons h1 i1, ?_⟩
    rw [List.foldl_cons, h2]
    simp only
    rw [i2]
    simp

/-- **C85** The figure after a run that returned. Nothing that was there before is lost. For an initial solution and for the result
of every solver call there is one group of lines, in this order; the one for an initial solution has number 0, and the one for call
`j` has number `j`, so that two groups are called "Iter 0" when an initial solution is given. Each group shows the first phase of the
problem only. -/
theorem C85_figure {groups : List (List Nat)} (hg : groups.length ≤ 1) (hp : 0 < s.ocp.nPhases) (hn : s.nSegments ≠ 1)
    (ax : Option (Axes K)) (a : HArgs V) {slopes : Bool} (hm : watchMethod (hMethodDict a.method) = some slopes)
    (hi : slopes = true → a.maxIter ≤ 75) {s' : HOpt K V} {ax' : Option (Axes K)} {sol : PyDict V}
    (h : s.solveWatched w nlpsol groups ax a = (s', ax', .ok sol)) :
    ∃ E st first rest, (s.begun w a).1.env w nlpsol (hMethodDict a.method) = .ok E ∧ E.solve a.initial s.widths a.maxIter = (st, .ok sol) ∧
      (a.initial = none → first = []) ∧
      (∀ s0, a.initial = some s0 → s.Shows w slopes 0 s0 (s.widths.getD E.dflt) first) ∧
      List.length rest = st.calls.length ∧
      (∀ j c, st.calls[j]? = some c → ∃ cs, rest[j]? = some cs ∧ s.Shows w slopes j c.result c.p cs) ∧
      (ax'.getD .empty).curves = (ax.getD .empty).curves ++ first ++ rest.flatten := by
  obtain ⟨b1, b2, b3, b4⟩ := s.begun_same w a
  unfold HOpt.solveWatched at h
  rw [show (if s.initialized = false ∨ a.reinitialize = true
    then s.createSolver w a.plugin (hSolverDict w.zero a.options) else (s, .ok ())) = s.begun w a from rfl] at h
  generalize s.begun w a = q at b1 b2 b3 b4 h
  obtain ⟨s1, r⟩ := q
  cases r with
  | error e => cases h
  | ok _ =>
    simp only at b1 b2 b3 b4 h ⊢
    cases hE : s1.env w nlpsol (hMethodDict a.method) with
    | error e =>
      have : s1.watchEnv w nlpsol groups (hMethodDict a.method) = .error e := by unfold HOpt.watchEnv; rw [hE]; rfl
      rw [this] at h
      cases h
    | ok E =>
      obtain ⟨h0, h1, hr⟩ := HOpt.env_ok hE
      have hn' : E.nSegments ≠ 1 := by rw [h1, b2]; exact hn
      rw [HOpt.watchEnv_eq hE hm] at h
      simp only at h
      rw [HEnv.solve_congr (E := E) (m := a.maxIter) fun n hn sol sw =>
        HOpt.watch_refine hg (by rw [b1]; exact hp) hE hm (fun hs => hn.trans (hi hs)) sol sw] at h
      rcases hsol : E.solve a.initial s1.widths a.maxIter with ⟨st, r⟩
      rw [hsol] at h
      simp only [Prod.mk.injEq] at h
      obtain ⟨-, hax, rfl⟩ := h
      obtain ⟨c1, c2⟩ := HEnv.solve_computed hn' hsol
      have hlen : st.calls.length ≤ a.maxIter := by
        have := (C36_consistent_pair E a.initial s1.widths a.maxIter).1
        rwa [hsol] at this
      have draw : ∀ n sol sw, (slopes = true → n ≤ 75) → (∃ r, E.refine n sol sw = .ok r) → ∃ cs, s1.Shows w slopes (n - 1) sol sw cs ∧
          ∀ ax : Option (Axes K), s1.drawAt w groups slopes n sol sw ax =
            .ok ⟨(ax.getD .empty).curves ++ cs, some "Time, s", some "residuals", true⟩ := by
        rintro n sol sw hb ⟨r, hr1⟩
        rcases HOpt.drawAt_cases w s1 groups sol sw (by rw [b1]; exact hp) h0 (slopes := slopes) (n := n) with
          ⟨err, h1, -⟩ | ⟨e, p, rest, g1, g2, h3, h4⟩
        · rw [hr, HConfig.refine_error hm (HOpt.probe_error h1)] at hr1
          cases hr1
        · refine ⟨_, ⟨e, p, rest, g1, g2, rfl⟩, fun ax => ?_⟩
          rw [h4, C85_draw w.norm hg (fun hs => by have := hb hs; omega) h0 h3]
      have draws : ∀ d ∈ evolutionDraws E.nSegments E.dflt a.initial s1.widths st.calls,
          ∃ cs, s1.Shows w slopes (d.1 - 1) d.2.1 d.2.2 cs ∧ ∀ ax : Option (Axes K), s1.drawAt w groups slopes d.1 d.2.1 d.2.2 ax =
            .ok ⟨(ax.getD .empty).curves ++ cs, some "Time, s", some "residuals", true⟩ := by
        intro d hd
        unfold evolutionDraws at hd
        rw [if_neg hn', List.mem_append] at hd
        rcases hd with hd | hd
        · cases hi0 : a.initial with
          | none => rw [hi0] at hd; cases hd
          | some s0 =>
            rw [hi0] at hd
            simp only [List.mem_singleton] at hd
            subst hd
            exact draw _ _ _ (fun _ => by omega) (c1 s0 hi0)
        · rw [List.mem_map] at hd
          obtain ⟨⟨c, j⟩, hc, rfl⟩ := hd
          rw [List.mk_mem_zipIdx_iff_getElem?] at hc
          have hj : j < st.calls.length := (List.getElem?_eq_some_iff.1 hc).1
          exact draw _ _ _ (fun hs => by have := hi hs; omega) (c2 j c hc)
      obtain ⟨css, k1, k2⟩ := HOpt.evolution_shows hm _ ax draws
      rw [hax] at k2
      unfold evolutionDraws at k1
      rw [if_neg hn'] at k1
      obtain ⟨first, rest, f1, f2, rfl⟩ := forall₂_append k1
      have hsh : ∀ count sol sw cs, s1.Shows w slopes count sol sw cs → s.Shows w slopes count sol sw cs := by
        rintro count sol sw cs ⟨e, p, rest, h1, h2⟩
        exact ⟨e, p, rest, by rw [← b4]; exact h1, h2⟩
      refine ⟨E, st, first.flatten, rest, rfl, by rw [← b3]; exact hsol, ?_, ?_, ?_, ?_, ?_⟩
      · intro hi0
        rw [hi0] at f1
        cases f1
        rfl
      · intro s0 hi0
        rw [hi0] at f1
        cases f1 with
        | cons h1 h2 =>
          cases h2
          rw [← b3]
          simpa using hsh _ _ _ _ h1
      · rw [← f2.length_eq]; simp
      · intro j c hj
        have hjl : j < st.calls.length := (List.getElem?_eq_some_iff.1 hj).1
        have hl : j < rest.length := by rw [← f2.length_eq]; simpa using hjl
        refine ⟨rest[j], List.getElem?_eq_getElem hl, hsh _ _ _ _ ?_⟩
        have := f2.get (i := j) (by simpa using hjl) hl
        simp only [List.get_eq_getElem, List.getElem_map, List.getElem_zipIdx, zero_add, Nat.add_sub_cancel] at this
        rw [(List.getElem?_eq_some_iff.1 hj).2] at this
        exact this
      · rw [k2]
        simp [List.append_assoc]

/-- **C85** A run of the control-slope method that returns after more than 75 solver calls raises `IndexError` when it is
watched. -/
theorem C85_markers {groups : List (List Nat)} (hg : groups.length ≤ 1) (hp : 0 < s.ocp.nPhases) (hn : s.nSegments ≠ 1)
    (ax : Option (Axes K)) (a : HArgs V) (hm : watchMethod (hMethodDict a.method) = some true) {E : HEnv K (PyDict V) (List K)}
    (hE : (s.begun w a).1.env w nlpsol (hMethodDict a.method) = .ok E) {sol : PyDict V} (hr : (s.solve w nlpsol a).2 = .ok sol)
    (hc : 75 < (E.solve a.initial s.widths a.maxIter).1.calls.length) :
    (s.solveWatched w nlpsol groups ax a).2.2 = .error .index := by
  obtain ⟨b1, b2, b3, -⟩ := s.begun_same w a
  unfold HOpt.solveWatched
  unfold HOpt.solve at hr
  rw [show (if s.initialized = false ∨ a.reinitialize = true
    then s.createSolver w a.plugin (hSolverDict w.zero a.options) else (s, .ok ())) = s.begun w a from rfl] at hr ⊢
  rw [← b3] at hc
  generalize s.begun w a = q at b1 b2 b3 hE hc hr
  obtain ⟨s1, r⟩ := q
  cases r with
  | error e => cases hr
  | ok _ =>
    simp only at b1 b2 hE hc hr ⊢
    rw [hE] at hr
    simp only at hr
    obtain ⟨h0, h1, hf⟩ := HOpt.env_ok hE
    have hn' : E.nSegments ≠ 1 := by rw [h1, b2]; exact hn
    rw [HOpt.watchEnv_eq hE hm]
    simp only
    have key : ∀ n ≤ 75, ∀ sol sw, (do let _ ← s1.drawAt w groups true n sol sw none; E.refine n sol sw : Py _) = E.refine n sol sw :=
      fun n hn sol sw => HOpt.watch_refine hg (by rw [b1]; exact hp) hE hm (fun _ => hn) sol sw
    unfold HEnv.solve at hc hr ⊢
    rw [HEnv.widths_congr (E := E) (m := 75) key (Nat.zero_le _)]
    split at hr
    · cases hr
    · dsimp only at hr ⊢
      rename_i sw new err hw
      rw [hw] at hc
      dsimp only at hc
      have ha : E.accepts err = false := by
        cases ha : E.accepts err with
        | false => rfl
        | true => rw [if_pos ha] at hc; simp at hc
      rw [ha] at hr hc
      simp only [Bool.false_eq_true, if_false] at hr hc
      rw [show HEnv.accepts { E with refine := fun n sol sw => do
        let _ ← s1.drawAt w groups true n sol sw none
        E.refine n sol sw } err = E.accepts err from rfl, ha]
      simp only [Bool.false_eq_true, if_false]
      have hl : (E.loop a.maxIter a.maxIter 0 ⟨sw, none, new, err, a.initial, none, 0, [], []⟩).2 = none := by
        cases hl : (E.loop a.maxIter a.maxIter 0 ⟨sw, none, new, err, a.initial, none, 0, [], []⟩).2 with
        | none => rfl
        | some e => rw [hl] at hr; cases hr
      rw [HEnv.loop_cut (E := E) (b := 75) (err := .index) hn' key (fun sol sw r hr1 => ?_) _ 0 _ rfl (by omega) hc hl]
      rcases HOpt.drawAt_cases w s1 groups sol sw (by rw [b1]; exact hp) h0 (slopes := true) (n := 76) with
        ⟨err, h1, -⟩ | ⟨e, p, rest, -, -, -, h4⟩
      · rw [hf, HConfig.refine_error hm (HOpt.probe_error h1)] at hr1
        cases hr1
      · rw [h4, C85_draw_markers w.norm groups (by omega)]
        rfl

end

/-! ### What the lines mean -/

/-- **C85** The sizes are norms of `scale_x` times the defect of the trajectory at the check points of phase 0, and the times are those of
these points. -/
theorem C85_meaning [IsStrictOrderedRing K] {e : Solved K} {M : Mesh K} (h : e.Ready M) (norm : List K → K) {g : String} (h0 : e.gridType[0]? = some g)
    {grids : List (List (List K))} (hg : GridsFor e (fun _ => some g) grids) (hn : GridShape M e.disc.ocp.nPhases grids)
    (F : Nat → VFun (PArg K) K) (hF : ∀ ph < e.disc.ocp.nPhases, e.disc.ocp.dynamics[ph]? = some (F ph)) (hp : 0 < e.disc.ocp.nPhases)
    {p : List (List K) × List (SegResidual K)} {rest : List (List (List K) × List (SegResidual K))}
    (hr : e.dynResiduals none none false = .ok (p :: rest)) :
    p.1.flatten = ((List.range M.orders.length).flatMap fun s => ((grids.getD 0 []).getD s []).map fun tau => M.time e.traj 0 s tau) ∧
      normsOf norm p.2 = (List.range M.orders.length).flatMap fun s => ((grids.getD 0 []).getD s []).map fun tau =>
        norm ((List.range e.disc.ocp.nx).map fun j => e.disc.ocp.scaleX.getD j 0 * e.disc.ocp.defect M e.traj (F 0) 0 s tau j) := by
  rw [C30_same_as_phase_zero e false h0 hp, C29_default_grid hg false none, C29_residual_is_defect h hn none F hF] at hr
  obtain ⟨n, hn'⟩ : ∃ n, e.disc.ocp.nPhases = n + 1 := ⟨_, (Nat.succ_pred_eq_of_pos hp).symm⟩
  rw [hn', List.range_succ_eq_map, List.map_cons] at hr
  simp only [Except.ok.injEq, List.cons.injEq] at hr
  rw [← hr.1]
  refine ⟨by rw [← List.flatMap_def], ?_⟩
  unfold normsOf
  rw [List.flatMap_map]
  apply List.flatMap_congr
  intro s _
  split
  · rename_i h0
    rw [List.length_eq_zero_iff.1 h0]; rfl
  · rw [Option.getD_some, List.map_map]; rfl

end MPOpt
