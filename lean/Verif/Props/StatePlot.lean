import Verif.Props.StateResiduals
import Verif.Props.PlotDataExample
import Verif.Props.HWatch

/-! # C91: the plot of the state residuals (`get_states_residuals(plot=True)`) -/

set_option autoImplicit false
set_option linter.unusedSectionVars false

open Polynomial

namespace MPOpt

section data
variable {K : Type}

theorem pyIdx_map {A B : Type} (f : A → B) (l : List A) (i : Nat) : pyIdx (l.map f) i = (pyIdx l i).map f := by
  unfold pyIdx
  rw [List.getElem?_map]
  cases l[i]? <;> rfl

theorem all_isSome_map (l : List (List K)) : (l.map some).all Option.isSome = true := by
  rw [List.all_eq_true]
  intro x hx
  obtain ⟨y, -, rfl⟩ := List.mem_map.1 hx
  rfl

theorem getD_map_some (l : List (List K)) : (l.map some).map (·.getD []) = l := by
  rw [List.map_map]
  exact List.map_id _

theorem atleast2dTimes_some (l : List (List K)) : atleast2dTimes (l.map some) = atleast2d l := by
  unfold atleast2dTimes
  rw [if_pos (all_isSome_map l), getD_map_some]

theorem concatTimes_some (l : List (List K)) : concatTimes (l.map some) = npConcat l := by
  unfold concatTimes
  rw [if_pos (all_isSome_map l), getD_map_some]

/-- Data without `None` are sorted as those of the dynamics residual. -/
theorem sortStateData_some (norm : List K → K) (time : List (List (List K))) (residuals : List (List (SegResidual K)))
    (phases : List Nat) :
    sortStateData norm (time.map fun p => some (p.map some)) (residuals.map some) phases =
      sortResidualData norm time residuals phases := by
  have hstep : ∀ (rt : List (List K) × List (List (PlotCell K))) (ph : Nat),
      (do
        let _ ← pyIdx (time.map fun p => some (p.map some)) ph
        let rp ← normResidual norm (← notNone (← pyIdx (residuals.map some) ph))
        let tp ← phaseTimes (time.map fun p => some (p.map some)) ph
        return (← vstackRows rt.1 [rp], ← vstackRows rt.2 (atleast2dTimes tp)) :
        Py (List (List K) × List (List (PlotCell K)))) = (do
        let tp ← pyIdx time ph
        let rp ← normResidual norm (← pyIdx residuals ph)
        return (← vstackRows rt.1 [rp], ← vstackRows rt.2 (atleast2d tp))) := by
    intro rt ph
    unfold phaseTimes
    simp only [pyIdx_map]
    cases pyIdx time ph with
    | error _ => rfl
    | ok t =>
      cases pyIdx residuals ph with
      | error _ => rfl
      | ok r =>
        simp only [Except.map, py_bind_ok, notNone]
        rw [atleast2dTimes_some]
  unfold sortStateData sortResidualData
  simp only [hstep]
  unfold phaseTimes
  simp only [pyIdx_map]
  cases pyIdx time 0 with
  | error _ => rfl
  | ok t =>
    cases pyIdx residuals 0 with
    | error _ => rfl
    | ok r =>
      simp only [Except.map, py_bind_ok, notNone]
      rw [atleast2dTimes_some, concatTimes_some]

/-- `sort_residual_data` for all `n` phases. -/
theorem sort_range (norm : List K → K) {n k : Nat} (hn : 0 < n) (hk : 0 < k) (ft : Nat → List (List K))
    (fr : Nat → List (SegResidual K)) (hseg : ∀ ph < n, (ft ph).length = k) (hc : ∀ ph < n, CountsMatch (ft ph) (fr ph))
    (hu : n = 1 ∨ ∃ m, ∀ ph < n, ∀ x ∈ ft ph, x.length = m) :
    sortResidualData norm ((List.range n).map ft) ((List.range n).map fr) (List.range n) =
      .ok ((List.range n).flatMap fun ph => normsOf norm (fr ph),
        ((List.range n).flatMap fun ph => (ft ph).flatten).map .num) := by
  have hhas : ∀ ph < n, HasPhase ((List.range n).map ft) ((List.range n).map fr) k ph (ft ph) (fr ph) := by
    intro ph hph
    refine ⟨?_, ?_, hseg ph hph, hc ph hph⟩
    · rw [List.getElem?_map, List.getElem?_range hph, Option.map_some]
    · rw [List.getElem?_map, List.getElem?_range hph, Option.map_some]
  rcases hu with h1 | ⟨m, hm⟩
  · rw [C66_single norm (hhas 0 hn) hk (by simp [h1])]
    subst h1
    simp
  · obtain ⟨j, hj⟩ : ∃ j, n = j + 1 := ⟨n - 1, by omega⟩
    have hrange : List.range n = 0 :: (List.range j).map Nat.succ := by rw [hj, List.range_succ_eq_map]
    have key := C66_uniform (m := m) (rest := (List.range j).map Nat.succ) (n := k)
      (time := (List.range n).map ft) (residuals := (List.range n).map fr) norm hk
      (by
        rw [← hrange]
        intro ph hph
        have hph : ph < n := by simpa using hph
        exact ⟨_, _, hhas ph hph, hm ph hph⟩)
    rw [← hrange, flatMap_range_map fr (normsOf norm), flatMap_range_map ft fun l => l.flatten.map PlotCell.num] at key
    rw [key, List.map_flatMap]

/-! ### Data with `None` -/

/-- `TypeError` or `ValueError`. -/
def Refused {A : Type} (x : Py A) : Prop := x = .error .type ∨ x = .error .value

theorem Refused.bind {A B : Type} {x : Py A} (h : Refused x) (f : A → Py B) : Refused (x >>= f) := by
  rcases h with rfl | rfl
  · exact Or.inl rfl
  · exact Or.inr rfl

theorem vstackRows_cases {A : Type} (a b : List (List A)) :
    vstackRows a b = .ok (a ++ b) ∨ vstackRows a b = .error .value := by
  unfold vstackRows
  split
  · exact Or.inl rfl
  · exact Or.inr rfl

theorem normResidual_cases (norm : List K → K) (res : List (SegResidual K)) :
    (∃ r, normResidual norm res = .ok r) ∨ normResidual norm res = .error .value := by
  unfold normResidual npConcat
  split
  · exact Or.inr rfl
  · exact Or.inl ⟨_, rfl⟩

variable {time : List (Option (List (Option (List K))))} {residuals : List (Option (List (SegResidual K)))}

/-- The loop body. -/
def sortStep (norm : List K → K) (time : List (Option (List (Option (List K)))))
    (residuals : List (Option (List (SegResidual K)))) (rt : List (List K) × List (List (PlotCell K))) (ph : Nat) :
    Py (List (List K) × List (List (PlotCell K))) := do
  let _ ← pyIdx time ph
  let rp ← normResidual norm (← notNone (← pyIdx residuals ph))
  let tp ← phaseTimes time ph
  return (← vstackRows rt.1 [rp], ← vstackRows rt.2 (atleast2dTimes tp))

theorem sortStep_missing (norm : List K → K) {ph : Nat} (hl : ph < time.length) (h : residuals[ph]? = some none)
    (rt : List (List K) × List (List (PlotCell K))) : sortStep norm time residuals rt ph = .error .type := by
  unfold sortStep
  rw [pyIdx_ok hl, py_bind_ok, pyIdx_some h]
  rfl

theorem sortStep_cases (norm : List K → K) {ph : Nat} (hl : ph < time.length) (hr : ph < residuals.length)
    (rt : List (List K) × List (List (PlotCell K))) :
    (∃ rt', sortStep norm time residuals rt ph = .ok rt') ∨ Refused (sortStep norm time residuals rt ph) := by
  unfold sortStep
  rw [pyIdx_ok hl, py_bind_ok, pyIdx_ok hr, py_bind_ok]
  cases residuals[ph] with
  | none => exact Or.inr (Or.inl rfl)
  | some r =>
    simp only [notNone, py_bind_ok]
    rcases normResidual_cases norm r with ⟨r', h⟩ | h <;> rw [h]
    swap
    · exact Or.inr (Or.inr rfl)
    unfold phaseTimes
    rw [pyIdx_ok hl]
    simp only [py_bind_ok]
    cases time[ph] with
    | none => exact Or.inr (Or.inl rfl)
    | some t =>
      simp only [notNone, py_bind_ok]
      rcases vstackRows_cases rt.1 [r'] with h1 | h1 <;> rw [h1]
      swap
      · exact Or.inr (Or.inr rfl)
      rcases vstackRows_cases rt.2 (atleast2dTimes t) with h2 | h2 <;> rw [h2]
      swap
      · exact Or.inr (Or.inr rfl)
      exact Or.inl ⟨_, rfl⟩

theorem fold_missing (norm : List K → K) (hlen : time.length = residuals.length) {ph : Nat}
    (hm : residuals[ph]? = some none) : ∀ (rest : List Nat) (rt : List (List K) × List (List (PlotCell K))),
    (∀ q ∈ rest, q < time.length) → ph ∈ rest → Refused (rest.foldlM (sortStep norm time residuals) rt) := by
  intro rest
  induction rest with
  | nil => intro rt _ h; cases h
  | cons q rest ih =>
    intro rt hq hmem
    rw [List.foldlM_cons]
    by_cases h : q = ph
    · subst h
      rw [sortStep_missing norm (hq q (by simp)) hm]
      exact Or.inl rfl
    · rcases sortStep_cases norm (hq q (by simp)) (by rw [← hlen]; exact hq q (by simp)) rt with ⟨rt', h'⟩ | h'
      · rw [h', py_bind_ok]
        exact ih rt' (fun p hp => hq p (by simp [hp])) (by
          rcases List.mem_cons.1 hmem with h0 | h0
          · exact absurd h0.symm h
          · exact h0)
      · exact h'.bind _

theorem sortStateData_eq (norm : List K → K) (phases : List Nat) :
    sortStateData norm time residuals phases = (do
      let _ ← pyIdx time 0
      let r0 ← normResidual norm (← notNone (← pyIdx residuals 0))
      let t0 ← phaseTimes time 0
      let (r, t) ← (if 1 < phases.length then do
          let rt ← phases.tail.foldlM (sortStep norm time residuals) ([r0], atleast2dTimes t0)
          return (rt.1.flatten, rt.2.flatten)
        else do return (r0, (← concatTimes t0).map .num) : Py (List K × List (PlotCell K)))
      if r.length = t.length then return (r, t) else .error .value) := rfl

theorem tail_range (n : Nat) : (List.range n).tail = (List.range (n - 1)).map Nat.succ := by
  cases n with
  | zero => rfl
  | succ n => rw [List.range_succ_eq_map]; rfl

/-- Data in which a phase is missing are refused. -/
theorem sortStateData_missing (norm : List K → K) {n : Nat} (ht : time.length = n) (hr : residuals.length = n) {ph : Nat}
    (hph : ph < n) (hm : residuals[ph]? = some none) : Refused (sortStateData norm time residuals (List.range n)) := by
  have h0t : 0 < time.length := by omega
  have h0r : 0 < residuals.length := by omega
  rw [sortStateData_eq, pyIdx_ok h0t, py_bind_ok, pyIdx_ok h0r, py_bind_ok]
  cases h0 : residuals[0] with
  | none => exact Or.inl rfl
  | some r =>
    simp only [notNone, py_bind_ok]
    rcases normResidual_cases norm r with ⟨r', h⟩ | h <;> rw [h]
    swap
    · exact Or.inr rfl
    unfold phaseTimes
    rw [pyIdx_ok h0t]
    simp only [py_bind_ok]
    cases time[0] with
    | none => exact Or.inl rfl
    | some t =>
      have hne : ph ≠ 0 := by
        rintro rfl
        rw [List.getElem?_eq_getElem h0r, h0] at hm
        cases hm
      simp only [notNone, py_bind_ok]
      rw [if_pos (by rw [List.length_range]; omega)]
      refine Refused.bind (Refused.bind ?_ _) _
      refine fold_missing norm (by rw [ht, hr]) hm _ _ ?_ ?_
      · intro q hq
        rw [ht]
        exact List.mem_range.1 (List.mem_of_mem_tail hq)
      · rw [tail_range]
        exact List.mem_map.2 ⟨ph - 1, by simp; omega, by omega⟩

theorem arr_refused {l : List (PlotCell K)} {a : List K} (h : PlotCell.arr a ∈ l) :
    l.mapM PlotCell.time = .error .value := by
  induction l with
  | nil => cases h
  | cons c l ih =>
    rw [List.mapM_cons]
    cases c with
    | arr b => rfl
    | num t =>
      rcases List.mem_cons.1 h with h | h
      · cases h
      · rw [ih h]; rfl

theorem fold_empty (norm : List K → K) : ∀ (rest : List Nat) (rt : List (List K) × List (List (PlotCell K))),
    (∀ q ∈ rest, ∃ t r, time[q]? = some (some t) ∧ residuals[q]? = some (some r) ∧ r ≠ []) →
    rest.foldlM (sortStep norm time residuals) rt = .error .value ∨
    ∃ rt', rest.foldlM (sortStep norm time residuals) rt = .ok rt' ∧ (∀ c ∈ rt.2.flatten, c ∈ rt'.2.flatten) ∧
      ∀ q ∈ rest, ∀ t, time[q]? = some (some t) → ∀ c ∈ (atleast2dTimes t).flatten, c ∈ rt'.2.flatten := by
  intro rest
  induction rest with
  | nil => intro rt _; exact Or.inr ⟨rt, rfl, fun c hc => hc, fun q hq => nomatch hq⟩
  | cons q rest ih =>
    intro rt h
    obtain ⟨t, r, h1, h2, h3⟩ := h q (by simp)
    have hstep : sortStep norm time residuals rt q = (do
        return (← vstackRows rt.1 [normsOf norm r], ← vstackRows rt.2 (atleast2dTimes t))) := by
      unfold sortStep phaseTimes
      rw [pyIdx_some h1, py_bind_ok, pyIdx_some h2, py_bind_ok]
      simp only [notNone, py_bind_ok, normResidual_ok norm h3]
    rw [List.foldlM_cons, hstep]
    rcases vstackRows_cases rt.1 [normsOf norm r] with e1 | e1 <;> rw [e1]
    swap
    · exact Or.inl rfl
    rcases vstackRows_cases rt.2 (atleast2dTimes t) with e2 | e2 <;> rw [e2]
    swap
    · exact Or.inl rfl
    simp only [py_bind_ok, pure_bind]
    rcases ih (rt.1 ++ [normsOf norm r], rt.2 ++ atleast2dTimes t) (fun p hp => h p (by simp [hp])) with
      he | ⟨rt', he, k1, k2⟩
    · exact Or.inl he
    · refine Or.inr ⟨rt', he, fun c hc => k1 c (by simp only [List.flatten_append, List.mem_append]; exact Or.inl hc), ?_⟩
      intro p hp t' ht' c hc
      rcases List.mem_cons.1 hp with rfl | hp
      · rw [h1] at ht'
        cases ht'
        exact k1 c (by simp only [List.flatten_append, List.mem_append]; exact Or.inr hc)
      · exact k2 p hp t' ht' c hc

/-- A row of times with a `None` has cells that cannot be drawn. -/
theorem none_cell {t : List (Option (List K))} (h : none ∈ t) :
    PlotCell.arr [] ∈ (atleast2dTimes t).flatten ∧ concatTimes t = .error .value := by
  have hn : ¬ t.all Option.isSome = true := by
    rw [List.all_eq_true]
    intro h'
    exact absurd (h' none h) (by simp)
  unfold atleast2dTimes concatTimes
  rw [if_neg hn, if_neg hn]
  refine ⟨?_, rfl⟩
  simp only [List.flatten_cons, List.flatten_nil, List.append_nil, List.mem_map]
  exact ⟨none, h, rfl⟩

variable [Field K] [LinearOrder K]

theorem plotStateData_missing (norm : List K → K) {n : Nat} (ht : time.length = n) (hr : residuals.length = n) {ph : Nat}
    (hph : ph < n) (hm : residuals[ph]? = some none) (ax : Option (Axes K)) :
    Refused (plotStateData norm time residuals n ax) := by
  unfold plotStateData
  exact (sortStateData_missing norm ht hr hph hm).bind _

/-- Data in which a segment has no points cannot be drawn. -/
theorem plotStateData_empty (norm : List K → K) {n : Nat}
    (h : ∀ q < n, ∃ t r, time[q]? = some (some t) ∧ residuals[q]? = some (some r) ∧ r ≠ []) {ph : Nat} (hph : ph < n)
    {t : List (Option (List K))} (ht : time[ph]? = some (some t)) (hnone : none ∈ t) (ax : Option (Axes K)) :
    plotStateData norm time residuals n ax = .error .value := by
  obtain ⟨t0, r0, h1, h2, h3⟩ := h 0 (by omega)
  have key : sortStateData norm time residuals (List.range n) = .error .value ∨
      ∃ r c, sortStateData norm time residuals (List.range n) = .ok (r, c) ∧ PlotCell.arr [] ∈ c := by
    rw [sortStateData_eq, pyIdx_some h1, py_bind_ok, pyIdx_some h2, py_bind_ok]
    unfold phaseTimes
    rw [pyIdx_some h1]
    simp only [notNone, py_bind_ok, normResidual_ok norm h3]
    by_cases hn : 1 < (List.range n).length
    · rw [if_pos hn]
      rcases fold_empty (time := time) (residuals := residuals) norm (List.range n).tail
        ([normsOf norm r0], atleast2dTimes t0)
        (fun q hq => h q (List.mem_range.1 (List.mem_of_mem_tail hq))) with he | ⟨rt', he, k1, k2⟩
      · rw [he]; exact Or.inl rfl
      · rw [he]
        simp only [py_bind_ok, pure_bind]
        split
        · refine Or.inr ⟨_, _, rfl, ?_⟩
          by_cases h0 : ph = 0
          · subst h0
            rw [h1] at ht
            cases ht
            exact k1 _ (none_cell hnone).1
          · refine k2 ph ?_ t ht _ (none_cell hnone).1
            rw [tail_range]
            exact List.mem_map.2 ⟨ph - 1, by simp; omega, by omega⟩
        · exact Or.inl rfl
    · rw [if_neg hn]
      have : ph = 0 := by rw [List.length_range] at hn; omega
      subst this
      rw [h1] at ht
      cases ht
      rw [(none_cell hnone).2]
      exact Or.inl rfl
  unfold plotStateData
  rcases key with hk | ⟨r, c, hk, hc⟩
  · rw [hk]; rfl
  · rw [hk]
    simp only [py_bind_ok]
    rw [arr_refused hc]; rfl

end data

section
variable {K : Type} [Field K] [LinearOrder K] [IsStrictOrderedRing K] {e : Solved K} {M : Mesh K}

/-- The results when all phases are asked for, in any order. -/
theorem stateResidualsOf_all (h : e.Ready M) {nodes : List (List (List K))} {phases : List Nat}
    (hin : ∀ ph, ph ∈ phases ↔ ph < e.disc.ocp.nPhases) (hg : GridShape M e.disc.ocp.nPhases nodes)
    (F : Nat → VFun (PArg K) K) (hF : ∀ ph < e.disc.ocp.nPhases, e.disc.ocp.dynamics[ph]? = some (F ph)) :
    e.stateResidualsOf (some phases) (some nodes) false = .ok ((List.range e.disc.ocp.nPhases).map fun ph => some
      ((List.range M.orders.length).map fun s => e.stateSeg M (F ph) ((nodes.getD ph []).getD s []) ph s,
       (List.range M.orders.length).map fun s => e.controlSeg M ((nodes.getD ph []).getD s []) ph s)) := by
  obtain ⟨out, h1, h2, h3⟩ := C91_chosen h (fun ph hp => (hin ph).1 hp) (fun ph hp => hg.hasGrid ((hin ph).1 hp)) F
    (fun ph hp => hF ph ((hin ph).1 hp))
  rw [h1]
  congr 1
  apply List.ext_getElem?
  intro ph
  by_cases hph : ph < e.disc.ocp.nPhases
  · rw [(h3 ph hph).1 ((hin ph).2 hph), List.getElem?_map, List.getElem?_range hph]
    rfl
  · rw [List.getElem?_eq_none (by omega), List.getElem?_eq_none (by simpa using hph)]

/-- **C91** With `plot=True` and all phases, the norms of the residuals are drawn over the times of the points, phase by phase and
segment by segment: once as dots and once as a line. This needs points in every segment, and one phase or the same number of points
in all segments. -/
theorem C91_plot (h : e.Ready M) (norm : List K → K) {nodes : List (List (List K))} {phases : List Nat}
    (hin : ∀ ph, ph ∈ phases ↔ ph < e.disc.ocp.nPhases) (hg : GridShape M e.disc.ocp.nPhases nodes)
    (F : Nat → VFun (PArg K) K) (hF : ∀ ph < e.disc.ocp.nPhases, e.disc.ocp.dynamics[ph]? = some (F ph))
    (hp : 0 < e.disc.ocp.nPhases) (hne : ∀ g ∈ nodes, ∀ x ∈ g, x ≠ [])
    (hu : e.disc.ocp.nPhases = 1 ∨ ∃ m, ∀ g ∈ nodes, ∀ x ∈ g, x.length = m) (ax : Option (Axes K)) :
    ∃ out ts ys, e.statePlot norm (some phases) (some nodes) false ax = .ok (out,
        ⟨(ax.getD .empty).curves ++ [⟨ts, ys, ".", none⟩, ⟨ts, ys, "-", none⟩], some "Time, s", some "residuals",
          (ax.getD .empty).legend⟩) ∧
      e.stateResidualsOf (some phases) (some nodes) false = .ok out ∧
      ts = ((List.range e.disc.ocp.nPhases).flatMap fun ph => (List.range M.orders.length).flatMap fun s =>
        ((nodes.getD ph []).getD s []).map (M.time e.traj ph s)) ∧
      ys = (List.range e.disc.ocp.nPhases).flatMap fun ph => (List.range M.orders.length).flatMap fun s =>
        ((nodes.getD ph []).getD s []).map fun tau => norm ((List.range e.disc.ocp.nx).map fun j =>
          e.disc.ocp.scaleX.getD j 0 * ((M.piece (fun k => e.traj.x ph k j) s).eval tau -
            e.disc.ocp.integrated M e.traj (F ph) e.disc.colloc.method ((nodes.getD ph []).getD s []) ph s tau j)) := by
  have hM : 0 < M.orders.length := List.length_pos_iff.2 h.mesh.good.nonempty
  have hall := stateResidualsOf_all h hin hg F hF
  set ft : Nat → List (List K) := fun ph =>
    (List.range M.orders.length).map fun s => ((nodes.getD ph []).getD s []).map (M.time e.traj ph s) with hft
  set fr : Nat → List (SegResidual K) := fun ph => (List.range M.orders.length).map fun s =>
    some (((nodes.getD ph []).getD s []).map fun tau => (List.range e.disc.ocp.nx).map fun j =>
      e.disc.ocp.scaleX.getD j 0 * ((M.piece (fun k => e.traj.x ph k j) s).eval tau -
        e.disc.ocp.integrated M e.traj (F ph) e.disc.colloc.method ((nodes.getD ph []).getD s []) ph s tau j)) with hfr
  have hpts : ∀ ph < e.disc.ocp.nPhases, ∀ s < M.orders.length, ∃ g ∈ nodes, (nodes.getD ph []).getD s [] ∈ g := by
    intro ph hph s hs
    have hl : ph < nodes.length := by rw [hg.1]; exact hph
    have hs' : s < nodes[ph].length := by rw [hg.2 _ (List.getElem_mem hl)]; exact hs
    exact ⟨nodes[ph], List.getElem_mem hl, by
      rw [List.getD_eq_getElem _ _ hl, List.getD_eq_getElem _ _ hs']; exact List.getElem_mem hs'⟩
  have hlen : ∀ ph < e.disc.ocp.nPhases, ∀ s < M.orders.length, ((nodes.getD ph []).getD s []).length ≠ 0 := by
    intro ph hph s hs h0
    obtain ⟨g, hg1, hg2⟩ := hpts ph hph s hs
    exact hne g hg1 _ hg2 (List.length_eq_zero_iff.1 h0)
  have et : ((List.range e.disc.ocp.nPhases).map fun ph => some
      ((List.range M.orders.length).map fun s => e.stateSeg M (F ph) ((nodes.getD ph []).getD s []) ph s,
       (List.range M.orders.length).map fun s => e.controlSeg M ((nodes.getD ph []).getD s []) ph s)).map
        (Option.map fun p => p.1.map (·.t)) =
      ((List.range e.disc.ocp.nPhases).map ft).map fun p => some (p.map some) := by
    rw [List.map_map, List.map_map]
    apply List.map_congr_left
    intro ph hph
    have hph : ph < e.disc.ocp.nPhases := by simpa using hph
    simp only [Function.comp_apply, Option.map_some, hft, List.map_map]
    congr 1
    apply List.map_congr_left
    intro s hs
    have hs : s < M.orders.length := by simpa using hs
    simp only [Function.comp_apply, Solved.stateSeg, hlen ph hph s hs, if_false]
  have er : ((List.range e.disc.ocp.nPhases).map fun ph => some
      ((List.range M.orders.length).map fun s => e.stateSeg M (F ph) ((nodes.getD ph []).getD s []) ph s,
       (List.range M.orders.length).map fun s => e.controlSeg M ((nodes.getD ph []).getD s []) ph s)).map
        (Option.map fun p => p.1.map (·.res)) =
      ((List.range e.disc.ocp.nPhases).map fr).map some := by
    rw [List.map_map, List.map_map]
    apply List.map_congr_left
    intro ph hph
    have hph : ph < e.disc.ocp.nPhases := by simpa using hph
    simp only [Function.comp_apply, Option.map_some, hfr, List.map_map]
    congr 1
    apply List.map_congr_left
    intro s hs
    have hs : s < M.orders.length := by simpa using hs
    simp only [Function.comp_apply, Solved.stateSeg, hlen ph hph s hs, if_false]
  have hsort := sort_range norm hp hM ft fr (fun ph _ => by simp [hft])
    (fun ph _ => by
      unfold CountsMatch
      rw [hft, hfr, List.forall₂_map_left_iff, List.forall₂_map_right_iff, List.forall₂_same]
      intro s _
      rw [Option.getD_some, List.length_map, List.length_map])
    (hu.imp id fun ⟨m, hm⟩ => ⟨m, fun ph hph x hx => by
      obtain ⟨s, hs, rfl⟩ := List.mem_map.1 hx
      obtain ⟨g, hg1, hg2⟩ := hpts ph hph s (by simpa using hs)
      rw [List.length_map]
      exact hm g hg1 _ hg2⟩)
  have hl : ((List.range e.disc.ocp.nPhases).flatMap fun ph => (ft ph).flatten).length =
      ((List.range e.disc.ocp.nPhases).flatMap fun ph => normsOf norm (fr ph)).length := by
    rw [List.length_flatMap, List.length_flatMap]
    congr 1
    apply List.map_congr_left
    intro ph _
    have hc : CountsMatch (ft ph) (fr ph) := by
      unfold CountsMatch
      rw [hft, hfr, List.forall₂_map_left_iff, List.forall₂_map_right_iff, List.forall₂_same]
      intro s _
      rw [Option.getD_some, List.length_map, List.length_map]
    rw [hc.length]
  have hplot := plotResiduals_on norm hsort hl none "." (List.replicate 14 ".") ax
  refine ⟨_, (List.range e.disc.ocp.nPhases).flatMap fun ph => (ft ph).flatten,
    (List.range e.disc.ocp.nPhases).flatMap fun ph => normsOf norm (fr ph), ?_, hall, ?_, ?_⟩
  rotate_left
  · apply List.flatMap_congr
    intro ph _
    rw [hft, ← List.flatMap_def]
  · apply List.flatMap_congr
    intro ph _
    unfold normsOf
    rw [hfr, List.flatMap_map]
    apply List.flatMap_congr
    intro s _
    rw [Option.getD_some, List.map_map]; rfl
  · unfold Solved.statePlot
    rw [hall, py_bind_ok, et, er]
    have : plotStateData norm (((List.range e.disc.ocp.nPhases).map ft).map fun p => some (p.map some))
        (((List.range e.disc.ocp.nPhases).map fr).map some) e.disc.ocp.nPhases ax =
        plotResiduals norm ((List.range e.disc.ocp.nPhases).map ft) ((List.range e.disc.ocp.nPhases).map fr)
          (List.range e.disc.ocp.nPhases) none ax (some ("." :: List.replicate 14 ".")) := by
      unfold plotStateData plotResiduals
      rw [sortStateData_some]
      rfl
    rw [this, hplot, py_bind_ok]
    simp
    rfl

/-- **C91** With `plot=True`, leaving out a phase of the problem raises `TypeError` or `ValueError`: nothing is drawn, and the residuals
computed are lost. -/
theorem C91_plot_missing (norm : List K → K) {phases : List Nat} {nodes : Option (List (List (List K)))} {rel : Bool}
    {out : List (Option (List (Solved.StateRes K) × List (SegResidual K)))}
    (h : e.stateResidualsOf (some phases) nodes rel = .ok out) {ph : Nat} (hph : ph < e.disc.ocp.nPhases) (hm : ph ∉ phases)
    (ax : Option (Axes K)) : Refused (e.statePlot norm (some phases) nodes rel ax) := by
  have key : ∀ (l : List Nat) (o o' : List (Option (List (Solved.StateRes K) × List (SegResidual K)))),
      ph ∉ l → o.length = e.disc.ocp.nPhases → o[ph]? = some none →
      l.foldlM (fun out ph => (do
        let segs ← e.stateOne nodes rel ph
        let u ← e.stateControls ph (← e.stateTarget nodes ph)
        return out.set ph (some (segs, u)) : Py _)) o = .ok o' → o'.length = e.disc.ocp.nPhases ∧ o'[ph]? = some none := by
    intro l
    induction l with
    | nil =>
      intro o o' _ h1 h2 hf
      rw [List.foldlM_nil, py_pure_eq_ok] at hf
      subst hf; exact ⟨h1, h2⟩
    | cons p l ih =>
      intro o o' hn h1 h2 hf
      rw [List.foldlM_cons] at hf
      simp only [py_bind_eq_ok, py_pure_eq_ok] at hf
      obtain ⟨o1, ⟨segs, -, tg, -, u, -, rfl⟩, hf⟩ := hf
      simp only [List.mem_cons, not_or] at hn
      refine ih _ _ hn.2 (by simpa using h1) ?_ hf
      rw [List.getElem?_set, if_neg (Ne.symm hn.1)]
      exact h2
  obtain ⟨h1, h2⟩ := key _ _ _ hm (by simp) (by rw [List.getElem?_replicate, if_pos hph]) h
  unfold Solved.statePlot
  rw [h, py_bind_ok]
  refine Refused.bind (plotStateData_missing norm (by simpa using h1) (by simpa using h1) hph ?_ ax) _
  rw [List.getElem?_map, h2]
  rfl

/-- **C91** With `plot=True`, a segment without points raises `ValueError`. -/
theorem C91_plot_empty (h : e.Ready M) (norm : List K → K) {nodes : List (List (List K))} {phases : List Nat}
    (hin : ∀ ph, ph ∈ phases ↔ ph < e.disc.ocp.nPhases) (hg : GridShape M e.disc.ocp.nPhases nodes)
    {ph s : Nat} (hph : ph < e.disc.ocp.nPhases) (hs : s < M.orders.length)
    (h0 : (nodes.getD ph []).getD s [] = []) (ax : Option (Axes K)) :
    e.statePlot norm (some phases) (some nodes) false ax = .error .value := by
  have hF' : ∀ p, ∃ G, p < e.disc.ocp.nPhases → e.disc.ocp.dynamics[p]? = some G := by
    intro p
    by_cases hp : p < e.disc.ocp.nPhases
    · have : p < e.disc.ocp.dynamics.length := by rw [h.valid.dynamics]; exact hp
      exact ⟨_, fun _ => List.getElem?_eq_getElem this⟩
    · exact ⟨⟨0, fun _ _ => 0⟩, fun h => absurd h hp⟩
  choose F hF using hF'
  unfold Solved.statePlot
  rw [stateResidualsOf_all h hin hg F hF, py_bind_ok]
  rw [plotStateData_empty norm (ph := ph)
    (t := (List.range M.orders.length).map fun s => (e.stateSeg M (F ph) ((nodes.getD ph []).getD s []) ph s).t)]
  · rfl
  · intro q hq
    refine ⟨((List.range M.orders.length).map fun s =>
        e.stateSeg M (F q) ((nodes.getD q []).getD s []) q s).map (·.t),
      ((List.range M.orders.length).map fun s =>
        e.stateSeg M (F q) ((nodes.getD q []).getD s []) q s).map (·.res), ?_, ?_, ?_⟩
    · rw [List.getElem?_map, List.getElem?_map, List.getElem?_range hq]; rfl
    · rw [List.getElem?_map, List.getElem?_map, List.getElem?_range hq]; rfl
    · simpa using h.mesh.good.nonempty
  · exact hph
  · rw [List.getElem?_map, List.getElem?_map, List.getElem?_range hph]
    simp only [Option.map_some, List.map_map]
    rfl
  · refine List.mem_map.2 ⟨s, by simpa using hs, ?_⟩
    rw [h0]; rfl

end

end MPOpt
