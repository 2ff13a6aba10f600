import Verif.Model.SecondPlot
import Verif.Props.StatePlot

/-! # C93: relative second derivatives, their plot, and the plot of `interpolate_single_phase` -/

set_option autoImplicit false
set_option linter.unusedSectionVars false

open Polynomial

namespace MPOpt

variable {K : Type} [Field K] [LinearOrder K] [IsStrictOrderedRing K] {e : Solved K} {M : Mesh K}

/-! ### Specification -/

/-- Scaled second derivative, in `τ`, of component `j` of a state. -/
noncomputable def Solved.bendX (e : Solved K) (M : Mesh K) (ph s : Nat) (tau : K) (j : Nat) : K :=
  e.disc.ocp.scaleX.getD j 0 * (derivative^[2] (M.piece (fun k => e.traj.x ph k j) s)).eval tau

/-- The same for controls. -/
noncomputable def Solved.bendU (e : Solved K) (M : Mesh K) (ph s : Nat) (tau : K) (j : Nat) : K :=
  e.disc.ocp.scaleU.getD j 0 * (derivative^[2] (M.piece (fun k => e.traj.u ph k j) s)).eval tau

/-- `m` is the largest of the values of components `j < n` at the points. -/
def Largest (points : List K) (n : Nat) (b : K → Nat → K) (m : K) : Prop :=
  (∀ tau ∈ points, ∀ j < n, b tau j ≤ m) ∧ ∃ tau ∈ points, ∃ j < n, b tau j = m

/-! ### Relative values -/

theorem divMax_table {points : List K} {n : Nat} {b : K → Nat → K} {m : K} (h : Largest points n b m) :
    divMax (points.map fun tau => (List.range n).map (b tau)) =
      if m = 0 then .error .nonFinite else .ok (points.map fun tau => (List.range n).map fun j => b tau j / m) := by
  have hmem : ∀ v, v ∈ (points.map fun tau => (List.range n).map (b tau)).flatten ↔ ∃ tau ∈ points, ∃ j < n, b tau j = v := by
    intro v
    simp only [List.mem_flatten, List.mem_map, exists_exists_and_eq_and, List.mem_range]
  unfold divMax
  cases hf : (points.map fun tau => (List.range n).map (b tau)).flatten with
  | nil =>
    obtain ⟨tau, h1, j, h2, h3⟩ := h.2
    have := (hmem m).2 ⟨tau, h1, j, h2, h3⟩
    rw [hf] at this
    cases this
  | cons v l =>
    obtain ⟨f1, f2, f3⟩ := foldl_max_le l v
    have hm : l.foldl max v = m := by
      apply le_antisymm
      · have : l.foldl max v ∈ v :: l := by
          rcases f3 with h | h
          · rw [h]; simp
          · simp [h]
        rw [← hf, hmem] at this
        obtain ⟨tau, h1, j, h2, h3⟩ := this
        rw [← h3]
        exact h.1 tau h1 j h2
      · have : m ∈ v :: l := by rw [← hf, hmem]; exact h.2
        rcases List.mem_cons.1 this with h | h
        · rw [h]; exact f1
        · exact f2 m h
    simp only [hm]
    split
    · rfl
    · rw [List.map_map]
      congr 1
      apply List.map_congr_left
      intro tau _
      simp only [Function.comp_apply, List.map_map]
      rfl

/-- **C93** With `residual_type="relative"` the second derivatives of a segment are divided by the largest of them, states and controls
apart, all components together. The largest is that of the signed values. -/
theorem C93_relative (h : e.Ready M) {ph : Nat} (hph : ph < e.disc.ocp.nPhases) {taus : List (List K)}
    (hlen : taus.length = M.orders.length) (mx mu : Nat → K)
    (hx : ∀ s < M.orders.length, taus.getD s [] ≠ [] →
      Largest (taus.getD s []) e.disc.ocp.nx (e.bendX M ph s) (mx s) ∧ mx s ≠ 0)
    (hu : ∀ s < M.orders.length, taus.getD s [] ≠ [] →
      Largest (taus.getD s []) e.disc.ocp.nu (e.bendU M ph s) (mu s) ∧ mu s ≠ 0) :
    e.secondRelative ph (some taus) = .ok ((List.range M.orders.length).map fun s =>
      if taus.getD s [] = [] then none else
        some ((taus.getD s []).map (M.time e.traj ph s),
          (taus.getD s []).map (fun tau => (List.range e.disc.ocp.nx).map fun j => e.bendX M ph s tau j / mx s),
          (taus.getD s []).map (fun tau => (List.range e.disc.ocp.nu).map fun j => e.bendU M ph s tau j / mu s))) := by
  unfold Solved.secondRelative
  rw [secondPhase_closed h hph hlen, py_bind_ok, List.mapM_map]
  apply mapM_ok
  intro s hs
  have hs : s < M.orders.length := by simpa using hs
  simp only [Function.comp_apply]
  by_cases h0 : taus.getD s [] = []
  · simp only [h0, List.length_nil, if_true]
  · obtain ⟨hx1, hx2⟩ := hx s hs h0
    obtain ⟨hu1, hu2⟩ := hu s hs h0
    have e1 := divMax_table hx1
    have e2 := divMax_table hu1
    rw [if_neg hx2] at e1
    rw [if_neg hu2] at e2
    unfold Solved.bendX at e1
    unfold Solved.bendU at e2
    rw [if_neg (fun hl => h0 (List.length_eq_zero_iff.1 hl)), if_neg h0]
    simp only [e1, e2, py_bind_ok]
    rfl

/-- **C93** If the largest value is positive, no relative value exceeds 1; if it is negative, none is below 1. One of them is 1. -/
theorem C93_relative_range {points : List K} {n : Nat} {b : K → Nat → K} {m : K} (h : Largest points n b m) :
    (0 < m → Largest points n (fun tau j => b tau j / m) 1) ∧
    (m < 0 → (∀ tau ∈ points, ∀ j < n, 1 ≤ b tau j / m) ∧ ∃ tau ∈ points, ∃ j < n, b tau j / m = 1) := by
  obtain ⟨h1, tau, ht, j, hj, hb⟩ := h
  refine ⟨fun hm => ⟨fun tau ht j hj => (div_le_one hm).2 (h1 tau ht j hj), tau, ht, j, hj, ?_⟩,
    fun hm => ⟨fun tau ht j hj => (one_le_div_of_neg hm).2 (h1 tau ht j hj), tau, ht, j, hj, ?_⟩⟩
  · show b tau j / m = 1
    rw [hb, div_self hm.ne']
  · rw [hb, div_self hm.ne]

/-- An exception of one entry, when all entries that fail give the same one. -/
theorem mapM_error_same {A B : Type} {f : A → Py B} {er : PyErr} : ∀ {l : List A}, (∀ a ∈ l, (∃ b, f a = .ok b) ∨ f a = .error er) →
    (∃ a ∈ l, f a = .error er) → l.mapM f = .error er := by
  intro l
  induction l with
  | nil => rintro - ⟨a, h, -⟩; cases h
  | cons a l ih =>
    intro hall hex
    rw [List.mapM_cons]
    rcases hall a (by simp) with ⟨b, hb⟩ | hb
    · rw [hb, py_bind_ok, ih (fun a ha => hall a (by simp [ha]))]
      · rfl
      · obtain ⟨c, hc, hce⟩ := hex
        rcases List.mem_cons.1 hc with rfl | hc
        · rw [hb] at hce; cases hce
        · exact ⟨c, hc, hce⟩
    · rw [hb]; rfl

/-- **C93** If the largest value of a segment is 0, as for states that are straight lines, numpy divides by zero. -/
theorem C93_relative_zero (h : e.Ready M) {ph : Nat} (hph : ph < e.disc.ocp.nPhases) {taus : List (List K)}
    (hlen : taus.length = M.orders.length) (mx mu : Nat → K)
    (hx : ∀ s < M.orders.length, taus.getD s [] ≠ [] → Largest (taus.getD s []) e.disc.ocp.nx (e.bendX M ph s) (mx s))
    (hu : ∀ s < M.orders.length, taus.getD s [] ≠ [] → Largest (taus.getD s []) e.disc.ocp.nu (e.bendU M ph s) (mu s))
    {s : Nat} (hs : s < M.orders.length) (hne : taus.getD s [] ≠ []) (h0 : mx s = 0 ∨ mu s = 0) :
    e.secondRelative ph (some taus) = .error .nonFinite := by
  unfold Solved.secondRelative
  rw [secondPhase_closed h hph hlen, py_bind_ok, List.mapM_map]
  have key : ∀ s < M.orders.length, taus.getD s [] ≠ [] → ∀ er : List K × List (List K) × List (List K), er =
      ((taus.getD s []).map (M.time e.traj ph s),
          (taus.getD s []).map (fun tau => (List.range e.disc.ocp.nx).map fun j => e.bendX M ph s tau j),
          (taus.getD s []).map (fun tau => (List.range e.disc.ocp.nu).map fun j => e.bendU M ph s tau j)) →
      (do
        let x ← divMax er.2.1
        let u ← divMax er.2.2
        return some (er.1, x, u) : Py (SecondSeg K)) = (if mx s = 0 ∨ mu s = 0 then .error .nonFinite else .ok (some
          ((taus.getD s []).map (M.time e.traj ph s),
          (taus.getD s []).map (fun tau => (List.range e.disc.ocp.nx).map fun j => e.bendX M ph s tau j / mx s),
          (taus.getD s []).map (fun tau => (List.range e.disc.ocp.nu).map fun j => e.bendU M ph s tau j / mu s)))) := by
    rintro s hs hne er rfl
    simp only [divMax_table (hx s hs hne), divMax_table (hu s hs hne)]
    by_cases a : mx s = 0
    · simp only [a, if_true, true_or]; rfl
    · by_cases b : mu s = 0
      · simp only [a, b, if_false, if_true, or_true, py_bind_ok]; rfl
      · simp only [a, b, if_false, or_self, py_bind_ok]; rfl
  apply mapM_error_same
  · intro s hs
    have hs : s < M.orders.length := by simpa using hs
    simp only [Function.comp_apply]
    by_cases hn : taus.getD s [] = []
    · exact Or.inl ⟨none, by simp only [hn, List.length_nil, if_true]⟩
    · rw [if_neg (fun hl => hn (List.length_eq_zero_iff.1 hl))]
      have k := key s hs hn _ rfl
      by_cases hz : mx s = 0 ∨ mu s = 0
      · rw [if_pos hz] at k; exact Or.inr k
      · rw [if_neg hz] at k; exact Or.inl ⟨_, k⟩
  · refine ⟨s, by simpa using hs, ?_⟩
    simp only [Function.comp_apply]
    rw [if_neg (fun hl => hne (List.length_eq_zero_iff.1 hl))]
    have k := key s hs hne _ rfl
    rw [if_pos h0] at k
    exact k

/-! ### The plot of the second derivatives -/

/-- All phases in closed form. -/
theorem secondDerivative_closed (h : e.Ready M) {nodes : List (List (List K))} (hn : GridShape M e.disc.ocp.nPhases nodes)
    (gt : Option String) : e.secondDerivative (some nodes) gt = .ok ((List.range e.disc.ocp.nPhases).map fun ph =>
      (List.range M.orders.length).map fun s =>
      if ((nodes.getD ph []).getD s []).length = 0 then none else
        some (((nodes.getD ph []).getD s []).map (M.time e.traj ph s),
          ((nodes.getD ph []).getD s []).map (fun tau => (List.range e.disc.ocp.nx).map (e.bendX M ph s tau)),
          ((nodes.getD ph []).getD s []).map (fun tau => (List.range e.disc.ocp.nu).map (e.bendU M ph s tau)))) := by
  unfold Solved.secondDerivative
  apply mapM_ok
  intro ph hph
  have hph : ph < e.disc.ocp.nPhases := by simpa using hph
  have hl : ph < nodes.length := by rw [hn.1]; exact hph
  simp only [pyIdx_ok hl, List.getD_eq_getElem nodes _ hl, py_bind_ok, pure_bind]
  exact secondPhase_closed h hph (hn.2 _ (List.getElem_mem hl))

/-- Points of a segment. -/
theorem points_mem {nodes : List (List (List K))} {n : Nat} (hg : GridShape M n nodes) {ph s : Nat} (hph : ph < n)
    (hs : s < M.orders.length) : ∃ g ∈ nodes, (nodes.getD ph []).getD s [] ∈ g := by
  have hl : ph < nodes.length := by rw [hg.1]; exact hph
  have hs' : s < nodes[ph].length := by rw [hg.2 _ (List.getElem_mem hl)]; exact hs
  exact ⟨nodes[ph], List.getElem_mem hl, by
    rw [List.getD_eq_getElem _ _ hl, List.getD_eq_getElem _ _ hs']; exact List.getElem_mem hs'⟩

theorem mem_points {nodes : List (List (List K))} {n : Nat} (hg : GridShape M n nodes) {g : List (List K)} (hm : g ∈ nodes)
    {x : List K} (hx : x ∈ g) : ∃ ph < n, ∃ s < M.orders.length, (nodes.getD ph []).getD s [] = x := by
  obtain ⟨ph, hph, rfl⟩ := List.mem_iff_getElem.1 hm
  obtain ⟨s, hs, rfl⟩ := List.mem_iff_getElem.1 hx
  exact ⟨ph, by rw [← hg.1]; exact hph, s, by rw [← hg.2 _ hm]; exact hs, by
    rw [List.getD_eq_getElem _ _ hph, List.getD_eq_getElem _ _ hs]⟩

/-- When the plot of the second derivatives can be drawn: points in every segment, and one phase or equally many points in all
segments. -/
def Drawable (n : Nat) (nodes : List (List (List K))) : Prop :=
  (∀ g ∈ nodes, ∀ x ∈ g, x ≠ []) ∧ (n = 1 ∨ ∃ m, ∀ g ∈ nodes, ∀ x ∈ g, x.length = m)

/-- Data with points in every segment. -/
theorem sortColumns_some (norm : List K → K) {n k : Nat} (hn : 0 < n) (hk : 0 < k)
    (t : Nat → Nat → List K) (x u : Nat → Nat → List (List K)) :
    sortColumns norm ((List.range n).map fun ph => (List.range k).map fun s => some (t ph s, x ph s, u ph s)) =
      if n = 1 ∨ ∀ ph < n, ∀ s < k, (t ph s).length = (t 0 0).length then
        .ok ((List.range n).flatMap fun ph => (List.range k).flatMap fun s => (x ph s).map norm,
          (List.range n).flatMap fun ph => (List.range k).flatMap fun s => t ph s)
      else .error .value := by
  unfold sortColumns
  rw [pyIdx_ok (by simpa using hn), py_bind_ok, List.mapM_map]
  rw [mapM_ok _ (fun ph => ((List.range k).flatMap fun s => (x ph s).map norm, (List.range k).map (t ph)))]
  swap
  · intro ph _
    simp only [Function.comp_apply, List.mapM_map]
    rw [mapM_ok (secondData ∘ fun s => some (t ph s, x ph s, u ph s)) (fun s => (t ph s, x ph s, u ph s)) _ (fun s _ => rfl),
      py_bind_ok]
    have : ∀ {A : Type} (l : List (List A)), l ≠ [] → npConcat l = .ok l.flatten := by
      intro A l hl
      unfold npConcat
      cases l with
      | nil => exact absurd rfl hl
      | cons => rfl
    rw [this _ (by simp; omega), py_bind_ok]
    simp only [List.map_map, List.flatMap_def]
    rfl
  rw [py_bind_ok]
  obtain ⟨n', rfl⟩ : ∃ n', n = n' + 1 := ⟨n - 1, by omega⟩
  obtain ⟨k', rfl⟩ : ∃ k', k = k' + 1 := ⟨k - 1, by omega⟩
  have hhead : ((((List.range (n' + 1)).map fun ph => ((List.range (k' + 1)).flatMap fun s => (x ph s).map norm,
      (List.range (k' + 1)).map (t ph))).headD ([], [])).2.headD []) = t 0 0 := by
    simp [List.range_succ_eq_map]
  simp only [hhead]
  have hall : (((List.range (n' + 1)).map fun ph => ((List.range (k' + 1)).flatMap fun s => (x ph s).map norm,
      (List.range (k' + 1)).map (t ph))).all fun p => p.2.all fun t' => t'.length == (t 0 0).length) = true ↔
      ∀ ph < n' + 1, ∀ s < k' + 1, (t ph s).length = (t 0 0).length := by
    simp only [List.all_map, List.all_eq_true, List.mem_range, Function.comp_apply, beq_iff_eq]
  simp only [hall, List.length_map, List.length_range]
  by_cases hc : n' + 1 = 1 ∨ ∀ ph < n' + 1, ∀ s < k' + 1, (t ph s).length = (t 0 0).length
  · rw [if_pos hc, if_neg (by
      rintro ⟨h1, h2⟩
      rcases hc with h | h
      · omega
      · exact h2 h)]
    simp only [List.flatMap_def, List.map_map]
    rfl
  · rw [if_neg hc, if_pos ⟨by
      by_contra h
      exact hc (Or.inl (by omega)), fun h => hc (Or.inr h)⟩]
    rfl

theorem draw_twice (r t : List K) (hl : t.length = r.length) (ax : Option (Axes K)) :
    (do
      let blank := List.replicate 15 ""
      let a ← plotCurve (ax.getD .empty) (colMat r) t none (some "residuals") (dots 15) (some blank)
      let a ← plotCurve a (colMat r) t none (some "residuals") (strokes 15) (some blank)
      return { a with xlabel := some "Time, s" } : Py (Axes K)) =
    .ok ⟨(ax.getD .empty).curves ++ [⟨t, r, ".", none⟩, ⟨t, r, "-", none⟩], some "Time, s", some "residuals",
      (ax.getD .empty).legend⟩ := by
  have hcol : (colMat r).column 0 = r := by
    apply List.ext_getElem
    · simp [Mat.column, colMat]
    · intro i h1 h2
      simp only [Mat.column, colMat, List.getElem_map, List.getElem_range, List.getD_eq_getElem _ _ h2]
  simp only []
  rw [plotCurve_ok _ _ _ (show t.length = (colMat r).rows from hl) (by simp [colMat, dots])
    (by rintro l hl; cases hl; simp [colMat]), py_bind_ok,
    plotCurve_ok _ _ _ (show t.length = (colMat r).rows from hl) (by simp [colMat, strokes])
    (by rintro l hl; cases hl; simp [colMat]), py_bind_ok]
  have hc1 : (colMat r).cols = 1 := rfl
  simp only [hc1, List.range_one, List.map_cons, List.map_nil, hcol]
  simp [dots, strokes, curveLabel]
  rfl

/-- **C93** With `plot=True`, the norms of the second derivatives of the states are drawn over the times of the points, phase by phase
and segment by segment. -/
theorem C93_plot (h : e.Ready M) (norm : List K → K) {nodes : List (List (List K))} (hg : GridShape M e.disc.ocp.nPhases nodes)
    (hp : 0 < e.disc.ocp.nPhases) (hd : Drawable e.disc.ocp.nPhases nodes) (gt : Option String) (ax : Option (Axes K)) :
    ∃ out ts ys, e.secondPlot norm (some nodes) gt ax = .ok (out,
        ⟨(ax.getD .empty).curves ++ [⟨ts, ys, ".", none⟩, ⟨ts, ys, "-", none⟩], some "Time, s", some "residuals",
          (ax.getD .empty).legend⟩) ∧
      e.secondDerivative (some nodes) gt = .ok out ∧
      ts = ((List.range e.disc.ocp.nPhases).flatMap fun ph => (List.range M.orders.length).flatMap fun s =>
        ((nodes.getD ph []).getD s []).map (M.time e.traj ph s)) ∧
      ys = (List.range e.disc.ocp.nPhases).flatMap fun ph => (List.range M.orders.length).flatMap fun s =>
        ((nodes.getD ph []).getD s []).map fun tau => norm ((List.range e.disc.ocp.nx).map (e.bendX M ph s tau)) := by
  have hM : 0 < M.orders.length := List.length_pos_iff.2 h.mesh.good.nonempty
  have hcl := secondDerivative_closed h hg gt
  have hout : ((List.range e.disc.ocp.nPhases).map fun ph => (List.range M.orders.length).map fun s =>
      if ((nodes.getD ph []).getD s []).length = 0 then none else
        some (((nodes.getD ph []).getD s []).map (M.time e.traj ph s),
          ((nodes.getD ph []).getD s []).map (fun tau => (List.range e.disc.ocp.nx).map (e.bendX M ph s tau)),
          ((nodes.getD ph []).getD s []).map (fun tau => (List.range e.disc.ocp.nu).map (e.bendU M ph s tau)))) =
      (List.range e.disc.ocp.nPhases).map fun ph => (List.range M.orders.length).map fun s =>
        some (((nodes.getD ph []).getD s []).map (M.time e.traj ph s),
          ((nodes.getD ph []).getD s []).map (fun tau => (List.range e.disc.ocp.nx).map (e.bendX M ph s tau)),
          ((nodes.getD ph []).getD s []).map (fun tau => (List.range e.disc.ocp.nu).map (e.bendU M ph s tau))) := by
    apply List.map_congr_left
    intro ph hph
    apply List.map_congr_left
    intro s hs
    obtain ⟨g, g1, g2⟩ := points_mem hg (by simpa using hph) (by simpa using hs)
    rw [if_neg fun h0 => hd.1 g g1 _ g2 (List.length_eq_zero_iff.1 h0)]
  rw [hout] at hcl
  have hsort := sortColumns_some norm hp hM (fun ph s => ((nodes.getD ph []).getD s []).map (M.time e.traj ph s))
    (fun ph s => ((nodes.getD ph []).getD s []).map (fun tau => (List.range e.disc.ocp.nx).map (e.bendX M ph s tau)))
    (fun ph s => ((nodes.getD ph []).getD s []).map (fun tau => (List.range e.disc.ocp.nu).map (e.bendU M ph s tau)))
  rw [if_pos (hd.2.imp id fun ⟨m, hm⟩ ph hph s hs => by
    obtain ⟨g, g1, g2⟩ := points_mem hg hph hs
    obtain ⟨g', g1', g2'⟩ := points_mem hg hp hM
    rw [List.length_map, List.length_map, hm g g1 _ g2, hm g' g1' _ g2'])] at hsort
  simp only [List.map_map] at hsort
  have hl : ((List.range e.disc.ocp.nPhases).flatMap fun ph => (List.range M.orders.length).flatMap fun s =>
      ((nodes.getD ph []).getD s []).map (M.time e.traj ph s)).length =
      ((List.range e.disc.ocp.nPhases).flatMap fun ph => (List.range M.orders.length).flatMap fun s =>
        ((nodes.getD ph []).getD s []).map fun tau => norm ((List.range e.disc.ocp.nx).map (e.bendX M ph s tau))).length := by
    simp only [List.length_flatMap, List.length_map]
  refine ⟨_, _, _, ?_, hcl, rfl, rfl⟩
  unfold Solved.secondPlot
  rw [hcl, py_bind_ok, hsort, py_bind_ok]
  have := draw_twice _ _ hl ax
  simp only [py_bind_eq_ok, py_pure_eq_ok] at this ⊢
  obtain ⟨a1, h1, a2, h2, h3⟩ := this
  exact ⟨a1, h1, a2, h2, by rw [← h3]⟩

/-- **C93** Otherwise `plot=True` raises `ValueError`, though the results are returned without it. -/
theorem C93_plot_refused (h : e.Ready M) (norm : List K → K) {nodes : List (List (List K))}
    (hg : GridShape M e.disc.ocp.nPhases nodes) (hp : 0 < e.disc.ocp.nPhases) (hd : ¬ Drawable e.disc.ocp.nPhases nodes)
    (gt : Option String) (ax : Option (Axes K)) :
    e.secondPlot norm (some nodes) gt ax = .error .value ∧ ∃ out, e.secondDerivative (some nodes) gt = .ok out := by
  have hM : 0 < M.orders.length := List.length_pos_iff.2 h.mesh.good.nonempty
  have hcl := secondDerivative_closed h hg gt
  refine ⟨?_, _, hcl⟩
  unfold Solved.secondPlot
  rw [hcl, py_bind_ok]
  by_cases hne : ∀ g ∈ nodes, ∀ x ∈ g, x ≠ []
  · have hout : ((List.range e.disc.ocp.nPhases).map fun ph => (List.range M.orders.length).map fun s =>
        if ((nodes.getD ph []).getD s []).length = 0 then none else
          some (((nodes.getD ph []).getD s []).map (M.time e.traj ph s),
            ((nodes.getD ph []).getD s []).map (fun tau => (List.range e.disc.ocp.nx).map (e.bendX M ph s tau)),
            ((nodes.getD ph []).getD s []).map (fun tau => (List.range e.disc.ocp.nu).map (e.bendU M ph s tau)))) =
        (List.range e.disc.ocp.nPhases).map fun ph => (List.range M.orders.length).map fun s =>
          some (((nodes.getD ph []).getD s []).map (M.time e.traj ph s),
            ((nodes.getD ph []).getD s []).map (fun tau => (List.range e.disc.ocp.nx).map (e.bendX M ph s tau)),
            ((nodes.getD ph []).getD s []).map (fun tau => (List.range e.disc.ocp.nu).map (e.bendU M ph s tau))) := by
      apply List.map_congr_left
      intro ph hph
      apply List.map_congr_left
      intro s hs
      obtain ⟨g, g1, g2⟩ := points_mem hg (by simpa using hph) (by simpa using hs)
      rw [if_neg fun h0 => hne g g1 _ g2 (List.length_eq_zero_iff.1 h0)]
    rw [hout, sortColumns_some norm hp hM (fun ph s => ((nodes.getD ph []).getD s []).map (M.time e.traj ph s))
      (fun ph s => ((nodes.getD ph []).getD s []).map (fun tau => (List.range e.disc.ocp.nx).map (e.bendX M ph s tau)))
      (fun ph s => ((nodes.getD ph []).getD s []).map (fun tau => (List.range e.disc.ocp.nu).map (e.bendU M ph s tau))),
      if_neg]
    · rfl
    · intro hc
      refine hd ⟨hne, hc.imp id fun hc => ⟨((nodes.getD 0 []).getD 0 []).length, ?_⟩⟩
      intro g hg' x hx
      obtain ⟨ph, hph, s, hs, rfl⟩ := mem_points hg hg' hx
      simpa using hc ph hph s hs
  · simp only [not_forall, not_not] at hne
    obtain ⟨g, g1, x, g2, rfl⟩ := hne
    obtain ⟨ph, hph, s, hs, hx⟩ := mem_points hg g1 g2
    unfold sortColumns
    rw [pyIdx_ok (by simpa using hp), py_bind_ok, List.mapM_map]
    rw [mapM_error_same (er := .value)]
    · rfl
    · intro ph' _
      simp only [Function.comp_apply]
      have inner : ∀ l : List (SecondSeg K), (∃ b, l.mapM secondData = .ok b) ∨ l.mapM secondData = .error .value := by
        intro l
        by_cases hn : ∃ a ∈ l, a = none
        · refine Or.inr (mapM_error_same ?_ ?_)
          · intro a _
            cases a with
            | none => exact Or.inr rfl
            | some v => exact Or.inl ⟨v, rfl⟩
          · obtain ⟨a, ha, rfl⟩ := hn
            exact ⟨none, ha, rfl⟩
        · refine Or.inl ⟨_, mapM_ok _ (fun s : SecondSeg K => s.getD ([], [], [])) _ ?_⟩
          intro a ha
          cases a with
          | none => exact absurd ⟨none, ha, rfl⟩ hn
          | some v => rfl
      rcases inner ((List.range M.orders.length).map fun s =>
        if ((nodes.getD ph' []).getD s []).length = 0 then none else
          some (((nodes.getD ph' []).getD s []).map (M.time e.traj ph' s),
            ((nodes.getD ph' []).getD s []).map (fun tau => (List.range e.disc.ocp.nx).map (e.bendX M ph' s tau)),
            ((nodes.getD ph' []).getD s []).map (fun tau => (List.range e.disc.ocp.nu).map (e.bendU M ph' s tau)))) with
        ⟨b, hb⟩ | hb
      · rw [hb, py_bind_ok]
        unfold npConcat
        split
        · exact Or.inr rfl
        · exact Or.inl ⟨_, rfl⟩
      · rw [hb]; exact Or.inr rfl
    · refine ⟨ph, by simpa using hph, ?_⟩
      simp only [Function.comp_apply]
      rw [mapM_error_same (er := .value)]
      · rfl
      · intro a _
        cases a with
        | none => exact Or.inr rfl
        | some v => exact Or.inl ⟨v, rfl⟩
      · exact ⟨none, List.mem_map.2 ⟨s, by simpa using hs, by rw [hx]; rfl⟩, rfl⟩

/-! ### The plot of `interpolate_single_phase` -/

/-- `plot_all` of tables with known columns on two axes. -/
theorem plotAll_tables {x u : Mat K} {t : List K} (hx : t.length = x.rows) (hu : t.length = u.rows) {tics : List String}
    (htx : x.cols ≤ tics.length) (htu : u.cols ≤ tics.length) (legend : Bool) (name : String) (a0 a1 : Axes K) :
    plotAll x u t (some tics) legend name (some (.many [a0, a1])) = .ok (.many
      [⟨a0.curves ++ (List.range x.cols).map fun j => ⟨t, x.column j, tics.getD j "",
          if legend then fromOne (name ++ "state") j else none⟩, a0.xlabel, some "State variables", a0.legend || legend⟩,
       ⟨a1.curves ++ (List.range u.cols).map fun j => ⟨t, u.column j, tics.getD j "",
          if legend then fromOne (name ++ "control") j else none⟩, some "Time, s", some "Control variables",
          a1.legend || legend⟩]) := by
  unfold plotAll
  simp only [Option.getD_some]
  rw [show (Panel.many [a0, a1]).at 0 = .ok a0 from rfl, show (Panel.many [a0, a1]).at 1 = .ok a1 from rfl, py_bind_ok,
    plotCurve_ok a0 _ _ hx htx (by intro l hl; cases hl), py_bind_ok, py_bind_ok,
    plotCurve_ok a1 _ _ hu htu (by intro l hl; cases hl), py_bind_ok]
  cases legend <;> rfl

/-- Scaled node values and interpolated values of a component. -/
noncomputable def bothCurves (M : Mesh K) (ts : List K) (T : Traj K) (ph : Nat) (taus : List (List K)) (v : Nat → Nat → K)
    (sc : Nat → K) (n : Nat) (what : String) : List (Curve K) :=
  ((List.range n).map fun j => ⟨ts, (List.range M.N).map fun k => sc j * v k j, ".", fromOne what j⟩) ++
  (List.range n).map fun j => ⟨(List.range M.orders.length).flatMap fun s => (taus.getD s []).map (M.time T ph s),
    (List.range M.orders.length).flatMap fun s =>
      (taus.getD s []).map fun tau => sc j * (M.piece (fun k => v k j) s).eval tau, "-", none⟩

/-- **C93** With `"plot"` in `options`, `interpolate_single_phase` draws the scaled node values as dots over the node times, and the
scaled polynomials of the segments as lines at the given points; its results stay the same. -/
theorem C93_interpolate (h : e.Ready M) {ph : Nat} (hph : ph < e.disc.ocp.nPhases) {taus : List (List K)}
    (hlen : taus.length = M.orders.length) (hx : e.disc.ocp.nx ≤ 15) (hu : e.disc.ocp.nu ≤ 15) :
    ∃ r ts, e.interpolatePlot ph (some taus) = .ok (r, .many
        [⟨bothCurves M ts e.traj ph taus (e.traj.x ph) (fun j => e.disc.ocp.scaleX.getD j 0) e.disc.ocp.nx "state", none,
            some "State variables", true⟩,
         ⟨bothCurves M ts e.traj ph taus (e.traj.u ph) (fun j => e.disc.ocp.scaleU.getD j 0) e.disc.ocp.nu "control",
            some "Time, s", some "Control variables", true⟩]) ∧
      e.interpolate ph (some taus) = .ok r ∧ ts.length = M.N ∧
      ∀ s i, M.Owns s i → ts[M.idx s i]? = some (M.time e.traj ph s (M.node s i)) := by
  obtain ⟨tr, htr, ex, eu, htl, ht, -⟩ := h.mesh.trajectories_spec h.z h.widths hph
  obtain ⟨r, hr, ok⟩ := h.interpolate_spec hph hlen
  have hN : e.disc.N = M.N := by
    have := h.mesh.orders
    unfold Disc.N Mesh.N
    rw [this]
  have hrt : r.t.length = (taus.map List.length).sum := by
    rw [ok.t, List.length_flatten, List.map_map]
    congr 1
    apply List.ext_getElem
    · simp [hlen]
    · intro s h1 h2
      have hs : s < taus.length := by simpa using h2
      simp [List.getElem?_eq_getElem hs]
  refine ⟨r, tr.t, ?_, hr, htl, ht⟩
  have q1 := plotAll_tables (x := tr.x) (u := tr.u) (t := tr.t) (by rw [ex, htl, hN]) (by rw [eu, htl, hN])
    (tics := dots 15) (by rw [ex]; simpa [dots] using hx) (by rw [eu]; simpa [dots] using hu) true "" .empty .empty
  have q2 := plotAll_tables (x := r.x) (u := r.u) (t := r.t) (by rw [hrt, ok.xrows]) (by rw [hrt, ok.urows])
    (tics := strokes 20) (by rw [ok.xcols]; simp [strokes]; omega) (by rw [ok.ucols]; simp [strokes]; omega) false ""
  unfold Solved.interpolatePlot
  rw [htr, py_bind_ok, hr, py_bind_ok, plotAll_new, q1, py_bind_ok]
  have hnone : ∀ a, plotAll r.x r.u r.t none false "" a = plotAll r.x r.u r.t (some (strokes 20)) false "" a := fun _ => rfl
  rw [hnone, q2, py_bind_ok]
  have hflat : r.t = (List.range M.orders.length).flatMap fun s => (taus.getD s []).map (M.time e.traj ph s) := by
    rw [ok.t, List.flatMap_def]
  have hcol : ∀ (A : Mat K) (f : Nat → K → K), A.rows = (taus.map List.length).sum →
      ∀ j, (∀ (s : Nat) (hs : s < taus.length) (i : Nat) (hi : i < taus[s].length),
        A.e (segStart (taus.map List.length) s + i) j = f s taus[s][i]) →
      A.column j = (List.range M.orders.length).flatMap fun s => (taus.getD s []).map (f s) := by
    intro A f hA j hj
    rw [List.flatMap_def]
    have hB : ((List.range M.orders.length).map fun s => (taus.getD s []).map (f s)).map List.length = taus.map List.length := by
      apply List.ext_getElem
      · simp [hlen]
      · intro s h1 h2
        have hs : s < taus.length := by simpa using h2
        simp [List.getElem?_eq_getElem hs]
    apply eq_flatten_of_getElem?
    · rw [hB]; simp [Mat.column, hA]
    · intro s hs i hi
      have hs' : s < taus.length := by rw [hlen]; simpa using hs
      have hi' : i < taus[s].length := by
        simpa [List.getElem?_eq_getElem hs'] using hi
      rw [hB]
      have hlt : segStart (taus.map List.length) s + i < A.rows := by
        rw [hA]
        have h1 := segStart_succ (taus.map List.length) (s := s) (by simpa using hs')
        have h2 := segStart_le_sum (taus.map List.length) (s + 1)
        simp only [List.getElem_map] at h1
        omega
      unfold Mat.column
      rw [List.getElem?_map, List.getElem?_range hlt, Option.map_some, hj s hs' i hi']
      simp [List.getElem?_eq_getElem hs']
  have hg : ∀ j < 15, (dots 15).getD j "" = "." := fun j hj => getD_replicate_of_lt hj _ _
  have hg2 : ∀ j < 20, (strokes 20).getD j "" = "-" := fun j hj => getD_replicate_of_lt hj _ _
  have cx : tr.x.cols = e.disc.ocp.nx := by rw [ex]
  have cu : tr.u.cols = e.disc.ocp.nu := by rw [eu]
  simp only [ok.xcols, ok.ucols, cx, cu, Axes.empty, List.nil_append]
  have node : ∀ (n : Nat) (v : Nat → Nat → K) (sc : Nat → K) (w : Nat → Nat → K) (what : String), n ≤ 15 →
      (∀ k, ∀ j < n, w k j = sc j * v k j) →
      ((List.range n).map fun j => (⟨tr.t, (⟨e.disc.N, n, w⟩ : Mat K).column j, (dots 15).getD j "",
        if True then fromOne ("" ++ what) j else none⟩ : Curve K)) =
      (List.range n).map fun j => ⟨tr.t, (List.range M.N).map fun k => sc j * v k j, ".", fromOne what j⟩ := by
    intro n v sc w what hn hw
    apply List.map_congr_left
    intro j hj
    have hj : j < n := by simpa using hj
    rw [hg j (by omega), if_pos trivial, String.empty_append]
    congr 1
    unfold Mat.column
    rw [hN]
    exact List.map_congr_left fun k _ => hw k j hj
  have line : ∀ (n : Nat) (v : Nat → Nat → K) (sc : Nat → K) (A : Mat K) (what : String), n ≤ 15 →
      A.rows = (taus.map List.length).sum →
      (∀ (s : Nat) (hs : s < taus.length) (i : Nat) (hi : i < taus[s].length), ∀ j < n,
        A.e (segStart (taus.map List.length) s + i) j = sc j * (M.piece (fun k => v k j) s).eval taus[s][i]) →
      ((List.range n).map fun j => (⟨r.t, A.column j, (strokes 20).getD j "",
        if false = true then fromOne ("" ++ what) j else none⟩ : Curve K)) =
      (List.range n).map fun j => ⟨(List.range M.orders.length).flatMap fun s => (taus.getD s []).map (M.time e.traj ph s),
        (List.range M.orders.length).flatMap fun s =>
          (taus.getD s []).map fun tau => sc j * (M.piece (fun k => v k j) s).eval tau, "-", none⟩ := by
    intro n v sc A what hn hA hv
    apply List.map_congr_left
    intro j hj
    have hj : j < n := by simpa using hj
    rw [hg2 j (by omega), hflat, hcol A (fun s tau => sc j * (M.piece (fun k => v k j) s).eval tau) hA j
      fun s hs i hi => hv s hs i hi j hj]
    rfl
  have nx := node e.disc.ocp.nx (e.traj.x ph) (fun j => e.disc.ocp.scaleX.getD j 0)
    (fun i j => e.disc.envOf e.z e.widths (.X ph i j)) "state" hx (by
      intro k j hj
      have := h.scX hj
      show _ = _ * (_ / _)
      rw [mul_div_cancel₀ _ this])
  have nu := node e.disc.ocp.nu (e.traj.u ph) (fun j => e.disc.ocp.scaleU.getD j 0)
    (fun i j => e.disc.envOf e.z e.widths (.U ph i j)) "control" hu (by
      intro k j hj
      have := h.scU hj
      show _ = _ * (_ / _)
      rw [mul_div_cancel₀ _ this])
  have lx := line e.disc.ocp.nx (e.traj.x ph) (fun j => e.disc.ocp.scaleX.getD j 0) r.x "state" hx ok.xrows ok.x
  have lu := line e.disc.ocp.nu (e.traj.u ph) (fun j => e.disc.ocp.scaleU.getD j 0) r.u "control" hu ok.urows ok.u
  rw [ex, eu, nx, nu, lx, lu]
  rfl

/-- **C93** There are tics for 15 components only. -/
theorem C93_interpolate_index (h : e.Ready M) {ph : Nat} (hph : ph < e.disc.ocp.nPhases) {taus : List (List K)}
    (hlen : taus.length = M.orders.length) (hx : 15 < e.disc.ocp.nx ∨ 15 < e.disc.ocp.nu) :
    e.interpolatePlot ph (some taus) = .error .index ∧ ∃ r, e.interpolate ph (some taus) = .ok r := by
  obtain ⟨tr, htr, ex, eu, htl, -⟩ := h.mesh.trajectories_spec h.z h.widths hph
  obtain ⟨r, hr, -⟩ := h.interpolate_spec hph hlen
  have hN : e.disc.N = M.N := by
    have := h.mesh.orders
    unfold Disc.N Mesh.N
    rw [this]
  have hxr : tr.t.length = tr.x.rows := by rw [ex, htl, hN]
  have hur : tr.t.length = tr.u.rows := by rw [eu, htl, hN]
  refine ⟨?_, r, hr⟩
  unfold Solved.interpolatePlot
  rw [htr, py_bind_ok, hr, py_bind_ok, plotAll_new]
  unfold plotAll
  simp only [Option.getD_some]
  rw [show (Panel.many [(Axes.empty : Axes K), .empty]).at 0 = .ok .empty from rfl,
    show (Panel.many [(Axes.empty : Axes K), .empty]).at 1 = .ok .empty from rfl, py_bind_ok]
  by_cases hx' : 15 < e.disc.ocp.nx
  · rw [plotCurve_index _ _ _ hxr (by rw [ex]; simpa [dots] using hx')]
    rfl
  · rw [plotCurve_ok _ _ _ hxr (by rw [ex]; simpa [dots] using hx') (by intro l hl; cases hl), py_bind_ok, py_bind_ok,
      plotCurve_index _ _ _ hur (by rw [eu]; simpa [dots] using hx.resolve_left hx')]
    rfl

end MPOpt
