import Verif.Props.Plot

/-! # C71: `plot_x`, `plot_u` and `plot_phase` -/

set_option autoImplicit false
set_option linter.unusedSectionVars false

namespace MPOpt

section
variable {K : Type}

theorem Mat.pick_ok {A : Mat K} {dims : List Nat} (h : ∀ d ∈ dims, d < A.cols) :
    A.pick dims = .ok ⟨A.rows, dims.length, fun i j => A.e i (dims.getD j 0)⟩ := by
  unfold Mat.pick
  rw [if_pos]
  simpa using h

theorem Mat.pick_index {A : Mat K} {dims : List Nat} {d : Nat} (hd : d ∈ dims) (h : A.cols ≤ d) :
    A.pick dims = .error .index := by
  unfold Mat.pick
  rw [if_neg]
  rw [List.all_eq_true]
  intro hh
  have := hh d hd
  simp only [decide_eq_true_eq] at this
  omega

/-- Curves for some components in one style, labelled with their indices. -/
def component (t : List K) (y : Nat → List K) (tic : String) (name : Option String) (d : Nat) : Curve K :=
  ⟨t, y d, tic, name.map fun n => n ++ " " ++ toString d⟩

/-- `plot_curve` on chosen columns. -/
theorem plotCurve_pick {A : Mat K} {t : List K} {y : Nat → List K} {m : Nat} {tic : String} {dims : List Nat}
    (hr : t.length = A.rows) (hc : ∀ d < A.cols, A.column d = y d) (hd : ∀ d ∈ dims, d < A.cols)
    (hm : dims.length ≤ m) (ax : Axes K) (name ylabel : Option String) :
    (A.pick dims >>= fun x => plotCurve ax x t name ylabel (List.replicate m tic) (some (dims.map toString))) =
      .ok ⟨ax.curves ++ dims.map (component t y tic name), ax.xlabel, ylabel, ax.legend || name.isSome⟩ := by
  rw [Mat.pick_ok hd, py_bind_ok]
  rw [plotCurve_ok (x := ⟨A.rows, dims.length, fun i j => A.e i (dims.getD j 0)⟩) ax name ylabel hr (by simpa using hm)
    (by rintro l ⟨⟩; simp)]
  congr 3
  apply List.ext_getElem (by simp)
  intro i h1 h2
  have hi : i < dims.length := by simpa using h1
  rw [List.getElem_map, List.getElem_map, List.getElem_range]
  have e2 : legendEntry (some (dims.map toString)) i = toString dims[i] := by
    unfold legendEntry
    simp only
    rw [List.getD_eq_getElem _ _ (by simpa using hi), List.getElem_map]
  have e1 : (⟨A.rows, dims.length, fun i j => A.e i (dims.getD j 0)⟩ : Mat K).column i = y dims[i] := by
    rw [← hc _ (hd _ (List.getElem_mem hi))]
    unfold Mat.column
    simp only [List.getD_eq_getElem _ _ hi]
  rw [e1, getD_replicate_of_lt (by omega)]
  simp only [component, curveLabel, e2]

end

section
variable {K : Type} {A : Mat K} {t : List K} {y : Nat → List K} {m : Nat} {tic : String}
  (hr : t.length = A.rows) (hc : ∀ d < A.cols, A.column d = y d) (name ylabel : Option String) (v : Bool)
include hr hc

/-- A list of components goes on one set of axes. -/
theorem plotSingle_flat {dims : List Nat} (hne : dims ≠ []) (hd : ∀ d ∈ dims, d < A.cols) (hm : dims.length ≤ m)
    (ax : Axes K) :
    plotSingle A t (.flat dims) name ylabel v (some (.one ax)) (some (List.replicate m tic)) =
      .ok (.one ⟨ax.curves ++ dims.map (component t y tic name), some "Time, s", ylabel, ax.legend || name.isSome⟩) := by
  obtain ⟨d, l, rfl⟩ := List.exists_cons_of_ne_nil hne
  have := plotCurve_pick (tic := tic) hr hc hd hm ax name ylabel
  rw [Mat.pick_ok hd, py_bind_ok] at this
  unfold plotSingle
  simp only [Option.getD_some]
  rw [Mat.pick_ok hd, py_bind_ok, this, py_bind_ok]
  rfl

/-- Two or more lists: one subplot each. -/
theorem plotSingle_nested {gs : List (List Nat)} (hg : 2 ≤ gs.length) (hd : ∀ g ∈ gs, ∀ d ∈ g, d < A.cols)
    (hm : ∀ g ∈ gs, g.length ≤ m) {axs : List (Axes K)} (hl : axs.length = gs.length) :
    plotSingle A t (.nested gs) name ylabel v (some (.many axs)) (some (List.replicate m tic)) =
      .ok (.many ((List.range gs.length).map fun i =>
        ⟨(axs.getD i .empty).curves ++ (gs.getD i []).map (component t y tic name),
          if v = false ∨ i + 1 = gs.length then some "Time, s" else (axs.getD i .empty).xlabel, ylabel,
          (axs.getD i .empty).legend || name.isSome⟩)) := by
  obtain ⟨g, gs, rfl⟩ := List.exists_cons_of_ne_nil (l := gs) (by rintro rfl; simp at hg)
  obtain ⟨g', gs, rfl⟩ := List.exists_cons_of_ne_nil (l := gs) (by rintro rfl; simp at hg)
  unfold plotSingle
  simp only [Option.getD_some]
  set all := g :: g' :: gs with hall
  rw [mapM_ok (g := fun i => (⟨(axs.getD i .empty).curves ++ (all.getD i []).map (component t y tic name),
          if v = false ∨ i + 1 = all.length then some "Time, s" else (axs.getD i .empty).xlabel, ylabel,
          (axs.getD i .empty).legend || name.isSome⟩ : Axes K))]
  · rw [py_bind_ok, List.drop_eq_nil_of_le (by rw [hl]), List.append_nil]
    rfl
  · intro i hi
    have hi : i < all.length := by simpa using hi
    have h1 : (Panel.many axs).at i = .ok (axs.getD i .empty) := by
      unfold Panel.at
      simp only
      rw [pyIdx_some (List.getElem?_eq_getElem (by omega : i < axs.length)), List.getD_eq_getElem _ _ (by omega)]
    have h2 : pyIdx all i = .ok (all.getD i []) := by
      rw [pyIdx_some (List.getElem?_eq_getElem hi), List.getD_eq_getElem _ _ hi]
    have hmem : all.getD i [] ∈ all := by
      rw [List.getD_eq_getElem _ _ hi]
      exact List.getElem_mem hi
    have h3 := plotCurve_pick (tic := tic) hr hc (hd _ hmem) (hm _ hmem) (axs.getD i .empty) name ylabel
    rw [Mat.pick_ok (hd _ hmem), py_bind_ok] at h3
    rw [h1, py_bind_ok, h2, py_bind_ok, Mat.pick_ok (hd _ hmem), py_bind_ok, h3, py_bind_ok]
    by_cases hv : v = false ∨ i + 1 = all.length
    · rw [if_pos hv, if_pos (by rcases hv with rfl | hv <;> simp [*])]
      rfl
    · rw [if_neg hv, if_neg (by
        intro hh
        apply hv
        cases v with
        | false => exact Or.inl rfl
        | true => exact Or.inr (by simpa using hh))]
      rfl

/-- A list with a single list in it: all curves get the label of the whole list. -/
theorem plotSingle_group {g : List Nat} (hd : ∀ d ∈ g, d < A.cols) (hm : 0 < m) (ax : Axes K) :
    plotSingle A t (.nested [g]) name ylabel v (some (.one ax)) (some (List.replicate m tic)) =
      .ok (.one ⟨ax.curves ++ g.map fun d => ⟨t, y d, tic, name.map fun n => n ++ " " ++ pyListStr g⟩,
        some "Time, s", ylabel, ax.legend || name.isSome⟩) := by
  have htic : pyIdx (List.replicate m tic) 0 = .ok tic := by
    rw [pyIdx_some (List.getElem?_eq_getElem (by simpa using hm)), List.getElem_replicate]
  set B : Mat K := ⟨A.rows, g.length, fun i j => A.e i (g.getD j 0)⟩ with hB
  have hfold : ∀ n ≤ g.length, ∀ ax : Axes K, (List.range n).foldlM (fun ax i =>
      ax.plot t (B.column i) tic (name.map fun n => n ++ " " ++ pyListStr g)) ax =
      (.ok { ax with curves := ax.curves ++ (g.take n).map fun d =>
        ⟨t, y d, tic, name.map fun n => n ++ " " ++ pyListStr g⟩ } : Py (Axes K)) := by
    intro n
    induction n with
    | zero => intro _ ax; simp; rfl
    | succ n ih =>
      intro hn ax
      have hi : n < g.length := by omega
      rw [List.range_succ, List.foldlM_append, ih (by omega), py_bind_ok, List.foldlM_cons]
      simp only [List.foldlM_nil]
      have hlen : t.length = (B.column n).length := by simp [Mat.column, hr, hB]
      have e1 : B.column n = y g[n] := by
        rw [← hc _ (hd _ (List.getElem_mem hi))]
        unfold Mat.column
        simp only [hB, List.getD_eq_getElem _ _ hi]
      unfold Axes.plot
      rw [if_pos hlen, py_bind_ok, List.take_succ_eq_append_getElem hi, e1]
      simp only [List.map_append, List.map_cons, List.map_nil, List.append_assoc]
      rfl
  unfold plotSingle plotGroup
  simp only [Option.getD_some]
  rw [Mat.pick_ok hd, py_bind_ok, htic, py_bind_ok]
  have := hfold g.length le_rfl ax
  rw [List.take_length] at this
  simp only [← hB]
  rw [this, py_bind_ok]
  rfl

end

section
variable {K : Type} [Field K] [LinearOrder K] {p : Post K} {M : Mesh K}
  (h : p.solved.Ready M) {phases : List Nat} (hne : phases ≠ [])
  (hph : ∀ ph ∈ phases, ph < p.solved.disc.ocp.nPhases)
include h hne hph

/-- What `plot_x` draws of component `d`. -/
noncomputable def stateCurve (p : Post K) (M : Mesh K) (phases : List Nat) (interpolate : Bool) (tic : String)
    (name : Option String) : Nat → Curve K :=
  let T := p.solved.traj
  let sc := unitOr p.scaling p.solved.disc.ocp.scaleX
  if interpolate then component (phases.flatMap (M.timesAt M.plotGrid T)) (M.lineSeries T.x sc phases) tic name
  else component (phases.flatMap (M.nodeTimes T)) (nodeSeries M.N T.x sc phases) tic name

/-- What `plot_u` draws of component `d`. -/
noncomputable def controlCurve (p : Post K) (M : Mesh K) (phases : List Nat) (interpolate : Bool) (tic : String)
    (name : Option String) : Nat → Curve K :=
  let T := p.solved.traj
  let sc := unitOr p.scaling p.solved.disc.ocp.scaleU
  if interpolate then component (phases.flatMap (M.timesAt M.plotGrid T)) (M.lineSeries T.u sc phases) tic name
  else component (phases.flatMap (M.nodeTimes T)) (nodeSeries M.N T.u sc phases) tic name

/-- The data drawn. -/
theorem shown_data (interpolate : Bool) : ∃ D t x u, p.getData phases interpolate = .ok D ∧ Shown p D t x u ∧
    (∀ tic name, stateCurve p M phases interpolate tic name = component t x tic name) ∧
    ∀ tic name, controlCurve p M phases interpolate tic name = component t u tic name := by
  cases interpolate with
  | true =>
    obtain ⟨D, h1, h2⟩ := shown_lines h hne hph
    exact ⟨D, _, _, _, h1, h2, fun _ _ => rfl, fun _ _ => rfl⟩
  | false =>
    obtain ⟨D, h1, h2⟩ := shown_nodes h hne hph
    exact ⟨D, _, _, _, h1, h2, fun _ _ => rfl, fun _ _ => rfl⟩

theorem phases_nonempty : (if phases.isEmpty then p.phases else phases) = phases := by
  rw [if_neg (by simpa using hne)]

/-- **C71** `plot_x` with a list of at most 15 states draws each of them once, as a line labelled with its index
counted from zero: through the nodes, or on the plot grid. -/
theorem C71_plot_x {dims : List Nat} (hd0 : dims ≠ []) (hd : ∀ d ∈ dims, d < p.solved.disc.ocp.nx)
    (hm : dims.length ≤ 15) (v interpolate : Bool) :
    p.plotX (some (.flat dims)) phases v interpolate none (some (strokes 15)) =
      .ok (.one ⟨dims.map (stateCurve p M phases interpolate "-" (some "state")), some "Time, s",
        some "State variables", true⟩) := by
  obtain ⟨D, t, x, u, e1, e2, e3, -⟩ := shown_data h hne hph interpolate
  obtain ⟨d, l, rfl⟩ := List.exists_cons_of_ne_nil hd0
  unfold Post.plotX
  rw [phases_nonempty h hne hph]
  simp only []
  rw [e1, py_bind_ok, e2.t, e3]
  exact plotSingle_flat (m := 15) (tic := "-") e2.xr (y := x) (fun d hd => e2.x d (by rw [← e2.xc]; exact hd)) _ _ v
    hd0 (fun d hh => by rw [e2.xc]; exact hd d hh) hm .empty

/-- **C71** Without list `plot_x` draws all states. -/
theorem C71_plot_x_all (hn : 0 < p.solved.disc.ocp.nx) (hm : p.solved.disc.ocp.nx ≤ 15) (v interpolate : Bool) :
    p.plotX none phases v interpolate none (some (strokes 15)) =
      .ok (.one ⟨(List.range p.solved.disc.ocp.nx).map (stateCurve p M phases interpolate "-" (some "state")),
        some "Time, s", some "State variables", true⟩) := by
  have e : p.plotX none phases v interpolate none (some (strokes 15)) =
      p.plotX (some (.flat (List.range p.solved.disc.ocp.nx))) phases v interpolate none (some (strokes 15)) := by
    unfold Post.plotX
    obtain ⟨k, hk⟩ : ∃ k, p.solved.disc.ocp.nx = k + 1 := ⟨p.solved.disc.ocp.nx - 1, by omega⟩
    have : defaultDims none p.solved.disc.ocp.nx =
        defaultDims (some (.flat (List.range p.solved.disc.ocp.nx))) p.solved.disc.ocp.nx := by
      rw [hk]
      unfold defaultDims
      simp only [List.range_succ_eq_map]
    rw [this]
  rw [e]
  exact C71_plot_x h hne hph (by simp; omega) (by simp) (by simpa using hm) v interpolate

/-- **C71** `plot_x` with two or more lists of states draws each on its own subplot; the time axis is labelled on the
last one, or on all if they are side by side. -/
theorem C71_plot_x_groups {gs : List (List Nat)} (hg : 2 ≤ gs.length) (hd : ∀ g ∈ gs, ∀ d ∈ g, d < p.solved.disc.ocp.nx)
    (hm : ∀ g ∈ gs, g.length ≤ 15) (v interpolate : Bool) :
    p.plotX (some (.nested gs)) phases v interpolate none (some (strokes 15)) =
      .ok (.many ((List.range gs.length).map fun i =>
        ⟨(gs.getD i []).map (stateCurve p M phases interpolate "-" (some "state")),
          if v = false ∨ i + 1 = gs.length then some "Time, s" else none, some "State variables", true⟩)) := by
  obtain ⟨D, t, x, u, e1, e2, e3, -⟩ := shown_data h hne hph interpolate
  obtain ⟨g, l, rfl⟩ := List.exists_cons_of_ne_nil (l := gs) (by rintro rfl; simp at hg)
  unfold Post.plotX
  rw [phases_nonempty h hne hph]
  simp only []
  rw [e1, py_bind_ok, e2.t, e3]
  have h1 := plotSingle_nested (m := 15) (tic := "-") e2.xr (y := x) (fun d hd => e2.x d (by rw [← e2.xc]; exact hd))
    (some "state") (some "State variables") v hg (fun g hg d hh => by rw [e2.xc]; exact hd g hg d hh) hm
    (axs := List.replicate (g :: l).length .empty) (by simp)
  have h2 : plotSingle D.x t (.nested (g :: l)) (some "state") (some "State variables") v none (some (strokes 15)) =
      plotSingle D.x t (.nested (g :: l)) (some "state") (some "State variables") v
        (some (.many (List.replicate (g :: l).length .empty))) (some (List.replicate 15 "-")) := by
    obtain ⟨g', l, rfl⟩ := List.exists_cons_of_ne_nil (l := l) (by rintro rfl; simp at hg)
    rfl
  show plotSingle D.x t (.nested (g :: l)) _ _ v none _ = _
  rw [h2, h1]
  congr 2
  apply List.map_congr_left
  intro i hi
  have hi : i < (g :: l).length := by simpa using hi
  rw [List.getD_eq_getElem _ _ (by simpa using hi), List.getElem_replicate]
  rfl

/-- **C71** `plot_u` with a list of at most 15 controls draws them as lines without label, and if it interpolates also
as dots at the nodes, labelled with the index counted from zero. Without interpolation name and line style are ignored. -/
theorem C71_plot_u {dims : List Nat} (hd0 : dims ≠ []) (hd : ∀ d ∈ dims, d < p.solved.disc.ocp.nu)
    (hm : dims.length ≤ 15) (v interpolate : Bool) (name ylabel : Option String) :
    p.plotU (some (.flat dims)) phases v interpolate none none name ylabel =
      .ok (.one ⟨(if interpolate then dims.map (controlCurve p M phases false "." name) else []) ++
        dims.map (controlCurve p M phases interpolate "-" none), some "Time, s", ylabel,
        interpolate && name.isSome⟩) := by
  obtain ⟨D, t, x, u, e1, e2, -, e3⟩ := shown_data h hne hph interpolate
  obtain ⟨D', t', x', u', f1, f2, -, f3⟩ := shown_data h hne hph false
  obtain ⟨d, l, rfl⟩ := List.exists_cons_of_ne_nil hd0
  unfold Post.plotU
  rw [phases_nonempty h hne hph]
  have hE := fun ax : Axes K => plotSingle_flat (m := 15) (tic := "-") e2.ur (y := u)
    (fun d hd => e2.u d (by rw [← e2.uc]; exact hd)) none ylabel v hd0 (fun d hh => by rw [e2.uc]; exact hd d hh) hm ax
  have hF := plotSingle_flat (m := 15) (tic := ".") f2.ur (y := u')
    (fun d hd => f2.u d (by rw [← f2.uc]; exact hd)) name none v hd0 (fun d hh => by rw [f2.uc]; exact hd d hh) hm .empty
  cases interpolate with
  | false =>
    simp only [Bool.false_eq_true, if_false, pure_bind]
    rw [e1, py_bind_ok, e2.t, e3]
    refine (hE .empty).trans ?_
    cases name <;> rfl
  | true =>
    simp only [if_true]
    rw [f1]
    simp only [py_bind_ok]
    rw [f2.t]
    have hF' : plotSingle D'.u t' (defaultDims (some (.flat (d :: l))) p.solved.disc.ocp.nu) name none v none
        (some ((none : Option (List String)).getD (dots 15))) = _ := hF
    rw [hF', py_bind_ok]
    simp only [pure_bind]
    rw [e1, py_bind_ok, e2.t, e3, f3]
    refine (hE _).trans ?_
    cases name <;> rfl

/-- **C71** A problem without controls cannot be drawn with `plot_u`. -/
theorem C71_plot_u_none (hn : p.solved.disc.ocp.nu = 0) (v interpolate : Bool) (name ylabel : Option String) :
    p.plotU none phases v interpolate none none name ylabel = .error .index := by
  obtain ⟨D, t, x, u, e1, e2, -, e3⟩ := shown_data h hne hph interpolate
  obtain ⟨D', t', x', u', f1, f2, -, f3⟩ := shown_data h hne hph false
  unfold Post.plotU
  rw [phases_nonempty h hne hph]
  cases interpolate with
  | false =>
    simp only [Bool.false_eq_true, if_false, pure_bind]
    rw [e1, py_bind_ok, hn]
    rfl
  | true =>
    simp only [if_true]
    rw [f1, hn]
    rfl

/-- **C71** A list with one list in it: every state gets the same label. -/
theorem C71_plot_x_group {g : List Nat} (hd : ∀ d ∈ g, d < p.solved.disc.ocp.nx) (v interpolate : Bool) :
    p.plotX (some (.nested [g])) phases v interpolate none (some (strokes 15)) =
      .ok (.one ⟨g.map fun d => { stateCurve p M phases interpolate "-" (some "state") d with
        label := some ("state " ++ pyListStr g) }, some "Time, s", some "State variables", true⟩) := by
  obtain ⟨D, t, x, u, e1, e2, e3, -⟩ := shown_data h hne hph interpolate
  unfold Post.plotX
  rw [phases_nonempty h hne hph]
  simp only []
  rw [e1, py_bind_ok, e2.t, e3]
  refine (plotSingle_group (m := 15) (tic := "-") e2.xr (y := x) (fun d hd => e2.x d (by rw [← e2.xc]; exact hd)) _ _ v
    (fun d hh => by rw [e2.xc]; exact hd d hh) (by omega) .empty).trans ?_
  rfl

end

section
variable {K : Type} [Field K] [LinearOrder K] {p : Post K} {M : Mesh K}
  (h : p.solved.Ready M) {ph : Nat} (hph : ph < p.solved.disc.ocp.nPhases)
include h hph

/-- **C71** `plot_phase` returns nothing, though documented to return the figure. -/
theorem C71_plot_phase (hx : p.solved.disc.ocp.nx ≤ 15) (hu : p.solved.disc.ocp.nu ≤ 15) (interpolate : Bool) :
    p.plotPhase none ph interpolate none = .ok none := by
  unfold Post.plotPhase
  rw [C71_plot_phases h (by simp) (by simpa using hph) hx hu none interpolate true (Or.inr rfl) ""]
  rfl

end

/-- **C71** `plot_residuals` draws the sorted data of `sort_residual_data` twice: in the given style with the given
name, and as a line without label. -/
theorem C71_plot_residuals {K : Type} [Field K] [LinearOrder K] (norm : List K → K) {time : List (List (List K))}
    {residuals : List (List (SegResidual K))} {phases : List Nat} {r ts : List K}
    (h : sortResidualData norm time residuals phases = .ok (r, ts.map .num)) (hl : ts.length = r.length)
    (name : Option String) (tic : String) (tics : List String) :
    plotResiduals norm time residuals phases name none (some (tic :: tics)) =
      .ok ⟨[⟨ts, r, tic, name.map fun n => n ++ " "⟩, ⟨ts, r, "-", none⟩], some "Time, s", some "residuals",
        name.isSome⟩ := by
  have hts : (ts.map PlotCell.num).mapM PlotCell.time = (.ok ts : Py (List K)) := by
    rw [List.mapM_map, mapM_ok (PlotCell.time ∘ PlotCell.num) id ts fun a _ => rfl, List.map_id]
  have hcol : (colMat r).column 0 = r := by
    apply List.ext_getElem (by simp [Mat.column, colMat])
    intro i h1 h2
    simp [Mat.column, colMat, h2]
  have hrow : ts.length = (colMat r).rows := hl
  have hone : (colMat r).cols = 1 := rfl
  unfold plotResiduals
  simp only [h, py_bind_ok]
  rw [hts, py_bind_ok]
  rw [plotCurve_ok _ _ _ hrow (by rw [hone]; simp) (by rintro l ⟨⟩; rw [hone]; simp), py_bind_ok,
    plotCurve_ok _ _ _ hrow (by rw [hone]; simp [strokes]) (by rintro l ⟨⟩; rw [hone]; simp), py_bind_ok]
  simp only [hone, List.range_one, List.map_cons, List.map_nil, hcol]
  cases name <;> simp [curveLabel, legendEntry, Axes.empty, strokes] <;> rfl

/-- **C71** The label that names state `j + 1` in `plot_x` names state `j` in `plot_phases`. -/
theorem C71_labels_shift (what : String) (j : Nat) : fromOne what j = fromZero what (j + 1) := rfl

end MPOpt
