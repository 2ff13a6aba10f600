import Verif.Spec.Plot
import Verif.Props.PostInterp
import Verif.Props.PlotDataExample

/-! # C71: what the plots of `post_process` show -/

set_option autoImplicit false
set_option linter.unusedSectionVars false

namespace MPOpt

section
variable {K : Type}

/-- What follows the name in the label of curve `j`. -/
def legendEntry (legend : Option (List String)) (j : Nat) : String :=
  match legend with
  | none => toString (j + 1)
  | some l => l.getD j ""

/-- Label of curve `j` of `plot_curve`. -/
def curveLabel (name : Option String) (legend : Option (List String)) (j : Nat) : Option String :=
  name.map fun n => n ++ " " ++ legendEntry legend j

theorem plotCurve_fold {x : Mat K} {t : List K} (name : Option String) {tics : List String}
    {legend : Option (List String)} (hr : t.length = x.rows) : ∀ (n : Nat) (ax : Axes K), n ≤ tics.length →
    (∀ l, legend = some l → n ≤ l.length) →
    (List.range n).foldlM (fun ax i => (do
      let stateIndex ← curveIndex legend i
      let label := name.map fun n => n ++ " " ++ stateIndex
      ax.plot t (x.column i) (← pyIdx tics i) label : Py (Axes K))) ax =
    .ok { ax with curves := ax.curves ++ (List.range n).map fun j =>
      ⟨t, x.column j, tics.getD j "", curveLabel name legend j⟩ } := by
  intro n
  induction n with
  | zero => intro ax _ _; simp; rfl
  | succ n ih =>
    intro ax ht hl
    rw [List.range_succ, List.foldlM_append, ih ax (by omega) fun l hl' => by have := hl l hl'; omega, py_bind_ok,
      List.foldlM_cons]
    have hlen : t.length = (x.column n).length := by simp [Mat.column, hr]
    have htic : pyIdx tics n = .ok (tics.getD n "") := by
      rw [pyIdx_some (List.getElem?_eq_getElem (by omega : n < tics.length)), List.getD_eq_getElem _ _ (by omega)]
    have hidx : curveIndex legend n = .ok (legendEntry legend n) := by
      cases legend with
      | none => rfl
      | some l =>
        have := hl l rfl
        unfold curveIndex legendEntry
        simp only
        rw [pyIdx_some (List.getElem?_eq_getElem (by omega : n < l.length)), List.getD_eq_getElem _ _ (by omega)]
    simp only [py_bind_ok, hidx, htic, List.foldlM_nil]
    unfold Axes.plot
    rw [if_pos hlen, py_bind_ok]
    simp only [List.map_append, List.map_cons, List.map_nil, List.append_assoc]
    rfl

theorem plotCurve_ok (ax : Axes K) {x : Mat K} {t : List K} (name ylabel : Option String) {tics : List String}
    {legend : Option (List String)} (hr : t.length = x.rows) (ht : x.cols ≤ tics.length)
    (hl : ∀ l, legend = some l → x.cols ≤ l.length) :
    plotCurve ax x t name ylabel tics legend = .ok
      ⟨ax.curves ++ (List.range x.cols).map fun j => ⟨t, x.column j, tics.getD j "", curveLabel name legend j⟩,
        ax.xlabel, ylabel, ax.legend || name.isSome⟩ := by
  unfold plotCurve
  rw [plotCurve_fold name hr x.cols ax ht hl, py_bind_ok]
  rfl

/-- More columns than line styles. -/
theorem plotCurve_index (ax : Axes K) {x : Mat K} {t : List K} (name ylabel : Option String) {tics : List String}
    (hr : t.length = x.rows) (ht : tics.length < x.cols) :
    plotCurve ax x t name ylabel tics none = .error .index := by
  unfold plotCurve
  obtain ⟨k, hk⟩ : ∃ k, x.cols = tics.length + (k + 1) := ⟨x.cols - tics.length - 1, by omega⟩
  rw [hk, List.range_add, List.foldlM_append,
    plotCurve_fold name hr tics.length ax le_rfl (by intro l hl; cases hl), py_bind_ok, List.range_succ_eq_map,
    List.map_cons, List.foldlM_cons]
  have : pyIdx tics (tics.length + 0) = .error .index := by
    unfold pyIdx
    rw [List.getElem?_eq_none (by omega)]
  simp only [this]
  rfl

/-- Columns from rows. -/
theorem Mat.column_toRows [Zero K] (A : Mat K) {j : Nat} (hj : j < A.cols) :
    A.column j = A.toRows.map fun r => r.getD j 0 := by
  unfold Mat.column Mat.toRows
  rw [List.map_map]
  apply List.map_congr_left
  intro i _
  rw [Function.comp_apply, getD_map_range _ _ _ hj]

theorem Mat.shape_of_toRows {A : Mat K} {rows : List (List K)} {n : Nat} (h : A.toRows = rows) (hne : rows ≠ [])
    (hn : ∀ r ∈ rows, r.length = n) : A.rows = rows.length ∧ A.cols = n := by
  have h1 : A.rows = rows.length := by rw [← h]; simp [Mat.toRows]
  refine ⟨h1, ?_⟩
  obtain ⟨r, l, hrl⟩ := List.exists_cons_of_ne_nil hne
  have h0 : 0 < A.rows := by rw [h1, hrl]; simp
  have hr : (List.range A.cols).map (A.e 0) ∈ rows := by
    rw [← h]
    unfold Mat.toRows
    exact List.mem_map.2 ⟨0, by simpa using h0, rfl⟩
  have := hn _ hr
  simpa using this

end

section
variable {K : Type} [Field K] [LinearOrder K] {p : Post K} {M : Mesh K}

/-- Shape and columns of what `get_data` returns, for the nodes or for the plot grid. -/
structure Shown (p : Post K) (D : PostData K) (t : List K) (x u : Nat → List K) : Prop where
  xc : D.x.cols = p.solved.disc.ocp.nx
  uc : D.u.cols = p.solved.disc.ocp.nu
  xr : t.length = D.x.rows
  ur : t.length = D.u.rows
  t : D.t = t
  x : ∀ j < p.solved.disc.ocp.nx, D.x.column j = x j
  u : ∀ j < p.solved.disc.ocp.nu, D.u.column j = u j

theorem flatMap_ne_nil {A B : Type} {l : List A} {f : A → List B} (hl : l ≠ []) (hf : ∀ a, f a ≠ []) :
    l.flatMap f ≠ [] := by
  obtain ⟨a, m, rfl⟩ := List.exists_cons_of_ne_nil hl
  rw [List.flatMap_cons]
  simp [hf a]

theorem Shown.mk' {D : PostData K} {t : List K} {rx ru : List (List K)} (ht : D.t = t) (hx : D.x.toRows = rx)
    (hu : D.u.toRows = ru) (lx : t.length = rx.length) (lu : t.length = ru.length) (hne : t ≠ [])
    (hrx : ∀ r ∈ rx, r.length = p.solved.disc.ocp.nx) (hru : ∀ r ∈ ru, r.length = p.solved.disc.ocp.nu) :
    Shown p D t (fun j => rx.map fun r => r.getD j 0) (fun j => ru.map fun r => r.getD j 0) := by
  have h0 := List.length_pos_iff.2 hne
  obtain ⟨x1, x2⟩ := Mat.shape_of_toRows hx (List.length_pos_iff.1 (by omega)) hrx
  obtain ⟨u1, u2⟩ := Mat.shape_of_toRows hu (List.length_pos_iff.1 (by omega)) hru
  exact ⟨x2, u2, by omega, by omega, ht,
    fun j hj => by rw [D.x.column_toRows (by omega), hx], fun j hj => by rw [D.u.column_toRows (by omega), hu]⟩

theorem Mesh.length_nodeTimes (T : Traj K) (ph : Nat) : (M.nodeTimes T ph).length = M.N := by
  have : (List.range M.orders.length).map M.order = M.orders := by
    apply List.ext_getElem (by simp)
    intro i h1 h2
    simp [Mesh.order, h2]
  unfold Mesh.nodeTimes Mesh.N
  rw [List.length_cons, List.length_flatMap]
  simp only [List.length_map, List.length_range]
  rw [this]

theorem map_rows {A : Type} (phases : List A) (f : A → List (List K)) (j : Nat) (g : A → List K)
    (h : ∀ a ∈ phases, (f a).map (fun r => r.getD j 0) = g a) :
    (phases.flatMap f).map (fun r => r.getD j 0) = phases.flatMap g := by
  rw [List.map_flatMap]
  exact List.flatMap_congr h

theorem Shown.congr {D : PostData K} {t : List K} {x u x' u' : Nat → List K} (h : Shown p D t x u)
    (hx : ∀ j < p.solved.disc.ocp.nx, x j = x' j) (hu : ∀ j < p.solved.disc.ocp.nu, u j = u' j) :
    Shown p D t x' u' :=
  ⟨h.xc, h.uc, h.xr, h.ur, h.t, fun j hj => by rw [h.x j hj, hx j hj], fun j hj => by rw [h.u j hj, hu j hj]⟩

variable (h : p.solved.Ready M) {phases : List Nat} (hne : phases ≠ [])
  (hph : ∀ ph ∈ phases, ph < p.solved.disc.ocp.nPhases)
include h hne hph

theorem shown_nodes : ∃ D, p.getData phases false = .ok D ∧
    Shown p D (phases.flatMap (M.nodeTimes p.solved.traj))
      (nodeSeries M.N p.solved.traj.x (unitOr p.scaling p.solved.disc.ocp.scaleX) phases)
      (nodeSeries M.N p.solved.traj.u (unitOr p.scaling p.solved.disc.ocp.scaleU) phases) := by
  obtain ⟨D, h1, h2, h3, h4, -⟩ := C25_get_data h phases hne hph
  refine ⟨D, h1, (Shown.mk' h4 h2 h3 ?_ ?_ ?_ ?_ ?_).congr ?_ ?_⟩
  · rw [List.length_flatMap, List.length_flatMap]
    simp [Mesh.length_nodeTimes, Traj.stateRows]
  · rw [List.length_flatMap, List.length_flatMap]
    simp [Mesh.length_nodeTimes, Traj.controlRows]
  · exact flatMap_ne_nil hne fun a => by simp [Mesh.nodeTimes]
  · intro r hr
    obtain ⟨ph, -, hr⟩ := List.mem_flatMap.1 hr
    obtain ⟨i, -, rfl⟩ := List.mem_map.1 hr
    simp
  · intro r hr
    obtain ⟨ph, -, hr⟩ := List.mem_flatMap.1 hr
    obtain ⟨i, -, rfl⟩ := List.mem_map.1 hr
    simp
  · intro j hj
    refine map_rows _ _ _ _ fun ph _ => ?_
    unfold Traj.stateRows
    rw [List.map_map]
    exact List.map_congr_left fun i _ => getD_map_range _ _ _ hj
  · intro j hj
    refine map_rows _ _ _ _ fun ph _ => ?_
    unfold Traj.controlRows
    rw [List.map_map]
    exact List.map_congr_left fun i _ => getD_map_range _ _ _ hj

theorem shown_lines : ∃ D, p.getData phases true = .ok D ∧
    Shown p D (phases.flatMap (M.timesAt M.plotGrid p.solved.traj))
      (M.lineSeries p.solved.traj.x (unitOr p.scaling p.solved.disc.ocp.scaleX) phases)
      (M.lineSeries p.solved.traj.u (unitOr p.scaling p.solved.disc.ocp.scaleU) phases) := by
  obtain ⟨D, h1, h2, h3, h4, -⟩ := C26_get_data h phases hne hph
  have hc := fun v n sc ph => C26_count h.mesh.good v n sc p.solved.traj ph
  refine ⟨D, h1, (Shown.mk' h4 h2 h3 ?_ ?_ ?_ ?_ ?_).congr ?_ ?_⟩
  · rw [List.length_flatMap, List.length_flatMap]
    simp only [fun v n sc => (hc v n sc 0).1, (hc (fun _ _ => 0) 0 (fun _ => 0) _).2]
  · rw [List.length_flatMap, List.length_flatMap]
    simp only [fun v n sc => (hc v n sc 0).1, (hc (fun _ _ => 0) 0 (fun _ => 0) _).2]
  · refine flatMap_ne_nil hne fun a => ?_
    have := (hc (fun _ _ => 0) 0 (fun _ => 0) a).2
    exact List.length_pos_iff.1 (by omega)
  · intro r hr
    obtain ⟨ph, -, hr⟩ := List.mem_flatMap.1 hr
    obtain ⟨s, -, hr⟩ := List.mem_flatMap.1 hr
    obtain ⟨i, -, rfl⟩ := List.mem_map.1 hr
    simp
  · intro r hr
    obtain ⟨ph, -, hr⟩ := List.mem_flatMap.1 hr
    obtain ⟨s, -, hr⟩ := List.mem_flatMap.1 hr
    obtain ⟨i, -, rfl⟩ := List.mem_map.1 hr
    simp
  · intro j hj
    refine map_rows _ _ _ _ fun ph _ => ?_
    unfold Mesh.rowsAt
    rw [List.map_flatMap]
    refine List.flatMap_congr fun s _ => ?_
    rw [List.map_map]
    exact List.map_congr_left fun i _ => getD_map_range _ _ _ hj
  · intro j hj
    refine map_rows _ _ _ _ fun ph _ => ?_
    unfold Mesh.rowsAt
    rw [List.map_flatMap]
    refine List.flatMap_congr fun s _ => ?_
    rw [List.map_map]
    exact List.map_congr_left fun i _ => getD_map_range _ _ _ hj

omit h hne hph

/-- `plot_all` on two axes. -/
theorem plotAll_ok {D : PostData K} {t : List K} {x u : Nat → List K} (hD : Shown p D t x u) {tics : List String}
    (htx : p.solved.disc.ocp.nx ≤ tics.length) (htu : p.solved.disc.ocp.nu ≤ tics.length) (legend : Bool)
    (name : String) (a0 a1 : Axes K) :
    plotAll D.x D.u D.t (some tics) legend name (some (.many [a0, a1])) = .ok (.many
      [⟨a0.curves ++ (List.range p.solved.disc.ocp.nx).map fun j => ⟨t, x j, tics.getD j "",
          if legend then fromOne (name ++ "state") j else none⟩, a0.xlabel, some "State variables", a0.legend || legend⟩,
       ⟨a1.curves ++ (List.range p.solved.disc.ocp.nu).map fun j => ⟨t, u j, tics.getD j "",
          if legend then fromOne (name ++ "control") j else none⟩, some "Time, s", some "Control variables",
          a1.legend || legend⟩]) := by
  unfold plotAll
  simp only [Option.getD_some]
  rw [show (Panel.many [a0, a1]).at 0 = .ok a0 from rfl, show (Panel.many [a0, a1]).at 1 = .ok a1 from rfl, py_bind_ok,
    hD.t, plotCurve_ok a0 _ _ hD.xr (by rw [hD.xc]; exact htx) (by intro l hl; cases hl), py_bind_ok, py_bind_ok,
    plotCurve_ok a1 _ _ hD.ur (by rw [hD.uc]; exact htu) (by intro l hl; cases hl), py_bind_ok]
  simp only [hD.xc, hD.uc]
  show Except.ok _ = Except.ok _
  congr 2
  simp only [List.set_cons_zero, List.set_cons_succ]
  congr 1
  · congr 1
    · congr 1
      apply List.map_congr_left
      intro j hj
      rw [hD.x j (by simpa using hj)]
      cases legend <;> rfl
    · cases legend <;> rfl
  · congr 1
    congr 1
    · congr 1
      apply List.map_congr_left
      intro j hj
      rw [hD.u j (by simpa using hj)]
      cases legend <;> rfl
    · cases legend <;> rfl

theorem plotAll_new (x u : Mat K) (t : List K) (tics : Option (List String)) (legend : Bool) (name : String) :
    plotAll x u t tics legend name none = plotAll x u t tics legend name (some (.many [.empty, .empty])) := rfl

/-- Too many states or controls. -/
theorem plotAll_index {D : PostData K} {t : List K} {x u : Nat → List K} (hD : Shown p D t x u) {tics : List String}
    (ht : tics.length < p.solved.disc.ocp.nx ∨ tics.length < p.solved.disc.ocp.nu) (legend : Bool)
    (name : String) (a0 a1 : Axes K) :
    plotAll D.x D.u D.t (some tics) legend name (some (.many [a0, a1])) = .error .index := by
  unfold plotAll
  simp only [Option.getD_some]
  rw [show (Panel.many [a0, a1]).at 0 = .ok a0 from rfl, show (Panel.many [a0, a1]).at 1 = .ok a1 from rfl, py_bind_ok,
    hD.t]
  by_cases hx : tics.length < p.solved.disc.ocp.nx
  · rw [plotCurve_index a0 _ _ hD.xr (by rw [hD.xc]; exact hx)]
    rfl
  · have hu : tics.length < p.solved.disc.ocp.nu := by omega
    rw [plotCurve_ok a0 _ _ hD.xr (by rw [hD.xc]; omega) (by intro l hl; cases hl), py_bind_ok, py_bind_ok,
      plotCurve_index a1 _ _ hD.ur (by rw [hD.uc]; exact hu)]
    rfl

/-- The two axes `plot_phases` fills with states and controls. -/
noncomputable def phaseAxes (p : Post K) (M : Mesh K) (phases : List Nat) (interpolate : Bool) (name : String) :
    List (Axes K) :=
  let T := p.solved.traj
  let ocp := p.solved.disc.ocp
  let draw := fun v sc n what => (if interpolate then M.lines T v sc phases (List.range n) noLabel else []) ++
    M.points T v sc phases (List.range n) (if interpolate then "." else "-") (fromOne (name ++ what))
  [⟨draw T.x (unitOr p.scaling ocp.scaleX) ocp.nx "state", none, some "State variables", true⟩,
   ⟨draw T.u (unitOr p.scaling ocp.scaleU) ocp.nu "control", some "Time, s", some "Control variables", true⟩]

theorem getD_replicate_of_lt {n j : Nat} (hj : j < n) (s d : String) : (List.replicate n s).getD j d = s := by
  rw [List.getD_eq_getElem _ _ (by simpa using hj), List.getElem_replicate]

include h hne hph

/-- States and controls, then what the residuals add. -/
theorem plotPhases_core (hx : p.solved.disc.ocp.nx ≤ 15) (hu : p.solved.disc.ocp.nu ≤ 15)
    (r : Option (PyDict (ResidVal K))) (interpolate residuals : Bool) (name : String) :
    p.plotPhases r (some phases) interpolate residuals none (strokes 15) name =
      match (if residuals then r else none) with
      | none => .ok (.many (phaseAxes p M phases interpolate name))
      | some d => do
        return .many (phaseAxes p M phases interpolate name ++
          (← residualAxes d (if interpolate then dots 15 else strokes 15))) := by
  obtain ⟨D, hD, sD⟩ := shown_nodes h hne hph
  obtain ⟨L, hL, sL⟩ := shown_lines h hne hph
  set r' := (if residuals then r else none) with hr'
  have hax : ∀ (x u : Mat K) (t : List K) (tics : Option (List String)) (legend : Bool) (nm : String),
      plotAll x u t tics legend nm (if r'.isSome then some (Panel.many [.empty, .empty]) else none) =
        plotAll x u t tics legend nm (some (.many [.empty, .empty])) := by
    intro x u t tics legend nm
    cases r' <;> rfl
  have hmap : ∀ (n : Nat), n ≤ 15 → ∀ (s : String) (t : List K) (y : Nat → List K) (l : Nat → Option String),
      (List.range n).map (fun j => (⟨t, y j, (List.replicate 15 s).getD j "", l j⟩ : Curve K)) =
        (List.range n).map fun j => ⟨t, y j, s, l j⟩ := by
    intro n hn s t y l
    apply List.map_congr_left
    intro j hj
    have hj : j < n := by simpa using hj
    rw [getD_replicate_of_lt (by omega)]
  unfold Post.plotPhases
  cases interpolate with
  | true =>
    simp only [if_true, Option.getD_some]
    rw [hL, ← hr']
    simp only [py_bind_ok, hax]
    rw [plotAll_ok sL (by simpa [strokes] using hx) (by simpa [strokes] using hu)]
    simp only [py_bind_ok, pure_bind, hD]
    rw [plotAll_ok sD (by simpa [dots] using hx) (by simpa [dots] using hu), py_bind_ok]
    simp only [Axes.empty, strokes, dots, hmap _ hx, hmap _ hu, List.nil_append, Bool.false_or,
      Bool.false_eq_true, if_false, if_true]
    cases r' <;> rfl
  | false =>
    simp only [Bool.false_eq_true, if_false, Option.getD_some]
    rw [← hr']
    simp only [pure_bind, hD, py_bind_ok, hax]
    rw [plotAll_ok sD (by simpa [strokes] using hx) (by simpa [strokes] using hu), py_bind_ok]
    simp only [Axes.empty, strokes, hmap _ hx, hmap _ hu, List.nil_append, Bool.false_or,
      if_true]
    cases r' <;> rfl

/-- **C71** `plot_phases` with at most 15 states and 15 controls draws on one pair of axes every state and every control
of the requested phases, once as line through the segment polynomials on the plot grid and once as dots at the nodes
(`interpolate=False`: only once, as line through the nodes). Labels count from one. Nothing else is drawn unless residuals
were stored and not declined. -/
theorem C71_plot_phases (hx : p.solved.disc.ocp.nx ≤ 15) (hu : p.solved.disc.ocp.nu ≤ 15)
    (r : Option (PyDict (ResidVal K))) (interpolate residuals : Bool) (hr : residuals = false ∨ r = none) (name : String) :
    p.plotPhases r (some phases) interpolate residuals none (strokes 15) name =
      .ok (.many (phaseAxes p M phases interpolate name)) := by
  rw [plotPhases_core h hne hph hx hu]
  rcases hr with rfl | rfl
  · rfl
  · cases residuals <;> rfl

/-- **C71** With more than 15 states or more than 15 controls `plot_phases` raises `IndexError`. -/
theorem C71_too_many (hn : 15 < p.solved.disc.ocp.nx ∨ 15 < p.solved.disc.ocp.nu)
    (r : Option (PyDict (ResidVal K))) (interpolate residuals : Bool) (name : String) :
    p.plotPhases r (some phases) interpolate residuals none (strokes 15) name = .error .index := by
  obtain ⟨D, hD, sD⟩ := shown_nodes h hne hph
  obtain ⟨L, hL, sL⟩ := shown_lines h hne hph
  set r' := (if residuals then r else none) with hr'
  have hax : ∀ (x u : Mat K) (t : List K) (tics : Option (List String)) (legend : Bool) (nm : String),
      plotAll x u t tics legend nm (if r'.isSome then some (Panel.many [.empty, .empty]) else none) =
        plotAll x u t tics legend nm (some (.many [.empty, .empty])) := by
    intro x u t tics legend nm
    cases r' <;> rfl
  unfold Post.plotPhases
  cases interpolate with
  | true =>
    simp only [if_true, Option.getD_some]
    rw [hL, ← hr']
    simp only [py_bind_ok, hax]
    rw [plotAll_index sL (by simpa [strokes] using hn)]
    rfl
  | false =>
    simp only [Bool.false_eq_true, if_false, Option.getD_some]
    rw [← hr']
    simp only [pure_bind, hD, py_bind_ok, hax]
    rw [plotAll_index sD (by simpa [strokes] using hn)]
    rfl

omit h hne hph

end

end MPOpt
