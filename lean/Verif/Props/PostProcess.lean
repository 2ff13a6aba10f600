import Verif.Lemmas.Post
import Verif.Props.Transcription
import Verif.Props.ResidualExamples

/-! # C24, C25, C26: what post-processing returns -/

set_option autoImplicit false
set_option linter.unusedSectionVars false

namespace MPOpt
open Polynomial
variable {K : Type} [Field K] [LinearOrder K]

/-- Times known node by node. -/
theorem Mesh.Good.nodeTimes_eq {M : Mesh K} (hM : M.Good) (T : Traj K) (ph : Nat) {t : List K}
    (hl : t.length = M.N)
    (ht : ∀ s i, M.Owns s i → t[M.idx s i]? = some (M.time T ph s (M.node s i))) :
    t = M.nodeTimes T ph := by
  have h0 : 0 < M.orders.length := List.length_pos_iff.2 hM.nonempty
  set B : List (List K) := [T.t0 ph] :: (List.range M.orders.length).map fun s =>
    (List.range (M.order s)).map fun i => M.time T ph s (M.node s (i + 1)) with hB
  have hBl : B.map List.length = 1 :: M.orders := by
    rw [hB, List.map_cons, List.map_map]
    congr 1
    apply List.ext_getElem
    · simp
    · intro i h1 h2
      simp [Mesh.order, List.getElem?_eq_getElem h2]
  have hfl : B.flatten = M.nodeTimes T ph := by
    rw [hB, List.flatten_cons]; rfl
  rw [← hfl]
  apply eq_flatten_of_getElem?
  · rw [hBl, hl]; simp [Mesh.N]; omega
  · intro s hs i hi
    rw [hBl]
    cases s with
    | zero =>
      have hi0 : i = 0 := by simp [hB] at hi; omega
      subst hi0
      have := ht 0 0 ⟨h0, by omega, Or.inl rfl⟩
      rw [hM.node_first h0] at this
      simpa [hB, Mesh.idx, segStart_zero, Mesh.time] using this
    | succ s =>
      have hs' : s < M.orders.length := by simp [hB] at hs; omega
      have hi' : i < M.order s := by simpa [hB] using hi
      have := ht s (i + 1) ⟨hs', by omega, Or.inr (by omega)⟩
      rw [show segStart (1 :: M.orders) (s + 1) + i = M.idx s (i + 1) by
        simp only [segStart, List.take_succ_cons, List.sum_cons, Mesh.idx]; omega, this]
      simp [hB]

/-- Factor of a component in the returned data: 1, or the scale with `scaling=True`. -/
def unitOr (scaling : Bool) (scale : List K) (j : Nat) : K := if scaling then scale.getD j 0 else 1

section
variable {p : Post K} {M : Mesh K} (h : p.solved.Ready M)
include h

/-- `get_trajectories` in terms of the physical trajectory. -/
theorem Solved.Ready.getTrajectories_spec {ph : Nat} (hph : ph < p.solved.disc.ocp.nPhases) :
    ∃ D, p.getTrajectories ph = .ok D ∧ D.x.rows = M.N ∧ D.x.cols = p.solved.disc.ocp.nx ∧
      (∀ i, ∀ j < p.solved.disc.ocp.nx,
        D.x.e i j = unitOr p.scaling p.solved.disc.ocp.scaleX j * p.solved.traj.x ph i j) ∧
      D.u.rows = M.N ∧ D.u.cols = p.solved.disc.ocp.nu ∧
      (∀ i, ∀ j < p.solved.disc.ocp.nu,
        D.u.e i j = unitOr p.scaling p.solved.disc.ocp.scaleU j * p.solved.traj.u ph i j) ∧
      (D.t = M.nodeTimes p.solved.traj ph ∧ ∀ s i, M.Owns s i →
        D.t[M.idx s i]? = some (M.time p.solved.traj ph s (M.node s i))) ∧
      D.a.rows = p.solved.disc.ocp.na ∧
      D.a.cols = (if p.scaling then 1 else p.solved.disc.ocp.na) ∧
      ∀ k < p.solved.disc.ocp.na, ∀ l, D.a.e k l =
        p.solved.disc.ocp.scaleA.getD k 0 * p.solved.traj.a ph k /
          (if p.scaling then 1 else p.solved.disc.ocp.scaleA.getD l 0) := by
  obtain ⟨tr, htr, hx, hu, htl, ht, -, -, ha⟩ := h.mesh.trajectories_spec h.z h.widths hph
  have htimes := h.mesh.good.nodeTimes_eq _ ph htl ht
  have hN := h.mesh.N_eq
  have hax : ∀ k < p.solved.disc.ocp.na, tr.a.getD k 0 =
      p.solved.disc.ocp.scaleA.getD k 0 * p.solved.traj.a ph k := by
    intro k hk
    rw [ha, getD_map_range _ _ _ hk]
    have := h.scA hk
    show _ = _ * (_ / _)
    field_simp
  have hal : tr.a.length = p.solved.disc.ocp.na := by rw [ha]; simp
  by_cases hsc : p.scaling = true
  · have key : p.getTrajectories ph = .ok ⟨tr.x, tr.u, tr.t, colMat tr.a⟩ := by
      unfold Post.getTrajectories
      simp only [htr, py_bind_ok, hsc, if_true]; rfl
    refine ⟨_, key, by rw [hN]; simp only [hx], by simp only [hx], ?_, by rw [hN]; simp only [hu],
      by simp only [hu], ?_, ⟨htimes, ht⟩, hal, by simp [colMat, hsc], ?_⟩
    · intro i j hj
      have := h.scX hj
      simp only [hx, unitOr, hsc, if_true]
      show _ = _ * (_ / _)
      field_simp
    · intro i j hj
      have := h.scU hj
      simp only [hu, unitOr, hsc, if_true]
      show _ = _ * (_ / _)
      field_simp
    · intro k hk l
      simp only [colMat, hsc, if_true, div_one]
      exact hax k hk
  · have e1 : tr.x.divCols p.solved.disc.ocp.scaleX = .ok
        ⟨tr.x.rows, tr.x.cols, fun i j => tr.x.e i j / p.solved.disc.ocp.scaleX.getD j 0⟩ := by
      unfold Mat.divCols; rw [if_pos (by rw [hx]; exact h.valid.scaleX.symm)]
    have e2 : tr.u.divCols p.solved.disc.ocp.scaleU = .ok
        ⟨tr.u.rows, tr.u.cols, fun i j => tr.u.e i j / p.solved.disc.ocp.scaleU.getD j 0⟩ := by
      unfold Mat.divCols; rw [if_pos (by rw [hu]; exact h.valid.scaleU.symm)]
    have key : p.getTrajectories ph = .ok
        ⟨⟨tr.x.rows, tr.x.cols, fun i j => tr.x.e i j / p.solved.disc.ocp.scaleX.getD j 0⟩,
          ⟨tr.u.rows, tr.u.cols, fun i j => tr.u.e i j / p.solved.disc.ocp.scaleU.getD j 0⟩, tr.t,
          outerDiv tr.a p.solved.disc.ocp.scaleA⟩ := by
      unfold Post.getTrajectories
      simp only [htr, py_bind_ok]
      rw [if_neg hsc, e1, e2]; rfl
    refine ⟨_, key, by rw [hN]; simp only [hx], by simp only [hx], ?_, by rw [hN]; simp only [hu],
      by simp only [hu], ?_, ⟨htimes, ht⟩, hal, ?_, ?_⟩
    · intro i j hj
      simp only [hx, unitOr, hsc, Bool.false_eq_true, if_false, one_mul]
      rfl
    · intro i j hj
      simp only [hu, unitOr, hsc, Bool.false_eq_true, if_false, one_mul]
      rfl
    · simp only [outerDiv, hsc, Bool.false_eq_true, if_false]; exact h.valid.scaleA
    · intro k hk l
      simp only [outerDiv, hsc, Bool.false_eq_true, if_false]
      rw [hax k hk]

/-- Parameter rows `get_original_data` returns for one phase: a column with `scaling=True`, otherwise the table of
all quotients "scaled parameter / scale". -/
def paramRows (ocp : OCP K) (T : Traj K) (scaling : Bool) (ph : Nat) : List (List K) :=
  (List.range ocp.na).map fun k =>
    if scaling then [ocp.scaleA.getD k 0 * T.a ph k]
    else (List.range ocp.na).map fun l => ocp.scaleA.getD k 0 * T.a ph k / ocp.scaleA.getD l 0

/-- **C25** `get_data` returns the physical (with `scaling=True`: scaled) trajectory encoded by the solution, phase
by phase in the requested order. -/
theorem C25_get_data (phases : List Nat) (hne : phases ≠ [])
    (hph : ∀ ph ∈ phases, ph < p.solved.disc.ocp.nPhases) :
    ∃ D, p.getData phases false = .ok D ∧
      D.x.toRows = phases.flatMap (fun ph => p.solved.traj.stateRows M.N p.solved.disc.ocp.nx ph
        (unitOr p.scaling p.solved.disc.ocp.scaleX)) ∧
      D.u.toRows = phases.flatMap (fun ph => p.solved.traj.controlRows M.N p.solved.disc.ocp.nu ph
        (unitOr p.scaling p.solved.disc.ocp.scaleU)) ∧
      D.t = phases.flatMap (M.nodeTimes p.solved.traj) ∧
      D.a.toRows = phases.flatMap (paramRows p.solved.disc.ocp p.solved.traj p.scaling) := by
  have hall : ∀ ph, ∃ D, ph < p.solved.disc.ocp.nPhases → p.getTrajectories ph = .ok D ∧
      D.x.cols = p.solved.disc.ocp.nx ∧ D.u.cols = p.solved.disc.ocp.nu ∧
      D.a.cols = (if p.scaling then 1 else p.solved.disc.ocp.na) ∧
      D.x.toRows = p.solved.traj.stateRows M.N p.solved.disc.ocp.nx ph
        (unitOr p.scaling p.solved.disc.ocp.scaleX) ∧
      D.u.toRows = p.solved.traj.controlRows M.N p.solved.disc.ocp.nu ph
        (unitOr p.scaling p.solved.disc.ocp.scaleU) ∧
      D.t = M.nodeTimes p.solved.traj ph ∧
      D.a.toRows = paramRows p.solved.disc.ocp p.solved.traj p.scaling ph := by
    intro ph
    by_cases hph : ph < p.solved.disc.ocp.nPhases
    · obtain ⟨D, h1, h2, h3, h4, h5, h6, h7, h8, h9, h10, h11⟩ := h.getTrajectories_spec hph
      refine ⟨D, fun _ => ⟨h1, h3, h6, h10, ?_, ?_, h8.1, ?_⟩⟩
      · unfold Mat.toRows Traj.stateRows
        rw [h2, h3]
        apply List.map_congr_left
        intro i _
        apply List.map_congr_left
        intro j hj
        exact h4 i j (by simpa using hj)
      · unfold Mat.toRows Traj.controlRows
        rw [h5, h6]
        apply List.map_congr_left
        intro i _
        apply List.map_congr_left
        intro j hj
        exact h7 i j (by simpa using hj)
      · unfold Mat.toRows paramRows
        rw [h9, h10]
        apply List.map_congr_left
        intro k hk
        have hk : k < p.solved.disc.ocp.na := by simpa using hk
        split
        · simp [h11 k hk, *]
        · apply List.map_congr_left
          intro l _
          simp [h11 k hk, *]
    · exact ⟨⟨⟨0, 0, fun _ _ => 0⟩, ⟨0, 0, fun _ _ => 0⟩, [], ⟨0, 0, fun _ _ => 0⟩⟩, fun h => absurd h hph⟩
  choose q hq using hall
  obtain ⟨a, l, rfl⟩ := List.exists_cons_of_ne_nil hne
  have ha := hq a (hph a (by simp))
  have hl : ∀ ph ∈ l, ph < p.solved.disc.ocp.nPhases := fun ph hm => hph ph (List.mem_cons_of_mem _ hm)
  obtain ⟨D, d1, d2, d3, d4, d5⟩ := foldl_stack (f := p.getTrajectories) q p.solved.disc.ocp.nx
    p.solved.disc.ocp.nu (if p.scaling then 1 else p.solved.disc.ocp.na) true l
    (fun ph hm => (hq ph (hl ph hm)).1) (fun ph hm => (hq ph (hl ph hm)).2.1)
    (fun ph hm => (hq ph (hl ph hm)).2.2.1) (fun ph hm => (hq ph (hl ph hm)).2.2.2.1) (q a) ha.2.1 ha.2.2.1
    ha.2.2.2.1
  refine ⟨D, ?_, ?_, ?_, ?_, ?_⟩
  · unfold Post.getData Post.originalData
    simp only [List.isEmpty_cons, Bool.false_eq_true, if_false]
    rw [show pyIdx (a :: l) 0 = .ok a from rfl, py_bind_ok, ha.1, py_bind_ok]
    simpa using d1
  · rw [d2, List.flatMap_cons, ha.2.2.2.2.1]
    congr 1
    exact List.flatMap_congr fun ph hm => (hq ph (hl ph hm)).2.2.2.2.1
  · rw [d3, List.flatMap_cons, ha.2.2.2.2.2.1]
    congr 1
    exact List.flatMap_congr fun ph hm => (hq ph (hl ph hm)).2.2.2.2.2.1
  · rw [d4, List.flatMap_cons, ha.2.2.2.2.2.2.1]
    congr 1
    exact List.flatMap_congr fun ph hm => (hq ph (hl ph hm)).2.2.2.2.2.2.1
  · simp only [if_true] at d5
    rw [d5, List.flatMap_cons, ha.2.2.2.2.2.2.2]
    congr 1
    exact List.flatMap_congr fun ph hm => (hq ph (hl ph hm)).2.2.2.2.2.2.2

omit h in
/-- Without a list of phases the object's default phases are used. -/
theorem C25_default_phases (p : Post K) (b : Bool) : p.getData [] b = p.getData p.phases b := by
  unfold Post.getData
  cases hp : p.phases with
  | nil => simp
  | cons a l => simp

omit h in
/-- `get_original_data` called directly is `get_data` without interpolation, also for the default phases. -/
theorem C25_original (p : Post K) (phases : List Nat) : p.originalData phases = p.getData phases false := by
  unfold Post.getData Post.originalData
  cases phases with
  | nil => cases hp : p.phases <;> simp
  | cons a l => simp

end

/-! ## C25: the round trip -/

/-- Value of every variable in the packed vector. -/
def packEnv (ocp : OCP K) (T : Traj K) : Env K
  | .X ph i j => T.x ph i j * ocp.scaleX.getD j 0
  | .U ph i j => T.u ph i j * ocp.scaleU.getD j 0
  | .T0 ph => T.t0 ph * ocp.scaleT
  | .Tf ph => T.tf ph * ocp.scaleT
  | .A k ph => T.a ph k * ocp.scaleA.getD k 0
  | .H s ph => T.w s ph

theorem packVec_eq (d : Disc K) (T : Traj K) :
    d.ocp.packVec d.N T = d.allVars.map (packEnv d.ocp T) := by
  unfold OCP.packVec Disc.allVars Disc.phaseVars
  rw [List.map_flatMap]
  apply List.flatMap_congr
  intro ph _
  simp only [List.map_append, List.map_flatMap, List.map_map, List.map_cons, List.map_nil]
  rfl

theorem packWidths_eq (d : Disc K) (T : Traj K) :
    d.ocp.packWidths d.nSegments T = d.widthParams.map (packEnv d.ocp T) := by
  unfold OCP.packWidths Disc.widthParams
  rw [List.map_flatMap]
  apply List.flatMap_congr
  intro ph _
  rw [List.map_map]
  rfl

/-- Two trajectories agree on everything a problem with `n` nodes and `segments` segments per phase can see. -/
structure SameOn (ocp : OCP K) (n segments : Nat) (S T : Traj K) : Prop where
  x : ∀ ph < ocp.nPhases, ∀ i < n, ∀ j < ocp.nx, S.x ph i j = T.x ph i j
  u : ∀ ph < ocp.nPhases, ∀ i < n, ∀ j < ocp.nu, S.u ph i j = T.u ph i j
  t0 : ∀ ph < ocp.nPhases, S.t0 ph = T.t0 ph
  tf : ∀ ph < ocp.nPhases, S.tf ph = T.tf ph
  a : ∀ ph < ocp.nPhases, ∀ k < ocp.na, S.a ph k = T.a ph k
  w : ∀ ph < ocp.nPhases, ∀ s < segments, S.w s ph = T.w s ph

/-- The packed vectors decode to the trajectory. -/
theorem traj_packed {e : Solved K} (hv : ValidOCP e.disc.ocp)
    (hx : ∀ s ∈ e.disc.ocp.scaleX, s ≠ 0) (hu : ∀ s ∈ e.disc.ocp.scaleU, s ≠ 0)
    (ha : ∀ s ∈ e.disc.ocp.scaleA, s ≠ 0) (ht : e.disc.ocp.scaleT ≠ 0) (T : Traj K)
    (hz : e.z = e.disc.ocp.packVec e.disc.N T) (hw : e.widths = e.disc.ocp.packWidths e.disc.nSegments T) :
    SameOn e.disc.ocp e.disc.N e.disc.nSegments e.traj T := by
  have hval : ∀ s ∈ e.disc.allVars ++ e.disc.widthParams,
      e.disc.envOf e.z e.widths s = packEnv e.disc.ocp T s := by
    intro s hs
    unfold Disc.envOf
    rw [hz, hw, packVec_eq, packWidths_eq, ← List.map_append]
    exact bindSyms_map _ _ hs
  have hvar : ∀ ph < e.disc.ocp.nPhases, ∀ s ∈ e.disc.phaseVars ph,
      e.disc.envOf e.z e.widths s = packEnv e.disc.ocp T s := by
    intro ph hph s hs
    exact hval s (List.mem_append_left _ (List.mem_flatMap.2 ⟨ph, by simpa using hph, hs⟩))
  refine ⟨?_, ?_, ?_, ?_, ?_, ?_⟩
  · intro ph hph i hi j hj
    have := hvar ph hph (.X ph i j) (Disc.mem_phaseVars.2 (Or.inl ⟨i, hi, j, hj, rfl⟩))
    have hne := getD_mem_ne hv.scaleX (P := fun s => s ≠ 0) hx hj
    show e.disc.envOf e.z e.widths (.X ph i j) / _ = _
    rw [this]
    show T.x ph i j * _ / _ = _
    exact mul_div_cancel_right₀ _ hne
  · intro ph hph i hi j hj
    have := hvar ph hph (.U ph i j) (Disc.mem_phaseVars.2 (Or.inr (Or.inl ⟨i, hi, j, hj, rfl⟩)))
    have hne := getD_mem_ne hv.scaleU (P := fun s => s ≠ 0) hu hj
    show e.disc.envOf e.z e.widths (.U ph i j) / _ = _
    rw [this]
    show T.u ph i j * _ / _ = _
    exact mul_div_cancel_right₀ _ hne
  · intro ph hph
    have := hvar ph hph (.T0 ph) (Disc.mem_phaseVars.2 (Or.inr (Or.inr (Or.inl rfl))))
    show e.disc.envOf e.z e.widths (.T0 ph) / _ = _
    rw [this]
    exact mul_div_cancel_right₀ _ ht
  · intro ph hph
    have := hvar ph hph (.Tf ph) (Disc.mem_phaseVars.2 (Or.inr (Or.inr (Or.inr (Or.inl rfl)))))
    show e.disc.envOf e.z e.widths (.Tf ph) / _ = _
    rw [this]
    exact mul_div_cancel_right₀ _ ht
  · intro ph hph k hk
    have := hvar ph hph (.A k ph) (Disc.mem_phaseVars.2 (Or.inr (Or.inr (Or.inr (Or.inr ⟨k, hk, rfl⟩)))))
    have hne := getD_mem_ne hv.scaleA (P := fun s => s ≠ 0) ha hk
    show e.disc.envOf e.z e.widths (.A k ph) / _ = _
    rw [this]
    show T.a ph k * _ / _ = _
    exact mul_div_cancel_right₀ _ hne
  · intro ph hph s hs
    exact hval (.H s ph) (List.mem_append_right _ (Disc.mem_widthParams.2 ⟨ph, hph, s, hs, rfl⟩))

theorem Mesh.nodeTimes_congr {ocp : OCP K} {n : Nat} {M : Mesh K} {S T : Traj K}
    (h : SameOn ocp n M.orders.length S T) {ph : Nat} (hph : ph < ocp.nPhases) :
    M.nodeTimes S ph = M.nodeTimes T ph := by
  have htime : ∀ s < M.orders.length, ∀ tau, M.time S ph s tau = M.time T ph s tau := by
    intro s hs tau
    unfold Mesh.time Mesh.halfWidth
    rw [h.t0 ph hph, h.tf ph hph, h.w ph hph s hs]
    have : ∑ r ∈ Finset.range s, S.w r ph = ∑ r ∈ Finset.range s, T.w r ph := by
      apply Finset.sum_congr rfl
      intro r hr
      exact h.w ph hph r (by have := Finset.mem_range.1 hr; omega)
    rw [this]
  unfold Mesh.nodeTimes
  rw [h.t0 ph hph]
  congr 1
  apply List.flatMap_congr
  intro s hs
  apply List.map_congr_left
  intro i _
  exact htime s (by simpa using hs) _

/-- **C25** Packing a trajectory as solution vector and calling `get_data` returns that trajectory, phase by phase in
the requested order, in physical units or, with `scaling=True`, times the scales. -/
theorem C25_round_trip {p : Post K} {M : Mesh K} (hM : p.solved.disc.OnMesh M)
    (hv : ValidOCP p.solved.disc.ocp)
    (hx : ∀ s ∈ p.solved.disc.ocp.scaleX, s ≠ 0) (hu : ∀ s ∈ p.solved.disc.ocp.scaleU, s ≠ 0)
    (ha : ∀ s ∈ p.solved.disc.ocp.scaleA, s ≠ 0) (ht : p.solved.disc.ocp.scaleT ≠ 0) (T : Traj K)
    (hz : p.solved.z = p.solved.disc.ocp.packVec M.N T)
    (hw : p.solved.widths = p.solved.disc.ocp.packWidths M.orders.length T)
    (phases : List Nat) (hne : phases ≠ []) (hph : ∀ ph ∈ phases, ph < p.solved.disc.ocp.nPhases) :
    ∃ D, p.getData phases false = .ok D ∧
      D.x.toRows = phases.flatMap (fun ph => T.stateRows M.N p.solved.disc.ocp.nx ph
        (unitOr p.scaling p.solved.disc.ocp.scaleX)) ∧
      D.u.toRows = phases.flatMap (fun ph => T.controlRows M.N p.solved.disc.ocp.nu ph
        (unitOr p.scaling p.solved.disc.ocp.scaleU)) ∧
      D.t = phases.flatMap (M.nodeTimes T) ∧
      D.a.toRows = phases.flatMap (paramRows p.solved.disc.ocp T p.scaling) := by
  rw [hM.N_eq] at hz
  rw [hM.segLen] at hw
  have same := traj_packed hv hx hu ha ht T hz hw
  have hr : p.solved.Ready M := ⟨hM, hv, by rw [hz, packVec_eq]; simp, by rw [hw, packWidths_eq]; simp,
    hx, hu, ha⟩
  obtain ⟨D, h1, h2, h3, h4, h5⟩ := C25_get_data hr phases hne hph
  refine ⟨D, h1, ?_, ?_, ?_, ?_⟩
  · rw [h2]
    apply List.flatMap_congr
    intro ph hm
    unfold Traj.stateRows
    apply List.map_congr_left
    intro i hi
    apply List.map_congr_left
    intro j hj
    rw [same.x ph (hph ph hm) i (by rw [← hM.N_eq]; simpa using hi) j (by simpa using hj)]
  · rw [h3]
    apply List.flatMap_congr
    intro ph hm
    unfold Traj.controlRows
    apply List.map_congr_left
    intro i hi
    apply List.map_congr_left
    intro j hj
    rw [same.u ph (hph ph hm) i (by rw [← hM.N_eq]; simpa using hi) j (by simpa using hj)]
  · rw [h4]
    apply List.flatMap_congr
    intro ph hm
    exact Mesh.nodeTimes_congr (hM.segLen ▸ same) (hph ph hm)
  · rw [h5]
    apply List.flatMap_congr
    intro ph hm
    unfold paramRows
    apply List.map_congr_left
    intro k hk
    rw [same.a ph (hph ph hm) k (by simpa using hk)]

/-- **C25** One parameter: the parameter rows are right. -/
theorem C25_one_parameter (ocp : OCP K) (T : Traj K) (ph : Nat) (h1 : ocp.na = 1)
    (hs : ocp.scaleA.getD 0 0 ≠ 0) : paramRows ocp T false ph = [[T.a ph 0]] := by
  simp only [paramRows, h1]
  simp [mul_div_cancel_left₀ _ (show ocp.scaleA[0]?.getD 0 ≠ 0 by simpa using hs)]

/-- **C25 is false for the parameters** as soon as there are two: with `scaling=False` every row has `na` entries,
of which only the `k`-th in row `k` is the parameter. -/
theorem C25_parameters_false (ocp : OCP K) (T : Traj K) (ph : Nat) :
    (paramRows ocp T false ph).length = ocp.na ∧ (∀ row ∈ paramRows ocp T false ph, row.length = ocp.na) ∧
      ∀ k < ocp.na, ∀ l < ocp.na, ((paramRows ocp T false ph).getD k []).getD l 0 =
        T.a ph k * (ocp.scaleA.getD k 0 / ocp.scaleA.getD l 0) := by
  refine ⟨by simp [paramRows], ?_, ?_⟩
  · intro row hrow
    obtain ⟨k, -, rfl⟩ := List.mem_map.1 hrow
    simp
  · intro k hk l hl
    unfold paramRows
    rw [getD_map_range _ _ _ hk]
    simp only [Bool.false_eq_true, if_false]
    rw [getD_map_range _ _ _ hl]
    ring

/-! ## C24: bounds -/

section
variable [IsStrictOrderedRing K]

/-- **C24** For every solution vector within `lbx`, `ubx`: the data returned for phase 0 starts at `x00[0]`; every
other returned state, every control, and the diagonal of the parameter table is within the user's bounds. -/
theorem C24_within_bounds {p : Post K} {M : Mesh K} (h : p.solved.Ready M) (hs : p.solved.disc.ocp.SettingsOK)
    (hsc : p.solved.disc.ocp.PosScales) (hun : p.scaling = false) {nlp : Disc.NLP K}
    (hn : p.solved.disc.createNlp = .ok nlp) (hz : Holds p.solved.z nlp.lbx nlp.ubx) {ph : Nat}
    (hph : ph < p.solved.disc.ocp.nPhases) :
    ∃ D, p.getData [ph] false = .ok D ∧ D.x.toRows.length = M.N ∧ D.u.toRows.length = M.N ∧
      (ph = 0 → D.x.toRows[0]? = p.solved.disc.ocp.x00[0]?) ∧
      (∀ i row, D.x.toRows[i]? = some row → ¬ (ph = 0 ∧ i = 0) → ∀ j v, row[j]? = some v →
        Within (entry p.solved.disc.ocp.lbx ph j .nan) (entry p.solved.disc.ocp.ubx ph j .nan) v) ∧
      (∀ row ∈ D.u.toRows, ∀ j v, row[j]? = some v →
        Within (entry p.solved.disc.ocp.lbu ph j .nan) (entry p.solved.disc.ocp.ubu ph j .nan) v) ∧
      ∀ k row v, D.a.toRows[k]? = some row → row[k]? = some v →
        Within (entry p.solved.disc.ocp.lba ph k .nan) (entry p.solved.disc.ocp.uba ph k .nan) v := by
  obtain ⟨bs, J, nlp', hn', -, -, -, hx, hl, hu, -⟩ := h.mesh.createNlp_spec h.valid hs hsc
  obtain rfl : nlp = nlp' := by rw [hn] at hn'; exact Except.ok.inj hn'
  have hz' : p.solved.z = nlp.x.map (p.solved.disc.envOf p.solved.z p.solved.widths) := by
    rw [hx]; exact (Disc.envOf_map h.z h.widths).1.symm
  rw [hz', hl, hu, holds_map, hx] at hz
  have hb : BoundsOK p.solved.disc.ocp M p.solved.traj ph :=
    (h.mesh.bounds_spec h.valid hsc _).1 fun s hs => hz s (List.mem_flatMap.2 ⟨ph, by simpa using hph, hs⟩)
  obtain ⟨D, h1, h2, h3, h4, h5⟩ := C25_get_data h [ph] (by simp) (by simpa using hph)
  simp only [List.flatMap_cons, List.flatMap_nil, List.append_nil, hun] at h2 h3 h5
  have hxr : ∀ i row, D.x.toRows[i]? = some row → i < M.N ∧
      row = (List.range p.solved.disc.ocp.nx).map fun j => p.solved.traj.x ph i j := by
    intro i row hrow
    rw [h2] at hrow
    unfold Traj.stateRows at hrow
    rw [List.getElem?_map, Option.map_eq_some_iff] at hrow
    obtain ⟨i', hi', rfl⟩ := hrow
    obtain ⟨hi, rfl⟩ := List.getElem?_eq_some_iff.1 hi'
    have hi : i < M.N := by simpa using hi
    refine ⟨hi, ?_⟩
    simp [unitOr]
  have hN : 0 < M.N := by unfold Mesh.N; omega
  refine ⟨D, h1, by rw [h2]; simp [Traj.stateRows], by rw [h3]; simp [Traj.controlRows], ?_, ?_, ?_, ?_⟩
  · rintro rfl
    have hsh := h.valid.x00
    have h0 : 0 < p.solved.disc.ocp.x00.length := by rw [hsh.1]; exact hph
    rw [h2, List.getElem?_eq_getElem h0]
    unfold Traj.stateRows
    rw [List.getElem?_map, List.getElem?_range hN]
    simp only [Option.map_some, Option.some.injEq]
    apply List.ext_getElem
    · simp [hsh.2 _ (List.getElem_mem h0)]
    · intro j hj1 hj2
      have hj : j < p.solved.disc.ocp.nx := by simpa using hj1
      simp only [List.getElem_map, List.getElem_range, unitOr, Bool.false_eq_true, if_false, one_mul]
      rw [hb.x0 rfl j hj]
      unfold entry
      rw [List.getD_eq_getElem _ _ h0, List.getD_eq_getElem _ _ hj2]
  · intro i row hrow hne j v hv
    obtain ⟨hi, rfl⟩ := hxr i row hrow
    rw [List.getElem?_map, Option.map_eq_some_iff] at hv
    obtain ⟨j', hj', rfl⟩ := hv
    obtain ⟨hj, rfl⟩ := List.getElem?_eq_some_iff.1 hj'
    simp only [List.getElem_range]
    exact hb.x i hi hne j (by simpa using hj)
  · intro row hrow j v hv
    rw [h3] at hrow
    obtain ⟨i, hi, rfl⟩ := List.mem_map.1 hrow
    rw [List.getElem?_map, Option.map_eq_some_iff] at hv
    obtain ⟨j', hj', rfl⟩ := hv
    obtain ⟨hj, rfl⟩ := List.getElem?_eq_some_iff.1 hj'
    simp only [List.getElem_range, unitOr, Bool.false_eq_true, if_false, one_mul]
    exact hb.u i (by simpa using hi) j (by simpa using hj)
  · intro k row v hrow hv
    have hk : k < p.solved.disc.ocp.na := by
      have := (List.getElem?_eq_some_iff.1 hrow).1
      rw [h5] at this; simpa [paramRows] using this
    have e : v = p.solved.traj.a ph k := by
      have h6 := (C25_parameters_false p.solved.disc.ocp p.solved.traj ph).2.2 k hk k hk
      have e1 : D.a.toRows.getD k [] = row := by rw [List.getD_eq_getElem?_getD, hrow, Option.getD_some]
      have e2 : row.getD k 0 = v := by rw [List.getD_eq_getElem?_getD, hv, Option.getD_some]
      rw [← h5, e1, e2, div_self (h.scA hk), mul_one] at h6
      exact h6
    rw [e]; exact hb.a k hk

end
end MPOpt
