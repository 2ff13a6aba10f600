import Verif.Props.PostProcess

/-! # C26: `get_data(interpolate=True)` -/

set_option autoImplicit false
set_option linter.unusedSectionVars false

namespace MPOpt
open Polynomial
variable {K : Type} [Field K] [LinearOrder K]

section
variable {p : Post K} {M : Mesh K} (h : p.solved.Ready M)
include h

/-- Parameter columns of one phase. -/
def paramCols (ocp : OCP K) (T : Traj K) (scaling : Bool) (ph : Nat) : List (List K) :=
  (List.range (if scaling then 1 else ocp.na)).map fun l => (List.range ocp.na).map fun k =>
    ocp.scaleA.getD k 0 * T.a ph k / (if scaling then 1 else ocp.scaleA.getD l 0)

theorem Solved.Ready.phaseAt_spec {taus : List (List K)} (hlen : taus.length = M.orders.length) :
    ∃ I, compInterpMatrix p.solved.disc.colloc taus p.solved.disc.orders = .ok I ∧
      ∀ ph < p.solved.disc.ocp.nPhases, ∃ D, p.phaseAt I taus ph = .ok D ∧
        D.x.cols = p.solved.disc.ocp.nx ∧ D.u.cols = p.solved.disc.ocp.nu ∧
        D.a.rows = p.solved.disc.ocp.na ∧
        D.x.toRows = M.rowsAt (fun s => taus.getD s []) (p.solved.traj.x ph) p.solved.disc.ocp.nx
          (unitOr p.scaling p.solved.disc.ocp.scaleX) ∧
        D.u.toRows = M.rowsAt (fun s => taus.getD s []) (p.solved.traj.u ph) p.solved.disc.ocp.nu
          (unitOr p.scaling p.solved.disc.ocp.scaleU) ∧
        D.t = M.timesAt (fun s => taus.getD s []) p.solved.traj ph ∧
        D.a.toCols = paramCols p.solved.disc.ocp p.solved.traj p.scaling ph := by
  have hord := h.mesh.orders
  have hlen' : taus.length = p.solved.disc.orders.length := by rw [← hord]; exact hlen
  have hI : ∀ v : Nat → K, _ := fun v => C08_composite_interp p.solved.disc.colloc p.solved.disc.orders M.nodes
    h.mesh.goodNodes taus hlen' (M.piece v) (hord ▸ h.mesh.good.piece_degrees v) v
    (hord ▸ h.mesh.good.piece_samples v)
  obtain ⟨I, hI1, hI2, hI3, -⟩ := hI 0
  have hIv : ∀ (v : Nat → K) (s : Nat) (hs : s < taus.length) (i : Nat) (hi : i < taus[s].length),
      I.rowDot (segStart (taus.map List.length) s + i) v = (M.piece v s).eval taus[s][i] := by
    intro v s hs i hi
    obtain ⟨I', h1, -, -, h4⟩ := hI v
    rw [hI1] at h1; cases h1
    exact h4 s hs i hi
  -- rows of a product
  have rows : ∀ (B : Mat K) (v : Nat → Nat → K) (n : Nat) (sc : Nat → K), B.cols = n →
      (∀ i, ∀ j < n, B.e i j = sc j * v i j) →
      Mat.toRows ⟨I.rows, B.cols, fun i j => I.rowDot i fun k => B.e k j⟩ =
        M.rowsAt (fun s => taus.getD s []) v n sc := by
    intro B v n sc hc he
    have hfl : M.rowsAt (fun s => taus.getD s []) v n sc = ((List.range M.orders.length).map fun s =>
        (taus.getD s []).map fun tau => (List.range n).map fun j =>
          sc j * (M.piece (fun k => v k j) s).eval tau).flatten := by
      unfold Mesh.rowsAt; rw [List.flatMap_def]
    have hlens : (((List.range M.orders.length).map fun s => (taus.getD s []).map fun tau =>
        (List.range n).map fun j => sc j * (M.piece (fun k => v k j) s).eval tau).map List.length) =
        taus.map List.length := by
      rw [List.map_map]
      apply List.ext_getElem
      · simp [hlen]
      · intro i h1 h2
        simp [List.getElem?_eq_getElem (show i < taus.length by simpa using h2)]
    rw [hfl]
    apply eq_flatten_of_getElem?
    · rw [Mat.length_toRows, hlens]; exact hI2
    · intro s hs i hi
      rw [hlens]
      have hs1 : s < taus.length := by rw [hlen]; simpa using hs
      have hi1 : i < taus[s].length := by
        simpa [List.getElem?_eq_getElem hs1] using hi
      have hb : segStart (taus.map List.length) s + i < I.rows := by
        rw [hI2]
        have := segStart_add_le (l := taus.map List.length) (s := s) (t := (taus.map List.length).length)
          (by simpa using hs1) (by simpa using hs1)
        rw [segStart_length] at this
        simp only [List.getElem_map] at this
        omega
      rw [Mat.toRows_getElem? ⟨I.rows, B.cols, fun i j => I.rowDot i fun k => B.e k j⟩ hb]
      simp only [List.getElem_map, List.getElem_range, List.getD_eq_getElem _ _ hs1, hc, Option.some.injEq]
      apply List.map_congr_left
      intro j hj
      have hj : j < n := by simpa using hj
      rw [hIv _ s hs1 i hi1, show (fun k => B.e k j) = fun k => sc j * v k j from funext fun k => he k j hj,
        Mesh.piece_smul, eval_mul, eval_C]
  refine ⟨I, hI1, fun ph hph => ?_⟩
  obtain ⟨D, h1, h2, h3, h4, h5, h6, h7, ⟨-, h8⟩, h9, h10, h11⟩ := h.getTrajectories_spec hph
  have hgrid := timeGridAt_spec h.mesh.good p.solved.traj ph h8 hlen
  rw [hord, h.mesh.tau0, h.mesh.tau1] at hgrid
  have hN := h.mesh.N_eq
  have hcx : I.cols = D.x.rows := by rw [hI3, h2, hN]; rfl
  have hcu : I.cols = D.u.rows := by rw [hI3, h5, hN]; rfl
  have key : p.phaseAt I taus ph = .ok ⟨⟨I.rows, D.x.cols, fun i j => I.rowDot i fun k => D.x.e k j⟩,
      ⟨I.rows, D.u.cols, fun i j => I.rowDot i fun k => D.u.e k j⟩,
      ((List.range p.solved.disc.orders.length).map fun s =>
        (taus.getD s []).map (M.time p.solved.traj ph s)).flatten, D.a⟩ := by
    unfold Post.phaseAt Post.originalData
    simp only [List.isEmpty_cons, Bool.false_eq_true, if_false, List.tail_cons, List.foldlM_nil,
      show pyIdx [ph] 0 = .ok ph from rfl, py_bind_ok, h1]
    show (pure D >>= _) = _
    simp only [pure_bind, mtimes_row hcx, mtimes_row hcu, hgrid, py_bind_ok]
    rfl
  refine ⟨_, key, h3, h6, h9, rows _ _ _ _ h3 h4, rows _ _ _ _ h6 h7, ?_, ?_⟩
  · simp only; rw [← hord]; unfold Mesh.timesAt; rw [List.flatMap_def]
  · unfold Mat.toCols paramCols
    simp only
    rw [h10, h9]
    apply List.map_congr_left
    intro l _
    apply List.map_congr_left
    intro k hk
    exact h11 k (by simpa using hk) l

/-- **C26** `get_interpolated_data` at any points: the returned states and controls are the segment polynomials at
those points, the returned times are the times of those points, phase by phase in the requested order. -/
theorem C26_interpolated_at {taus : List (List K)} (hlen : taus.length = M.orders.length)
    (phases : List Nat) (hne : phases ≠ []) (hph : ∀ ph ∈ phases, ph < p.solved.disc.ocp.nPhases) :
    ∃ D, p.interpolatedData phases (some taus) = .ok D ∧
      D.x.toRows = phases.flatMap (fun ph => M.rowsAt (fun s => taus.getD s []) (p.solved.traj.x ph)
        p.solved.disc.ocp.nx (unitOr p.scaling p.solved.disc.ocp.scaleX)) ∧
      D.u.toRows = phases.flatMap (fun ph => M.rowsAt (fun s => taus.getD s []) (p.solved.traj.u ph)
        p.solved.disc.ocp.nu (unitOr p.scaling p.solved.disc.ocp.scaleU)) ∧
      D.t = phases.flatMap (M.timesAt (fun s => taus.getD s []) p.solved.traj) ∧
      D.a.toCols = phases.flatMap (paramCols p.solved.disc.ocp p.solved.traj p.scaling) := by
  obtain ⟨I, hI, hall⟩ := h.phaseAt_spec hlen
  have hall' : ∀ ph, ∃ D, ph < p.solved.disc.ocp.nPhases → _ := fun ph => by
    by_cases hp : ph < p.solved.disc.ocp.nPhases
    · obtain ⟨D, hD⟩ := hall ph hp
      exact ⟨D, fun _ => hD⟩
    · exact ⟨⟨⟨0, 0, fun _ _ => 0⟩, ⟨0, 0, fun _ _ => 0⟩, [], ⟨0, 0, fun _ _ => 0⟩⟩, fun h => absurd h hp⟩
  choose q hq using hall'
  obtain ⟨a, l, rfl⟩ := List.exists_cons_of_ne_nil hne
  have ha := hq a (hph a (by simp))
  have hl : ∀ ph ∈ l, ph < p.solved.disc.ocp.nPhases := fun ph hm => hph ph (List.mem_cons_of_mem _ hm)
  obtain ⟨D, d1, d2, d3, d4, d5⟩ := foldl_stack (f := p.phaseAt I taus) q p.solved.disc.ocp.nx
    p.solved.disc.ocp.nu p.solved.disc.ocp.na false l
    (fun ph hm => (hq ph (hl ph hm)).1) (fun ph hm => (hq ph (hl ph hm)).2.1)
    (fun ph hm => (hq ph (hl ph hm)).2.2.1) (fun ph hm => (hq ph (hl ph hm)).2.2.2.1) (q a) ha.2.1 ha.2.2.1
    ha.2.2.2.1
  refine ⟨D, ?_, ?_, ?_, ?_, ?_⟩
  · unfold Post.interpolatedData
    simp only [py_bind_ok, hI, List.tail_cons]
    rw [show pyIdx (a :: l) 0 = .ok a from rfl, py_bind_ok, ha.1, py_bind_ok]
    simpa using d1
  · rw [d2, List.flatMap_cons, ha.2.2.2.2.1]
    congr 1
    exact List.flatMap_congr fun ph hm => (hq ph (hl ph hm)).2.2.2.2.1
  · rw [d3, List.flatMap_cons, ha.2.2.2.2.2.1]
    congr 1
    exact List.flatMap_congr fun ph hm => (hq ph (hl ph hm)).2.2.2.2.2.1
  · rw [d4, List.flatMap_cons, ha.2.2.2.2.2.2.1]
    congr 1
    exact List.flatMap_congr fun ph hm => (hq ph (hl ph hm)).2.2.2.2.2.2.1
  · simp only [Bool.false_eq_true, if_false] at d5
    rw [d5, List.flatMap_cons, ha.2.2.2.2.2.2.2]
    congr 1
    exact List.flatMap_congr fun ph hm => (hq ph (hl ph hm)).2.2.2.2.2.2.2

end

/-! ## The default grid -/

/-- Point `k` of the plot grid. -/
def Mesh.plotPoint (M : Mesh K) (k : Nat) : K := M.tau0 + (M.tau1 - M.tau0) * ((k : K) / 49)

omit [LinearOrder K] in
theorem Mesh.plotGrid_zero (M : Mesh K) : M.plotGrid 0 = (List.range 50).map M.plotPoint := by
  unfold Mesh.plotGrid
  congr 1

omit [LinearOrder K] in
theorem Mesh.plotGrid_succ (M : Mesh K) (s : Nat) :
    M.plotGrid (s + 1) = (List.range 49).map fun k => M.plotPoint (k + 1) := by
  have : ((List.range 50).filter fun k => decide (s + 1 = 0 ∨ 0 < k)) = (List.range 49).map (· + 1) := by
    simp only [Nat.add_eq_zero_iff, Nat.one_ne_zero, and_false, false_or]
    decide
  unfold Mesh.plotGrid
  rw [this, List.map_map]
  rfl

theorem interpNodes_spec {p : Post K} {M : Mesh K} (hM : p.solved.disc.OnMesh M) :
    p.interpNodes = .ok ((List.range M.orders.length).map M.plotGrid) := by
  have hl : linspace M.tau0 M.tau1 50 = M.plotGrid 0 := by
    rw [Mesh.plotGrid_zero]
    unfold linspace Mesh.plotPoint
    norm_num
  have htail : (M.plotGrid 0).drop 1 = M.plotGrid 1 := by
    rw [M.plotGrid_zero, M.plotGrid_succ, List.range_succ_eq_map, List.map_cons, List.drop_one, List.tail_cons,
      List.map_map]
    rfl
  have hhead : M.tau0 :: M.plotGrid 1 = M.plotGrid 0 := by
    rw [← htail, M.plotGrid_zero, List.range_succ_eq_map, List.map_cons, List.drop_one, List.tail_cons]
    congr 1
    simp [Mesh.plotPoint]
  unfold Post.interpNodes
  have hm : (p.solved.disc.orders.mapM fun q => (do
      let orig ← p.solved.disc.colloc.taus q
      return (← interpolationTaus p.solved.disc.colloc.tau0 p.solved.disc.colloc.tau1 50 (some orig)
        "uniform").drop 1 : Py (List K))) = .ok (p.solved.disc.orders.map fun _ => M.plotGrid 1) := by
    apply mapM_ok
    intro q hq
    rw [hM.taus q hq, py_bind_ok]
    unfold interpolationTaus
    simp only [beq_self_eq_true, if_true, ← hM.tau0, ← hM.tau1, hl, htail, py_bind_ok]
    rfl
  simp only [hm, py_bind_ok]
  rw [← hM.orders]
  obtain ⟨q, l, hql⟩ := List.exists_cons_of_ne_nil hM.good.nonempty
  rw [hql]
  simp only [List.map_cons, pyIdx, List.getElem?_cons_zero, py_bind_ok, List.set_cons_zero, ← hM.tau0, hhead]
  show Except.ok _ = Except.ok _
  congr 1
  rw [List.length_cons, List.range_succ_eq_map, List.map_cons, List.map_map]
  congr 1
  apply List.ext_getElem
  · simp
  · intro i _ _
    simp [Mesh.plotGrid_succ]

section
variable {p : Post K} {M : Mesh K} (h : p.solved.Ready M)
include h

/-- **C26** `get_data(interpolate=True)`: the segment polynomials on the plot grid, with the times of that grid. -/
theorem C26_get_data (phases : List Nat) (hne : phases ≠ [])
    (hph : ∀ ph ∈ phases, ph < p.solved.disc.ocp.nPhases) :
    ∃ D, p.getData phases true = .ok D ∧
      D.x.toRows = phases.flatMap (fun ph => M.rowsAt M.plotGrid (p.solved.traj.x ph)
        p.solved.disc.ocp.nx (unitOr p.scaling p.solved.disc.ocp.scaleX)) ∧
      D.u.toRows = phases.flatMap (fun ph => M.rowsAt M.plotGrid (p.solved.traj.u ph)
        p.solved.disc.ocp.nu (unitOr p.scaling p.solved.disc.ocp.scaleU)) ∧
      D.t = phases.flatMap (M.timesAt M.plotGrid p.solved.traj) ∧
      D.a.toCols = phases.flatMap (paramCols p.solved.disc.ocp p.solved.traj p.scaling) := by
  obtain ⟨D, h1, h2, h3, h4, h5⟩ := C26_interpolated_at h
    (taus := (List.range M.orders.length).map M.plotGrid) (by simp) phases hne hph
  have hg : ∀ s ∈ List.range M.orders.length, ((List.range M.orders.length).map M.plotGrid).getD s [] =
      M.plotGrid s := fun s hs => getD_map_range _ _ _ (by simpa using hs)
  have hrow : ∀ v n (sc : Nat → K), M.rowsAt (fun s => ((List.range M.orders.length).map M.plotGrid).getD s [])
      v n sc = M.rowsAt M.plotGrid v n sc := by
    intro v n sc
    unfold Mesh.rowsAt
    exact List.flatMap_congr fun s hs => by simp only [hg s hs]
  have htime : ∀ ph, M.timesAt (fun s => ((List.range M.orders.length).map M.plotGrid).getD s [])
      p.solved.traj ph = M.timesAt M.plotGrid p.solved.traj ph := by
    intro ph
    unfold Mesh.timesAt
    exact List.flatMap_congr fun s hs => by simp only [hg s hs]
  refine ⟨D, ?_, ?_, ?_, ?_, h5⟩
  · unfold Post.getData
    have he : phases.isEmpty = false := by cases phases <;> simp_all
    simp only [he, Bool.false_eq_true, if_false, if_true]
    rw [← h1]
    unfold Post.interpolatedData
    simp only [interpNodes_spec h.mesh, py_bind_ok]
  · rw [h2]; simp only [hrow]
  · rw [h3]; simp only [hrow]
  · rw [h4]; exact List.flatMap_congr fun ph _ => htime ph

end

omit [LinearOrder K] in
theorem Mesh.length_plotGrid (M : Mesh K) (s : Nat) : (M.plotGrid s).length = if s = 0 then 50 else 49 := by
  cases s with
  | zero => simp [M.plotGrid_zero]
  | succ s => simp [M.plotGrid_succ]

omit [LinearOrder K] in
theorem Mesh.sum_plotGrid (M : Mesh K) : ∀ n, 0 < n →
    ((List.range n).map fun s => (M.plotGrid s).length).sum = 49 * n + 1
  | 1, _ => by simp [Mesh.length_plotGrid]
  | n + 2, _ => by
    rw [List.range_succ, List.map_append, List.sum_append, Mesh.sum_plotGrid M (n + 1) (by omega)]
    simp [Mesh.length_plotGrid]; omega

/-- **C26** Every phase has `49 n_segments + 1` points. -/
theorem C26_count {M : Mesh K} (hM : M.Good) (v : Nat → Nat → K) (n : Nat) (sc : Nat → K) (T : Traj K) (ph : Nat) :
    (M.rowsAt M.plotGrid v n sc).length = 49 * M.orders.length + 1 ∧
      (M.timesAt M.plotGrid T ph).length = 49 * M.orders.length + 1 := by
  have h0 : 0 < M.orders.length := List.length_pos_iff.2 hM.nonempty
  constructor
  · unfold Mesh.rowsAt
    rw [List.length_flatMap]
    simp only [List.length_map]
    exact M.sum_plotGrid _ h0
  · unfold Mesh.timesAt
    rw [List.length_flatMap]
    simp only [List.length_map]
    exact M.sum_plotGrid _ h0

section
variable [IsStrictOrderedRing K]

theorem Mesh.plotPoint_last (M : Mesh K) : M.plotPoint 49 = M.tau1 := by
  unfold Mesh.plotPoint
  have : ((49 : Nat) : K) / 49 = 1 := by norm_num
  rw [this]; ring

theorem Mesh.plotPoint_zero (M : Mesh K) : M.plotPoint 0 = M.tau0 := by simp [Mesh.plotPoint]

/-- The grid of every segment ends at `tau1`. -/
theorem Mesh.plotGrid_getLast? (M : Mesh K) (s : Nat) : (M.plotGrid s).getLast? = some M.tau1 := by
  cases s with
  | zero => rw [M.plotGrid_zero, List.range_succ, List.map_append]; simp [M.plotPoint_last]
  | succ s => rw [M.plotGrid_succ, List.range_succ, List.map_append]; simp [M.plotPoint_last]

theorem Mesh.plotGrid_head? (M : Mesh K) : (M.plotGrid 0).head? = some M.tau0 := by
  rw [M.plotGrid_zero, List.range_succ_eq_map]; simp [M.plotPoint_zero]

/-- Last node of the last segment is the last node of the phase. -/
theorem Mesh.last_idx {M : Mesh K} {s : Nat} (hs : s + 1 = M.orders.length) :
    M.idx s (M.order s) = M.N - 1 := by
  have h := segStart_succ M.orders (s := s) (by omega)
  unfold Mesh.idx
  rw [Mesh.order_eq (by omega), ← h, hs, segStart_length]
  simp [Mesh.N]

/-- **C26** The interpolated data of a phase start at the values and time of the first node and end at those of the
last node. -/
theorem C26_ends {M : Mesh K} (hM : M.Good) (v : Nat → Nat → K) (n : Nat) (sc : Nat → K) (T : Traj K) (ph : Nat) :
    (M.rowsAt M.plotGrid v n sc).head? = some ((List.range n).map fun j => sc j * v 0 j) ∧
    (M.rowsAt M.plotGrid v n sc).getLast? = some ((List.range n).map fun j => sc j * v (M.N - 1) j) ∧
    (M.timesAt M.plotGrid T ph).head? = (M.nodeTimes T ph).head? ∧
    (M.timesAt M.plotGrid T ph).getLast? = (M.nodeTimes T ph).getLast? := by
  have h0 : 0 < M.orders.length := List.length_pos_iff.2 hM.nonempty
  obtain ⟨m, hm⟩ : ∃ m, M.orders.length = m + 1 := ⟨M.orders.length - 1, by omega⟩
  have hfirst : ∀ j, (M.piece (fun k => v k j) 0).eval M.tau0 = v 0 j := by
    intro j
    have := hM.piece_eval_node (fun k => v k j) h0 (i := 0) (by omega)
    rw [hM.node_first h0] at this
    rw [this]; simp [Mesh.idx, segStart_zero]
  have hlast : ∀ j, (M.piece (fun k => v k j) m).eval M.tau1 = v (M.N - 1) j := by
    intro j
    have := hM.piece_eval_node (fun k => v k j) (s := m) (by omega) le_rfl
    rw [hM.node_last (by omega), Mesh.last_idx hm.symm] at this
    exact this
  have hpos := hM.order_pos (s := m) (by omega)
  refine ⟨?_, ?_, ?_, ?_⟩
  · unfold Mesh.rowsAt
    rw [hm, List.range_succ_eq_map, List.flatMap_cons, List.head?_append, List.head?_map, M.plotGrid_head?]
    simp [hfirst]
  · unfold Mesh.rowsAt
    rw [hm, List.range_succ, List.flatMap_append, List.getLast?_append, List.flatMap_singleton,
      List.getLast?_map, M.plotGrid_getLast?]
    simp [hlast]
  · unfold Mesh.timesAt Mesh.nodeTimes
    rw [hm, List.range_succ_eq_map, List.flatMap_cons, List.head?_append, List.head?_map, M.plotGrid_head?]
    simp [Mesh.time]
  · unfold Mesh.timesAt Mesh.nodeTimes
    rw [hm, List.range_succ, List.flatMap_append, List.getLast?_append, List.flatMap_singleton,
      List.getLast?_map, M.plotGrid_getLast?, List.flatMap_append, List.flatMap_singleton,
      ← List.cons_append, List.getLast?_append]
    obtain ⟨q, hq⟩ : ∃ q, M.order m = q + 1 := ⟨M.order m - 1, by omega⟩
    rw [hq, List.range_succ, List.map_append, List.getLast?_append, List.map_singleton, ← hq,
      hM.node_last (by omega)]
    simp

/-- **C26** Times are strictly increasing when the phase has positive duration, widths are positive and
`tau0 < tau1`. -/
theorem C26_increasing {M : Mesh K} (htau : M.tau0 < M.tau1) (T : Traj K) (ph : Nat) (ht : T.t0 ph < T.tf ph)
    (hw : ∀ s < M.orders.length, 0 < T.w s ph) : (M.timesAt M.plotGrid T ph).Pairwise (· < ·) := by
  have hhw : ∀ s < M.orders.length, 0 < M.halfWidth T ph s := by
    intro s hs
    unfold Mesh.halfWidth
    exact mul_pos (div_pos (sub_pos.2 ht) (sub_pos.2 htau)) (hw s hs)
  have hmono : ∀ s < M.orders.length, ∀ a b, a < b → M.time T ph s a < M.time T ph s b := by
    intro s hs a b hab
    unfold Mesh.time
    have := mul_lt_mul_of_pos_left (sub_lt_sub_right hab M.tau0) (hhw s hs)
    linarith
  have hpt : ∀ a b : Nat, a < b → M.plotPoint a < M.plotPoint b := by
    intro a b hab
    unfold Mesh.plotPoint
    have h1 : (a : K) / 49 < (b : K) / 49 := div_lt_div_of_pos_right (by exact_mod_cast hab) (by norm_num)
    have := mul_lt_mul_of_pos_left h1 (sub_pos.2 htau)
    linarith
  have hle : ∀ s, ∀ tau ∈ M.plotGrid s, tau ≤ M.tau1 := by
    intro s tau hm
    rw [← M.plotPoint_last]
    have : ∃ k ≤ 49, M.plotPoint k = tau := by
      cases s with
      | zero =>
        rw [M.plotGrid_zero] at hm
        obtain ⟨k, hk, rfl⟩ := List.mem_map.1 hm
        exact ⟨k, by have := List.mem_range.1 hk; omega, rfl⟩
      | succ s =>
        rw [M.plotGrid_succ] at hm
        obtain ⟨k, hk, rfl⟩ := List.mem_map.1 hm
        exact ⟨k + 1, by have := List.mem_range.1 hk; omega, rfl⟩
    obtain ⟨k, hk, rfl⟩ := this
    rcases Nat.lt_or_ge k 49 with h | h
    · exact le_of_lt (hpt _ _ h)
    · rw [show k = 49 by omega]
  have hgt : ∀ s, ∀ tau ∈ M.plotGrid (s + 1), M.tau0 < tau := by
    intro s tau hm
    rw [M.plotGrid_succ] at hm
    obtain ⟨k, hk, rfl⟩ := List.mem_map.1 hm
    rw [← M.plotPoint_zero]
    exact hpt _ _ (by omega)
  have hpw : ∀ s, (M.plotGrid s).Pairwise (· < ·) := by
    intro s
    cases s with
    | zero =>
      rw [M.plotGrid_zero]
      exact List.Pairwise.map _ (fun a b hab => hpt a b hab) List.pairwise_lt_range
    | succ s =>
      rw [M.plotGrid_succ]
      exact List.Pairwise.map _ (fun a b hab => hpt _ _ (by omega)) List.pairwise_lt_range
  have hend : ∀ s < M.orders.length, M.time T ph s M.tau1 =
      T.t0 ph + (T.tf ph - T.t0 ph) * ∑ r ∈ Finset.range (s + 1), T.w r ph := by
    intro s _
    unfold Mesh.time Mesh.halfWidth
    rw [Finset.sum_range_succ]
    have := (sub_pos.2 htau).ne'
    field_simp
    ring
  unfold Mesh.timesAt
  rw [List.pairwise_flatMap]
  refine ⟨?_, ?_⟩
  · intro s hs
    exact List.Pairwise.map _ (fun a b hab => hmono s (by simpa using hs) a b hab) (hpw s)
  · apply List.Pairwise.imp_of_mem _ List.pairwise_lt_range
    intro s s' hs hs' hlt a ha b hb
    obtain ⟨tau, h1, rfl⟩ := List.mem_map.1 ha
    obtain ⟨tau', h2, rfl⟩ := List.mem_map.1 hb
    have hs : s < M.orders.length := by simpa using hs
    have hs' : s' < M.orders.length := by simpa using hs'
    obtain ⟨r, rfl⟩ : ∃ r, s' = r + 1 := ⟨s' - 1, by omega⟩
    have e1 : M.time T ph s tau ≤ M.time T ph s M.tau1 := by
      rcases lt_or_eq_of_le (hle s tau h1) with h | h
      · exact le_of_lt (hmono s hs _ _ h)
      · rw [h]
    have e2 : M.time T ph (r + 1) M.tau0 < M.time T ph (r + 1) tau' := hmono _ hs' _ _ (hgt r _ h2)
    have e3 : M.time T ph (r + 1) M.tau0 =
        T.t0 ph + (T.tf ph - T.t0 ph) * ∑ q ∈ Finset.range (r + 1), T.w q ph := by
      unfold Mesh.time; ring
    have e4 : ∑ q ∈ Finset.range (s + 1), T.w q ph ≤ ∑ q ∈ Finset.range (r + 1), T.w q ph := by
      apply Finset.sum_le_sum_of_subset_of_nonneg
      · intro x hx
        have := Finset.mem_range.1 hx
        exact Finset.mem_range.2 (by omega)
      · intro x hx _
        exact le_of_lt (hw x (by have := Finset.mem_range.1 hx; omega))
    have e5 := mul_le_mul_of_nonneg_left e4 (le_of_lt (sub_pos.2 ht))
    rw [hend s hs] at e1
    linarith

end
end MPOpt
