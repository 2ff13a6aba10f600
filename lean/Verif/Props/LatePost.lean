import Verif.Props.IntervalRun
import Verif.Props.PostInterp
import Verif.Model.LatePost

/-! # C104: `get_data(interpolate=True)` after the class settings changed

The proofs follow `Props/PostInterp.lean`, with interpolation on the mesh `M'` of the new settings. -/

set_option autoImplicit false
set_option linter.unusedSectionVars false

namespace MPOpt
open Polynomial

section
variable {K : Type} [Field K] [LinearOrder K]
variable {p : Post K} {M M' : Mesh K} {c : Colloc K} (h : p.solved.Ready M) (hM' : M'.Good) (ho : M'.orders = M.orders)
variable (hR : GoodNodes c p.solved.disc.orders M'.nodes)

include h hM' ho hR in
theorem Solved.Ready.phaseAt_late {taus : List (List K)} (hlen : taus.length = M.orders.length) :
    ∃ I, compInterpMatrix c taus p.solved.disc.orders = .ok I ∧
      ∀ ph < p.solved.disc.ocp.nPhases, ∃ D, p.phaseAt I taus ph = .ok D ∧
        D.x.cols = p.solved.disc.ocp.nx ∧ D.u.cols = p.solved.disc.ocp.nu ∧
        D.a.rows = p.solved.disc.ocp.na ∧
        D.x.toRows = M'.rowsAt (fun s => taus.getD s []) (p.solved.traj.x ph) p.solved.disc.ocp.nx
          (unitOr p.scaling p.solved.disc.ocp.scaleX) ∧
        D.u.toRows = M'.rowsAt (fun s => taus.getD s []) (p.solved.traj.u ph) p.solved.disc.ocp.nu
          (unitOr p.scaling p.solved.disc.ocp.scaleU) ∧
        D.t = M.timesAt (fun s => taus.getD s []) p.solved.traj ph ∧
        D.a.toCols = paramCols p.solved.disc.ocp p.solved.traj p.scaling ph := by
  have hord := h.mesh.orders
  have hlen' : taus.length = p.solved.disc.orders.length := by rw [← hord]; exact hlen
  have hI : ∀ v : Nat → K, _ := fun v => C08_composite_interp c p.solved.disc.orders M'.nodes
    hR taus hlen' (M'.piece v) (hord ▸ ho ▸ hM'.piece_degrees v) v
    (hord ▸ ho ▸ hM'.piece_samples v)
  obtain ⟨I, hI1, hI2, hI3, -⟩ := hI 0
  have hIv : ∀ (v : Nat → K) (s : Nat) (hs : s < taus.length) (i : Nat) (hi : i < taus[s].length),
      I.rowDot (segStart (taus.map List.length) s + i) v = (M'.piece v s).eval taus[s][i] := by
    intro v s hs i hi
    obtain ⟨I', h1, -, -, h4⟩ := hI v
    rw [hI1] at h1; cases h1
    exact h4 s hs i hi
  -- rows of a product
  have rows : ∀ (B : Mat K) (v : Nat → Nat → K) (n : Nat) (sc : Nat → K), B.cols = n →
      (∀ i, ∀ j < n, B.e i j = sc j * v i j) →
      Mat.toRows ⟨I.rows, B.cols, fun i j => I.rowDot i fun k => B.e k j⟩ =
        M'.rowsAt (fun s => taus.getD s []) v n sc := by
    intro B v n sc hc he
    have hfl : M'.rowsAt (fun s => taus.getD s []) v n sc = ((List.range M.orders.length).map fun s =>
        (taus.getD s []).map fun tau => (List.range n).map fun j =>
          sc j * (M'.piece (fun k => v k j) s).eval tau).flatten := by
      unfold Mesh.rowsAt; rw [List.flatMap_def, ho]
    have hlens : (((List.range M.orders.length).map fun s => (taus.getD s []).map fun tau =>
        (List.range n).map fun j => sc j * (M'.piece (fun k => v k j) s).eval tau).map List.length) =
        taus.map List.length := by
      rw [List.map_map]
      apply List.ext_getElem
      · simp [hlen]
      · intro i h1 h2
        simp [List.getElem?_eq_getElem (show i < taus.length by simpa using h2)]
    rw [hfl]
    apply eq_flatten_of_getElem?
    · rw [Mat.length_toRows, hlens]; exact hI2
    · intro s hs i hi
      rw [hlens]
      have hs1 : s < taus.length := by rw [hlen]; simpa using hs
      have hi1 : i < taus[s].length := by
        simpa [List.getElem?_eq_getElem hs1] using hi
      have hb : segStart (taus.map List.length) s + i < I.rows := by
        rw [hI2]
        have := segStart_add_le (l := taus.map List.length) (s := s) (t := (taus.map List.length).length)
          (by simpa using hs1) (by simpa using hs1)
        rw [segStart_length] at this
        simp only [List.getElem_map] at this
        omega
      rw [Mat.toRows_getElem? ⟨I.rows, B.cols, fun i j => I.rowDot i fun k => B.e k j⟩ hb]
      simp only [List.getElem_map, List.getElem_range, List.getD_eq_getElem _ _ hs1, hc, Option.some.injEq]
      apply List.map_congr_left
      intro j hj
      have hj : j < n := by simpa using hj
      rw [hIv _ s hs1 i hi1, show (fun k => B.e k j) = fun k => sc j * v k j from funext fun k => he k j hj,
        Mesh.piece_smul, eval_mul, eval_C]
  refine ⟨I, hI1, fun ph hph => ?_⟩
  obtain ⟨D, h1, h2, h3, h4, h5, h6, h7, ⟨-, h8⟩, h9, h10, h11⟩ := h.getTrajectories_spec hph
  have hgrid := timeGridAt_spec h.mesh.good p.solved.traj ph h8 hlen
  rw [hord, h.mesh.tau0, h.mesh.tau1] at hgrid
  have hN := h.mesh.N_eq
  have hcx : I.cols = D.x.rows := by rw [hI3, h2, hN]; rfl
  have hcu : I.cols = D.u.rows := by rw [hI3, h5, hN]; rfl
  have key : p.phaseAt I taus ph = .ok ⟨⟨I.rows, D.x.cols, fun i j => I.rowDot i fun k => D.x.e k j⟩,
      ⟨I.rows, D.u.cols, fun i j => I.rowDot i fun k => D.u.e k j⟩,
      ((List.range p.solved.disc.orders.length).map fun s =>
        (taus.getD s []).map (M.time p.solved.traj ph s)).flatten, D.a⟩ := by
    unfold Post.phaseAt Post.originalData
    simp only [List.isEmpty_cons, Bool.false_eq_true, if_false, List.tail_cons, List.foldlM_nil,
      show pyIdx [ph] 0 = .ok ph from rfl, py_bind_ok, h1]
    show (pure D >>= _) = _
    simp only [pure_bind, mtimes_row hcx, mtimes_row hcu, hgrid, py_bind_ok]
    rfl
  refine ⟨_, key, h3, h6, h9, rows _ _ _ _ h3 h4, rows _ _ _ _ h6 h7, ?_, ?_⟩
  · simp only; rw [← hord]; unfold Mesh.timesAt; rw [List.flatMap_def]
  · unfold Mat.toCols paramCols
    simp only
    rw [h10, h9]
    apply List.map_congr_left
    intro l _
    apply List.map_congr_left
    intro k hk
    exact h11 k (by simpa using hk) l

include h hM' ho hR in
theorem late_interpolated {taus : List (List K)} (hlen : taus.length = M.orders.length)
    (phases : List Nat) (hne : phases ≠ []) (hph : ∀ ph ∈ phases, ph < p.solved.disc.ocp.nPhases) :
    ∃ D, p.interpolatedDataIn c phases (some taus) = .ok D ∧
      D.x.toRows = phases.flatMap (fun ph => M'.rowsAt (fun s => taus.getD s []) (p.solved.traj.x ph)
        p.solved.disc.ocp.nx (unitOr p.scaling p.solved.disc.ocp.scaleX)) ∧
      D.u.toRows = phases.flatMap (fun ph => M'.rowsAt (fun s => taus.getD s []) (p.solved.traj.u ph)
        p.solved.disc.ocp.nu (unitOr p.scaling p.solved.disc.ocp.scaleU)) ∧
      D.t = phases.flatMap (M.timesAt (fun s => taus.getD s []) p.solved.traj) ∧
      D.a.toCols = phases.flatMap (paramCols p.solved.disc.ocp p.solved.traj p.scaling) := by
  obtain ⟨I, hI, hall⟩ := h.phaseAt_late hM' ho hR hlen
  have hall' : ∀ ph, ∃ D, ph < p.solved.disc.ocp.nPhases → _ := fun ph => by
    by_cases hp : ph < p.solved.disc.ocp.nPhases
    · obtain ⟨D, hD⟩ := hall ph hp
      exact ⟨D, fun _ => hD⟩
    · exact ⟨⟨⟨0, 0, fun _ _ => 0⟩, ⟨0, 0, fun _ _ => 0⟩, [], ⟨0, 0, fun _ _ => 0⟩⟩, fun h => absurd h hp⟩
  choose q hq using hall'
  obtain ⟨a, l, rfl⟩ := List.exists_cons_of_ne_nil hne
  have ha := hq a (hph a (by simp))
  have hl : ∀ ph ∈ l, ph < p.solved.disc.ocp.nPhases := fun ph hm => hph ph (List.mem_cons_of_mem _ hm)
  obtain ⟨D, d1, d2, d3, d4, d5⟩ := foldl_stack (f := p.phaseAt I taus) q p.solved.disc.ocp.nx
    p.solved.disc.ocp.nu p.solved.disc.ocp.na false l
    (fun ph hm => (hq ph (hl ph hm)).1) (fun ph hm => (hq ph (hl ph hm)).2.1)
    (fun ph hm => (hq ph (hl ph hm)).2.2.1) (fun ph hm => (hq ph (hl ph hm)).2.2.2.1) (q a) ha.2.1 ha.2.2.1
    ha.2.2.2.1
  refine ⟨D, ?_, ?_, ?_, ?_, ?_⟩
  · unfold Post.interpolatedDataIn
    simp only [py_bind_ok, hI, List.tail_cons]
    rw [show pyIdx (a :: l) 0 = .ok a from rfl, py_bind_ok, ha.1, py_bind_ok]
    simpa using d1
  · rw [d2, List.flatMap_cons, ha.2.2.2.2.1]
    congr 1
    exact List.flatMap_congr fun ph hm => (hq ph (hl ph hm)).2.2.2.2.1
  · rw [d3, List.flatMap_cons, ha.2.2.2.2.2.1]
    congr 1
    exact List.flatMap_congr fun ph hm => (hq ph (hl ph hm)).2.2.2.2.2.1
  · rw [d4, List.flatMap_cons, ha.2.2.2.2.2.2.1]
    congr 1
    exact List.flatMap_congr fun ph hm => (hq ph (hl ph hm)).2.2.2.2.2.2.1
  · simp only [Bool.false_eq_true, if_false] at d5
    rw [d5, List.flatMap_cons, ha.2.2.2.2.2.2.2]
    congr 1
    exact List.flatMap_congr fun ph hm => (hq ph (hl ph hm)).2.2.2.2.2.2.2

theorem interpNodesIn_spec {p : Post K} {M : Mesh K} (hM : p.solved.disc.OnMesh M) {c : Colloc K} {R : Nat → List K}
    (hR : GoodNodes c p.solved.disc.orders R) :
    p.interpNodesIn c = .ok ((List.range M.orders.length).map M.plotGrid) := by
  have hl : linspace M.tau0 M.tau1 50 = M.plotGrid 0 := by
    rw [Mesh.plotGrid_zero]
    unfold linspace Mesh.plotPoint
    norm_num
  have htail : (M.plotGrid 0).drop 1 = M.plotGrid 1 := by
    rw [M.plotGrid_zero, M.plotGrid_succ, List.range_succ_eq_map, List.map_cons, List.drop_one, List.tail_cons,
      List.map_map]
    rfl
  have hhead : M.tau0 :: M.plotGrid 1 = M.plotGrid 0 := by
    rw [← htail, M.plotGrid_zero, List.range_succ_eq_map, List.map_cons, List.drop_one, List.tail_cons]
    congr 1
    simp [Mesh.plotPoint]
  unfold Post.interpNodesIn
  have hm : (p.solved.disc.orders.mapM fun q => (do
      let orig ← c.taus q
      return (← interpolationTaus p.solved.disc.colloc.tau0 p.solved.disc.colloc.tau1 50 (some orig)
        "uniform").drop 1 : Py (List K))) = .ok (p.solved.disc.orders.map fun _ => M.plotGrid 1) := by
    apply mapM_ok
    intro q hq
    rw [(hR q hq).1, py_bind_ok]
    unfold interpolationTaus
    simp only [beq_self_eq_true, if_true, ← hM.tau0, ← hM.tau1, hl, htail, py_bind_ok]
    rfl
  simp only [hm, py_bind_ok]
  rw [← hM.orders]
  obtain ⟨q, l, hql⟩ := List.exists_cons_of_ne_nil hM.good.nonempty
  rw [hql]
  simp only [List.map_cons, pyIdx, List.getElem?_cons_zero, py_bind_ok, List.set_cons_zero, ← hM.tau0, hhead]
  show Except.ok _ = Except.ok _
  congr 1
  rw [List.length_cons, List.range_succ_eq_map, List.map_cons, List.map_map]
  congr 1
  apply List.ext_getElem
  · simp
  · intro i _ _
    simp [Mesh.plotGrid_succ]

include h hM' ho hR in
theorem late_get_data (phases : List Nat) (hne : phases ≠ [])
    (hph : ∀ ph ∈ phases, ph < p.solved.disc.ocp.nPhases) :
    ∃ D, p.getDataIn c phases true = .ok D ∧
      D.x.toRows = phases.flatMap (fun ph => M'.rowsAt M.plotGrid (p.solved.traj.x ph)
        p.solved.disc.ocp.nx (unitOr p.scaling p.solved.disc.ocp.scaleX)) ∧
      D.u.toRows = phases.flatMap (fun ph => M'.rowsAt M.plotGrid (p.solved.traj.u ph)
        p.solved.disc.ocp.nu (unitOr p.scaling p.solved.disc.ocp.scaleU)) ∧
      D.t = phases.flatMap (M.timesAt M.plotGrid p.solved.traj) ∧
      D.a.toCols = phases.flatMap (paramCols p.solved.disc.ocp p.solved.traj p.scaling) := by
  obtain ⟨D, h1, h2, h3, h4, h5⟩ := late_interpolated h hM' ho hR
    (taus := (List.range M.orders.length).map M.plotGrid) (by simp) phases hne hph
  have hg : ∀ s ∈ List.range M.orders.length, ((List.range M.orders.length).map M.plotGrid).getD s [] =
      M.plotGrid s := fun s hs => getD_map_range _ _ _ (by simpa using hs)
  have hrow : ∀ v n (sc : Nat → K), M'.rowsAt (fun s => ((List.range M.orders.length).map M.plotGrid).getD s [])
      v n sc = M'.rowsAt M.plotGrid v n sc := by
    intro v n sc
    unfold Mesh.rowsAt
    rw [ho]
    exact List.flatMap_congr fun s hs => by simp only [hg s hs]
  have htime : ∀ ph, M.timesAt (fun s => ((List.range M.orders.length).map M.plotGrid).getD s [])
      p.solved.traj ph = M.timesAt M.plotGrid p.solved.traj ph := by
    intro ph
    unfold Mesh.timesAt
    exact List.flatMap_congr fun s hs => by simp only [hg s hs]
  refine ⟨D, ?_, ?_, ?_, ?_, h5⟩
  · unfold Post.getDataIn
    have he : phases.isEmpty = false := by cases phases <;> simp_all
    simp only [he, Bool.false_eq_true, if_false, if_true]
    rw [← h1]
    unfold Post.interpolatedDataIn
    simp only [interpNodesIn_spec h.mesh hR, py_bind_ok]
  · rw [h2]; simp only [hrow]
  · rw [h3]; simp only [hrow]
  · rw [h4]; exact List.flatMap_congr fun ph _ => htime ph

end

section
variable {K : Type} [Field K] [LinearOrder K] [IsStrictOrderedRing K]
variable {p : Post K} {M M' : Mesh K} {c : Colloc K} {k b : K}

/-- With the settings of the solution this is `get_data`. -/
theorem getDataIn_same (p : Post K) (phases : List Nat) (interpolate : Bool) :
    p.getDataIn p.solved.disc.colloc phases interpolate = p.getData phases interpolate := rfl

/-- **C104** `get_data(interpolate=True)` after the interval was changed by `tau ↦ k * tau + b`: the times are those of the plot
grid, the rows are the solution's polynomials at other points, `(tau - b) / k` instead of `tau`. -/
theorem C104_late (h : p.solved.Ready M) (hm : M.Moved M' k b) (hR : GoodNodes c p.solved.disc.orders M'.nodes)
    (phases : List Nat) (hne : phases ≠ []) (hph : ∀ ph ∈ phases, ph < p.solved.disc.ocp.nPhases) :
    ∃ D, p.getDataIn c phases true = .ok D ∧
      D.x.toRows = phases.flatMap (fun ph => M.rowsAt (fun s => (M.plotGrid s).map fun tau => (tau - b) / k)
        (p.solved.traj.x ph) p.solved.disc.ocp.nx (unitOr p.scaling p.solved.disc.ocp.scaleX)) ∧
      D.u.toRows = phases.flatMap (fun ph => M.rowsAt (fun s => (M.plotGrid s).map fun tau => (tau - b) / k)
        (p.solved.traj.u ph) p.solved.disc.ocp.nu (unitOr p.scaling p.solved.disc.ocp.scaleU)) ∧
      D.t = phases.flatMap (M.timesAt M.plotGrid p.solved.traj) := by
  have hM := h.mesh.good
  obtain ⟨D, h1, h2, h3, h4, -⟩ := late_get_data h (hm.good hM) hm.orders hR phases hne hph
  have key : ∀ v n (sc : Nat → K), M'.rowsAt M.plotGrid v n sc =
      M.rowsAt (fun s => (M.plotGrid s).map fun tau => (tau - b) / k) v n sc := by
    intro v n sc
    unfold Mesh.rowsAt
    rw [hm.orders]
    refine List.flatMap_congr fun s hs => ?_
    rw [List.map_map]
    refine List.map_congr_left fun tau _ => List.map_congr_left fun j _ => ?_
    have := hm.piece_eval hM (List.mem_range.1 hs) (fun i => v i j) ((tau - b) / k)
    rw [mul_div_cancel₀ _ hm.ne, sub_add_cancel] at this
    rw [this]
  exact ⟨D, h1, by rw [h2]; simp only [key], by rw [h3]; simp only [key], h4⟩

/-- **C104** For example: solved with one segment of order 1 on `[-1, 1]`, plotted after `_TAU_MIN = 0`: the first state shown,
at the initial time, is not `x 0` but `2 * x 0 - x 1`. -/
theorem C104_late_start (h : p.solved.Ready M) (hM : M = ⟨[1], fun _ => [-1, 1], -1, 1⟩) (hc : c.taus 1 = .ok [0, 1])
    {ph : Nat} (hph : ph < p.solved.disc.ocp.nPhases) :
    ∃ D, p.getDataIn c [ph] true = .ok D ∧
      D.x.toRows.head? = some ((List.range p.solved.disc.ocp.nx).map fun j =>
        unitOr p.scaling p.solved.disc.ocp.scaleX j * (2 * p.solved.traj.x ph 0 j - p.solved.traj.x ph 1 j)) ∧
      D.t.head? = some (p.solved.traj.t0 ph) := by
  have hm : M.Moved (M.onInterval 0 1) (1 / 2) (1 / 2) := by
    have := Mesh.onInterval_moved (M := M) (lo := 0) (hi := 1) (by subst hM; norm_num) (by norm_num)
    subst hM
    norm_num at this ⊢
    exact this
  have hg := h.mesh.good
  have hord := h.mesh.orders
  obtain ⟨D, h1, h2, -, h4⟩ := C104_late h hm (c := c) (by
    intro q hq
    obtain rfl : q = 1 := by rw [← hord, hM] at hq; simpa using hq
    have e : (M.onInterval 0 1).nodes 1 = [0, 1] := by subst hM; norm_num [Mesh.onInterval]
    rw [e]
    exact ⟨hc, rfl, by norm_num⟩) [ph] (by simp) (by simpa using hph)
  have hl : M.orders.length = 1 := by rw [hM]; rfl
  have hgrid : (M.plotGrid 0) = M.tau0 :: (M.plotGrid 0).tail := by
    have := M.plotGrid_head?
    cases e : M.plotGrid 0 with
    | nil => rw [e] at this; cases this
    | cons x l => rw [e] at this; cases this; rfl
  have hev : ∀ v : Nat → K, (M.piece v 0).eval (-3) = 2 * v 0 - v 1 := by
    intro v
    have hpiece : M.piece v 0 = Polynomial.C ((v 1 - v 0) / 2) * (Polynomial.X + Polynomial.C 1) + Polynomial.C (v 0) := by
      apply hg.piece_eq (by rw [hl]; norm_num)
      · have : (Polynomial.C ((v 1 - v 0) / 2) * (Polynomial.X + Polynomial.C 1) + Polynomial.C (v 0) : K[X]).degree ≤ 1 := by
          compute_degree
        refine this.trans_lt ?_
        subst hM
        show ((1 : Nat) : WithBot Nat) < ((1 + 1 : Nat) : WithBot Nat)
        norm_cast
      · intro i hi
        subst hM
        have hi : i ≤ 1 := hi
        rcases (by omega : i = 0 ∨ i = 1) with rfl | rfl
        · simp [Mesh.node, Mesh.idx, segStart]
        · simp [Mesh.node, Mesh.idx, segStart]; ring
    rw [hpiece]; simp; ring
  refine ⟨D, h1, ?_, ?_⟩
  · rw [h2]
    unfold Mesh.rowsAt
    simp only [hl, List.flatMap_cons, List.flatMap_nil, List.append_nil, List.range_one]
    rw [hgrid]
    simp only [List.map_cons, List.head?_cons]
    rw [show (M.tau0 - 1 / 2) / (1 / 2) = -3 by subst hM; norm_num]
    simp only [hev]
  · rw [h4]
    unfold Mesh.timesAt
    simp only [hl, List.flatMap_cons, List.flatMap_nil, List.append_nil, List.range_one]
    rw [hgrid]
    simp only [List.map_cons, List.head?_cons]
    simp [Mesh.time]

end
end MPOpt
