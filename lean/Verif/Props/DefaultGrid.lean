import Verif.Props.ResidualGrid

/-! # C29, C30, C45, C48, C50 on the grids chosen by the code; C65: are they collocation nodes? -/

set_option autoImplicit false
set_option linter.unusedSectionVars false

namespace MPOpt
open Polynomial

variable {K : Type} [Field K] [LinearOrder K] [IsStrictOrderedRing K] {e : Solved K} {M : Mesh K}

/-- `grids` are the grids that `get_residual_grid_taus` returns for type `gt ph` in every phase. -/
def GridsFor (e : Solved K) (gt : Nat → Option String) (grids : List (List (List K))) : Prop :=
  grids.length = e.disc.ocp.nPhases ∧
    ∀ ph g, grids[ph]? = some g → e.residualGrid ph (gt ph) = .ok (some g)

theorem mapM_congr_mem {A B : Type} {f g : A → Py B} {l : List A} (h : ∀ a ∈ l, f a = g a) :
    l.mapM f = l.mapM g := by
  induction l with
  | nil => rfl
  | cons a l ih => rw [List.mapM_cons, List.mapM_cons, h a (by simp), ih fun b hb => h b (by simp [hb])]

/-- **C29, C45** `get_dynamics_residuals(grid_type=g)` is the result for the points of that grid, given explicitly. -/
theorem C29_default_grid {g : String} {grids : List (List (List K))} (hg : GridsFor e (fun _ => some g) grids)
    (rel : Bool) (gt : Option String) :
    e.dynResiduals none (some g) rel = e.dynResiduals (some grids) gt rel := by
  unfold Solved.dynResiduals
  rw [dynLoop_grid, dynLoop_nodes]
  apply mapM_congr_mem
  intro ph hph
  have hl : ph < grids.length := by
    rw [hg.1]
    have := List.mem_range'_1.1 hph
    omega
  rw [hg.2 ph _ (List.getElem?_eq_getElem hl), pyIdx_ok hl]
  rfl

/-- **C48** `get_states_residuals()` is the result for the points of each phase's own grid, given explicitly. -/
theorem C48_default_grid {grids : List (List (List K))} (hg : GridsFor e (fun ph => e.gridType[ph]?) grids)
    (ht : e.gridType.length = e.disc.ocp.nPhases) (rel : Bool) :
    e.stateResiduals none rel = e.stateResiduals (some grids) rel := by
  unfold Solved.stateResiduals Solved.stateOne Solved.stateTarget
  apply mapM_congr_mem
  intro ph hph
  have hph : ph < e.disc.ocp.nPhases := by simpa using hph
  have hl : ph < grids.length := by rw [hg.1]; exact hph
  have hl' : ph < e.gridType.length := by rw [ht]; exact hph
  have h := hg.2 ph _ (List.getElem?_eq_getElem hl)
  simp only [List.getElem?_eq_getElem hl'] at h
  simp only [pyIdx_ok hl', pyIdx_ok hl, py_bind_ok, h, pure_bind]

/-- **C50** `get_state_second_derivative(grid_type=gt)` is the result for the points of that grid, given
explicitly. -/
theorem C50_default_grid {gt : Option String} {grids : List (List (List K))} (hg : GridsFor e (fun _ => gt) grids)
    (gt' : Option String) : e.secondDerivative none gt = e.secondDerivative (some grids) gt' := by
  unfold Solved.secondDerivative
  apply mapM_congr_mem
  intro ph hph
  have hph : ph < e.disc.ocp.nPhases := by simpa using hph
  have hl : ph < grids.length := by rw [hg.1]; exact hph
  have h := hg.2 ph _ (List.getElem?_eq_getElem hl)
  simp only [pyIdx_ok hl, py_bind_ok, h, pure_bind]

/-- The grids of the three types exist and have the shape of the mesh: mid-points always, spectral if the scheme
gives nodes of order `_MAX_GRID_POINTS + 2`, fixed for positive widths with sum 1. -/
theorem grids_exist (h : e.disc.OnMesh M) {g : String}
    (hg : g = "mid-points" ∨
      (g = "spectral" ∧ ∃ r, e.disc.colloc.taus (e.maxGrid + 2) = .ok r) ∨
      (g = "fixed" ∧ M.tau0 < M.tau1 ∧ ∀ ph < e.disc.ocp.nPhases, (e.phaseWidths ph).length = e.disc.nSegments ∧
        (∀ w ∈ e.phaseWidths ph, 0 < w) ∧ (e.phaseWidths ph).sum = 1)) :
    ∃ grids, GridsFor e (fun _ => some g) grids ∧ GridShape M e.disc.ocp.nPhases grids := by
  have key : ∀ ph, ∃ gr : List (List K), ph < e.disc.ocp.nPhases →
      e.residualGrid ph (some g) = .ok (some gr) ∧ gr.length = M.orders.length := by
    intro ph
    by_cases hph : ph < e.disc.ocp.nPhases
    swap
    · exact ⟨[], fun hh => absurd hh hph⟩
    rcases hg with rfl | ⟨rfl, r, hr⟩ | ⟨rfl, hlt, hw⟩
    · refine ⟨e.disc.orders.map fun p => Disc.midPoints (M.nodes p), fun _ => ⟨?_, by simp [h.orders]⟩⟩
      have hm : (e.disc.orders.mapM fun p => do return Disc.midPoints (← e.disc.colloc.taus p)) =
          .ok (e.disc.orders.map fun p => Disc.midPoints (M.nodes p)) := by
        apply mapM_ok
        intro p hp
        rw [h.taus p hp]; rfl
      unfold Solved.residualGrid
      simp only [py_bind_ok]
      rw [if_neg (by decide), if_pos (by decide), hm]
      rfl
    · refine ⟨e.disc.orders.map fun _ => (r.drop 1).dropLast, fun _ => ⟨?_, by simp [h.orders]⟩⟩
      have hm : (e.disc.orders.mapM fun _ => do
          return ((← e.disc.colloc.taus (e.maxGrid + 2)).drop 1).dropLast) =
          .ok (e.disc.orders.map fun _ => (r.drop 1).dropLast) := by
        apply mapM_ok
        intro p hp
        rw [hr]; rfl
      unfold Solved.residualGrid
      simp only [py_bind_ok]
      rw [if_neg (by decide), if_neg (by decide), if_pos (by decide), hm]
      rfl
    · obtain ⟨w1, w2, w3⟩ := hw ph hph
      rw [h.tau0, h.tau1] at hlt
      obtain ⟨out, o1, o2, -⟩ := C27_partition (linspace e.disc.colloc.tau0 e.disc.colloc.tau1
        (max (e.disc.orders.sum + 2) (e.maxGrid + 2))) hlt w2 (near_one w3)
      have hne : 0 < out.length := by
        rw [o2, w1, ← h.segments, ← h.orders]
        exact List.length_pos_iff.2 h.good.nonempty
      refine ⟨out.set 0 out[0].dropLast, fun _ => ⟨?_, by
        rw [List.length_set, o2, w1, ← h.segments, ← h.orders]⟩⟩
      unfold Solved.residualGrid
      simp only [py_bind_ok]
      rw [if_pos (by decide), o1]
      simp only [py_bind_ok, pyIdx_ok hne]
      rfl
  choose gr hgr using key
  refine ⟨(List.range e.disc.ocp.nPhases).map gr, ⟨by simp, fun ph g' hg' => ?_⟩, by simp, fun g' hg' => ?_⟩
  · have hph : ph < e.disc.ocp.nPhases := by
      by_contra hh
      rw [List.getElem?_eq_none (by simp; omega)] at hg'
      cases hg'
    rw [List.getElem?_map, List.getElem?_range hph] at hg'
    cases hg'
    exact (hgr ph hph).1
  · obtain ⟨ph, hph, rfl⟩ := List.mem_map.1 hg'
    exact (hgr ph (by simpa using hph)).2

/-! ### C30 -/

/-- **C30** `grid_type=None` and the grid type configured for phase 0 are the same request. -/
theorem C30_same_as_phase_zero (e : Solved K) (rel : Bool) {g : String} (h0 : e.gridType[0]? = some g)
    (hp : 0 < e.disc.ocp.nPhases) : e.dynResiduals none none rel = e.dynResiduals none (some g) rel := by
  rw [C30_uses_phase_zero_type e rel g h0 hp]
  unfold Solved.dynResiduals
  rw [dynLoop_grid, List.range_eq_range']

/-! ### C65 -/

/-- **C65**, mid-points: between two consecutive nodes of a segment, hence never a collocation node. -/
theorem C65_midpoints (h : e.disc.OnMesh M) (hsp : ∀ p ∈ M.orders, NodesSpan M.tau0 M.tau1 p (M.nodes p)) (ph : Nat) :
    ∃ g, e.residualGrid ph (some "mid-points") = .ok (some g) ∧ g.length = M.orders.length ∧
      ∀ s < M.orders.length, (g.getD s []).length = M.order s ∧
        ∀ (i : Nat) (hi : i < (g.getD s []).length), M.node s i < (g.getD s [])[i] ∧
          (g.getD s [])[i] < M.node s (i + 1) ∧ ∀ k ≤ M.order s, (g.getD s [])[i] ≠ M.node s k := by
  have hm : (e.disc.orders.mapM fun p => do return Disc.midPoints (← e.disc.colloc.taus p)) =
      .ok (e.disc.orders.map fun p => Disc.midPoints (M.nodes p)) := by
    apply mapM_ok
    intro p hp
    rw [h.taus p hp]; rfl
  refine ⟨e.disc.orders.map fun p => Disc.midPoints (M.nodes p), ?_, by simp [h.orders], ?_⟩
  · unfold Solved.residualGrid
    simp only [py_bind_ok]
    rw [if_neg (by decide), if_pos (by decide), hm]
    rfl
  intro s hs
  have hmem := h.good.order_mem hs
  have hspan := hsp _ hmem
  have hsort := List.pairwise_iff_getElem.1 hspan.sorted
  have hlen := hspan.length
  have hnode : ∀ k (hk : k ≤ M.order s), M.node s k = (M.nodes (M.order s))[k]'(by omega) := by
    intro k hk
    unfold Mesh.node
    rw [List.getD_eq_getElem _ _ (by omega)]
  have hg : (e.disc.orders.map fun p => Disc.midPoints (M.nodes p)).getD s [] =
      Disc.midPoints (M.nodes (M.order s)) := by
    rw [← h.orders, List.getD_eq_getElem _ _ (by simpa using hs), List.getElem_map, Mesh.order_eq hs]
  have hl : ((e.disc.orders.map fun p => Disc.midPoints (M.nodes p)).getD s []).length = M.order s := by
    rw [hg, length_midPoints]; omega
  refine ⟨hl, fun i hi => ?_⟩
  have hi' : i < M.order s := by rw [← hl]; exact hi
  have hv : ((e.disc.orders.map fun p => Disc.midPoints (M.nodes p)).getD s [])[i] =
      (M.node s i + M.node s (i + 1)) / 2 := by
    simp only [hg, midPoints_getElem]
    rfl
  have hstep : M.node s i < M.node s (i + 1) := by
    rw [hnode i (by omega), hnode (i + 1) (by omega)]
    exact hsort _ _ (by omega) (by omega) (Nat.lt_succ_self i)
  rw [hv]
  refine ⟨by linarith, by linarith, fun k hk heq => ?_⟩
  rcases Nat.lt_or_ge i k with hik | hik
  · have : M.node s (i + 1) ≤ M.node s k := by
      rcases Nat.eq_or_lt_of_le (show i + 1 ≤ k from hik) with rfl | h'
      · exact le_rfl
      · rw [hnode (i + 1) (by omega), hnode k hk]
        exact (hsort _ _ (by omega) (by omega) h').le
    linarith
  · have : M.node s k ≤ M.node s i := by
      rcases Nat.eq_or_lt_of_le hik with rfl | h'
      · exact le_rfl
      · rw [hnode i (by omega), hnode k hk]
        exact (hsort _ _ (by omega) (by omega) h').le
    linarith

/-- **C65 is false for the spectral grid**: when all orders are `_MAX_GRID_POINTS + 2` (17 with the default 15), its
points are collocation nodes, and the dynamics residuals reported for any point that satisfies the NLP are zero, however
bad it is in between. -/
theorem C65_spectral_false (h : e.Ready M) (hs : e.disc.ocp.SettingsOK) (hsc : e.disc.ocp.PosScales)
    {nlp : Disc.NLP K} (hnlp : e.disc.createNlp = .ok nlp) (hfeas : nlp.Feasible (e.disc.envOf e.z e.widths))
    (hord : ∀ p ∈ M.orders, p = e.maxGrid + 2) :
    (∀ ph, ∃ g, e.residualGrid ph (some "spectral") = .ok (some g) ∧ g.length = M.orders.length ∧
      ∀ s < M.orders.length, (g.getD s []).length = e.maxGrid + 1 ∧
        ∀ (i : Nat) (hi : i < (g.getD s []).length), (g.getD s [])[i] = M.node s (i + 1)) ∧
    ∃ res, e.dynResiduals none (some "spectral") false = .ok res ∧ res.length = e.disc.ocp.nPhases ∧
      ∀ p ∈ res, p.2.length = M.orders.length ∧
        ∀ seg ∈ p.2, ∀ rows, seg = some rows → ∀ row ∈ rows, row.length = e.disc.ocp.nx ∧ ∀ v ∈ row, v = 0 := by
  have hM := h.mesh
  have hne : ∃ p, p ∈ M.orders := List.exists_mem_of_ne_nil _ hM.good.nonempty
  obtain ⟨p, hp⟩ := hne
  obtain rfl := hord p hp
  have hr := hM.taus (e.maxGrid + 2) (hM.orders ▸ hp)
  have hlen := hM.good.length _ hp
  have hgrid : ∀ ph, e.residualGrid ph (some "spectral") =
      .ok (some (M.orders.map fun _ => ((M.nodes (e.maxGrid + 2)).drop 1).dropLast)) := by
    intro ph
    have hm : (e.disc.orders.mapM fun _ => do
        return ((← e.disc.colloc.taus (e.maxGrid + 2)).drop 1).dropLast) =
        .ok (e.disc.orders.map fun _ => ((M.nodes (e.maxGrid + 2)).drop 1).dropLast) := by
      apply mapM_ok
      intro p hp
      rw [hr]; rfl
    unfold Solved.residualGrid
    simp only [py_bind_ok]
    rw [if_neg (by decide), if_neg (by decide), if_pos (by decide), hm, hM.orders]
    rfl
  have horder : ∀ s < M.orders.length, M.order s = e.maxGrid + 2 := fun s hs => hord _ (hM.good.order_mem hs)
  have hval : ∀ s < M.orders.length, ∀ i (hi : i < (((M.nodes (e.maxGrid + 2)).drop 1).dropLast).length),
      (((M.nodes (e.maxGrid + 2)).drop 1).dropLast)[i] = M.node s (i + 1) := by
    intro s hs i hi
    have hi' : i < e.maxGrid + 1 := by simp at hi; omega
    unfold Mesh.node
    rw [horder s hs, List.getD_eq_getElem _ _ (by omega), List.getElem_dropLast, List.getElem_drop]
    congr 1; omega
  refine ⟨fun ph => ⟨_, hgrid ph, by simp, fun s hs => ?_⟩, ?_⟩
  · have e1 : (M.orders.map fun _ => ((M.nodes (e.maxGrid + 2)).drop 1).dropLast).getD s [] =
        ((M.nodes (e.maxGrid + 2)).drop 1).dropLast := by
      rw [List.getD_eq_getElem _ _ (by simpa using hs), List.getElem_map]
    refine ⟨by rw [e1]; simp; omega, fun i hi => ?_⟩
    simp only [e1]
    exact hval s hs i (by rw [e1] at hi; exact hi)
  · have hg : GridsFor e (fun _ => some "spectral")
        ((List.range e.disc.ocp.nPhases).map fun _ => M.orders.map fun _ =>
          ((M.nodes (e.maxGrid + 2)).drop 1).dropLast) := by
      refine ⟨by simp, fun ph g hg => ?_⟩
      obtain ⟨k, -, rfl⟩ := List.mem_map.1 (List.mem_of_getElem? hg)
      exact hgrid ph
    rw [C29_default_grid hg false none]
    refine C29_zero_at_collocation_nodes h hs hsc hnlp hfeas ⟨by simp, fun g hg => ?_⟩ ?_ none
    · obtain ⟨k, -, rfl⟩ := List.mem_map.1 hg
      simp
    · intro ph s tau ht
      by_cases hph : ph < e.disc.ocp.nPhases
      · rw [getD_map_range _ _ _ hph] at ht
        by_cases hs : s < M.orders.length
        · rw [List.getD_eq_getElem _ _ (by simpa using hs), List.getElem_map] at ht
          obtain ⟨i, hi, rfl⟩ := List.mem_iff_getElem.1 ht
          have hi' : i < e.maxGrid + 1 := by simp at hi; omega
          exact ⟨i + 1, ⟨hs, by rw [horder s hs]; omega, Or.inr (by omega)⟩, hval s hs i hi⟩
        · rw [List.getD_eq_default _ _ (by simpa using hs)] at ht; cases ht
      · have hl : ((List.range e.disc.ocp.nPhases).map fun _ => M.orders.map fun _ =>
            ((M.nodes (e.maxGrid + 2)).drop 1).dropLast).length ≤ ph := by simpa using hph
        rw [List.getD_eq_default (hn := hl)] at ht
        simp at ht

end MPOpt
