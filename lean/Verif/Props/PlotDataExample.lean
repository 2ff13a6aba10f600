import Verif.Props.PlotData
import Verif.Props.ResidualExamples

/-! # C66: the residual plot of `get_dynamics_residuals`, and concrete cases -/

set_option autoImplicit false
set_option linter.unusedSectionVars false

namespace MPOpt

section
variable {K : Type} [Field K] [LinearOrder K] [IsStrictOrderedRing K] {e : Solved K} {M : Mesh K}

theorem flatMap_range_map {A B : Type} (f : Nat → A) (g : A → List B) {n : Nat} (d : A) :
    ((List.range n).flatMap fun i => g (((List.range n).map f).getD i d)) =
      (List.range n).flatMap fun i => g (f i) := by
  rw [List.flatMap_def, List.flatMap_def]
  congr 1
  apply List.map_congr_left
  intro i hi
  rw [getD_map_range _ _ _ (by simpa using hi)]

/-- **C66** The residual plot for given points shows, phase by phase, segment by segment and point by point, the norm
of the residual and the time of the point: when there is one phase, or when all segments have the same number of
points. -/
theorem C66_plot (h : e.Ready M) (norm : List K → K) {nodes : List (List (List K))}
    (hn : GridShape M e.disc.ocp.nPhases nodes) (gt : Option String) (F : Nat → VFun (PArg K) K)
    (hF : ∀ ph < e.disc.ocp.nPhases, e.disc.ocp.dynamics[ph]? = some (F ph)) (hp : 0 < e.disc.ocp.nPhases)
    (hu : e.disc.ocp.nPhases = 1 ∨ ∃ m, ∀ g ∈ nodes, ∀ x ∈ g, x.length = m) :
    e.residualPlot norm (some nodes) gt false = .ok
      ((List.range e.disc.ocp.nPhases).flatMap fun ph => (List.range M.orders.length).flatMap fun s =>
          ((nodes.getD ph []).getD s []).map fun tau => norm ((List.range e.disc.ocp.nx).map fun j =>
            e.disc.ocp.scaleX.getD j 0 * e.disc.ocp.defect M e.traj (F ph) ph s tau j),
        (List.range e.disc.ocp.nPhases).flatMap fun ph => (List.range M.orders.length).flatMap fun s =>
          ((nodes.getD ph []).getD s []).map fun tau => PlotCell.num (M.time e.traj ph s tau)) := by
  have hM : 0 < M.orders.length := List.length_pos_iff.2 h.mesh.good.nonempty
  unfold Solved.residualPlot
  rw [C29_residual_is_defect h hn gt F hF, py_bind_ok, List.map_map, List.map_map]
  set ft : Nat → List (List K) := fun ph =>
    (List.range M.orders.length).map fun s => ((nodes.getD ph []).getD s []).map (M.time e.traj ph s) with hft
  set fr : Nat → List (SegResidual K) := fun ph => (List.range M.orders.length).map fun s =>
        if ((nodes.getD ph []).getD s []).length = 0 then none else
          some (((nodes.getD ph []).getD s []).map fun tau => (List.range e.disc.ocp.nx).map fun j =>
            e.disc.ocp.scaleX.getD j 0 * e.disc.ocp.defect M e.traj (F ph) ph s tau j) with hfr
  have e1 : (List.range e.disc.ocp.nPhases).map (Prod.fst ∘ fun ph => (ft ph, fr ph)) =
      (List.range e.disc.ocp.nPhases).map ft := rfl
  have e2 : (List.range e.disc.ocp.nPhases).map (Prod.snd ∘ fun ph => (ft ph, fr ph)) =
      (List.range e.disc.ocp.nPhases).map fr := rfl
  rw [e1, e2]
  have hnorm : ∀ ph, normsOf norm (fr ph) = (List.range M.orders.length).flatMap fun s =>
          ((nodes.getD ph []).getD s []).map fun tau => norm ((List.range e.disc.ocp.nx).map fun j =>
            e.disc.ocp.scaleX.getD j 0 * e.disc.ocp.defect M e.traj (F ph) ph s tau j) := by
    intro ph
    unfold normsOf
    rw [hfr, List.flatMap_map]
    apply List.flatMap_congr
    intro s _
    split
    · rename_i h0
      rw [List.length_eq_zero_iff.1 h0]; rfl
    · rw [Option.getD_some, List.map_map]; rfl
  have htime : ∀ ph, (ft ph).flatten.map PlotCell.num = (List.range M.orders.length).flatMap fun s =>
          ((nodes.getD ph []).getD s []).map fun tau => PlotCell.num (M.time e.traj ph s tau) := by
    intro ph
    rw [hft, ← List.flatMap_def, List.map_flatMap]
    apply List.flatMap_congr
    intro s _
    rw [List.map_map]; rfl
  have hhas : ∀ ph < e.disc.ocp.nPhases, HasPhase ((List.range e.disc.ocp.nPhases).map ft)
      ((List.range e.disc.ocp.nPhases).map fr) M.orders.length ph (ft ph) (fr ph) := by
    intro ph hph
    refine ⟨?_, ?_, by simp [hft], ?_⟩
    · rw [List.getElem?_map, List.getElem?_range hph, Option.map_some]
    · rw [List.getElem?_map, List.getElem?_range hph, Option.map_some]
    · unfold CountsMatch
      rw [hft, hfr, List.forall₂_map_left_iff, List.forall₂_map_right_iff, List.forall₂_same]
      intro s _
      split
      · rename_i h0
        rw [List.length_map, h0]; rfl
      · rw [Option.getD_some, List.length_map, List.length_map]
  rcases hu with h1 | ⟨m, hm⟩
  · rw [C66_single norm (hhas 0 hp) hM (by simp [h1])]
    simp only [h1, hnorm, htime]
    simp
  · obtain ⟨k, hk⟩ : ∃ k, e.disc.ocp.nPhases = k + 1 := ⟨e.disc.ocp.nPhases - 1, by omega⟩
    have hrange : List.range e.disc.ocp.nPhases = 0 :: (List.range k).map Nat.succ := by
      rw [hk, List.range_succ_eq_map]
    have key := C66_uniform (m := m) (rest := (List.range k).map Nat.succ) (n := M.orders.length)
      (time := (List.range e.disc.ocp.nPhases).map ft) (residuals := (List.range e.disc.ocp.nPhases).map fr) norm hM
      (by
        rw [← hrange]
        intro ph hph
        have hph : ph < e.disc.ocp.nPhases := by simpa using hph
        refine ⟨_, _, hhas ph hph, ?_⟩
        intro x hx
        obtain ⟨s, hs, rfl⟩ := List.mem_map.1 hx
        have hl : ph < nodes.length := by rw [hn.1]; exact hph
        have hgm := List.getElem_mem hl
        have hs' : s < nodes[ph].length := by rw [hn.2 _ hgm]; simpa using hs
        rw [List.length_map, List.getD_eq_getElem _ _ hl, List.getD_eq_getElem _ _ hs']
        exact hm _ hgm _ (List.getElem_mem hs'))
    rw [← hrange, flatMap_range_map fr (normsOf norm), flatMap_range_map ft fun l => l.flatten.map PlotCell.num] at key
    rw [key]
    simp only [hnorm, htime]

/-- **C66** The default plot of a grid type is the plot for the points of that grid, given explicitly. -/
theorem C66_default_plot (norm : List K → K) {g : String} {grids : List (List (List K))}
    (hg : GridsFor e (fun _ => some g) grids) (rel : Bool) (gt : Option String) :
    e.residualPlot norm none (some g) rel = e.residualPlot norm (some grids) gt rel := by
  unfold Solved.residualPlot
  rw [C29_default_grid hg rel gt]

end

/-! ### Concrete cases -/

/-- The 2-norm of a row with one entry. -/
def normOne (row : List ℚ) : ℚ := |row.headD 0|

/-- Two phases with three nodes each. -/
def zQ11 : List ℚ := [0, 2, 4, 1, 1, 1, 0, 0, 0, 0, 5, 0] ++ [6, 8, 10, 1, 1, 1, 0, 0, 0, 5, 10, 0]

/-- The hypotheses of `C66_plot`, `C66_default_plot` and `C66_default_raises` are met: two phases, two segments of order
1, grid type `mid-points`, with `_MAX_GRID_POINTS = 15`. The mid-points are plotted; the plot for the default type
`fixed` raises. -/
theorem C66_example : ∃ (e : Solved ℚ) (M : Mesh ℚ),
    solvedQ ocpQ2 [1, 1] [1/2, 1/2, 1/2, 1/2] ["mid-points", "mid-points"] 15 zQ11 = .ok e ∧ e.Ready M ∧
      e.residualPlot normOne none (some "mid-points") false = .ok ([1/2, 1/2, 3/8, 1/8],
        [.num (1/4), .num (3/4), .num (5/4), .num (7/4)]) ∧
      e.residualPlot normOne none (some "fixed") false = .error .value := by
  obtain ⟨d, M, h1, h2, h3, h4, h5, h6, -⟩ := C43_lgr_setup libQ .numerical (-1) 1 (by norm_num) ocpQ2
    [1, 1] (by simp) (by simp) (by
      intro p hp h2
      simp only [List.mem_cons, List.not_mem_nil, or_false, or_self] at hp
      omega)
  obtain ⟨-, hv, hs, hsc⟩ := ocpQ2_ready
  rw [← h3] at hv hs hsc
  let e : Solved ℚ := ⟨d, [1/2, 1/2, 1/2, 1/2], ["mid-points", "mid-points"], 15, zQ11⟩
  have he : solvedQ ocpQ2 [1, 1] [1/2, 1/2, 1/2, 1/2] ["mid-points", "mid-points"] 15 zQ11 = .ok e := by
    unfold solvedQ
    rw [show ([1, 1] : List Nat).length = [1, 1].length from rfl, h1]; rfl
  have hc : (do
      let e ← solvedQ ocpQ2 [1, 1] [1/2, 1/2, 1/2, 1/2] ["mid-points", "mid-points"] 15 zQ11
      return (e.disc.allVars.length, e.disc.widthParams.length, e.disc.ocp.nPhases, e.disc.nSegments) :
      Py (Nat × Nat × Nat × Nat)) = .ok (24, 4, 2, 2) := by decide +kernel
  have c5 : (solvedQ ocpQ2 [1, 1] [1/2, 1/2, 1/2, 1/2] ["mid-points", "mid-points"] 15 zQ11 >>= fun e =>
      return (List.range 2).map e.phaseWidths) = .ok [[1/2, 1/2], [1/2, 1/2]] := by decide +kernel
  have hb : (solvedQ ocpQ2 [1, 1] [1/2, 1/2, 1/2, 1/2] ["mid-points", "mid-points"] 15 zQ11 >>= fun e =>
      e.residualPlot normOne none (some "mid-points") false) = .ok ([1/2, 1/2, 3/8, 1/8],
        [.num (1/4), .num (3/4), .num (5/4), .num (7/4)]) := by decide +kernel
  rw [he, py_bind_ok] at hb hc c5
  rw [py_pure_eq_ok] at hc c5
  simp only [Prod.mk.injEq] at hc
  obtain ⟨c1, c2, c3, c4⟩ := hc
  have hr : e.Ready M := ⟨h2, hv, by rw [c1]; rfl, by rw [c2]; rfl, fun s hs => (hsc.x s hs).ne',
    fun s hs => (hsc.u s hs).ne', fun s hs => (hsc.a s hs).ne'⟩
  refine ⟨e, M, he, hr, hb, C66_default_raises hr (by rw [h5, h6]; norm_num) normOne (by rw [c3]) (by rw [c4]) ?_ ?_⟩
  · intro ph hph
    rw [c3] at hph
    have : e.phaseWidths ph = ((List.range 2).map e.phaseWidths).getD ph [] := by
      rw [getD_map_range _ _ _ hph]
    rw [this, c5, c4]
    have : ph = 0 ∨ ph = 1 := by omega
    rcases this with rfl | rfl <;> norm_num [List.replicate]
  · rw [c4, h4]
    change max [1, 1].sum 15 ≠ 2
    decide

/-- **C66 is false** for the first phase: asked for phase 1 alone, `sort_residual_data` returns the data of phase 0. -/
theorem C66_first_phase_false : (solvedQ ocpQ2 [1, 1] [1/2, 1/2, 1/2, 1/2] ["mid-points", "mid-points"] 15 zQ11 >>=
    fun e => do
      let res ← e.dynResiduals none none false
      sortResidualData normOne (res.map (·.1)) (res.map (·.2)) [1]) =
    .ok ([1/2, 1/2], [.num (1/4), .num (3/4)]) := by decide +kernel

end MPOpt
