import Verif.Props.PlotResid
import Verif.Props.PlotData

/-! # C71: residuals in `plot_phases` and the figures of `process_results` -/

set_option autoImplicit false
set_option linter.unusedSectionVars false

namespace MPOpt

section
variable {K : Type} [Field K] [LinearOrder K] {e : Solved K} {M : Mesh K} {grids : List (List (List K))}

/-- Points of a grid by phase and segment. -/
def pointsOf (grids : List (List (List K))) (ph s : Nat) : List K := (grids.getD ph []).getD s []

/-- The axes for the dynamics residual: component `j` times its scale at all points of all phases. -/
noncomputable def dynamicsAxes (e : Solved K) (M : Mesh K) (F : Nat → VFun (PArg K) K) (grids : List (List (List K)))
    (xlabel : Option String) : Axes K :=
  residAxes (M.allTimes e.traj e.disc.ocp.nPhases (pointsOf grids))
    (fun j => M.allValues e.disc.ocp.nPhases (pointsOf grids) fun ph s tau =>
      e.disc.ocp.scaleX.getD j 0 * e.disc.ocp.defect M e.traj (F ph) ph s tau j)
    e.disc.ocp.nx "dx" "Dynamics error" xlabel

/-- The axes for the state residual. -/
noncomputable def statesAxes (e : Solved K) (M : Mesh K) (F : Nat → VFun (PArg K) K) (grids : List (List (List K))) :
    Axes K :=
  residAxes (M.allTimes e.traj e.disc.ocp.nPhases (pointsOf grids))
    (fun j => M.allValues e.disc.ocp.nPhases (pointsOf grids) fun ph s tau =>
      e.disc.ocp.scaleX.getD j 0 * ((M.piece (fun k => e.traj.x ph k j) s).eval tau -
        e.disc.ocp.integrated M e.traj (F ph) e.disc.colloc.method (pointsOf grids ph s) ph s tau j))
    e.disc.ocp.nx "x" "States error" none

/-- The state residual of a segment with the given points. -/
def stateCell (t : K → K) (x r : K → List K) (pts : List K) : Solved.StateRes K :=
  if pts.length = 0 then ⟨none, none, none⟩ else ⟨some (pts.map t), some (pts.map x), some (pts.map r)⟩

theorem stateCell_t {t : K → K} {x r : K → List K} {pts : List K} :
    (stateCell t x r pts).t = if pts = [] then none else some (pts.map t) := by
  cases pts <;> simp [stateCell]

theorem stateCell_res {t : K → K} {x r : K → List K} {pts : List K} :
    (stateCell t x r pts).res = segRows r pts := by
  cases pts <;> simp [stateCell, segRows]

theorem stateTimes_eq (time : List (List (Option (List K)))) : stateTimes time =
    if (time.any fun p => p.any Option.isNone) = true then .error .value
    else stackTimes (time.map fun p => p.map fun s => s.getD []) := by
  unfold stateTimes
  split <;> rfl

/-- Every phase has a point. -/
def HasPoints (M : Mesh K) (n : Nat) (grids : List (List (List K))) : Prop :=
  ∀ ph < n, ∃ s < M.orders.length, pointsOf grids ph s ≠ []

variable [IsStrictOrderedRing K] (h : e.Ready M) (hn : GridShape M e.disc.ocp.nPhases grids) (hpt : HasPoints M e.disc.ocp.nPhases grids)
  {F : Nat → VFun (PArg K) K} (hF : ∀ ph < e.disc.ocp.nPhases, e.disc.ocp.dynamics[ph]? = some (F ph))
  (hx : e.disc.ocp.nx ≤ 15)
include h hn hpt hF hx

/-- **C71** The third axes of `plot_phases` with stored dynamics residuals show every component of the residual at all
points of *all* phases, dotted and labelled from one - provided all phases have the same shape; otherwise `plot_phases`
raises `ValueError`. -/
theorem C71_dynamics_residuals [Decidable (SameShape grids)] :
    ∃ res, e.dynResiduals (some grids) none false = .ok res ∧
      residualAxes [("t_dx", .dynamics res)] (dots 15) =
        if SameShape grids then .ok [dynamicsAxes e M F grids (some "Time, s")] else .error .value := by
  have hp := h.valid.phases
  refine ⟨_, C29_residual_is_defect h hn none F hF, ?_⟩
  obtain ⟨-, A, a1, a2, a3, a4⟩ := residRows_ok (M := M) (nx := e.disc.ocp.nx) (n := e.disc.ocp.nPhases)
    (pts := pointsOf grids) (fun ph s tau j =>
      e.disc.ocp.scaleX.getD j 0 * e.disc.ocp.defect M e.traj (F ph) ph s tau j) hp hpt
  have ht := stackTimes_mesh (e := e) e.traj h.mesh.good hp hn
  unfold residualAxes
  rw [show PyDict.get? [("t_dx", ResidVal.dynamics _)] "t_x" = (none : Option (ResidVal K)) from rfl,
    show ∀ v : ResidVal K, PyDict.get? [("t_dx", v)] "t_dx" = some v from fun _ => rfl]
  simp only [List.map_map]
  have e1 : residRowsByPhase ((List.range e.disc.ocp.nPhases).map
      ((fun x : List (List K) × List (SegResidual K) => x.2) ∘ fun ph =>
      ((List.range M.orders.length).map fun s => ((grids.getD ph []).getD s []).map (M.time e.traj ph s),
       (List.range M.orders.length).map fun s =>
        if ((grids.getD ph []).getD s []).length = 0 then none else
          some (((grids.getD ph []).getD s []).map fun tau => (List.range e.disc.ocp.nx).map fun j =>
            e.disc.ocp.scaleX.getD j 0 * e.disc.ocp.defect M e.traj (F ph) ph s tau j)))) = .ok A := a1
  have e2 : stackTimes ((List.range e.disc.ocp.nPhases).map
      ((fun x : List (List K) × List (SegResidual K) => x.1) ∘ fun ph =>
      ((List.range M.orders.length).map fun s => ((grids.getD ph []).getD s []).map (M.time e.traj ph s),
       (List.range M.orders.length).map fun s =>
        if ((grids.getD ph []).getD s []).length = 0 then none else
          some (((grids.getD ph []).getD s []).map fun tau => (List.range e.disc.ocp.nx).map fun j =>
            e.disc.ocp.scaleX.getD j 0 * e.disc.ocp.defect M e.traj (F ph) ph s tau j)))) =
      if SameShape grids then .ok (M.allTimes e.traj e.disc.ocp.nPhases (pointsOf grids)) else .error .value := ht
  rw [e1, e2, py_bind_ok]
  by_cases hs : SameShape grids
  · rw [if_pos hs, if_pos hs, py_bind_ok, plotCurve_resid a2 (a3 _) a4 hx, py_bind_ok]
    rfl
  · rw [if_neg hs, if_neg hs]
    rfl

/-- The first two statements of the residual plot of the states. -/
theorem statePlot_core [Decidable (SameShape grids)]
    [Decidable (∀ ph < e.disc.ocp.nPhases, ∀ s < M.orders.length, pointsOf grids ph s ≠ [])] :
    ∃ resx, e.stateResiduals (some grids) false = .ok resx ∧ ∀ (R : Type) (k : Axes K → Py R),
      (do
        let t ← stateTimes (resx.map fun p => p.map (·.t))
        let a2 ← plotCurve .empty (← residRows (resx.map fun p => p.map (·.res))) t (some "x") (some "States error")
          (dots 15) none
        k a2) =
      if SameShape grids ∧ ∀ ph < e.disc.ocp.nPhases, ∀ s < M.orders.length, pointsOf grids ph s ≠ [] then
        k (statesAxes e M F grids) else .error .value := by
  have hp := h.valid.phases
  refine ⟨_, stateResiduals_closed h hn F hF, fun R k => ?_⟩
  obtain ⟨⟨B, b1, b2, b3, b4⟩, -⟩ := residRows_ok (M := M) (nx := e.disc.ocp.nx) (n := e.disc.ocp.nPhases)
    (pts := pointsOf grids) (fun ph s tau j =>
      e.disc.ocp.scaleX.getD j 0 * ((M.piece (fun k => e.traj.x ph k j) s).eval tau -
        e.disc.ocp.integrated M e.traj (F ph) e.disc.colloc.method (pointsOf grids ph s) ph s tau j)) hp hpt
  have ht := stackTimes_mesh (e := e) e.traj h.mesh.good hp hn
  set f : Nat → Nat → Solved.StateRes K := fun ph s => stateCell (M.time e.traj ph s)
    (fun tau => (List.range e.disc.ocp.nx).map fun j => e.disc.ocp.scaleX.getD j 0 *
      e.disc.ocp.integrated M e.traj (F ph) e.disc.colloc.method (pointsOf grids ph s) ph s tau j)
    (fun tau => (List.range e.disc.ocp.nx).map fun j => e.disc.ocp.scaleX.getD j 0 *
      ((M.piece (fun k => e.traj.x ph k j) s).eval tau -
        e.disc.ocp.integrated M e.traj (F ph) e.disc.colloc.method (pointsOf grids ph s) ph s tau j))
    (pointsOf grids ph s) with hf
  have hft : ∀ ph s, (f ph s).t = if pointsOf grids ph s = [] then none else
      some ((pointsOf grids ph s).map (M.time e.traj ph s)) := fun ph s => stateCell_t
  have hfr : ∀ ph s, (f ph s).res = segRows (fun tau => (List.range e.disc.ocp.nx).map fun j =>
          e.disc.ocp.scaleX.getD j 0 * ((M.piece (fun k => e.traj.x ph k j) s).eval tau -
            e.disc.ocp.integrated M e.traj (F ph) e.disc.colloc.method (pointsOf grids ph s) ph s tau j))
          (pointsOf grids ph s) := fun ph s => stateCell_res
  show (stateTimes (((List.range e.disc.ocp.nPhases).map fun ph => (List.range M.orders.length).map (f ph)).map
    fun p => p.map (·.t)) >>= fun t =>
    residRows (((List.range e.disc.ocp.nPhases).map fun ph => (List.range M.orders.length).map (f ph)).map
      fun p => p.map (·.res)) >>= fun y =>
    plotCurve .empty y t (some "x") (some "States error") (dots 15) none >>= fun a2 => k a2) = _
  simp only [List.map_map]
  have eB : residRows ((List.range e.disc.ocp.nPhases).map ((fun p : List (Solved.StateRes K) => p.map (·.res)) ∘
      fun ph => (List.range M.orders.length).map (f ph))) = .ok B := by
    rw [← b1]
    congr 1
    apply List.map_congr_left
    intro ph _
    simp only [Function.comp_apply, List.map_map]
    exact List.map_congr_left fun s _ => hfr ph s
  have eT : stateTimes ((List.range e.disc.ocp.nPhases).map ((fun p : List (Solved.StateRes K) => p.map (·.t)) ∘
      fun ph => (List.range M.orders.length).map (f ph))) =
      if SameShape grids ∧ ∀ ph < e.disc.ocp.nPhases, ∀ s < M.orders.length, pointsOf grids ph s ≠ [] then
        .ok (M.allTimes e.traj e.disc.ocp.nPhases (pointsOf grids)) else .error .value := by
    rw [stateTimes_eq]
    by_cases hall : ∀ ph < e.disc.ocp.nPhases, ∀ s < M.orders.length, pointsOf grids ph s ≠ []
    · rw [if_neg]
      swap
      · rw [List.any_eq_true]
        rintro ⟨q, hq, hq'⟩
        obtain ⟨ph, hph, rfl⟩ := List.mem_map.1 hq
        rw [List.any_eq_true] at hq'
        obtain ⟨t, ht', hn'⟩ := hq'
        simp only [Function.comp_apply, List.map_map] at ht'
        obtain ⟨s, hs, rfl⟩ := List.mem_map.1 ht'
        simp only [Function.comp_apply] at hn'
        rw [hft, if_neg (hall ph (by simpa using hph) s (by simpa using hs))] at hn'
        cases hn'
      · rw [List.map_map]
        have : (List.range e.disc.ocp.nPhases).map ((fun p : List (Option (List K)) => p.map fun s => s.getD []) ∘
            ((fun p : List (Solved.StateRes K) => p.map (·.t)) ∘ fun ph => (List.range M.orders.length).map (f ph))) =
            (List.range e.disc.ocp.nPhases).map fun ph => (List.range M.orders.length).map fun s =>
              ((grids.getD ph []).getD s []).map (M.time e.traj ph s) := by
          apply List.map_congr_left
          intro ph hph
          simp only [Function.comp_apply, List.map_map]
          apply List.map_congr_left
          intro s hs
          simp only [Function.comp_apply]
          rw [hft, if_neg (hall ph (by simpa using hph) s (by simpa using hs))]
          rfl
        rw [this, ht]
        by_cases hs : SameShape grids
        · rw [if_pos hs, if_pos ⟨hs, hall⟩]; rfl
        · rw [if_neg hs, if_neg (fun hh : _ ∧ _ => hs hh.1)]
    · rw [if_neg (fun hh : _ ∧ _ => hall hh.2), if_pos]
      · push Not at hall
        obtain ⟨ph, hph, s, hs, h0⟩ := hall
        rw [List.any_eq_true]
        refine ⟨_, List.mem_map.2 ⟨ph, by simpa using hph, rfl⟩, ?_⟩
        rw [List.any_eq_true]
        simp only [Function.comp_apply, List.map_map]
        refine ⟨_, List.mem_map.2 ⟨s, by simpa using hs, rfl⟩, ?_⟩
        simp only [Function.comp_apply]
        rw [hft, if_pos h0]
        rfl
  rw [eT]
  by_cases hc : SameShape grids ∧ ∀ ph < e.disc.ocp.nPhases, ∀ s < M.orders.length, pointsOf grids ph s ≠ []
  · rw [if_pos hc, if_pos hc, py_bind_ok, eB, py_bind_ok, plotCurve_resid b2 (b3 _) b4 hx, py_bind_ok]
    rfl
  · rw [if_neg hc, if_neg hc]
    rfl

/-- **C71** With only the state residuals stored. -/
theorem C71_state_residuals [Decidable (SameShape grids)]
    [Decidable (∀ ph < e.disc.ocp.nPhases, ∀ s < M.orders.length, pointsOf grids ph s ≠ [])] :
    ∃ resx, e.stateResiduals (some grids) false = .ok resx ∧
      residualAxes [("t_x", .states resx)] (dots 15) =
        if SameShape grids ∧ ∀ ph < e.disc.ocp.nPhases, ∀ s < M.orders.length, pointsOf grids ph s ≠ [] then
          .ok [{ statesAxes e M F grids with xlabel := some "Time, s" }]
        else .error .value := by
  obtain ⟨resx, hr, hk⟩ := statePlot_core h hn hpt hF hx
  exact ⟨resx, hr, hk _ _⟩

/-- **C71** With both residuals stored (for the same points) there are two more axes - provided all phases have the same
shape and every segment of every phase has a point; otherwise `ValueError`. -/
theorem C71_both_residuals [Decidable (SameShape grids)]
    [Decidable (∀ ph < e.disc.ocp.nPhases, ∀ s < M.orders.length, pointsOf grids ph s ≠ [])] :
    ∃ resx res, e.stateResiduals (some grids) false = .ok resx ∧ e.dynResiduals (some grids) none false = .ok res ∧
      residualAxes [("t_x", .states resx), ("t_dx", .dynamics res)] (dots 15) =
        if SameShape grids ∧ ∀ ph < e.disc.ocp.nPhases, ∀ s < M.orders.length, pointsOf grids ph s ≠ [] then
          .ok [statesAxes e M F grids, dynamicsAxes e M F grids none]
        else .error .value := by
  have hp := h.valid.phases
  obtain ⟨resx, hr, hk⟩ := statePlot_core h hn hpt hF hx
  refine ⟨resx, _, hr, C29_residual_is_defect h hn none F hF, ?_⟩
  obtain ⟨⟨A, a1, a2, a3, a4⟩, -⟩ := residRows_ok (M := M) (nx := e.disc.ocp.nx) (n := e.disc.ocp.nPhases)
    (pts := pointsOf grids) (fun ph s tau j =>
      e.disc.ocp.scaleX.getD j 0 * e.disc.ocp.defect M e.traj (F ph) ph s tau j) hp hpt
  have ht := stackTimes_mesh (e := e) e.traj h.mesh.good hp hn
  refine (hk _ _).trans ?_
  simp only [List.map_map]
  have e1 : residRows ((List.range e.disc.ocp.nPhases).map
      ((fun x : List (List K) × List (SegResidual K) => x.2) ∘ fun ph =>
      ((List.range M.orders.length).map fun s => ((grids.getD ph []).getD s []).map (M.time e.traj ph s),
       (List.range M.orders.length).map fun s =>
        if ((grids.getD ph []).getD s []).length = 0 then none else
          some (((grids.getD ph []).getD s []).map fun tau => (List.range e.disc.ocp.nx).map fun j =>
            e.disc.ocp.scaleX.getD j 0 * e.disc.ocp.defect M e.traj (F ph) ph s tau j)))) = .ok A := a1
  have e2 : stackTimes ((List.range e.disc.ocp.nPhases).map
      ((fun x : List (List K) × List (SegResidual K) => x.1) ∘ fun ph =>
      ((List.range M.orders.length).map fun s => ((grids.getD ph []).getD s []).map (M.time e.traj ph s),
       (List.range M.orders.length).map fun s =>
        if ((grids.getD ph []).getD s []).length = 0 then none else
          some (((grids.getD ph []).getD s []).map fun tau => (List.range e.disc.ocp.nx).map fun j =>
            e.disc.ocp.scaleX.getD j 0 * e.disc.ocp.defect M e.traj (F ph) ph s tau j)))) =
      if SameShape grids then .ok (M.allTimes e.traj e.disc.ocp.nPhases (pointsOf grids)) else .error .value := ht
  by_cases hc : SameShape grids ∧ ∀ ph < e.disc.ocp.nPhases, ∀ s < M.orders.length, pointsOf grids ph s ≠ []
  · rw [if_pos hc, if_pos hc, e2, if_pos hc.1, py_bind_ok, e1, py_bind_ok, plotCurve_resid a2 (a3 _) a4 hx, py_bind_ok]
    rfl
  · rw [if_neg hc, if_neg hc]

end

section
variable {K : Type} [Field K] [LinearOrder K] [IsStrictOrderedRing K] {e : Solved K} {M : Mesh K}

/-- A grid of type `fixed` has a point in some segment. -/
theorem fixed_has_point (hlt : e.disc.colloc.tau0 < e.disc.colloc.tau1) (ho : 0 < e.disc.orders.sum) {ph : Nat}
    (hpos : ∀ w ∈ e.phaseWidths ph, 0 < w) (hsum : (e.phaseWidths ph).sum = 1) {g : List (List K)}
    (hg : e.residualGrid ph (some "fixed") = .ok (some g)) : ∃ s < (e.phaseWidths ph).length, g.getD s [] ≠ [] := by
  rcases hl : (e.phaseWidths ph).length with - | - | n
  · rw [List.length_eq_zero_iff] at hl
    rw [hl] at hsum
    exact absurd hsum (by simp)
  · refine ⟨0, by omega, fun h0 => ?_⟩
    obtain ⟨v, hv⟩ := List.length_eq_one_iff.1 hl
    have hv1 : v = 1 := by rw [hv] at hsum; simpa using hsum
    subst hv1
    have hc : 3 ≤ e.fixedCount := by
      unfold Solved.fixedCount
      omega
    obtain ⟨out, h1, h2, -, h4⟩ := C27_partition (linspace e.disc.colloc.tau0 e.disc.colloc.tau1 e.fixedCount) hlt hpos
      (near_one hsum)
    have h3 := fixed_grid ph h1 (by rw [h2]; omega)
    rw [hg] at h3
    cases h3
    have h5 := congrArg List.length (h4 0 (by omega))
    have h6 := count_equal (n := 1) (s := 0) hlt (by omega) (by omega : 2 ≤ e.fixedCount)
    have hrep : List.replicate 1 (1 / ((1 : Nat) : K)) = [1] := by simp
    rw [hrep] at h6
    rw [hv, List.length_map, h6] at h5
    have h7 : (out.getD 0 []).dropLast = [] := by
      rw [List.getD_eq_getElem?_getD, List.getElem?_set_self (by rw [h2]; omega)] at h0
      exact h0
    have h8 := congrArg List.length h7
    rw [List.length_dropLast, h5] at h8
    simp at h8
    omega
  · obtain ⟨g', h1, h2, h3⟩ := C28_fixed_contains_end hlt (ph := ph) (by omega) hpos hsum
    rw [hg] at h1
    cases h1
    refine ⟨g.length - 1, by omega, fun h0 => ?_⟩
    rw [h0] at h3
    cases h3

/-- The grids of all phases are equal if the widths are. -/
theorem fixed_same {ph ph' : Nat} (hw : e.phaseWidths ph = e.phaseWidths ph') :
    e.residualGrid ph (some "fixed") = e.residualGrid ph' (some "fixed") := by
  unfold Solved.residualGrid
  simp only [py_bind_ok, beq_self_eq_true, if_true, hw]

/-- The points at which `solve` evaluates residuals by default. -/
theorem default_points (h : e.Ready M) (hlt : M.tau0 < M.tau1)
    (hg : e.gridType = List.replicate e.disc.ocp.nPhases "fixed")
    (hw : ∀ ph < e.disc.ocp.nPhases, (∀ v ∈ e.phaseWidths ph, 0 < v) ∧ (e.phaseWidths ph).sum = 1) :
    ∃ grids, GridShape M e.disc.ocp.nPhases grids ∧ HasPoints M e.disc.ocp.nPhases grids ∧
      (∀ ph < e.disc.ocp.nPhases, e.residualGrid ph (some "fixed") = .ok (some (grids.getD ph []))) ∧
      e.stateResiduals none false = e.stateResiduals (some grids) false ∧
      e.dynResiduals none none false = e.dynResiduals (some grids) none false ∧
      ((∀ ph < e.disc.ocp.nPhases, e.phaseWidths ph = e.phaseWidths 0) → SameShape grids) := by
  have hlen : ∀ ph < e.disc.ocp.nPhases, (e.phaseWidths ph).length = e.disc.nSegments := fun ph hp =>
    length_phaseSlice h.widths hp
  obtain ⟨grids, g1, g2⟩ := grids_exist (e := e) h.mesh (g := "fixed")
    (Or.inr (Or.inr ⟨rfl, hlt, fun ph hp => ⟨hlen ph hp, (hw ph hp).1, (hw ph hp).2⟩⟩))
  have hlt' : e.disc.colloc.tau0 < e.disc.colloc.tau1 := by rw [← h.mesh.tau0, ← h.mesh.tau1]; exact hlt
  have ho : 0 < e.disc.orders.sum := by
    rw [← h.mesh.orders]
    obtain ⟨q, hq⟩ := List.exists_mem_of_ne_nil _ h.mesh.good.nonempty
    exact lt_of_lt_of_le (h.mesh.good.pos q hq) (List.le_sum_of_mem hq)
  have hgt : ∀ ph < e.disc.ocp.nPhases, e.gridType[ph]? = some "fixed" := by
    intro ph hp; rw [hg, List.getElem?_replicate, if_pos hp]
  have hat : ∀ ph < e.disc.ocp.nPhases, e.residualGrid ph (some "fixed") = .ok (some (grids.getD ph [])) := by
    intro ph hp
    have hl : ph < grids.length := by rw [g1.1]; exact hp
    rw [g1.2 ph _ (List.getElem?_eq_getElem hl), List.getD_eq_getElem _ _ hl]
  refine ⟨grids, g2, ?_, hat, ?_, ?_, ?_⟩
  · intro ph hp
    obtain ⟨s, hs, hne⟩ := fixed_has_point hlt' ho (hw ph hp).1 (hw ph hp).2 (hat ph hp)
    refine ⟨s, ?_, hne⟩
    rw [h.mesh.orders, h.mesh.segments, ← hlen ph hp]
    exact hs
  · refine C48_default_grid ⟨g1.1, fun ph g hph => ?_⟩ (by rw [hg, List.length_replicate]) false
    have hl : ph < grids.length := (List.getElem?_eq_some_iff.1 hph).1
    dsimp only
    rw [hgt ph (by rw [← g1.1]; exact hl)]
    exact g1.2 ph g hph
  · rw [C30_same_as_phase_zero e false (hgt 0 h.valid.phases) h.valid.phases]
    exact C29_default_grid g1 false none
  · intro hsame a ha b hb m hm
    obtain ⟨i, hi, rfl⟩ := List.mem_iff_getElem.1 ha
    obtain ⟨j, hj, rfl⟩ := List.mem_iff_getElem.1 hb
    have e1 := g1.2 i _ (List.getElem?_eq_getElem hi)
    have e2 := g1.2 j _ (List.getElem?_eq_getElem hj)
    rw [g1.1] at hi hj
    dsimp only at e1 e2
    rw [fixed_same ((hsame i hi).trans (hsame j hj).symm), e2] at e1
    have : grids[j] = grids[i] := by injection e1 with e1; injection e1
    rw [this]
    exact hm

/-- With `n` equal segments every segment of the default grid has a point if and only if there are at least `2n` steps
between its equispaced points; else the first segment has none. -/
theorem C71_all_points (hlt : e.disc.colloc.tau0 < e.disc.colloc.tau1) {ph n : Nat}
    (hn : 0 < n) (hw : e.phaseWidths ph = List.replicate n (1 / (n : K))) (hno : n ≤ e.disc.orders.sum) {g : List (List K)}
    (hg : e.residualGrid ph (some "fixed") = .ok (some g)) :
    (∀ s < n, g.getD s [] ≠ []) ↔ 2 * n ≤ e.fixedCount - 1 := by
  have hnK : (0 : K) < n := by exact_mod_cast hn
  have hpos : ∀ w ∈ e.phaseWidths ph, 0 < w := by
    rw [hw]; intro v hv; rw [List.eq_of_mem_replicate hv]; positivity
  have hsum : (e.phaseWidths ph).sum = 1 := by
    rw [hw, List.sum_replicate, nsmul_eq_mul, mul_one_div_cancel hnK.ne']
  have hc : n + 2 ≤ e.fixedCount := by
    unfold Solved.fixedCount
    omega
  have hlen : (e.phaseWidths ph).length = n := by rw [hw, List.length_replicate]
  obtain ⟨out, h1, h2, -, h4⟩ := C27_partition (linspace e.disc.colloc.tau0 e.disc.colloc.tau1 e.fixedCount) hlt hpos
    (near_one hsum)
  rw [hlen] at h2 h4
  have h3 := fixed_grid ph h1 (by rw [h2]; omega)
  rw [hg] at h3
  cases h3
  have hcount : ∀ s < n, (out.getD s []).length =
      (s + 1) * (e.fixedCount - 1) / n - s * (e.fixedCount - 1) / n := by
    intro s hs
    have := congrArg List.length (h4 s hs)
    rwa [List.length_map, hw, count_equal hlt hs (by omega)] at this
  set N := e.fixedCount - 1 with hN
  have h0 : ((out.set 0 (out.getD 0 []).dropLast).getD 0 []) = (out.getD 0 []).dropLast := by
    rw [List.getD_eq_getElem?_getD, List.getElem?_set_self (by rw [h2]; omega)]
    rfl
  have hlen0 : ((out.set 0 (out.getD 0 []).dropLast).getD 0 []).length = N / n - 1 := by
    rw [h0, List.length_dropLast, hcount 0 hn]
    simp
  constructor
  · intro h
    have := List.length_pos_iff.2 (h 0 hn)
    rw [hlen0] at this
    have h2n : 2 ≤ N / n := by omega
    exact (Nat.le_div_iff_mul_le hn).1 h2n
  · intro h s hs
    apply List.length_pos_iff.1
    rcases Nat.eq_zero_or_pos s with rfl | hs0
    · rw [hlen0]
      have : 2 ≤ N / n := (Nat.le_div_iff_mul_le hn).2 h
      omega
    · rw [List.getD_eq_getElem?_getD, List.getElem?_set_ne (by omega), ← List.getD_eq_getElem?_getD, hcount s hs]
      have : s * N / n + 1 ≤ (s + 1) * N / n := by
        rw [← Nat.add_div_right _ hn]
        apply Nat.div_le_div_right
        rw [Nat.add_mul, Nat.one_mul]
        omega
      omega

end

section
variable {K : Type} [Field K] [LinearOrder K] [IsStrictOrderedRing K] {p : Post K} {M : Mesh K}

theorem mapM_error {A B : Type} {f : A → Py B} {err : PyErr} {l : List A} (hne : l ≠ []) (h : ∀ a ∈ l, f a = .error err) :
    l.mapM f = .error err := by
  obtain ⟨a, l, rfl⟩ := List.exists_cons_of_ne_nil hne
  rw [List.mapM_cons, h a (by simp)]
  rfl

/-- **C71** The figures `process_results(plot=True)` draws when all phases have the same segment widths. Every figure
shows states and controls of the phases it was asked for, but the residuals of *all* phases. With both residuals it
fails if some segment has no point; with only the state residual requested none is shown. -/
theorem C71_figures (h : p.solved.Ready M) (hlt : M.tau0 < M.tau1)
    (hg : p.solved.gridType = List.replicate p.solved.disc.ocp.nPhases "fixed")
    (hw : ∀ ph < p.solved.disc.ocp.nPhases, (∀ v ∈ p.solved.phaseWidths ph, 0 < v) ∧ (p.solved.phaseWidths ph).sum = 1)
    (hsame : ∀ ph < p.solved.disc.ocp.nPhases, p.solved.phaseWidths ph = p.solved.phaseWidths 0)
    {F : Nat → VFun (PArg K) K}
    (hF : ∀ ph < p.solved.disc.ocp.nPhases, p.solved.disc.ocp.dynamics[ph]? = some (F ph))
    (hx : p.solved.disc.ocp.nx ≤ 15) (hu : p.solved.disc.ocp.nu ≤ 15) {ptp : List (List Nat)} (hne : ptp ≠ [])
    (hptp : ∀ phases ∈ ptp, phases ≠ [] ∧ ∀ ph ∈ phases, ph < p.solved.disc.ocp.nPhases) (rx rdx : Bool)
    {r : Option (PyDict (ResidVal K))}
    (hres : residValue rx rdx (p.solved.stateResiduals none false) (p.solved.dynResiduals none none false)
      ResidVal.states ResidVal.dynamics = .ok r) :
    ∃ grids,
      (∀ ph < p.solved.disc.ocp.nPhases, p.solved.residualGrid ph (some "fixed") = .ok (some (grids.getD ph []))) ∧
      (rdx = false → p.figures r ptp rx rdx = .ok (ptp.map fun phases => .many (phaseAxes p M phases true ""))) ∧
      (rx = false → rdx = true → p.figures r ptp rx rdx = .ok (ptp.map fun phases =>
        .many (phaseAxes p M phases true "" ++ [dynamicsAxes p.solved M F grids (some "Time, s")]))) ∧
      (rx = true → rdx = true →
        ((∀ ph < p.solved.disc.ocp.nPhases, ∀ s < M.orders.length, pointsOf grids ph s ≠ []) →
          p.figures r ptp rx rdx = .ok (ptp.map fun phases => .many (phaseAxes p M phases true "" ++
            [statesAxes p.solved M F grids, dynamicsAxes p.solved M F grids none]))) ∧
        ((∃ ph < p.solved.disc.ocp.nPhases, ∃ s < M.orders.length, pointsOf grids ph s = []) →
          p.figures r ptp rx rdx = .error .value)) := by
  classical
  obtain ⟨grids, g1, g2, g3, g4, g5, g6⟩ := default_points h hlt hg hw
  have hss := g6 hsame
  refine ⟨grids, g3, ?_, ?_, ?_⟩
  · rintro rfl
    have hr : r = none := by
      obtain ⟨resx, hr, -⟩ := C71_state_residuals h g1 g2 hF hx
      rw [g4, hr] at hres
      cases rx <;> cases hres <;> rfl
    subst hr
    unfold Post.figures
    refine mapM_ok _ _ _ fun phases hp => ?_
    exact C71_plot_phases h (hptp phases hp).1 (hptp phases hp).2 hx hu none true _ (Or.inr rfl) ""
  · rintro rfl rfl
    obtain ⟨res, e1, e2⟩ := C71_dynamics_residuals h g1 g2 hF hx
    rw [g5, e1] at hres
    have hr : r = some [("t_dx", .dynamics res)] := by cases hres; rfl
    subst hr
    unfold Post.figures
    refine mapM_ok _ _ _ fun phases hp => ?_
    rw [plotPhases_core h (hptp phases hp).1 (hptp phases hp).2 hx hu]
    simp only [Bool.false_or, if_true]
    rw [e2, if_pos hss, py_bind_ok]
    rfl
  · rintro rfl rfl
    obtain ⟨resx, res, e0, e1, e2⟩ := C71_both_residuals h g1 g2 hF hx
    rw [g4, g5, e0, e1] at hres
    have hr : r = some [("t_x", .states resx), ("t_dx", .dynamics res)] := by cases hres; rfl
    subst hr
    constructor
    · intro hall
      unfold Post.figures
      refine mapM_ok _ _ _ fun phases hp => ?_
      rw [plotPhases_core h (hptp phases hp).1 (hptp phases hp).2 hx hu]
      simp only [Bool.true_or, if_true]
      rw [e2, if_pos ⟨hss, hall⟩, py_bind_ok]
      rfl
    · rintro ⟨ph, hph, s, hs, h0⟩
      unfold Post.figures
      refine mapM_error hne fun phases hp => ?_
      rw [plotPhases_core h (hptp phases hp).1 (hptp phases hp).2 hx hu]
      simp only [Bool.true_or, if_true]
      rw [e2, if_neg fun hh => hh.2 ph hph s hs h0]
      rfl

end

end MPOpt
