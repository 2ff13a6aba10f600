import Verif.Model.StatePlot
import Verif.Props.DefaultGrid

/-! # C91: state residuals of chosen phases (`get_states_residuals`) -/

set_option autoImplicit false
set_option linter.unusedSectionVars false

open Polynomial

namespace MPOpt
variable {K : Type} [Field K] [LinearOrder K] [IsStrictOrderedRing K] {e : Solved K} {M : Mesh K}

/-! ### The specification: what one phase reports -/

/-- Times, integrated states and residuals of segment `s` at the points `pts`: the integrated state starts at the segment's first
state and follows the sampled dynamics, the residual is the state polynomial minus the integrated state. -/
noncomputable def Solved.stateSeg (e : Solved K) (M : Mesh K) (F : VFun (PArg K) K) (pts : List K) (ph s : Nat) :
    Solved.StateRes K :=
  if pts.length = 0 then ⟨none, none, none⟩ else
    { t := some (pts.map (M.time e.traj ph s))
      x := some (pts.map fun tau => (List.range e.disc.ocp.nx).map fun j =>
        e.disc.ocp.scaleX.getD j 0 * e.disc.ocp.integrated M e.traj F e.disc.colloc.method pts ph s tau j)
      res := some (pts.map fun tau => (List.range e.disc.ocp.nx).map fun j =>
        e.disc.ocp.scaleX.getD j 0 * ((M.piece (fun k => e.traj.x ph k j) s).eval tau -
          e.disc.ocp.integrated M e.traj F e.disc.colloc.method pts ph s tau j)) }

/-- The control polynomials of segment `s` at the points `pts`. -/
noncomputable def Solved.controlSeg (e : Solved K) (M : Mesh K) (pts : List K) (ph s : Nat) : SegResidual K :=
  if pts.length = 0 then none else
    some (pts.map fun tau => (List.range e.disc.ocp.nu).map fun j =>
      e.disc.ocp.scaleU.getD j 0 * (M.piece (fun k => e.traj.u ph k j) s).eval tau)

/-- Phase `ph` has points for every segment. -/
def HasGrid (M : Mesh K) (nodes : List (List (List K))) (ph : Nat) : Prop :=
  ∃ g, nodes[ph]? = some g ∧ g.length = M.orders.length

theorem GridShape.hasGrid {n : Nat} {nodes : List (List (List K))} (h : GridShape M n nodes) {ph : Nat} (hph : ph < n) :
    HasGrid M nodes ph := by
  have hl : ph < nodes.length := by rw [h.1]; exact hph
  exact ⟨nodes[ph], List.getElem?_eq_getElem hl, h.2 _ (List.getElem_mem hl)⟩

/-! ### One phase -/

/-- The controls in closed form. -/
theorem stateControls_spec (h : e.Ready M) {ph : Nat} (hph : ph < e.disc.ocp.nPhases) {taus : List (List K)}
    (hlen : taus.length = M.orders.length) :
    e.stateControls ph (some taus) =
      .ok ((List.range M.orders.length).map fun s => e.controlSeg M (taus.getD s []) ph s) := by
  obtain ⟨r, hr, ok⟩ := h.interpolate_spec hph hlen
  have hns : e.disc.nSegments = M.orders.length := by rw [← h.mesh.segments, h.mesh.orders]
  unfold Solved.stateControls
  simp only [py_bind_ok, hr, hns, ok.grid]
  apply mapM_ok
  intro s hs
  have hs : s < M.orders.length := by simpa using hs
  have hs' : s < taus.length := by omega
  rw [pyIdx_ok hs', List.getD_eq_getElem _ _ hs']
  simp only [py_bind_ok]
  unfold Solved.controlSeg
  split
  · rfl
  show Except.ok _ = Except.ok _
  congr 2
  apply List.ext_getElem (by simp)
  intro i h1 h2
  have hi : i < taus[s].length := by simpa using h2
  simp only [List.getElem_map, List.getElem_range]
  unfold Mat.row
  rw [ok.ucols]
  apply List.map_congr_left
  intro j hj
  exact ok.u s hs' i hi j (by simpa using hj)

theorem stateTarget_some {nodes : List (List (List K))} {ph : Nat} {g : List (List K)} (h : nodes[ph]? = some g) :
    e.stateTarget (some nodes) ph = .ok (some g) := by
  unfold Solved.stateTarget
  simp only [pyIdx_eq_ok.2 h, py_bind_ok]
  rfl

/-- Residuals of one phase in closed form. -/
theorem stateOne_spec (h : e.Ready M) {nodes : List (List (List K))} {ph : Nat} (hph : ph < e.disc.ocp.nPhases)
    (hg : HasGrid M nodes ph) {F : VFun (PArg K) K} (hF : e.disc.ocp.dynamics[ph]? = some F) :
    e.stateOne (some nodes) false ph = .ok ((List.range M.orders.length).map fun s =>
      e.stateSeg M F ((nodes.getD ph []).getD s []) ph s) := by
  obtain ⟨g, hg, hl⟩ := hg
  have hgd : nodes.getD ph [] = g := by rw [List.getD_eq_getElem?_getD, hg]; rfl
  unfold Solved.stateOne
  rw [stateTarget_some hg, py_bind_ok, h.statePhase_spec hph hl hF, py_bind_ok, hgd]
  rfl

/-- Relative residuals come from the absolute ones. -/
theorem stateOne_relative {nodes : Option (List (List (List K)))} {ph : Nat} {segs : List (Solved.StateRes K)}
    (h : e.stateOne nodes false ph = .ok segs) :
    e.stateOne nodes true ph = segs.mapM fun s => match s.res with
      | none => .ok s
      | some rows => do
        if (Solved.maxVal e.disc.ocp.nx (segs.map (·.x))).any (fun v => decide (v = 0)) then Except.error PyErr.nonFinite
        return { s with res := some (← rows.mapM fun row =>
          divRow row (Solved.maxVal e.disc.ocp.nx (segs.map (·.x)))) } := by
  unfold Solved.stateOne at h ⊢
  simp only [Bool.false_eq_true, if_false, py_bind_eq_ok, py_pure_eq_ok] at h
  obtain ⟨target, h1, segs', h2, rfl⟩ := h
  rw [h1, py_bind_ok, h2, py_bind_ok]
  rfl

/-! ### The loop over the phases -/

theorem foldlM_set {B : Type} (f : Nat → Py B) (v : Nat → B) : ∀ (phases : List Nat) (out : List (Option B)),
    (∀ ph ∈ phases, f ph = .ok (v ph)) →
    ∃ out', phases.foldlM (fun out ph => do let w ← f ph; return out.set ph (some w)) out = (.ok out' : Py _) ∧
      out'.length = out.length ∧ ∀ ph < out.length, out'[ph]? = if ph ∈ phases then some (some (v ph)) else out[ph]? := by
  intro phases
  induction phases with
  | nil => intro out _; exact ⟨out, rfl, rfl, fun ph _ => by simp⟩
  | cons p l ih =>
    intro out h
    obtain ⟨out', h1, h2, h3⟩ := ih (out.set p (some (v p))) fun q hq => h q (by simp [hq])
    refine ⟨out', ?_, by simpa using h2, fun ph hph => ?_⟩
    · rw [List.foldlM_cons, h p (by simp)]
      exact h1
    · rw [h3 ph (by simpa using hph)]
      by_cases hm : ph ∈ l
      · simp [hm]
      · rw [if_neg hm, List.getElem?_set]
        by_cases hp : p = ph
        · subst hp; simp [hph]
        · have : ph ∉ p :: l := by simp [hm, Ne.symm hp]
          rw [if_neg hp, if_neg this]

/-- **C91** The results have an entry for every phase of the problem. Those asked for hold times, integrated states, residuals and
controls at the phase's points, those not asked for are `None`. Points are needed for the phases asked for only. -/
theorem C91_chosen (h : e.Ready M) {nodes : List (List (List K))} {phases : List Nat}
    (hin : ∀ ph ∈ phases, ph < e.disc.ocp.nPhases) (hg : ∀ ph ∈ phases, HasGrid M nodes ph) (F : Nat → VFun (PArg K) K)
    (hF : ∀ ph ∈ phases, e.disc.ocp.dynamics[ph]? = some (F ph)) :
    ∃ out, e.stateResidualsOf (some phases) (some nodes) false = .ok out ∧ out.length = e.disc.ocp.nPhases ∧
      ∀ ph < e.disc.ocp.nPhases,
        (ph ∈ phases → out[ph]? = some (some
          ((List.range M.orders.length).map fun s => e.stateSeg M (F ph) ((nodes.getD ph []).getD s []) ph s,
           (List.range M.orders.length).map fun s => e.controlSeg M ((nodes.getD ph []).getD s []) ph s))) ∧
        (ph ∉ phases → out[ph]? = some none) := by
  obtain ⟨out, h1, h2, h3⟩ := foldlM_set (fun ph => do
      let segs ← e.stateOne (some nodes) false ph
      let u ← e.stateControls ph (← e.stateTarget (some nodes) ph)
      return (segs, u))
    (fun ph => ((List.range M.orders.length).map fun s => e.stateSeg M (F ph) ((nodes.getD ph []).getD s []) ph s,
      (List.range M.orders.length).map fun s => e.controlSeg M ((nodes.getD ph []).getD s []) ph s))
    phases (List.replicate e.disc.ocp.nPhases none) (by
      intro ph hph
      obtain ⟨g, hg1, hl⟩ := hg ph hph
      have hgd : nodes.getD ph [] = g := by rw [List.getD_eq_getElem?_getD, hg1]; rfl
      rw [stateOne_spec h (hin ph hph) (hg ph hph) (hF ph hph), py_bind_ok, stateTarget_some hg1, py_bind_ok,
        stateControls_spec h (hin ph hph) hl, py_bind_ok, hgd]
      rfl)
  refine ⟨out, ?_, by simpa using h2, fun ph hph => ⟨fun hm => ?_, fun hm => ?_⟩⟩
  · rw [← h1]
    unfold Solved.stateResidualsOf
    simp only [bind_assoc, pure_bind, Option.getD_some]
  · rw [h3 ph (by simpa using hph), if_pos hm]
  · rw [h3 ph (by simpa using hph), if_neg hm, List.getElem?_replicate, if_pos hph]

/-- **C91** `phases=None` asks for all phases. -/
theorem C91_all (nodes : Option (List (List (List K)))) (rel : Bool) :
    e.stateResidualsOf none nodes rel = e.stateResidualsOf (some (List.range e.disc.ocp.nPhases)) nodes rel := rfl

/-- **C91** An entry does not depend on which other phases are asked for, absolute or relative: it is that of the run over all
phases. -/
theorem C91_same_entry {nodes : Option (List (List (List K)))} {rel : Bool} {phases : Option (List Nat)}
    {out : List (Option (List (Solved.StateRes K) × List (SegResidual K)))}
    (h : e.stateResidualsOf phases nodes rel = .ok out) {ph : Nat} {v : List (Solved.StateRes K) × List (SegResidual K)}
    (hv : out[ph]? = some (some v)) :
    e.stateOne nodes rel ph = .ok v.1 ∧
      ∀ all, e.stateResiduals nodes rel = .ok all → ph < e.disc.ocp.nPhases → all[ph]? = some v.1 := by
  have key : ∀ (l : List Nat) (o o' : List (Option (List (Solved.StateRes K) × List (SegResidual K)))),
      (∀ (q : Nat) (w : List (Solved.StateRes K) × List (SegResidual K)), o[q]? = some (some w) →
        e.stateOne nodes rel q = .ok w.1) →
      l.foldlM (fun out ph => (do
        let segs ← e.stateOne nodes rel ph
        let u ← e.stateControls ph (← e.stateTarget nodes ph)
        return out.set ph (some (segs, u)) : Py _)) o = .ok o' →
      ∀ (q : Nat) (w : List (Solved.StateRes K) × List (SegResidual K)), o'[q]? = some (some w) →
        e.stateOne nodes rel q = .ok w.1 := by
    intro l
    induction l with
    | nil =>
      intro o o' ho hf
      rw [List.foldlM_nil, py_pure_eq_ok] at hf
      subst hf; exact ho
    | cons p l ih =>
      intro o o' ho hf
      rw [List.foldlM_cons] at hf
      simp only [py_bind_eq_ok, py_pure_eq_ok] at hf
      obtain ⟨o1, ⟨segs, hs, tg, -, u, -, rfl⟩, hf⟩ := hf
      refine ih _ _ ?_ hf
      intro q w hw
      rw [List.getElem?_set] at hw
      by_cases hp : p = q
      · subst hp
        rw [if_pos rfl] at hw
        split at hw
        · cases hw; exact hs
        · cases hw
      · rw [if_neg hp] at hw; exact ho q w hw
  have h1 := key _ _ _ (by
    intro q w hw
    rw [List.getElem?_replicate] at hw
    split at hw <;> cases hw) h ph v hv
  refine ⟨h1, fun all ha hph => ?_⟩
  unfold Solved.stateResiduals at ha
  rw [mapM_eq_ok] at ha
  have hl : ph < all.length := by rw [← ha.length_eq]; simpa using hph
  have := List.Forall₂.get ha (i := ph) (by simpa using hph) hl
  simp only [List.get_eq_getElem, List.getElem_range] at this
  rw [h1] at this
  rw [List.getElem?_eq_getElem hl]
  exact congrArg some (Except.ok.inj this).symm

/-- **C91** Without `nodes` every phase asked for uses the grid of its own type. -/
theorem C91_default_grid {grids : List (List (List K))} {phases : List Nat} (rel : Bool)
    (hg : ∀ ph ∈ phases, ∃ gt g, e.gridType[ph]? = some gt ∧ grids[ph]? = some g ∧
      e.residualGrid ph (some gt) = .ok (some g)) :
    e.stateResidualsOf (some phases) none rel = e.stateResidualsOf (some phases) (some grids) rel := by
  have ht : ∀ ph ∈ phases, e.stateTarget none ph = e.stateTarget (some grids) ph := by
    intro ph hph
    obtain ⟨gt, g, h1, h2, h3⟩ := hg ph hph
    rw [stateTarget_some h2]
    unfold Solved.stateTarget
    simp only [pyIdx_eq_ok.2 h1, py_bind_ok, h3]
  unfold Solved.stateResidualsOf
  simp only [Option.getD_some]
  generalize List.replicate e.disc.ocp.nPhases
    (none : Option (List (Solved.StateRes K) × List (SegResidual K))) = o
  induction phases generalizing o with
  | nil => rfl
  | cons p l ih =>
    rw [List.foldlM_cons, List.foldlM_cons]
    have hp := ht p (by simp)
    have ho : e.stateOne none rel p = e.stateOne (some grids) rel p := by
      unfold Solved.stateOne; rw [hp]
    rw [hp, ho]
    congr 1
    funext o'
    exact ih (fun q hq => hg q (by simp [hq])) (fun q hq => ht q (by simp [hq])) o'

/-- **C91** A phase that has no points (`nodes` given) or no grid type (`nodes=None`) raises `IndexError`, after phases
that are fine. -/
theorem C91_out_of_range (nodes : Option (List (List (List K)))) (rel : Bool) {ok rest : List Nat} {ph : Nat}
    {out : List (Option (List (Solved.StateRes K) × List (SegResidual K)))}
    (h : e.stateResidualsOf (some ok) nodes rel = .ok out)
    (hph : (nodes.map List.length).getD e.gridType.length ≤ ph) :
    e.stateResidualsOf (some (ok ++ ph :: rest)) nodes rel = .error .index := by
  unfold Solved.stateResidualsOf at h ⊢
  simp only [Option.getD_some] at h ⊢
  rw [List.foldlM_append, h, py_bind_ok, List.foldlM_cons]
  have : e.stateTarget nodes ph = .error .index := by
    unfold Solved.stateTarget
    cases nodes with
    | none =>
      have : e.gridType.length ≤ ph := hph
      simp [pyIdx, List.getElem?_eq_none this]; rfl
    | some l =>
      have : l.length ≤ ph := hph
      simp [pyIdx, List.getElem?_eq_none this]
  have ho : e.stateOne nodes rel ph = .error .index := by
    unfold Solved.stateOne; rw [this]; rfl
  rw [ho]; rfl

/-! ### Relative residuals -/

theorem le_foldl_max (l : List K) : ∀ a : K, a ≤ l.foldl max a ∧ (∀ x ∈ l, x ≤ l.foldl max a) ∧
    (l.foldl max a = a ∨ l.foldl max a ∈ l) := by
  induction l with
  | nil => intro a; simp
  | cons x l ih =>
    intro a
    obtain ⟨h1, h2, h3⟩ := ih (max a x)
    simp only [List.foldl_cons]
    refine ⟨(le_max_left _ _).trans h1, ?_, ?_⟩
    · intro y hy
      rcases List.mem_cons.1 hy with rfl | hy
      · exact (le_max_right _ _).trans h1
      · exact h2 y hy
    · rcases h3 with h3 | h3
      · rw [h3]
        rcases max_choice a x with h | h <;> rw [h]
        · left; rfl
        · right; simp
      · right; simp [h3]

/-- **C91** Relative residuals are the residuals divided, component by component, by the largest absolute value the integrated state
takes at the points of the phase. -/
theorem C91_relative (h : e.Ready M) {nodes : List (List (List K))} {ph : Nat} (hph : ph < e.disc.ocp.nPhases)
    (hg : HasGrid M nodes ph) {F : VFun (PArg K) K} (hF : e.disc.ocp.dynamics[ph]? = some F) (m : Nat → K)
    (hm : ∀ j < e.disc.ocp.nx, 0 < m j ∧ IsGreatest {v | ∃ s < M.orders.length, ∃ tau ∈ (nodes.getD ph []).getD s [],
      v = |e.disc.ocp.scaleX.getD j 0 * e.disc.ocp.integrated M e.traj F e.disc.colloc.method
        ((nodes.getD ph []).getD s []) ph s tau j|} (m j)) :
    e.stateOne (some nodes) true ph = .ok ((List.range M.orders.length).map fun s =>
      { e.stateSeg M F ((nodes.getD ph []).getD s []) ph s with
        res := if ((nodes.getD ph []).getD s []).length = 0 then none else
          some (((nodes.getD ph []).getD s []).map fun tau => (List.range e.disc.ocp.nx).map fun j =>
            e.disc.ocp.scaleX.getD j 0 * ((M.piece (fun k => e.traj.x ph k j) s).eval tau -
              e.disc.ocp.integrated M e.traj F e.disc.colloc.method ((nodes.getD ph []).getD s []) ph s tau j) / m j) }) := by
  have habs := stateOne_spec h hph hg hF
  rw [stateOne_relative habs]
  have hmax : Solved.maxVal e.disc.ocp.nx (((List.range M.orders.length).map fun s =>
      e.stateSeg M F ((nodes.getD ph []).getD s []) ph s).map (·.x)) = (List.range e.disc.ocp.nx).map m := by
    unfold Solved.maxVal
    apply List.map_congr_left
    intro j hj
    have hj : j < e.disc.ocp.nx := by simpa using hj
    obtain ⟨hpos, hmem, hub⟩ := hm j hj
    set L := ((((List.range M.orders.length).map fun s =>
      e.stateSeg M F ((nodes.getD ph []).getD s []) ph s).map (·.x)).flatMap fun s =>
        (s.getD []).map fun row => |row.getD j 0|) with hL
    have hmemL : ∀ v, v ∈ L ↔ v ∈ {v | ∃ s < M.orders.length, ∃ tau ∈ (nodes.getD ph []).getD s [],
        v = |e.disc.ocp.scaleX.getD j 0 * e.disc.ocp.integrated M e.traj F e.disc.colloc.method
          ((nodes.getD ph []).getD s []) ph s tau j|} := by
      intro v
      rw [hL, List.mem_flatMap]
      simp only [List.mem_map, List.mem_range, Set.mem_ofPred_eq]
      constructor
      · rintro ⟨o, ⟨a, ⟨s, hs, rfl⟩, rfl⟩, row, hrow, rfl⟩
        refine ⟨s, hs, ?_⟩
        unfold Solved.stateSeg at hrow
        split at hrow
        · simp at hrow
        · simp only [Option.getD_some, List.mem_map] at hrow
          obtain ⟨tau, ht, rfl⟩ := hrow
          exact ⟨tau, ht, by rw [getD_map_range _ _ _ hj]⟩
      · rintro ⟨s, hs, tau, ht, rfl⟩
        refine ⟨_, ⟨_, ⟨s, hs, rfl⟩, rfl⟩, (List.range e.disc.ocp.nx).map fun j =>
          e.disc.ocp.scaleX.getD j 0 * e.disc.ocp.integrated M e.traj F e.disc.colloc.method
            ((nodes.getD ph []).getD s []) ph s tau j, ?_, by rw [getD_map_range _ _ _ hj]⟩
        unfold Solved.stateSeg
        rw [if_neg (by intro h0; rw [List.length_eq_zero_iff.1 h0] at ht; simp at ht)]
        simp only [Option.getD_some, List.mem_map]
        exact ⟨tau, ht, rfl⟩
    obtain ⟨h1, h2, h3⟩ := le_foldl_max L 0
    apply le_antisymm
    · rcases h3 with h3 | h3
      · rw [h3]; exact hpos.le
      · exact hub ((hmemL _).1 h3)
    · exact h2 _ ((hmemL _).2 hmem)
  rw [hmax, List.mapM_map]
  apply mapM_ok
  intro s _
  have hany : ((List.range e.disc.ocp.nx).map m).any (fun v => decide (v = 0)) = false := by
    rw [List.any_eq_false]
    intro v hv
    obtain ⟨j, hj, rfl⟩ := List.mem_map.1 hv
    simpa using (hm j (by simpa using hj)).1.ne'
  simp only [Function.comp_apply]
  by_cases h0 : ((nodes.getD ph []).getD s []).length = 0
  · simp only [Solved.stateSeg, h0, if_true]
  · simp only [Solved.stateSeg, h0, hany, Bool.false_eq_true, if_false]
    rw [mapM_ok _ (fun row => List.zipWith (· / ·) row ((List.range e.disc.ocp.nx).map m))]
    · simp only [py_bind_ok, List.map_map]
      show Except.ok _ = Except.ok _
      congr 3
      apply List.map_congr_left
      intro tau _
      simp only [Function.comp_apply]
      apply List.ext_getElem (by simp)
      intro i h1 h2
      simp
    · intro row hrow
      obtain ⟨tau, -, rfl⟩ := List.mem_map.1 hrow
      unfold divRow
      rw [if_pos (by simp)]

end MPOpt
