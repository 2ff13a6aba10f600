import Verif.Lemmas.Residual
import Verif.Props.Transcription

/-! # C29, C30, C45, C48-C50: residuals of a solution -/

set_option autoImplicit false
set_option linter.unusedSectionVars false

namespace MPOpt
open Polynomial

variable {K : Type} [Field K] [LinearOrder K] [IsStrictOrderedRing K] {e : Solved K} {M : Mesh K}

/-- A node list for every phase and segment. -/
def GridShape (M : Mesh K) (n : Nat) (nodes : List (List (List K))) : Prop :=
  nodes.length = n ∧ ∀ g ∈ nodes, g.length = M.orders.length

/-- Residuals of one phase. -/
def phaseResult (e : Solved K) (rel : Bool) (ph : Nat) (target : Option (List (List K))) :
    Py (List (List K) × List (SegResidual K)) := do
  let r ← e.dynPhase ph target
  let res ← (if rel then Solved.relative (Solved.maxVal e.disc.ocp.nx r.dyn) r.res else .ok r.res :
    Py (List (SegResidual K)))
  return (r.t, res)

theorem dynLoop_nodes (e : Solved K) (l : List (List (List K))) (rel : Bool) (gt : Option String) :
    ∀ n ph, e.dynLoop (some l) rel n ph gt = (List.range' ph n).mapM fun ph =>
      pyIdx l ph >>= fun t => phaseResult e rel ph (some t) := by
  intro n
  induction n with
  | zero => intro ph; rfl
  | succ n ih =>
    intro ph
    rw [List.range'_succ, List.mapM_cons]
    unfold Solved.dynLoop
    simp only [ih, phaseResult, bind_assoc, pure_bind]

theorem dynLoop_grid (e : Solved K) (rel : Bool) (g : String) :
    ∀ n ph, e.dynLoop none rel n ph (some g) = (List.range' ph n).mapM fun ph =>
      e.residualGrid ph (some g) >>= phaseResult e rel ph := by
  intro n
  induction n with
  | zero => intro ph; rfl
  | succ n ih =>
    intro ph
    rw [List.range'_succ, List.mapM_cons]
    unfold Solved.dynLoop
    simp only [phaseResult, bind_assoc, pure_bind, py_bind_ok, ih]

/-! ## C29 -/

/-- **C29** `get_dynamics_residuals(nodes=…)` reports, at every requested point, the time of that point and
`scale_x` times the defect of the physical trajectory: derivative of the state polynomial minus `dt/dtau` times
the user's dynamics called with the physical interpolated state, control, time and parameters. -/
theorem C29_residual_is_defect (h : e.Ready M) {nodes : List (List (List K))}
    (hn : GridShape M e.disc.ocp.nPhases nodes) (gt : Option String) (F : Nat → VFun (PArg K) K)
    (hF : ∀ ph < e.disc.ocp.nPhases, e.disc.ocp.dynamics[ph]? = some (F ph)) :
    e.dynResiduals (some nodes) gt false = .ok ((List.range e.disc.ocp.nPhases).map fun ph =>
      ((List.range M.orders.length).map fun s => ((nodes.getD ph []).getD s []).map (M.time e.traj ph s),
       (List.range M.orders.length).map fun s =>
        if ((nodes.getD ph []).getD s []).length = 0 then none else
          some (((nodes.getD ph []).getD s []).map fun tau => (List.range e.disc.ocp.nx).map fun j =>
            e.disc.ocp.scaleX.getD j 0 * e.disc.ocp.defect M e.traj (F ph) ph s tau j))) := by
  unfold Solved.dynResiduals
  rw [dynLoop_nodes, ← List.range_eq_range']
  apply mapM_ok
  intro ph hph
  have hph : ph < e.disc.ocp.nPhases := by simpa using hph
  have hl : ph < nodes.length := by rw [hn.1]; exact hph
  rw [pyIdx_ok hl, List.getD_eq_getElem _ _ hl]
  simp only [py_bind_ok, phaseResult]
  rw [h.dynPhase_spec hph (hn.2 _ (List.getElem_mem hl)) (hF ph hph)]
  rfl

/-- At a node of segment `s` the interpolated arguments are the values of that node. -/
theorem pArgAt_node (hM : M.Good) (ocp : OCP K) (T : Traj K) (ph : Nat) {s i : Nat}
    (hs : s < M.orders.length) (hi : i ≤ M.order s) :
    ocp.pArgAt M T ph s (M.node s i) = ocp.pArg T ph (M.idx s i) (M.time T ph s (M.node s i)) := by
  unfold OCP.pArgAt OCP.pArg
  congr 1 <;>
  · apply List.map_congr_left
    intro j _
    exact hM.piece_eval_node _ hs hi

/-- **C29** For a point satisfying the NLP, the dynamics residual is 0 in every component at the collocation
nodes (each node taken in the segment that owns it). -/
theorem C29_zero_at_collocation_nodes (h : e.Ready M) (hs : e.disc.ocp.SettingsOK)
    (hsc : e.disc.ocp.PosScales) {nlp : Disc.NLP K} (hnlp : e.disc.createNlp = .ok nlp)
    (hfeas : nlp.Feasible (e.disc.envOf e.z e.widths)) {nodes : List (List (List K))}
    (hn : GridShape M e.disc.ocp.nPhases nodes)
    (hnodes : ∀ (ph s : Nat), ∀ tau ∈ (nodes.getD ph []).getD s [], ∃ i, M.Owns s i ∧ tau = M.node s i)
    (gt : Option String) :
    ∃ res, e.dynResiduals (some nodes) gt false = .ok res ∧
      res.length = e.disc.ocp.nPhases ∧
      ∀ p ∈ res, p.2.length = M.orders.length ∧
        ∀ seg ∈ p.2, ∀ rows, seg = some rows → ∀ row ∈ rows, row.length = e.disc.ocp.nx ∧
          ∀ v ∈ row, v = 0 := by
  obtain ⟨nlp', hn', hiff⟩ := C14_feasible_iff h.mesh h.valid hs hsc
  rw [hnlp] at hn'; cases hn'
  have hphys := ((hiff _).1 hfeas).1
  have hF : ∀ ph, ∃ F, ph < e.disc.ocp.nPhases → e.disc.ocp.dynamics[ph]? = some F := by
    intro ph
    by_cases hph : ph < e.disc.ocp.nPhases
    · have : ph < e.disc.ocp.dynamics.length := by rw [h.valid.dynamics]; exact hph
      exact ⟨_, fun _ => List.getElem?_eq_getElem this⟩
    · exact ⟨⟨0, fun _ _ => 0⟩, fun h => absurd h hph⟩
  choose F hF using hF
  refine ⟨_, C29_residual_is_defect h hn gt F hF, by simp, ?_⟩
  intro p hp
  obtain ⟨ph, hph, rfl⟩ := List.mem_map.1 hp
  have hph : ph < e.disc.ocp.nPhases := by simpa using hph
  refine ⟨by simp, ?_⟩
  intro seg hseg rows hrows row hrow
  obtain ⟨s, hs, rfl⟩ := List.mem_map.1 hseg
  split at hrows
  · cases hrows
  cases hrows
  obtain ⟨tau, htau, rfl⟩ := List.mem_map.1 hrow
  refine ⟨by simp, fun v hv => ?_⟩
  obtain ⟨j, hj, rfl⟩ := List.mem_map.1 hv
  have hj : j < e.disc.ocp.nx := by simpa using hj
  obtain ⟨i, ho, rfl⟩ := hnodes ph s tau htau
  have hc := hphys.dynamics ph hph (F ph) (hF ph hph) j hj s i ho
  unfold OCP.defect
  rw [pArgAt_node h.mesh.good _ _ _ ho.1 ho.2.1]
  show _ * (_ - _) = _
  rw [show e.traj = physOf e.disc.ocp (e.disc.envOf e.z e.widths) from rfl, hc, sub_self, mul_zero]

/-- The solution vector is what the environment assigns to the NLP variables, so `hfeas` above speaks about
`solution["x"]` and the widths parameter. -/
theorem C29_point (h : e.Ready M) (hs : e.disc.ocp.SettingsOK) (hsc : e.disc.ocp.PosScales)
    {nlp : Disc.NLP K} (hnlp : e.disc.createNlp = .ok nlp) :
    nlp.x.map (e.disc.envOf e.z e.widths) = e.z := by
  obtain ⟨bs, J, nlp', hn, -, -, -, hx, -⟩ := h.mesh.createNlp_spec h.valid hs hsc
  rw [hnlp] at hn; cases hn
  rw [hx]
  exact (Disc.envOf_map h.z h.widths).1

/-! ## C30 -/

/-- **C30** Characterisation: with `grid_type=None` every phase is evaluated on the type of phase 0. -/
theorem C30_uses_phase_zero_type (e : Solved K) (rel : Bool) (g : String)
    (h0 : e.gridType[0]? = some g) (hp : 0 < e.disc.ocp.nPhases) :
    e.dynResiduals none none rel = (List.range e.disc.ocp.nPhases).mapM fun ph =>
      e.residualGrid ph (some g) >>= phaseResult e rel ph := by
  obtain ⟨n, hn⟩ : ∃ n, e.disc.ocp.nPhases = n + 1 := ⟨_, (Nat.succ_pred hp.ne').symm⟩
  unfold Solved.dynResiduals
  rw [hn, List.range_eq_range', ← dynLoop_grid]
  unfold Solved.dynLoop
  rw [pyIdx_eq_ok.2 h0]

/-- **C30** When all phases have one grid type, phase `k` is evaluated on the grid type configured for it. -/
theorem C30_own_grid_type (e : Solved K) (rel : Bool) (g : String)
    (hlen : e.gridType.length = e.disc.ocp.nPhases) (hall : ∀ x ∈ e.gridType, x = g)
    (hp : 0 < e.disc.ocp.nPhases) :
    e.dynResiduals none none rel = (List.range e.disc.ocp.nPhases).mapM fun ph =>
      pyIdx e.gridType ph >>= fun g => e.residualGrid ph (some g) >>= phaseResult e rel ph := by
  have hg : ∀ ph, ph < e.disc.ocp.nPhases → e.gridType[ph]? = some g := by
    intro ph hph
    rw [List.getElem?_eq_getElem (by omega), hall _ (List.getElem_mem _)]
  rw [C30_uses_phase_zero_type e rel g (hg 0 hp) hp]
  have : ∀ l : List Nat, (∀ ph ∈ l, ph < e.disc.ocp.nPhases) →
      (l.mapM fun ph => e.residualGrid ph (some g) >>= phaseResult e rel ph) =
      l.mapM fun ph =>
        pyIdx e.gridType ph >>= fun g => e.residualGrid ph (some g) >>= phaseResult e rel ph := by
    intro l
    induction l with
    | nil => intro _; rfl
    | cons a l ih =>
      intro hl
      rw [List.mapM_cons, List.mapM_cons, ih fun b hb => hl b (by simp [hb]),
        pyIdx_eq_ok.2 (hg a (hl a (by simp)))]
      rfl
  exact this _ (by simp)

/-! ## C45 -/

/-- Dynamics times `dt/dtau` at a point, the reference of a relative residual. -/
noncomputable def OCP.slope (ocp : OCP K) (M : Mesh K) (T : Traj K) (F : VFun (PArg K) K)
    (ph s : Nat) (tau : K) (j : Nat) : K := M.halfWidth T ph s * F.f (ocp.pArgAt M T ph s tau) j

theorem foldl_max_le (l : List K) (a : K) : a ≤ l.foldl max a ∧ (∀ x ∈ l, x ≤ l.foldl max a) ∧
    (l.foldl max a = a ∨ l.foldl max a ∈ l) := by
  induction l generalizing a with
  | nil => simp
  | cons b l ih =>
    obtain ⟨h1, h2, h3⟩ := ih (max a b)
    rw [List.foldl_cons]
    refine ⟨(le_max_left _ _).trans h1, ?_, ?_⟩
    · intro x hx
      rcases List.mem_cons.1 hx with rfl | hx
      · exact (le_max_right _ _).trans h1
      · exact h2 x hx
    · rcases h3 with h3 | h3
      · rcases max_choice a b with hm | hm
        · left; rw [h3, hm]
        · right; rw [h3, hm]; simp
      · right; simp [h3]

theorem relative_ok_iff (m : List K) (segs : List (SegResidual K))
    (hm : ∀ seg ∈ segs, ∀ rows, seg = some rows → ∀ row ∈ rows, row.length = m.length) :
    (∃ out, Solved.relative m segs = .ok out) ↔
      ∀ seg ∈ segs, ∀ rows, seg = some rows → m ≠ [] ∧ (∀ v ∈ m, v ≠ 0) ∧
        ∀ row ∈ rows, ∀ j < m.length, |row.getD j 0 / m.getD j 0| ≤ 1 := by
  have one : ∀ seg ∈ segs, ((∃ out, (match seg with
      | none => .ok none
      | some rows => do
        if m.length = 0 then Except.error PyErr.value
        let rows' ← rows.mapM fun row => divRow row m
        pyAssert (m.all (fun v => decide (v ≠ 0)) &&
          rows'.all fun row => row.all fun v => decide (|v| ≤ 1))
        return some rows' : Py (SegResidual K)) = .ok out) ↔
      ∀ rows, seg = some rows → m ≠ [] ∧ (∀ v ∈ m, v ≠ 0) ∧
        ∀ row ∈ rows, ∀ j < m.length, |row.getD j 0 / m.getD j 0| ≤ 1) := by
    intro seg hseg
    cases seg with
    | none => simp
    | some rows =>
      simp only [Option.some.injEq, forall_eq']
      have hrows := hm _ hseg rows rfl
      have hdiv := mapM_ok (fun row => divRow row m) (fun row => List.zipWith (· / ·) row m) rows
        (fun row hrow => by unfold divRow; rw [if_pos (hrows row hrow)])
      have hentry : ∀ row ∈ rows, ((∀ v ∈ List.zipWith (· / ·) row m, |v| ≤ 1) ↔
          ∀ j < m.length, |row.getD j 0 / m.getD j 0| ≤ 1) := by
        intro row hrow
        have hl := hrows row hrow
        constructor
        · intro hv j hj
          apply hv
          rw [List.mem_iff_getElem]
          refine ⟨j, by simp [hl, hj], ?_⟩
          rw [List.getElem_zipWith, List.getD_eq_getElem _ _ (by omega), List.getD_eq_getElem _ _ hj]
        · intro hv v hvm
          obtain ⟨j, hj, rfl⟩ := List.mem_iff_getElem.1 hvm
          have hj' : j < m.length := by simp [hl] at hj; exact hj
          have := hv j hj'
          rw [List.getD_eq_getElem _ _ (by omega), List.getD_eq_getElem _ _ hj'] at this
          rw [List.getElem_zipWith]; exact this
      by_cases h0 : m.length = 0
      · simp only [h0, if_true]
        constructor
        · rintro ⟨out, ho⟩; cases ho
        · rintro ⟨h1, -⟩; exact absurd (List.length_eq_zero_iff.1 h0) h1
      · simp only [h0, if_false, hdiv, py_bind_ok]
        constructor
        · rintro ⟨out, ho⟩
          obtain ⟨u, ha, -⟩ := py_bind_eq_ok.1 ho
          rw [pyAssert_eq_ok'] at ha
          simp only [Bool.and_eq_true, List.all_eq_true, decide_eq_true_eq, List.mem_map,
            forall_exists_index, and_imp, forall_apply_eq_imp_iff₂] at ha
          exact ⟨fun hm => h0 (by rw [hm]; rfl), ha.1, fun row hrow => (hentry row hrow).1 (ha.2 row hrow)⟩
        · rintro ⟨-, h1, h2⟩
          refine ⟨some (rows.map fun row => List.zipWith (· / ·) row m), ?_⟩
          rw [show pyAssert (m.all (fun v => decide (v ≠ 0)) &&
              (rows.map fun row => List.zipWith (· / ·) row m).all fun row =>
                row.all fun v => decide (|v| ≤ 1)) = .ok () from pyAssert_eq_ok.2 ?_]
          · rfl
          · simp only [Bool.and_eq_true, List.all_eq_true, decide_eq_true_eq, List.mem_map,
              forall_exists_index, and_imp, forall_apply_eq_imp_iff₂]
            exact ⟨h1, fun row hrow => (hentry row hrow).2 (h2 row hrow)⟩
  unfold Solved.relative
  constructor
  · rintro ⟨out, ho⟩ seg hseg
    obtain ⟨i, hi, rfl⟩ := List.mem_iff_getElem.1 hseg
    have := mapM_getElem ho i hi (by rw [mapM_length ho]; exact hi)
    exact (one _ hseg).1 ⟨_, this⟩
  · intro hall
    exact mapM_exists fun seg hseg => (one seg hseg).2 (hall seg hseg)

/-- **C45** Relative residuals of a phase are computed without error exactly when no point is requested, or
there is a state and for every state one of the requested points has a non-zero slope that bounds the
defect at all requested points. -/
theorem C45_phase_succeeds_iff (h : e.Ready M) {ph : Nat} (hph : ph < e.disc.ocp.nPhases)
    {taus : List (List K)} (hlen : taus.length = M.orders.length) {F : VFun (PArg K) K}
    (hF : e.disc.ocp.dynamics[ph]? = some F) :
    (∃ out, phaseResult e true ph (some taus) = .ok out) ↔
      (∀ s, taus.getD s [] = []) ∨ (0 < e.disc.ocp.nx ∧ ∀ j < e.disc.ocp.nx,
        ∃ s, ∃ tau ∈ taus.getD s [], e.disc.ocp.slope M e.traj F ph s tau j ≠ 0 ∧
          ∀ s', ∀ tau' ∈ taus.getD s' [], |e.disc.ocp.defect M e.traj F ph s' tau' j| ≤
            |e.disc.ocp.slope M e.traj F ph s tau j|) := by
  have hsr : ∀ s tau, tau ∈ taus.getD s [] → s < M.orders.length := by
    intro s tau ht
    by_contra hs
    rw [List.getD_eq_default _ _ (by omega)] at ht
    cases ht
  unfold phaseResult
  rw [h.dynPhase_spec hph hlen hF]
  simp only [py_bind_ok, if_true]
  set dyn := (List.range M.orders.length).map fun s =>
    if (taus.getD s []).length = 0 then none else
      some ((taus.getD s []).map fun tau => (List.range e.disc.ocp.nx).map fun j =>
        M.halfWidth e.traj ph s * (F.f (e.disc.ocp.pArgAt M e.traj ph s tau) j *
          e.disc.ocp.scaleX.getD j 0)) with hdyn
  set res := (List.range M.orders.length).map fun s =>
    if (taus.getD s []).length = 0 then none else
      some ((taus.getD s []).map fun tau => (List.range e.disc.ocp.nx).map fun j =>
        e.disc.ocp.scaleX.getD j 0 * e.disc.ocp.defect M e.traj F ph s tau j) with hres
  set m := Solved.maxVal e.disc.ocp.nx dyn with hm
  have hml : m.length = e.disc.ocp.nx := by simp [hm, Solved.maxVal]
  have hex : (∃ out, (Solved.relative m res >>= fun r => pure
      ((List.range M.orders.length).map fun s => (taus.getD s []).map (M.time e.traj ph s), r) :
        Py (List (List K) × List (SegResidual K))) = .ok out) ↔ ∃ out, Solved.relative m res = .ok out := by
    constructor
    · rintro ⟨out, ho⟩
      obtain ⟨r, hr, -⟩ := py_bind_eq_ok.1 ho
      exact ⟨r, hr⟩
    · rintro ⟨r, hr⟩
      exact ⟨_, by rw [hr]; rfl⟩
  have hS : ∀ j < e.disc.ocp.nx, ∀ v, v ∈ (dyn.flatMap fun s => (s.getD []).map fun row => |row.getD j 0|) ↔
      ∃ s, ∃ tau ∈ taus.getD s [],
        v = |e.disc.ocp.slope M e.traj F ph s tau j| * |e.disc.ocp.scaleX.getD j 0| := by
    intro j hj v
    rw [List.mem_flatMap]
    constructor
    · rintro ⟨seg, hseg, hv⟩
      obtain ⟨s, hs, rfl⟩ := List.mem_map.1 hseg
      split at hv
      · simp at hv
      · simp only [Option.getD_some, List.map_map, List.mem_map, Function.comp_apply] at hv
        obtain ⟨tau, ht, rfl⟩ := hv
        refine ⟨s, tau, ht, ?_⟩
        rw [getD_map_range _ _ _ hj, ← mul_assoc, abs_mul]
        rfl
    · rintro ⟨s, tau, ht, rfl⟩
      have hs := hsr s tau ht
      refine ⟨_, List.mem_map.2 ⟨s, by simpa using hs, rfl⟩, ?_⟩
      rw [if_neg (by rw [List.length_eq_zero_iff]; exact List.ne_nil_of_mem ht)]
      simp only [Option.getD_some, List.map_map, List.mem_map, Function.comp_apply]
      refine ⟨tau, ht, ?_⟩
      rw [getD_map_range _ _ _ hj, ← mul_assoc, abs_mul]
      rfl
  have hmj : ∀ j < e.disc.ocp.nx, m.getD j 0 =
      (dyn.flatMap fun s => (s.getD []).map fun row => |row.getD j 0|).foldl max 0 := by
    intro j hj
    rw [hm, Solved.maxVal, getD_map_range _ _ _ hj]
  rw [hex, relative_ok_iff]
  · constructor
    · intro hall
      by_cases h0 : ∀ s, taus.getD s [] = []
      · exact Or.inl h0
      right
      push Not at h0
      obtain ⟨s0, hs0⟩ := h0
      have hseg : ∀ s, taus.getD s [] ≠ [] → m ≠ [] ∧ (∀ v ∈ m, v ≠ 0) ∧ ∀ tau ∈ taus.getD s [],
          ∀ j < e.disc.ocp.nx, |e.disc.ocp.scaleX.getD j 0 *
            e.disc.ocp.defect M e.traj F ph s tau j / m.getD j 0| ≤ 1 := by
        intro s hne
        obtain ⟨tau0, ht0⟩ := List.exists_mem_of_ne_nil _ hne
        have hs := hsr s tau0 ht0
        obtain ⟨h1, h2, h3⟩ := hall _ (List.mem_map.2 ⟨s, by simpa using hs, rfl⟩) _
          (if_neg (by rw [List.length_eq_zero_iff]; exact hne))
        refine ⟨h1, h2, fun tau ht j hj => ?_⟩
        have := h3 _ (List.mem_map.2 ⟨tau, ht, rfl⟩) j (by omega)
        rwa [getD_map_range _ _ _ hj] at this
      obtain ⟨h1, h2, -⟩ := hseg s0 hs0
      have hnx : 0 < e.disc.ocp.nx := by rw [← hml]; exact List.length_pos_iff.2 h1
      refine ⟨hnx, fun j hj => ?_⟩
      have hne : m.getD j 0 ≠ 0 := by
        rw [List.getD_eq_getElem _ _ (by omega)]
        exact h2 _ (List.getElem_mem _)
      obtain ⟨f1, f2, f3⟩ := foldl_max_le
        (dyn.flatMap fun s => (s.getD []).map fun row => |row.getD j 0|) 0
      rw [← hmj j hj] at f1 f2 f3
      have hmem := f3.resolve_left hne
      obtain ⟨s, tau, ht, hv⟩ := (hS j hj _).1 hmem
      have hsc : 0 < |e.disc.ocp.scaleX.getD j 0| := abs_pos.2 (h.scX hj)
      refine ⟨s, tau, ht, ?_, ?_⟩
      · intro hz
        rw [hz, abs_zero, zero_mul] at hv
        exact hne hv
      · intro s' tau' ht'
        have := (hseg s' (List.ne_nil_of_mem ht')).2.2 tau' ht' j hj
        have hpos : 0 < m.getD j 0 := lt_of_le_of_ne f1 (Ne.symm hne)
        rw [abs_div, abs_of_pos hpos, div_le_one hpos, hv, abs_mul, mul_comm] at this
        exact le_of_mul_le_mul_right this hsc
    · intro hcase seg hseg rows hrows
      obtain ⟨s, hs, rfl⟩ := List.mem_map.1 hseg
      split at hrows
      · cases hrows
      rename_i hne0
      cases hrows
      have hne : taus.getD s [] ≠ [] := fun hh => hne0 (by rw [hh]; rfl)
      rcases hcase with h0 | ⟨hnx, hj'⟩
      · exact absurd (h0 s) hne
      have key : ∀ j < e.disc.ocp.nx, 0 < m.getD j 0 ∧ ∀ s', ∀ tau' ∈ taus.getD s' [],
          |e.disc.ocp.scaleX.getD j 0 * e.disc.ocp.defect M e.traj F ph s' tau' j| ≤ m.getD j 0 := by
        intro j hj
        obtain ⟨s1, t1, ht1, hne1, hb⟩ := hj' j hj
        obtain ⟨f1, f2, f3⟩ := foldl_max_le
          (dyn.flatMap fun s => (s.getD []).map fun row => |row.getD j 0|) 0
        rw [← hmj j hj] at f1 f2 f3
        have hsc : 0 < |e.disc.ocp.scaleX.getD j 0| := abs_pos.2 (h.scX hj)
        have hv := f2 _ ((hS j hj _).2 ⟨s1, t1, ht1, rfl⟩)
        refine ⟨lt_of_lt_of_le (mul_pos (abs_pos.2 hne1) hsc) hv, fun s' tau' ht' => ?_⟩
        rw [abs_mul, mul_comm]
        exact (mul_le_mul_of_nonneg_right (hb s' tau' ht') hsc.le).trans hv
      refine ⟨fun hh => by rw [hh] at hml; simp at hml; omega, ?_, ?_⟩
      · intro v hv
        obtain ⟨j, hj, rfl⟩ := List.mem_iff_getElem.1 hv
        have := (key j (by omega)).1
        rw [List.getD_eq_getElem _ _ hj] at this
        exact this.ne'
      · intro row hrow j hj
        obtain ⟨tau, ht, rfl⟩ := List.mem_map.1 hrow
        have hj : j < e.disc.ocp.nx := by omega
        rw [getD_map_range _ _ _ hj, abs_div, abs_of_pos (key j hj).1, div_le_one (key j hj).1]
        exact (key j hj).2 s tau ht
  · intro seg hseg rows hrows row hrow
    obtain ⟨s, hs, rfl⟩ := List.mem_map.1 hseg
    split at hrows
    · cases hrows
    cases hrows
    obtain ⟨tau, ht, rfl⟩ := List.mem_map.1 hrow
    simp [hml]

/-- **C45** `get_dynamics_residuals(residual_type="relative")` succeeds exactly when that holds in every phase. -/
theorem C45_succeeds_iff (h : e.Ready M) {nodes : List (List (List K))}
    (hn : GridShape M e.disc.ocp.nPhases nodes) (gt : Option String) (F : Nat → VFun (PArg K) K)
    (hF : ∀ ph < e.disc.ocp.nPhases, e.disc.ocp.dynamics[ph]? = some (F ph)) :
    (∃ res, e.dynResiduals (some nodes) gt true = .ok res) ↔ ∀ ph < e.disc.ocp.nPhases,
      (∀ s, (nodes.getD ph []).getD s [] = []) ∨ (0 < e.disc.ocp.nx ∧ ∀ j < e.disc.ocp.nx,
        ∃ s, ∃ tau ∈ (nodes.getD ph []).getD s [], e.disc.ocp.slope M e.traj (F ph) ph s tau j ≠ 0 ∧
          ∀ s', ∀ tau' ∈ (nodes.getD ph []).getD s' [],
            |e.disc.ocp.defect M e.traj (F ph) ph s' tau' j| ≤
              |e.disc.ocp.slope M e.traj (F ph) ph s tau j|) := by
  unfold Solved.dynResiduals
  rw [dynLoop_nodes, ← List.range_eq_range']
  have hl : ∀ ph, ph < e.disc.ocp.nPhases → ∃ hl : ph < nodes.length, pyIdx nodes ph = .ok nodes[ph] ∧
      nodes.getD ph [] = nodes[ph] ∧ nodes[ph].length = M.orders.length := by
    intro ph hph
    have hl : ph < nodes.length := by rw [hn.1]; exact hph
    exact ⟨hl, pyIdx_ok hl, List.getD_eq_getElem _ _ hl, hn.2 _ (List.getElem_mem hl)⟩
  constructor
  · rintro ⟨res, hres⟩ ph hph
    obtain ⟨h1, h2, h3, h4⟩ := hl ph hph
    have := mapM_getElem hres ph (by simpa using hph) (by rw [mapM_length hres]; simpa using hph)
    rw [List.getElem_range, h2, py_bind_ok] at this
    rw [h3]
    exact (C45_phase_succeeds_iff h hph h4 (hF ph hph)).1 ⟨_, this⟩
  · intro hall
    apply mapM_exists
    intro ph hph
    have hph : ph < e.disc.ocp.nPhases := by simpa using hph
    obtain ⟨h1, h2, h3, h4⟩ := hl ph hph
    rw [h2, py_bind_ok]
    have := hall ph hph
    rw [h3] at this
    exact (C45_phase_succeeds_iff h hph h4 (hF ph hph)).2 this

theorem relative_bounded (m : List K) (segs out : List (SegResidual K))
    (h : Solved.relative m segs = .ok out) :
    ∀ seg ∈ out, ∀ rows, seg = some rows → ∀ row ∈ rows, ∀ v ∈ row, |v| ≤ 1 := by
  unfold Solved.relative at h
  intro seg hseg rows hrows row hrow v hv
  obtain ⟨i, hi, rfl⟩ := List.mem_iff_getElem.1 hseg
  have hi' : i < segs.length := by rw [← mapM_length h]; exact hi
  have := mapM_getElem h i hi' hi
  rw [hrows] at this
  split at this
  · cases this
  · split at this
    · cases this
    simp only [py_bind_eq_ok] at this
    obtain ⟨rows', h1, u, h2, h3⟩ := this
    rw [py_pure_eq_ok] at h3
    cases h3
    rw [pyAssert_eq_ok'] at h2
    simp only [Bool.and_eq_true, List.all_eq_true, decide_eq_true_eq] at h2
    exact h2.2 row hrow v hv

/-- **C45** Whatever the inputs, relative dynamics residuals that are returned lie in `[-1, 1]`. -/
theorem C45_values_bounded (e : Solved K) (nodes : Option (List (List (List K)))) (gt : Option String)
    (res : List (List (List K) × List (SegResidual K))) (h : e.dynResiduals nodes gt true = .ok res) :
    ∀ p ∈ res, ∀ seg ∈ p.2, ∀ rows, seg = some rows → ∀ row ∈ rows, ∀ v ∈ row, -1 ≤ v ∧ v ≤ 1 := by
  have key : ∀ n ph gt res, e.dynLoop nodes true n ph gt = .ok res →
      ∀ p ∈ res, ∀ seg ∈ p.2, ∀ rows, seg = some rows → ∀ row ∈ rows, ∀ v ∈ row, |v| ≤ 1 := by
    intro n
    induction n with
    | zero => intro ph gt res h; cases h; simp
    | succ n ih =>
      intro ph gt res h
      unfold Solved.dynLoop at h
      simp only [py_bind_eq_ok, if_true] at h
      obtain ⟨p, h1, r, h2, rs, h3, rest, h4, h5⟩ := h
      rw [py_pure_eq_ok] at h5
      subst h5
      intro q hq
      rcases List.mem_cons.1 hq with rfl | hq
      · exact relative_bounded _ _ _ h3
      · exact ih _ _ _ h4 q hq
  intro p hp seg hseg rows hrows row hrow v hv
  exact abs_le.1 (key _ _ _ _ h p hp seg hseg rows hrows row hrow v hv)

/-! ## C48 -/

/-- **C48** The integrated state: segment start plus the integral of the polynomial through the sampled
slopes. `Q` is any antiderivative of that polynomial. -/
theorem C48_integrated_state (ocp : OCP K) (M : Mesh K) (T : Traj K) (F : VFun (PArg K) K) (m : Method)
    (pts : List K) (hnd : pts.Nodup) (d : Nat) (hd : pts.length = d + 1) (ph s j : Nat) (tau : K)
    (Q : K[X]) (hQ : (derivative Q).natDegree ≤ d)
    (hv : ∀ p ∈ pts, (derivative Q).eval p = ocp.slope M T F ph s p j) :
    ocp.integrated M T F m pts ph s tau j = T.x ph (M.idx s 0) j + (Q.eval tau - Q.eval M.tau0) := by
  have := C05_quadrature_exact m pts hnd d hd M.tau0 tau Q hQ
    (fun k => ocp.slope M T F ph s (pts.getD k 0) j) (by
      intro k hk
      rw [hv _ (List.getElem_mem hk), List.getD_eq_getElem _ _ hk])
  unfold OCP.integrated
  rw [← this, weightedSum, weightedSum, Finset.mul_sum]
  congr 1
  apply Finset.sum_congr rfl
  intro k _
  unfold OCP.slope
  ring

theorem getElem?_range_map2 {α : Type} {n m : Nat} (f : Nat → Nat → α) {p s : Nat} (hp : p < n)
    (hs : s < m) : (((List.range n).map fun p => (List.range m).map (f p)).getD p [])[s]? =
      some (f p s) := by
  rw [getD_map_range _ _ _ hp, List.getElem?_map, List.getElem?_range hs]; rfl

/-- `get_states_residuals(nodes=…)` in closed form. -/
theorem stateResiduals_closed (h : e.Ready M) {nodes : List (List (List K))}
    (hn : GridShape M e.disc.ocp.nPhases nodes) (F : Nat → VFun (PArg K) K)
    (hF : ∀ ph < e.disc.ocp.nPhases, e.disc.ocp.dynamics[ph]? = some (F ph)) :
    e.stateResiduals (some nodes) false = .ok ((List.range e.disc.ocp.nPhases).map fun ph =>
      (List.range M.orders.length).map fun s =>
        let pts := (nodes.getD ph []).getD s []
        if pts.length = 0 then ⟨none, none, none⟩ else
          { t := some (pts.map (M.time e.traj ph s))
            x := some (pts.map fun tau => (List.range e.disc.ocp.nx).map fun j =>
              e.disc.ocp.scaleX.getD j 0 *
                e.disc.ocp.integrated M e.traj (F ph) e.disc.colloc.method pts ph s tau j)
            res := some (pts.map fun tau => (List.range e.disc.ocp.nx).map fun j =>
              e.disc.ocp.scaleX.getD j 0 * ((M.piece (fun k => e.traj.x ph k j) s).eval tau -
                e.disc.ocp.integrated M e.traj (F ph) e.disc.colloc.method pts ph s tau j)) }) := by
  unfold Solved.stateResiduals Solved.stateOne Solved.stateTarget
  apply mapM_ok
  intro ph hph
  have hph : ph < e.disc.ocp.nPhases := by simpa using hph
  have hl : ph < nodes.length := by rw [hn.1]; exact hph
  simp only [pyIdx_ok hl, List.getD_eq_getElem nodes _ hl, py_bind_ok, Bool.false_eq_true, if_false,
    pure_bind]
  rw [h.statePhase_spec hph (hn.2 _ (List.getElem_mem hl)) (hF ph hph)]
  rfl

/-- **C48** The state residual at a requested point is `scale_x` times: change of the state polynomial since
the segment start minus the integral of the polynomial through the sampled slopes. -/
theorem C48_state_residual (h : e.Ready M) {nodes : List (List (List K))}
    (hn : GridShape M e.disc.ocp.nPhases nodes) {ph s : Nat} (hph : ph < e.disc.ocp.nPhases)
    (hs : s < M.orders.length) {F : VFun (PArg K) K} (hF : e.disc.ocp.dynamics[ph]? = some F)
    (pts : List K) (hpts : (nodes.getD ph []).getD s [] = pts) (hnd : pts.Nodup) (hne : pts ≠ [])
    (Q : Nat → K[X]) (hQ : ∀ j < e.disc.ocp.nx, (derivative (Q j)).natDegree < pts.length)
    (hv : ∀ j < e.disc.ocp.nx, ∀ p ∈ pts,
      (derivative (Q j)).eval p = e.disc.ocp.slope M e.traj F ph s p j) :
    ∃ res seg, e.stateResiduals (some nodes) false = .ok res ∧
      (res.getD ph [])[s]? = some seg ∧ seg.t = some (pts.map (M.time e.traj ph s)) ∧
      seg.res = some (pts.map fun tau => (List.range e.disc.ocp.nx).map fun j =>
        e.disc.ocp.scaleX.getD j 0 *
          ((M.piece (fun k => e.traj.x ph k j) s).eval tau -
              (M.piece (fun k => e.traj.x ph k j) s).eval M.tau0 -
            ((Q j).eval tau - (Q j).eval M.tau0))) := by
  have hF' : ∀ p, ∃ G, p < e.disc.ocp.nPhases → e.disc.ocp.dynamics[p]? = some G := by
    intro p
    by_cases hp : p < e.disc.ocp.nPhases
    · have : p < e.disc.ocp.dynamics.length := by rw [h.valid.dynamics]; exact hp
      exact ⟨_, fun _ => List.getElem?_eq_getElem this⟩
    · exact ⟨⟨0, fun _ _ => 0⟩, fun h => absurd h hp⟩
  choose G hG using hF'
  have hGF : G ph = F := by
    have := hG ph hph
    rw [hF] at this; exact (Option.some.inj this).symm
  have hl0 : pts.length ≠ 0 := fun h0 => hne (List.length_eq_zero_iff.1 h0)
  refine ⟨_, _, stateResiduals_closed h hn G hG, getElem?_range_map2 _ hph hs, ?_, ?_⟩
  · simp only [hpts, hl0, if_false]
  · simp only [hpts, hl0, if_false, hGF]
    congr 1
    apply List.map_congr_left
    intro tau _
    apply List.map_congr_left
    intro j hj
    have hj : j < e.disc.ocp.nx := by simpa using hj
    have hx0 : e.traj.x ph (M.idx s 0) j = (M.piece (fun k => e.traj.x ph k j) s).eval M.tau0 := by
      rw [← h.mesh.good.node_first hs, h.mesh.good.piece_eval_node _ hs (Nat.zero_le _)]
    have hlen : pts.length = (pts.length - 1) + 1 := by omega
    rw [C48_integrated_state _ _ _ _ _ pts hnd _ hlen ph s j tau (Q j)
      (by have := hQ j hj; omega) (hv j hj), hx0]
    ring

/-- **C48** If in a segment the dynamics residual vanishes at `m` distinct requested points and `m` is at
least the segment's order, the state residual is 0 at all these points. -/
theorem C48_zero_residual (h : e.Ready M) {nodes : List (List (List K))}
    (hn : GridShape M e.disc.ocp.nPhases nodes) {ph s : Nat} (hph : ph < e.disc.ocp.nPhases)
    (hs : s < M.orders.length) {F : VFun (PArg K) K} (hF : e.disc.ocp.dynamics[ph]? = some F)
    (pts : List K) (hpts : (nodes.getD ph []).getD s [] = pts) (hnd : pts.Nodup)
    (hm : M.order s ≤ pts.length)
    (hz : ∀ j < e.disc.ocp.nx, ∀ p ∈ pts, e.disc.ocp.defect M e.traj F ph s p j = 0) :
    ∃ res seg rows, e.stateResiduals (some nodes) false = .ok res ∧
      (res.getD ph [])[s]? = some seg ∧ seg.res = some rows ∧ rows.length = pts.length ∧
      ∀ row ∈ rows, row.length = e.disc.ocp.nx ∧ ∀ v ∈ row, v = 0 := by
  have ho := h.mesh.good.order_pos hs
  obtain ⟨res, seg, h1, h2, -, h4⟩ := C48_state_residual h hn hph hs hF pts hpts hnd
    (fun hh => by rw [hh] at hm; simp at hm; omega) (fun j => M.piece (fun k => e.traj.x ph k j) s)
    (fun j hj => by
      have hdeg := h.mesh.good.piece_degrees (fun k => e.traj.x ph k j) s hs
      have := natDegree_derivative_le (M.piece (fun k => e.traj.x ph k j) s)
      rw [← Mesh.order_eq hs] at hdeg
      omega)
    (fun j hj p hp => by
      have := hz j hj p hp
      unfold OCP.defect at this
      exact sub_eq_zero.1 this)
  refine ⟨res, seg, _, h1, h2, h4, by simp, ?_⟩
  intro row hrow
  obtain ⟨tau, -, rfl⟩ := List.mem_map.1 hrow
  refine ⟨by simp, fun v hv => ?_⟩
  obtain ⟨j, -, rfl⟩ := List.mem_map.1 hv
  ring

/-! ## C49 -/

/-- **C49** What `process_results` stores: without `residual_dx` nothing at all; with it, the dynamics residual
always and the state residual iff requested. -/
theorem C49_stored {V A B : Type} (rx : Py A) (rdx : Py B) (wx : A → V) (wdx : B → V) (a : A) (b : B)
    (ha : rx = .ok a) (hb : rdx = .ok b) :
    residValue true true rx rdx wx wdx = .ok (some [("t_x", wx a), ("t_dx", wdx b)]) ∧
    residValue false true rx rdx wx wdx = .ok (some [("t_dx", wdx b)]) ∧
    residValue false false rx rdx wx wdx = .ok none ∧
    residValue true false rx rdx wx wdx = .ok none := by
  subst ha hb
  exact ⟨rfl, rfl, rfl, rfl⟩

/-- **C49 is false**: requesting only the state residual computes it and stores nothing. -/
theorem C49_false {V A B : Type} (rdx : Py B) (wx : A → V) (wdx : B → V) (a : A) :
    ¬ ∃ d : PyDict V, residValue true false (.ok a) rdx wx wdx = .ok (some d) ∧
      d.get? "t_x" = some (wx a) := by
  rintro ⟨d, h, -⟩
  cases h

/-- **C49** A failing state residual makes `process_results` fail, even when its value would be discarded. -/
theorem C49_failure_propagates {V A B : Type} (residualDx : Bool) (err : PyErr) (rdx : Py B)
    (wx : A → V) (wdx : B → V) : residValue true residualDx (.error err) rdx wx wdx = .error err := rfl

/-! ## C50 -/

/-- The state polynomial of a segment as a polynomial in time. -/
noncomputable def Mesh.timePoly (M : Mesh K) (T : Traj K) (ph s : Nat) (v : Nat → K) : K[X] :=
  (M.piece v s).comp (C M.tau0 + C (M.halfWidth T ph s)⁻¹ * (X - C (M.time T ph s M.tau0)))

theorem timePoly_eval (T : Traj K) (ph s : Nat) (v : Nat → K)
    (hw : M.halfWidth T ph s ≠ 0) (tau : K) :
    (M.timePoly T ph s v).eval (M.time T ph s tau) = (M.piece v s).eval tau := by
  unfold Mesh.timePoly
  rw [eval_comp]
  congr 1
  simp only [eval_add, eval_C, eval_mul, eval_sub, eval_X]
  have : M.time T ph s tau - M.time T ph s M.tau0 = M.halfWidth T ph s * (tau - M.tau0) := by
    simp only [Mesh.time]; ring
  rw [this, ← mul_assoc, inv_mul_cancel₀ hw]
  ring

theorem timePoly_second (T : Traj K) (ph s : Nat) (v : Nat → K)
    (hw : M.halfWidth T ph s ≠ 0) (tau : K) :
    (derivative^[2] (M.piece v s)).eval tau =
      M.halfWidth T ph s ^ 2 * (derivative^[2] (M.timePoly T ph s v)).eval (M.time T ph s tau) := by
  set g : K[X] := C M.tau0 + C (M.halfWidth T ph s)⁻¹ * (X - C (M.time T ph s M.tau0)) with hg
  have hg1 : derivative g = C (M.halfWidth T ph s)⁻¹ := by simp [hg]
  have hgt : g.eval (M.time T ph s tau) = tau := by
    simp only [hg, eval_add, eval_C, eval_mul, eval_sub, eval_X]
    have : M.time T ph s tau - M.time T ph s M.tau0 = M.halfWidth T ph s * (tau - M.tau0) := by
      simp only [Mesh.time]; ring
    rw [this, ← mul_assoc, inv_mul_cancel₀ hw]
    ring
  show _ = _ * (derivative (derivative ((M.piece v s).comp g))).eval _
  rw [derivative_comp, hg1, derivative_C_mul, derivative_comp, hg1]
  simp only [eval_mul, eval_C, eval_comp, hgt]
  show (derivative (derivative (M.piece v s))).eval tau = _
  field_simp

/-- `get_state_second_derivative(nodes=…)` in closed form, per phase. -/
theorem secondPhase_closed (h : e.Ready M) {ph : Nat} (hph : ph < e.disc.ocp.nPhases)
    {taus : List (List K)} (hlen : taus.length = M.orders.length) :
    e.secondPhase ph (some taus) = .ok ((List.range M.orders.length).map fun s =>
      if (taus.getD s []).length = 0 then none else
        some ((taus.getD s []).map (M.time e.traj ph s),
          (taus.getD s []).map (fun tau => (List.range e.disc.ocp.nx).map fun j =>
            e.disc.ocp.scaleX.getD j 0 *
              (derivative^[2] (M.piece (fun k => e.traj.x ph k j) s)).eval tau),
          (taus.getD s []).map (fun tau => (List.range e.disc.ocp.nu).map fun j =>
            e.disc.ocp.scaleU.getD j 0 *
              (derivative^[2] (M.piece (fun k => e.traj.u ph k j) s)).eval tau))) := by
  obtain ⟨r, hr, ok⟩ := h.interpolate_spec hph hlen
  obtain ⟨tr, htr, hx, hu, htl, ht, -⟩ := h.mesh.trajectories_spec h.z h.widths hph
  have hord := h.mesh.orders
  have hgrid := timeGridAt_spec h.mesh.good e.traj ph ht hlen
  have hns : e.disc.nSegments = M.orders.length := by rw [← h.mesh.segments, hord]
  have hlen' : taus.length = e.disc.orders.length := by rw [← hord]; exact hlen
  have hD : ∀ v : Nat → K, _ := fun v => C08_composite_interp_derivative e.disc.colloc e.disc.orders
    M.nodes h.mesh.goodNodes taus hlen' 2 (Or.inr rfl) (M.piece v)
    (hord ▸ h.mesh.good.piece_degrees v) v (hord ▸ h.mesh.good.piece_samples v)
  obtain ⟨D, hD1, hD2, hD3, -⟩ := hD 0
  have hDv : ∀ (v : Nat → K) (s : Nat) (hs : s < taus.length) (i : Nat) (hi : i < taus[s].length),
      D.rowDot (segStart (taus.map List.length) s + i) v =
        (derivative^[2] (M.piece v s)).eval taus[s][i] := by
    intro v s hs i hi
    obtain ⟨D', h1, -, -, h4⟩ := hD v
    rw [hD1] at h1; cases h1
    exact h4 s hs i hi
  have sD : ∀ B : Mat K, B.rows = e.disc.N → D.cols = B.rows := by
    intro B hB; rw [hD3, hB]; rfl
  unfold Solved.secondPhase
  simp only [htr, py_bind_ok, ← hord, ← h.mesh.tau0, ← h.mesh.tau1, hgrid]
  rw [hord, hD1]
  simp only [py_bind_ok, mtimes_row (sD _ (show tr.x.rows = e.disc.N by rw [hx])),
    mtimes_row (sD _ (show tr.u.rows = e.disc.N by rw [hu])), hns]
  rw [← hord]
  apply mapM_ok
  intro s hs
  have hs : s < M.orders.length := by simpa using hs
  have hs' : s < taus.length := by omega
  have hst : ((taus.map List.length).take s).sum = segStart (taus.map List.length) s := rfl
  rw [pyIdx_ok hs', List.getD_eq_getElem _ _ hs']
  simp only [py_bind_ok, hst]
  rw [← ok.t, mapM_range_idx taus[s] _ (fun tau => M.time e.traj ph s tau)
    fun i hi => ok.time_eq hlen hs' hi]
  simp only [py_bind_ok]
  by_cases h0 : taus[s].length = 0
  · simp only [h0, if_true]; rfl
  simp only [h0, if_false]
  show Except.ok _ = Except.ok _
  congr 4
  · apply List.ext_getElem
    · simp
    · intro i h1 h2
      have hi : i < taus[s].length := by simpa using h2
      simp only [List.getElem_map, List.getElem_range, Mat.row, hx]
      apply List.map_congr_left
      intro j hj
      rw [hDv _ s hs' i hi, h.piece_x (by simpa using hj)]
      simp only [Function.iterate_succ, Function.iterate_zero, Function.comp_apply, id,
        derivative_C_mul, eval_mul, eval_C]
  · apply List.ext_getElem
    · simp
    · intro i h1 h2
      have hi : i < taus[s].length := by simpa using h2
      simp only [List.getElem_map, List.getElem_range, Mat.row, hu]
      apply List.map_congr_left
      intro j hj
      rw [hDv _ s hs' i hi, h.piece_u (by simpa using hj)]
      simp only [Function.iterate_succ, Function.iterate_zero, Function.comp_apply, id,
        derivative_C_mul, eval_mul, eval_C]

/-- **C50** `get_state_second_derivative(nodes=…)` reports `scale_x` times the squared half-width times the
second time derivative of the state polynomial, at the time of the point. -/
theorem C50_second_derivative (h : e.Ready M) {nodes : List (List (List K))}
    (hn : GridShape M e.disc.ocp.nPhases nodes) (gt : Option String) {ph s : Nat}
    (hph : ph < e.disc.ocp.nPhases) (hs : s < M.orders.length)
    (hw : M.halfWidth e.traj ph s ≠ 0)
    (hpts : (nodes.getD ph []).getD s [] ≠ []) :
    ∃ res t ddx ddu, e.secondDerivative (some nodes) gt = .ok res ∧
      (res.getD ph [])[s]? = some (some (t, ddx, ddu)) ∧
      t = ((nodes.getD ph []).getD s []).map (M.time e.traj ph s) ∧
      ddx = t.map (fun time => (List.range e.disc.ocp.nx).map fun j =>
        e.disc.ocp.scaleX.getD j 0 * (M.halfWidth e.traj ph s ^ 2 *
          (derivative^[2] (M.timePoly e.traj ph s fun k => e.traj.x ph k j)).eval time)) ∧
      ddu = t.map (fun time => (List.range e.disc.ocp.nu).map fun j =>
        e.disc.ocp.scaleU.getD j 0 * (M.halfWidth e.traj ph s ^ 2 *
          (derivative^[2] (M.timePoly e.traj ph s fun k => e.traj.u ph k j)).eval time)) := by
  have key : e.secondDerivative (some nodes) gt = .ok ((List.range e.disc.ocp.nPhases).map fun ph =>
      (List.range M.orders.length).map fun s =>
      if ((nodes.getD ph []).getD s []).length = 0 then none else
        some (((nodes.getD ph []).getD s []).map (M.time e.traj ph s),
          ((nodes.getD ph []).getD s []).map (fun tau => (List.range e.disc.ocp.nx).map fun j =>
            e.disc.ocp.scaleX.getD j 0 *
              (derivative^[2] (M.piece (fun k => e.traj.x ph k j) s)).eval tau),
          ((nodes.getD ph []).getD s []).map (fun tau => (List.range e.disc.ocp.nu).map fun j =>
            e.disc.ocp.scaleU.getD j 0 *
              (derivative^[2] (M.piece (fun k => e.traj.u ph k j) s)).eval tau))) := by
    unfold Solved.secondDerivative
    apply mapM_ok
    intro ph hph
    have hph : ph < e.disc.ocp.nPhases := by simpa using hph
    have hl : ph < nodes.length := by rw [hn.1]; exact hph
    simp only [pyIdx_ok hl, List.getD_eq_getElem nodes _ hl, py_bind_ok, pure_bind]
    exact secondPhase_closed h hph (hn.2 _ (List.getElem_mem hl))
  refine ⟨_, _, _, _, key, (getElem?_range_map2 _ hph hs).trans
    (congrArg some (if_neg fun h0 => hpts (List.length_eq_zero_iff.1 h0))), rfl, ?_, ?_⟩
  · rw [List.map_map]
    apply List.map_congr_left
    intro tau _
    apply List.map_congr_left
    intro j _
    rw [timePoly_second _ _ _ _ hw]
  · rw [List.map_map]
    apply List.map_congr_left
    intro tau _
    apply List.map_congr_left
    intro j _
    rw [timePoly_second _ _ _ _ hw]

end MPOpt
