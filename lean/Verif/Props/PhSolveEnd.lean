import Verif.Props.PhSolve
import Verif.Props.HEndExample

/-! # C94 with the methods of the object, and examples -/

set_option autoImplicit false
set_option linter.unusedSectionVars false

namespace MPOpt

variable {K V : Type} [Field K] [LinearOrder K] [IsStrictOrderedRing K]

theorem statePhase_length {e : Solved K} {ph : Nat} {nodes : Option (List (List K))} {r : List (Solved.StateRes K)}
    (h : e.statePhase ph nodes = .ok r) : r.length = e.disc.nSegments := by
  unfold Solved.statePhase at h
  simp only [py_bind_eq_ok] at h
  obtain ⟨_, _, _, _, _, _, _, _, h⟩ := h
  rw [mapM_length h, List.length_range]

theorem stateOne_length {e : Solved K} {ph : Nat} {nodes : Option (List (List (List K)))} {rel : Bool} {r : List (Solved.StateRes K)}
    (h : e.stateOne nodes rel ph = .ok r) : r.length = e.disc.nSegments := by
  unfold Solved.stateOne at h
  simp only [py_bind_eq_ok] at h
  obtain ⟨_, _, segs, h1, h2⟩ := h
  rw [← statePhase_length h1]
  cases rel
  · simp only [Bool.false_eq_true, if_false, py_pure_eq_ok] at h2
    rw [h2]
  · simp only [if_true] at h2
    exact mapM_length h2

theorem phSolved_inv {w : HOutside K V} {ocp : OCP K} {scheme : String} {g : List String} {m : Nat} {sol : PyDict V} {os : List Nat}
    {ws : List K} {e : Solved K} (h : phSolved w ocp scheme g m sol os ws = .ok e) :
    e.disc.ocp = ocp ∧ e.disc.nSegments = os.length ∧ e.disc.orders = os ∧ e.widths = ws ∧
      ∃ v, sol.get? "x" = some v ∧ w.num v = .ok e.z := by
  unfold phSolved at h
  rw [py_bind_eq_ok] at h
  obtain ⟨d, h1, h2⟩ := h
  obtain ⟨-, g2, g3, g4, -⟩ := mkDisc_inv h1
  cases hx : sol.get? "x" with
  | none => rw [hx] at h2; cases h2
  | some v =>
    rw [hx] at h2
    simp only [py_bind_eq_ok, py_pure_eq_ok] at h2
    obtain ⟨z, hz, rfl⟩ := h2
    exact ⟨g2, g3, g4, rfl, v, rfl, hz⟩

/-- The methods of the object give residuals by phase and segment. -/
theorem C94_env_regular (o : PhObj K) (w : HOutside K V) (nlpsol : Nat → SolverCall K V → Py (PyDict V)) (ocp : OCP K) (scheme : String)
    (maxGrid : Nat) (threshold : K) (a : PhSolveDict K V) : (o.env w nlpsol ocp scheme maxGrid threshold a).Regular := by
  intro s os ws R h
  change (do
    let e ← phSolved w ocp scheme o.gridType maxGrid s os ws
    return (← e.stateResiduals none true).map (·.map (·.res)) : Py (List (List (SegResidual K)))) = .ok R at h
  simp only [py_bind_eq_ok, py_pure_eq_ok] at h
  obtain ⟨e, h1, r, h2, rfl⟩ := h
  obtain ⟨e1, e2, -⟩ := phSolved_inv h1
  unfold Solved.stateResiduals at h2
  refine ⟨?_, fun phase hp => ?_⟩
  · rw [List.length_map, mapM_length h2, List.length_range, e1]
    rfl
  · obtain ⟨q, hq, rfl⟩ := List.mem_map.1 hp
    obtain ⟨i, hi, rfl⟩ := List.mem_iff_getElem.1 hq
    have hi' : i < (List.range e.disc.ocp.nPhases).length := by rw [← mapM_length h2]; exact hi
    rw [List.length_map, stateOne_length (mapM_getElem h2 i hi' hi), e2]

/-- With a solver that returns points within all bounds, the point returned is the trajectory of the collocated problem on a mesh
within the limits, with the widths given or equal ones. -/
theorem C94_feasible {o : PhObj K} (hM : o.Made) {w : HOutside K V} {nlpsol : Nat → SolverCall K V → Py (PyDict V)} {ocp : OCP K}
    {scheme : String} {maxGrid : Nat} {threshold : K} {a : PhSolveDict K V} (hv : ValidOCP ocp) (hs : ocp.SettingsOK)
    (hsc : ocp.PosScales)
    (hsound : ∀ i c s, nlpsol i c = .ok s → ∃ v z, s.get? "x" = some v ∧ w.num v = .ok z ∧ c.IsSolution z)
    {maxIter : Nat} {s : PyDict V} (h : (o.env w nlpsol ocp scheme maxGrid threshold a).body o maxIter = .ok s) :
    ∃ r v z, o.Within r ∧ o.nSegments ≤ r.length ∧ s.get? "x" = some v ∧ w.num v = .ok z ∧
      ∀ M, MeshFor w.toOutside scheme r.length (.list r) M →
        ∃ T, SolvesOCP ocp M T ∧ WidthsAre ocp r.length a.widths T ∧ z = ocp.packVec M.N T := by
  obtain ⟨i, n, r, -, rfl, hn, -, hr, hsol, -⟩ := C94_returns (C94_env_regular o w nlpsol ocp scheme maxGrid threshold a) hM h
  change phSolve w nlpsol ocp scheme a i r _ = .ok s at hsol
  unfold phSolve at hsol
  simp only [py_bind_eq_ok] at hsol
  obtain ⟨d, h1, nlp, h2, hsol⟩ := hsol
  by_cases hacc : w.accepts a.plugin (solverOptions w.vals a.plugin a.options) = false
  · rw [if_pos hacc] at hsol
    cases hsol
  rw [if_neg hacc] at hsol
  simp only [py_bind_eq_ok] at hsol
  obtain ⟨inputs, -, hsol⟩ := hsol
  obtain ⟨v, z, hv1, hz, hS⟩ := hsound i _ s hsol
  refine ⟨r, v, z, hr, hn, hv1, hz, fun M hMesh => ?_⟩
  obtain ⟨g1, g2, g3, g4, g5, g6, g7⟩ := mkDisc_inv h1
  have hord : M.orders = r := hMesh.orders
  have hon : d.OnMesh M := by
    refine ⟨hMesh.good, by rw [hord, g4], ?_, ?_, ?_, by rw [g4, g3], g6, g7⟩
    · rw [hMesh.tau0, g5]
    · rw [hMesh.tau1, g5]
    · intro q hq
      rw [g5]
      exact hMesh.nodes q (by rw [hord, ← g4]; exact hq)
  have hn0 : r.length ≠ 0 := by have := hM.pos; omega
  subst g2
  have hp : (o.env w nlpsol d.ocp scheme maxGrid threshold a).widthsFor r.length =
      a.widths.getD (List.replicate (r.length * d.ocp.nPhases) (1 / (r.length : K))) := rfl
  rw [hp] at hS
  have hlen := hS.p
  obtain ⟨bs, J, nlp', hn', -, -, -, hx, -, -, hpp, -⟩ := hon.createNlp_spec hv hs hsc
  have he : nlp' = nlp := by rw [h2] at hn'; exact (Except.ok.inj hn').symm
  subst he
  obtain ⟨c1, -⟩ := call_trajectories (req := a.widths) hon hv hs hsc (c := ⟨⟨nlp', a.plugin, solverOptions w.vals a.plugin a.options⟩, nlp',
    inputs, a.widths.getD (List.replicate (r.length * d.ocp.nPhases) (1 / (r.length : K)))⟩) h2 rfl (by
      simp only at hlen ⊢
      rw [hlen, hpp]) (by
      cases a.widths with
      | some l => rfl
      | none =>
        unfold equalWidths
        rw [g3, if_neg hn0]
        rfl)
  obtain ⟨T, t1, t2, t3⟩ := (c1 z).1 hS
  exact ⟨T, t1, by rw [← g3]; exact t2, t3⟩

/-! ### Examples -/

/-- An object with two segments of order 3, limits 3 and 6. -/
def phObjQ : PhObj ℚ where
  nSegments := 2
  orders := [3, 3]
  polyMin := 3
  polyMax := 6
  minSegments := 1
  maxSegments := 2
  maxResidual := 1 / 10
  gridType := ["fixed"]
  maxGrid := [5]
  lbh := [0]
  ubh := [1]
  tol := [1 / 10]

/-- The constructor gives it, up to the bounds of widths. -/
example : mkPh 1 (⟨2, .list [3, 3], "fixed", 1 / 10, 3, 6, 1, 2, 5⟩ : PhArgs ℚ) = .ok { phObjQ with lbh := [1 / 100000] } := rfl

theorem phObjQ_made : phObjQ.Made := by
  refine ⟨by decide, rfl, ?_⟩
  intro p hp
  have : p = 3 := by simpa [phObjQ] using hp
  subst this
  decide

/-- Solutions are the meshes they come from. The residual is 1 in the first segment of phases that are bad and 0 elsewhere. The second
derivative is the order of the first segment. -/
def phEnvQ (nPhases : Nat) (bad : Nat → Bool) : PhEnv ℚ (List Nat × List ℚ) where
  nPhases
  nx := 1
  threshold := 1
  given := none
  solve _ os w := .ok (os, w)
  residual _ os _ := .ok ((List.range nPhases).map fun ph => (List.range os.length).map fun i =>
    some [[if bad ph && i == 0 then 1 else 0]])
  second s os _ _ := .ok ((List.range nPhases).map fun _ => (List.range os.length).map fun _ => [[(s.1.headD 0 : ℚ)]])

theorem phEnvQ_regular (nPhases : Nat) (bad : Nat → Bool) : (phEnvQ nPhases bad).Regular := by
  intro s os w R h
  cases h
  refine ⟨by simp [phEnvQ], fun phase hp => ?_⟩
  simp only [List.mem_map] at hp
  obtain ⟨_, -, rfl⟩ := hp
  simp

/-- The first iteration: the first segment is raised to order 6 and then split; widths would be 1/4, 1/4, 1/2. -/
theorem phEnvQ_round : (phEnvQ 1 fun _ => true).round phObjQ 0 2 [3, 3] =
    .ok (.inr (([6, 3], [1 / 2, 1 / 2]), [1 / 4, 1 / 4, 1 / 2], [6, 6, 3])) := by decide +kernel

/-- The second solves with three equal widths instead, with more segments than the limit of the object. -/
theorem C94_example_widths : (phEnvQ 1 fun _ => true).body phObjQ 2 = .ok ([6, 6, 3], [1 / 3, 1 / 3, 1 / 3]) ∧
    phObjQ.maxSegments = 2 ∧ ([1 / 4, 1 / 4, 1 / 2] : List ℚ) ≠ [1 / 3, 1 / 3, 1 / 3] := by
  refine ⟨by decide +kernel, rfl, by decide +kernel⟩

/-- Hypotheses of `C94_widths`, `C94_progress` and `C94_last_phase` hold here. -/
example : (phEnvQ 1 fun _ => true).Reaches phObjQ 0 2 [3, 3] ∧ (phEnvQ 1 fun _ => true).Reaches phObjQ 1 3 [6, 6, 3] :=
  ⟨.start, .next (.start (E := phEnvQ 1 fun _ => true) (o := phObjQ)) phEnvQ_round⟩

/-- From then on nothing changes: the same mesh for every number of iterations above one. -/
theorem C94_example_stuck (m : Nat) : (phEnvQ 1 fun _ => true).body phObjQ (m + 2) = .ok ([6, 6, 3], [1 / 3, 1 / 3, 1 / 3]) := by
  have h1 : (phEnvQ 1 fun _ => true).round phObjQ 1 3 [6, 6, 3] =
      .ok (.inr (([6, 6, 3], [1 / 3, 1 / 3, 1 / 3]), [1 / 3, 1 / 3, 1 / 3], [6, 6, 3])) := by decide +kernel
  unfold PhEnv.body
  rw [PhEnv.loop, show (phEnvQ 1 fun _ => true).round phObjQ 0 phObjQ.nSegments phObjQ.orders = _ from phEnvQ_round, py_bind_ok]
  exact C94_repeats (fun _ _ _ _ => rfl) h1 rfl m 1 _

/-- Two phases, the second one fine: the first solution is returned although the first phase misses the tolerance tenfold. -/
theorem C94_example_phase (m : Nat) : (phEnvQ 2 fun ph => ph == 0).body phObjQ (m + 1) =
      .ok ([3, 3], [1 / 2, 1 / 2, 1 / 2, 1 / 2]) ∧
    ¬ (phEnvQ 2 fun ph => ph == 0).Good phObjQ.maxResidual ([3, 3], [1 / 2, 1 / 2, 1 / 2, 1 / 2]) [3, 3] [1 / 2, 1 / 2, 1 / 2, 1 / 2] 0 := by
  constructor
  · refine C94_one_good_phase (phEnvQ_regular 2 _) phObjQ_made (st := [[true, false], [false, false]]) ?_ ?_ ⟨1, ?_⟩ m
    · decide +kernel
    · decide +kernel
    · refine ⟨_, [some [[0]], some [[0]]], rfl, by decide +kernel, ?_⟩
      intro seg hseg
      simp only [List.mem_cons, List.not_mem_nil, or_false, or_self] at hseg
      subst hseg
      refine ⟨_, rfl, fun row hrow j hj => ?_⟩
      simp only [List.mem_singleton] at hrow
      subst hrow
      have : j = 0 := by simp only [phEnvQ] at hj; omega
      subst this
      decide +kernel
  · rintro ⟨R, phase, h1, h2, h3⟩
    cases h1
    have e : phase = [some [[1]], some [[0]]] := by
      have : (((List.range 2).map fun ph => (List.range 2).map fun i =>
        (some [[if (ph == 0) && i == 0 then (1 : ℚ) else 0]] : SegResidual ℚ)))[0]? = some [some [[1]], some [[0]]] := by decide +kernel
      exact Option.some.inj (h2.symm.trans this)
    subst e
    obtain ⟨rows, r1, r2⟩ := h3 _ (List.mem_cons_self ..)
    cases r1
    have := r2 [1] (by simp) 0 (by decide)
    revert this
    decide +kernel

/-- One phase: the refined solution of the last call, as `C94_returns_one` says. -/
example : ∃ i r, phObjQ.Within r ∧ (phEnvQ 1 fun _ => true).solve i r ((phEnvQ 1 fun _ => true).widthsFor r.length) =
    .ok ([6, 6, 3], [1 / 3, 1 / 3, 1 / 3]) ∧ ((∀ ph < 1, (phEnvQ 1 fun _ => true).Good phObjQ.maxResidual ([6, 6, 3], [1 / 3, 1 / 3, 1 / 3]) r
      ((phEnvQ 1 fun _ => true).widthsFor r.length) ph) ∨ i + 1 = 2 * 2) :=
  C94_returns_one (phEnvQ_regular 1 _) rfl phObjQ_made C94_example_widths.1

/-- Two segments of order 1. -/
def phObjH : PhObj ℚ := { phObjQ with orders := [1, 1], polyMin := 1, polyMax := 4 }

theorem phObjH_made : phObjH.Made := by
  refine ⟨by decide, rfl, ?_⟩
  intro p hp
  have : p = 1 := by simpa [phObjH] using hp
  subst this
  decide

/-- No options. -/
def phDictH : PhSolveDict ℚ (List ℚ) := ⟨none, "ipopt", [], none⟩

/-- The hypotheses of `C94_feasible` are met: the solver of C59 solves the problem with two segments, the residuals vanish, and the
solution is returned. -/
theorem C94_feasible_example : ValidOCP ocpQ ∧ ocpQ.SettingsOK ∧ ocpQ.PosScales ∧
    (∀ i c s, nlpsolH 0 i c = .ok s → ∃ v z, s.get? "x" = some v ∧ outsideH.num v = .ok z ∧ c.IsSolution z) ∧
    MeshFor outsideH.toOutside "LGR" 2 (.list [1, 1]) meshH ∧
    (phObjH.env outsideH (nlpsolH 0) ocpQ "LGR" 5 2 phDictH).body phObjH 1 = .ok [("x", ocpQ.packVec 3 (trajH (1 / 2)))] := by
  obtain ⟨hv, hs, hsc⟩ := ocpQ_ready
  refine ⟨hv, hs, hsc, ?_, ⟨meshH_for.good, rfl, rfl, rfl, meshH_for.nodes⟩, ?_⟩
  · intro i c s h
    unfold nlpsolH at h
    split at h
    · cases h
      exact ⟨_, _, rfl, rfl, ‹_›⟩
    · cases h
  have hz : ocpQ.packVec 3 (trajH (1 / 2)) = [0, 1, 2, 1, 1, 1, 0, 1] := by decide +kernel
  have hst : (phObjH.env outsideH (nlpsolC 0) ocpQ "LGR" 5 2 phDictH).status phObjH [("x", [0, 1, 2, 1, 1, 1, 0, 1])] [1, 1]
      [1 / 2, 1 / 2] = .ok [[false, false]] := by decide +kernel
  have hw : (phObjH.env outsideH (nlpsolH 0) ocpQ "LGR" 5 2 phDictH).widthsFor 2 = [1 / 2, 1 / 2] := by
    change List.replicate 2 (1 / ((2 : Nat) : ℚ)) = _
    norm_num [List.replicate]
  have hst' : (phObjH.env outsideH (nlpsolH 0) ocpQ "LGR" 5 2 phDictH).status phObjH [("x", ocpQ.packVec 3 (trajH (1 / 2)))] [1, 1]
      ((phObjH.env outsideH (nlpsolH 0) ocpQ "LGR" 5 2 phDictH).widthsFor 2) = .ok [[false, false]] := by
    rw [hz, hw]
    exact hst
  refine C94_one_good_phase (C94_env_regular _ _ _ _ _ _ _ _) phObjH_made ?_ hst' ((status_all_false hst').1 rfl) 0
  change phSolve outsideH (nlpsolH 0) ocpQ "LGR" phDictH 0 [1, 1] ((phObjH.env outsideH (nlpsolH 0) ocpQ "LGR" 5 2 phDictH).widthsFor 2) = _
  rw [hw]
  obtain ⟨d, honM, h1, h2, -, hc⟩ := hoptH_fresh.ready.coherent meshH_for
  obtain ⟨bs, J, nlp, hn, -⟩ := honM.createNlp_spec (by rw [h1]; exact hv) (by rw [h1]; exact hs) (by rw [h1]; exact hsc)
  have hd : mkDisc outsideH.lib outsideH.method outsideH.tau0 outsideH.tau1 ocpQ [1, 1].length [1, 1] "LGR" = .ok d := hc.disc
  have hwarm : warmStart (do return outsideH.vec (← ocpQ.initialGuess ([1, 1].sum + 1))) phDictH.initial = .ok [("x0", [])] := by
    decide +kernel
  unfold phSolve
  rw [hd, py_bind_ok, hn, py_bind_ok]
  simp only [hwarm, py_bind_ok]
  have hval : ValidWidths 2 1 ([1 / 2, 1 / 2] : List ℚ) := by
    refine ⟨rfl, fun ph hp => ?_⟩
    obtain rfl : ph = 0 := by omega
    constructor
    · intro v hv
      have : v = 1 / 2 := by simpa using hv
      rw [this]
      norm_num
    · norm_num
  obtain ⟨a, a0, a1, ha, hk⟩ := nlpsolH_answers
    (c := ⟨⟨nlp, phDictH.plugin, solverOptions outsideH.vals phDictH.plugin phDictH.options⟩, nlp, [("x0", [])], [1 / 2, 1 / 2]⟩)
    ⟨d, hc.disc, hn, rfl, hval⟩
  have : a = 1 / 2 := by
    have := congrArg (fun l => l.headD 0) ha
    exact this.symm
  subst this
  rw [if_neg (by decide)]
  exact hk 0 0

end MPOpt
