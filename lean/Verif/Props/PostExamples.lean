import Verif.Props.PostInterp

/-! # Concrete post-processing: hypotheses are met, and the claim about parameters that is false -/

set_option autoImplicit false

namespace MPOpt

/-- The post-processing object of `solvedQ`. -/
def postQ (ocp : OCP ℚ) (orders : List Nat) (widths : List ℚ) (z : List ℚ) (scaling : Bool) : Py (Post ℚ) := do
  mkPost (← solvedQ ocp orders widths ["mid-points"] 2 z) [List.range ocp.nPhases] scaling

/-- `C24_within_bounds`, `C25_get_data` and `C26_get_data` apply to the feasible point of `solvedQ_ready`. -/
example : ∃ (p : Post ℚ) (M : Mesh ℚ) (nlp : Disc.NLP ℚ), postQ ocpQ [1, 1] [1/2, 1/2] zQ false = .ok p ∧
    p.solved.Ready M ∧ p.solved.disc.ocp.SettingsOK ∧ p.solved.disc.ocp.PosScales ∧ p.scaling = false ∧
    p.solved.disc.createNlp = .ok nlp ∧ Holds p.solved.z nlp.lbx nlp.ubx ∧ M.tau0 < M.tau1 ∧
    p.phases = [0] := by
  obtain ⟨e, M, nlp, he, hr, -, h0, h1, hs, hsc, hn, hf⟩ := solvedQ_ready
  refine ⟨⟨e, false, [0]⟩, M, nlp, ?_, hr, hs, hsc, rfl, hn, ?_, by rw [h0, h1]; norm_num, rfl⟩
  · unfold postQ; rw [he]; rfl
  · obtain ⟨-, -, -, -, -, -, -, hx, -⟩ := hr.mesh.createNlp_spec hr.valid hs hsc
    have hb := hf.1
    have : nlp.x.map (e.disc.envOf e.z e.widths) = e.z := by
      obtain ⟨_, _, nlp', hn', -, -, -, hx', -⟩ := hr.mesh.createNlp_spec hr.valid hs hsc
      obtain rfl : nlp = nlp' := by rw [hn] at hn'; exact Except.ok.inj hn'
      rw [hx']; exact (Disc.envOf_map hr.z hr.widths).1
    rw [this] at hb
    exact hb

/-- Nodes of that point, in physical units and scaled. -/
example : (postQ ocpQ [1, 1] [1/2, 1/2] zQ false >>= fun p => do
    let D ← p.getData [] false
    return (D.x.toRows, D.u.toRows, D.t, D.a.toRows)) =
    .ok ([[0], [1/4], [1]], [[1/8], [1/8], [3/8]], [0, 2, 4], []) := by decide +kernel

example : (postQ ocpQ [1, 1] [1/2, 1/2] zQ true >>= fun p => do
    return (← p.getData [0] false).x.toRows) = .ok [[0], [1/2], [2]] := by decide +kernel

/-- Interpolated: 99 points. -/
example : (postQ ocpQ [1, 1] [1/2, 1/2] zQ false >>= fun p => do
    let D ← p.getData [0] true
    return (D.x.rows, D.t.length, [D.x.toRows.getD 0 [], D.x.toRows.getD 98 [], D.x.toRows.getD 49 []],
      D.t.getD 50 0)) = .ok (99, 99, [[0], [1], [1/4]], 2 + 2/49) := by decide +kernel

/-- `C25_round_trip` applies to two phases requested in reverse order, with any trajectory. -/
example (T : Traj ℚ) : ∃ (p : Post ℚ) (M : Mesh ℚ) (D : PostData ℚ), 2 ≤ p.solved.disc.ocp.nPhases ∧
    M.orders = [1, 2] ∧ p.getData [1, 0] false = .ok D ∧
    D.t = M.nodeTimes T 1 ++ M.nodeTimes T 0 ∧ D.a.toRows = [[T.a 1 0], [T.a 0 0]] := by
  obtain ⟨d, M, -, h, he, ho, -⟩ := exampleDisc2
  obtain ⟨-, hv, hs, hsc⟩ := ocpQ2_ready
  rw [← he] at hv hs hsc
  obtain ⟨D, h1, -, -, h4, h5⟩ := C25_round_trip
    (p := ⟨⟨d, d.ocp.packWidths M.orders.length T, [], 0, d.ocp.packVec M.N T⟩, false, []⟩) h hv
    (fun s hs => (hsc.x s hs).ne') (fun s hs => (hsc.u s hs).ne') (fun s hs => (hsc.a s hs).ne') hsc.t.ne'
    T rfl rfl [1, 0] (by simp) (by simp [he, ocpQ2])
  refine ⟨_, M, D, by rw [he]; decide, ho, h1, by simpa using h4, ?_⟩
  have h1 : ∀ ph, paramRows d.ocp T false ph = [[T.a ph 0]] := fun ph =>
    C25_one_parameter _ _ _ (by rw [he]; rfl) (by rw [he]; simp [ocpQ2])
  rw [h5]
  simp [h1]

/-- Two parameters between 0 and 1, with scales 1 and 2. -/
def ocpA : OCP ℚ :=
  { ocpQ with na := 2, scaleA := [1, 2], a0 := [[0, 0]], lba := [[.fin 0, .fin 0]], uba := [[.fin 1, .fin 1]] }

/-- Both parameters 1: 1 and 2 when scaled. -/
def zA : List ℚ := zQ ++ [1, 2]

/-- **C24 and C25 are false for two parameters**: a point within all bounds whose parameters are both 1 is returned
as a 2 by 2 table with the entry 2, which is outside the bounds. -/
theorem C24_parameters_false : ocpA.validate = .ok () ∧
    (postQ ocpA [1, 1] [1/2, 1/2] zA false >>= fun p => do
      let nlp ← p.solved.disc.createNlp
      return (holdsB p.solved.z nlp.lbx nlp.ubx, (← p.getData [0] false).a.toRows)) =
    .ok (true, [[1, 1/2], [2, 1]]) := by decide +kernel

/-- With `scaling=True` the same parameters come back as one column. -/
example : (postQ ocpA [1, 1] [1/2, 1/2] zA true >>= fun p => do
    return (← p.getData [0] false).a.toRows) = .ok [[1], [2]] := by decide +kernel

/-- `C26_increasing` has a concrete instance. -/
example : ∃ (M : Mesh ℚ) (T : Traj ℚ), M.Good ∧ M.tau0 < M.tau1 ∧ T.t0 0 < T.tf 0 ∧ M.orders = [1, 1] ∧
    ∀ s < M.orders.length, 0 < T.w s 0 := by
  obtain ⟨e, M, -, -, hr, ho, h0, h1, -⟩ := solvedQ_ready
  exact ⟨M, ⟨fun _ _ _ => 0, fun _ _ _ => 0, fun _ => 0, fun _ => 1, fun _ _ => 0, fun _ _ => 1 / 2⟩,
    hr.mesh.good, by rw [h0, h1]; norm_num, by norm_num, ho, fun _ _ => by norm_num⟩

end MPOpt
