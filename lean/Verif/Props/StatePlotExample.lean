import Verif.Props.StatePlot

/-! # C91: concrete cases -/

set_option autoImplicit false

namespace MPOpt

/-- Two phases on two segments of order 1 each. -/
def solvedQ11 : Py (Solved ℚ) := solvedQ ocpQ2 [1, 1] [1/2, 1/2, 1/2, 1/2] ["mid-points", "mid-points"] 15 zQ11

/-- Times, integrated states, residuals and controls of a phase. -/
structure StateView where
  t : List (Option (List ℚ))
  x : List (Option (List (List ℚ)))
  res : List (Option (List (List ℚ)))
  u : List (Option (List (List ℚ)))
  deriving DecidableEq

def viewState (out : List (Option (List (Solved.StateRes ℚ) × List (SegResidual ℚ)))) : List (Option StateView) :=
  out.map (Option.map fun p => ⟨p.1.map (·.t), p.1.map (·.x), p.1.map (·.res), p.2⟩)

theorem solvedQ11_ready : ∃ (e : Solved ℚ) (M : Mesh ℚ), solvedQ11 = .ok e ∧ e.Ready M ∧ M.orders = [1, 1] ∧
    e.disc.ocp = ocpQ2 ∧ e.gridType = ["mid-points", "mid-points"] := by
  obtain ⟨d, M, h1, h2, h3, h4, -⟩ := C43_lgr_setup libQ .numerical (-1) 1 (by norm_num) ocpQ2
    [1, 1] (by simp) (by simp) (by
      intro p hp h2
      simp only [List.mem_cons, List.not_mem_nil, or_false, or_self] at hp
      omega)
  obtain ⟨-, hv, hs, hsc⟩ := ocpQ2_ready
  have hd := h3
  rw [← h3] at hv hs hsc
  let e : Solved ℚ := ⟨d, [1/2, 1/2, 1/2, 1/2], ["mid-points", "mid-points"], 15, zQ11⟩
  have he : solvedQ11 = .ok e := by
    unfold solvedQ11 solvedQ
    rw [show ([1, 1] : List Nat).length = [1, 1].length from rfl, h1]; rfl
  have hc : (solvedQ11 >>= fun e => return (e.disc.allVars.length, e.disc.widthParams.length) : Py (Nat × Nat)) =
      .ok (24, 4) := by decide +kernel
  rw [he, py_bind_ok, py_pure_eq_ok] at hc
  simp only [Prod.mk.injEq] at hc
  exact ⟨e, M, he, ⟨h2, hv, by rw [hc.1]; rfl, by rw [hc.2]; rfl, fun s hs => (hsc.x s hs).ne',
    fun s hs => (hsc.u s hs).ne', fun s hs => (hsc.a s hs).ne'⟩, h4, hd, rfl⟩

/-- Points for phase 1 only; one segment has two, the other none. -/
def nodesQ1 : List (List (List ℚ)) := [[], [[-1/2, 1/2], []]]

/-- One point in every segment. -/
def nodesQ2 : List (List (List ℚ)) := [[[0], [0]], [[0], [0]]]

/-- The hypotheses of `C91_chosen` are met: phase 1 of two, given points for it alone. -/
theorem C91_chosen_example : ∃ (e : Solved ℚ) (M : Mesh ℚ), solvedQ11 = .ok e ∧ e.Ready M ∧
    (∀ ph ∈ [1], ph < e.disc.ocp.nPhases) ∧ (∀ ph ∈ [1], HasGrid M nodesQ1 ph) ∧
    (∀ ph ∈ [1], e.disc.ocp.dynamics[ph]? = some ⟨1, fun p _ => p.u.getD 1 0 + p.t⟩) := by
  obtain ⟨e, M, he, hr, ho, hocp, -⟩ := solvedQ11_ready
  refine ⟨e, M, he, hr, ?_, ?_, ?_⟩
  · intro ph hph
    obtain rfl := List.mem_singleton.1 hph
    rw [hocp]; decide
  · intro ph hph
    obtain rfl := List.mem_singleton.1 hph
    exact ⟨_, rfl, by rw [ho]; rfl⟩
  · intro ph hph
    obtain rfl := List.mem_singleton.1 hph
    rw [hocp]; rfl

/-- Its results: nothing for phase 0, nothing for the segment without points. -/
theorem C91_chosen_values :
    (solvedQ11 >>= fun e => do return viewState (← e.stateResidualsOf (some [1]) (some nodesQ1) false)) =
      .ok [none, some ⟨[some [9/8, 11/8], none], [some [[401/64], [441/64]], none], [some [[15/64], [39/64]], none],
        [some [[1, 0], [1, 0]], none]⟩] := by decide +kernel

/-- By default every phase has the mid-points of its own grid: the results for phase 1 alone, absolute and relative. -/
theorem C91_default_values :
    (solvedQ11 >>= fun e => do return viewState (← e.stateResidualsOf (some [1]) none false)) =
      .ok [none, some ⟨[some [5/4], some [7/4]], [some [[53/8]], some [[71/8]]], [some [[3/8]], some [[1/8]]],
        [some [[1, 0]], some [[1, 0]]]⟩] ∧
    (solvedQ11 >>= fun e => do return viewState (← e.stateResidualsOf (some [1]) none true)) =
      .ok [none, some ⟨[some [5/4], some [7/4]], [some [[53/8]], some [[71/8]]], [some [[3/71]], some [[1/71]]],
        [some [[1, 0]], some [[1, 0]]]⟩] := by
  constructor <;> decide +kernel

/-- The hypotheses of `C91_out_of_range` are met: phase 2 of two, after phase 1. -/
theorem C91_out_of_range_example :
    (solvedQ11 >>= fun e => e.stateResidualsOf (some [1, 2]) none false).isOk = false ∧
    ∃ e out, solvedQ11 = .ok e ∧ e.stateResidualsOf (some [1]) none false = .ok out ∧
      ((none : Option (List (List (List ℚ)))).map List.length).getD e.gridType.length ≤ 2 := by
  refine ⟨by decide +kernel, ?_⟩
  obtain ⟨e, M, he, -, -, -, hg⟩ := solvedQ11_ready
  have h := C91_default_values.1
  rw [he, py_bind_ok] at h
  simp only [py_bind_eq_ok, py_pure_eq_ok] at h
  obtain ⟨out, h, -⟩ := h
  exact ⟨e, out, he, h, by rw [hg]; decide⟩

/-- The hypotheses of `C91_relative` are met: in phase 0 the integrated states at the points are 1/2 and 5/2. -/
theorem C91_relative_example : ∃ (e : Solved ℚ) (M : Mesh ℚ), solvedQ11 = .ok e ∧ e.Ready M ∧ HasGrid M nodesQ2 0 ∧
    ∃ F, e.disc.ocp.dynamics[0]? = some F ∧ ∀ j < e.disc.ocp.nx, (0 : ℚ) < 5/2 ∧
      IsGreatest {v | ∃ s < M.orders.length, ∃ tau ∈ (nodesQ2.getD 0 []).getD s [],
        v = |e.disc.ocp.scaleX.getD j 0 * e.disc.ocp.integrated M e.traj F e.disc.colloc.method
          ((nodesQ2.getD 0 []).getD s []) 0 s tau j|} (5/2) := by
  obtain ⟨e, M, he, hr, ho, hocp, -⟩ := solvedQ11_ready
  have hg : HasGrid M nodesQ2 0 := ⟨_, rfl, by rw [ho]; rfl⟩
  have hF : e.disc.ocp.dynamics[0]? = some ⟨1, fun p _ => p.u.getD 0 0⟩ := by rw [hocp]; rfl
  have hspec := stateOne_spec hr (by rw [hocp]; decide) hg hF
  have hval : (solvedQ11 >>= fun e => do return (← e.stateOne (some nodesQ2) false 0).map (·.x)) =
      .ok [some [[1/2]], some [[5/2]]] := by decide +kernel
  rw [he, py_bind_ok, hspec, py_bind_ok, py_pure_eq_ok, ho] at hval
  have hnx : e.disc.ocp.nx = 1 := by rw [hocp]; rfl
  have hr2 : List.range ([1, 1] : List Nat).length = [0, 1] := rfl
  rw [hr2] at hval
  simp only [Solved.stateSeg, hnx, nodesQ2, List.map_cons, List.map_nil, List.getD_cons_zero, List.getD_cons_succ,
    List.length_cons, List.length_nil, Nat.reduceAdd, one_ne_zero, if_false, List.range_one, List.cons.injEq,
    Option.some.injEq, and_true] at hval
  obtain ⟨v0, v1⟩ := hval
  refine ⟨e, M, he, hr, hg, _, hF, fun j hj => ⟨by norm_num, ?_, ?_⟩⟩
  · rw [hnx] at hj
    obtain rfl : j = 0 := by omega
    refine ⟨1, by rw [ho]; decide, 0, by simp [nodesQ2], ?_⟩
    show _ = |_ * e.disc.ocp.integrated M e.traj _ _ [0] 0 1 0 0|
    rw [v1]; norm_num
  · rw [hnx] at hj
    obtain rfl : j = 0 := by omega
    rintro v ⟨s, hs, tau, ht, rfl⟩
    rw [ho] at hs
    have : s = 0 ∨ s = 1 := by simp at hs; omega
    rcases this with rfl | rfl
    · have : tau = 0 := by simpa [nodesQ2] using ht
      subst this
      show |_ * e.disc.ocp.integrated M e.traj _ _ [0] 0 0 0 0| ≤ _
      rw [v0]; norm_num
    · have : tau = 0 := by simpa [nodesQ2] using ht
      subst this
      show |_ * e.disc.ocp.integrated M e.traj _ _ [0] 0 1 0 0| ≤ _
      rw [v1]; norm_num

/-- Relative state residuals need not lie in [-1, 1]: with `x = 0, 20, 40` the first is 19. -/
theorem C91_relative_large :
    (solvedQ ocpQ2 [1, 1] [1/2, 1/2, 1/2, 1/2] ["mid-points", "mid-points"] 15
      ([0, 20, 40, 1, 1, 1, 0, 0, 0, 0, 5, 0] ++ [6, 8, 10, 1, 1, 1, 0, 0, 0, 5, 10, 0]) >>= fun e => do
        return viewState (← e.stateResidualsOf (some [0]) (some [[[0], []]]) true)) =
      .ok [some ⟨[some [1/4], none], [some [[1/2]], none], [some [[19]], none], [some [[1, 0]], none]⟩, none] := by
  decide +kernel

/-- The hypotheses of `C91_plot` are met, for two phases with one point in every segment, and this is drawn. -/
theorem C91_plot_example :
    (∃ (e : Solved ℚ) (M : Mesh ℚ), solvedQ11 = .ok e ∧ e.Ready M ∧ (∀ ph, ph ∈ [1, 0] ↔ ph < e.disc.ocp.nPhases) ∧
      GridShape M e.disc.ocp.nPhases nodesQ2 ∧ (∀ g ∈ nodesQ2, ∀ x ∈ g, x ≠ []) ∧
      ∃ m, ∀ g ∈ nodesQ2, ∀ x ∈ g, x.length = m) ∧
    (solvedQ11 >>= fun e => do return (← e.statePlot normOne (some [1, 0]) (some nodesQ2) false none).2) =
      .ok ⟨[⟨[1/4, 3/4, 5/4, 7/4], [1/2, 1/2, 3/8, 1/8], ".", none⟩,
        ⟨[1/4, 3/4, 5/4, 7/4], [1/2, 1/2, 3/8, 1/8], "-", none⟩], some "Time, s", some "residuals", false⟩ := by
  refine ⟨?_, by decide +kernel⟩
  obtain ⟨e, M, he, hr, ho, hocp, -⟩ := solvedQ11_ready
  refine ⟨e, M, he, hr, ?_, ?_, by decide, 1, by decide⟩
  · intro ph
    have : e.disc.ocp.nPhases = 2 := by rw [hocp]; rfl
    rw [this]
    simp
    omega
  · rw [hocp]
    refine ⟨rfl, ?_⟩
    rw [ho]
    decide

/-- A phase left out, or a segment without points: the results are there without the plot, with it an exception is raised. -/
theorem C91_plot_refused :
    (solvedQ11 >>= fun e => e.stateResidualsOf (some [1]) none false).isOk = true ∧
    (solvedQ11 >>= fun e => do return (← e.statePlot normOne (some [1]) none false none).2) = .error .type ∧
    (solvedQ11 >>= fun e => do return (← e.statePlot normOne (some [0]) none false none).2) = .error .type ∧
    (solvedQ11 >>= fun e => e.stateResidualsOf none (some [[[-1/2, 1/2], []], [[-1/2, 1/2], []]]) false).isOk = true ∧
    (solvedQ11 >>= fun e => do
      return (← e.statePlot normOne none (some [[[-1/2, 1/2], []], [[-1/2, 1/2], []]]) false none).2) = .error .value := by
  refine ⟨?_, ?_, ?_, ?_, ?_⟩ <;> decide +kernel

end MPOpt
