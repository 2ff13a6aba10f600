import Verif.Props.SecondPlot
import Verif.Props.StatePlotExample

/-! # C93: concrete cases -/

set_option autoImplicit false

open Polynomial

namespace MPOpt

/-- Two phases on one segment of order 2, with states and controls that bend. -/
def zQBend : List ℚ := [0, 1, 5, 1, 2, 5, 0, 5, 0, 0, 5, 0] ++ [5, 2, 3, 0, 3, 0, 1, 5, 1, 5, 10, 0]

def solvedQBend : Py (Solved ℚ) := solvedQ ocpQ2 [2] [1, 1] ["mid-points", "mid-points"] 15 zQBend

theorem solvedQBend_ready : ∃ (e : Solved ℚ) (M : Mesh ℚ), solvedQBend = .ok e ∧ e.Ready M ∧ M.orders = [2] ∧
    e.disc.ocp = ocpQ2 := by
  obtain ⟨d, M, h1, h2, h3, h4, -⟩ := C43_lgr_setup libQ .numerical (-1) 1 (by norm_num) ocpQ2
    [2] (by simp) (by simp) (by
      intro p hp _
      obtain rfl := List.mem_singleton.1 hp
      exact libQ_lgr2)
  obtain ⟨-, hv, hs, hsc⟩ := ocpQ2_ready
  have hd := h3
  rw [← h3] at hv hs hsc
  let e : Solved ℚ := ⟨d, [1, 1], ["mid-points", "mid-points"], 15, zQBend⟩
  have he : solvedQBend = .ok e := by
    unfold solvedQBend solvedQ
    rw [show ([2] : List Nat).length = [2].length from rfl, h1]; rfl
  have hc : (solvedQBend >>= fun e => return (e.disc.allVars.length, e.disc.widthParams.length) : Py (Nat × Nat)) =
      .ok (24, 2) := by decide +kernel
  rw [he, py_bind_ok, py_pure_eq_ok] at hc
  simp only [Prod.mk.injEq] at hc
  exact ⟨e, M, he, ⟨h2, hv, by rw [hc.1]; rfl, by rw [hc.2]; rfl, fun s hs => (hsc.x s hs).ne',
    fun s hs => (hsc.u s hs).ne', fun s hs => (hsc.a s hs).ne'⟩, h4, hd⟩

/-- Results of a phase, segment by segment. -/
structure BendView where
  t : List ℚ
  x : List (List ℚ)
  u : List (List ℚ)
  deriving DecidableEq

def viewBend (out : List (SecondSeg ℚ)) : List (Option BendView) := out.map (Option.map fun p => ⟨p.1, p.2.1, p.2.2⟩)

/-- The hypotheses of `C93_relative` are met: one positive largest value with a far larger negative one, in phase 0, and a
negative largest value in phase 1. -/
theorem C93_relative_example : ∃ (e : Solved ℚ) (M : Mesh ℚ), solvedQBend = .ok e ∧ e.Ready M ∧ M.orders.length = 1 ∧
    1 < e.disc.ocp.nPhases ∧
    Largest [0] e.disc.ocp.nx (e.bendX M 0 0) (3/2) ∧ Largest [0] e.disc.ocp.nu (e.bendU M 0 0) (3/4) ∧
    Largest [0] e.disc.ocp.nx (e.bendX M 1 0) (21/4) ∧ Largest [0] e.disc.ocp.nu (e.bendU M 1 0) (-27/4) := by
  obtain ⟨e, M, he, hr, ho, hocp⟩ := solvedQBend_ready
  have hnx : e.disc.ocp.nx = 1 := by rw [hocp]; rfl
  have hnu : e.disc.ocp.nu = 2 := by rw [hocp]; rfl
  have hp : e.disc.ocp.nPhases = 2 := by rw [hocp]; rfl
  have hl : ([[0]] : List (List ℚ)).length = M.orders.length := by rw [ho]; rfl
  have v0 : (solvedQBend >>= fun e => do return viewBend (← e.secondPhase 0 (some [[0]]))) =
      .ok [some ⟨[1/2], [[3/2]], [[3/4, -45/4]]⟩] := by decide +kernel
  have v1 : (solvedQBend >>= fun e => do return viewBend (← e.secondPhase 1 (some [[0]]))) =
      .ok [some ⟨[3/2], [[21/4]], [[-27/4, -9]]⟩] := by decide +kernel
  rw [he, py_bind_ok, secondPhase_closed hr (by omega) hl, py_bind_ok, py_pure_eq_ok, ho, hnx, hnu] at v0 v1
  simp only [viewBend, List.range_succ, List.range_zero, List.nil_append, List.cons_append, List.length_cons, List.length_nil,
    Nat.reduceAdd, List.map_cons, List.map_nil, List.getD_cons_zero, one_ne_zero, if_false, Option.map_some, List.cons.injEq,
    Option.some.injEq, BendView.mk.injEq, and_true] at v0 v1
  have one : ∀ {b : ℚ → Nat → ℚ} {m : ℚ}, b 0 0 = m → Largest [0] 1 b m := by
    intro b m h
    refine ⟨?_, 0, by simp, 0, by omega, h⟩
    intro tau ht j hj
    obtain rfl := List.mem_singleton.1 ht
    obtain rfl : j = 0 := by omega
    exact h.le
  have two : ∀ {b : ℚ → Nat → ℚ} {m : ℚ}, b 0 0 = m → b 0 1 ≤ m → Largest [0] 2 b m := by
    intro b m h h'
    refine ⟨?_, 0, by simp, 0, by omega, h⟩
    intro tau ht j hj
    obtain rfl := List.mem_singleton.1 ht
    interval_cases j
    · exact h.le
    · exact h'
  refine ⟨e, M, he, hr, by rw [ho]; rfl, by omega, ?_⟩
  rw [hnx, hnu]
  obtain ⟨-, a1, a2, a3⟩ := v0
  obtain ⟨-, b1, b2, b3⟩ := v1
  exact ⟨one a1, two a2 (a3.le.trans (by norm_num)), one b1, two b2 (b3.le.trans (by norm_num))⟩

/-- The relative values: -15, though the largest is 1; and 4/3, with a negative largest value. -/
theorem C93_relative_values :
    (solvedQBend >>= fun e => do return viewBend (← e.secondRelative 0 (some [[0]]))) = .ok [some ⟨[1/2], [[1]], [[1, -15]]⟩] ∧
    (solvedQBend >>= fun e => do return viewBend (← e.secondRelative 1 (some [[0]]))) = .ok [some ⟨[3/2], [[1]], [[1, 4/3]]⟩] := by
  constructor <;> decide +kernel

/-- The hypotheses of `C93_relative_zero` are met on segments of order 1, where states and controls are straight lines. -/
theorem C93_relative_zero_example : (∃ (e : Solved ℚ) (M : Mesh ℚ), solvedQ11 = .ok e ∧ e.Ready M ∧ M.orders.length = 2 ∧
      ∀ s < 2, ([[0], []] : List (List ℚ)).getD s [] ≠ [] →
        Largest (([[0], []] : List (List ℚ)).getD s []) e.disc.ocp.nx (e.bendX M 0 s) 0 ∧
        Largest (([[0], []] : List (List ℚ)).getD s []) e.disc.ocp.nu (e.bendU M 0 s) 0) ∧
    (solvedQ11 >>= fun e => do return viewBend (← e.secondRelative 0 (some [[0], []]))) = .error .nonFinite := by
  refine ⟨?_, by decide +kernel⟩
  obtain ⟨e, M, he, hr, ho, hocp, -⟩ := solvedQ11_ready
  have hnx : e.disc.ocp.nx = 1 := by rw [hocp]; rfl
  have hnu : e.disc.ocp.nu = 2 := by rw [hocp]; rfl
  have hp : e.disc.ocp.nPhases = 2 := by rw [hocp]; rfl
  have hl : ([[0], []] : List (List ℚ)).length = M.orders.length := by rw [ho]; rfl
  have v : (solvedQ11 >>= fun e => do return viewBend (← e.secondPhase 0 (some [[0], []]))) =
      .ok [some ⟨[1/4], [[0]], [[0, 0]]⟩, none] := by decide +kernel
  rw [he, py_bind_ok, secondPhase_closed hr (by omega) hl, py_bind_ok, py_pure_eq_ok, ho, hnx, hnu] at v
  simp only [viewBend, List.range_succ, List.range_zero, List.nil_append, List.cons_append, List.length_cons, List.length_nil,
    Nat.reduceAdd, List.map_cons, List.map_nil, List.getD_cons_zero, List.getD_cons_succ, one_ne_zero, if_false, if_true,
    Option.map_some, Option.map_none, List.cons.injEq, Option.some.injEq, BendView.mk.injEq, and_true] at v
  obtain ⟨-, a1, a2, a3⟩ := v
  refine ⟨e, M, he, hr, by rw [ho]; rfl, ?_⟩
  intro s hs hne
  obtain rfl : s = 0 := by
    interval_cases s
    · rfl
    · exact absurd rfl hne
  rw [hnx, hnu]
  refine ⟨⟨?_, 0, by simp, 0, by omega, a1⟩, ⟨?_, 0, by simp, 0, by omega, a2⟩⟩ <;> intro tau ht j hj <;>
    obtain rfl : tau = 0 := by simpa using ht
  · obtain rfl : j = 0 := by omega
    exact a1.le
  · interval_cases j
    · exact a2.le
    · exact a3.le

/-- Drawable and not. -/
theorem C93_plot_example : ∃ (e : Solved ℚ) (M : Mesh ℚ), solvedQBend = .ok e ∧ e.Ready M ∧ 0 < e.disc.ocp.nPhases ∧
    (GridShape M e.disc.ocp.nPhases [[[0, 1/2]], [[0, 1/2]]] ∧ Drawable e.disc.ocp.nPhases [[[0, 1/2]], [[(0 : ℚ), 1/2]]]) ∧
    (GridShape M e.disc.ocp.nPhases [[[0, 1/2]], [[0]]] ∧ ¬ Drawable e.disc.ocp.nPhases [[[0, 1/2]], [[(0 : ℚ)]]]) ∧
    (GridShape M e.disc.ocp.nPhases [[[0, 1/2]], [[]]] ∧ ¬ Drawable e.disc.ocp.nPhases [[[(0 : ℚ), 1/2]], [[]]]) := by
  obtain ⟨e, M, he, hr, ho, hocp⟩ := solvedQBend_ready
  have hp : e.disc.ocp.nPhases = 2 := by rw [hocp]; rfl
  refine ⟨e, M, he, hr, by omega, ?_, ?_, ?_⟩ <;> rw [hp] <;> refine ⟨⟨rfl, by rw [ho]; simp⟩, ?_⟩
  · exact ⟨by simp, Or.inr ⟨2, by simp⟩⟩
  · rintro ⟨-, h | ⟨m, h⟩⟩
    · omega
    · simp at h; omega
  · rintro ⟨h, -⟩
    simp at h

/-- What is drawn, with the sum for the norm, and the two refusals. -/
theorem C93_plot_values :
    (solvedQBend >>= fun e => do return (← e.secondPlot List.sum (some [[[0, 1/2]], [[0, 1/2]]]) none none).2) =
      .ok ⟨[⟨[1/2, 3/4, 3/2, 7/4], [3/2, 3/2, 21/4, 21/4], ".", none⟩, ⟨[1/2, 3/4, 3/2, 7/4], [3/2, 3/2, 21/4, 21/4], "-", none⟩],
        some "Time, s", some "residuals", false⟩ ∧
    (solvedQBend >>= fun e => do return (← e.secondPlot List.sum (some [[[0, 1/2]], [[0]]]) none none).2) = .error .value ∧
    (solvedQBend >>= fun e => do return (← e.secondPlot List.sum (some [[[0, 1/2]], [[]]]) none none).2) = .error .value := by
  refine ⟨?_, ?_, ?_⟩ <;> decide +kernel

/-- The figure of `interpolate_single_phase`: three node values and two interpolated ones of each component. -/
theorem C93_interpolate_values :
    (solvedQBend >>= fun e => do return (← e.interpolatePlot 1 (some [[0, 1/2]])).2) = .ok (.many
      [⟨[⟨[1, 4/3, 2], [5, 2, 3], ".", some "state 1"⟩, ⟨[3/2, 7/4], [11/8, 49/32], "-", none⟩], none, some "State variables", true⟩,
       ⟨[⟨[1, 4/3, 2], [0, 3, 0], ".", some "control 1"⟩, ⟨[1, 4/3, 2], [1, 5, 1], ".", some "control 2"⟩,
         ⟨[3/2, 7/4], [27/8, 81/32], "-", none⟩, ⟨[3/2, 7/4], [11/2, 35/8], "-", none⟩],
        some "Time, s", some "Control variables", true⟩]) := by
  decide +kernel

end MPOpt
