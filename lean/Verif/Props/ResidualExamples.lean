import Verif.Props.Residuals

/-! # Concrete residuals: hypotheses are met, and the claims that are false -/

set_option autoImplicit false

namespace MPOpt

/-- Executable form of `Holds`. -/
def holdsB (g : List ℚ) (lo hi : List (Ext ℚ)) : Bool :=
  g.length == lo.length && g.length == hi.length &&
    (List.zip g (List.zip lo hi)).all fun p =>
      (match p.2.1 with | .ninf => true | .fin a => decide (a ≤ p.1) | _ => false) &&
      (match p.2.2 with | .pinf => true | .fin a => decide (p.1 ≤ a) | _ => false)

theorem holds_of_holdsB {g : List ℚ} {lo hi : List (Ext ℚ)} (h : holdsB g lo hi = true) :
    Holds g lo hi := by
  simp only [holdsB, Bool.and_eq_true, beq_iff_eq, List.all_eq_true] at h
  obtain ⟨⟨h1, h2⟩, h3⟩ := h
  refine ⟨h1, h2, fun i v l u hv hl hu => ?_⟩
  have := h3 (v, l, u) (List.mem_of_getElem? (i := i) (by
    rw [List.getElem?_zip_eq_some]
    exact ⟨hv, by rw [List.getElem?_zip_eq_some]; exact ⟨hl, hu⟩⟩))
  obtain ⟨a, b⟩ := this
  constructor
  · cases l <;> simp_all [Ext.Below]
  · cases u <;> simp_all [Ext.Above]

/-- A problem with its discretisation, widths and solution vector, over ℚ. -/
def solvedQ (ocp : OCP ℚ) (orders : List Nat) (widths : List ℚ) (gridType : List String) (maxGrid : Nat)
    (z : List ℚ) : Py (Solved ℚ) := do
  let d ← mkDisc libQ .numerical (-1) 1 ocp orders.length orders "LGR"
  return ⟨d, widths, gridType, maxGrid, z⟩

/-- `x' = u` on two segments of order 1 from `x = 0` at `t = 0` to `x = 1` at `t = 4`: states 0, 1/4, 1
(scaled by 2), controls 1/8, 1/8, 3/8. -/
def zQ : List ℚ := [0, 1/2, 2, 1/8, 1/8, 3/8, 0, 4]

/-- The hypotheses of the residual theorems are met by that point. -/
theorem solvedQ_ready : ∃ (e : Solved ℚ) (M : Mesh ℚ) (nlp : Disc.NLP ℚ),
    solvedQ ocpQ [1, 1] [1/2, 1/2] ["mid-points"] 2 zQ = .ok e ∧ e.Ready M ∧ M.orders = [1, 1] ∧
      M.tau0 = -1 ∧ M.tau1 = 1 ∧ e.disc.ocp.SettingsOK ∧ e.disc.ocp.PosScales ∧
      e.disc.createNlp = .ok nlp ∧ nlp.Feasible (e.disc.envOf e.z e.widths) := by
  obtain ⟨d, M, h1, h2, h3, h4, h5, h6, -⟩ := C43_lgr_setup libQ .numerical (-1) 1 (by norm_num) ocpQ
    [1, 1] (by simp) (by simp) (by
      intro p hp h2
      simp only [List.mem_cons, List.not_mem_nil, or_false, or_self] at hp
      omega)
  obtain ⟨hv, hs, hsc⟩ := ocpQ_ready
  rw [← h3] at hv hs hsc
  obtain ⟨nlp, hn, -⟩ := C14_feasible_iff h2 hv hs hsc
  let e : Solved ℚ := ⟨d, [1/2, 1/2], ["mid-points"], 2, zQ⟩
  have hcomp : (do
      let e ← solvedQ ocpQ [1, 1] [1/2, 1/2] ["mid-points"] 2 zQ
      let nlp ← e.disc.createNlp
      let σ := e.disc.envOf e.z e.widths
      return (e.disc.allVars.length, e.disc.widthParams.length,
        holdsB (nlp.x.map σ) nlp.lbx nlp.ubx, holdsB (evalAll nlp.g σ) nlp.lbg nlp.ubg) :
      Py (Nat × Nat × Bool × Bool)) = .ok (8, 2, true, true) := by decide +kernel
  have he : solvedQ ocpQ [1, 1] [1/2, 1/2] ["mid-points"] 2 zQ = .ok e := by
    unfold solvedQ
    rw [show ([1, 1] : List Nat).length = [1, 1].length from rfl, h1]; rfl
  rw [he, py_bind_ok, show e.disc.createNlp = .ok nlp from hn, py_bind_ok, py_pure_eq_ok] at hcomp
  simp only [Prod.mk.injEq] at hcomp
  obtain ⟨c1, c2, c3, c4⟩ := hcomp
  refine ⟨e, M, nlp, he, ⟨h2, hv, by rw [c1]; rfl, by rw [c2]; rfl, fun s hs => (hsc.x s hs).ne',
    fun s hs => (hsc.u s hs).ne', fun s hs => (hsc.a s hs).ne'⟩, h4, h5, h6, hs, hsc, hn,
    holds_of_holdsB c3, holds_of_holdsB c4⟩

/-- Zero at the nodes each segment owns, as C29 says. -/
example : (solvedQ ocpQ [1, 1] [1/2, 1/2] ["mid-points"] 2 zQ >>= fun e =>
    e.dynResiduals (some [[[-1, 1], [1]]]) none false) =
    .ok [([[0, 2], [4]], [some [[0], [0]], some [[0]]])] := by decide +kernel

/-- **C29 is false at a shared node seen from its right segment**: the same feasible point has residual 1/2
there, because only the left segment collocates it. -/
theorem C29_shared_node_from_right_false : ∃ (e : Solved ℚ) (M : Mesh ℚ) (nlp : Disc.NLP ℚ)
    (res : List (List (List ℚ) × List (SegResidual ℚ))), e.Ready M ∧
    e.disc.createNlp = .ok nlp ∧ nlp.Feasible (e.disc.envOf e.z e.widths) ∧ M.tau0 = -1 ∧
    e.dynResiduals (some [[[], [-1]]]) none false = .ok res ∧
      res = [([[], [2]], [none, some [[1/2]]])] := by
  obtain ⟨e, M, nlp, he, hr, -, h0, -, -, -, hn, hf⟩ := solvedQ_ready
  have : (solvedQ ocpQ [1, 1] [1/2, 1/2] ["mid-points"] 2 zQ >>= fun e =>
    e.dynResiduals (some [[[], [-1]]]) none false) =
    .ok [([[], [2]], [none, some [[1/2]]])] := by decide +kernel
  rw [he, py_bind_ok] at this
  exact ⟨e, M, nlp, _, hr, hn, hf, h0, this, rfl⟩

/-- A non-feasible point: controls far from the slope. -/
def zBad : List ℚ := [0, 1/2, 2, 1/100, 1/100, 1/100, 0, 4]

/-- **C45 is false**: `residual_type="relative"` can raise `AssertionError`. -/
theorem C45_false : (solvedQ ocpQ [1, 1] [1/2, 1/2] ["mid-points"] 2 zBad >>= fun e =>
    e.dynResiduals none none true) = .error .assertion := by decide +kernel

/-- The same request for the feasible point succeeds. -/
example : (solvedQ ocpQ [1, 1] [1/2, 1/2] ["mid-points"] 2 zQ >>= fun e =>
    e.dynResiduals none none true) =
    .ok [([[1], [3]], [some [[0]], some [[1/2]]])] := by decide +kernel

/-- Two phases with different grid types. -/
def zQ2 : List ℚ :=
  [0, 2, 4, 6, 1, 1, 1, 1, 0, 0, 0, 0, 0, 5, 0] ++ [6, 8, 10, 12, 1, 1, 1, 1, 0, 0, 0, 0, 5, 10, 0]

/-- **C30 is false**: with grid types `mid-points` and `spectral`, phase 1 is evaluated at the mid-points of
phase 0's setting (six points), not on its own spectral grid. -/
theorem C30_false : (solvedQ ocpQ2 [1, 2] [1/2, 1/2, 1/2, 1/2] ["mid-points", "spectral"] 0 zQ2 >>= fun e => do
      return ((← e.dynResiduals none none false).map (·.1),
        (← (List.range 2).mapM fun ph => do
          phaseResult e false ph (← e.residualGrid ph (some (← pyIdx e.gridType ph)))).map (·.1))) =
    .ok ([[[1/4], [7/12, 5/6]], [[5/4], [19/12, 11/6]]],
      [[[1/4], [7/12, 5/6]], [[7/6], [5/3]]]) := by decide +kernel

end MPOpt
