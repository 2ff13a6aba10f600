import Verif.Props.DefaultGrid
import Verif.Props.ResidualExamples
import Verif.Model.AdaptSession
import Verif.Model.HSession

/-! # Concrete cases for the default grids, and what `process_results` stores for every class -/

set_option autoImplicit false

namespace MPOpt

/-- **C30 is false**, as a difference between two requests: with grid types `mid-points` and `spectral`, the default
request does not give for phase 1 what a request for `spectral` gives. -/
theorem C30_requests_differ : (solvedQ ocpQ2 [1, 2] [1/2, 1/2, 1/2, 1/2] ["mid-points", "spectral"] 0 zQ2 >>= fun e => do
      let a ← e.dynResiduals none none false
      let b ← e.dynResiduals none (some "spectral") false
      return (decide (a[1]? = b[1]?), e.gridType[1]?)) = .ok (false, some "spectral") := by decide +kernel

/-- `x' = u` from 0 to 1 on two segments of order 2, with slopes 1/8 and 3/8. -/
def zKink : List ℚ := [0, 1/6, 1/2, 1, 2, 1/8, 1/8, 1/8, 3/8, 3/8, 0, 4]

/-- A case of `C65_spectral_false` whose trajectory violates the dynamics: with `_MAX_GRID_POINTS = 0` and orders 2, the
spectral grid reports residual zero for a point with residual 5/24 at a mid-point. -/
theorem C65_blind_example : ∃ (e : Solved ℚ) (M : Mesh ℚ) (nlp : Disc.NLP ℚ),
    solvedQ ocpQ [2, 2] [1/2, 1/2] ["spectral"] 0 zKink = .ok e ∧ e.Ready M ∧ e.disc.ocp.SettingsOK ∧
      e.disc.ocp.PosScales ∧ e.disc.createNlp = .ok nlp ∧ nlp.Feasible (e.disc.envOf e.z e.widths) ∧
      (∀ p ∈ M.orders, p = e.maxGrid + 2) ∧
      e.dynResiduals none (some "spectral") false = .ok [([[2/3], [8/3]], [some [[0]], some [[0]]])] ∧
      e.dynResiduals none (some "mid-points") false =
        .ok [([[1/3, 4/3], [7/3, 10/3]], [some [[0], [0]], some [[5/24], [-1/6]]])] := by
  obtain ⟨d, M, h1, h2, h3, h4, h5, h6, -⟩ := C43_lgr_setup libQ .numerical (-1) 1 (by norm_num) ocpQ
    [2, 2] (by simp) (by simp) (by
      intro p hp h2
      simp only [List.mem_cons, List.not_mem_nil, or_false, or_self] at hp
      subst hp; exact libQ_lgr2)
  obtain ⟨hv, hs, hsc⟩ := ocpQ_ready
  rw [← h3] at hv hs hsc
  obtain ⟨nlp, hn, -⟩ := C14_feasible_iff h2 hv hs hsc
  let e : Solved ℚ := ⟨d, [1/2, 1/2], ["spectral"], 0, zKink⟩
  have hcomp : (do
      let e ← solvedQ ocpQ [2, 2] [1/2, 1/2] ["spectral"] 0 zKink
      let nlp ← e.disc.createNlp
      let σ := e.disc.envOf e.z e.widths
      return (e.disc.allVars.length, e.disc.widthParams.length,
        holdsB (nlp.x.map σ) nlp.lbx nlp.ubx, holdsB (evalAll nlp.g σ) nlp.lbg nlp.ubg) :
      Py (Nat × Nat × Bool × Bool)) = .ok (12, 2, true, true) := by decide +kernel
  have ha : (solvedQ ocpQ [2, 2] [1/2, 1/2] ["spectral"] 0 zKink >>= fun e =>
      e.dynResiduals none (some "spectral") false) =
      .ok [([[2/3], [8/3]], [some [[0]], some [[0]]])] := by decide +kernel
  have hb : (solvedQ ocpQ [2, 2] [1/2, 1/2] ["spectral"] 0 zKink >>= fun e =>
      e.dynResiduals none (some "mid-points") false) =
      .ok [([[1/3, 4/3], [7/3, 10/3]], [some [[0], [0]], some [[5/24], [-1/6]]])] := by decide +kernel
  have he : solvedQ ocpQ [2, 2] [1/2, 1/2] ["spectral"] 0 zKink = .ok e := by
    unfold solvedQ
    rw [show ([2, 2] : List Nat).length = [2, 2].length from rfl, h1]; rfl
  rw [he, py_bind_ok, show e.disc.createNlp = .ok nlp from hn, py_bind_ok, py_pure_eq_ok] at hcomp
  simp only [Prod.mk.injEq] at hcomp
  obtain ⟨c1, c2, c3, c4⟩ := hcomp
  rw [he, py_bind_ok] at ha hb
  refine ⟨e, M, nlp, he, ⟨h2, hv, by rw [c1]; rfl, by rw [c2]; rfl, fun s hs => (hsc.x s hs).ne',
    fun s hs => (hsc.u s hs).ne', fun s hs => (hsc.a s hs).ne'⟩, hs, hsc, hn,
    ⟨holds_of_holdsB c3, holds_of_holdsB c4⟩, ?_, ha, hb⟩
  rw [h4]
  intro p hp
  simp only [List.mem_cons, List.not_mem_nil, or_false, or_self] at hp
  subst hp; rfl

/-! ### C49 for every class -/

section
variable {K V : Type} [Field K] [LinearOrder K]

/-- The dictionary `residual_value` holds exactly what was requested, unless `residual_dx` was not. -/
structure StoredResiduals (e : Solved K) (rx rdx : Bool) (r : Option (PyDict (ResidVal K))) : Prop where
  /-- Nothing is stored without `residual_dx`. -/
  none_iff : r = none ↔ rdx = false
  /-- The dynamics residuals on the default grid. -/
  dx : ∀ d, r = some d → ∃ b, e.dynResiduals none none false = .ok b ∧ d.get? "t_dx" = some (.dynamics b)
  /-- The state residuals on the default grid, if requested. -/
  x : ∀ d, r = some d → rx = true → ∃ a, e.stateResiduals none false = .ok a ∧ d.get? "t_x" = some (.states a)
  /-- No state residuals otherwise. -/
  no_x : ∀ d, r = some d → rx = false → d.get? "t_x" = none

theorem storedResiduals {e : Solved K} {rx rdx : Bool} {r : Option (PyDict (ResidVal K))}
    (h : residValue rx rdx (e.stateResiduals none false) (e.dynResiduals none none false)
      ResidVal.states ResidVal.dynamics = .ok r) : StoredResiduals e rx rdx r := by
  cases rx <;> cases rdx
  · cases h
    exact ⟨by simp, by simp, by simp, by simp⟩
  · cases hb : e.dynResiduals none none false with
    | error err => rw [hb] at h; cases h
    | ok b =>
      rw [hb] at h; cases h
      refine ⟨by simp, ?_, by simp, ?_⟩
      · rintro d ⟨⟩; exact ⟨b, hb, rfl⟩
      · rintro d ⟨⟩ -; rfl
  · cases ha : e.stateResiduals none false with
    | error err => rw [ha] at h; cases h
    | ok a =>
      rw [ha] at h; cases h
      exact ⟨by simp, by simp, by simp, by simp⟩
  · cases ha : e.stateResiduals none false with
    | error err => rw [ha] at h; cases h
    | ok a =>
      cases hb : e.dynResiduals none none false with
      | error err => rw [ha, hb] at h; cases h
      | ok b =>
        rw [ha, hb] at h; cases h
        refine ⟨by simp, ?_, ?_, by simp⟩
        · rintro d ⟨⟩; exact ⟨b, hb, rfl⟩
        · rintro d ⟨⟩ -; exact ⟨a, ha, rfl⟩

/-- **C49** `process_results` of `mpopt`. -/
theorem C49_mpopt {w : Outside K V} {s : Session K V} {z : List K} {pl : List (List Nat)} {sc rx rdx : Bool}
    {p : Post K} {r : Option (PyDict (ResidVal K))} (h : s.processResults w z pl sc rx rdx = .ok (p, r)) :
    ∃ e, s.solved w z = .ok e ∧ mkPost e pl sc = .ok p ∧ StoredResiduals e rx rdx r := by
  unfold Session.processResults at h
  simp only [py_bind_eq_ok, py_pure_eq_ok] at h
  obtain ⟨e, he, r', hr, p', hp, hh⟩ := h
  cases hh
  exact ⟨e, he, hp, storedResiduals hr⟩

/-- **C49** `process_results` of `mpopt_adaptive`. -/
theorem C49_adaptive {w : Outside K V} {s : AdaptOpt K V} {pl : List (List Nat)} {sc rx rdx : Bool}
    {p : Post K} {r : Option (PyDict (ResidVal K))} (h : s.processResults w pl sc rx rdx = .ok (p, r)) :
    ∃ e, s.solved w = .ok e ∧ mkPost e pl sc = .ok p ∧ StoredResiduals e rx rdx r := by
  unfold AdaptOpt.processResults at h
  simp only [py_bind_eq_ok, py_pure_eq_ok] at h
  obtain ⟨e, he, r', hr, p', hp, hh⟩ := h
  cases hh
  exact ⟨e, he, hp, storedResiduals hr⟩

/-- **C49** `process_results` of `mpopt_h_adaptive`. -/
theorem C49_h_adaptive {w : HOutside K V} {s : HOpt K V} {sol : PyDict V} {pl : List (List Nat)} {sc rx rdx : Bool}
    {p : Post K} {r : Option (PyDict (ResidVal K))} (h : s.processResults w sol pl sc rx rdx = .ok (p, r)) :
    ∃ sw e, s.widths = some sw ∧ s.solvedAt w sol sw = .ok e ∧ mkPost e pl sc = .ok p ∧
      StoredResiduals e rx rdx r := by
  unfold HOpt.processResults at h
  split at h
  · cases h
  · rename_i sw hsw
    simp only [py_bind_eq_ok, py_pure_eq_ok] at h
    obtain ⟨e, he, r', hr, p', hp, hh⟩ := h
    cases hh
    exact ⟨sw, e, hsw, he, hp, storedResiduals hr⟩

/-- **C49** module-level `solve`. -/
theorem C49_solve {w : Outside K V} {nlpsol : SolverCall K V → Py (List K)} {ocp : OCP K} {pl : List (List Nat)}
    {n : Nat} {orders : OrdersArg} {scheme : String} {a : SolveArgs K V} {rx rdx : Bool} {s : Session K V}
    {p : Post K} {r : Option (PyDict (ResidVal K))}
    (h : mpSolve w nlpsol ocp pl n orders scheme a rx rdx = .ok (s, p, r)) :
    ∃ z e, s.solved w z = .ok e ∧ mkPost e pl false = .ok p ∧ StoredResiduals e rx rdx r := by
  unfold mpSolve at h
  simp only [py_bind_eq_ok, py_pure_eq_ok] at h
  obtain ⟨s0, -, c, -, z, -, pr, hpr, hh⟩ := h
  cases hh
  obtain ⟨e, he⟩ := C49_mpopt hpr
  exact ⟨z, e, he⟩

end

end MPOpt
