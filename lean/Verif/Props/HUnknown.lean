import Verif.Props.HStop
import Verif.Props.HWatch
import Verif.Props.Compare

/-! # C97: h-adaptive calls that refine nothing -/

set_option autoImplicit false

namespace MPOpt
variable {K V : Type} [Field K] [LinearOrder K] [IsStrictOrderedRing K] [FloorRing K]

/-- Neither of the two methods is asked for. -/
def AsksNothing (method : PyDict String) : Prop :=
  asksFor method ≠ some "residual" ∧ asksFor method ≠ some "control_slope"

theorem refine_nothing {C : HConfig K} (h1 : C.options.get? "method" ≠ some "residual")
    (h2 : C.options.get? "method" ≠ some "control_slope") (P : Py (Probe K)) (sw : List K) :
    C.refine P sw = .ok (C.dflt, none) := by
  unfold HConfig.refine
  split
  · exact absurd ‹_› h2
  · exact absurd ‹_› h1
  · rfl

variable {w : HOutside K V} {s s' : HOpt K V}

/-- **C97** A call of `solve` with a method that is none of the two known ones (for instance misspelt), or with one segment:
if it returns, the solver has been called once, with equal widths; no error is recorded. `max_iter` does not matter. -/
theorem C97_unknown_method {nlpsol : Nat → SolverCall K V → Py (PyDict V)} {a : HArgs V}
    (ha : AsksNothing a.method ∨ s.nSegments = 1) (ht : 0 ≤ s.tolChange) {sol : PyDict V}
    (h : s.solve w nlpsol a = (s', .ok sol)) :
    s'.widths = some (List.replicate (s.nSegments * s.ocp.nPhases) (1 / (s.nSegments : K))) ∧ s'.iterCount = 1 ∧
      s'.iterInfo = [(1, none)] ∧
      ∃ c, s'.call w a.initial (List.replicate (s.nSegments * s.ocp.nPhases) (1 / (s.nSegments : K))) = .ok c ∧
        nlpsol 0 c = .ok sol := by
  have hb : (s.begun w a).1.ocp = s.ocp ∧ (s.begun w a).1.nSegments = s.nSegments ∧ (s.begun w a).1.tolChange = s.tolChange := by
    unfold HOpt.begun
    split
    · unfold HOpt.createSolver
      split
      · exact ⟨rfl, rfl, rfl⟩
      · dsimp only
        split <;> exact ⟨rfl, rfl, rfl⟩
    · exact ⟨rfl, rfl, rfl⟩
  have h : (match (s.begun w a).2 with
        | Except.error e => ((s.begun w a).1, Except.error e)
        | Except.ok _ =>
          match (s.begun w a).1.env w nlpsol (hMethodDict a.method) with
          | Except.error e => ({ (s.begun w a).1 with iterCount := 0, iterInfo := [] }, Except.error e)
          | Except.ok E =>
            let (st, r) := E.solve a.initial (s.begun w a).1.widths a.maxIter
            ({ (s.begun w a).1 with widths := st.sw, iterCount := st.count, iterInfo := st.info }, r)) = (s', Except.ok sol) := h
  generalize (s.begun w a).1 = s1 at h hb
  obtain ⟨b1, b2, b3⟩ := hb
  split at h
  · cases (Prod.mk.inj h).2
  split at h
  · cases (Prod.mk.inj h).2
  rename_i E hE
  generalize hR : E.solve a.initial s1.widths a.maxIter = R at h
  obtain ⟨st, r⟩ := R
  simp only [Prod.mk.injEq] at h
  obtain ⟨rfl, rfl⟩ := h
  obtain ⟨j0, j1, j2, j3, j4, j5, -⟩ := HConfig.env_inv hE
  have hdf : E.dflt = List.replicate (s.nSegments * s.ocp.nPhases) (1 / (s.nSegments : K)) := by
    rw [j2, ← b1, ← b2]
    rfl
  have hmeas : ∀ k sl w, E.measure k sl w = .ok (E.dflt, none) := by
    intro k sl sw
    unfold HEnv.measure
    cases sl with
    | none => rfl
    | some x =>
      rcases ha with ha | ha
      · have hm : (s1.config w (hMethodDict a.method)).options.get? "method" = asksFor a.method := hMethodDict_method _
        by_cases h1 : E.nSegments = 1
        · simp only [h1, if_true]
        · simp only [h1, if_false, j4, j2]
          exact refine_nothing (hm ▸ ha.1) (hm ▸ ha.2) _ _
      · have h1 : E.nSegments = 1 := j1.trans (b2.trans ha)
        simp only [h1, if_true]
  obtain ⟨-, k2, k3, k4, k5⟩ := E.solves_once hmeas
    (by rw [j5, j2]; exact HConfig.dflt_unchanged j0 (b3.ge.trans' ht)) _ _ hR
  rw [hdf] at k2 k3
  rw [j3] at k3
  obtain ⟨c, c1, c2⟩ := py_bind_eq_ok.1 k3
  exact ⟨k2, k4, k5, c, c1, c2⟩

omit [LinearOrder K] [IsStrictOrderedRing K] [FloorRing K] in
/-- Equal widths, written as the vector `mpopt_h_adaptive` stores. -/
theorem widthsAre_none {ocp : OCP K} {n : Nat} {T : Traj K} :
    WidthsAre ocp n none T ↔ ocp.packWidths n T = List.replicate (n * ocp.nPhases) (1 / (n : K)) := by
  have hlen : (ocp.packWidths n T).length = n * ocp.nPhases := by
    simp [OCP.packWidths, List.length_flatMap, mul_comm]
  rw [List.eq_replicate_iff, hlen]
  simp only [true_and, WidthsAre, OCP.packWidths, List.mem_flatMap, List.mem_range, List.mem_map]
  constructor
  · rintro h _ ⟨ph, hph, i, hi, rfl⟩
    exact h ph hph i hi
  · intro h ph hph i hi
    exact h _ ⟨ph, hph, i, hi, rfl⟩

section
variable {ocp : OCP K} {M : Mesh K} {n : Nat} {arg : OrdersArg} {scheme : String} {lbh ubh tol : List K}
variable {nlpsol : Nat → Nat → SolverCall K V → Py (PyDict V)} {nlpsol' : SolverCall K V → Py (List K)}
variable {ptp ptp' : List (List Nat)} {p p' : Post K} {r r' : Option (PyDict (ResidVal K))} {rx rdx rx' rdx' : Bool}

/-- **C97** The last of several calls of `solve` on one object asked for none of the two methods, or there is one segment: whatever the
calls before did to the widths, they are equal again, and the result costs what `mpopt` finds without being given widths. -/
theorem C97_same_as_plain (hf : s.Ready w ocp n arg scheme lbh ubh tol) (hv : ValidOCP ocp)
    (hs : ocp.SettingsOK) (hsc : ocp.PosScales) (hM : MeshFor w.toOutside scheme n arg M)
    (hopt : ∀ n k c sol, nlpsol n k c = .ok sol → ∃ z, Returned w sol z ∧ c.IsOptimal z)
    (hopt' : ∀ c z, nlpsol' c = .ok z → c.IsOptimal z) (ht : 0 ≤ s.tolChange)
    {pre : List (HStart V × HArgs V)} {st : HStart V} {b : HArgs V} (ho : OwnStarts (pre ++ [(st, b)])) {sol : PyDict V}
    (hb : AsksNothing b.method ∨ n = 1)
    (hrun : s.run w nlpsol (pre ++ [(st, b)]) 0 none = (s', some sol))
    (hpr : s'.processResults w sol ptp false rx rdx = .ok (p, r))
    {a : SolveArgs K V} (ha : a.widths = none) {S : Session K V}
    (hrun' : mpSolve w.toOutside nlpsol' ocp ptp' n arg scheme a rx' rdx' = .ok (S, p', r')) :
    s'.iterInfo = [(1, none)] ∧
    ∃ T T' J W, compQuadWeights ⟨w.method, w.tau0, w.tau1, tausFn w.lib w.tau0 w.tau1 scheme⟩ M.orders = .ok W ∧
      p.Shows ocp M T ∧ p'.Shows ocp M T' ∧ PhysCost ocp M W T J ∧ PhysCost ocp M W T' J ∧
      (∀ ph < ocp.nPhases, ∀ i < n, T.w i ph = 1 / (n : K)) ∧ ∀ ph < ocp.nPhases, ∀ i < n, T'.w i ph = 1 / (n : K) := by
  have hw : s'.iterInfo = [(1, none)] ∧ s'.widths = some (List.replicate (n * ocp.nPhases) (1 / (n : K))) := by
    obtain ⟨d, honM, rfl, rfl, -, hc⟩ := hf.coherent hM
    obtain ⟨hcp, hsame, -⟩ := hc.run (nlpsol := nlpsol) (calls := pre)
      (fun x hx => ho x (List.mem_append_left _ hx)) (n := 0) (last := none) (fun _ h => by cases h)
    rw [HOpt.run_append] at hrun
    simp only at hrun
    generalize hr : s.run w nlpsol pre 0 none = r at hrun hcp hsame
    have hstep : r.1.solve w (nlpsol (0 + pre.length)) { b with initial := st.value r.2 } = (s', .ok sol) := by
      obtain ⟨h1, h2⟩ := Prod.mk.inj hrun
      refine Prod.ext h1 ?_
      show (r.1.solve w (nlpsol (0 + pre.length)) { b with initial := st.value r.2 }).2 = .ok sol
      rcases hx : (r.1.solve w (nlpsol (0 + pre.length)) { b with initial := st.value r.2 }).2 with e | v
      · rw [hx] at h2; cases h2
      · rw [hx] at h2; cases h2; rfl
    obtain ⟨k1, -, k3, -⟩ := C97_unknown_method (by rw [hsame.nSegments, hf.nSegments]; exact hb)
      (by rw [hsame.tolChange]; exact ht) hstep
    rw [hsame.nSegments, hf.nSegments, hsame.ocp, hf.ocp] at k1
    exact ⟨k3, k1⟩
  refine ⟨hw.1, ?_⟩
  obtain ⟨T, W, J, hW, hT, hsh, hwid, hJ, hle⟩ := C60_h_optimal hf hv hs hsc hM hopt ho hrun hpr
  obtain ⟨T', W', J', hW', hT', hwid', hsh', hJ', hle'⟩ := C53_solve_optimal hrun' hv hs hsc hM hopt'
  rw [hW] at hW'; cases hW'
  rw [ha] at hwid' hle'
  have e : ∀ T'' : Traj K, WidthsAre ocp n none T'' ↔ s'.widths = some (ocp.packWidths n T'') := by
    intro T''
    rw [hw.2, widthsAre_none, Option.some.injEq, eq_comm]
  have h1 := hle T' J' hT' ((e T').1 hwid') hJ'
  have h2 := hle' T J hT ((e T).2 hwid) hJ
  obtain rfl := le_antisymm h1 h2
  exact ⟨T, T', J, W, hW, hsh, hsh', hJ, hJ', (e T).2 hwid, hwid'⟩

end

end MPOpt
