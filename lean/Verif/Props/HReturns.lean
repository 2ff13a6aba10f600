import Verif.Props.HMeasure
import Verif.Props.Guess

/-! # C62: calls of `mpopt_h_adaptive.solve` return, with valid widths -/

set_option autoImplicit false
set_option linter.unusedSectionVars false

namespace MPOpt
variable {K V : Type} [Field K] [LinearOrder K] [IsStrictOrderedRing K]
variable {M : Mesh K} {w : HOutside K V} {d : Disc K}

/-- How `mpopt_options` ask the `residual` method to split segments. -/
def splitsBy (method : PyDict String) : String :=
  if method.isEmpty then "equal_area" else (method.get? "sub_method").getD "equal_area"

theorem hMethodDict_sub (m : PyDict String) : ((hMethodDict m).get? "sub_method").getD "equal_area" = splitsBy m := by
  unfold hMethodDict splitsBy
  cases m with
  | nil => rfl
  | cons a l => rfl

/-- Some call asks for the control-slope method. -/
def UsesSlope (calls : List (HStart V × HArgs V)) : Prop := ∃ c ∈ calls, asksFor c.2.method = some "control_slope"

/-- Some call asks for the equal-area method. -/
def UsesArea (calls : List (HStart V × HArgs V)) : Prop :=
  ∃ c ∈ calls, asksFor c.2.method = some "residual" ∧ splitsBy c.2.method = "equal_area"

/-- A call of the solver object with the problem of the object `s` and valid widths. -/
def Asked (w : HOutside K V) (s : HOpt K V) (c : SolverCall K V) : Prop :=
  ∃ d, s.disc w = .ok d ∧ d.createNlp = .ok c.bounds ∧ c.solver.problem = c.bounds ∧
    ValidWidths s.nSegments s.ocp.nPhases c.p

/-- What a method needs of a solution at widths `p`: a vector of a trajectory; for the slope method phases that last;
for the equal-area method residuals that do not vanish at the end of a phase that misses its tolerance. -/
structure Usable (w : HOutside K V) (s : HOpt K V) (M : Mesh K) (slope area : Prop) (p : List K) (sol : PyDict V) :
    Prop where
  holds : ∃ T, Holding w s.ocp M sol p T ∧ (slope → ∀ ph < s.ocp.nPhases, T.t0 ph < T.tf ph)
  area : area → ∀ e res, s.solvedAt w sol p = .ok e → e.dynResiduals none none false = .ok res →
    ∀ (ph : Nat) (errs : List (SegResidual K)) (m t : K), (res.map (·.2))[ph]? = some errs →
      maxResidual errs = .ok m → s.tol[ph]? = some t → t ≤ m → EndsWithArea (samples w.norm errs)

theorem HOpt.Same.disc {s s1 : HOpt K V} (h : s.Same s1) : s1.disc w = s.disc w := by
  unfold HOpt.disc
  rw [h.ocp, h.nSegments, h.orders, h.scheme]

theorem HOpt.Same.solvedAt {s s1 : HOpt K V} (h : s.Same s1) (sol : PyDict V) (p : List K) :
    s1.solvedAt w sol p = s.solvedAt w sol p := by
  unfold HOpt.solvedAt
  rw [h.disc, h.gridType, h.maxGrid]

theorem HOpt.Same.usable {s s1 : HOpt K V} (h : s.Same s1) {slope area : Prop} {p : List K} {sol : PyDict V}
    (hu : Usable w s M slope area p sol) : Usable w s1 M slope area p sol := by
  refine ⟨by rw [h.ocp]; exact hu.holds, ?_⟩
  rw [h.tol]
  intro ha e res he
  rw [h.solvedAt] at he
  exact hu.area ha e res he

/-- The object can call its solver. -/
structure HOpt.Built (w : HOutside K V) (d : Disc K) (s : HOpt K V) : Prop where
  coherent : s.Coherent w d
  solver : s.initialized = true → s.solver.isSome ∧ s.bounds.isSome

variable [FloorRing K]

/-- One call of `solve` returns a usable solution. -/
theorem solve_step {nlpsol : Nat → SolverCall K V → Py (PyDict V)} {s : HOpt K V} {a : HArgs V} {slope area : Prop}
    (hb : s.Built w d) (honM : d.OnMesh M) (hocp : s.ocp = d.ocp) (hn : s.nSegments = d.nSegments)
    (hords : s.orders = d.orders) (hv : ValidOCP d.ocp)
    (hs : d.ocp.SettingsOK) (hsc : d.ocp.PosScales) (hlt : M.tau0 < M.tau1)
    (hord : ∀ q ∈ M.orders, (M.nodes q).Pairwise (· < ·))
    (hlb : s.lbh.length = d.ocp.nPhases) (hub : s.ubh.length = d.ocp.nPhases) (htol : s.tol.length = d.ocp.nPhases)
    (hgt : s.gridType = List.replicate d.ocp.nPhases "fixed") (htc : 0 ≤ s.tolChange)
    (hbox : ∀ (ph : Nat) (l u : K), s.lbh[ph]? = some l → s.ubh[ph]? = some u → 0 < l ∧ l ≤ u)
    (hnorm : ∀ l, 0 ≤ w.norm l)
    (ht : ∀ ph < d.ocp.nPhases, entry d.ocp.t00 ph 0 0 ≠ entry d.ocp.tf0 ph 0 0)
    (hacc : w.accepts a.plugin (solverOptions w.vals a.plugin (hSolverDict w.zero a.options)) = true)
    (hiter : 0 < a.maxIter)
    (hslope : asksFor a.method = some "control_slope" → slope)
    (harea : asksFor a.method = some "residual" → splitsBy a.method = "equal_area" → area)
    (hsolver : ∀ k c, Asked w s c → ∃ sol, nlpsol k c = .ok sol ∧ Usable w s M slope area c.p sol)
    (hwid : ∀ p, s.widths = some p → ValidWidths s.nSegments s.ocp.nPhases p)
    (hinit : ∀ x, a.initial = some x → ∃ p, s.widths = some p ∧ Usable w s M slope area p x) :
    ∃ s' sol p, s.solve w nlpsol a = (s', .ok sol) ∧ s'.Built w d ∧ s.Same s' ∧ s'.widths = some p ∧
      ValidWidths s.nSegments s.ocp.nPhases p ∧ Usable w s M slope area p sol := by
  have hseg : M.orders.length = d.nSegments := by rw [honM.orders, honM.segments]
  obtain ⟨bs, J, nlp, hnlp, -⟩ := honM.createNlp_spec hv hs hsc
  obtain ⟨-, zg, -, hguess, -⟩ := C20_guess honM hv hs hsc ht
  have hpos : 0 < s.nSegments := by
    rw [hn, ← hseg]; exact List.length_pos_iff.2 honM.good.nonempty
  -- the solver object
  have hbuild : ∃ s1 : HOpt K V, (if s.initialized = false ∨ a.reinitialize = true
      then s.createSolver w a.plugin (hSolverDict w.zero a.options) else (s, .ok ())) = (s1, .ok ()) ∧
      s1.Coherent w d ∧ s.Same s1 ∧ s1.widths = s.widths ∧ s1.solver.isSome ∧ s1.bounds.isSome := by
    by_cases hi : s.initialized = false ∨ a.reinitialize = true
    · rw [if_pos hi]
      obtain ⟨g1, g2, g3⟩ := hb.coherent.createSolver a.plugin (hSolverDict w.zero a.options)
      have hcs : s.createSolver w a.plugin (hSolverDict w.zero a.options) =
          ({ s with bounds := some nlp, solver := some ⟨nlp, a.plugin, solverOptions w.vals a.plugin
            (hSolverDict w.zero a.options)⟩, initialized := true }, .ok ()) := by
        unfold HOpt.createSolver
        rw [hb.coherent.disc, py_bind_ok, hnlp]
        simp only [hacc, if_true]
      rw [hcs] at g1 g2 g3 ⊢
      exact ⟨_, rfl, g1, g2, g3, rfl, rfl⟩
    · rw [if_neg hi]
      have hin : s.initialized = true := by
        by_contra hh; exact hi (Or.inl (by simpa using hh))
      exact ⟨s, rfl, hb.coherent, .refl s, rfl, (hb.solver hin).1, (hb.solver hin).2⟩
  obtain ⟨s1, hs1, hc1, hsame, hw1, hsol1, hbd1⟩ := hbuild
  obtain ⟨so, hso⟩ := Option.isSome_iff_exists.1 hsol1
  obtain ⟨bd, hbd⟩ := Option.isSome_iff_exists.1 hbd1
  -- the environment of the loop
  obtain ⟨t0, tl, htl⟩ : ∃ t0 tl, s1.tol = t0 :: tl := by
    rw [hsame.tol]
    have := hv.phases
    exact List.exists_cons_of_ne_nil (l := s.tol) (by
      intro hh; rw [hh] at htol; simp at htol; omega)
  obtain ⟨E, hE⟩ : ∃ E, s1.env w nlpsol (hMethodDict a.method) = .ok E := by
    unfold HOpt.env HConfig.env
    rw [if_neg (show ¬ (s1.config w (hMethodDict a.method)).nSegments = 0 by
      show ¬ s1.nSegments = 0
      rw [hsame.nSegments]; omega)]
    simp only [show (s1.config w (hMethodDict a.method)).tolResidual = t0 :: tl from htl]
    exact ⟨_, rfl⟩
  obtain ⟨-, j1, j2, j3, j4, j5, -⟩ := HConfig.env_inv hE
  set C := s1.config w (hMethodDict a.method) with hCdef
  have hCn : C.nSegments = s.nSegments := hsame.nSegments
  have hCP : C.nPhases = s.ocp.nPhases := congrArg OCP.nPhases hsame.ocp
  have hCm : C.options.get? "method" = asksFor a.method := hMethodDict_method _
  have hCs : (C.options.get? "sub_method").getD "equal_area" = splitsBy a.method := hMethodDict_sub _
  have hCtol : C.tolResidual = s.tol := hsame.tol
  have hClb : C.lbh = s.lbh := hsame.lbh
  have hCub : C.ubh = s.ubh := hsame.ubh
  have hCOK : C.OK := ⟨by rw [hCn]; exact hpos, hnorm, by rw [hClb, hCub]; exact hbox⟩
  have hgood : ∀ k c, Asked w s c → ∀ sol, nlpsol k c = .ok sol → Usable w s M slope area c.p sol := by
    intro k c hc sol hsol
    obtain ⟨sol', h1, h2⟩ := hsolver k c hc
    rw [h1] at hsol; cases hsol; exact h2
  have hcall : ∀ init p, ValidWidths s.nSegments s.ocp.nPhases p → ∃ c, s1.call w init p = .ok c ∧ Asked w s c ∧
      c.p = p := by
    intro init p hp
    obtain ⟨inp, hinp⟩ := warmStart_succeeds (g := w.vec zg) init
    have hg : s1.guess w = .ok (w.vec zg) := by
      unfold HOpt.guess
      rw [hsame.ocp, hocp, hsame.orders, hords, ← honM.orders,
        show M.orders.sum + 1 = M.N from rfl, hguess]
      rfl
    have hc : s1.call w init p = .ok ⟨so, bd, inp, p⟩ := by
      unfold HOpt.call
      rw [hg, hinp, py_bind_ok, hso, hbd]
      rfl
    obtain ⟨q1, q2, q3⟩ := hc1.call hc
    exact ⟨_, hc, ⟨d, hb.coherent.disc, q1, q2, hp⟩, rfl⟩
  have hdflt : ValidWidths s.nSegments s.ocp.nPhases E.dflt := by
    rw [j2, ← hCn, ← hCP]; exact dflt_valid hCOK.segments
  -- measurements
  have hprobe : ∀ p sol, ValidWidths s.nSegments s.ocp.nPhases p → Usable w s M slope area p sol →
      ∃ P, s1.probe w (hMethodDict a.method) sol p = .ok P ∧ P.OK C ∧ P.Full C.nSegments C.nPhases ∧
        (C.options.get? "method" = some "control_slope" → P.slopes.length = C.nPhases) := by
    intro p sol hp hu
    have hu1 := hsame.usable hu
    obtain ⟨T, hT, htimes⟩ := hu1.holds
    have hocp1 : s1.ocp = d.ocp := by rw [hsame.ocp, hocp]
    rw [hocp1] at hT htimes
    obtain ⟨e, res, q1, q2, q3, -, q5⟩ := hc1.probe hocp1 honM hv hsc hs.nx hlt (by rw [hsame.gridType]; exact hgt) (method := hMethodDict a.method) hT
      (by rw [hseg, ← hn, ← hocp]; exact hp)
    obtain ⟨P, hP, hsl⟩ := q5 hord (fun hm => htimes (hslope (by rw [← hCm]; exact hm)))
    obtain ⟨f1, f2, -⟩ := q3 P hP
    refine ⟨P, hP, ⟨?_, fun hm => (hsl hm).2⟩, ?_, fun hm => ?_⟩
    · intro hm hsub ph errs m t h1 h2 h3 h4
      rw [f1] at h1
      rw [hCtol, ← hsame.tol] at h3
      exact hu1.area (harea (by rw [← hCm]; exact hm) (by rw [← hCs]; exact hsub)) e res q1 q2 ph errs m t h1 h2 h3 h4
    · rw [hCn, hCP, hn, hocp, ← hseg]; exact f2
    · rw [(hsl hm).1, hCP, hocp]
  have hWorks : Works E (ValidWidths s.nSegments s.ocp.nPhases) (Usable w s M slope area) := by
    refine ⟨hdflt, ?_, ?_, ?_⟩
    · intro k init p hp
      obtain ⟨c, c1, c2, c3⟩ := hcall init p hp
      obtain ⟨sol, h1, h2⟩ := hsolver k c c2
      refine ⟨sol, ?_, by rw [← c3]; exact h2⟩
      rw [j3]
      show (s1.call w init p >>= fun c => nlpsol k c) = .ok sol
      rw [c1, py_bind_ok, h1]
    · intro x y hx hy
      rw [j5]
      exact unchanged_total (by rw [hx.1, hy.1])
    · rw [j5]
      refine unchanged_same ?_ (by show (0 : K) ≤ s1.tolChange; rw [hsame.tolChange]; exact htc)
      rw [j2]
      intro v hv'
      rw [(List.mem_replicate.1 hv').2]
      have : (0 : K) < C.nSegments := by exact_mod_cast hCOK.segments
      positivity
  have hcases : Measures E (ValidWidths s.nSegments s.ocp.nPhases) (Usable w s M slope area) ∨ Idle E := by
    by_cases h1 : E.nSegments = 1
    · exact Or.inr (Or.inl h1)
    by_cases hm : C.Measuring
    · left
      refine ⟨h1, fun k sol p hp hu => ?_⟩
      obtain ⟨P, hP, p1, p2, p3⟩ := hprobe p sol hp hu
      have hp' : ValidWidths C.nSegments C.nPhases p := by rw [hCn, hCP]; exact hp
      obtain ⟨new, err, r1, r2⟩ := refine_total hCOK (by rw [← j1]; exact h1)
        (by rw [hCtol, htol, hCP, hocp]) (by rw [hClb, hlb, hCP, hocp]) (by rw [hCub, hub, hCP, hocp])
        (fun _ => p2) p3 p1 hp'
      obtain ⟨e, rfl⟩ := Option.ne_none_iff_exists'.1 (r2 hm)
      refine ⟨new, e, by rw [j4]; simp only [hP]; exact r1, ?_⟩
      rw [← hCn, ← hCP]
      exact refine_valid hCOK (by rw [← j1]; exact h1) (P := .ok P) (fun q hq => by cases hq; exact p1) hp' r1
    · right; right
      intro k sol p
      rw [j4, j2]
      simp only [HConfig.refine]
      split
      · rename_i hh; exact absurd (Or.inl hh) hm
      · rename_i hh; exact absurd (Or.inr hh) hm
      · rfl
  obtain ⟨sol, p, hsol, hp1, hp2, hp3⟩ := solve_returns hWorks hcases (initial := a.initial) (sw := s.widths) hiter hwid
    (by
      intro x hx
      obtain ⟨p, p1, p2⟩ := hinit x hx
      rw [p1]; exact p2)
  refine ⟨{ s1 with widths := (E.solve a.initial s1.widths a.maxIter).1.sw,
                    iterCount := (E.solve a.initial s1.widths a.maxIter).1.count,
                    iterInfo := (E.solve a.initial s1.widths a.maxIter).1.info }, sol, p, ?_,
    ⟨⟨hc1.disc, hc1.solver, hc1.bounds⟩, fun _ => ⟨hsol1, hbd1⟩⟩,
    ⟨hsame.ocp, hsame.nSegments, hsame.orders, hsame.scheme, hsame.lbh, hsame.ubh, hsame.tol, hsame.gridType,
      hsame.maxGrid, hsame.slope, hsame.tolChange⟩, ?_, hp2, hp3⟩
  · unfold HOpt.solve
    rw [hs1]
    simp only [hE]
    rw [hw1, hsol]
  · rw [hw1]; exact hp1

variable {nlpsol : Nat → Nat → SolverCall K V → Py (PyDict V)}
variable {ocp : OCP K} {ptp : List (List Nat)} {n : Nat} {arg : OrdersArg} {scheme : String}
  {lbh ubh tol : List K} {rx rdx : Bool} {s : HOpt K V}

/-- Several calls return usable solutions. -/
theorem run_step {s : HOpt K V} {slope area : Prop} (honM : d.OnMesh M) (hocp : s.ocp = d.ocp)
    (hn : s.nSegments = d.nSegments) (hords : s.orders = d.orders) (hv : ValidOCP d.ocp)
    (hs : d.ocp.SettingsOK) (hsc : d.ocp.PosScales) (hlt : M.tau0 < M.tau1)
    (hord : ∀ q ∈ M.orders, (M.nodes q).Pairwise (· < ·))
    (hlb : s.lbh.length = d.ocp.nPhases) (hub : s.ubh.length = d.ocp.nPhases) (htol : s.tol.length = d.ocp.nPhases)
    (hgt : s.gridType = List.replicate d.ocp.nPhases "fixed") (htc : 0 ≤ s.tolChange)
    (hbox : ∀ (ph : Nat) (l u : K), s.lbh[ph]? = some l → s.ubh[ph]? = some u → 0 < l ∧ l ≤ u)
    (hnorm : ∀ l, 0 ≤ w.norm l)
    (ht : ∀ ph < d.ocp.nPhases, entry d.ocp.t00 ph 0 0 ≠ entry d.ocp.tf0 ph 0 0)
    (hsolver : ∀ i k c, Asked w s c → ∃ sol, nlpsol i k c = .ok sol ∧ Usable w s M slope area c.p sol) :
    ∀ (calls : List (HStart V × HArgs V)), OwnStarts calls →
    (∀ c ∈ calls, 0 < c.2.maxIter ∧
      w.accepts c.2.plugin (solverOptions w.vals c.2.plugin (hSolverDict w.zero c.2.options)) = true ∧
      (asksFor c.2.method = some "control_slope" → slope) ∧
      (asksFor c.2.method = some "residual" → splitsBy c.2.method = "equal_area" → area)) →
    ∀ (n : Nat) (s1 : HOpt K V) (last : Option (PyDict V)), s.Same s1 → s1.Built w d →
      (∀ p, s1.widths = some p → ValidWidths s.nSegments s.ocp.nPhases p) →
      (∀ x, last = some x → ∃ p, s1.widths = some p ∧ Usable w s M slope area p x) →
      (last = none → calls ≠ []) →
      ∃ s' sol p, s1.run w nlpsol calls n last = (s', some sol) ∧ s'.Coherent w d ∧ s.Same s' ∧ s'.widths = some p ∧
        ValidWidths s.nSegments s.ocp.nPhases p ∧ Usable w s M slope area p sol := by
  intro calls
  induction calls with
  | nil =>
    intro _ _ n s1 last h1 h2 h3 h4 h5
    obtain ⟨x, rfl⟩ := Option.ne_none_iff_exists'.1 (fun hh => h5 hh rfl)
    obtain ⟨p, p1, p2⟩ := h4 x rfl
    exact ⟨s1, x, p, rfl, h2.coherent, h1, p1, h3 p p1, p2⟩
  | cons c calls ih =>
    intro ho hcalls n s1 last h1 h2 h3 h4 _
    obtain ⟨st, a⟩ := c
    obtain ⟨q1, q2, q3, q4⟩ := hcalls (st, a) (by simp)
    have hback : s1.Same s := h1.symm
    obtain ⟨s2, sol, p, r1, r2, r3, r4, r5, r6⟩ := solve_step (nlpsol := nlpsol n) (s := s1)
      (a := { a with initial := st.value last }) (slope := slope) (area := area) h2 honM
      (by rw [h1.ocp, hocp]) (by rw [h1.nSegments, hn]) (by rw [h1.orders, hords]) hv hs hsc hlt hord
      (by rw [h1.lbh, hlb]) (by rw [h1.ubh, hub]) (by rw [h1.tol, htol]) (by rw [h1.gridType, hgt])
      (by rw [h1.tolChange]; exact htc) (by rw [h1.lbh, h1.ubh]; exact hbox) hnorm ht
      q2 q1 q3 q4 (by
        rintro k c ⟨d', c1, c2, c3, c4⟩
        rw [h1.disc] at c1
        rw [h1.nSegments, h1.ocp] at c4
        obtain ⟨sol, k1, k2⟩ := hsolver n k c ⟨d', c1, c2, c3, c4⟩
        exact ⟨sol, k1, h1.usable k2⟩)
      (by intro p hp; rw [h1.nSegments, h1.ocp]; exact h3 p hp)
      (by
        intro x hx
        have hx : st.value last = some x := hx
        cases st with
        | fresh => cases hx
        | previous =>
          obtain ⟨p, p1, p2⟩ := h4 x hx
          exact ⟨p, p1, h1.usable p2⟩
        | given y => exact absurd rfl (ho (.given y, a) (by simp) y))
    have hrun : s1.run w nlpsol ((st, a) :: calls) n last =
        (s1.solve w (nlpsol n) { a with initial := st.value last }).1.run w nlpsol calls (n + 1)
          (s1.solve w (nlpsol n) { a with initial := st.value last }).2.toOption := rfl
    rw [hrun, r1]
    rw [h1.nSegments, h1.ocp] at r5
    exact ih (fun c hc => ho c (List.mem_cons_of_mem _ hc)) (fun c hc => hcalls c (List.mem_cons_of_mem _ hc))
      (n + 1) s2 (some sol) (h1.trans r3) r2 (fun p' hp' => by rw [r4] at hp'; cases hp'; exact r5)
      (fun x hx => by cases hx; exact ⟨p, r4, hback.usable r6⟩) (fun hh => by cases hh)

/-- **C62** Calls of `solve` on an `mpopt_h_adaptive` object return, one after the other, and so does
`process_results`; the widths stored are positive with sum 1 in every phase. Needed: a well-posed problem, positive
orders of a scheme with increasing nodes, at least one iteration per call, plugins and options `ca.nlpsol` accepts,
width limits `0 < lbh ≤ ubh`, `grid_type` `"fixed"`, widths stored before (if any) that are valid, a start guess without division by zero, initial solutions that are left out or come from
the call before, and a solver that answers every call asked of it with a usable solution. -/
theorem C62_h_returns (hf : s.Ready w ocp n arg scheme lbh ubh tol) (hv : ValidOCP ocp) (hs : ocp.SettingsOK)
    (hsc : ocp.PosScales) (hM : MeshFor w.toOutside scheme n arg M) (hlt : w.tau0 < w.tau1)
    (hord : ∀ q ∈ M.orders, (M.nodes q).Pairwise (· < ·))
    (hlb : lbh.length = ocp.nPhases) (hub : ubh.length = ocp.nPhases) (htol : tol.length = ocp.nPhases)
    (hgt : s.gridType = List.replicate ocp.nPhases "fixed") (htc : 0 ≤ s.tolChange)
    (hwid : ∀ p, s.widths = some p → ValidWidths n ocp.nPhases p)
    (hbox : ∀ (ph : Nat) (l u : K), lbh[ph]? = some l → ubh[ph]? = some u → 0 < l ∧ l ≤ u)
    (hnorm : ∀ l, 0 ≤ w.norm l)
    (ht : ∀ ph < ocp.nPhases, entry ocp.t00 ph 0 0 ≠ entry ocp.tf0 ph 0 0)
    {calls : List (HStart V × HArgs V)} (hne : calls ≠ []) (ho : OwnStarts calls)
    (hcalls : ∀ c ∈ calls, 0 < c.2.maxIter ∧
      w.accepts c.2.plugin (solverOptions w.vals c.2.plugin (hSolverDict w.zero c.2.options)) = true)
    (hsolver : ∀ i k c, Asked w s c → ∃ sol, nlpsol i k c = .ok sol ∧
      Usable w s M (UsesSlope calls) (UsesArea calls) c.p sol) (hptp : ptp ≠ []) :
    ∃ s' sol p, s.run w nlpsol calls 0 none = (s', some sol) ∧ s'.widths = some p ∧ ValidWidths n ocp.nPhases p ∧
      ∃ out, s'.processResults w sol ptp false rx rdx = .ok out := by
  obtain ⟨d, honM, rfl, rfl, -, hc⟩ := hf.coherent hM
  have hseg : M.orders.length = d.nSegments := by rw [honM.orders, honM.segments]
  have hords : s.orders = d.orders := by
    rw [← honM.orders]; exact hf.orders.unique hM.orders
  have hsn : s.nSegments = d.nSegments := hf.nSegments
  have hso : s.ocp = d.ocp := hf.ocp
  have hlt' : M.tau0 < M.tau1 := by rw [hM.tau0, hM.tau1]; exact hlt
  obtain ⟨s', sol, p, r1, r2, r3, r4, r5, r6⟩ := run_step (nlpsol := nlpsol) (s := s) honM hso hsn hords hv hs hsc hlt'
    hord (by rw [hf.lbh]; exact hlb) (by rw [hf.ubh]; exact hub) (by rw [hf.tol]; exact htol) hgt htc
    (by rw [hf.lbh, hf.ubh]; exact hbox) hnorm ht
    hsolver calls ho (fun c hc => ⟨(hcalls c hc).1, (hcalls c hc).2, fun h => ⟨c, hc, h⟩, fun h h' => ⟨c, hc, h, h'⟩⟩)
    0 s none (.refl s) ⟨hc, hf.made⟩ (fun p hp => by rw [hsn, hso]; exact hwid p hp)
    (fun x hx => by cases hx) (fun _ => hne)
  rw [hsn, hso] at r5
  refine ⟨s', sol, p, r1, r4, r5, ?_⟩
  obtain ⟨T, hT, -⟩ := r6.holds
  rw [hso] at hT
  obtain ⟨e, e1, e2, e3, e4, e5, e6, -⟩ := r2.solvedAt honM hv hsc hT
  obtain ⟨⟨x1, hx1⟩, x2, hx2⟩ := residuals_succeed e2 hlt' (by rw [e6, e3, r3.gridType]; exact hgt)
    (ValidWidths.phases honM (by rw [hseg]; exact r5) e3 e4)
  obtain ⟨rv, hrv⟩ : ∃ rv, residValue rx rdx (e.stateResiduals none false) (e.dynResiduals none none false)
      ResidVal.states ResidVal.dynamics = .ok rv := by
    obtain ⟨k1, k2, k3, k4⟩ := C49_stored _ _ ResidVal.states ResidVal.dynamics x1 x2 hx1 hx2
    cases rx <;> cases rdx
    exacts [⟨_, k3⟩, ⟨_, k2⟩, ⟨_, k4⟩, ⟨_, k1⟩]
  obtain ⟨q, ptp', rfl⟩ := List.exists_cons_of_ne_nil hptp
  refine ⟨(⟨e, false, q⟩, rv), ?_⟩
  unfold HOpt.processResults
  rw [r4]
  simp only [e1, py_bind_ok, hrv]
  rfl

end MPOpt
