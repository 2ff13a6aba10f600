import Verif.Props.HEnd

/-! # C61, C62: what `mpopt_h_adaptive` reports about a solution, and when its calls return -/

set_option autoImplicit false
set_option linter.unusedSectionVars false

namespace MPOpt
variable {K V : Type} [Field K] [LinearOrder K] [IsStrictOrderedRing K]
variable {M : Mesh K} {w : HOutside K V} {d : Disc K} {e : Solved K}

/-! ### Measurements of one solution -/

/-- Control slopes of a phase that lasts: node times increase from start to end. -/
theorem Solved.Ready.slopeData_ok (h : e.Ready M) (hlt : M.tau0 < M.tau1)
    (hg : e.gridType = List.replicate e.disc.ocp.nPhases "fixed")
    (hord : ∀ p ∈ M.orders, (M.nodes p).Pairwise (· < ·)) {ph : Nat} (hph : ph < e.disc.ocp.nPhases)
    (hw : (∀ v ∈ e.phaseWidths ph, 0 < v) ∧ (e.phaseWidths ph).sum = 1) (ht : e.traj.t0 ph < e.traj.tf ph) :
    ∃ sd, e.slopeData ph = .ok sd ∧ sd.OK := by
  obtain ⟨tr, t1, -, tu, tl, tt, tt0, ttf, -⟩ := h.mesh.trajectories_spec h.z h.widths hph
  obtain ⟨g, -, g1, -⟩ := C44_uniform_times h hlt hph hw.1 hw.2
  have hM := h.mesh.good
  have hg' : e.residualGrid ph none = .ok (some g) := by
    rw [← g1]
    unfold Solved.residualGrid
    rw [hg]
    simp only [pyIdx_ok (l := List.replicate e.disc.ocp.nPhases "fixed") (i := ph) (by simpa using hph), py_bind_ok,
      List.getElem_replicate]
  obtain ⟨hwl, hww, hws⟩ := h.widths_eq hph
  have hgl : g.length = M.orders.length := by rw [residualGrid_length g1, hwl]
  have htg := timeGridAt_spec hM (physOf e.disc.ocp (e.disc.envOf e.z e.widths)) ph tt hgl
  rw [h.mesh.orders, h.mesh.tau0, h.mesh.tau1] at htg
  have hsh := h.mesh.compD_shape
  have hmt : e.disc.compD.mtimes tr.u = .ok ⟨e.disc.compD.rows, tr.u.cols,
      fun i j => ∑ k ∈ Finset.range e.disc.compD.cols, e.disc.compD.e i k * tr.u.e k j⟩ := by
    unfold Mat.mtimes
    rw [if_pos (by rw [hsh.2, tu, h.mesh.N_eq])]
  have key : e.slopeData ph = .ok ⟨tr.t, Mat.toRows ⟨e.disc.compD.rows, tr.u.cols,
      fun i j => ∑ k ∈ Finset.range e.disc.compD.cols, e.disc.compD.e i k * tr.u.e k j⟩, tr.t0, tr.tf⟩ := by
    unfold Solved.slopeData
    rw [t1, py_bind_ok, hg', py_bind_ok]
    simp only
    rw [htg, py_bind_ok, hmt, py_bind_ok]
    rfl
  have hpos : ∀ s < M.orders.length, 0 < e.traj.w s ph := by
    intro s hs
    rw [hww s hs, List.getD_eq_getElem _ _ (by omega)]
    exact hw.1 _ (List.getElem_mem _)
  have hends := C13_segment_ends hM e.traj ph
  have h0 : 0 < M.orders.length := List.length_pos_iff.2 hM.nonempty
  refine ⟨_, key, ⟨?_, ?_, ?_, ?_⟩⟩
  · rw [List.pairwise_iff_getElem]
    intro i j hi hj hij
    simp only at hi hj ⊢
    obtain ⟨s, a, o1, rfl⟩ := M.exists_owner hM.nonempty (k := i) (by omega)
    obtain ⟨s', a', o2, rfl⟩ := M.exists_owner hM.nonempty (k := j) (by omega)
    have e1 := tt s a o1
    have e2 := tt s' a' o2
    rw [List.getElem?_eq_getElem hi] at e1
    rw [List.getElem?_eq_getElem hj] at e2
    rw [Option.some.inj e1, Option.some.inj e2]
    exact C13_strictly_increasing hM hord e.traj ph ht hpos o1 o2 hij
  · show tr.t.head? = some tr.t0
    have e1 := tt 0 0 ⟨h0, by omega, Or.inl rfl⟩
    rw [hM.node_first h0] at e1
    rw [List.head?_eq_getElem?, tt0]
    have : M.idx 0 0 = 0 := by simp [Mesh.idx, segStart_zero]
    rw [this] at e1
    rw [e1]; exact congrArg some hends.1
  · show tr.t.getLast? = some tr.tf
    have hpo := hM.pos _ (hM.order_mem (s := M.orders.length - 1) (by omega))
    have e1 := tt (M.orders.length - 1) (M.order (M.orders.length - 1)) ⟨by omega, le_rfl, Or.inr hpo⟩
    have hidx : M.idx (M.orders.length - 1) (M.order (M.orders.length - 1)) = tr.t.length - 1 := by
      rw [tl]
      unfold Mesh.idx Mesh.N Mesh.order segStart
      have hl : M.orders.length - 1 < M.orders.length := by omega
      have : (M.orders.take (M.orders.length - 1 + 1)).sum =
          (M.orders.take (M.orders.length - 1)).sum + M.orders.getD (M.orders.length - 1) 0 := by
        rw [List.take_succ_eq_append_getElem hl, List.sum_append, List.getD_eq_getElem _ _ hl]; simp
      rw [show M.orders.length - 1 + 1 = M.orders.length by omega, List.take_length] at this
      omega
    rw [hM.node_last (by omega), hidx] at e1
    rw [List.getLast?_eq_getElem?, e1, ttf]
    refine congrArg some (hends.2.2.2 ?_)
    rw [hws _ le_rfl, ← hwl, List.take_length]
    exact hw.2
  · show (Mat.toRows _).length = tr.t.length
    simp only [Mat.toRows, List.length_map, List.length_range, hsh.1, tl]

/-- A trajectory is in a dictionary, at given widths. -/
def Holding (w : HOutside K V) (ocp : OCP K) (M : Mesh K) (sol : PyDict V) (p : List K) (T : Traj K) : Prop :=
  Returned w sol (ocp.packVec M.N T) ∧ p = ocp.packWidths M.orders.length T

theorem Holding.congr {ocp : OCP K} {sol : PyDict V} {p : List K} {S T : Traj K} (h : Holding w ocp M sol p T)
    (hS : SameOn ocp M.N M.orders.length S T) : Holding w ocp M sol p S := by
  have h1 : ocp.packVec M.N S = ocp.packVec M.N T := by
    unfold OCP.packVec
    apply List.flatMap_congr
    intro ph hp
    have hp : ph < ocp.nPhases := by simpa using hp
    congr 1
    · congr 1
      · congr 1
        · apply List.flatMap_congr
          intro j hj
          apply List.map_congr_left
          intro i hi
          rw [hS.x ph hp i (by simpa using hi) j (by simpa using hj)]
        · apply List.flatMap_congr
          intro j hj
          apply List.map_congr_left
          intro i hi
          rw [hS.u ph hp i (by simpa using hi) j (by simpa using hj)]
      · rw [hS.t0 ph hp, hS.tf ph hp]
    · apply List.map_congr_left
      intro k hk
      rw [hS.a ph hp k (by simpa using hk)]
  have h2 : ocp.packWidths M.orders.length S = ocp.packWidths M.orders.length T := by
    unfold OCP.packWidths
    apply List.flatMap_congr
    intro ph hp
    apply List.map_congr_left
    intro i hi
    exact hS.w ph (by simpa using hp) i (by simpa using hi)
  exact ⟨by rw [h1]; exact h.1, by rw [h2]; exact h.2⟩

/-- What the residual functions look at, for a solution that holds a trajectory. -/
theorem HOpt.Coherent.solvedAt {s : HOpt K V} (h : s.Coherent w d) (honM : d.OnMesh M)
    (hv : ValidOCP d.ocp) (hsc : d.ocp.PosScales) {sol : PyDict V} {p : List K} {T : Traj K}
    (hT : Holding w d.ocp M sol p T) :
    ∃ e, s.solvedAt w sol p = .ok e ∧ e.Ready M ∧ e.disc = d ∧ e.widths = p ∧ e.maxGrid = s.maxGrid ∧
      e.gridType = s.gridType ∧ e.z = d.ocp.packVec M.N T ∧
      SameOn d.ocp M.N M.orders.length e.traj T := by
  obtain ⟨⟨v, v1, v2⟩, hp⟩ := hT
  have hseg : M.orders.length = d.nSegments := by rw [honM.orders, honM.segments]
  refine ⟨⟨d, p, s.gridType, s.maxGrid, d.ocp.packVec M.N T⟩, ?_,
    ⟨honM, hv, ?_, ?_, fun s hs => (hsc.x s hs).ne', fun s hs => (hsc.u s hs).ne', fun s hs => (hsc.a s hs).ne'⟩,
    rfl, rfl, rfl, rfl, rfl, ?_⟩
  · unfold HOpt.solvedAt
    rw [h.disc, py_bind_ok, v1]
    simp only
    rw [v2, py_bind_ok]
    rfl
  · show (d.ocp.packVec M.N T).length = _
    rw [honM.N_eq, packVec_eq, List.length_map]
  · show p.length = _
    rw [hp, hseg, packWidths_eq, List.length_map]
  · exact decoded_packed honM hv hsc T (by rw [hp, hseg])

theorem ValidWidths.phases (honM : d.OnMesh M) {p : List K} (hp : ValidWidths M.orders.length d.ocp.nPhases p)
    (he : e.disc = d) (hw : e.widths = p) : ∀ ph < e.disc.ocp.nPhases,
      (∀ v ∈ e.phaseWidths ph, 0 < v) ∧ (e.phaseWidths ph).sum = 1 := by
  intro ph hph
  subst he hw
  have hseg : M.orders.length = e.disc.nSegments := by rw [honM.orders, honM.segments]
  have := hp.slice hph
  unfold Solved.phaseWidths
  rw [← hseg]
  exact ⟨this.2.1, this.2.2⟩

/-- What the width computation measures of a solution that holds a trajectory, at valid widths. -/
theorem HOpt.Coherent.probe {s : HOpt K V} (h : s.Coherent w d) (hs : s.ocp = d.ocp) (honM : d.OnMesh M)
    (hv : ValidOCP d.ocp) (hsc : d.ocp.PosScales) (hnx : 0 < d.ocp.nx) (hlt : M.tau0 < M.tau1)
    (hgt : s.gridType = List.replicate d.ocp.nPhases "fixed") {method : PyDict String} {sol : PyDict V} {p : List K} {T : Traj K}
    (hT : Holding w d.ocp M sol p T) (hp : ValidWidths M.orders.length d.ocp.nPhases p) :
    ∃ e res, s.solvedAt w sol p = .ok e ∧ e.dynResiduals none none false = .ok res ∧
      (∀ P, s.probe w method sol p = .ok P → P.residuals = res.map (·.2) ∧
        P.Full M.orders.length d.ocp.nPhases ∧
        ∀ m, P.Largest d.ocp.nPhases m →
          LargestDefect d.ocp M e.traj (max (M.orders.sum + 2) (s.maxGrid + 2)) m) ∧
      SameOn d.ocp M.N M.orders.length e.traj T ∧
      ((∀ q ∈ M.orders, (M.nodes q).Pairwise (· < ·)) → (method.get? "method" = some "control_slope" →
        ∀ ph < d.ocp.nPhases, T.t0 ph < T.tf ph) →
        ∃ P, s.probe w method sol p = .ok P ∧ (method.get? "method" = some "control_slope" →
          P.slopes.length = d.ocp.nPhases ∧ ∀ sd ∈ P.slopes, sd.OK)) := by
  obtain ⟨e, e1, e2, e3, e4, e5, e6, -, e8⟩ := h.solvedAt honM hv hsc hT
  have hph := hp.phases honM e3 e4
  obtain ⟨res, r1, r2, r3⟩ := e2.residual_table hlt (by rw [e6, e3, hgt]) hph (by rw [e3]; exact hnx)
  have hcount : e.fixedCount = max (M.orders.sum + 2) (s.maxGrid + 2) := by
    unfold Solved.fixedCount; rw [e3, e5, honM.orders]
  rw [hcount] at r3
  rw [e3] at r2 r3
  refine ⟨e, res, e1, r1, ?_, e8, ?_⟩
  · intro P hP
    unfold HOpt.probe at hP
    rw [e1, py_bind_ok, r1, py_bind_ok] at hP
    simp only [py_bind_eq_ok, py_pure_eq_ok] at hP
    obtain ⟨sl, -, rfl⟩ := hP
    refine ⟨rfl, ?_, ?_⟩
    · intro ph hph
      obtain ⟨errs, k1, k2, k3, -⟩ := r3 ph hph
      exact ⟨errs, k1, k2, k3⟩
    · rintro m ⟨m1, m2, m3⟩
      have hiff : ∀ ph < d.ocp.nPhases, ∀ v, Probe.Entry ⟨res.map (·.2), sl⟩ ph v ↔
          ChecksTo d.ocp M e.traj (max (M.orders.sum + 2) (s.maxGrid + 2)) ph v := by
        intro ph hph v
        obtain ⟨errs, k1, -, -, k4⟩ := r3 ph hph
        rw [← k4 v]
        constructor
        · rintro ⟨errs', rows, j1, j2, j3⟩
          have j1 : (res.map (·.2))[ph]? = some errs' := j1
          rw [k1] at j1; cases j1
          exact ⟨rows, j2, j3⟩
        · rintro ⟨rows, j2, j3⟩
          exact ⟨errs, rows, k1, j2, j3⟩
      refine ⟨m1, fun ph hph v hv => m2 ph hph v ((hiff ph hph v).2 hv), fun hm => ?_⟩
      obtain ⟨ph, hph, v, j1, j2⟩ := m3 hm
      exact ⟨ph, hph, v, (hiff ph hph v).1 j1, j2⟩
  · intro hord htimes
    unfold HOpt.probe
    rw [e1, py_bind_ok, r1, py_bind_ok]
    by_cases hm : method.get? "method" = some "control_slope"
    · rw [if_pos hm, hs]
      have hsd : ∀ ph, ∃ sd : SlopeData K, ph < d.ocp.nPhases → e.slopeData ph = .ok sd ∧ sd.OK := by
        intro ph
        by_cases hp' : ph < d.ocp.nPhases
        · obtain ⟨sd, k1, k2⟩ := e2.slopeData_ok hlt (by rw [e6, e3, hgt]) hord (ph := ph) (by rw [e3]; exact hp')
            (hph ph (by rw [e3]; exact hp')) (by rw [e8.t0 ph hp', e8.tf ph hp']; exact htimes hm ph hp')
          exact ⟨sd, fun _ => ⟨k1, k2⟩⟩
        · exact ⟨⟨[], [], 0, 0⟩, fun hh => absurd hh hp'⟩
      choose sd hsd using hsd
      rw [mapM_ok e.slopeData sd (List.range d.ocp.nPhases) fun ph hp' => (hsd ph (by simpa using hp')).1, py_bind_ok]
      refine ⟨_, rfl, fun _ => ⟨by simp, fun x hx => ?_⟩⟩
      obtain ⟨ph, hp', rfl⟩ := List.mem_map.1 hx
      exact (hsd ph (by simpa using hp')).2
    · rw [if_neg hm, py_bind_ok]
      exact ⟨_, rfl, fun hh => absurd hh hm⟩

/-! ### C61: the reported error -/

/-- The method that `mpopt_options` asks for; without options it is `residual`. -/
def asksFor (method : PyDict String) : Option String :=
  if method.isEmpty then some "residual" else method.get? "method"

theorem hMethodDict_method (m : PyDict String) : (hMethodDict m).get? "method" = asksFor m := by
  unfold hMethodDict asksFor
  cases m with
  | nil => rfl
  | cons a l => rfl

variable [FloorRing K]

theorem HOpt.Coherent.solve_inv {nlpsol : Nat → SolverCall K V → Py (PyDict V)} {s : HOpt K V} (h : s.Coherent w d)
    {a : HArgs V} {s' : HOpt K V} {sol : PyDict V} (hsol : s.solve w nlpsol a = (s', .ok sol)) :
    ∃ s1 E, s1.Coherent w d ∧ s.Same s1 ∧ s1.widths = s.widths ∧ s1.env w nlpsol (hMethodDict a.method) = .ok E ∧
      (E.solve a.initial s.widths a.maxIter).2 = .ok sol ∧
      s' = { s1 with widths := (E.solve a.initial s.widths a.maxIter).1.sw,
                     iterCount := (E.solve a.initial s.widths a.maxIter).1.count,
                     iterInfo := (E.solve a.initial s.widths a.maxIter).1.info } := by
  obtain ⟨g1, g2, g3⟩ := h.createSolver a.plugin (hSolverDict w.zero a.options)
  have key : ∀ (s1 : HOpt K V) (r : Py Unit), s1.Coherent w d → s.Same s1 → s1.widths = s.widths →
      (match r with
        | .error e => (s1, .error e)
        | .ok _ =>
          match s1.env w nlpsol (hMethodDict a.method) with
          | .error e => ({ s1 with iterCount := 0, iterInfo := [] }, .error e)
          | .ok E =>
            let (st, r) := E.solve a.initial s1.widths a.maxIter
            ({ s1 with widths := st.sw, iterCount := st.count, iterInfo := st.info }, r)) = (s', Except.ok sol) →
      ∃ s1 E, s1.Coherent w d ∧ s.Same s1 ∧ s1.widths = s.widths ∧ s1.env w nlpsol (hMethodDict a.method) = .ok E ∧
        (E.solve a.initial s.widths a.maxIter).2 = .ok sol ∧
        s' = { s1 with widths := (E.solve a.initial s.widths a.maxIter).1.sw,
                       iterCount := (E.solve a.initial s.widths a.maxIter).1.count,
                       iterInfo := (E.solve a.initial s.widths a.maxIter).1.info } := by
    rintro s1 (e | _) h1 h2 h3 hout
    · have := (Prod.mk.inj hout).2; cases this
    · cases hE : s1.env w nlpsol (hMethodDict a.method) with
      | error e => rw [hE] at hout; have := (Prod.mk.inj hout).2; cases this
      | ok E =>
        rw [hE] at hout
        simp only [Prod.mk.injEq] at hout
        rw [h3] at hout
        exact ⟨s1, E, h1, h2, h3, hE, hout.2, hout.1.symm⟩
  unfold HOpt.solve at hsol
  by_cases hi : s.initialized = false ∨ a.reinitialize = true
  · rw [if_pos hi] at hsol
    generalize s.createSolver w a.plugin (hSolverDict w.zero a.options) = out at *
    obtain ⟨s1, r⟩ := out
    exact key s1 r g1 g2 g3 hsol
  · rw [if_neg hi] at hsol
    exact key s (.ok ()) h (.refl s) rfl hsol

theorem HOpt.run_append {nlpsol : Nat → Nat → SolverCall K V → Py (PyDict V)} (c : HStart V × HArgs V) :
    ∀ (pre : List (HStart V × HArgs V)) (n : Nat) (s : HOpt K V) (last : Option (PyDict V)),
      s.run w nlpsol (pre ++ [c]) n last =
        (let r := s.run w nlpsol pre n last
         let out := r.1.solve w (nlpsol (n + pre.length)) { c.2 with initial := c.1.value r.2 }
         (out.1, out.2.toOption)) := by
  intro pre
  induction pre with
  | nil => intro n s last; rfl
  | cons b pre ih =>
    intro n s last
    have := ih (n + 1) (s.solve w (nlpsol n) { b.2 with initial := b.1.value last }).1
      (s.solve w (nlpsol n) { b.2 with initial := b.1.value last }).2.toOption
    rw [show n + 1 + pre.length = n + (b :: pre).length by simp; omega] at this
    exact this

variable {nlpsol : Nat → Nat → SolverCall K V → Py (PyDict V)}
variable {ocp : OCP K} {ptp : List (List Nat)} {n : Nat} {arg : OrdersArg} {scheme : String}
  {lbh ubh tol : List K} {rx rdx : Bool} {s : HOpt K V}

/-- A vector of the right length holds a trajectory at widths of the right length. -/
theorem exists_holding (honM : d.OnMesh M) (hv : ValidOCP d.ocp) (hsc : d.ocp.PosScales) {sol : PyDict V} {z p : List K}
    (hz : Returned w sol z) (hl : z.length = d.allVars.length) (hp : p.length = d.widthParams.length) :
    ∃ T, Holding w d.ocp M sol p T := by
  have hseg : M.orders.length = d.nSegments := by rw [honM.orders, honM.segments]
  refine ⟨physOf d.ocp (d.envOf z p), ?_, ?_⟩
  · rw [honM.N_eq, pack_decoded hv hsc hl hp]; exact hz
  · rw [hseg, packWidths_eq]
    conv_lhs => rw [← (Disc.envOf_map hl hp).2]
    apply List.map_congr_left
    intro s hs
    obtain ⟨ph, -, i, -, rfl⟩ := Disc.mem_widthParams.1 hs
    rfl

/-- **C61** What `solve` reports about the solution it returns. After any calls on an `mpopt_h_adaptive` object whose
last one returned a solution, `iter_info[iter_count]` is `None` when there is one segment or no method is known;
otherwise, if the stored widths are positive with sum 1 in every phase, it is the largest absolute scaled defect of the
returned trajectory, at the stored widths, over the check points of all phases (`grid_type` is `"fixed"`, any
`_MAX_GRID_POINTS`). Of the solver it is only assumed that
the vectors it returns are as long as those it was given. -/
theorem C61_reported_error (hf : s.Ready w ocp n arg scheme lbh ubh tol) (hv : ValidOCP ocp) (hs : ocp.SettingsOK)
    (hsc : ocp.PosScales) (hM : MeshFor w.toOutside scheme n arg M) (hlt : w.tau0 < w.tau1)
    (hgt : s.gridType = List.replicate ocp.nPhases "fixed")
    (hvec : ∀ i k c sol, nlpsol i k c = .ok sol → ∃ z, Returned w sol z ∧ z.length = c.solver.problem.x.length)
    {pre : List (HStart V × HArgs V)} {st : HStart V} {a : HArgs V} (ho : OwnStarts (pre ++ [(st, a)]))
    {s' : HOpt K V} {sol : PyDict V} (hrun : s.run w nlpsol (pre ++ [(st, a)]) 0 none = (s', some sol)) :
    (n = 1 ∨ (asksFor a.method ≠ some "residual" ∧ asksFor a.method ≠ some "control_slope") →
      infoAt s'.iterInfo s'.iterCount = some none) ∧
    ∀ sw, s'.widths = some sw → ValidWidths n ocp.nPhases sw → n ≠ 1 →
      asksFor a.method = some "residual" ∨ asksFor a.method = some "control_slope" →
      ∃ T e, Holding w ocp M sol sw T ∧ LargestDefect ocp M T (max (M.orders.sum + 2) (s.maxGrid + 2)) e ∧
        infoAt s'.iterInfo s'.iterCount = some (some e) := by
  obtain ⟨d, honM, rfl, rfl, -, hc⟩ := hf.coherent hM
  have hseg : M.orders.length = d.nSegments := by rw [honM.orders, honM.segments]
  obtain ⟨-, -, k3⟩ := hc.run (nlpsol := nlpsol) ho (n := 0) (last := none) (fun _ h => by cases h)
  rw [hrun] at k3
  obtain ⟨c, ⟨i, k, hk⟩, c2, c3, c4⟩ := k3 sol rfl
  obtain ⟨hcp, hsame, -⟩ := hc.run (nlpsol := nlpsol) (calls := pre)
    (fun x hx => ho x (List.mem_append_left _ hx)) (n := 0) (last := none) (fun _ h => by cases h)
  rw [HOpt.run_append] at hrun
  simp only at hrun
  generalize hr : s.run w nlpsol pre 0 none = r at hrun hcp hsame
  have hstep : r.1.solve w (nlpsol (0 + pre.length)) { a with initial := st.value r.2 } = (s', .ok sol) := by
    obtain ⟨h1, h2⟩ := Prod.mk.inj hrun
    refine Prod.ext h1 ?_
    show (r.1.solve w (nlpsol (0 + pre.length)) { a with initial := st.value r.2 }).2 = .ok sol
    rcases hx : (r.1.solve w (nlpsol (0 + pre.length)) { a with initial := st.value r.2 }).2 with e | v
    · rw [hx] at h2; cases h2
    · rw [hx] at h2; cases h2; rfl
  obtain ⟨s1, E, h1, h2, h3, h4, h5, h6⟩ := hcp.solve_inv hstep
  obtain ⟨p, m, new, err, i1, i2, i3⟩ := solve_info h5
  obtain ⟨j0, j1, j2, j3, j4, -⟩ := HConfig.env_inv h4
  have hsocp : s1.ocp = d.ocp := by rw [h2.ocp, hsame.ocp, hf.ocp]
  have hsn : s1.nSegments = d.nSegments := by rw [h2.nSegments, hsame.nSegments, hf.nSegments]
  have hEn : E.nSegments = d.nSegments := by rw [j1]; exact hsn
  have hinfo : infoAt s'.iterInfo s'.iterCount = some err := by rw [h6]; exact i3
  have hwid : s'.widths = some p := by rw [h6]; exact i1
  have hasks : (s1.config w (hMethodDict a.method)).options.get? "method" = asksFor a.method := hMethodDict_method _
  constructor
  · intro hno
    rw [hinfo]
    congr 1
    unfold HEnv.widths at i2
    by_cases hn1 : d.nSegments = 1
    · rw [if_pos (by rw [hEn]; exact hn1)] at i2
      cases i2; rfl
    · rw [if_neg (by rw [hEn]; exact hn1)] at i2
      simp only [py_bind_eq_ok] at i2
      obtain ⟨⟨new', err'⟩, i4, i5⟩ := i2
      cases i5
      rw [j4] at i4
      rcases hno with hno | ⟨hno1, hno2⟩
      · exact absurd hno hn1
      · simp only [HConfig.refine] at i4
        rw [hasks] at i4
        split at i4
        · rename_i hh; exact absurd hh hno2
        · rename_i hh; exact absurd hh hno1
        · cases i4; rfl
  · intro sw hsw hval hn1 hmeth
    rw [hwid] at hsw; cases hsw
    have hcp' : p = c.p := by
      have c4 : s'.widths = some c.p := c4
      rw [hwid] at c4; exact Option.some.inj c4
    obtain ⟨z, hz, hzl⟩ := hvec i k c sol hk
    obtain ⟨bs, J, nlp, hn', -, -, -, hx, -, -, hpp, -⟩ := honM.createNlp_spec hv hs hsc
    rw [c2] at hn'; cases hn'
    have hzl' : z.length = d.allVars.length := by rw [hzl, c3, hx]; rfl
    have hpl : p.length = d.widthParams.length := by
      rw [hval.1]; unfold Disc.widthParams; rw [length_flatMap_range, Nat.mul_comm]
    obtain ⟨T, hT⟩ := exists_holding honM hv hsc hz hzl' hpl
    unfold HEnv.widths at i2
    rw [if_neg (by rw [hEn]; exact hn1)] at i2
    simp only [py_bind_eq_ok] at i2
    obtain ⟨⟨new', err'⟩, i4, i5⟩ := i2
    cases i5
    rw [j4] at i4
    have hval' : ValidWidths M.orders.length d.ocp.nPhases p := by rw [hseg]; exact hval
    obtain ⟨e, res, -, -, q3, q4, -⟩ := h1.probe hsocp honM hv hsc hs.nx (by rw [hM.tau0, hM.tau1]; exact hlt)
      (by rw [h2.gridType, hsame.gridType]; exact hgt) (method := hMethodDict a.method) hT hval'
    obtain ⟨P, m', hP, rfl, hL⟩ := refine_error (C := s1.config w (hMethodDict a.method))
      (Nat.pos_of_ne_zero j0) (by
        unfold HConfig.Measuring
        rw [hasks]
        exact hmeth.symm) (P := s1.probe w (hMethodDict a.method) sol p) (by
        intro P hP
        have := (q3 P hP).2.1
        rw [hseg] at this
        show P.Full s1.nSegments s1.ocp.nPhases
        rw [hsn, hsocp]; exact this) i4
    have hL : P.Largest s1.ocp.nPhases m' := hL
    rw [hsocp] at hL
    have hdef := (q3 P hP).2.2 m' hL
    rw [h2.maxGrid, hsame.maxGrid] at hdef
    refine ⟨e.traj, m', ?_, hdef, hinfo⟩
    exact hT.congr q4

end MPOpt
