import Verif.Props.Resolve
import Verif.Props.HStop
import Verif.Props.AdaptiveEndExample

/-! # C75 for `mpopt_h_adaptive`: calls with `reinitialize_nlp=True`, and concrete runs for C75 -/

set_option autoImplicit false
set_option linter.unusedSectionVars false

namespace MPOpt
variable {K V : Type} [Field K] [LinearOrder K] [IsStrictOrderedRing K] [FloorRing K]
variable {w : HOutside K V} {M : Mesh K} {ptp : List (List Nat)} {rx rdx : Bool}
  {nlpsol : Nat → SolverCall K V → Py (PyDict V)}

theorem HOpt.createSolver_ready {s s1 : HOpt K V} {plugin : String} {options : PyDict V}
    (hlen : s.orders.length = s.nSegments) (h : s.createSolver w plugin options = (s1, .ok ())) :
    s1.Ready w s.ocp s.nSegments (.list s.orders) s.scheme s.lbh s.ubh s.tol ∧ s1.initialized = true ∧ s.Same s1 ∧
      s1.widths = s.widths := by
  unfold HOpt.createSolver at h
  split at h
  · cases h
  · rename_i nlp hn
    simp only at h
    split at h
    · cases h
      simp only [py_bind_eq_ok] at hn
      obtain ⟨d, h1, h2⟩ := hn
      refine ⟨⟨rfl, rfl, rfl, hlen, rfl, rfl, rfl, rfl, fun d' sol h3 h4 => ?_, fun d' b h3 h4 => ?_,
        fun _ => ⟨rfl, rfl⟩⟩, rfl, ⟨rfl, rfl, rfl, rfl, rfl, rfl, rfl, rfl, rfl, rfl, rfl⟩, rfl⟩
      · have h3 : s.disc w = .ok d' := h3
        rw [h1] at h3; cases h3; cases h4; exact h2
      · have h3 : s.disc w = .ok d' := h3
        rw [h1] at h3; cases h3; cases h4; exact h2
    · cases h

/-- A call that makes the solver object is a call on an object with that solver. -/
theorem HOpt.solve_reinit {s s' : HOpt K V} {a : HArgs V} {sol : PyDict V}
    (hi : s.initialized = false ∨ a.reinitialize = true) (h : s.solve w nlpsol a = (s', .ok sol)) :
    ∃ s1, s.createSolver w a.plugin (hSolverDict w.zero a.options) = (s1, .ok ()) ∧
      (s1.initialized = true → s1.solve w nlpsol { a with reinitialize := false } = (s', .ok sol)) := by
  unfold HOpt.solve at h
  rw [if_pos hi] at h
  generalize hcs : s.createSolver w a.plugin (hSolverDict w.zero a.options) = out at h
  obtain ⟨s1, r⟩ := out
  cases r with
  | error e => cases h
  | ok u =>
    refine ⟨s1, rfl, fun hini => ?_⟩
    unfold HOpt.solve
    rw [if_neg (by simp [hini])]
    exact h

/-- **C75** `mpopt_h_adaptive` objects and `reinitialize_nlp=True`, in whatever state the object is (other problems,
meshes and settings may have been assigned): when the call and `process_results` return and the solver is sound, either
the trajectory shown solves the problem `self._ocp` with the stored widths, or the solver was not asked: the initial
solution of the caller is returned, with the widths the object had (equal widths if it had none), because the largest
absolute defect of the dynamics *of the current problem* along it is below every entry of `tol_residual`. Nothing else
of the problem is looked at in that case, see `C75_h_stale_false`. -/
theorem C75_h_resolve {s s' : HOpt K V} {a : HArgs V} {sol : PyDict V} (ha : a.reinitialize = true)
    (hlen : s.orders.length = s.nSegments) (hv : ValidOCP s.ocp) (hs : s.ocp.SettingsOK) (hsc : s.ocp.PosScales)
    (hM : MeshFor w.toOutside s.scheme s.nSegments (.list s.orders) M) (hlt : w.tau0 < w.tau1)
    (hgt : s.gridType = List.replicate s.ocp.nPhases "fixed")
    (hsound : ∀ k c sol, nlpsol k c = .ok sol → ∃ z, Returned w sol z ∧ c.IsSolution z)
    (hrun : s.solve w nlpsol a = (s', .ok sol))
    {p : Post K} {r : Option (PyDict (ResidVal K))} (hp : s'.processResults w sol ptp false rx rdx = .ok (p, r)) :
    (∃ T, SolvesOCP s.ocp M T ∧ p.Shows s.ocp M T ∧ s'.widths = some (s.ocp.packWidths s.nSegments T)) ∨
    (a.initial = some sol ∧ ∃ sw, s'.widths = some sw ∧
      sw = s.widths.getD (List.replicate (s.nSegments * s.ocp.nPhases) (1 / (s.nSegments : K))) ∧
      ((∃ T, Holding w s.ocp M sol sw T) → ValidWidths s.nSegments s.ocp.nPhases sw → ∃ T e,
        Holding w s.ocp M sol sw T ∧ LargestDefect s.ocp M T (max (M.orders.sum + 2) (s.maxGrid + 2)) e ∧
        ∀ t ∈ s.tol, e < t)) := by
  obtain ⟨s1, h1, h2⟩ := HOpt.solve_reinit (Or.inr ha) hrun
  obtain ⟨hr, hini, hsame, hwd⟩ := HOpt.createSolver_ready hlen h1
  have hrun' := h2 hini
  obtain ⟨d, honM, hocp, hnseg, -, hc⟩ := hr.coherent hM
  have hseg : M.orders.length = d.nSegments := by rw [honM.orders, honM.segments]
  obtain ⟨k1, -, -⟩ := hc.solve (nlpsol := nlpsol) { a with reinitialize := false }
  rw [hrun'] at k1
  obtain ⟨s2, E, g1, g2, g3, g4, g5, g6⟩ := hc.solve_inv hrun'
  simp only at g5 g6
  obtain ⟨j0, j1, j2, j3, j4, j5, ta, tl, j6, j7⟩ := HConfig.env_inv g4
  obtain ⟨-, i2, i3⟩ := C36_consistent_pair E a.initial s1.widths a.maxIter
  rcases i3 sol g5 with ⟨pre, c, e1, e2, e3⟩ | ⟨-, e1, e2, new, err, e3, e4⟩
  · -- a call of the solver
    left
    have := i2 pre.length c (by rw [e1]; simp)
    rw [j3] at this
    simp only [py_bind_eq_ok] at this
    obtain ⟨sc, c1, c2⟩ := this
    obtain ⟨d1, d2, d3⟩ := g1.call c1
    obtain ⟨sw, v, z, q1, q2, q3, q4, q5, q6, q7⟩ := k1.processResults hp
    obtain ⟨z', hz', hsol⟩ := hsound _ sc sol (by rw [c2, e2])
    have : z' = z := hz'.unique ⟨v, q2, q3⟩
    subst this
    have hsw : sw = sc.p := by
      have c4 : s'.widths = some c.p := by rw [g6]; exact e3
      rw [q1] at c4
      rw [d3]; exact Option.some.inj c4
    subst hsw
    subst q4
    rw [← hocp] at hv hs hsc
    obtain ⟨-, t1, t2, t3⟩ := shown_of_solution (a := ({ initial := none, reinitialize := false, widths := some sc.p, plugin := "", options := [] } : SolveArgs K V)) hv hs hsc honM
      rfl rfl q5 q6 q7 d1 d2 rfl hsol
    rw [hocp] at t1 t3
    refine ⟨_, t1, t3, ?_⟩
    rw [q1, ← hocp, ← hnseg]; exact congrArg some t2.symm
  · right
    have hE : E.dflt = List.replicate (s.nSegments * s.ocp.nPhases) (1 / (s.nSegments : K)) := by
      rw [j2]
      show List.replicate (s2.nSegments * s2.ocp.nPhases) (1 / (s2.nSegments : K)) = _
      rw [g2.nSegments, g2.ocp, hsame.nSegments, hsame.ocp]
    refine ⟨e1, s1.widths.getD E.dflt, by rw [g6]; exact e2, by rw [hE, hwd], fun hex hval => ?_⟩
    obtain ⟨T, hT⟩ := hex
    rw [j4] at e3
    have hsocp : s2.ocp = d.ocp := by rw [g2.ocp, hsame.ocp, hocp]
    have hsn : s2.nSegments = d.nSegments := by rw [g2.nSegments, hsame.nSegments, hnseg]
    rw [← hocp] at hv hs hsc hT hgt
    have hval' : ValidWidths M.orders.length d.ocp.nPhases (s1.widths.getD E.dflt) := by
      rw [hseg, hnseg, hocp]; exact hval
    obtain ⟨e, res, -, -, q3, q4, -⟩ := g1.probe hsocp honM hv hsc hs.nx (by rw [hM.tau0, hM.tau1]; exact hlt)
      (by rw [g2.gridType, hsame.gridType]; exact hgt) (method := hMethodDict a.method) hT hval'
    have hmeas : (s2.config w (hMethodDict a.method)).Measuring := by
      unfold HConfig.Measuring
      unfold HConfig.refine at e3
      split at e3
      · rename_i h; exact Or.inl h
      · rename_i h; exact Or.inr h
      · cases e3
    obtain ⟨P, m', hP, hm', hL⟩ := refine_error (C := s2.config w (hMethodDict a.method))
      (Nat.pos_of_ne_zero j0) hmeas (P := s2.probe w (hMethodDict a.method) sol (s1.widths.getD E.dflt)) (by
        intro P hP
        have := (q3 P hP).2.1
        rw [hseg] at this
        show P.Full s2.nSegments s2.ocp.nPhases
        rw [hsn, hsocp]; exact this) e3
    cases hm'
    have hL : P.Largest s2.ocp.nPhases err := hL
    rw [hsocp] at hL
    have hdef := (q3 P hP).2.2 err hL
    rw [g2.maxGrid, hsame.maxGrid] at hdef
    have hT' := hT.congr q4
    rw [hocp] at hdef hT'
    refine ⟨e.traj, err, hT', hdef, fun t ht => ?_⟩
    have j6 : s2.tol = ta :: tl := j6
    rw [← hsame.tol, ← g2.tol, j6] at ht
    rw [j7] at e4
    exact e4.trans_le (foldl_min_le tl ta t ht)

/-! ### Examples -/

/-- The problem with the target `x(tf) = 2` in place of 1. -/
def ocpFar : OCP ℚ := { ocpQ with terminalConstraints := [some ⟨1, fun t _ => t.xf.getD 0 0 - 2⟩] }

/-- Solve for the far target; move the target; assign the problem. -/
def historyR : List (Op ℚ Nat) := [.solve argsE, .editUser fun _ => ocpQ, .assign]

/-- The same without the assignment. -/
def historyS : List (Op ℚ Nat) := [.solve argsE, .editUser fun _ => ocpQ]

/-- The hypotheses of `C75_resolve` are met: after `historyR` a reinitialising call asks for the straight line to 1. -/
theorem exampleResolve : ∃ s₀ c, newSession ocpFar 1 (.int 1) "LGR" = .ok s₀ ∧
    (problemsAfter ocpFar historyR).current = ocpQ ∧
    ((s₀.run outsideQ historyR).1.opt.nSegments = 1 ∧ (s₀.run outsideQ historyR).1.opt.orders = [1]) ∧
    ((s₀.run outsideQ historyR).1.solve outsideQ { argsE with reinitialize := true }).2 = .ok c ∧
    c.IsSolution (ocpQ.packVec 2 trajE) ∧
    ∃ p r, ((s₀.run outsideQ historyR).1.solve outsideQ { argsE with reinitialize := true }).1.processResults outsideQ
      (ocpQ.packVec 2 trajE) [[0]] false false true = .ok (p, r) := by
  obtain ⟨hv, hs, hsc⟩ := ocpQ_ready
  have h0 : newSession (V := Nat) ocpFar 1 (.int 1) "LGR" =
      .ok ⟨[ocpFar, ocpFar], ⟨1, 1, [1], "LGR", 2, false, none, none, none⟩⟩ := by
    unfold newSession
    rw [show initOrders 1 (.int 1) = .ok ([1], 2) by decide +kernel]
    rfl
  generalize hs₀ : (⟨[ocpFar, ocpFar], ⟨1, 1, [1], "LGR", 2, false, none, none, none⟩⟩ : Session ℚ Nat) = s₀ at h0
  have hok : (((s₀.run outsideQ historyR).1.solve outsideQ { argsE with reinitialize := true }).2).isOk = true := by
    subst hs₀; decide +kernel
  have hpr : (((s₀.run outsideQ historyR).1.solve outsideQ { argsE with reinitialize := true }).1.processResults outsideQ
      (ocpQ.packVec 2 trajE) [[0]] false false true).isOk = true := by
    subst hs₀; decide +kernel
  have hmesh : (s₀.run outsideQ historyR).1.opt.nSegments = 1 ∧ (s₀.run outsideQ historyR).1.opt.orders = [1] := by
    subst hs₀; decide +kernel
  have hcur : (problemsAfter ocpFar historyR).current = ocpQ := rfl
  rcases hc : ((s₀.run outsideQ historyR).1.solve outsideQ { argsE with reinitialize := true }).2 with e | c
  · rw [hc] at hok; cases hok
  rcases hp : ((s₀.run outsideQ historyR).1.solve outsideQ { argsE with reinitialize := true }).1.processResults outsideQ
      (ocpQ.packVec 2 trajE) [[0]] false false true with e | ⟨p, r⟩
  · rw [hp] at hpr; cases hpr
  refine ⟨s₀, c, h0, hcur, hmesh, hc, ?_, p, r, hp⟩
  obtain ⟨hocp, hsch⟩ := C75_current_problem outsideQ h0 historyR
  rw [hcur] at hocp
  have hM : MeshFor outsideQ (s₀.run outsideQ historyR).1.opt.scheme (s₀.run outsideQ historyR).1.opt.nSegments
      (.list (s₀.run outsideQ historyR).1.opt.orders) meshE := by
    rw [hsch, hmesh.1, hmesh.2]
    exact ⟨meshE_for.good, rfl, rfl, rfl, meshE_for.nodes⟩
  obtain ⟨h2, h3, h4, h5, h6, h7, h8, h9, hW, h10⟩ := resolve_pieces (Or.inr rfl) hocp (by rw [hmesh.1, hmesh.2]; rfl) hM
    hc hp
  rw [← h3] at hv hs hsc
  have hwl : c.p.length = p.solved.disc.widthParams.length := by
    have h10 : equalWidths (s₀.run outsideQ historyR).1.opt.nSegments ocpQ.nPhases = .ok c.p := h10
    rw [hmesh.1, show equalWidths 1 ocpQ.nPhases = .ok ([1] : List ℚ) by decide +kernel] at h10
    rw [← Except.ok.inj h10]
    unfold Disc.widthParams
    rw [h3, h4, hmesh.1]; rfl
  obtain ⟨k1, -⟩ := call_trajectories (req := (none : Option (List ℚ))) h2 hv hs hsc h8 h9 hwl (by rw [h4, h3]; exact h10)
  rw [h3, h4, hmesh.1] at k1
  refine (k1 _).2 ⟨trajE, trajE_solves, ?_, rfl⟩
  intro ph _ s _; simp [trajE]

/-- So a trajectory to the new target is shown. -/
example : ∃ T, SolvesOCP ocpQ meshE T := by
  obtain ⟨hv, hs, hsc⟩ := ocpQ_ready
  obtain ⟨s₀, c, h0, h1, h2, h3, h4, p, r, h5⟩ := exampleResolve
  obtain ⟨T, -, -, -, hT, -⟩ := C75_resolve h0 historyR h1 hv hs hsc h2 rfl
    ⟨meshE_for.good, rfl, rfl, rfl, meshE_for.nodes⟩ rfl h3 h4 h5
  exact ⟨T, hT⟩

/-- Without the assignment the object still has the far target, whatever the user wrote into their problem. -/
example : (problemsAfter ocpFar historyS).current = ocpFar :=
  C75_unassigned_edits ocpFar (fun o ho => by
    simp only [historyS, List.mem_cons, List.not_mem_nil, or_false] at ho
    rcases ho with rfl | rfl
    · exact Or.inr ⟨_, rfl⟩
    · exact Or.inl ⟨_, rfl⟩)

/-- The hypotheses of `C75_adaptive_resolve` are met, for the object whose problem was exchanged after its
construction. -/
example : ∃ (nlpsol : SolverCall ℚ Nat → Py (List ℚ)) (s' : AdaptOpt ℚ Nat) (z : List ℚ) (out : _),
    (∀ c z, nlpsol c = .ok z → c.IsOptimal z) ∧
      ({ { adaptE with ocp := ocpFar } with ocp := ocpQ } : AdaptOpt ℚ Nat).solve outsideQ nlpsol
        { argsE with reinitialize := true } = (s', .ok z) ∧
      s'.processResults outsideQ [[0]] false false true = .ok out := by
  obtain ⟨nlpsol, z, out, h1, h2, h3⟩ := exampleAdaptive
  exact ⟨nlpsol, _, z, out, h1, Prod.ext rfl h2, h3⟩

/-- The hypotheses of `C75_h_resolve` are met, with a solver that is asked. -/
example : ∃ s' sol out, hoptH.solve outsideH (nlpsolH 0) ⟨none, true, "ipopt", [], [("method", "control_slope")], 4⟩ =
      (s', .ok sol) ∧ s'.processResults outsideH sol [[0]] false false true = .ok out := by
  obtain ⟨hv, hs, hsc⟩ := ocpQ_ready
  obtain ⟨s', sol, p, h1, -, -, out, h2⟩ := C62_h_returns (ptp := [[0]]) (rx := false) (rdx := true) (nlpsol := nlpsolH)
    (calls := [(.fresh, ⟨none, true, "ipopt", [], [("method", "control_slope")], 4⟩)])
    hoptH_fresh.ready hv hs hsc meshH_for (by norm_num [outsideH]) (by intro q _; simp [meshH]) rfl rfl rfl
    rfl (by norm_num [hoptH]) (fun _ h => nomatch h) (by
      intro ph l u hl hu
      match ph with
      | 0 => cases hl; cases hu; norm_num
      | ph + 1 => cases hl) (fun l => abs_nonneg _) (by
      intro ph hp
      obtain rfl : ph = 0 := by simpa [ocpQ] using hp
      simp [ocpQ, entry]) (by simp) (by
      intro c hc x
      simp only [List.mem_cons, List.not_mem_nil, or_false] at hc
      subst hc; simp) (by
      intro c hc
      simp only [List.mem_cons, List.not_mem_nil, or_false] at hc
      subst hc; exact ⟨by simp, rfl⟩) (fun i k c hc => by
      obtain ⟨a, a0, a1, ha, hk⟩ := nlpsolH_answers hc
      refine ⟨_, hk i k, ⟨⟨trajH a, ⟨⟨_, rfl, rfl⟩, ?_⟩, fun _ ph _ => by simp [trajH]⟩, ?_⟩⟩
      · rw [ha]
        simp [OCP.packWidths, trajH, ocpQ, List.range_succ, meshH, hoptH]
      · rintro ⟨c, hc, hm, -⟩
        exfalso
        simp only [List.mem_cons, List.not_mem_nil, or_false] at hc
        subst hc
        exact absurd hm (by decide +kernel)) (by simp)
  refine ⟨s', sol, out, ?_, h2⟩
  obtain ⟨e1, e2⟩ := Prod.mk.inj h1
  refine Prod.ext e1 ?_
  have e2 : (hoptH.solve outsideH (nlpsolH 0)
    ⟨none, true, "ipopt", [], [("method", "control_slope")], 4⟩).2.toOption = some sol := e2
  generalize (hoptH.solve outsideH (nlpsolH 0) ⟨none, true, "ipopt", [], [("method", "control_slope")], 4⟩).2 = q at *
  cases q with
  | error e => cases e2
  | ok v => cases e2; rfl

/-- What a first call on `hoptH` returns: the straight line to 1, with two equal segments. -/
def lineH : PyDict (List ℚ) := [("x", [0, 1, 2, 1, 1, 1, 0, 1])]

/-- **C75 for `mpopt_h_adaptive`: an edited problem need not be solved.** After a first call that returned the straight
line to 1, the target of `self._ocp` is moved to 2 and `solve(solution, reinitialize_nlp=True)` is called: the old
solution is returned without asking the solver (here it would raise), although it misses the new target. -/
theorem C75_h_stale_false :
    ∃ s1 s2, hoptH.solve outsideH (fun _ _ => .ok lineH) ⟨none, false, "ipopt", [], [], 3⟩ = (s1, .ok lineH) ∧
      ({ s1 with ocp := ocpFar } : HOpt ℚ (List ℚ)).solve outsideH (fun _ _ => .error .assertion)
        ⟨some lineH, true, "ipopt", [], [], 3⟩ = (s2, .ok lineH) ∧
      ∀ p T, Holding outsideH ocpFar meshH lineH p T → ¬ SolvesOCP ocpFar meshH T := by
  refine ⟨_, _, Prod.ext rfl (by decide +kernel), Prod.ext rfl (by decide +kernel), ?_⟩
  rintro p T ⟨⟨v, hv, hn⟩, -⟩ hT
  have hx : T.x 0 2 0 = 1 := by
    cases hv
    have : ocpFar.packVec meshH.N T = [0, 1, 2, 1, 1, 1, 0, 1] := (Except.ok.inj hn).symm
    have := congrArg (fun l => l.getD 2 0) this
    have : T.x 0 2 0 * 2 = 2 := by
      simpa [OCP.packVec, ocpFar, ocpQ, Mesh.N, meshH, List.range_succ] using this
    linarith
  have := hT.1.terminal 0 (by simp [ocpFar, ocpQ]) ⟨1, fun t _ => t.xf.getD 0 0 - 2⟩ rfl 0 Nat.one_pos
  have : T.x 0 2 0 - 2 = 0 := by simpa [OCP.tArg, ocpFar, ocpQ, Mesh.N, meshH] using this
  rw [hx] at this
  norm_num at this

end MPOpt
