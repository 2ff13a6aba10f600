import Verif.Props.PlotFigures
import Verif.Props.PlotVars
import Verif.Props.EndToEndExample
import Verif.Props.PostExamples

/-! # C71: the figures of `solve(…, plot=True)` -/

set_option autoImplicit false

namespace MPOpt

section
variable {K : Type} [Field K] [LinearOrder K] [IsStrictOrderedRing K] {V : Type}
  {w : Outside K V} {nlpsol : SolverCall K V → Py (List K)} {ocp : OCP K}
  {ptp : List (List Nat)} {n : Nat} {arg : OrdersArg} {scheme : String} {a : SolveArgs K V} {rx rdx : Bool}
  {s : Session K V} {p : Post K} {r : Option (PyDict (ResidVal K))} {M : Mesh K}

/-- The residuals stored by `solve`. -/
theorem mpSolve_residuals (h : mpSolve w nlpsol ocp ptp n arg scheme a rx rdx = .ok (s, p, r)) :
    residValue rx rdx (p.solved.stateResiduals none false) (p.solved.dynResiduals none none false)
      ResidVal.states ResidVal.dynamics = .ok r := by
  unfold mpSolve Session.processResults mkPost at h
  simp only [py_bind_eq_ok, py_pure_eq_ok] at h
  obtain ⟨s0, -, c, hc, z, hz, ⟨p', r'⟩, ⟨e, he, r'', hr, p'', ⟨q, -, hq⟩, hp⟩, h⟩ := h
  cases h
  cases hp
  cases hq
  exact hr

theorem phaseSlice_replicate {P ph : Nat} (hp : ph < P) (v : K) :
    phaseSlice n ph (List.replicate (n * P) v) = List.replicate n v := by
  unfold phaseSlice
  rw [List.drop_replicate, List.take_replicate]
  congr 1
  have : n * (ph + 1) ≤ n * P := Nat.mul_le_mul_left _ hp
  rw [Nat.mul_add] at this
  omega

/-- **C71** When `solve` is called without widths and returns, then `solve(…, plot=True)` draws for every entry of
`phases_to_plot` the states and controls of the phases in it and the dynamics residual of all phases (unless residuals
are not asked for). With both residuals it does so if and only if `max(Σ orders + 1, 16)` is at least twice the number of
segments, and raises `ValueError` otherwise. -/
theorem C71_solve_plot (hrun : mpSolve w nlpsol ocp ptp n arg scheme a rx rdx = .ok (s, p, r))
    (hv : ValidOCP ocp) (hs : ocp.SettingsOK) (hsc : ocp.PosScales) (hM : MeshFor w scheme n arg M)
    (hlt : w.tau0 < w.tau1) (hwid : a.widths = none)
    (hlen : ∀ c z, nlpsol c = .ok z → z.length = c.solver.problem.x.length)
    {F : Nat → VFun (PArg K) K} (hF : ∀ ph < ocp.nPhases, ocp.dynamics[ph]? = some (F ph))
    (hx : ocp.nx ≤ 15) (hu : ocp.nu ≤ 15) (hne : ptp ≠ [])
    (hptp : ∀ phases ∈ ptp, phases ≠ [] ∧ ∀ ph ∈ phases, ph < ocp.nPhases) :
    ∃ grids,
      (∀ ph < ocp.nPhases, p.solved.residualGrid ph (some "fixed") = .ok (some (grids.getD ph []))) ∧
      (rdx = false → mpSolvePlot w nlpsol ocp ptp n arg scheme a rx rdx =
        .ok ((s, p, r), ptp.map fun phases => .many (phaseAxes p M phases true ""))) ∧
      (rx = false → rdx = true → mpSolvePlot w nlpsol ocp ptp n arg scheme a rx rdx =
        .ok ((s, p, r), ptp.map fun phases =>
          .many (phaseAxes p M phases true "" ++ [dynamicsAxes p.solved M F grids (some "Time, s")]))) ∧
      (rx = true → rdx = true → mpSolvePlot w nlpsol ocp ptp n arg scheme a rx rdx =
        if 2 * n ≤ max (M.orders.sum + 1) 16 then
          .ok ((s, p, r), ptp.map fun phases => .many (phaseAxes p M phases true "" ++
            [statesAxes p.solved M F grids, dynamicsAxes p.solved M F grids none]))
        else .error .value) := by
  have hres := mpSolve_residuals hrun
  obtain ⟨orders, d, c', z', k1, k2, k3, k4, k5, k6, k7, k8⟩ := mpSolve_inv hrun
  obtain ⟨c, z, hz, h2, h3, h4, h5, h6, h7, h8, h9, h10⟩ := mpSolve_pieces hrun hM
  subst h3
  rw [hwid] at h10
  have hn0 : 0 < n := by
    rcases Nat.eq_zero_or_pos n with rfl | h0
    · simp [equalWidths] at h10
    · exact h0
  have hcp : c.p = List.replicate (n * p.solved.disc.ocp.nPhases) (1 / (n : K)) := by
    simp only [equalWidths, if_neg hn0.ne'] at h10
    injection h10 with h10
    exact h10.symm
  have hpw : ∀ ph < p.solved.disc.ocp.nPhases, p.solved.phaseWidths ph = List.replicate n (1 / (n : K)) := by
    intro ph hp
    have : p.solved.phaseWidths ph = phaseSlice p.solved.disc.nSegments ph p.solved.widths := rfl
    rw [this, h4, h5, hcp, phaseSlice_replicate hp]
  obtain ⟨bs, J, nlp, hn', -, -, -, hnx, -, -, hpp, -⟩ := h2.createNlp_spec hv hs hsc
  rw [h8] at hn'; cases hn'
  have hready : p.solved.Ready M := by
    refine ⟨h2, hv, ?_, ?_, fun s hs => (hsc.x s hs).ne', fun s hs => (hsc.u s hs).ne',
      fun s hs => (hsc.a s hs).ne'⟩
    · rw [h6, hlen c z hz, h9, hnx]; rfl
    · rw [h5, hcp, List.length_replicate, ← h4]
      unfold Disc.widthParams
      rw [length_flatMap_range]; exact Nat.mul_comm _ _
  have hnK : (0 : K) < n := by exact_mod_cast hn0
  have hwp : ∀ ph < p.solved.disc.ocp.nPhases,
      (∀ v ∈ p.solved.phaseWidths ph, 0 < v) ∧ (p.solved.phaseWidths ph).sum = 1 := by
    intro ph hp
    rw [hpw ph hp]
    refine ⟨fun v hv => ?_, ?_⟩
    · rw [List.eq_of_mem_replicate hv]; positivity
    · rw [List.sum_replicate, nsmul_eq_mul, mul_one_div_cancel hnK.ne']
  have hgt : p.solved.gridType = List.replicate p.solved.disc.ocp.nPhases "fixed" := by rw [k7]; congr 1; rw [k7] at *
  have hmax : p.solved.maxGrid = 15 := by rw [k7]
  have hltM : M.tau0 < M.tau1 := by rw [hM.tau0, hM.tau1]; exact hlt
  have hltc : p.solved.disc.colloc.tau0 < p.solved.disc.colloc.tau1 := by rw [← h2.tau0, ← h2.tau1]; exact hltM
  obtain ⟨grids, g1, g2, g3, g4⟩ := C71_figures hready hltM hgt hwp
    (fun ph hp => by rw [hpw ph hp, hpw 0 hv.phases]) hF hx hu hne hptp rx rdx hres
  have hplot : ∀ o, p.figures r ptp rx rdx = o →
      mpSolvePlot w nlpsol p.solved.disc.ocp ptp n arg scheme a rx rdx = (do let figs ← o; return ((s, p, r), figs)) := by
    rintro o rfl
    unfold mpSolvePlot
    rw [hrun, py_bind_ok]
  refine ⟨grids, g1, fun e1 => ?_, fun e1 e2 => ?_, fun e1 e2 => ?_⟩
  · rw [hplot _ (g2 e1)]; rfl
  · rw [hplot _ (g3 e1 e2)]; rfl
  · have hcount : p.solved.fixedCount - 1 = max (M.orders.sum + 1) 16 := by
      unfold Solved.fixedCount
      rw [hmax, ← h2.orders]
      omega
    have hsegs : M.orders.length = n := by rw [h2.orders, h2.segments, h4]
    have hsum : n ≤ p.solved.disc.orders.sum := by
      rw [← h2.orders, ← hsegs]
      have : ∀ l : List Nat, (∀ q ∈ l, 0 < q) → l.length ≤ l.sum := by
        intro l
        induction l with
        | nil => simp
        | cons q l ih =>
          intro hq
          have h1 := hq q (by simp)
          have h2 := ih fun x hx => hq x (by simp [hx])
          simp only [List.length_cons, List.sum_cons]
          omega
      exact this _ h2.good.pos
    have hall := fun ph (hp : ph < p.solved.disc.ocp.nPhases) =>
      C71_all_points hltc hn0 (hpw ph hp) hsum (g1 ph hp)
    rw [hcount] at hall
    split
    · rename_i hc
      rw [hplot _ ((g4 e1 e2).1 fun ph hp s' hs' => (hall ph hp).2 hc s' (by omega))]
      rfl
    · rename_i hc
      have hno : ∃ s' < n, (grids.getD 0 []).getD s' [] = [] := by
        by_contra hno
        push Not at hno
        exact hc ((hall 0 hv.phases).1 hno)
      obtain ⟨s', hs', h0⟩ := hno
      rw [hplot _ ((g4 e1 e2).2 ⟨0, hv.phases, s', by omega, h0⟩)]
      rfl

end

/-- The hypotheses are met by the run of `exampleE`: one figure with states, controls and dynamics residual. -/
theorem examplePlot : ∃ (nlpsol : SolverCall ℚ Nat → Py (List ℚ)) (out : _) (a b c : Axes ℚ),
    mpSolvePlot outsideQ nlpsol ocpQ [[0]] 1 (.int 1) "LGR" argsE false true = .ok (out, [.many [a, b, c]]) ∧
      a.curves.length = 2 * ocpQ.nx ∧ b.curves.length = 2 * ocpQ.nu ∧ c.curves.length = ocpQ.nx ∧
      c.ylabel = some "Dynamics error" := by
  obtain ⟨nlpsol, ⟨s, p, r⟩, h1, h2⟩ := exampleE
  obtain ⟨hv, hs, hsc⟩ := ocpQ_ready
  have hF : ∀ ph < ocpQ.nPhases, ocpQ.dynamics[ph]? = some (ocpQ.dynamics.getD ph ⟨0, fun _ _ => 0⟩) := by
    intro ph hp
    have : ph < ocpQ.dynamics.length := by rw [hv.dynamics]; exact hp
    rw [List.getD_eq_getElem _ _ this, List.getElem?_eq_getElem this]
  obtain ⟨c, z, -, -, h3, -⟩ := mpSolve_pieces h2 meshE_for
  obtain ⟨grids, -, -, h, -⟩ := C71_solve_plot h2 hv hs hsc meshE_for (by norm_num [outsideQ]) rfl
    (fun c z hz => (h1 c z hz).1.1) hF (by decide) (by decide) (by simp) (by simp [ocpQ])
  refine ⟨nlpsol, (s, p, r), _, _, _, h rfl rfl, ?_, ?_, ?_, rfl⟩ <;>
    simp [Mesh.lines, Mesh.points, h3, residAxes, two_mul, dynamicsAxes]

/-- The hypotheses of `C71_plot_phases`, `C71_plot_x`, `C71_plot_u` and `C71_plot_phase` are met. -/
example : ∃ (p : Post ℚ) (M : Mesh ℚ), postQ ocpQ [1, 1] [1/2, 1/2] zQ false = .ok p ∧ p.solved.Ready M ∧
    p.plotX (some (.flat [0])) [0] true false none (some (strokes 15)) =
      .ok (.one ⟨[stateCurve p M [0] false "-" (some "state") 0], some "Time, s", some "State variables", true⟩) ∧
    p.plotU (some (.flat [0])) [0] true true none none (some "control") (some "Control variables") =
      .ok (.one ⟨[controlCurve p M [0] false "." (some "control") 0, controlCurve p M [0] true "-" none 0],
        some "Time, s", some "Control variables", true⟩) ∧
    p.plotPhases none (some [0]) true false none (strokes 15) "" = .ok (.many (phaseAxes p M [0] true "")) ∧
    p.plotPhase none 0 true none = .ok none := by
  obtain ⟨e, M, nlp, he, hr, -⟩ := solvedQ_ready
  have ho : e.disc.ocp = ocpQ := by
    have : (solvedQ ocpQ [1, 1] [1/2, 1/2] ["mid-points"] 2 zQ).map (fun e => e.disc.ocp) = .ok e.disc.ocp := by
      rw [he]; rfl
    unfold solvedQ at he
    simp only [py_bind_eq_ok, py_pure_eq_ok] at he
    obtain ⟨d, hd, rfl⟩ := he
    exact (mkDisc_inv hd).2.1
  have hx : e.disc.ocp.nx = 1 := by rw [ho]; rfl
  have hu : e.disc.ocp.nu = 1 := by rw [ho]; rfl
  have hn : e.disc.ocp.nPhases = 1 := by rw [ho]; rfl
  refine ⟨⟨e, false, [0]⟩, M, ?_, hr, ?_, ?_, ?_, ?_⟩
  · unfold postQ; rw [he]; rfl
  · exact C71_plot_x (p := ⟨e, false, [0]⟩) hr (by simp) (by simp [hn]) (by simp) (by simp [hx]) (by simp) _ _
  · exact C71_plot_u (p := ⟨e, false, [0]⟩) hr (by simp) (by simp [hn]) (by simp) (by simp [hu]) (by simp) _ _ _ _
  · exact C71_plot_phases (p := ⟨e, false, [0]⟩) hr (by simp) (by simp [hn]) (by simp [hx]) (by simp [hu]) none true false
      (Or.inl rfl) ""
  · exact C71_plot_phase (p := ⟨e, false, [0]⟩) hr (by simp [hn]) (by simp [hx]) (by simp [hu]) true

/-- What is drawn of the two nodes of each segment: the curve through the states, labelled from zero by `plot_x` and from
one by `plot_phases`. -/
example : (postQ ocpQ [1, 1] [1/2, 1/2] zQ false >>= fun p =>
      p.plotX none [] true false none (some (strokes 15))) =
    .ok (.one ⟨[⟨[0, 2, 4], [0, 1/4, 1], "-", some "state 0"⟩], some "Time, s", some "State variables", true⟩) ∧
    (postQ ocpQ [1, 1] [1/2, 1/2] zQ false >>= fun p =>
      p.plotPhases none none false true none (strokes 15) "") =
    .ok (.many [⟨[⟨[0, 2, 4], [0, 1/4, 1], "-", some "state 1"⟩], none, some "State variables", true⟩,
      ⟨[⟨[0, 2, 4], [1/8, 1/8, 3/8], "-", some "control 1"⟩], some "Time, s", some "Control variables", true⟩]) := by
  constructor <;> decide +kernel

/-- Two phases of which only the first has the same number of points in both segments: the residuals are computed and
cannot be drawn. -/
theorem C71_mixed_false : (solvedQ ocpQ2 [1, 1] [8/15, 7/15, 1/2, 1/2] ["fixed", "fixed"] 14 zQ11 >>= fun e => do
      let res ← e.dynResiduals none none false
      return (res.map fun r => r.1.map List.length, residualAxes [("t_dx", .dynamics res)] (dots 15))) =
    .ok ([[7, 7], [6, 8]], .error .value) := by decide +kernel

end MPOpt
