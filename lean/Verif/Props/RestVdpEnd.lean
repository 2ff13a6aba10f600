import Verif.Props.RestVdp
import Verif.Props.ExistenceAdaptive
import Verif.Props.ExistenceH
import Verif.Props.BackwardEnd

/-! # C111: the adaptive classes on the shipped Van der Pol example, with a perfect solver -/

set_option autoImplicit false
set_option linter.unusedSectionVars false

namespace MPOpt

variable {M : Mesh ℝ} {V : Type} {ptp : List (List Nat)} {n : Nat} {arg : OrdersArg} {rx rdx : Bool}

/-- **C111** With a perfect NLP solver `mpopt_adaptive.solve` on the shipped problem returns: for all LGR meshes of orders at least 2 and
all bounds on the widths that admit equal widths. -/
theorem C111_vdp_adaptive_returns {o : Outside ℝ V} {nlpsol : SolverCall ℝ V → Py (List ℝ)} {lbh ubh tol : ℝ} {mid : Bool}
    {s : AdaptOpt ℝ V} {a : SolveArgs ℝ V} (hf : s.Ready o ocpVdp n arg "LGR" [lbh] [ubh] [tol] mid)
    (hM : MeshFor o "LGR" n arg M) (hlt : o.tau0 < o.tau1) (hgt : s.gridType = ["fixed"])
    (hacc : o.accepts a.plugin (solverOptions o.vals a.plugin a.options) = true) (hpos : 0 < lbh) (hlo : lbh ≤ 1 / n)
    (hhi : 1 / n ≤ ubh) (ht : 0 ≤ tol) (hptp : ptp ≠ []) (hord : ∀ q ∈ M.orders, 2 ≤ q)
    (hj : ∀ q ∈ M.orders, IsJacobiRoots 1 0 (q - 1) (o.lib.jroots (q - 1) 1 0)) (hperf : Perfect nlpsol) :
    ∃ z out, (s.solve o nlpsol a).2 = .ok z ∧ (s.solve o nlpsol a).1.processResults o ptp false rx rdx = .ok out := by
  obtain ⟨hv, hs, hsc⟩ := ocpVdp_ready
  have hn : M.orders.length = n := by rw [OrdersArg.Means.unique hM.orders hf.orders]; exact hf.length
  have hn0 : 0 < n := by rw [← hn]; exact List.length_pos_iff.2 hM.good.nonempty
  have hmesh : M.Inside := by
    obtain ⟨c, W, hWeq, -⟩ := C54_adaptive_returns (a := a) (ptp := ptp) (rx := rx) (rdx := rdx) hf hv hs hsc rfl rfl rfl hM hlt hgt
      hacc (by simpa using hpos) (vdp_phase (by simp [ocpVdp, entry])) hptp
    exact (C57_lgr_integrates hM hlt hord hj hWeq).1
  obtain ⟨z, p, r, -, -, -, h1, h2, -⟩ := C70_adaptive_sublevel (ptp := ptp) (rx := rx) (rdx := rdx) (a := a) hf hv hs hsc rfl rfl rfl hM
    hlt hgt hacc (by simpa using hpos) (vdp_phase (by simp [ocpVdp, entry])) hptp ocpVdp_cts
    ⟨restVdp.traj fun _ _ => 1 / n, C111_adaptive_feasible hM.good hmesh restVdp_holds (vdp_phase hpos.le) (vdp_phase ht)
      (vdp_phase ⟨by simp [Rest.traj, hn, hn0.ne'], fun _ _ => hlo, fun _ _ => hhi⟩)⟩
    (fun W hWeq J₀ => by
      obtain ⟨ws, rfl, hl, hp⟩ := C67_lgr_composite o.lib o.method o.tau0 o.tau1 hlt hord hj hWeq
      obtain ⟨R, hR⟩ := vdp_bounded hM.good hmesh (lo := fun _ => lbh) (hi := fun _ => ubh) (ws := ws) (by rw [hl]; rfl) hp
        (fun _ _ => hpos) J₀
      exact ⟨R, fun T J hT hJ hJ0 => hR T J (hT.1.bounds 0 (by simp [ocpVdp])) (fun s hs =>
        ⟨(hT.1.widths 0 (by simp [ocpVdp])).lower s hs, (hT.1.widths 0 (by simp [ocpVdp])).upper s hs⟩) hJ hJ0⟩) hperf
  exact ⟨z, (p, r), h1, h2⟩

/-- **C111** With a perfect solver any calls of `mpopt_h_adaptive.solve` on the shipped problem return, those with the control-slope
method of the script among them; only the equal-area method for residuals is left out. What is shown costs between `5/8` and `20`. -/
theorem C111_vdp_h_returns {w : HOutside ℝ V} {nlpsol : Nat → Nat → SolverCall ℝ V → Py (PyDict V)} {lbh ubh tol : ℝ}
    {s : HOpt ℝ V} (hf : s.Ready w ocpVdp n arg "LGR" [lbh] [ubh] [tol]) (hM : MeshFor w.toOutside "LGR" n arg M)
    (hlt : w.tau0 < w.tau1) (hord : ∀ q ∈ M.orders, 2 ≤ q)
    (hj : ∀ q ∈ M.orders, IsJacobiRoots 1 0 (q - 1) (w.lib.jroots (q - 1) 1 0))
    (hgt : s.gridType = ["fixed"]) (htc : 0 ≤ s.tolChange) (hwid : ∀ p, s.widths = some p → ValidWidths n 1 p)
    (hpos : 0 < lbh) (hle : lbh ≤ ubh) (hnorm : ∀ l, 0 ≤ w.norm l)
    {calls : List (HStart V × HArgs V)} (hcne : calls ≠ []) (ho : OwnStarts calls)
    (hcalls : ∀ c ∈ calls, 0 < c.2.maxIter ∧
      w.accepts c.2.plugin (solverOptions w.vals c.2.plugin (hSolverDict w.zero c.2.options)) = true)
    (harea : ¬ UsesArea calls) (hptp : ptp ≠ []) (hperf : PerfectH w nlpsol) :
    ∃ s' sol p r, s.run w nlpsol calls 0 none = (s', some sol) ∧ s'.processResults w sol ptp false rx rdx = .ok (p, r) ∧
      ∃ T W J, compQuadWeights ⟨w.method, w.tau0, w.tau1, tausFn w.lib w.tau0 w.tau1 "LGR"⟩ M.orders = .ok W ∧
        SolvesOCP ocpVdp M T ∧ p.Shows ocpVdp M T ∧ PhysCost ocpVdp M W T J ∧ 5 / 8 ≤ J ∧ J ≤ 20 ∧
        1 / 4 ≤ T.a 0 0 ∧ ∀ k < M.N, T.a 0 0 ≤ T.x 0 k 1 := by
  obtain ⟨hv, hs, hsc⟩ := ocpVdp_ready
  have hn : M.orders.length = n := by rw [OrdersArg.Means.unique hM.orders hf.orders]; exact hf.length
  have hn0 : 0 < n := by rw [← hn]; exact List.length_pos_iff.2 hM.good.nonempty
  obtain ⟨d, -, -, -, hWeq, -⟩ := hf.coherent hM
  have hmesh : M.Inside := (C57_lgr_integrates hM hlt hord hj hWeq).1
  have hwidths : ∀ l, ValidWidths n ocpVdp.nPhases l → ∃ ω, WidthsAre ocpVdp n (some l) ω ∧
      ∀ ph < ocpVdp.nPhases, FullWidths M ω ph := fun l hl => by
    obtain ⟨ω, hω⟩ := exists_packWidths ocpVdp hl.1
    exact ⟨ω, hω, WidthsAre.full_all (req := some l) hn0 hn (fun l' e => by cases e; exact hl) hω⟩
  obtain ⟨s', sol, q, p, r, -, -, -, h1, h2, h3, h4, -⟩ := C70_h (ptp := ptp) (rx := rx) (rdx := rdx) hf hv hs hsc hM hlt
    (fun q hq => by
      obtain ⟨r, hr, hsp⟩ := C01_lgr_nodes w.lib w.tau0 w.tau1 hlt q (by have := hord q hq; omega) (fun _ => hj q hq)
      rw [hM.nodes q hq] at hr
      obtain rfl : M.nodes q = r := by injection hr
      exact hsp.sorted) rfl rfl rfl hgt htc hwid (fun ph l u hl hu => by
      match ph with
      | 0 => cases hl; cases hu; exact ⟨hpos, hle⟩
      | ph + 1 => cases hl) hnorm (vdp_phase (by simp [ocpVdp, entry])) hcne ho hcalls harea
    (fun _ T hT => vdp_phase (by
      have b := hT.1.bounds 0 (by simp [ocpVdp])
      have h0 : T.t0 0 ≤ 0 := b.t0.2
      have h1 : 10 ≤ T.tf 0 := b.tf.1
      linarith)) hptp ocpVdp_cts
    (fun l hl => by
      obtain ⟨ω, hω, hfull⟩ := hwidths l hl
      exact ⟨restVdp.traj ω.w, C111_feasible hM.good hmesh restVdp_holds fun ph hp => FullWidths.shares ⟨(hfull ph hp).pos, (hfull ph hp).sum⟩, hω⟩)
    (fun W hWeq l hl J₀ => by
      obtain ⟨ω, hω, hfull⟩ := hwidths l hl
      obtain ⟨ws, rfl, hl, hp⟩ := C67_lgr_composite w.lib w.method w.tau0 w.tau1 hlt hord hj hWeq
      obtain ⟨R, hR⟩ := vdp_bounded hM.good hmesh (lo := fun s => ω.w s 0) (hi := fun s => ω.w s 0) (ws := ws) (by rw [hl]; rfl) hp
        (hfull 0 (by simp [ocpVdp])).pos J₀
      exact ⟨R, fun T J hT hw hJ hJ0 => hR T J (hT.1.bounds 0 (by simp [ocpVdp])) (fun s hs => by
        have e : ω.w s 0 = T.w s 0 := hω.iff.1 hw 0 (by simp [ocpVdp]) s (by omega)
        exact ⟨e.le, e.ge⟩) hJ hJ0⟩) hperf
  exact ⟨s', sol, p, r, h1, h4, C111_vdp_h hf hM hlt hord hj hperf.sound ho h1 h4 fun l hl => by
    rw [h2] at hl; cases hl; exact h3⟩

/-- The object `mpopt_adaptive(ocp, 5, 3)` with the default settings. -/
noncomputable def adaptVdp : AdaptOpt ℝ Nat :=
  ⟨ocpVdp, 5, List.replicate 5 3, "LGR", [1 / 10000], [1], [1 / 1000], true, ["fixed"], 15, false, none, none, none, none⟩

theorem adaptVdp_fresh : adaptVdp.Fresh ocpVdp 5 (.int 3) "LGR" [1 / 10000] [1] [1 / 1000] true := by
  refine ⟨⟨adaptVdp, _, _, ?_, rfl⟩⟩
  unfold newAdapt
  rw [show initOrders 5 (.int 3) = .ok (List.replicate 5 3, 16) by decide +kernel]
  rfl

/-- The hypotheses of `C111_vdp_adaptive`, and so of `C111_adaptive`, are met. -/
theorem exampleVdpAdaptive : ∃ (nlpsol : SolverCall ℝ Nat → Py (List ℝ)) (M : Mesh ℝ) (z : List ℝ) (p : Post ℝ)
    (r : Option (PyDict (ResidVal ℝ))), MeshFor outsideR "LGR" 5 (.int 3) M ∧
    (adaptVdp.solve outsideR nlpsol argsR).2 = .ok z ∧
    (adaptVdp.solve outsideR nlpsol argsR).1.processResults outsideR [[0]] false false true = .ok (p, r) ∧
    ∃ T W J, p.Shows ocpVdp M T ∧ PhysCost ocpVdp M W T J ∧ 5 / 8 ≤ J ∧ J ≤ 20 := by
  obtain ⟨nlpsol, hperf⟩ := exists_perfect (V := Nat)
  obtain ⟨M, hM, hMo⟩ := exists_lgr_int (n := 5) (p := 3) (by norm_num) (by norm_num)
  have hord : ∀ q ∈ M.orders, 2 ≤ q := by rw [hMo]; intro q hq; rw [List.eq_of_mem_replicate hq]; norm_num
  have hlt : outsideR.tau0 < outsideR.tau1 := by norm_num [outsideR]
  obtain ⟨z, ⟨p, r⟩, h1, h2⟩ := C111_vdp_adaptive_returns (ptp := [[0]]) (rx := false) (rdx := true) (a := argsR) adaptVdp_fresh.ready hM
    hlt rfl rfl (by norm_num) (by norm_num) (by norm_num) (by norm_num) (by simp) hord (fun q _ => libR_jacobi 1 0 (q - 1)) hperf
  obtain ⟨T, W, J, -, -, g2, g3, g4, g5, -⟩ := C111_vdp_adaptive adaptVdp_fresh.ready rfl rfl rfl (by norm_num) (by norm_num) hM hlt hord
    (fun q _ => libR_jacobi 1 0 (q - 1)) hperf.sound [] argsR (Prod.ext rfl h1) h2
  exact ⟨nlpsol, M, z, p, r, hM, h1, h2, T, W, J, g2, g3, g4, g5⟩

/-- `mpopt_h_adaptive(ocp, seg, 3)` after the script has set `_TOL_RESIDUAL = 1e-4` and `_TOL_SEG_WIDTH_CHANGE = 0.01`
(dae_vdp.py:82-85). -/
noncomputable def hoptVdp (n : Nat) : HOpt ℝ (List ℝ) :=
  ⟨ocpVdp, n, List.replicate n 3, "LGR", [1 / 100000], [1], [1 / 10000], ["fixed"], 15, 1 / 10, 1 / 100, false, none, none, none, 0, []⟩

theorem hoptVdp_fresh (n : Nat) : (hoptVdp n).Fresh ocpVdp n (.int 3) "LGR" [1 / 100000] [1] [1 / 10000] := by
  refine ⟨⟨{ hoptVdp n with tol := [1 / 100], tolChange := 1 / 20 }, _, _, _, _, ?_, rfl⟩⟩
  unfold newHAdaptive
  rw [show initOrders n (.int 3) = .ok (List.replicate n 3, (List.replicate n 3).sum + 1) by simp [initOrders, pyAssert]]
  rfl

/-- The call of the script (dae_vdp.py:86-89). -/
def callsVdp : List (HStart (List ℝ) × HArgs (List ℝ)) :=
  [(.fresh, ⟨none, false, "ipopt", [], [("method", "control_slope"), ("sub_method", "equal_area")], 20⟩)]

/-- The calls of the script, for each number of segments: with a perfect solver they return, and what is shown costs between `5/8` and
`20`. So the hypotheses of `C111_vdp_h`, and of `C111_h` and `C70_h`, are met. -/
theorem exampleVdpH : ∃ nlpsol : Nat → Nat → SolverCall ℝ (List ℝ) → Py (PyDict (List ℝ)), PerfectH outsideRH nlpsol ∧
    ∀ n, 0 < n → ∃ (M : Mesh ℝ) (s' : HOpt ℝ (List ℝ)) (sol : PyDict (List ℝ)) (p : Post ℝ) (r : Option (PyDict (ResidVal ℝ))),
      MeshFor outsideRH.toOutside "LGR" n (.int 3) M ∧ (hoptVdp n).run outsideRH nlpsol callsVdp 0 none = (s', some sol) ∧
      s'.processResults outsideRH sol [[0]] false false true = .ok (p, r) ∧
      ∃ T W J, p.Shows ocpVdp M T ∧ PhysCost ocpVdp M W T J ∧ 5 / 8 ≤ J ∧ J ≤ 20 := by
  obtain ⟨nlpsol, hperf⟩ := exists_perfectH
  refine ⟨nlpsol, hperf, fun n hn => ?_⟩
  obtain ⟨M, hM', hMo⟩ := exists_lgr_int (n := n) (p := 3) hn (by norm_num)
  have hM : MeshFor outsideRH.toOutside "LGR" n (.int 3) M := ⟨hM'.good, hM'.orders, hM'.tau0, hM'.tau1, hM'.nodes⟩
  have hord : ∀ q ∈ M.orders, 2 ≤ q := by rw [hMo]; intro q hq; rw [List.eq_of_mem_replicate hq]; norm_num
  obtain ⟨s', sol, p, r, h1, h2, T, W, J, -, -, g2, g3, g4, g5, -⟩ := C111_vdp_h_returns (ptp := [[0]]) (rx := false) (rdx := true)
    (hoptVdp_fresh n).ready hM (by norm_num [outsideRH]) hord (fun q _ => libR_jacobi 1 0 (q - 1)) rfl (by norm_num [hoptVdp])
    (fun _ h => nomatch h) (by norm_num) (by norm_num) (fun l => abs_nonneg _) (calls := callsVdp) (by simp [callsVdp])
    (by
      intro c hc x
      rcases List.mem_singleton.1 hc with rfl; simp)
    (by
      intro c hc
      rcases List.mem_singleton.1 hc with rfl; exact ⟨by simp, rfl⟩)
    (by
      rintro ⟨c, hc, hm, -⟩
      rcases List.mem_singleton.1 hc with rfl
      exact absurd hm (by decide +kernel)) (by simp) hperf
  exact ⟨M, s', sol, p, r, hM, h1, h2, T, W, J, g2, g3, g4, g5⟩

end MPOpt
