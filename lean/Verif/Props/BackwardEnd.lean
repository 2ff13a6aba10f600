import Verif.Props.Backward
import Verif.Props.ExactFreeExample
import Verif.Props.Existence

/-! # C107: what the solver classes show when a phase may end before it starts -/

set_option autoImplicit false

namespace MPOpt
open Polynomial

variable {M : Mesh ℝ} {V : Type} {w : Outside ℝ V} {n : Nat} {arg : OrdersArg} {ptp : List (List Nat)}
  {rx rdx : Bool} {p : Post ℝ} {r : Option (PyDict (ResidVal ℝ))}

/-- A list of the right length holds the widths of a trajectory. -/
theorem flatMap_getD (n P : Nat) (l : List ℝ) (h : l.length = n * P) :
    ((List.range P).flatMap fun ph => (List.range n).map fun s => l.getD (n * ph + s) 0) = l := by
  induction P generalizing l with
  | zero => rw [Nat.mul_zero] at h; simp [List.length_eq_zero_iff.1 h]
  | succ P ih =>
    have h1 := ih (l.take (n * P)) (by rw [List.length_take, h, Nat.mul_succ]; omega)
    rw [List.range_succ, List.flatMap_append, List.flatMap_singleton]
    conv_rhs => rw [← List.take_append_drop (n * P) l]
    congr 1
    · rw [← h1]
      refine List.flatMap_congr fun ph hp => List.map_congr_left fun s hs => ?_
      have hp := List.mem_range.1 hp
      have hs := List.mem_range.1 hs
      have : n * ph + s < n * P := by nlinarith
      rw [List.getD_eq_getElem?_getD, List.getD_eq_getElem?_getD, List.getElem?_take_of_lt this]
    · refine List.ext_getElem (by rw [List.length_map, List.length_range, List.length_drop, h, Nat.mul_succ]; omega) fun i h1 h2 => ?_
      rw [List.getElem_map, List.getElem_range, List.getElem_drop, List.getD_eq_getElem]

theorem exists_packWidths (ocp : OCP ℝ) {n : Nat} {l : List ℝ} (h : l.length = n * ocp.nPhases) :
    ∃ T, ocp.packWidths n T = l :=
  ⟨⟨fun _ _ _ => 0, fun _ _ _ => 0, fun _ => 0, fun _ => 0, fun _ _ => 0, fun s ph => l.getD (n * ph + s) 0⟩,
    flatMap_getD n _ l h⟩

/-- The final time shown is 0, and the second phase starts after that time. -/
structure WinsAtZero (T : Traj ℝ) : Prop where
  tf : T.tf 1 = 0
  back : T.tf 1 < T.t0 1

/-- A trajectory that costs no more than the turning one. -/
theorem wins_of_cheap {T : Traj ℝ} (hM : MeshFor w "LGR" n arg M) (hlt : w.tau0 < w.tau1) (hord : ∀ q ∈ M.orders, 2 ≤ q)
    (hj : ∀ q ∈ M.orders, IsJacobiRoots 1 0 (q - 1) (w.lib.jroots (q - 1) 1 0)) {W : List ℝ}
    (hW : compQuadWeights ⟨w.method, w.tau0, w.tau1, tausFn w.lib w.tau0 w.tau1 "LGR"⟩ M.orders = .ok W)
    (hT : CoreFeasible ocpRace M T) (hw : ∀ ph < 2, Shares M T ph) {J : ℝ} (hJ : PhysCost ocpRace M W T J) (h0 : J ≤ 0) :
    WinsAtZero T := by
  have e : J = T.tf 1 := (race_cost hM.good (weights_length hM hW)).1 hJ
  have hb : (0 : ℝ) ≤ T.tf 1 := (hT.bounds 1 (by simp [ocpRace])).tf.1
  have hz : T.tf 1 = 0 := le_antisymm (e ▸ h0) hb
  refine ⟨hz, ?_⟩
  by_contra hc
  have ht : ∀ ph < ocpRace.nPhases, T.t0 ph ≤ T.tf ph := by
    refine race_phases ?_ (not_lt.1 hc)
    have h1 : T.t0 0 ≤ 0 := (hT.bounds 0 (by simp [ocpRace])).t0.2
    have h2 : (0 : ℝ) ≤ T.tf 0 := (hT.bounds 0 (by simp [ocpRace])).tf.1
    exact h1.trans h2
  have := C106_lgr certRace_proves race_ready.1 hM hlt hord hj (certRace_fits hord) hW hT hw ht hJ
  linarith

/-- **C107** With a perfect NLP solver `solve` shows a race that is won at time 0: the second phase runs backward in time.
Every solution of the race as meant takes at least the time 1 (`C107_race_true`). -/
theorem C107_solve {nlpsol : SolverCall ℝ V → Py (List ℝ)} {a : SolveArgs ℝ V} {s : Session ℝ V}
    (hrun : mpSolve w nlpsol ocpRace ptp n arg "LGR" a rx rdx = .ok (s, p, r)) (hM : MeshFor w "LGR" n arg M)
    (hlt : w.tau0 < w.tau1) (hord : ∀ q ∈ M.orders, 2 ≤ q)
    (hj : ∀ q ∈ M.orders, IsJacobiRoots 1 0 (q - 1) (w.lib.jroots (q - 1) 1 0)) (hn : M.orders.length = n)
    (hwid : GoodWidths ocpRace n a.widths) (hopt : ∀ c z, nlpsol c = .ok z → c.IsOptimal z) :
    ∃ T, SolvesOCP ocpRace M T ∧ p.Shows ocpRace M T ∧ WinsAtZero T := by
  obtain ⟨hv, hs, hsc⟩ := race_ready
  obtain ⟨T, W, J, hW, hT, hwT, hshow, hJ, hbest⟩ := C53_solve_optimal hrun hv hs hsc hM hopt
  have hn0 : 0 < n := by
    rw [← hn]; exact List.length_pos_iff.2 hM.good.nonempty
  have hfull : ∀ ph < ocpRace.nPhases, FullWidths M T ph := hwT.full_all hn0 hn hwid
  obtain ⟨hI, -⟩ := C57_lgr_integrates hM hlt hord hj hW
  obtain ⟨R, e, hR, hRJ⟩ := C107_race_turn hM.good hI hord (w := T.w) (fun ph hp => ⟨(hfull ph hp).pos, (hfull ph hp).sum⟩)
    (weights_length hM hW)
  have hwR : WidthsAre ocpRace n a.widths R := (hwT.iff).2 fun ph _ s _ => by rw [e]
  exact ⟨T, hT, hshow, wins_of_cheap hM hlt hord hj hW hT.1.core (fun ph hp => (hfull ph hp).shares) hJ
    (hbest R 0 hR hwR hRJ)⟩

/-- **C107** So does `mpopt_adaptive`, after any earlier calls, -/
theorem C107_adaptive {nlpsol : SolverCall ℝ V → Py (List ℝ)} {s s' : AdaptOpt ℝ V} {lbh ubh tol : List ℝ} {mid : Bool}
    (hf : s.Ready w ocpRace n arg "LGR" lbh ubh tol mid) (hlb : lbh.length = 2) (hub : ubh.length = 2) (htol : tol.length = 2)
    (hlbn : ∀ l ∈ lbh, 0 < l) (htoln : ∀ l ∈ tol, 0 ≤ l) (hM : MeshFor w "LGR" n arg M) (hlt : w.tau0 < w.tau1)
    (hord : ∀ q ∈ M.orders, 2 ≤ q) (hj : ∀ q ∈ M.orders, IsJacobiRoots 1 0 (q - 1) (w.lib.jroots (q - 1) 1 0))
    (hopt : ∀ c z, nlpsol c = .ok z → c.IsOptimal z) (earlier : List (SolveArgs ℝ V)) (a : SolveArgs ℝ V) {z : List ℝ}
    (hrun : (s.run w nlpsol earlier).solve w nlpsol a = (s', .ok z))
    (hp : s'.processResults w ptp false rx rdx = .ok (p, r)) :
    ∃ T, SolvesAdaptive ocpRace M T lbh ubh tol mid ∧ p.Shows ocpRace M T ∧ WinsAtZero T := by
  obtain ⟨hv, hs, hsc⟩ := race_ready
  obtain ⟨T, W, J, hW, hT, hshow, hJ, hbest⟩ := C55_adaptive_optimal hf hv hs hsc hlb hub htol hM hopt earlier a hrun hp
  obtain ⟨hI, -⟩ := C57_lgr_integrates hM hlt hord hj hW
  have hpos : ∀ ph < 2, 0 < lbh.getD ph 0 := fun ph hp => by
    rw [List.getD_eq_getElem _ _ (by omega)]; exact hlbn _ (List.getElem_mem _)
  have hwid := fun ph (hp : ph < 2) => hT.1.widths ph hp
  have hfull : ∀ ph < 2, FullWidths M T ph := fun ph hp =>
    ⟨fun s hs => (hpos ph hp).trans_le ((hwid ph hp).lower s hs), (hwid ph hp).sum⟩
  obtain ⟨R, e, hR⟩ := exists_raceTurn hM.good hI hord (w := T.w) fun ph hp => ⟨(hfull ph hp).pos, (hfull ph hp).sum⟩
  have hRs : SolvesAdaptive ocpRace M R lbh ubh tol mid := by
    refine ⟨⟨hR.core.bounds, hR.core.dynamics, hR.core.path, hR.core.terminal, fun ph hp => ?_, hR.mid, hR.midState,
      fun _ ph hp F hF => race_entry fun s hs i hi => ?_, hR.core.links⟩, ?_⟩
    · have := hwid ph hp
      exact ⟨by rw [e]; exact this.sum, by rw [e]; exact this.lower, by rw [e]; exact this.upper⟩
    · rw [hR.defect ph hp F hF s hs, mul_zero, mul_zero]
      have : 0 ≤ tol.getD ph 0 := by
        have hp : ph < 2 := hp
        rw [List.getD_eq_getElem _ _ (by omega)]; exact htoln _ (List.getElem_mem _)
      exact ⟨by show -tol.getD ph 0 ≤ 0; linarith, this⟩
    · refine race_phases ?_ ?_ <;> (intro h; simp [ocpRace] at h)
  exact ⟨T, hT, hshow, wins_of_cheap hM hlt hord hj hW hT.1.core (fun ph hp => (hfull ph hp).shares) hJ
    (hbest R 0 hRs ((race_cost hM.good (weights_length hM hW)).2 hR.tf.symm))⟩

/-- **C107** and `mpopt_h_adaptive`, after any sequence of calls. -/
theorem C107_h {wh : HOutside ℝ V} {nlpsol : Nat → Nat → SolverCall ℝ V → Py (PyDict V)} {lbh ubh tol : List ℝ}
    {s : HOpt ℝ V} (hf : s.Ready wh ocpRace n arg "LGR" lbh ubh tol) (hM : MeshFor wh.toOutside "LGR" n arg M)
    (hlt : wh.tau0 < wh.tau1) (hord : ∀ q ∈ M.orders, 2 ≤ q)
    (hj : ∀ q ∈ M.orders, IsJacobiRoots 1 0 (q - 1) (wh.lib.jroots (q - 1) 1 0)) (hn : M.orders.length = n)
    (hopt : ∀ n k c sol, nlpsol n k c = .ok sol → ∃ z, Returned wh sol z ∧ c.IsOptimal z)
    {calls : List (HStart V × HArgs V)} (ho : OwnStarts calls) {s' : HOpt ℝ V} {sol : PyDict V}
    (hrun : s.run wh nlpsol calls 0 none = (s', some sol))
    (hp : s'.processResults wh sol ptp false rx rdx = .ok (p, r)) (hwid : GoodWidths ocpRace n s'.widths) :
    ∃ T, SolvesOCP ocpRace M T ∧ p.Shows ocpRace M T ∧ WinsAtZero T := by
  obtain ⟨hv, hs, hsc⟩ := race_ready
  obtain ⟨T, W, J, hW, hT, hshow, hwT, hJ, hbest⟩ := C60_h_optimal hf hv hs hsc hM hopt ho hrun hp
  have hn0 : 0 < n := by
    rw [← hn]; exact List.length_pos_iff.2 hM.good.nonempty
  have hw' : WidthsAre ocpRace n s'.widths T := by rw [hwT]; rfl
  have hfull : ∀ ph < ocpRace.nPhases, FullWidths M T ph := hw'.full_all hn0 hn hwid
  obtain ⟨hI, -⟩ := C57_lgr_integrates hM hlt hord hj hW
  obtain ⟨R, e, hR, hRJ⟩ := C107_race_turn hM.good hI hord (w := T.w) (fun ph hp => ⟨(hfull ph hp).pos, (hfull ph hp).sum⟩)
    (weights_length hM hW)
  have hwR : s'.widths = some (ocpRace.packWidths n R) := by
    rw [hwT, packWidths_inj.2 fun ph _ s _ => by rw [e]]
  exact ⟨T, hT, hshow, wins_of_cheap hM hlt hord hj hW hT.1.core (fun ph hp => (hfull ph hp).shares) hJ
    (hbest R 0 hR hwR hRJ)⟩

/-! ### Runs that meet the hypotheses -/

/-- The call of a perfect solver has an answer: the turning trajectory is optimal. -/
theorem race_optimal {T R : Traj ℝ} {W : List ℝ} (hM : M.Good) (hW : W.length = M.N) (hT : CoreFeasible ocpRace M T) {J : ℝ}
    (hJ : PhysCost ocpRace M W T J) (hR : RaceTurn M R) : R.tf 1 ≤ J := by
  rw [(race_cost hM hW).1 hJ, hR.tf]
  exact (hT.bounds 1 (by simp [ocpRace])).tf.1

/-- **C107** A perfect NLP solver makes `solve` return. -/
theorem C107_solve_returns {nlpsol : SolverCall ℝ V → Py (List ℝ)} (hperf : Perfect nlpsol) {a : SolveArgs ℝ V}
    (hM : MeshFor w "LGR" n arg M) (hlt : w.tau0 < w.tau1) (hord : ∀ q ∈ M.orders, 2 ≤ q)
    (hj : ∀ q ∈ M.orders, IsJacobiRoots 1 0 (q - 1) (w.lib.jroots (q - 1) 1 0)) (hn : M.orders.length = n)
    (hacc : w.accepts a.plugin (solverOptions w.vals a.plugin a.options) = true)
    (hwid : GoodWidths ocpRace n a.widths) (hptp : ptp ≠ []) :
    ∃ s p r T, mpSolve w nlpsol ocpRace ptp n arg "LGR" a rx rdx = .ok (s, p, r) ∧
      SolvesOCP ocpRace M T ∧ p.Shows ocpRace M T ∧ WinsAtZero T := by
  obtain ⟨hv, hs, hsc⟩ := race_ready
  obtain ⟨c, W, hW, hsol, hobj, hret⟩ := C52_solve_returns (ptp := ptp) (rx := rx) (rdx := rdx) hv hs hsc hM hn hlt hacc hwid
    (race_phases (by simp [ocpRace, entry]) (by simp [ocpRace, entry])) hptp
  obtain ⟨hI, -⟩ := C57_lgr_integrates hM hlt hord hj hW
  have hn0 : 0 < n := by
    rw [← hn]; exact List.length_pos_iff.2 hM.good.nonempty
  obtain ⟨T₀, hw0⟩ : ∃ T, WidthsAre ocpRace n a.widths T := by
    rcases hq : a.widths with _ | l
    · exact ⟨⟨fun _ _ _ => 0, fun _ _ _ => 0, fun _ => 0, fun _ => 0, fun _ _ => 0, fun _ _ => 1 / (n : ℝ)⟩, fun _ _ _ _ => rfl⟩
    · exact exists_packWidths _ (hwid l hq).1
  have hfull : ∀ ph < ocpRace.nPhases, FullWidths M T₀ ph := hw0.full_all hn0 hn hwid
  obtain ⟨R, e, hR⟩ := exists_raceTurn hM.good hI hord (w := T₀.w) fun ph hp => ⟨(hfull ph hp).pos, (hfull ph hp).sum⟩
  have hwR : WidthsAre ocpRace n a.widths R := (hw0.iff).2 fun ph _ s _ => by rw [e]
  have hWl := weights_length hM hW
  have hbest : c.IsOptimal (ocpRace.packVec M.N R) := by
    refine ⟨(hsol _).2 ⟨R, hR.solves, hwR, rfl⟩, fun z hz => ?_⟩
    obtain ⟨T, hT, hwT, rfl⟩ := (hsol z).1 hz
    rw [hobj R _ hwR ((race_cost hM.good hWl).2 rfl), hobj T _ hwT ((race_cost hM.good hWl).2 rfl)]
    exact race_optimal hM.good hWl hT.1.core ((race_cost hM.good hWl).2 rfl) hR
  obtain ⟨z, hz⟩ := hperf.complete c _ hbest
  obtain ⟨T, hT, hwT, rfl⟩ := (hsol z).1 (hperf.sound c z hz).sol
  obtain ⟨⟨s, p, r⟩, hout⟩ := hret nlpsol _ hz (hperf.sound c _ hz).sol.x
  obtain ⟨T, h⟩ := C107_solve hout hM hlt hord hj hn hwid hperf.sound
  exact ⟨s, p, r, T, hout, h⟩

/-- The hypotheses of `C107_solve_returns`, and so of `C107_solve`, are met for all lists of orders at least 2. -/
theorem exampleRace (orders : List Nat) (hne : orders ≠ []) (hord : ∀ q ∈ orders, 2 ≤ q) :
    ∃ (M : Mesh ℝ) (nlpsol : SolverCall ℝ Nat → Py (List ℝ)), MeshFor outsideR "LGR" orders.length (.list orders) M ∧
      Perfect nlpsol ∧ ∃ s p r T, mpSolve outsideR nlpsol ocpRace [[0, 1]] orders.length (.list orders) "LGR" argsR false true = .ok (s, p, r) ∧
        SolvesOCP ocpRace M T ∧ p.Shows ocpRace M T ∧ WinsAtZero T := by
  obtain ⟨M, hM, ho⟩ := exists_lgr_mesh orders hne fun q hq => by have := hord q hq; omega
  obtain ⟨nlpsol, hperf⟩ := exists_perfect (V := Nat)
  exact ⟨M, nlpsol, hM, hperf, C107_solve_returns hperf hM (by norm_num [outsideR]) (by rw [ho]; exact hord)
    (fun q _ => libR_jacobi 1 0 (q - 1)) (by rw [ho]) rfl (fun _ h => nomatch h) (by simp)⟩

/-- The object, with the default settings. -/
noncomputable def adaptRace : AdaptOpt ℝ Nat :=
  ⟨ocpRace, 2, [2, 2], "LGR", [1 / 10000, 1 / 10000], [1, 1], [1 / 1000, 1 / 1000], true, ["fixed", "fixed"], 15, false,
    none, none, none, none⟩

theorem adaptRace_fresh : adaptRace.Fresh ocpRace 2 (.list [2, 2]) "LGR" [1 / 10000, 1 / 10000] [1, 1] [1 / 1000, 1 / 1000]
    true := by
  refine ⟨⟨adaptRace, _, _, ?_, rfl⟩⟩
  unfold newAdapt
  rw [show initOrders 2 (.list [2, 2]) = .ok ([2, 2], 5) by decide +kernel]
  rfl

/-- The hypotheses of `C107_adaptive` are met. -/
theorem exampleRaceAdaptive : ∃ (M : Mesh ℝ) (nlpsol : SolverCall ℝ Nat → Py (List ℝ)) (z : List ℝ) (out : _) (T : Traj ℝ),
    MeshFor outsideR "LGR" 2 (.list [2, 2]) M ∧ Perfect nlpsol ∧ (adaptRace.solve outsideR nlpsol argsR).2 = .ok z ∧
      (adaptRace.solve outsideR nlpsol argsR).1.processResults outsideR [[0, 1]] false false true = .ok out ∧
      out.1.Shows ocpRace M T ∧ WinsAtZero T := by
  obtain ⟨hv, hs, hsc⟩ := race_ready
  obtain ⟨M, hM, ho⟩ := exists_lgr_mesh [2, 2] (by simp) (by simp)
  have hM : MeshFor outsideR "LGR" 2 (.list [2, 2]) M := hM
  obtain ⟨nlpsol, hperf⟩ := exists_perfect (V := Nat)
  obtain ⟨c, W, hW, hsol, hobj, hret⟩ := C54_adaptive_returns (a := argsR) (ptp := [[0, 1]]) (rx := false) (rdx := true)
    adaptRace_fresh.ready hv hs hsc rfl rfl rfl hM (by norm_num [outsideR]) rfl rfl (by norm_num)
    (race_phases (by simp [ocpRace, entry]) (by simp [ocpRace, entry])) (by simp)
  have hj : ∀ p ∈ M.orders, IsJacobiRoots 1 0 (p - 1) (outsideR.lib.jroots (p - 1) 1 0) :=
    fun p _ => libR_jacobi 1 0 (p - 1)
  have hord : ∀ p ∈ M.orders, 2 ≤ p := by rw [ho]; simp
  have hWl := weights_length hM hW
  obtain ⟨hI, -⟩ := C57_lgr_integrates hM (by norm_num [outsideR]) hord hj hW
  obtain ⟨R, e, hR⟩ := exists_raceTurn hM.good hI hord (w := fun _ _ => 1 / 2)
    fun ph _ => ⟨fun s _ => by norm_num, by rw [ho]; norm_num⟩
  have hRs : SolvesAdaptive ocpRace M R [1 / 10000, 1 / 10000] [1, 1] [1 / 1000, 1 / 1000] true := by
    refine ⟨⟨hR.core.bounds, hR.core.dynamics, hR.core.path, hR.core.terminal, fun ph hp => ?_, hR.mid, hR.midState,
      fun _ ph hp F hF => race_entry fun s hs i hi => ?_, hR.core.links⟩, ?_⟩
    · refine ⟨by rw [e, ho]; norm_num, fun s _ => ?_, fun s _ => ?_⟩
      · rw [e]; revert ph; exact race_phases (by norm_num) (by norm_num)
      · rw [e]; revert ph; exact race_phases (by norm_num) (by norm_num)
    · rw [hR.defect ph hp F hF s hs, mul_zero, mul_zero]
      have h1 : (0 : ℝ) ≤ ([1 / 1000, 1 / 1000] : List ℝ).getD ph 0 := by
        clear hF hs hi; revert ph; exact race_phases (by norm_num) (by norm_num)
      exact ⟨neg_nonpos.2 h1, h1⟩
    · refine race_phases ?_ ?_ <;> (intro h; simp [ocpRace] at h)
  obtain ⟨z, hz, hzc⟩ := hobj R _ hRs ((race_cost hM.good hWl).2 rfl)
  have hbest : c.IsOptimal z := by
    refine ⟨hz, fun z' hz' => ?_⟩
    obtain ⟨T, hT, hJ⟩ := hsol z' hz'
    rw [hzc]
    exact race_optimal hM.good hWl hT.1.core hJ hR
  obtain ⟨z', hz'⟩ := hperf.complete c z hbest
  obtain ⟨k1, ⟨p, r⟩, k2⟩ := hret nlpsol z' hz' (hperf.sound c z' hz').sol
  obtain ⟨T, -, h2, h3⟩ := C107_adaptive adaptRace_fresh.ready rfl rfl rfl (by norm_num) (by norm_num) hM (by norm_num [outsideR])
    hord hj hperf.sound [] argsR (Prod.ext rfl k1) k2
  exact ⟨M, nlpsol, z', (p, r), T, hM, hperf, k1, k2, h2, h3⟩

/-- The object, with the default settings. -/
noncomputable def hoptRace : HOpt ℝ (List ℝ) :=
  ⟨ocpRace, 2, [2, 2], "LGR", [1 / 100000, 1 / 100000], [1, 1], [1 / 100, 1 / 100], ["fixed", "fixed"], 15, 1 / 10, 1 / 20,
    false, none, none, none, 0, []⟩

theorem hoptRace_fresh : hoptRace.Fresh ocpRace 2 (.list [2, 2]) "LGR" [1 / 100000, 1 / 100000] [1, 1] [1 / 100, 1 / 100] := by
  refine ⟨⟨hoptRace, _, _, _, _, ?_, rfl⟩⟩
  unfold newHAdaptive
  rw [show initOrders 2 (.list [2, 2]) = .ok ([2, 2], 5) by decide +kernel]
  rfl

/-- One call of `solve` with the default method of refinement. -/
def callsRace : List (HStart (List ℝ) × HArgs (List ℝ)) :=
  [(.fresh, ⟨none, false, "ipopt", [], [("method", "residual"), ("sub_method", "merge_split")], 4⟩)]

/-- The hypotheses of `C107_h` are met. -/
theorem exampleRaceH : ∃ (M : Mesh ℝ) (nlpsol : Nat → Nat → SolverCall ℝ (List ℝ) → Py (PyDict (List ℝ))) (s' : _) (sol : _)
    (out : _) (T : Traj ℝ), MeshFor outsideRH.toOutside "LGR" 2 (.list [2, 2]) M ∧
      (∀ n k c sol, nlpsol n k c = .ok sol → ∃ z, Returned outsideRH sol z ∧ c.IsOptimal z) ∧
      hoptRace.run outsideRH nlpsol callsRace 0 none = (s', some sol) ∧
      s'.processResults outsideRH sol [[0, 1]] false false true = .ok out ∧ out.1.Shows ocpRace M T ∧ WinsAtZero T := by
  classical
  obtain ⟨hv, hs, hsc⟩ := race_ready
  obtain ⟨M, hM', ho⟩ := exists_lgr_mesh [2, 2] (by simp) (by simp)
  have hM : MeshFor outsideRH.toOutside "LGR" 2 (.list [2, 2]) M :=
    ⟨hM'.good, hM'.orders, hM'.tau0, hM'.tau1, hM'.nodes⟩
  have hn : M.orders.length = 2 := by rw [ho]; rfl
  have hj : ∀ p ∈ M.orders, IsJacobiRoots 1 0 (p - 1) (outsideRH.lib.jroots (p - 1) 1 0) :=
    fun p _ => libR_jacobi 1 0 (p - 1)
  have hord : ∀ p ∈ M.orders, 2 ≤ p := by rw [ho]; simp
  have hlt : outsideRH.tau0 < outsideRH.tau1 := by norm_num [outsideRH]
  obtain ⟨d, honM, h1, h2, hWeq, hc⟩ := hoptRace_fresh.ready.coherent hM
  have hWl := weights_length hM hWeq
  obtain ⟨hI, -⟩ := C57_lgr_integrates hM hlt hord hj hWeq
  have hturn : ∀ l, ValidWidths 2 2 l → ∃ R, RaceTurn M R ∧ ocpRace.packWidths 2 R = l := by
    intro l hl
    obtain ⟨T₀, hw0⟩ := exists_packWidths ocpRace hl.1
    have hfull : ∀ ph < ocpRace.nPhases, FullWidths M T₀ ph := WidthsAre.full_all (req := some l) (by norm_num) hn
      (fun l' e => by cases e; exact hl) hw0
    obtain ⟨R, e, hR⟩ := exists_raceTurn hM.good hI hord (w := T₀.w) fun ph hp => ⟨(hfull ph hp).pos, (hfull ph hp).sum⟩
    exact ⟨R, hR, (packWidths_inj.2 fun ph _ s _ => by rw [e]).trans hw0⟩
  let nlpsol : Nat → Nat → SolverCall ℝ (List ℝ) → Py (PyDict (List ℝ)) := fun _ _ c =>
    if h : ValidWidths 2 2 c.p then
      if c.IsOptimal (ocpRace.packVec M.N (hturn c.p h).choose) then .ok [("x", ocpRace.packVec M.N (hturn c.p h).choose)]
      else .error .assertion
    else .error .assertion
  have hopt : ∀ n k c sol, nlpsol n k c = .ok sol → ∃ z, Returned outsideRH sol z ∧ c.IsOptimal z := by
    intro n k c sol h
    simp only [nlpsol] at h
    split at h
    · split at h
      · cases h; exact ⟨_, ⟨_, rfl, rfl⟩, ‹_›⟩
      · cases h
    · cases h
  have hans : ∀ {c}, Asked outsideRH hoptRace c → ∃ R, RaceTurn M R ∧ ocpRace.packWidths 2 R = c.p ∧
      ∀ i k, nlpsol i k c = .ok [("x", ocpRace.packVec M.N R)] := by
    intro c h
    obtain ⟨d', k1, k2, k3, k4⟩ := h
    obtain rfl : d = d' := Except.ok.inj (hc.disc.symm.trans k1)
    have k4 : ValidWidths 2 2 c.p := k4
    obtain ⟨r1, r2⟩ := (hturn c.p k4).choose_spec
    refine ⟨_, r1, r2, fun i k => ?_⟩
    have hseg : d.widthParams.length = 4 := by
      unfold Disc.widthParams; rw [h1, h2]; rfl
    obtain ⟨hsol, hobj⟩ := call_trajectories (req := some c.p) honM (by rw [h1]; exact hv) (by rw [h1]; exact hs)
      (by rw [h1]; exact hsc) k2 k3 (by rw [hseg]; exact k4.1) rfl
    rw [h1, h2] at hsol hobj
    have hwL : WidthsAre ocpRace 2 (some c.p) (hturn c.p k4).choose := r2
    simp only [nlpsol, dif_pos k4]
    refine if_pos ⟨(hsol _).2 ⟨_, r1.solves, hwL, rfl⟩, fun z hz => ?_⟩
    obtain ⟨T, hT, hwT, rfl⟩ := (hsol z).1 hz
    rw [hobj _ _ hwL ((race_cost hM.good hWl).2 rfl), hobj _ _ hwT ((race_cost hM.good hWl).2 rfl)]
    exact race_optimal hM.good hWl hT.1.core ((race_cost hM.good hWl).2 rfl) r1
  have hown : OwnStarts callsRace := by
    intro c hc x
    simp only [callsRace, List.mem_cons, List.not_mem_nil, or_false] at hc
    rcases hc with rfl; simp
  obtain ⟨s', sol, q, r1, r2, r3, ⟨p, r⟩, r4⟩ := C62_h_returns (ptp := [[0, 1]]) (rx := false) (rdx := true)
    (nlpsol := nlpsol) hoptRace_fresh.ready hv hs hsc hM hlt (fun q hq => by
      obtain ⟨r, hr, hsp⟩ := C01_lgr_nodes outsideRH.lib outsideRH.tau0 outsideRH.tau1 hlt q
        (by have := hord q hq; omega) (fun _ => hj q hq)
      rw [hM.nodes q hq] at hr
      obtain rfl : M.nodes q = r := by injection hr
      exact hsp.sorted) rfl rfl rfl rfl (by norm_num [hoptRace]) (fun _ h => nomatch h) (by
      intro ph l u hl hu
      match ph with
      | 0 => cases hl; cases hu; norm_num
      | 1 => cases hl; cases hu; norm_num
      | ph + 2 => cases hl) (fun l => abs_nonneg _)
      (race_phases (by simp [ocpRace, entry]) (by simp [ocpRace, entry]))
      (calls := callsRace) (by simp [callsRace]) hown (by
      intro c hc
      simp only [callsRace, List.mem_cons, List.not_mem_nil, or_false] at hc
      rcases hc with rfl; exact ⟨by simp, rfl⟩) (fun i k c hc => by
      obtain ⟨R, hR, hw, hk⟩ := hans hc
      refine ⟨_, hk i k, ⟨⟨R, ⟨⟨_, rfl, rfl⟩, ?_⟩, ?_⟩, ?_⟩⟩
      · rw [ho]; exact hw.symm
      · rintro ⟨c, hc, hm⟩
        exfalso
        simp only [callsRace, List.mem_cons, List.not_mem_nil, or_false] at hc
        rcases hc with rfl
        exact absurd hm (by decide +kernel)
      · rintro ⟨c, hc, hm, hsub⟩
        exfalso
        simp only [callsRace, List.mem_cons, List.not_mem_nil, or_false] at hc
        rcases hc with rfl
        exact absurd hsub (by decide +kernel)) (by simp)
  obtain ⟨T, -, g2, g3⟩ := C107_h hoptRace_fresh.ready hM hlt hord hj hn hopt hown r1 r4 (by
    intro l hl
    rw [r2] at hl
    cases hl
    exact r3)
  exact ⟨M, nlpsol, s', sol, (p, r), T, hM, hopt, r1, r4, g2, g3⟩

/-! ### No minimum at all -/

/-- `ocp = OCP(1, 1, n_phases=2)` with the time spent in the second phase as cost, all else at its default. -/
noncomputable def scriptStay : Py (OCP ℝ) := do
  let o ← mkOCP 1 1 2 0
  return { o with runningCosts := o.runningCosts.set 1 fun _ => 1 }

/-- The object built by the script, written out. -/
noncomputable def ocpStay : OCP ℝ :=
  { ocpRace with
    dynamics := [⟨1, fun _ _ => 0⟩, ⟨1, fun _ _ => 0⟩]
    terminalCosts := [fun _ => 0, fun _ => 0]
    runningCosts := [fun _ => 0, fun _ => 1]
    terminalConstraints := [none, none]
    lbu := [[.ninf], [.ninf]], ubu := [[.pinf], [.pinf]] }

theorem scriptStay_eq : scriptStay = .ok ocpStay := rfl

theorem stay_ready : ValidOCP ocpStay ∧ ocpStay.SettingsOK ∧ ocpStay.PosScales := by
  refine ⟨?_, ?_, ?_⟩
  · constructor
    case ordX => exact rowOrdered_cons (by simp [Ext.le]) (rowOrdered_cons (by simp [Ext.le]) rowOrdered_nil)
    case ordU => exact rowOrdered_cons (by simp [Ext.le]) (rowOrdered_cons (by simp [Ext.le]) rowOrdered_nil)
    case ordA => exact rowOrdered_cons (by simp) (rowOrdered_cons (by simp) rowOrdered_nil)
    case ordT0 => exact rowOrdered_cons (by simp [Ext.le]) (rowOrdered_cons (by simp [Ext.le]) rowOrdered_nil)
    case ordTf => exact rowOrdered_cons (by simp [Ext.le]) (rowOrdered_cons (by simp [Ext.le]) rowOrdered_nil)
    case ordE => exact rowOrdered_cons (by simp [Ext.le]) rowOrdered_nil
    all_goals simp [HasShape, ocpStay, ocpRace]
  · constructor <;> simp [ocpStay, ocpRace]
  · constructor <;> simp [ocpStay, ocpRace]

/-- **C107** As meant, the cost is positive, -/
theorem C107_stay_true {C : CTraj} (hC : SolvesContinuously ocpStay C) : 0 < ocpStay.trueCost C := by
  have h : ocpStay.trueCost C = C.tf 1 - C.t0 1 := by
    rw [OCP.trueCost, show ocpStay.nPhases = 2 from rfl, Finset.sum_range_succ, Finset.sum_range_one]
    simp [ocpStay]
  rw [h]
  have := (hC.phase 1 (by simp [ocpStay, ocpRace])).order
  linarith

/-- Nothing moves; the second phase runs from time `τ` back to time 0. -/
noncomputable def stayBack (τ : ℝ) (w : Nat → Nat → ℝ) : Traj ℝ :=
  ⟨fun _ _ _ => 0, fun _ _ _ => 0, fun ph => if ph = 0 then 0 else τ, fun ph => if ph = 0 then τ else 0, fun _ _ => 0, w⟩

/-- **C107** but the collocated problem has trajectories of all negative costs. -/
theorem C107_stay_cost (hM : M.Good) {W : List ℝ} {deg : Nat → Nat} (hW : M.Integrates W deg)
    {w : Nat → Nat → ℝ} (hw : ∑ s ∈ Finset.range M.orders.length, w s 1 = 1) (hlt : M.tau0 < M.tau1) {τ : ℝ} (hτ : 0 ≤ τ) :
    SolvesOCP ocpStay M (stayBack τ w) ∧ PhysCost ocpStay M W (stayBack τ w) (-τ) := by
  have hpc : ∀ s < M.orders.length, ∀ v : Nat → ℝ, (∀ k, v k = 0) → M.piece v s = 0 := by
    intro s hs v hv
    exact hM.piece_eq hs v 0 (by rw [degree_zero]; exact WithBot.bot_lt_coe _) fun i _ => by rw [hv]; simp
  have he : ∀ {P : Nat → Prop}, P 0 → ∀ j < 1, P j := fun {P} h j hj => by
    obtain rfl : j = 0 := Nat.lt_one_iff.1 hj
    exact h
  refine ⟨⟨⟨two_phases ?_ ?_, ?_, ?_, ?_, ?_, ?_, fun _ => ⟨?_, ?_, ?_⟩⟩, ?_⟩, ?_⟩
  · refine ⟨fun _ => he ?_, fun i _ _ => he ?_, fun i _ => he ?_, ?_, ?_, fun k hk => ?_⟩
    · simp [stayBack, ocpStay, ocpRace, entry]
    · exact ⟨trivial, trivial⟩
    · exact ⟨trivial, trivial⟩
    · exact ⟨le_rfl, le_rfl⟩
    · exact ⟨hτ, trivial⟩
    · simp [ocpStay, ocpRace] at hk
  · refine ⟨fun h => by omega, fun i _ _ => he ?_, fun i _ => he ?_, ?_, ?_, fun k hk => ?_⟩
    · exact ⟨trivial, trivial⟩
    · exact ⟨trivial, trivial⟩
    · exact ⟨hτ, trivial⟩
    · exact ⟨le_rfl, trivial⟩
    · simp [ocpStay, ocpRace] at hk
  · intro ph hp F hF j hj s i hown
    have : F.f (ocpStay.pArg (stayBack τ w) ph (M.idx s i) (M.time (stayBack τ w) ph s (M.node s i))) j = 0 := by
      have hp : ph < 2 := hp
      interval_cases ph <;> cases hF <;> rfl
    rw [this, hpc s hown.1 (fun k => (stayBack τ w).x ph k j) fun _ => rfl]
    simp
  · refine two_phases ?_ ?_ <;> (intro F hF; simp [ocpStay, ocpRace] at hF)
  · refine two_phases ?_ ?_ <;> (intro F hF; simp [ocpStay, ocpRace] at hF)
  · intro ph hp _ j hj s hs i hi
    have hp : ph < 2 := hp
    have hj : j < 1 := hj
    interval_cases ph <;> interval_cases j <;> exact ⟨trivial, trivial⟩
  · refine two_phases ?_ ?_ <;> (intro h; simp [ocpStay, ocpRace] at h)
  · intro k p q hk
    obtain rfl : k = 0 := by
      have := (List.getElem?_eq_some_iff.1 hk).1
      simpa [ocpStay, ocpRace] using this
    cases hk
    exact he (by simp [ocpStay, ocpRace, entry, Within, Ext.Below, Ext.Above, stayBack])
  · intro k p q _ j _; rfl
  · intro k p q hk
    obtain rfl : k = 0 := by
      have := (List.getElem?_eq_some_iff.1 hk).1
      simpa [ocpStay, ocpRace] using this
    cases hk
    simp [stayBack]
  · refine two_phases ?_ ?_ <;> (intro h; simp [ocpStay, ocpRace] at h)
  · obtain ⟨v, hv⟩ := exists_samples ocpStay M (stayBack τ w)
    refine ⟨fun ph => if ph = 0 then fun _ => 0 else v 1, two_phases ?_ ?_, ?_⟩
    · intro rc hrc s i _
      cases hrc
      simp
    · exact hv 1 (by simp [ocpStay, ocpRace])
    · have h0 : weightedSum W (fun _ => 0) = 0 := by simp [weightedSum]
      have h1 := hW (fun _ => X) (fun s => M.halfWidth (stayBack τ w) 1 s) (v 1) (fun s _ => by simp) (by
        intro s hs i hi ho
        have := hv 1 (by simp [ocpStay, ocpRace]) (fun _ => 1) rfl s i ⟨hs, by rw [Mesh.order_eq hs]; exact hi, ho⟩
        simpa [Mesh.idx] using this)
      rw [show ocpStay.nPhases = 2 from rfl, Finset.sum_range_succ, Finset.sum_range_one]
      simp only [if_true, one_ne_zero, if_false, h0, h1]
      simp only [eval_X, ← Finset.sum_mul, Mesh.halfWidth, ← Finset.mul_sum]
      have : ∑ s ∈ Finset.range M.orders.length, (stayBack τ w).w s 1 = 1 := hw
      rw [this]
      have hd : M.tau1 - M.tau0 ≠ 0 := (sub_pos.2 hlt).ne'
      simp [TerminalCost, ocpStay, stayBack]
      field_simp

/-- **C107** So with NLP solvers that only return minimisers `solve` never returns, for all meshes and widths. -/
theorem C107_never {nlpsol : SolverCall ℝ V → Py (List ℝ)} {a : SolveArgs ℝ V} (hM : MeshFor w "LGR" n arg M)
    (hlt : w.tau0 < w.tau1) (hord : ∀ q ∈ M.orders, 2 ≤ q)
    (hj : ∀ q ∈ M.orders, IsJacobiRoots 1 0 (q - 1) (w.lib.jroots (q - 1) 1 0)) (hn : M.orders.length = n)
    (hwid : GoodWidths ocpStay n a.widths) (hopt : ∀ c z, nlpsol c = .ok z → c.IsOptimal z) :
    ∀ out, mpSolve w nlpsol ocpStay ptp n arg "LGR" a rx rdx ≠ .ok out := by
  rintro ⟨s, p, r⟩ hrun
  obtain ⟨hv, hs, hsc⟩ := stay_ready
  obtain ⟨T, W, J, hW, hT, hwT, hshow, hJ, hbest⟩ := C53_solve_optimal hrun hv hs hsc hM hopt
  have hn0 : 0 < n := by
    rw [← hn]; exact List.length_pos_iff.2 hM.good.nonempty
  have hfull : ∀ ph < ocpStay.nPhases, FullWidths M T ph := hwT.full_all hn0 hn hwid
  obtain ⟨hI, hInt⟩ := C57_lgr_integrates hM hlt hord hj hW
  obtain ⟨h1, h2⟩ := C107_stay_cost hM.good hInt (hfull 1 (by simp [ocpStay, ocpRace])).sum (hI.tau_lt hM.good)
    (abs_nonneg (J - 1))
  have := hbest _ _ h1 ((hwT.iff).2 fun ph _ s _ => rfl) h2
  linarith [le_abs_self (J - 1), neg_abs_le (J - 1)]

end MPOpt
