import Verif.Props.Schwartz
import Verif.Props.HUnknownExample

/-! # Runs that meet the hypotheses of C98

For every number of segments and every order that lets the motion turn; the script takes 2 to 9 segments of order 3. -/

set_option autoImplicit false

namespace MPOpt
open Polynomial

variable {n p : Nat}

/-- Every result with cost zero is optimal. -/
theorem cost_nonneg {M : Mesh ℝ} (hM : M.Good) {W : List ℝ} (hW : W.length = M.N) {T : Traj ℝ} {J : ℝ}
    (hJ : PhysCost ocpSch M W T J) : 0 ≤ J := by
  rw [cost_Sch hM hW hJ]
  positivity

theorem lgr_canTurn {V : Type} {w : Outside ℝ V} (hl : w.lib = libR) (h0 : w.tau0 = -1) (h1 : w.tau1 = 1)
    (hp : (2 ≤ n ∧ 3 ≤ p) ∨ 4 ≤ p) {M : Mesh ℝ} (hM : MeshFor w "LGR" n (.int p) M) {W : List ℝ}
    (hW : compQuadWeights ⟨w.method, w.tau0, w.tau1, tausFn w.lib w.tau0 w.tau1 "LGR"⟩ M.orders = .ok W) : M.Inside ∧ CanTurn M := by
  have ho : M.orders = List.replicate n p := hM.orders
  have hord : ∀ q ∈ M.orders, q = p := by rw [ho]; intro q hq; exact (List.mem_replicate.1 hq).2
  have hlt : w.tau0 < w.tau1 := by rw [h0, h1]; norm_num
  refine ⟨(C57_lgr_integrates hM hlt (fun q hq => by rw [hord q hq]; omega) (fun q _ => by rw [hl]; exact libR_jacobi 1 0 (q - 1)) hW).1, ?_⟩
  rcases hp with ⟨h2, h3⟩ | h4
  · exact Or.inl ⟨by rw [ho]; simpa using h2, fun q hq => by rw [hord q hq]; exact h3⟩
  · exact Or.inr fun q hq => by rw [hord q hq]; exact h4

/-- `mpopt(ocp, n, p).solve()` returns with a perfect NLP solver, whatever the values of solver options are. -/
theorem exampleSch_of {V : Type} {w : Outside ℝ V} (hl : w.lib = libR) (h0 : w.tau0 = -1)
    (h1 : w.tau1 = 1) {a : SolveArgs ℝ V} (ha : a.widths = none)
    (hacc : w.accepts a.plugin (solverOptions w.vals a.plugin a.options) = true) (hn : 0 < n) (hp : (2 ≤ n ∧ 3 ≤ p) ∨ 4 ≤ p) {M : Mesh ℝ}
    (hM : MeshFor w "LGR" n (.int p) M) : ∃ (nlpsol : SolverCall ℝ V → Py (List ℝ)) (out : _),
    (∀ c z, nlpsol c = .ok z → c.IsOptimal z) ∧
      mpSolve w nlpsol ocpSch [[0]] n (.int p) "LGR" a false true = .ok out ∧
      ∃ T, out.2.1.Shows ocpSch M T ∧ SolvesOCP ocpSch M T ∧ T.x 1 (M.N - 1) 0 = 0 ∧ T.x 1 (M.N - 1) 1 = 0 := by
  classical
  have ho : M.orders = List.replicate n p := hM.orders
  obtain ⟨hv, hs, hsc⟩ := ocpSch_ready
  have hlen : M.orders.length = n := by rw [ho]; simp
  have hlt : w.tau0 < w.tau1 := by rw [h0, h1]; norm_num
  have hgw : GoodWidths ocpSch n a.widths := by rw [ha]; simp [GoodWidths]
  obtain ⟨c, W, hWeq, hsol, hobj, hret⟩ := C52_solve_returns (ocp := ocpSch) (a := a)
    (scheme := "LGR") (n := n) (arg := .int p) (M := M) (ptp := [[0]]) (rx := false) (rdx := true)
    hv hs hsc hM hlen hlt hacc hgw (two_phases (by simp [ocpSch, entry]) (by simp [ocpSch, entry])) (by simp)
  obtain ⟨hI, hc⟩ := lgr_canTurn hl h0 h1 hp hM hWeq
  have hnr : (n : ℝ) ≠ 0 := by positivity
  obtain ⟨L, hLw, hLs, hLc⟩ := exists_turn hM.good hI hc (w := fun _ _ => 1 / (n : ℝ))
    (fun ph _ => ⟨fun s _ => by positivity, by rw [hlen]; simp; field_simp⟩) W
  have hLa : WidthsAre ocpSch n a.widths L := by rw [ha]; intro ph _ s _; rw [hLw]
  have hzs : c.IsSolution (ocpSch.packVec M.N L) := (hsol _).2 ⟨L, hLs, hLa, rfl⟩
  have hz : c.IsOptimal (ocpSch.packVec M.N L) := by
    refine ⟨hzs, fun z hz => ?_⟩
    obtain ⟨T, hT, hwT, rfl⟩ := (hsol z).1 hz
    rw [hobj _ _ hLa hLc]
    obtain ⟨v, hv'⟩ := exists_samples ocpSch M T
    have hJ : PhysCost ocpSch M W T _ := ⟨v, hv', rfl⟩
    rw [hobj _ _ hwT hJ]
    exact cost_nonneg hM.good (hM.weights_length hWeq) hJ
  obtain ⟨⟨s, q, r⟩, hout⟩ := hret
    (fun c => if c.IsOptimal (ocpSch.packVec M.N L) then .ok (ocpSch.packVec M.N L) else .error .assertion) _
    (if_pos hz) hzs.1
  have hopt : ∀ c' z, (fun c : SolverCall ℝ V => if c.IsOptimal (ocpSch.packVec M.N L) then
      (.ok (ocpSch.packVec M.N L) : Py (List ℝ)) else .error .assertion) c' = .ok z → c'.IsOptimal z := by
    intro c' z h
    simp only at h
    split at h
    · cases h; assumption
    · cases h
  obtain ⟨T, -, -, k1, -, k2, -, k3, k4⟩ := C98_solve scriptSchwartz_eq hout hM hI hc hopt hgw
  exact ⟨_, (s, q, r), hopt, hout, T, k2, k1, k3, k4⟩

/-- `mpopt(ocp, n, p).solve()`, as a run. -/
theorem exampleSch (hn : 0 < n) (hp : (2 ≤ n ∧ 3 ≤ p) ∨ 4 ≤ p) :
    ∃ (M : Mesh ℝ) (nlpsol : SolverCall ℝ Nat → Py (List ℝ)) (out : _),
    MeshFor outsideR "LGR" n (.int p) M ∧ (∀ c z, nlpsol c = .ok z → c.IsOptimal z) ∧
      mpSolve outsideR nlpsol ocpSch [[0]] n (.int p) "LGR" argsR false true = .ok out ∧
      ∃ T, out.2.1.Shows ocpSch M T ∧ SolvesOCP ocpSch M T ∧ T.x 1 (M.N - 1) 0 = 0 ∧ T.x 1 (M.N - 1) 1 = 0 := by
  obtain ⟨M, hM, -⟩ := exists_lgr_int hn (p := p) (by omega)
  obtain ⟨nlpsol, out, h1, h2, h3⟩ := exampleSch_of (a := argsR) rfl rfl rfl rfl rfl hn hp hM
  exact ⟨M, nlpsol, out, hM, h1, h2, h3⟩

/-- The hypotheses of `C98_coarse` are met. -/
example : ∃ M T W J, MeshFor outsideR "LGR" 1 (.int 1) M ∧ M.orders = [1] ∧ W.length = M.N ∧ SolvesOCP ocpSch M T ∧
    (∀ ph < 2, FullWidths M T ph) ∧ PhysCost ocpSch M W T J := by
  obtain ⟨M, hM, ho⟩ := exists_lgr_mesh [1] (by simp) (by simp)
  have hI : M.Inside := by
    intro q hq v hv
    obtain rfl : q = 1 := by rw [ho] at hq; simpa using hq
    obtain ⟨r, hr, hsp⟩ := C01_lgr_nodes outsideR.lib outsideR.tau0 outsideR.tau1 (by norm_num [outsideR]) 1 le_rfl
      (fun h => by omega)
    rw [hM.nodes 1 hq] at hr
    obtain rfl : M.nodes 1 = r := by injection hr
    rw [hM.tau0, hM.tau1]
    generalize M.nodes 1 = r at hsp hv
    obtain ⟨h1, -, h3, h4⟩ := hsp
    match r, h1 with
    | [a, b], _ =>
      obtain rfl : a = outsideR.tau0 := by simpa using h3
      obtain rfl : b = outsideR.tau1 := by simpa using h4
      have hlt : outsideR.tau0 < outsideR.tau1 := by norm_num [outsideR]
      rcases List.mem_pair.1 hv with rfl | rfl
      · exact ⟨le_rfl, hlt.le⟩
      · exact ⟨hlt.le, le_rfl⟩
  obtain ⟨T, h1, h2, J, h3⟩ := C98_coarse_exists hM.good hI ho (List.replicate M.N 0)
  exact ⟨M, T, _, J, ⟨hM.good, ho, hM.tau0, hM.tau1, hM.nodes⟩, ho, by simp, h1, h2, h3⟩

/-- `mpopt_adaptive(ocp, n, p)` with its default settings. -/
noncomputable def adaptSch (n p : Nat) : AdaptOpt ℝ Nat :=
  ⟨ocpSch, n, List.replicate n p, "LGR", [1 / 10000, 1 / 10000], [1, 1], [1 / 1000, 1 / 1000], true, ["fixed", "fixed"], 15, false,
    none, none, none, none⟩

theorem adaptSch_fresh :
    (adaptSch n p).Fresh ocpSch n (.int p) "LGR" [1 / 10000, 1 / 10000] [1, 1] [1 / 1000, 1 / 1000] true := by
  refine ⟨⟨adaptSch n p, _, _, ?_, rfl⟩⟩
  have : initOrders n (.int p) = .ok (List.replicate n p, (List.replicate n p).sum + 1) := by
    unfold initOrders; simp [pyAssert]
  unfold newAdapt
  rw [this]
  rfl

/-- `mpopt_adaptive(ocp, n, p).solve()` returns, for at most 10000 segments (its least width is 1e-4). -/
theorem exampleAdaptSch (hn : 0 < n) (hn' : n ≤ 10000) (hp : 11 ≤ p) :
    ∃ (M : Mesh ℝ) (nlpsol : SolverCall ℝ Nat → Py (List ℝ)) (z : List ℝ) (out : _),
    MeshFor outsideR "LGR" n (.int p) M ∧ (∀ c z, nlpsol c = .ok z → c.IsOptimal z) ∧
      ((adaptSch n p).solve outsideR nlpsol argsR).2 = .ok z ∧
      ((adaptSch n p).solve outsideR nlpsol argsR).1.processResults outsideR [[0]] false false true = .ok out ∧
      ∃ T, out.1.Shows ocpSch M T ∧ T.x 1 (M.N - 1) 0 = 0 ∧ T.x 1 (M.N - 1) 1 = 0 := by
  classical
  obtain ⟨hv, hs, hsc⟩ := ocpSch_ready
  obtain ⟨M, hM, ho⟩ := exists_lgr_int hn (p := p) (by omega)
  have hlen : M.orders.length = n := by rw [ho]; simp
  have hnr : (0 : ℝ) < n := by exact_mod_cast hn
  have hnr' : (n : ℝ) ≤ 10000 := by exact_mod_cast hn'
  have hn1 : (1 : ℝ) ≤ n := by exact_mod_cast hn
  have w1 : (1 / 10000 : ℝ) ≤ 1 / n := one_div_le_one_div_of_le hnr hnr'
  have w2 : 1 / (n : ℝ) ≤ 1 := by rw [div_le_one hnr]; exact hn1
  obtain ⟨c, W, hWeq, hsol, hobj, hret⟩ := C54_adaptive_returns (a := argsR) (ptp := [[0]]) (rx := false) (rdx := true)
    (adaptSch_fresh (n := n) (p := p)).ready hv hs hsc rfl rfl rfl hM (by norm_num [outsideR]) rfl rfl (by norm_num)
    (two_phases (by simp [ocpSch, entry]) (by simp [ocpSch, entry])) (by simp)
  obtain ⟨hI, -⟩ := lgr_canTurn (w := outsideR) rfl rfl rfl (Or.inr (by omega)) hM hWeq
  have hc : ∀ q ∈ M.orders, 11 ≤ q := by rw [ho]; intro q hq; rw [(List.mem_replicate.1 hq).2]; exact hp
  have htol : true = true → ∀ ph < 2, (0 : ℝ) ≤ ([1 / 1000, 1 / 1000] : List ℝ).getD ph 0 := fun _ =>
    two_entries (by norm_num) (by norm_num)
  have hwid : ∀ ph < 2, ([1 / 10000, 1 / 10000] : List ℝ).getD ph 0 ≤ 1 / n ∧ 1 / (n : ℝ) ≤ ([1, 1] : List ℝ).getD ph 0 :=
    two_entries ⟨w1, w2⟩ ⟨w1, w2⟩
  obtain ⟨L, hLs, hLc⟩ := exists_turn_adaptive hM.good hI hc (w := fun _ _ => 1 / (n : ℝ))
    (fun ph hp => ⟨fun s _ => ⟨by positivity, hwid ph hp⟩, by rw [hlen]; simp; field_simp⟩) htol W
  obtain ⟨z, hz, hzc⟩ := hobj L _ hLs hLc
  have hopt : c.IsOptimal z := by
    refine ⟨hz, fun z' hz' => ?_⟩
    obtain ⟨T, hT, hJ⟩ := hsol z' hz'
    rw [hzc]
    exact cost_nonneg hM.good (hM.weights_length hWeq) hJ
  obtain ⟨k1, out, k2⟩ := hret (fun c => if c.IsOptimal z then .ok z else .error .assertion) z (if_pos hopt) hz
  have hopt' : ∀ c' z', (fun c : SolverCall ℝ Nat => if c.IsOptimal z then
      (.ok z : Py (List ℝ)) else .error .assertion) c' = .ok z' → c'.IsOptimal z' := by
    intro c' z' h
    simp only at h
    split at h
    · cases h; assumption
    · cases h
  obtain ⟨q, r⟩ := out
  obtain ⟨T, -, -, -, g1, -, g2, g3⟩ := C98_adaptive scriptSchwartz_eq (adaptSch_fresh (n := n) (p := p)).ready rfl rfl rfl
    hwid htol hM hI hc hopt' [] argsR (Prod.ext rfl k1) k2
  exact ⟨M, _, z, (q, r), hM, hopt', k1, k2, T, g1, g2, g3⟩

/-- `mpopt_h_adaptive(ocp, n, p)` with the settings of the script (`_TOL_RESIDUAL = 1e-4`, `_TOL_SEG_WIDTH_CHANGE = 0.01`,
lines 102-104). -/
noncomputable def hoptSch (n p : Nat) : HOpt ℝ (List ℝ) :=
  ⟨ocpSch, n, List.replicate n p, "LGR", [1 / 100000, 1 / 100000], [1, 1], [1 / 10000, 1 / 10000], ["fixed", "fixed"], 15, 1 / 10, 1 / 100,
    false, none, none, none, 0, []⟩

theorem hoptSch_fresh : (hoptSch n p).Fresh ocpSch n (.int p) "LGR" [1 / 100000, 1 / 100000] [1, 1] [1 / 10000, 1 / 10000] := by
  have : initOrders n (.int p) = .ok (List.replicate n p, (List.replicate n p).sum + 1) := by
    unfold initOrders; simp [pyAssert]
  refine ⟨⟨{ hoptSch n p with tol := [1 / 100, 1 / 100], tolChange := 1 / 20 }, _, _, _, _, ?_, rfl⟩⟩
  unfold newHAdaptive
  rw [this]
  rfl

/-- The widths of a trajectory can be any list of widths. -/
theorem exists_turn_widths {M : Mesh ℝ} (hM : M.Good) (hI : M.Inside) (hc : CanTurn M) (hn : 0 < n) (hlen : M.orders.length = n)
    {l : List ℝ} (hl : ValidWidths n 2 l) (W : List ℝ) :
    ∃ T, ocpSch.packWidths n T = l ∧ SolvesOCP ocpSch M T ∧ PhysCost ocpSch M W T 0 := by
  have hl1 : l.length = n * 2 := hl.1
  let T0 : Traj ℝ := ⟨fun _ _ _ => 0, fun _ _ _ => 0, fun _ => 0, fun _ => 0, fun _ _ => 0, fun s ph => l.getD (n * ph + s) 0⟩
  have h0 : ocpSch.packWidths n T0 = l := by
    unfold OCP.packWidths
    rw [show ocpSch.nPhases = 2 from rfl]
    apply List.ext_getElem
    · simp [hl1, List.range_succ]; omega
    · intro i hi hi'
      simp only [List.range_succ, List.range_zero, List.nil_append, List.cons_append, List.flatMap_cons, List.flatMap_nil,
        List.append_nil, List.getElem_append, List.length_map, List.length_range, List.getElem_map, List.getElem_range, T0]
      split
      · rw [Nat.mul_zero, Nat.zero_add, List.getD_eq_getElem _ _ hi']
      · rw [Nat.mul_one, Nat.add_sub_of_le (by omega), List.getD_eq_getElem _ _ hi']
  have hw0 : WidthsAre ocpSch n (some l) T0 := h0
  obtain ⟨T, hT, k1, k2⟩ := exists_turn hM hI hc (full_of_good (hw0.full_all hn hlen (fun l' h => by cases h; exact hl))) W
  refine ⟨T, ?_, k1, k2⟩
  rw [← h0]
  unfold OCP.packWidths
  rw [hT]

/-- Calls of `solve` of `mpopt_h_adaptive(ocp, n, p)` return, unless they split areas equally. -/
theorem exampleHSch_calls (hn : 0 < n) (hp : (2 ≤ n ∧ 3 ≤ p) ∨ 4 ≤ p) {calls : List (HStart (List ℝ) × HArgs (List ℝ))} (hne : calls ≠ [])
    (hown : OwnStarts calls) (hcalls : ∀ c ∈ calls, 0 < c.2.maxIter ∧
      outsideRH.accepts c.2.plugin (solverOptions outsideRH.vals c.2.plugin (hSolverDict outsideRH.zero c.2.options)) = true) (harea : ¬ UsesArea calls) :
    ∃ (M : Mesh ℝ) (nlpsol : Nat → Nat → SolverCall ℝ (List ℝ) → Py (PyDict (List ℝ))),
    MeshFor outsideRH.toOutside "LGR" n (.int p) M ∧
      (∀ n k c sol, nlpsol n k c = .ok sol → ∃ z, Returned outsideRH sol z ∧ c.IsOptimal z) ∧
      ∃ s' sol out, (hoptSch n p).run outsideRH nlpsol calls 0 none = (s', some sol) ∧
        s'.processResults outsideRH sol [[0]] false false true = .ok out ∧
      ∃ T, out.1.Shows ocpSch M T ∧ SolvesOCP ocpSch M T ∧ T.x 1 (M.N - 1) 0 = 0 ∧ T.x 1 (M.N - 1) 1 = 0 := by
  classical
  obtain ⟨hv, hs, hsc⟩ := ocpSch_ready
  obtain ⟨M, hM', ho⟩ := exists_lgr_int hn (p := p) (by omega)
  have hM : MeshFor outsideRH.toOutside "LGR" n (.int p) M :=
    ⟨hM'.good, hM'.orders, hM'.tau0, hM'.tau1, hM'.nodes⟩
  have hlen : M.orders.length = n := by rw [ho]; simp
  have hlt : outsideRH.tau0 < outsideRH.tau1 := by norm_num [outsideRH]
  obtain ⟨d, honM, h1, h2, hWeq, hc⟩ := (hoptSch_fresh (n := n) (p := p)).ready.coherent hM
  obtain ⟨hI, hct⟩ := lgr_canTurn (w := outsideRH.toOutside) rfl rfl rfl hp hM hWeq
  choose L hL using fun l : List ℝ => show ∃ T, ValidWidths n 2 l →
      ocpSch.packWidths n T = l ∧ SolvesOCP ocpSch M T ∧ PhysCost ocpSch M d.compW T 0 from by
    by_cases h : ValidWidths n 2 l
    · obtain ⟨T, hT⟩ := exists_turn_widths hM.good hI hct hn hlen h d.compW
      exact ⟨T, fun _ => hT⟩
    · exact ⟨⟨fun _ _ _ => 0, fun _ _ _ => 0, fun _ => 0, fun _ => 0, fun _ _ => 0, fun _ _ => 0⟩, fun h' => absurd h' h⟩
  let nlpsol : Nat → Nat → SolverCall ℝ (List ℝ) → Py (PyDict (List ℝ)) := fun _ _ c =>
    if c.IsOptimal (ocpSch.packVec M.N (L c.p)) then .ok [("x", ocpSch.packVec M.N (L c.p))]
    else .error .assertion
  have hopt : ∀ n k c sol, nlpsol n k c = .ok sol → ∃ z, Returned outsideRH sol z ∧ c.IsOptimal z := by
    intro n k c sol h
    simp only [nlpsol] at h
    split at h
    · cases h; exact ⟨_, ⟨_, rfl, rfl⟩, ‹_›⟩
    · cases h
  have hans : ∀ {c}, Asked outsideRH (hoptSch n p) c → ValidWidths n 2 c.p ∧
      ∀ i k, nlpsol i k c = .ok [("x", ocpSch.packVec M.N (L c.p))] := by
    intro c h
    obtain ⟨d', k1, k2, k3, k4⟩ := h
    obtain rfl : d = d' := Except.ok.inj (hc.disc.symm.trans k1)
    have k4 : ValidWidths n 2 c.p := k4
    refine ⟨k4, fun i k => ?_⟩
    have hseg : d.widthParams.length = n * 2 := by
      unfold Disc.widthParams; rw [h1, h2]; simp [ocpSch]; ring
    obtain ⟨hsol, hobj⟩ := call_trajectories (req := some c.p) honM (by rw [h1]; exact hv) (by rw [h1]; exact hs)
      (by rw [h1]; exact hsc) k2 k3 (by rw [k4.1, hseg]) rfl
    rw [h1, h2] at hsol hobj
    obtain ⟨q1, hLs, hLc⟩ := hL c.p k4
    have hwL : WidthsAre ocpSch n (some c.p) (L c.p) := q1
    simp only [nlpsol]
    refine if_pos ⟨(hsol _).2 ⟨L c.p, hLs, hwL, rfl⟩, fun z hz => ?_⟩
    obtain ⟨T, hT, hwT, rfl⟩ := (hsol z).1 hz
    rw [hobj _ _ hwL hLc]
    obtain ⟨v, hv'⟩ := exists_samples ocpSch M T
    have hJ : PhysCost ocpSch M d.compW T _ := ⟨v, hv', rfl⟩
    rw [hobj _ _ hwT hJ]
    exact cost_nonneg hM.good (hM.weights_length hWeq) hJ
  obtain ⟨s', sol, l, r1, r2, r3, out, r4⟩ := C62_h_returns (ptp := [[0]]) (rx := false) (rdx := true)
    (nlpsol := nlpsol) (hoptSch_fresh (n := n) (p := p)).ready hv hs hsc hM hlt (fun q hq => by
      obtain ⟨r, hr, hsp⟩ := C01_lgr_nodes outsideRH.lib outsideRH.tau0 outsideRH.tau1 hlt q
        (by rw [ho] at hq; rw [(List.mem_replicate.1 hq).2]; omega) (fun _ => libR_jacobi 1 0 (q - 1))
      rw [hM.nodes q hq] at hr
      obtain rfl : M.nodes q = r := by injection hr
      exact hsp.sorted) rfl rfl rfl rfl (by norm_num [hoptSch]) (fun _ h => nomatch h) (by
      intro ph l u hl hu
      match ph with
      | 0 => cases hl; cases hu; norm_num
      | 1 => cases hl; cases hu; norm_num
      | ph + 2 => cases hl) (fun l => abs_nonneg _)
      (two_phases (by simp [ocpSch, entry]) (by simp [ocpSch, entry]))
      (calls := calls) hne hown hcalls (fun i k c hc => by
      obtain ⟨ha, hk⟩ := hans hc
      obtain ⟨q1, q2, -⟩ := hL c.p ha
      refine ⟨_, hk i k, ⟨⟨L c.p, ⟨⟨_, rfl, rfl⟩, ?_⟩, fun _ => ?_⟩, ?_⟩⟩
      · rw [hlen]; exact q1.symm
      · obtain ⟨e0, e1, e2, e3⟩ := times_Sch q2
        exact two_phases (by rw [e0, e1]; norm_num) (by rw [e2, e3]; norm_num)
      · exact fun h => absurd h harea) (by simp)
  obtain ⟨q, r⟩ := out
  obtain ⟨T, -, -, g1, -, g2, -, g3, g4⟩ := C98_h scriptSchwartz_eq (hoptSch_fresh (n := n) (p := p)).ready hM hI hct hopt
    hown r1 r4 (fun l' hl' => by rw [r2] at hl'; cases hl'; exact r3)
  exact ⟨M, nlpsol, hM, hopt, s', sol, (q, r), r1, r4, T, g2, g1, g3, g4⟩

/-- The calls of the script: 2 to 9 segments of order 3, the misspelt method. One problem is solved, with equal widths. -/
example (h2 : 2 ≤ n) : ∃ (M : Mesh ℝ) (nlpsol : Nat → Nat → SolverCall ℝ (List ℝ) → Py (PyDict (List ℝ))),
    MeshFor outsideRH.toOutside "LGR" n (.int 3) M ∧
      (∀ n k c sol, nlpsol n k c = .ok sol → ∃ z, Returned outsideRH sol z ∧ c.IsOptimal z) ∧
      ∃ s' sol out, (hoptSch n 3).run outsideRH nlpsol [(.fresh, ⟨none, false, "ipopt", [], misspelt, 20⟩)] 0 none = (s', some sol) ∧
        s'.processResults outsideRH sol [[0]] false false true = .ok out ∧
      ∃ T, out.1.Shows ocpSch M T ∧ SolvesOCP ocpSch M T ∧ T.x 1 (M.N - 1) 0 = 0 ∧ T.x 1 (M.N - 1) 1 = 0 :=
  exampleHSch_calls (by omega) (Or.inl ⟨h2, le_rfl⟩) (by simp)
    (fun c hc x => by simp at hc; subst hc; simp) (fun c hc => by simp at hc; subst hc; exact ⟨by simp, rfl⟩) (by
      rintro ⟨c, hc, hm, hsub⟩
      simp at hc; subst hc
      exact absurd hm (by decide +kernel))

/-- Calls that refine as well. -/
example (hn : 0 < n) (hp : (2 ≤ n ∧ 3 ≤ p) ∨ 4 ≤ p) :
    ∃ (M : Mesh ℝ) (nlpsol : Nat → Nat → SolverCall ℝ (List ℝ) → Py (PyDict (List ℝ))),
    MeshFor outsideRH.toOutside "LGR" n (.int p) M ∧
      (∀ n k c sol, nlpsol n k c = .ok sol → ∃ z, Returned outsideRH sol z ∧ c.IsOptimal z) ∧
      ∃ s' sol out, (hoptSch n p).run outsideRH nlpsol callsU 0 none = (s', some sol) ∧
        s'.processResults outsideRH sol [[0]] false false true = .ok out ∧
      ∃ T, out.1.Shows ocpSch M T ∧ SolvesOCP ocpSch M T ∧ T.x 1 (M.N - 1) 0 = 0 ∧ T.x 1 (M.N - 1) 1 = 0 :=
  exampleHSch_calls hn hp (by simp [callsU]) callsU_own (fun c hc => by
      simp only [callsU, callsR, List.cons_append, List.nil_append, List.mem_cons, List.not_mem_nil, or_false] at hc
      rcases hc with rfl | rfl | rfl <;> exact ⟨by simp, rfl⟩) (by
      rintro ⟨c, hc, hm, hsub⟩
      simp only [callsU, callsR, List.cons_append, List.nil_append, List.mem_cons, List.not_mem_nil, or_false] at hc
      rcases hc with rfl | rfl | rfl
      · exact absurd hsub (by decide +kernel)
      · exact absurd hm (by decide +kernel)
      · exact absurd hm (by decide +kernel))

end MPOpt
