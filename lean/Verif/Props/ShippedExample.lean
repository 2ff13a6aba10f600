import Verif.Props.Shipped
import Verif.Props.ExactFreeExample

/-! # Runs that meet the hypotheses of C68

For every number of segments and every order of at least 2 (the script takes 10 and 3). -/

set_option autoImplicit false

namespace MPOpt
open Polynomial

variable {n p : Nat}

theorem exists_lgr_int (hn : 0 < n) (hp : 2 ≤ p) :
    ∃ M, MeshFor outsideR "LGR" n (.int p) M ∧ M.orders = List.replicate n p := by
  obtain ⟨M, hM, ho⟩ := exists_lgr_mesh (List.replicate n p) (by simp; omega)
    (fun q hq => by rw [(List.mem_replicate.1 hq).2]; omega)
  exact ⟨M, ⟨hM.good, ho, hM.tau0, hM.tau1, hM.nodes⟩, ho⟩

/-- Facts about such a mesh, and the samples of the solution for given widths. -/
theorem exactWS_sampled {M : Mesh ℝ} (hp : 2 ≤ p) (hM : MeshFor outsideR "LGR" n (.int p) M)
    (ho : M.orders = List.replicate n p) {W : List ℝ}
    (hW : compQuadWeights ⟨.numerical, -1, 1, tausFn libR (-1) 1 "LGR"⟩ M.orders = .ok W) :
    (∀ q ∈ M.orders, 2 ≤ q) ∧ M.Inside ∧ M.Integrates W (fun s => 2 * M.order s - 2) ∧
    (∀ {T : Traj ℝ} {J : ℝ}, BoundsOK ocpWS M T 0 → CollocationOK ocpWS M T 0 → FullWidths M T 0 →
      PhysCost ocpWS M W T J → -8 / 3 ≤ J) ∧
    ∀ T, Samples ocpWS M exactWS T → FullWidths M T 0 → SolvesOCP ocpWS M T ∧ PhysCost ocpWS M W T (-8 / 3) ∧
      ∀ {lb ub tol : ℝ}, (∀ s < M.orders.length, lb ≤ T.w s 0 ∧ T.w s 0 ≤ ub) → 0 ≤ tol →
        SolvesAdaptive ocpWS M T [lb] [ub] [tol] true := by
  have hord : ∀ q ∈ M.orders, 2 ≤ q := by
    rw [ho]; intro q hq; rw [(List.mem_replicate.1 hq).2]; exact hp
  have hj : ∀ q ∈ M.orders, IsJacobiRoots 1 0 (q - 1) (outsideR.lib.jroots (q - 1) 1 0) :=
    fun q _ => libR_jacobi 1 0 (q - 1)
  have hlt : outsideR.tau0 < outsideR.tau1 := by norm_num [outsideR]
  obtain ⟨hI, hWI⟩ := C57_lgr_integrates hM hlt hord hj hW
  obtain ⟨hv, hs, -⟩ := ocpWS_ready
  refine ⟨hord, hI, hWI, fun {T J} hB hC hw hJ => ?_, fun T hT hw => ?_⟩
  · by_contra hlt'
    have := (foundWS hM.good hI hord hWI (C67_lgr_composite libR .numerical (-1) 1 (by norm_num) hord hj hW) hB hC hw hJ
      (not_le.1 hlt').le).cost
    rw [this] at hlt'
    exact hlt' le_rfl
  · have hog : ∀ s < M.orders.length, 2 ≤ M.order s := fun s hs => hord _ (hM.good.order_mem hs)
    obtain ⟨p1, p2, -⟩ := exactWS_poly hog (exactWS.breakTime T.w 0)
    obtain ⟨-, -, p3⟩ := exactWS_poly (deg := fun s => 2 * M.order s - 2)
      (fun s hs => by have := hog s hs; omega) (exactWS.breakTime T.w 0)
    refine ⟨C56_exact_feasible hM.good hI exactWS_solves hs.linkRange hT (one_phase hw) (one_phase (one_entry p1))
      (one_phase fun _ => one_entry p2) (one_phase rfl) (one_phase rfl), ?_, fun {lb ub tol} hb htol =>
      C63_exact_feasible hM.good hI exactWS_solves hs.linkRange hT (one_phase hw) (one_phase (one_entry p1))
        (one_phase (one_entry p2)) (one_phase rfl) (one_phase hb) fun _ => one_phase htol⟩
    have := C57_cost hM.good hI hWI hv.runningCosts hT (one_phase hw)
      (fun ph hp => (exactWS_solves.phase ph hp).order) (one_phase p3)
    rwa [exactWS_cost] at this

/-- `mpopt(ocp, n, p).solve()` returns with a perfect NLP solver, whatever the values of solver options are. -/
theorem exampleWS_of {V : Type} {w : Outside ℝ V} (hl : w.lib = libR) (hm : w.method = .numerical) (h0 : w.tau0 = -1)
    (h1 : w.tau1 = 1) {a : SolveArgs ℝ V} (ha : a.widths = none)
    (hacc : w.accepts a.plugin (solverOptions w.vals a.plugin a.options) = true) (hn : 0 < n) (hp : 2 ≤ p) {M : Mesh ℝ}
    (hM : MeshFor w "LGR" n (.int p) M) : ∃ (nlpsol : SolverCall ℝ V → Py (List ℝ)) (out : _),
    (∀ c z, nlpsol c = .ok z → c.IsOptimal z) ∧
      mpSolve w nlpsol ocpWS [[0]] n (.int p) "LGR" a false true = .ok out ∧
      ∃ T J, out.2.1.Shows ocpWS M T ∧ FoundWS M T J := by
  classical
  obtain ⟨lib, method, tau0, tau1, vals, accepts, vec⟩ := w
  obtain ⟨init, re, plugin, options, widths⟩ := a
  subst hl hm h0 h1 ha
  have ho : M.orders = List.replicate n p := hM.orders
  have hM' : MeshFor outsideR "LGR" n (.int p) M := ⟨hM.good, hM.orders, hM.tau0, hM.tau1, hM.nodes⟩
  obtain ⟨hv, hs, hsc⟩ := ocpWS_ready
  have hlen : M.orders.length = n := by rw [ho]; simp
  obtain ⟨c, W, hWeq, hsol, hobj, hret⟩ := C52_solve_returns (ocp := ocpWS)
    (scheme := "LGR") (n := n) (arg := .int p) (M := M) (ptp := [[0]]) (rx := false) (rdx := true)
    hv hs hsc hM hlen (by norm_num) hacc (by simp [GoodWidths])
    (one_phase (by simp [ocpWS, entry])) (by simp)
  obtain ⟨hord, hI, hW, hge, hex⟩ := exactWS_sampled hp hM' ho hWeq
  obtain ⟨L, hL, hLw⟩ := exists_samples_of ocpWS M exactWS fun _ _ => 1 / (n : ℝ)
  have hLa : WidthsAre ocpWS n none L := by intro ph _ s _; rw [hLw]
  have hreq : ∀ l : List ℝ, none = some l → l.sum = 1 ∧ ∀ x ∈ l, 0 < x := by simp
  obtain ⟨hLs, hLc, -⟩ := hex L hL (hLa.full rfl hn hlen hreq)
  have hzs : c.IsSolution (ocpWS.packVec M.N L) := (hsol _).2 ⟨L, hLs, hLa, rfl⟩
  have hz : c.IsOptimal (ocpWS.packVec M.N L) := by
    refine ⟨hzs, fun z hz => ?_⟩
    obtain ⟨T, hT, hwT, rfl⟩ := (hsol z).1 hz
    rw [hobj _ _ hLa hLc]
    obtain ⟨v, hv'⟩ := exists_samples ocpWS M T
    have hJ : PhysCost ocpWS M W T _ := ⟨v, hv', rfl⟩
    rw [hobj _ _ hwT hJ]
    exact hge (hT.1.bounds 0 (by simp [ocpWS])) (hT.1.dynamics 0 (by simp [ocpWS])) (hwT.full rfl hn hlen hreq) hJ
  obtain ⟨⟨s, q, r⟩, hout⟩ := hret
    (fun c => if c.IsOptimal (ocpWS.packVec M.N L) then .ok (ocpWS.packVec M.N L) else .error .assertion) _
    (if_pos hz) hzs.1
  have hopt : ∀ c' z, (fun c : SolverCall ℝ V => if c.IsOptimal (ocpWS.packVec M.N L) then
      (.ok (ocpWS.packVec M.N L) : Py (List ℝ)) else .error .assertion) c' = .ok z → c'.IsOptimal z := by
    intro c' z h
    simp only at h
    split at h
    · cases h; assumption
    · cases h
  obtain ⟨T, -, J, -, k1, -, k2⟩ := C68_solve scriptWithSolution_eq hout hM (by norm_num) hord
    (fun q _ => libR_jacobi 1 0 (q - 1)) hopt hreq
  exact ⟨_, (s, q, r), hopt, hout, T, J, k1, k2⟩

/-- `mpopt(ocp, n, p).solve()` returns with a perfect NLP solver. -/
theorem exampleWS (hn : 0 < n) (hp : 2 ≤ p) : ∃ (M : Mesh ℝ) (nlpsol : SolverCall ℝ Nat → Py (List ℝ)) (out : _),
    MeshFor outsideR "LGR" n (.int p) M ∧ (∀ c z, nlpsol c = .ok z → c.IsOptimal z) ∧
      mpSolve outsideR nlpsol ocpWS [[0]] n (.int p) "LGR" argsR false true = .ok out ∧
      ∃ T J, out.2.1.Shows ocpWS M T ∧ FoundWS M T J := by
  obtain ⟨M, hM, -⟩ := exists_lgr_int hn hp
  obtain ⟨nlpsol, out, h1, h2, h3⟩ := exampleWS_of (a := argsR) rfl rfl rfl rfl rfl rfl hn hp hM
  exact ⟨M, nlpsol, out, hM, h1, h2, h3⟩

/-- The script's own call. -/
example : ∃ (M : Mesh ℝ) (nlpsol : SolverCall ℝ Nat → Py (List ℝ)) (out : _),
    MeshFor outsideR "LGR" 10 (.int 3) M ∧ (∀ c z, nlpsol c = .ok z → c.IsOptimal z) ∧
      mpSolve outsideR nlpsol ocpWS [[0]] 10 (.int 3) "LGR" argsR false true = .ok out ∧
      ∃ T J, out.2.1.Shows ocpWS M T ∧ FoundWS M T J := exampleWS (by norm_num) (by norm_num)

/-- `mpopt_adaptive(ocp, n, p)` with its default settings. -/
noncomputable def adaptWS (n p : Nat) : AdaptOpt ℝ Nat :=
  ⟨ocpWS, n, List.replicate n p, "LGR", [1 / 10000], [1], [1 / 1000], true, ["fixed"], 15, false, none, none, none, none⟩

theorem adaptWS_fresh : (adaptWS n p).Fresh ocpWS n (.int p) "LGR" [1 / 10000] [1] [1 / 1000] true := by
  refine ⟨⟨adaptWS n p, _, _, ?_, rfl⟩⟩
  have : initOrders n (.int p) = .ok (List.replicate n p, (List.replicate n p).sum + 1) := by
    unfold initOrders; simp [pyAssert]
  unfold newAdapt
  rw [this]
  rfl

/-- `mpopt_adaptive(ocp, n, p).solve()` returns, for at most 10000 segments (its least width is 1e-4). -/
theorem exampleAdaptWS (hn : 0 < n) (hn' : n ≤ 10000) (hp : 2 ≤ p) :
    ∃ (M : Mesh ℝ) (nlpsol : SolverCall ℝ Nat → Py (List ℝ)) (z : List ℝ) (out : _),
    MeshFor outsideR "LGR" n (.int p) M ∧ (∀ c z, nlpsol c = .ok z → c.IsOptimal z) ∧
      ((adaptWS n p).solve outsideR nlpsol argsR).2 = .ok z ∧
      ((adaptWS n p).solve outsideR nlpsol argsR).1.processResults outsideR [[0]] false false true = .ok out ∧
      ∃ T J, out.1.Shows ocpWS M T ∧ FoundWS M T J := by
  classical
  obtain ⟨hv, hs, hsc⟩ := ocpWS_ready
  obtain ⟨M, hM, ho⟩ := exists_lgr_int hn hp
  have hlen : M.orders.length = n := by rw [ho]; simp
  have hnr : (0 : ℝ) < n := by exact_mod_cast hn
  have hnr' : (n : ℝ) ≤ 10000 := by exact_mod_cast hn'
  have hn1 : (1 : ℝ) ≤ n := by exact_mod_cast hn
  have w1 : (1 / 10000 : ℝ) ≤ 1 / n := one_div_le_one_div_of_le hnr hnr'
  have w2 : 1 / (n : ℝ) ≤ 1 := by rw [div_le_one hnr]; exact hn1
  obtain ⟨c, W, hWeq, hsol, hobj, hret⟩ := C54_adaptive_returns (a := argsR) (ptp := [[0]]) (rx := false) (rdx := true)
    (adaptWS_fresh (n := n) (p := p)).ready hv hs hsc rfl rfl rfl hM (by norm_num [outsideR]) rfl rfl (by norm_num)
    (one_phase (by simp [ocpWS, entry])) (by simp)
  obtain ⟨hord, hI, hW, hge, hex⟩ := exactWS_sampled hp hM ho hWeq
  obtain ⟨L, hL, hLw⟩ := exists_samples_of ocpWS M exactWS fun _ _ => 1 / (n : ℝ)
  have hLa : WidthsAre ocpWS n none L := by intro ph _ s _; rw [hLw]
  obtain ⟨-, hLc, hLs⟩ := hex L hL (hLa.full rfl hn hlen (by simp))
  have hLs := hLs (lb := 1 / 10000) (ub := 1) (tol := 1 / 1000)
    (fun s _ => by rw [hLw]; exact ⟨w1, w2⟩) (by norm_num)
  obtain ⟨z, hz, hzc⟩ := hobj L _ hLs hLc
  have hopt : c.IsOptimal z := by
    refine ⟨hz, fun z' hz' => ?_⟩
    obtain ⟨T, hT, hJ⟩ := hsol z' hz'
    have hwT := hT.1.widths 0 (by simp [ocpWS])
    rw [hzc]
    exact hge (hT.1.bounds 0 (by simp [ocpWS])) (hT.1.dynamics 0 (by simp [ocpWS]))
      ⟨fun s hs => lt_of_lt_of_le (by norm_num) (hwT.lower s hs), hwT.sum⟩ hJ
  obtain ⟨k1, out, k2⟩ := hret (fun c => if c.IsOptimal z then .ok z else .error .assertion) z (if_pos hopt) hz
  have hopt' : ∀ c' z', (fun c : SolverCall ℝ Nat => if c.IsOptimal z then
      (.ok z : Py (List ℝ)) else .error .assertion) c' = .ok z' → c'.IsOptimal z' := by
    intro c' z' h
    simp only at h
    split at h
    · cases h; assumption
    · cases h
  obtain ⟨q, r⟩ := out
  obtain ⟨T, -, J, -, g1, -, g2⟩ := C68_adaptive scriptWithSolution_eq (adaptWS_fresh (n := n) (p := p)).ready (by norm_num)
    w1 w2 (by norm_num) hM (by norm_num [outsideR]) hord (fun q _ => libR_jacobi 1 0 (q - 1)) hopt' [] argsR
    (Prod.ext rfl k1) k2
  exact ⟨M, _, z, (q, r), hM, hopt', k1, k2, T, J, g1, g2⟩

/-- `mpopt_h_adaptive(ocp, n, p)` with its default settings. -/
noncomputable def hoptWS (n p : Nat) : HOpt ℝ (List ℝ) :=
  ⟨ocpWS, n, List.replicate n p, "LGR", [1 / 100000], [1], [1 / 100], ["fixed"], 15, 1 / 10, 1 / 20, false, none, none, none, 0, []⟩

theorem hoptWS_fresh : (hoptWS n p).Fresh ocpWS n (.int p) "LGR" [1 / 100000] [1] [1 / 100] := by
  refine ⟨⟨hoptWS n p, _, _, _, _, ?_, rfl⟩⟩
  have : initOrders n (.int p) = .ok (List.replicate n p, (List.replicate n p).sum + 1) := by
    unfold initOrders; simp [pyAssert]
  unfold newHAdaptive
  rw [this]
  rfl

theorem validWS {l : List ℝ} (h : ValidWidths n 1 l) : l.length = n ∧ l.sum = 1 ∧ ∀ x ∈ l, 0 < x := by
  obtain ⟨h1, h2⟩ := h
  obtain ⟨h2, h3⟩ := h2 0 Nat.one_pos
  have : (l.drop (n * 0)).take n = l := by
    rw [Nat.mul_zero, List.drop_zero, List.take_of_length_le (by omega)]
  rw [this] at h2 h3
  exact ⟨by omega, h3, h2⟩

/-- Calls of `solve` of `mpopt_h_adaptive(ocp, n, p)` return, unless they split areas equally. -/
theorem exampleHWS_calls (hn : 0 < n) (hp : 2 ≤ p) {calls : List (HStart (List ℝ) × HArgs (List ℝ))} (hne : calls ≠ [])
    (hown : OwnStarts calls) (hcalls : ∀ c ∈ calls, 0 < c.2.maxIter ∧
      outsideRH.accepts c.2.plugin (solverOptions outsideRH.vals c.2.plugin (hSolverDict outsideRH.zero c.2.options)) = true) (harea : ¬ UsesArea calls) :
    ∃ (M : Mesh ℝ) (nlpsol : Nat → Nat → SolverCall ℝ (List ℝ) → Py (PyDict (List ℝ))),
    MeshFor outsideRH.toOutside "LGR" n (.int p) M ∧
      (∀ n k c sol, nlpsol n k c = .ok sol → ∃ z, Returned outsideRH sol z ∧ c.IsOptimal z) ∧
      ∃ s' sol out, (hoptWS n p).run outsideRH nlpsol calls 0 none = (s', some sol) ∧
        s'.processResults outsideRH sol [[0]] false false true = .ok out ∧
      ∃ T J, out.1.Shows ocpWS M T ∧ FoundWS M T J := by
  classical
  obtain ⟨hv, hs, hsc⟩ := ocpWS_ready
  obtain ⟨M, hM', ho⟩ := exists_lgr_int hn hp
  have hM : MeshFor outsideRH.toOutside "LGR" n (.int p) M :=
    ⟨hM'.good, hM'.orders, hM'.tau0, hM'.tau1, hM'.nodes⟩
  have hlen : M.orders.length = n := by rw [ho]; simp
  have hj : ∀ p ∈ M.orders, IsJacobiRoots 1 0 (p - 1) (outsideRH.lib.jroots (p - 1) 1 0) :=
    fun p _ => libR_jacobi 1 0 (p - 1)
  have hlt : outsideRH.tau0 < outsideRH.tau1 := by norm_num [outsideRH]
  obtain ⟨d, honM, h1, h2, hWeq, hc⟩ := (hoptWS_fresh (n := n) (p := p)).ready.coherent hM
  obtain ⟨hord, hI, hW, hge, hex⟩ := exactWS_sampled hp hM' ho hWeq
  choose L hL hLw using fun l : List ℝ => exists_samples_of ocpWS M exactWS fun s _ => l.getD s 0
  have hpack : ∀ {l : List ℝ}, l.length = n → ocpWS.packWidths n (L l) = l := by
    intro l hl
    unfold OCP.packWidths
    rw [show ocpWS.nPhases = 1 from rfl]
    simp only [List.range_one, List.flatMap_cons, List.flatMap_nil, List.append_nil, hLw]
    apply List.ext_getElem
    · simp [hl]
    · intro i hi hi'
      rw [List.getElem_map, List.getElem_range, List.getD_eq_getElem _ _ hi']
  let nlpsol : Nat → Nat → SolverCall ℝ (List ℝ) → Py (PyDict (List ℝ)) := fun _ _ c =>
    if c.IsOptimal (ocpWS.packVec M.N (L c.p)) then .ok [("x", ocpWS.packVec M.N (L c.p))]
    else .error .assertion
  have hopt : ∀ n k c sol, nlpsol n k c = .ok sol → ∃ z, Returned outsideRH sol z ∧ c.IsOptimal z := by
    intro n k c sol h
    simp only [nlpsol] at h
    split at h
    · cases h; exact ⟨_, ⟨_, rfl, rfl⟩, ‹_›⟩
    · cases h
  have hans : ∀ {c}, Asked outsideRH (hoptWS n p) c → ValidWidths n 1 c.p ∧
      ∀ i k, nlpsol i k c = .ok [("x", ocpWS.packVec M.N (L c.p))] := by
    intro c h
    obtain ⟨d', k1, k2, k3, k4⟩ := h
    obtain rfl : d = d' := Except.ok.inj (hc.disc.symm.trans k1)
    obtain ⟨v1, v2, v3⟩ := validWS (n := n) (l := c.p) k4
    refine ⟨k4, fun i k => ?_⟩
    have hseg : d.widthParams.length = n := by
      unfold Disc.widthParams; rw [h1, h2]; simp [ocpWS]
    obtain ⟨hsol, hobj⟩ := call_trajectories (req := some c.p) honM (by rw [h1]; exact hv) (by rw [h1]; exact hs)
      (by rw [h1]; exact hsc) k2 k3 (by rw [v1, hseg]) rfl
    rw [h1, h2] at hsol hobj
    have hreq : ∀ l, some c.p = some l → l.sum = 1 ∧ ∀ x ∈ l, 0 < x := fun l hl => by cases hl; exact ⟨v2, v3⟩
    have hwL : WidthsAre ocpWS n (some c.p) (L c.p) := hpack v1
    obtain ⟨hLs, hLc, -⟩ := hex (L c.p) (hL c.p) (hwL.full rfl hn hlen hreq)
    simp only [nlpsol]
    refine if_pos ⟨(hsol _).2 ⟨L c.p, hLs, hwL, rfl⟩, fun z hz => ?_⟩
    obtain ⟨T, hT, hwT, rfl⟩ := (hsol z).1 hz
    rw [hobj _ _ hwL hLc]
    obtain ⟨v, hv'⟩ := exists_samples ocpWS M T
    have hJ : PhysCost ocpWS M d.compW T _ := ⟨v, hv', rfl⟩
    rw [hobj _ _ hwT hJ]
    exact hge (hT.1.bounds 0 (by simp [ocpWS])) (hT.1.dynamics 0 (by simp [ocpWS])) (hwT.full rfl hn hlen hreq) hJ
  obtain ⟨s', sol, l, r1, r2, r3, out, r4⟩ := C62_h_returns (ptp := [[0]]) (rx := false) (rdx := true)
    (nlpsol := nlpsol) (hoptWS_fresh (n := n) (p := p)).ready hv hs hsc hM hlt (fun q hq => by
      obtain ⟨r, hr, hsp⟩ := C01_lgr_nodes outsideRH.lib outsideRH.tau0 outsideRH.tau1 hlt q
        (by have := hord q hq; omega) (fun _ => hj q hq)
      rw [hM.nodes q hq] at hr
      obtain rfl : M.nodes q = r := by injection hr
      exact hsp.sorted) rfl rfl rfl rfl (by norm_num [hoptWS]) (fun _ h => nomatch h) (by
      intro ph l u hl hu
      match ph with
      | 0 => cases hl; cases hu; norm_num
      | ph + 1 => cases hl) (fun l => abs_nonneg _)
      (one_phase (by simp [ocpWS, entry]))
      (calls := calls) hne hown hcalls (fun i k c hc => by
      obtain ⟨ha, hk⟩ := hans hc
      refine ⟨_, hk i k, ⟨⟨L c.p, ⟨⟨_, rfl, rfl⟩, ?_⟩, fun _ => one_phase (P := fun ph => (L c.p).t0 ph < (L c.p).tf ph) ?_⟩, ?_⟩⟩
      · rw [hlen]; exact (hpack (validWS ha).1).symm
      · rw [(hL c.p).t0 0 (by simp [ocpWS]), (hL c.p).tf 0 (by simp [ocpWS])]; simp [exactWS]
      · exact fun h => absurd h harea) (by simp)
  obtain ⟨q, r⟩ := out
  have hv3 := validWS (n := n) (l := l) r3
  obtain ⟨T, -, J, -, g1, -, -, g2⟩ := C68_h scriptWithSolution_eq (hoptWS_fresh (n := n) (p := p)).ready hM hlt hord hj hopt
    hown r1 r4 (fun l' hl' => by rw [r2] at hl'; cases hl'; exact hv3.2)
  exact ⟨M, nlpsol, hM, hopt, s', sol, (q, r), r1, r4, T, J, g1, g2⟩

/-- Two calls of `solve` of `mpopt_h_adaptive(ocp, n, p)` (merging and splitting, then control slopes) return. -/
theorem exampleHWS (hn : 0 < n) (hp : 2 ≤ p) :
    ∃ (M : Mesh ℝ) (nlpsol : Nat → Nat → SolverCall ℝ (List ℝ) → Py (PyDict (List ℝ))),
    MeshFor outsideRH.toOutside "LGR" n (.int p) M ∧
      (∀ n k c sol, nlpsol n k c = .ok sol → ∃ z, Returned outsideRH sol z ∧ c.IsOptimal z) ∧
      ∃ s' sol out, (hoptWS n p).run outsideRH nlpsol callsR 0 none = (s', some sol) ∧
        s'.processResults outsideRH sol [[0]] false false true = .ok out ∧
      ∃ T J, out.1.Shows ocpWS M T ∧ FoundWS M T J := by
  have hown : OwnStarts callsR := by
    intro c hc x
    simp only [callsR, List.mem_cons, List.not_mem_nil, or_false] at hc
    rcases hc with rfl | rfl <;> simp
  refine exampleHWS_calls hn hp (by simp [callsR]) hown (fun c hc => ?_) ?_
  · simp only [callsR, List.mem_cons, List.not_mem_nil, or_false] at hc
    rcases hc with rfl | rfl <;> exact ⟨by simp, rfl⟩
  · rintro ⟨c, hc, hm, hsub⟩
    simp only [callsR, List.mem_cons, List.not_mem_nil, or_false] at hc
    rcases hc with rfl | rfl
    · exact absurd hsub (by decide +kernel)
    · exact absurd hm (by decide +kernel)

end MPOpt
