import Verif.Props.SymmetryExample
import Verif.Props.ExactFree
import Verif.Props.ToleranceFree
import Verif.Props.MoonExample

/-! # C115 for `mpopt_adaptive` -/

set_option autoImplicit false
set_option linter.unusedSectionVars false

namespace MPOpt
open Polynomial

section
variable {K V : Type} [Field K] [LinearOrder K] [IsStrictOrderedRing K]
variable {ocp : OCP K} {M : Mesh K} {T : Traj K} {S : Symmetry K} {n : Nat} {lbh ubh tol : List K} {mid : Bool}

/-- The limits on scaled defects half-way between nodes are preserved by the linear part of the map. -/
def Symmetry.KeepsDefects (S : Symmetry K) (ocp : OCP K) (tol : List K) : Prop :=
  ∀ ph < ocp.nPhases, ∀ e : Nat → K, (∀ j < ocp.nx, |ocp.scaleX.getD j 0 * e j| ≤ tol.getD ph 0) →
    ∀ j < ocp.nx, |ocp.scaleX.getD j 0 * ∑ k ∈ Finset.range ocp.nx, S.A j k * e k| ≤ tol.getD ph 0

theorem x_piece_image (hM : M.Good) {s : Nat} (hs : s < M.orders.length) (ph j : Nat) :
    M.piece (fun k => (T.image ocp S).x ph k j) s =
      ∑ k ∈ Finset.range ocp.nx, C (S.A j k) * M.piece (fun i => T.x ph i k) s + C (S.b j) :=
  piece_combination hM hs ocp.nx (T.x ph) (S.A j) (S.b j)

theorem u_piece_image (hM : M.Good) {s : Nat} (hs : s < M.orders.length) (ph j : Nat) :
    M.piece (fun k => (T.image ocp S).u ph k j) s =
      ∑ k ∈ Finset.range ocp.nu, C (S.B j k) * M.piece (fun i => T.u ph i k) s + C (S.d j) :=
  piece_combination hM hs ocp.nu (T.u ph) (S.B j) (S.d j)

theorem pArgAt_image (hM : M.Good) {s : Nat} (hs : s < M.orders.length) (ph : Nat) (tau : K) :
    ocp.pArgAt M (T.image ocp S) ph s tau = S.onP ocp (ocp.pArgAt M T ph s tau) := by
  unfold OCP.pArgAt Symmetry.onP
  simp only [PArg.mk.injEq, time_image, true_and]
  refine ⟨List.map_congr_left fun j _ => ?_, List.map_congr_left fun j _ => ?_, rfl⟩
  · rw [x_piece_image hM hs]
    unfold Symmetry.state
    simp only [eval_add, eval_finsetSum, eval_mul, eval_C]
    congr 1
    refine Finset.sum_congr rfl fun i hi => ?_
    have := Finset.mem_range.1 hi
    simp [List.getD_eq_getElem?_getD, this]
  · rw [u_piece_image hM hs]
    unfold Symmetry.control
    simp only [eval_add, eval_finsetSum, eval_mul, eval_C]
    congr 1
    refine Finset.sum_congr rfl fun i hi => ?_
    have := Finset.mem_range.1 hi
    simp [List.getD_eq_getElem?_getD, this]

theorem pArgAt_fits (ph s : Nat) (tau : K) : (ocp.pArgAt M T ph s tau).Fits ocp := by
  refine ⟨by simp [OCP.pArgAt], by simp [OCP.pArgAt], ?_⟩
  by_cases h : ocp.na = 0 <;> simp [OCP.pArgAt, FitsParams, h]

/-- The defect of the image is the image of the defect. -/
theorem defect_image (hi : ocp.Invariant S) (hM : M.Good) {s : Nat} (hs : s < M.orders.length) {ph : Nat} (hp : ph < ocp.nPhases)
    {F : VFun (PArg K) K} (hF : ocp.dynamics[ph]? = some F) {j : Nat} (hj : j < ocp.nx) (tau : K) :
    ocp.defect M (T.image ocp S) F ph s tau j = ∑ k ∈ Finset.range ocp.nx, S.A j k * ocp.defect M T F ph s tau k := by
  unfold OCP.defect
  rw [x_piece_image hM hs, pArgAt_image hM hs, hi.dynamics ph hp F hF _ (pArgAt_fits ..) j hj, half_image, Finset.mul_sum]
  simp only [derivative_add, derivative_sum, derivative_C, add_zero, derivative_C_mul, eval_finsetSum, eval_mul, eval_C]
  rw [← Finset.sum_sub_distrib]
  exact Finset.sum_congr rfl fun k _ => by ring

/-- **C115** With free widths: the image of a trajectory that solves the collocated problem solves it, if the limits on defects are
preserved too. -/
theorem C115_solves_adaptive (hi : ocp.Invariant S) (hM : M.Good) (hk : mid = true → S.KeepsDefects ocp tol)
    (hdf : ∀ ph < ocp.nPhases, ocp.diffU.getD ph false = false) (hT : SolvesAdaptive ocp M T lbh ubh tol mid) :
    SolvesAdaptive ocp M (T.image ocp S) lbh ubh tol mid := by
  obtain ⟨h1, h2, h3, h4, h5, h6, h7, h8, h9⟩ := hT.1
  refine ⟨⟨fun ph hp => image_bounds hi hp (h1 ph hp), fun ph hp => image_dynamics hi hM hp (h2 ph hp),
    fun ph hp => image_path hi hp (h3 ph hp), fun ph hp => image_terminal hi hp (h4 ph hp),
    fun ph hp => ⟨(h5 ph hp).sum, (h5 ph hp).lower, (h5 ph hp).upper⟩, fun ph hp => image_mid hi hM hp (h6 ph hp),
    fun ph hp j hj s hs i hii => ?_, fun hm ph hp F hF j hj s hs i hii => ?_, fun h => image_links hi (h9 h)⟩, fun ph hp hd => ?_⟩
  · rw [x_piece_image hM hs]
    simp only [eval_add, eval_finsetSum, eval_mul, eval_C]
    exact hi.x ph hp (fun k => (M.piece (fun i => T.x ph i k) s).eval ((M.node s i + M.node s (i + 1)) / 2))
      (fun k hk => h7 ph hp k hk s hs i hii) j hj
  · have key := hk hm ph hp (fun k => T.w s ph * ocp.defect M T F ph s ((M.node s i + M.node s (i + 1)) / 2) k) (fun k hk => by
      have : Within (.fin (-tol.getD ph 0)) (.fin (tol.getD ph 0)) _ := h8 hm ph hp F hF k hk s hs i hii
      simp only [Within, Ext.Below, Ext.Above] at this
      rw [abs_le, mul_left_comm]; exact this) j hj
    rw [abs_le] at key
    rw [defect_image hi hM hs hp hF hj]
    show Within (.fin (-tol.getD ph 0)) (.fin (tol.getD ph 0)) (T.w s ph * _)
    simp only [Within, Ext.Below, Ext.Above]
    convert key using 2 <;>
    · simp only [Finset.mul_sum]
      exact Finset.sum_congr rfl fun k _ => by ring
  · rw [hdf ph hp] at hd; cases hd

/-- A trajectory with widths of least cost among those that solve the collocated problem. -/
structure BestFree (w : Outside K V) (scheme : String) (ocp : OCP K) (M : Mesh K) (lbh ubh tol : List K) (mid : Bool) (T : Traj K) :
    Prop where
  solves : SolvesAdaptive ocp M T lbh ubh tol mid
  best : ∀ W J, compQuadWeights ⟨w.method, w.tau0, w.tau1, tausFn w.lib w.tau0 w.tau1 scheme⟩ M.orders = .ok W → PhysCost ocp M W T J →
    ∀ T' J', SolvesAdaptive ocp M T' lbh ubh tol mid → PhysCost ocp M W T' J' → J ≤ J'

variable {w : Outside K V} {ptp : List (List Nat)} {arg : OrdersArg} {scheme : String} {a : SolveArgs K V} {rx rdx : Bool}
  {s : AdaptOpt K V}

/-- **C115** Every trajectory of least cost is shown by `mpopt_adaptive`, with its widths, with some solver that only returns global
minimisers. -/
theorem C115_reached_adaptive (hf : s.Ready w ocp n arg scheme lbh ubh tol mid)
    (hv : ValidOCP ocp) (hs : ocp.SettingsOK) (hsc : ocp.PosScales) (hlb : lbh.length = ocp.nPhases)
    (hub : ubh.length = ocp.nPhases) (htol : tol.length = ocp.nPhases) (hM : MeshFor w scheme n arg M)
    (hlt : w.tau0 < w.tau1) (hgt : s.gridType = List.replicate ocp.nPhases "fixed")
    (hacc : w.accepts a.plugin (solverOptions w.vals a.plugin a.options) = true) (hpos : ∀ v ∈ lbh, 0 < v)
    (ht : ∀ ph < ocp.nPhases, entry ocp.t00 ph 0 0 ≠ entry ocp.tf0 ph 0 0) (hptp : ptp ≠ [])
    (hT : BestFree w scheme ocp M lbh ubh tol mid T) :
    ∃ (nlpsol : SolverCall K V → Py (List K)) (z : List K) (p : Post K) (r : Option (PyDict (ResidVal K))),
      (∀ c z, nlpsol c = .ok z → c.IsOptimal z) ∧ (s.solve w nlpsol a).2 = .ok z ∧
        (s.solve w nlpsol a).1.processResults w ptp false rx rdx = .ok (p, r) ∧ p.Shows ocp M T ∧
        (s.solve w nlpsol a).1.widths = some (ocp.packWidths n T) := by
  classical
  obtain ⟨c, W, hWeq, hnear, hobj, hret⟩ := C86_adaptive_returns (a := a) (ptp := ptp) (rx := rx) (rdx := rdx) hf hv hs hsc
    hlb hub htol hM hlt hgt hacc ht hptp
  have hsol : ∀ z, c.IsSolution z ↔ ∃ T, SolvesAdaptive ocp M T lbh ubh tol mid ∧ z = ocp.packFree M.N n T := fun z => by
    rw [← near_zero, hnear]
    exact exists_congr fun T => and_congr_left fun _ => C86_exact T
  have hex : ∀ T, ∃ J, PhysCost ocp M W T J := fun T => by
    obtain ⟨v, hv⟩ := exists_samples ocp M T
    exact ⟨_, v, hv, rfl⟩
  obtain ⟨J, hJ⟩ := hex T
  have hopt : c.IsOptimal (ocp.packFree M.N n T) := by
    refine ⟨(hsol _).2 ⟨T, hT.solves, rfl⟩, fun z hz => ?_⟩
    obtain ⟨T', h1, rfl⟩ := (hsol z).1 hz
    obtain ⟨J', hJ'⟩ := hex T'
    rw [hobj T J hJ, hobj T' J' hJ']
    exact hT.best W J hWeq hJ T' J' h1 hJ'
  obtain ⟨nlpsol, hsound, hc⟩ : ∃ nlpsol : SolverCall K V → Py (List K), (∀ c z, nlpsol c = .ok z → c.IsOptimal z) ∧
      nlpsol c = .ok (ocp.packFree M.N n T) := by
    refine ⟨fun c => if c.IsOptimal (ocp.packFree M.N n T) then .ok (ocp.packFree M.N n T) else .error .assertion, fun c z h => ?_,
      if_pos hopt⟩
    dsimp only at h
    split at h <;> cases h
    assumption
  obtain ⟨k1, k2, k3⟩ := hret nlpsol 0 0 T ((C86_exact T).2 hT.solves) hc
  obtain ⟨⟨p, r⟩, hp⟩ := k3 hpos (by norm_num)
  refine ⟨nlpsol, _, p, r, hsound, k1, hp, ?_, k2⟩
  obtain ⟨d, honM, rfl, rfl, -, hco, -⟩ := hf.coherent hM
  obtain ⟨hc2, -, k⟩ := hco.solve (nlpsol := nlpsol) a
  obtain ⟨c', sw, -, -, e3, e4, e5⟩ := k _ k1
  obtain ⟨g1, -⟩ := adapt_shown honM hv hsc hc2 e3 e4 e5 hp
  refine Post.Shows.same ?_ g1
  have := adapt_decoded (ad := ⟨d, lbh, ubh, tol, mid⟩) honM hv hsc T
  rw [← packFree_eq ⟨d, lbh, ubh, tol, mid⟩, ← honM.N_eq] at this
  exact this

/-- **C115** The image of a trajectory of least cost is one of least cost. -/
theorem C115_best_adaptive (hi : ocp.Invariant S) (hM : M.Good) (hk : mid = true → S.KeepsDefects ocp tol)
    (hdf : ∀ ph < ocp.nPhases, ocp.diffU.getD ph false = false) (hT : BestFree w scheme ocp M lbh ubh tol mid T) :
    BestFree w scheme ocp M lbh ubh tol mid (T.image ocp S) :=
  ⟨C115_solves_adaptive hi hM hk hdf hT.solves, fun W J hW hJ T' J' h1 h3 => hT.best W J hW ((C115_cost hi).1 hJ) T' J' h1 h3⟩

/-- **C115** So `mpopt_adaptive` shows a trajectory of least cost as well as its image. -/
theorem C115_adaptive (hi : ocp.Invariant S) (hk : mid = true → S.KeepsDefects ocp tol)
    (hdf : ∀ ph < ocp.nPhases, ocp.diffU.getD ph false = false) (hf : s.Ready w ocp n arg scheme lbh ubh tol mid)
    (hv : ValidOCP ocp) (hs : ocp.SettingsOK) (hsc : ocp.PosScales) (hlb : lbh.length = ocp.nPhases)
    (hub : ubh.length = ocp.nPhases) (htol : tol.length = ocp.nPhases) (hM : MeshFor w scheme n arg M)
    (hlt : w.tau0 < w.tau1) (hgt : s.gridType = List.replicate ocp.nPhases "fixed")
    (hacc : w.accepts a.plugin (solverOptions w.vals a.plugin a.options) = true) (hpos : ∀ v ∈ lbh, 0 < v)
    (ht : ∀ ph < ocp.nPhases, entry ocp.t00 ph 0 0 ≠ entry ocp.tf0 ph 0 0) (hptp : ptp ≠ [])
    (hT : BestFree w scheme ocp M lbh ubh tol mid T) :
    ∀ T' ∈ [T, T.image ocp S], ∃ (nlpsol : SolverCall K V → Py (List K)) (z : List K) (p : Post K) (r : Option (PyDict (ResidVal K))),
      (∀ c z, nlpsol c = .ok z → c.IsOptimal z) ∧ (s.solve w nlpsol a).2 = .ok z ∧
        (s.solve w nlpsol a).1.processResults w ptp false rx rdx = .ok (p, r) ∧ p.Shows ocp M T' ∧
        (s.solve w nlpsol a).1.widths = some (ocp.packWidths n T') := by
  intro T' hT'
  refine C115_reached_adaptive hf hv hs hsc hlb hub htol hM hlt hgt hacc hpos ht hptp ?_
  simp only [List.mem_cons, List.not_mem_nil, or_false] at hT'
  rcases hT' with rfl | rfl
  · exact hT
  · exact C115_best_adaptive hi hM.good hk hdf hT

end

/-! ### The fork -/

/-- `mpopt_adaptive(ocp, n, p)` with its default settings. -/
noncomputable def adaptFork (n p : Nat) : AdaptOpt ℝ Nat :=
  ⟨ocpFork, n, List.replicate n p, "LGR", [1 / 10000], [1], [1 / 1000], true, ["fixed"], 15, false, none, none, none, none⟩

theorem adaptFork_fresh {n p : Nat} : (adaptFork n p).Fresh ocpFork n (.int p) "LGR" [1 / 10000] [1] [1 / 1000] true := by
  refine ⟨⟨adaptFork n p, _, _, ?_, rfl⟩⟩
  have : initOrders n (.int p) = .ok (List.replicate n p, (List.replicate n p).sum + 1) := by
    unfold initOrders; simp [pyAssert]
  unfold newAdapt
  rw [this]
  rfl

/-- Both ends are shown by `mpopt_adaptive` too. -/
theorem exampleForkAdaptive {n p : Nat} (hn : 0 < n) (hn' : n ≤ 10000) (hp : 2 ≤ p) : ∃ M, MeshFor outsideR "LGR" n (.int p) M ∧
    ∀ e : ℝ, e * e = 1 → ∃ (nlpsol : SolverCall ℝ Nat → Py (List ℝ)) (z : List ℝ) (q : Post ℝ)
      (r : Option (PyDict (ResidVal ℝ))) (T : Traj ℝ), (∀ c z, nlpsol c = .ok z → c.IsOptimal z) ∧
        ((adaptFork n p).solve outsideR nlpsol argsR).2 = .ok z ∧
        ((adaptFork n p).solve outsideR nlpsol argsR).1.processResults outsideR [[0]] false false true = .ok (q, r) ∧
        q.Shows ocpFork M T ∧ T.x 0 (M.N - 1) 0 = e := by
  obtain ⟨hv, hs, hsc⟩ := fork_ready
  obtain ⟨M, hM, ho⟩ := exists_lgr_int (n := n) (p := p) hn hp
  have hlen : M.orders.length = n := by rw [ho]; simp
  have hord : ∀ q ∈ M.orders, 2 ≤ q := by
    rw [ho]; intro q hq; rw [(List.mem_replicate.1 hq).2]; exact hp
  have hI := hM.lgr_inside (by norm_num [outsideR]) (fun q hq => by have := hord q hq; omega) fun q _ => libR_jacobi 1 0 (q - 1)
  have hnr : (0 : ℝ) < n := by exact_mod_cast hn
  have hnr' : (n : ℝ) ≤ 10000 := by exact_mod_cast hn'
  have hn1 : (1 : ℝ) ≤ n := by exact_mod_cast hn
  have w1 : (1 / 10000 : ℝ) ≤ 1 / n := one_div_le_one_div_of_le hnr hnr'
  have w2 : 1 / (n : ℝ) ≤ 1 := by rw [div_le_one hnr]; exact hn1
  obtain ⟨L, hL, hLw⟩ := exists_samples_of ocpFork M upR fun _ _ => 1 / (n : ℝ)
  have hwa : WidthsAre ocpFork n none L := by intro ph _ s _; rw [hLw]
  have hLs : SolvesAdaptive ocpFork M L [1 / 10000] [1] [1 / 1000] true := by
    refine C63_exact_feasible hM.good hI up_fork hs.linkRange hL (fun ph hp => hwa.equal_full hlen hn hp)
      (fork_one (P := fun ph => ∀ j < ocpFork.nx, PiecewisePoly M.orders.length M.order (upR.breakTime L.w ph) (upR.x ph j))
        fun j _ s hs => ?_)
      (fork_one (P := fun ph => ∀ j < ocpFork.nu, PiecewisePoly M.orders.length M.order (upR.breakTime L.w ph) (upR.u ph j))
        fun j _ s hs => ⟨C 1, by simp, fun t _ => by simp [upR]⟩)
      (fork_one rfl) (fork_one fun s _ => ?_) fun _ => fork_one ?_
    · have h2 := hord _ (hM.good.order_mem hs)
      exact ⟨X, natDegree_X_le.trans (by omega), fun t _ => by simp [upR]⟩
    · rw [hLw]; exact ⟨w1, w2⟩
    · norm_num
  obtain ⟨nlpsol, hperf⟩ := exists_perfect (V := Nat)
  have ht : ∀ ph < ocpFork.nPhases, entry ocpFork.t00 ph 0 0 ≠ entry ocpFork.tf0 ph 0 0 :=
    fork_one (by simp [ocpFork, ocpR, entry])
  obtain ⟨z, q, r, T, W, J, -, -, hW, k1, -, k4, k5⟩ := C70_adaptive (a := argsR) (ptp := [[0]]) (rx := false) (rdx := true)
    (adaptFork_fresh (n := n) (p := p)).ready hv hs hsc rfl rfl rfl hM (by norm_num [outsideR]) rfl rfl (by norm_num)
    ht (by simp) fork_cts fork_finite ⟨L, hLs⟩ hperf
  have hT : BestFree outsideR "LGR" ocpFork M [1 / 10000] [1] [1 / 1000] true T := by
    refine ⟨k1, fun W' J' hW' hJ' T' J'' h1 h3 => ?_⟩
    rw [hW] at hW'; cases hW'
    rw [PhysCost.unique hM.good (hM.weights_length hW) hv.runningCosts hJ' k4]
    exact k5 T' J'' h1 h3
  have hend : T.x 0 (M.N - 1) 0 * T.x 0 (M.N - 1) 0 = 1 := by
    have := hT.solves.1.terminal 0 Nat.one_pos _ rfl 0 Nat.one_pos
    simp [OCP.tArg, ocpFork, ocpR] at this
    linarith
  have hkeep : flip.KeepsDefects ocpFork [1 / 1000] := by
    refine fork_one fun e he j hj => ?_
    obtain rfl : j = 0 := by simpa [ocpFork, ocpR] using hj
    have := he 0 Nat.one_pos
    simpa [flip, ocpFork, ocpR, abs_mul] using this
  have key := C115_adaptive (a := argsR) (ptp := [[0]]) (rx := false) (rdx := true) fork_invariant (fun _ => hkeep) (fork_one rfl)
    (adaptFork_fresh (n := n) (p := p)).ready hv hs hsc rfl rfl rfl hM (by norm_num [outsideR]) rfl rfl (by norm_num) ht (by simp) hT
  refine ⟨M, hM, fun e he => ?_⟩
  rcases mul_self_eq_mul_self_iff.1 (he.trans hend.symm) with rfl | h
  · obtain ⟨nlpsol, z, q, r, h1, h2, h3, h4, -⟩ := key T (by simp)
    exact ⟨nlpsol, z, q, r, T, h1, h2, h3, h4, rfl⟩
  · obtain ⟨nlpsol, z, q, r, h1, h2, h3, h4, -⟩ := key (T.image ocpFork flip) (by simp)
    refine ⟨nlpsol, z, q, r, _, h1, h2, h3, h4, ?_⟩
    rw [h]
    exact flip_state _

end MPOpt
