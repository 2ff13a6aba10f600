import Verif.Spec.Best
import Verif.Props.Consistency

/-! # C84: the best point within tolerances is nearly as good as any smooth solution of the continuous-time problem -/

set_option autoImplicit false

namespace MPOpt
open Polynomial

section
variable {K V : Type} [Field K] [LinearOrder K] [IsStrictOrderedRing K] {M : Mesh K} {ocp : OCP K}

theorem SolvesTo.mono (hv : ValidOCP ocp) (hsc : ocp.PosScales) {T : Traj K} {εb ε εb' ε' : K} (h : SolvesTo εb ε ocp M T)
    (hb : εb ≤ εb') (hε : ε ≤ ε') : SolvesTo εb' ε' ocp M T := by
  have px : ∀ j < ocp.nx, 0 < ocp.scaleX.getD j 0 := fun j hj => getD_mem_ne hv.scaleX hsc.x hj
  have pu : ∀ j < ocp.nu, 0 < ocp.scaleU.getD j 0 := fun j hj => getD_mem_ne hv.scaleU hsc.u hj
  have pa : ∀ j < ocp.na, 0 < ocp.scaleA.getD j 0 := fun j hj => getD_mem_ne hv.scaleA hsc.a hj
  have pt := hsc.t
  obtain ⟨h1, h2, h3, h4, h5, h6, h7, h8⟩ := h
  refine ⟨fun ph hp => ?_, fun ph hp F hF j hj s i ho => ?_, fun ph hp F hF s i ho c hc => ?_,
    fun ph hp F hF c hc => ?_, fun ph hp hd j hj s i ho => ?_, fun ph hp hd j hj s hs i hi => ?_,
    fun ph hp hd j hj s hs => ?_, fun hm => ?_⟩
  · obtain ⟨b1, b2, b3, b4, b5, b6⟩ := h1 ph hp
    exact ⟨fun e j hj => (b1 e j hj).trans (div_le_div_of_nonneg_right hb (px j hj).le),
      fun i hi hn j hj => (b2 i hi hn j hj).mono (div_le_div_of_nonneg_right hb (px j hj).le),
      fun i hi j hj => (b3 i hi j hj).mono (div_le_div_of_nonneg_right hb (pu j hj).le),
      b4.mono (div_le_div_of_nonneg_right hb pt.le), b5.mono (div_le_div_of_nonneg_right hb pt.le),
      fun k hk => (b6 k hk).mono (div_le_div_of_nonneg_right hb (pa k hk).le)⟩
  · exact (h2 ph hp F hF j hj s i ho).trans (div_le_div_of_nonneg_right hε (px j hj).le)
  · exact (h3 ph hp F hF s i ho c hc).trans hε
  · exact (h4 ph hp F hF c hc).trans hε
  · exact (h5 ph hp hd j hj s i ho).mono hε
  · exact (h6 ph hp hd j hj s hs i hi).mono (div_le_div_of_nonneg_right hε (pu j hj).le)
  · exact (h7 ph hp hd j hj s hs).trans (div_le_div_of_nonneg_right hε (pu j hj).le)
  · obtain ⟨l1, l2, l3⟩ := h8 hm
    exact ⟨fun k p q e j hj => (l1 k p q e j hj).mono (div_le_div_of_nonneg_right hε (px j hj).le),
      fun k p q e j hj => (l2 k p q e j hj).trans (div_le_div_of_nonneg_right hε (pu j hj).le),
      fun k p q e => (l3 k p q e).trans (div_le_div_of_nonneg_right hε pt.le)⟩

variable {w : Outside K V} {nlpsol : SolverCall K V → Py (List K)}
    {ptp : List (List Nat)} {n : Nat} {arg : OrdersArg} {scheme : String} {a : SolveArgs K V} {rx rdx : Bool}
    {s : Session K V} {p : Post K} {r : Option (PyDict (ResidVal K))}

/-- **C84** With a solver that returns the best of the points within its tolerances but for `η`, the trajectory shown costs no more than
any trajectory that solves the collocated problem within these tolerances, but for `η`. -/
theorem C84_solve_best (hrun : mpSolve w nlpsol ocp ptp n arg scheme a rx rdx = .ok (s, p, r))
    (hv : ValidOCP ocp) (hs : ocp.SettingsOK) (hsc : ocp.PosScales) (hM : MeshFor w scheme n arg M) {εb ε η : K}
    (hopt : ∀ c z, nlpsol c = .ok z → c.BestNear εb ε η z) :
    ∃ T W J, compQuadWeights ⟨w.method, w.tau0, w.tau1, tausFn w.lib w.tau0 w.tau1 scheme⟩ M.orders = .ok W ∧
      SolvesTo εb ε ocp M T ∧ WidthsAre ocp n a.widths T ∧ p.Shows ocp M T ∧ PhysCost ocp M W T J ∧
      ∀ T' J', SolvesTo εb ε ocp M T' → WidthsAre ocp n a.widths T' → PhysCost ocp M W T' J' → J ≤ J' + η := by
  obtain ⟨orders, d, c0, z0, i1, i2, -, -, -, -, i7, -⟩ := mpSolve_inv hrun
  obtain ⟨c, z, h1, h2, h3, h4, h5, h6, h7, h8, h9, h10⟩ := mpSolve_pieces hrun hM
  have ho := hopt c z h1
  obtain ⟨hc, hS, hw, hsh⟩ := shown_of_near hv hs hsc h2 h3 h4 h5 h6 h7 h8 h9 h10 ho.sol
  obtain ⟨-, -, -, -, g5, -, -⟩ := mkDisc_inv i2
  have hcol : p.solved.disc.colloc = ⟨w.method, w.tau0, w.tau1, tausFn w.lib w.tau0 w.tau1 scheme⟩ := by
    rw [i7]; exact g5
  subst h3 h6
  have hcost := (call_spec h2 hv hs hsc h8 h9 p.solved.z hc).2
  refine ⟨_, p.solved.disc.compW, c.solver.problem.f (c.point p.solved.z), ?_, hS, hw, hsh, ?_,
    fun T' J' hS' hw' hJ' => ?_⟩
  · rw [← hcol, h2.orders]; exact h2.compW
  · unfold Solved.traj; rw [h5]; exact hcost
  · have k1 := call_near_trajectories h2 hv hs hsc h8 h9 hc (req := a.widths) (by rw [h4]; exact h10) εb ε
    obtain ⟨-, k2⟩ := call_trajectories h2 hv hs hsc h8 h9 hc (req := a.widths) (by rw [h4]; exact h10)
    rw [h4] at k1 k2
    rw [← k2 T' J' hw' hJ']
    exact ho.best _ ((k1 _).2 ⟨T', hS', hw', rfl⟩)

end

variable {ocp : OCP ℝ} {M : Mesh ℝ} {T : Traj ℝ}

/-- Where the objective is bounded below there is a point as good as wanted. -/
theorem exists_bestNear {V : Type} (c : SolverCall ℝ V) {εb ε η b : ℝ} (hη : 0 < η) (hne : ∃ z, c.NearSolution εb ε z)
    (hb : ∀ z, c.NearSolution εb ε z → b ≤ c.solver.problem.f (c.point z)) : ∃ z, c.BestNear εb ε η z := by
  set S := (fun z => c.solver.problem.f (c.point z)) '' {z | c.NearSolution εb ε z} with hS
  have hbd : BddBelow S := ⟨b, by rintro _ ⟨z, hz, rfl⟩; exact hb z hz⟩
  obtain ⟨z0, hz0⟩ := hne
  obtain ⟨_, ⟨z, hz, rfl⟩, h⟩ := exists_lt_of_csInf_lt (s := S) ⟨_, z0, hz0, rfl⟩ (lt_add_of_pos_right (sInf S) hη)
  exact ⟨z, hz, fun z' hz' => by linarith [csInf_le hbd ⟨z', hz', rfl⟩]⟩

/-- Every trajectory has a cost. -/
theorem exists_physCost (ocp : OCP ℝ) (M : Mesh ℝ) (W : List ℝ) (T : Traj ℝ) : ∃ J, PhysCost ocp M W T J := by
  obtain ⟨v, hv⟩ := exists_samples ocp M T
  exact ⟨_, v, hv, rfl⟩

section
variable {a b : ℝ} {P : List Nat} {C : CTraj}

/-- **C84** Cost of the node values of a motion on LGR nodes: the true cost, but for how much running costs vary within a segment. -/
theorem C84_cost (lib : NodeLib ℝ) (m : Method) (hm : MeshOf a b (tausFn lib a b "LGR") P M) (hord : ∀ p ∈ P, 2 ≤ p)
    (hj : ∀ p ∈ P, IsJacobiRoots 1 0 (p - 1) (lib.jroots (p - 1) 1 0)) (hC : ContinuousCosts ocp C) (hS : Samples ocp M C T)
    (hw : ∀ ph < ocp.nPhases, FullWidths M T ph) {H ω : ℝ} (hH : ∀ ph < ocp.nPhases, M.Lasts T ph H)
    (hω : ∀ ph < ocp.nPhases, ∀ t ∈ Set.Icc (C.t0 ph) (C.tf ph), ∀ t' ∈ Set.Icc (C.t0 ph) (C.tf ph), |t - t'| ≤ H →
      |ocp.runningCosts.getD ph (fun _ => 0) (ocp.cArg C ph t) - ocp.runningCosts.getD ph (fun _ => 0) (ocp.cArg C ph t')| ≤ ω)
    {W : List ℝ} (hW : compQuadWeights ⟨m, a, b, tausFn lib a b "LGR"⟩ M.orders = .ok W) {J : ℝ} (hJ : PhysCost ocp M W T J) :
    |J - ocp.trueCost C| ≤ ω * ∑ ph ∈ Finset.range ocp.nPhases, (C.tf ph - C.t0 ph) := by
  have hM := hm.good
  have hI : M.Inside := hm.inside
  have h0 : 0 < M.orders.length := List.length_pos_iff.2 hM.nonempty
  have hlt : a < b := by have := hI.tau_lt hM; rwa [hm.tau0, hm.tau1] at this
  have hshare := lgr_share lib m hlt hord hj
  obtain ⟨v, hv, rfl⟩ := hJ
  unfold OCP.trueCost
  rw [← Finset.sum_sub_distrib, Finset.mul_sum]
  refine (Finset.abs_sum_le_sum_abs _ _).trans (Finset.sum_le_sum fun ph hp => ?_)
  have hp := Finset.mem_range.1 hp
  have e : TerminalCost ocp M T ph = ocp.terminalCosts.getD ph (fun _ => 0) (ocp.cEnd C ph) := by
    unfold TerminalCost; rw [hS.tArg hM hp (hw ph hp)]
  rw [e, add_sub_add_left_eq_sub]
  have ht : T.t0 ph < T.tf ph := by rw [hS.t0 ph hp, hS.tf ph hp]; exact hC.order ph hp
  have hg := hC.continuous ph hp
  rw [← hS.t0 ph hp, ← hS.tf ph hp] at hg
  have hl : ph < ocp.runningCosts.length := by rw [hC.count]; exact hp
  have hb := C78_bound (m := m) hm ht (hw ph hp) hg (v := v ph) (fun s i ho => by
    rw [hv ph hp _ (List.getElem?_eq_getElem hl) s i ho, hS.pArg hp ho]
    simp only [List.getD_eq_getElem _ _ hl]) hW (hH ph hp) (ε := ω) (A := 1)
    (by rw [hS.t0 ph hp, hS.tf ph hp]; exact hω ph hp) (fun p hp' => by
      rw [lgr_sum_abs lib m hlt (hord p (hm.allowed p hp')) (hj p (hm.allowed p hp')) (hm.nodes p hp'), one_mul])
  have hz : ∀ s < M.orders.length, (quadWeights m (M.nodes (M.order s)) a b).getD 0 0 = 0 := by
    intro s hs
    have hp := hM.order_mem hs
    have := hshare _ (hm.allowed _ hp) _ (hm.nodes _ hp)
    have hne := (sub_pos.2 hlt).ne'
    have h1 : (quadWeights m (M.nodes (M.order s)) a b).getD 0 0 / (b - a) = 0 := by linarith
    exact (div_eq_zero_iff.1 h1).resolve_right hne
  have e2 : ∑ s ∈ Finset.range M.orders.length, (1 - (quadWeights m (M.nodes (M.order s)) a b).getD 0 0 / (b - a)) *
      ∫ t in (M.time T ph s a)..(M.time T ph s b), ocp.runningCosts.getD ph (fun _ => 0) (ocp.cArg C ph t) =
      ∫ t in (C.t0 ph)..(C.tf ph), ocp.runningCosts.getD ph (fun _ => 0) (ocp.cArg C ph t) := by
    rw [← hS.t0 ph hp, ← hS.tf ph hp, ← sum_segment_integrals hm ht (hw ph hp) hg]
    refine Finset.sum_congr rfl fun s hs => ?_
    rw [hz s (Finset.mem_range.1 hs), zero_div, sub_zero, one_mul]
  rw [e2, hz 0 h0, abs_zero, mul_zero, zero_mul, add_zero, one_mul, hS.t0 ph hp, hS.tf ph hp] at hb
  exact hb

end

section
variable {V : Type} {w : Outside ℝ V} {ptp : List (List Nat)} {n : Nat} {arg : OrdersArg} {a : SolveArgs ℝ V} {rx rdx : Bool}
  {εb ε : ℝ}

/-- **C84** The module-level `solve` with LGR nodes of order at least 2, `n` segments of equal width and a solver that returns the best of
the points within its tolerances but for `η`: flown on the real system, the plan costs no more than any solution of the continuous-time
problem that changes so little within a segment that the tolerances cover it, but for `η` and the sizes of the changes within a segment.
That solution need not be a polynomial. -/
theorem C84_solve_flown {nlpsol : SolverCall ℝ V → Py (List ℝ)} {s : Session ℝ V} {p : Post ℝ} {η : ℝ}
    {r : Option (PyDict (ResidVal ℝ))} (hrun : mpSolve w nlpsol ocp ptp n arg "LGR" a rx rdx = .ok (s, p, r))
    (hv : ValidOCP ocp) (hs : ocp.SettingsOK) (hsc : ocp.PosScales) (hM : MeshFor w "LGR" n arg M)
    (hn : M.orders.length = n) (hlt : w.tau0 < w.tau1) (hord : ∀ q ∈ M.orders, 2 ≤ q)
    (hj : ∀ q ∈ M.orders, IsJacobiRoots 1 0 (q - 1) (w.lib.jroots (q - 1) 1 0)) (hnone : a.widths = none)
    (hopt : ∀ c z, nlpsol c = .ok z → c.BestNear εb ε η z) (hεb : 0 ≤ εb)
    (hdu : ∀ ph < ocp.nPhases, ocp.duContinuity.getD ph false = false)
    (hdf : ∀ ph < ocp.nPhases, ocp.diffU.getD ph false = false) :
    ∃ T, SolvesTo εb ε ocp M T ∧ WidthsAre ocp n none T ∧ p.Shows ocp M T ∧
      ∀ (lo hi : Nat → Nat → ℝ) (U : Nat → List ℝ → Prop) (K : Sizes),
      (∀ ph < ocp.nPhases, ε * n * (w.tau1 - w.tau0) ≤ (T.tf ph - T.t0 ph) * K.tol) →
      (∀ ph < ocp.nPhases, Sized ocp M T ph (lo ph) (hi ph) (U ph) K) →
      ∃ C, Flies ocp M T C ∧ NearlySolvesTo ocp C (K.slack εb ε) ∧
      ∀ (Z : CTraj) (D A ω e H q : ℝ), SolvesContinuously ocp Z → M.DerivBound D → M.ValueBound A → 0 ≤ ω →
        (∀ ph < ocp.nPhases, RatesVary ocp Z n (fun _ _ => 1 / (n : ℝ)) ph ω) →
        (∀ ph < ocp.nPhases, ocp.midu.getD ph false = true → ControlsBend ocp Z n (fun _ _ => 1 / (n : ℝ)) ph e) →
        (∀ ph < ocp.nPhases, Z.tf ph - Z.t0 ph ≤ n * H) → D * ω * H ≤ ε →
        ((∃ ph < ocp.nPhases, ocp.midu.getD ph false = true) → A * e ≤ ε) → ContinuousCosts ocp Z →
        (∀ ph < ocp.nPhases, ∀ t ∈ Set.Icc (Z.t0 ph) (Z.tf ph), ∀ t' ∈ Set.Icc (Z.t0 ph) (Z.tf ph), |t - t'| ≤ H →
          |ocp.runningCosts.getD ph (fun _ => 0) (ocp.cArg Z ph t) - ocp.runningCosts.getD ph (fun _ => 0) (ocp.cArg Z ph t')| ≤ q) →
        ocp.trueCost C ≤ ocp.trueCost Z + q * ∑ ph ∈ Finset.range ocp.nPhases, (Z.tf ph - Z.t0 ph) + η +
          ocp.nPhases * (K.Px * K.drift + K.change * K.dur) := by
  obtain ⟨T, W, J, h1, h2, h3, h4, h5, h6⟩ := C84_solve_best hrun hv hs hsc hM hopt
  rw [hnone] at h3 h6
  have hn0 : 0 < n := by rw [← hn]; exact List.length_pos_iff.2 hM.good.nonempty
  have hI := hM.lgr_inside hlt hord hj
  refine ⟨T, h2, h3, h4, fun lo hi U K htol hK => ?_⟩
  obtain ⟨C, c1, c2, c3⟩ := C82_lgr w.lib w.method hv hs hsc (hM.meshOf hI) hord hj h2
    (Sizes.allows_equal hM.good hI hn h3 (by rw [hM.tau0, hM.tau1]; exact htol))
    (fun ph hp => h3.equal_full hn hn0 hp) hK h1 h5
  refine ⟨C, c1, c2, fun Z D A ω e H q hZ hD hA hω0 hω he hH hε hε' hc hq => ?_⟩
  obtain ⟨T', hS, hw'⟩ := exists_samples_of ocp M Z fun _ _ => 1 / (n : ℝ)
  have hwid : WidthsAre ocp n none T' := fun ph hp s hs => by rw [hw']
  have hf : ∀ ph < ocp.nPhases, FullWidths M T' ph := fun ph hp => hwid.equal_full hn hn0 hp
  have hnr : (0 : ℝ) < n := by exact_mod_cast hn0
  have hlast : ∀ ph < ocp.nPhases, M.Lasts T' ph H := by
    intro ph hp s hs
    rw [hw', hS.t0 ph hp, hS.tf ph hp, mul_one_div, div_le_iff₀ hnr, mul_comm]
    exact hH ph hp
  have hnear : SolvesTo 0 ε ocp M T' := C83_consistent hv hsc hM.good hI hZ hs.linkRange hS hf hD hA
    (by rw [hw', hn]; exact hω) (by rw [hw', hn]; exact he) hlast hω0 hε hε' hdu hdf
  obtain ⟨J', hJ'⟩ : ∃ J', PhysCost ocp M W T' J' := exists_physCost ocp M W T'
  have k1 := h6 T' J' (hnear.mono hv hsc hεb le_rfl) hwid hJ'
  have k2 := C84_cost w.lib w.method (hM.meshOf hI) hord hj hc hS hf hlast hq h1 hJ'
  linarith [(abs_le.1 c3).1, (abs_le.1 k2).2]

/-- The longest phase. -/
theorem exists_longest (ocp : OCP ℝ) (C : CTraj) : ∃ B : ℝ, 0 < B ∧ ∀ ph < ocp.nPhases, C.tf ph - C.t0 ph ≤ B := by
  generalize ocp.nPhases = k
  induction k with
  | zero => exact ⟨1, one_pos, by simp⟩
  | succ k ih =>
    obtain ⟨B, h0, h⟩ := ih
    refine ⟨max B (C.tf k - C.t0 k), lt_max_of_lt_left h0, fun ph hp => ?_⟩
    rcases Nat.lt_succ_iff_lt_or_eq.1 hp with h1 | rfl
    · exact (h ph h1).trans (le_max_left _ _)
    · exact le_max_right _ _

/-- **C84** In the limit, against any fixed smooth solution `Z` of the continuous-time problem: with `n` equal LGR segments, `n` large, and
a solver that returns the best of the points that meet the rows up to `ν / n`, but for `η0`, any plan of known sizes whose segments are
short, whose controls vary little within a segment and for which `ν` is small can be flown. The motion misses no constraint by more than
`η` and costs no more than `Z`, but for `η0 + η`. -/
theorem C84_limit (w : Outside ℝ V) (hv : ValidOCP ocp) (hs : ocp.SettingsOK) (hsc : ocp.PosScales) (hlt : w.tau0 < w.tau1)
    {P : List Nat} (hord : ∀ q ∈ P, 2 ≤ q) (hj : ∀ q ∈ P, IsJacobiRoots 1 0 (q - 1) (w.lib.jroots (q - 1) 1 0))
    (hdu : ∀ ph < ocp.nPhases, ocp.duContinuity.getD ph false = false)
    (hdf : ∀ ph < ocp.nPhases, ocp.diffU.getD ph false = false) {Z : CTraj} (hZ : SolvesContinuously ocp Z)
    (hsm : SmoothMotion ocp Z) (hc : ContinuousCosts ocp Z) (K : Sizes) {η : ℝ} (hη : 0 < η) :
    ∃ δ, 0 < δ ∧ ∀ ν, 0 < ν → ∃ N : Nat, ∀ (n : Nat) (arg : OrdersArg) (M : Mesh ℝ) (nlpsol : SolverCall ℝ V → Py (List ℝ))
      (ptp : List (List Nat)) (a : SolveArgs ℝ V) (rx rdx : Bool) (s : Session ℝ V) (p : Post ℝ)
      (r : Option (PyDict (ResidVal ℝ))) (εb η0 : ℝ), N ≤ n →
      mpSolve w nlpsol ocp ptp n arg "LGR" a rx rdx = .ok (s, p, r) → MeshFor w "LGR" n arg M → M.orders.length = n →
      (∀ q ∈ M.orders, q ∈ P) → a.widths = none → 0 ≤ εb → εb ≤ δ →
      (∀ c z, nlpsol c = .ok z → c.BestNear εb (ν / n) η0 z) →
      ∃ T, SolvesTo εb (ν / n) ocp M T ∧ WidthsAre ocp n none T ∧ p.Shows ocp M T ∧
        ∀ (lo hi : Nat → Nat → ℝ) (U : Nat → List ℝ → Prop) (H e κ : ℝ), H ≤ δ → e ≤ δ → κ ≤ δ →
          (∀ ph < ocp.nPhases, ν * (w.tau1 - w.tau0) ≤ (T.tf ph - T.t0 ph) * κ) →
          (∀ ph < ocp.nPhases, Sized ocp M T ph (lo ph) (hi ph) (U ph) { K with H := H, e := e, tol := κ }) →
          ∃ C, Flies ocp M T C ∧ NearlySolvesTo ocp C (Slack.all η) ∧ ocp.trueCost C ≤ ocp.trueCost Z + η0 + η := by
  obtain ⟨δ, hδ, hplan⟩ := C82_fine_plan (a := w.tau0) (b := w.tau1) w.lib w.method hv hs hsc hord hj K (half_pos hη)
  obtain ⟨B, hB0, hB⟩ := exists_longest ocp Z
  refine ⟨δ, hδ, fun ν hν => ?_⟩
  obtain ⟨ρ1, r10, r1⟩ := C83_fine hv hsc hZ hsm hs.linkRange hdu hdf w.tau0 w.tau1 (tausFn w.lib w.tau0 w.tau1 "LGR") P
    (div_pos hν hB0)
  obtain ⟨ρ2, r20, r2⟩ := C78_lgr w.lib w.method hlt hord hj hc (half_pos hη)
  obtain ⟨N1, hN1⟩ := exists_nat_ge (B / ρ1)
  obtain ⟨N2, hN2⟩ := exists_nat_ge (B / ρ2)
  obtain ⟨N3, hN3⟩ := exists_nat_ge (ν / δ)
  refine ⟨max N1 (max N2 N3), fun n arg M nlpsol ptp a rx rdx s p r εb η0 hN hrun hM hn hP hnone hb0 hb hopt => ?_⟩
  have hn0 : 0 < n := by rw [← hn]; exact List.length_pos_iff.2 hM.good.nonempty
  have hnr : (0 : ℝ) < n := by exact_mod_cast hn0
  have c1 : B / ρ1 ≤ n := hN1.trans (by exact_mod_cast (le_max_left _ _).trans hN)
  have c2 : B / ρ2 ≤ n := hN2.trans (by exact_mod_cast (le_max_left _ _).trans ((le_max_right _ _).trans hN))
  have c3 : ν / δ ≤ n := hN3.trans (by exact_mod_cast (le_max_right _ _).trans ((le_max_right _ _).trans hN))
  rw [div_le_iff₀ r10] at c1
  rw [div_le_iff₀ r20] at c2
  rw [div_le_iff₀ hδ] at c3
  obtain ⟨T, W, J, h1, h2, h3, h4, h5, h6⟩ := C84_solve_best hrun hv hs hsc hM hopt
  rw [hnone] at h3 h6
  have hI := hM.lgr_inside hlt (fun q hq => hord q (hP q hq)) (fun q hq => hj q (hP q hq))
  have hmesh : MeshOf w.tau0 w.tau1 (tausFn w.lib w.tau0 w.tau1 "LGR") P M :=
    ⟨hM.good, hI, hM.tau0, hM.tau1, hP, hM.nodes⟩
  refine ⟨T, h2, h3, h4, fun lo hi U H e κ hH he hκ htol hK => ?_⟩
  obtain ⟨C, d1, d2, d3⟩ := hplan M T W J H e κ εb (ν / n) lo hi U hmesh h2 (fun ph hp => h3.equal_full hn hn0 hp)
    (Sizes.allows_equal hM.good hI hn h3 (by
      rw [hM.tau0, hM.tau1, div_mul_cancel₀ _ hnr.ne']; exact htol)) hK h1 h5 hH he hκ hb
    (by rw [div_le_iff₀ hnr]; linarith)
  refine ⟨C, d1, d2.mono hv hsc ?_ ?_ ?_ ?_ ?_ ?_ ?_, ?_⟩
  iterate 7 exact (half_le_self hη.le)
  obtain ⟨T', hS, hw'⟩ := exists_samples_of ocp M Z fun _ _ => 1 / (n : ℝ)
  have hwid : WidthsAre ocp n none T' := fun ph hp s hs => by rw [hw']
  have hf : ∀ ph < ocp.nPhases, FullWidths M T' ph := fun ph hp => hwid.equal_full hn hn0 hp
  have hlast : ∀ ph < ocp.nPhases, M.Lasts T' ph (B / n) := by
    intro ph hp s hs
    rw [hw', hS.t0 ph hp, hS.tf ph hp, mul_one_div]
    exact div_le_div_of_nonneg_right (hB ph hp) hnr.le
  have hfine : ∀ ρ, B ≤ n * ρ → FineSamples ocp w.tau0 w.tau1 (tausFn w.lib w.tau0 w.tau1 "LGR") P ρ Z M T' := fun ρ hρ =>
    ⟨hmesh, hS, hf, fun ph hp s hs => (hlast ph hp s hs).trans (by rw [div_le_iff₀ hnr]; linarith)⟩
  have hnear := r1 M T' (B / n) (hfine ρ1 c1) hlast
  rw [show ν / B * (B / n) = ν / n by field_simp] at hnear
  obtain ⟨J', hJ'⟩ := exists_physCost ocp M W T'
  have k1 := h6 T' J' (hnear.mono hv hsc hb0 le_rfl) hwid hJ'
  have k2 := r2 M T' W J' (hfine ρ2 c2) h1 hJ'
  linarith [(abs_le.1 d3).1, (abs_le.1 k2).2]

end

end MPOpt
