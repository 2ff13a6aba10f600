import Verif.Props.Existence
import Verif.Props.ShippedValid
import Verif.Props.ShippedExample

/-! # Runs that meet the hypotheses of C69 and C70: the moon lander -/

set_option autoImplicit false

namespace MPOpt
open Polynomial

variable {n p : Nat}

/-- The object built by the script, written out. -/
noncomputable def ocpML : OCP ℝ :=
  { nx := 2, nu := 1, na := 0, nPhases := 1
    dynamics := [⟨2, fun p j => if j = 0 then p.x.getD 1 0 else p.u.getD 0 0 - 3 / 2⟩]
    pathConstraints := [none]
    terminalCosts := [fun _ => 0]
    runningCosts := [fun p => p.u.getD 0 0]
    terminalConstraints := [some ⟨2, fun t j => if j = 0 then t.xf.getD 0 0 else t.xf.getD 1 0⟩]
    phaseLinks := []
    scaleX := [1, 1], scaleU := [1], scaleA := [], scaleT := 1
    x00 := [[10, -2]], xf0 := [[0, 0]], u00 := [[0]], uf0 := [[0]], t00 := [[0]], tf0 := [[4]], a0 := [[]]
    lbx := [[.fin 0, .fin (-20)]], ubx := [[.fin 20, .fin 20]], lbu := [[.fin 0]], ubu := [[.fin 3]], lba := [[]]
    uba := [[]], lbt0 := [[.fin 0]], ubt0 := [[.fin 0]], lbtf := [[.fin 3]], ubtf := [[.fin 5]]
    lbe := [], ube := [], diffU := [false], lbdu := [.fin (-15)], ubdu := [.fin 15], midu := [true]
    duContinuity := [false] }

theorem scriptMoonLander_eq : scriptMoonLander = .ok ocpML := rfl

theorem ocpML_ready : Ready ocpML := by
  obtain ⟨o, h, hr⟩ := scriptMoonLander_ready
  rw [scriptMoonLander_eq] at h
  cases h
  exact hr

/-- A landing within 5 time units with a quadratic thrust. -/
noncomputable def landing : CTraj :=
  ⟨fun _ j t => if j = 0 then 10 - 2 * t - 13 / 20 * t ^ 2 + 9 / 50 * t ^ 3 - 1 / 100 * t ^ 4
      else -2 - 13 / 10 * t + 27 / 50 * t ^ 2 - 1 / 25 * t ^ 3,
    fun _ _ t => 1 / 5 + 27 / 25 * t - 3 / 25 * t ^ 2, fun _ => 0, fun _ => 5, fun _ _ => 0⟩

theorem landing_deriv0 (t : ℝ) : HasDerivAt (fun t : ℝ => 10 - 2 * t - 13 / 20 * t ^ 2 + 9 / 50 * t ^ 3 - 1 / 100 * t ^ 4)
    (-2 - 13 / 10 * t + 27 / 50 * t ^ 2 - 1 / 25 * t ^ 3) t := by
  have := (((((hasDerivAt_id t).const_mul 2).const_sub 10).sub (((hasDerivAt_id t).pow 2).const_mul (13 / 20))).add
    (((hasDerivAt_id t).pow 3).const_mul (9 / 50))).sub (((hasDerivAt_id t).pow 4).const_mul (1 / 100))
  refine this.congr_deriv ?_
  simp; ring

theorem landing_deriv1 (t : ℝ) : HasDerivAt (fun t : ℝ => -2 - 13 / 10 * t + 27 / 50 * t ^ 2 - 1 / 25 * t ^ 3)
    (1 / 5 + 27 / 25 * t - 3 / 25 * t ^ 2 - 3 / 2) t := by
  have := ((((hasDerivAt_id t).const_mul (13 / 10)).const_sub (-2)).add
    (((hasDerivAt_id t).pow 2).const_mul (27 / 50))).sub (((hasDerivAt_id t).pow 3).const_mul (1 / 25))
  refine this.congr_deriv ?_
  simp; ring

theorem landing_solves : SolvesContinuously ocpML landing := by
  refine ⟨fun ph hph => ?_, by simp [ocpML], by simp [ocpML], by simp [ocpML]⟩
  obtain rfl : ph = 0 := by simpa [ocpML] using hph
  have hF' : ∀ F, ocpML.dynamics[0]? = some F →
      (⟨2, fun p j => if j = 0 then p.x.getD 1 0 else p.u.getD 0 0 - 3 / 2⟩ : VFun (PArg ℝ) ℝ) = F := by
    intro F hF; simpa [ocpML] using hF
  have hd : ∀ j < 2, ∀ t, HasDerivAt (landing.x 0 j)
      (if j = 0 then (ocpML.cArg landing 0 t).x.getD 1 0 else (ocpML.cArg landing 0 t).u.getD 0 0 - 3 / 2) t := by
    intro j hj t
    interval_cases j
    · simpa [landing, OCP.cArg, ocpML] using landing_deriv0 t
    · simpa [landing, OCP.cArg, ocpML] using landing_deriv1 t
  refine ⟨by simp [landing], ⟨?_, ?_, fun j hj t _ => (hd j hj t).continuousAt.continuousWithinAt⟩, ?_, ?_, ?_, ?_, ?_, ?_, ?_, ?_⟩
  · intro F hF j hj t _ _
    rw [← hF' F hF]
    exact (hd j hj t).hasDerivWithinAt
  · intro F hF j hj
    rw [← hF' F hF]
    exact (hd j hj _).hasDerivWithinAt
  · intro F hF; simp [ocpML] at hF
  · intro F hF c hc
    have hF : (⟨2, fun t j => if j = 0 then t.xf.getD 0 0 else t.xf.getD 1 0⟩ : VFun (TArg ℝ) ℝ) = F := by
      simpa [ocpML] using hF
    subst hF
    have hc : c < 2 := hc
    interval_cases c <;> simp [OCP.cEnd, landing, ocpML] <;> norm_num
  · intro _ j hj
    have hj : j < 2 := hj
    interval_cases j <;> simp [landing, ocpML, entry]
  · intro t ht _ j hj
    have h0 : 0 ≤ t := ht.1
    have h5 : t ≤ 5 := ht.2
    have hj : j < 2 := hj
    interval_cases j
    · have e : landing.x 0 0 t = (5 - t) ^ 2 * (2 / 5 + t * (8 - t) / 100) := by simp [landing]; ring
      have h8 : 0 ≤ t * (8 - t) := mul_nonneg h0 (by linarith)
      have h16 : t * (8 - t) ≤ 16 := by nlinarith [sq_nonneg (t - 4)]
      have hsq : (5 - t) ^ 2 ≤ 25 := by nlinarith
      have hx : 0 ≤ landing.x 0 0 t ∧ landing.x 0 0 t ≤ 20 := by
        rw [e]
        constructor
        · positivity
        · nlinarith [sq_nonneg (5 - t)]
      simpa [ocpML, entry, Within, Ext.Below, Ext.Above] using hx
    · have hx : -20 ≤ landing.x 0 1 t ∧ landing.x 0 1 t ≤ 20 := by
        have h2 : 0 ≤ t ^ 2 := sq_nonneg t
        have h25 : t ^ 2 ≤ 25 := by nlinarith
        have h3 : 0 ≤ t ^ 3 := by positivity
        have h125 : t ^ 3 ≤ 125 := by nlinarith
        simp only [landing, if_neg one_ne_zero]
        constructor <;> linarith
      simpa [ocpML, entry, Within, Ext.Below, Ext.Above] using hx
  · intro t ht j hj
    have h0 : 0 ≤ t := ht.1
    have h5 : t ≤ 5 := ht.2
    obtain rfl : j = 0 := by simpa [ocpML] using hj
    have hu : 0 ≤ landing.u 0 0 t ∧ landing.u 0 0 t ≤ 3 := by
      simp only [landing]
      constructor <;> nlinarith [sq_nonneg (t - 9 / 2)]
    simpa [ocpML, entry, Within, Ext.Below, Ext.Above] using hu
  · simp [landing, ocpML, entry, Within, Ext.Below, Ext.Above]
  · simp [landing, ocpML, entry, Within, Ext.Below, Ext.Above]; norm_num
  · intro k hk; simp [ocpML] at hk

theorem landing_poly {m : Nat} {deg : Nat → Nat} (h : ∀ s < m, 4 ≤ deg s) (b : Nat → ℝ) :
    (∀ j < 2, PiecewisePoly m deg b (landing.x 0 j)) ∧ PiecewisePoly m deg b (landing.u 0 0) := by
  refine ⟨fun j hj => ?_, fun s hs => ⟨C (-3 / 25) * X ^ 2 + C (27 / 25) * X + C (1 / 5),
    natDegree_quadratic_le.trans (by have := h s hs; omega), fun t _ => ?_⟩⟩
  · interval_cases j
    · refine fun s hs => ⟨C (-1 / 100) * X ^ 4 + C (9 / 50) * X ^ 3 + C (-13 / 20) * X ^ 2 + C (-2) * X + C 10,
        ?_, fun t _ => ?_⟩
      · refine le_trans ?_ (h s hs)
        compute_degree
      · simp [landing]; ring
    · refine fun s hs => ⟨C (-1 / 25) * X ^ 3 + C (27 / 50) * X ^ 2 + C (-13 / 10) * X + C (-2),
        natDegree_cubic_le.trans (by have := h s hs; omega), fun t _ => ?_⟩
      simp [landing]; ring
  · simp [landing]; ring

theorem ocpML_cts : CtsOCP ocpML := by
  refine ⟨fun F hF j _ => ?_, fun F hF => ?_, fun F hF c _ => ?_, fun r hr => ?_, fun r hr => ?_⟩
  · obtain rfl := List.mem_singleton.1 hF
    by_cases hj : j = 0
    · simp only [hj, if_true]; exact PCts.x _
    · simp only [if_neg hj]; exact (PCts.u _).sub (PCts.const _)
  · simp [ocpML] at hF
  · obtain rfl := Option.some.inj (List.mem_singleton.1 hF)
    by_cases hj : c = 0
    · simp only [hj, if_true]; exact TCts.xf _
    · simp only [if_neg hj]; exact TCts.xf _
  · obtain rfl := List.mem_singleton.1 hr
    exact PCts.u _
  · obtain rfl := List.mem_singleton.1 hr
    exact TCts.const _

theorem ocpML_finite : FiniteBounds ocpML := by
  refine ⟨one_phase fun j hj => ?_, one_phase (one_entry ?_), one_phase ?_, one_phase ?_, one_phase fun k hk => ?_⟩
  · have hj : j < 2 := hj
    interval_cases j <;> simp [ocpML, entry, Ext.IsFinite]
  · simp [ocpML, entry, Ext.IsFinite]
  · simp [ocpML, entry, Ext.IsFinite]
  · simp [ocpML, entry, Ext.IsFinite]
  · simp [ocpML] at hk

/-- Samples of the landing are feasible on every mesh of order at least 4. -/
theorem landing_feasible {M : Mesh ℝ} (hp : 4 ≤ p) (hM : MeshFor outsideR "LGR" n (.int p) M)
    (ho : M.orders = List.replicate n p) :
    (∀ q ∈ M.orders, 2 ≤ q) ∧ ∀ T, Samples ocpML M landing T → FullWidths M T 0 → SolvesOCP ocpML M T ∧
      ∀ {lb ub tol : ℝ}, (∀ s < M.orders.length, lb ≤ T.w s 0 ∧ T.w s 0 ≤ ub) → 0 ≤ tol →
        SolvesAdaptive ocpML M T [lb] [ub] [tol] true := by
  have hord : ∀ q ∈ M.orders, 4 ≤ q := by
    rw [ho]; intro q hq; rw [(List.mem_replicate.1 hq).2]; exact hp
  have hord2 : ∀ q ∈ M.orders, 2 ≤ q := fun q hq => by have := hord q hq; omega
  obtain ⟨W, hW, -⟩ := compQuadWeights_spec ⟨.numerical, -1, 1, tausFn libR (-1) 1 "LGR"⟩ M.orders hM.good.nonempty M.nodes
    (fun p hp => ⟨hM.nodes p hp, hM.good.length p hp, hM.good.nodup p hp⟩)
  obtain ⟨hI, -⟩ := C57_lgr_integrates hM (by norm_num [outsideR]) hord2 (fun q _ => libR_jacobi 1 0 (q - 1)) hW
  refine ⟨hord2, fun T hT hw => ?_⟩
  obtain ⟨p1, p2⟩ := landing_poly (fun s hs => hord _ (hM.good.order_mem hs)) (landing.breakTime T.w 0)
  exact ⟨C56_exact_feasible hM.good hI landing_solves ocpML_ready.2.1.linkRange hT (one_phase hw) (one_phase p1)
      (one_phase fun _ => one_entry p2) (one_phase rfl) (one_phase rfl),
    fun {lb ub tol} hb htol => C63_exact_feasible hM.good hI landing_solves ocpML_ready.2.1.linkRange hT (one_phase hw)
      (one_phase p1) (one_phase (one_entry p2)) (one_phase rfl) (one_phase hb) fun _ => one_phase htol⟩

/-- `mpopt(ocp, n, p).solve()` on the moon lander with a perfect solver, for every number of segments and every order of
at least 4 (the script takes 5 and 4): it returns, the fuel is `2 + 1.5 tf`, and the landing is the earliest possible. -/
theorem exampleML (hn : 0 < n) (hp : 4 ≤ p) {nlpsol : SolverCall ℝ Nat → Py (List ℝ)} (hperf : Perfect nlpsol) :
    ∃ M s q r T W, MeshFor outsideR "LGR" n (.int p) M ∧
      mpSolve outsideR nlpsol ocpML [[0]] n (.int p) "LGR" argsR false true = .ok (s, q, r) ∧
      compQuadWeights ⟨.numerical, -1, 1, tausFn libR (-1) 1 "LGR"⟩ M.orders = .ok W ∧
      q.Shows ocpML M T ∧ SolvesOCP ocpML M T ∧ PhysCost ocpML M W T (2 + 3 / 2 * T.tf 0) ∧ T.tf 0 ≤ 5 ∧
      ∀ T', SolvesOCP ocpML M T' → WidthsAre ocpML n none T' → T.tf 0 ≤ T'.tf 0 := by
  obtain ⟨hv, hs, hsc⟩ := ocpML_ready
  obtain ⟨M, hM, ho⟩ := exists_lgr_int (n := n) (p := p) hn (by omega)
  have hlen : M.orders.length = n := by rw [ho]; simp
  obtain ⟨hord, hex⟩ := landing_feasible hp hM ho
  obtain ⟨L, hL, hLw⟩ := exists_samples_of ocpML M landing fun _ _ => 1 / (n : ℝ)
  have hLa : WidthsAre ocpML n argsR.widths L := by intro ph _ s _; rw [hLw]
  have hreq : ∀ l, argsR.widths = some l → l.sum = 1 ∧ ∀ x ∈ l, 0 < x := by simp [argsR]
  have hLs := (hex L hL (hLa.full rfl hn hlen hreq)).1
  obtain ⟨s, q, r, -, -, -, hout, -⟩ := C70_solve_box (V := Nat) (ocp := ocpML) (w := outsideR) (a := argsR)
    (scheme := "LGR") (n := n) (arg := .int p) (M := M) (ptp := [[0]]) (rx := false) (rdx := true)
    hv hs hsc hM hlen (by norm_num [outsideR]) rfl (by simp [GoodWidths, argsR])
    (one_phase (by simp [ocpML, entry])) (by simp) ocpML_cts ocpML_finite ⟨L, hLs, hLa⟩ hperf
  obtain ⟨T, W, h1, h2, h3, h4, h5⟩ := C69_moon_solve scriptMoonLander_eq hout hM (by norm_num [outsideR]) hord
    (fun q _ => libR_jacobi 1 0 (q - 1)) hperf.sound hreq
  refine ⟨M, s, q, r, T, W, hM, hout, h1, h3, h2, h4, ?_, h5⟩
  refine (h5 L hLs hLa).trans ?_
  rw [hL.tf 0 (by simp [ocpML])]
  rfl

/-- The script's own call. -/
example : ∃ (nlpsol : SolverCall ℝ Nat → Py (List ℝ)) (out : _), Perfect nlpsol ∧
    mpSolve outsideR nlpsol ocpML [[0]] 5 (.int 4) "LGR" argsR false true = .ok out := by
  obtain ⟨nlpsol, h⟩ := exists_perfect (V := Nat)
  obtain ⟨M, s, q, r, T, W, -, h2, -⟩ := exampleML (n := 5) (p := 4) (by norm_num) (by norm_num) h
  exact ⟨nlpsol, _, h, h2⟩

/-- `mpopt_adaptive(ocp, n, p)` with its default settings. -/
noncomputable def adaptML (n p : Nat) : AdaptOpt ℝ Nat :=
  ⟨ocpML, n, List.replicate n p, "LGR", [1 / 10000], [1], [1 / 1000], true, ["fixed"], 15, false, none, none, none, none⟩

theorem adaptML_fresh : (adaptML n p).Fresh ocpML n (.int p) "LGR" [1 / 10000] [1] [1 / 1000] true := by
  refine ⟨⟨adaptML n p, _, _, ?_, rfl⟩⟩
  have : initOrders n (.int p) = .ok (List.replicate n p, (List.replicate n p).sum + 1) := by
    unfold initOrders; simp [pyAssert]
  unfold newAdapt
  rw [this]
  rfl

/-- `mpopt_adaptive(ocp, n, p).solve()` on the moon lander, for at most 10000 segments (its least width is 1e-4). -/
theorem exampleAdaptML (hn : 0 < n) (hn' : n ≤ 10000) (hp : 4 ≤ p) {nlpsol : SolverCall ℝ Nat → Py (List ℝ)}
    (hperf : Perfect nlpsol) :
    ∃ M z q r T W, MeshFor outsideR "LGR" n (.int p) M ∧ ((adaptML n p).solve outsideR nlpsol argsR).2 = .ok z ∧
      ((adaptML n p).solve outsideR nlpsol argsR).1.processResults outsideR [[0]] false false true = .ok (q, r) ∧
      compQuadWeights ⟨.numerical, -1, 1, tausFn libR (-1) 1 "LGR"⟩ M.orders = .ok W ∧
      q.Shows ocpML M T ∧ SolvesAdaptive ocpML M T [1 / 10000] [1] [1 / 1000] true ∧
      PhysCost ocpML M W T (2 + 3 / 2 * T.tf 0) ∧ T.tf 0 ≤ 5 ∧
      ∀ T', SolvesAdaptive ocpML M T' [1 / 10000] [1] [1 / 1000] true → T.tf 0 ≤ T'.tf 0 := by
  obtain ⟨hv, hs, hsc⟩ := ocpML_ready
  obtain ⟨M, hM, ho⟩ := exists_lgr_int (n := n) (p := p) hn (by omega)
  have hlen : M.orders.length = n := by rw [ho]; simp
  have hnr : (0 : ℝ) < n := by exact_mod_cast hn
  have hnr' : (n : ℝ) ≤ 10000 := by exact_mod_cast hn'
  have hn1 : (1 : ℝ) ≤ n := by exact_mod_cast hn
  have w1 : (1 / 10000 : ℝ) ≤ 1 / n := one_div_le_one_div_of_le hnr hnr'
  have w2 : 1 / (n : ℝ) ≤ 1 := by rw [div_le_one hnr]; exact hn1
  obtain ⟨hord, hex⟩ := landing_feasible hp hM ho
  obtain ⟨L, hL, hLw⟩ := exists_samples_of ocpML M landing fun _ _ => 1 / (n : ℝ)
  have hLa : WidthsAre ocpML n none L := by intro ph _ s _; rw [hLw]
  have hLs := (hex L hL (hLa.full rfl hn hlen (by simp))).2 (lb := 1 / 10000) (ub := 1) (tol := 1 / 1000)
    (fun s _ => by rw [hLw]; exact ⟨w1, w2⟩) (by norm_num)
  obtain ⟨z, q, r, -, -, -, k1, k2, -⟩ := C70_adaptive (a := argsR) (ptp := [[0]]) (rx := false) (rdx := true)
    (adaptML_fresh (n := n) (p := p)).ready hv hs hsc rfl rfl rfl hM (by norm_num [outsideR]) rfl rfl (by norm_num)
    (one_phase (by simp [ocpML, entry])) (by simp) ocpML_cts ocpML_finite ⟨L, hLs⟩ hperf
  obtain ⟨T, W, h1, h2, h3, h4, h5⟩ := C69_moon_adaptive scriptMoonLander_eq (adaptML_fresh (n := n) (p := p)).ready
    (by norm_num) hM (by norm_num [outsideR]) hord (fun q _ => libR_jacobi 1 0 (q - 1)) hperf.sound [] argsR
    (Prod.ext rfl k1) k2
  refine ⟨M, z, q, r, T, W, hM, k1, k2, h1, h3, h2, h4, ?_, h5⟩
  refine (h5 L hLs).trans ?_
  rw [hL.tf 0 (by simp [ocpML])]
  rfl

end MPOpt
