import Verif.Props.KnownRate
import Verif.Props.ExactFree
import Verif.Props.Weights

/-! # C89 for the three classes of solvers, and concrete cases -/

set_option autoImplicit false
set_option linter.unusedSectionVars false

namespace MPOpt
open Polynomial

variable {K : Type} [Field K] [LinearOrder K] [IsStrictOrderedRing K] {ocp : OCP K} {M : Mesh K} {T : Traj K} {n : Nat}

theorem followsRates (hM : M.Good) (hC : ∀ ph < ocp.nPhases, CollocationOK ocp M T ph)
    (hw : ∀ ph < ocp.nPhases, ∑ r ∈ Finset.range M.orders.length, T.w r ph = 1) : FollowsRates ocp M T :=
  fun ph hp _ _ _ hF hr hdeg => ⟨fun _ hs tau => C89_exact hM (hC ph hp) hF hr.along hdeg hs tau,
    (C89_nodes hM (hC ph hp) hF hr hdeg).2 (hw ph hp)⟩

/-- Positive widths that fill the phases. -/
theorem packed_widths {sw : List K} {ph : Nat} (hp : ph < ocp.nPhases)
    (h : (∀ v ∈ phaseSlice n ph sw, 0 < v) ∧ (phaseSlice n ph sw).sum = 1) (e : ocp.packWidths n T = sw) :
    (∀ s < n, 0 < T.w s ph) ∧ ∑ r ∈ Finset.range n, T.w r ph = 1 := by
  subst e
  unfold OCP.packWidths at h
  rw [phaseSlice_flatMap _ _ _ (fun p s => T.w s p) hp] at h
  exact ⟨fun s hs => h.1 _ (List.mem_map.2 ⟨s, List.mem_range.2 hs, rfl⟩), h.2⟩

theorem WidthsAre.fills (hn : 0 < n) {req : Option (List K)} (hg : GoodWidths ocp n req) (h : WidthsAre ocp n req T) :
    ∀ ph < ocp.nPhases, (∀ s < n, 0 < T.w s ph) ∧ ∑ r ∈ Finset.range n, T.w r ph = 1 := by
  intro ph hp
  have hn' : (0 : K) < n := Nat.cast_pos.2 hn
  cases req with
  | none =>
    have h : ∀ s < n, T.w s ph = 1 / (n : K) := h ph hp
    refine ⟨fun s hs => by rw [h s hs]; positivity, ?_⟩
    rw [Finset.sum_congr rfl fun s hs => h s (Finset.mem_range.1 hs)]
    simp [hn'.ne']
  | some l => exact packed_widths hp ((hg l rfl).2 ph hp) h

/-- Nothing solves the collocated problem when a known rate has the order of the first segment as its degree. -/
theorem ClockDegree.nothing (hM : M.Good) (h : ocp.ClockDegree (M.order 0)) (hw : ∀ ph < ocp.nPhases, T.w 0 ph ≠ 0)
    (hB : ∀ ph < ocp.nPhases, BoundsOK ocp M T ph) (hC : ∀ ph < ocp.nPhases, CollocationOK ocp M T ph) : False := by
  obtain ⟨ph, F, c, R, hp, hF, hr, hd, ht⟩ := h
  exact C89_too_steep hM hF hr hd (ht _ _ (hB ph hp).t0 (hB ph hp).tf) (hw ph hp) (hC ph hp)

section
variable {V : Type} {w : Outside K V} {nlpsol : SolverCall K V → Py (List K)} {ptp : List (List Nat)} {arg : OrdersArg}
variable {scheme : String} {a : SolveArgs K V} {rx rdx : Bool} {p : Post K} {r : Option (PyDict (ResidVal K))}

/-- **C89** What the module-level `solve` shows follows all known rates of degree below the orders exactly. -/
theorem C89_solve {s : Session K V} (hrun : mpSolve w nlpsol ocp ptp n arg scheme a rx rdx = .ok (s, p, r)) (hv : ValidOCP ocp)
    (hs : ocp.SettingsOK) (hsc : ocp.PosScales) (hM : MeshFor w scheme n arg M) (hn : M.orders.length = n)
    (hwid : GoodWidths ocp n a.widths) (hsound : ∀ c z, nlpsol c = .ok z → c.IsSolution z) :
    ∃ T, SolvesOCP ocp M T ∧ p.Shows ocp M T ∧ FollowsRates ocp M T := by
  obtain ⟨T, hT, hw, hsh⟩ := C52_solve_feasible hrun hv hs hsc hM hsound
  subst hn
  exact ⟨T, hT, hsh, followsRates hM.good hT.1.dynamics fun ph hp =>
    (hw.fills (List.length_pos_iff.2 hM.good.nonempty) hwid ph hp).2⟩

/-- **C89** The same for `mpopt_adaptive`, however the widths come out. -/
theorem C89_adaptive {s s' : AdaptOpt K V} {lbh ubh tol : List K} {mid : Bool}
    (hf : s.Ready w ocp n arg scheme lbh ubh tol mid) (hv : ValidOCP ocp) (hs : ocp.SettingsOK) (hsc : ocp.PosScales)
    (hlb : lbh.length = ocp.nPhases) (hub : ubh.length = ocp.nPhases) (htol : tol.length = ocp.nPhases)
    (hM : MeshFor w scheme n arg M) (hsound : ∀ c z, nlpsol c = .ok z → c.IsSolution z) (earlier : List (SolveArgs K V))
    {z : List K} (hrun : (s.run w nlpsol earlier).solve w nlpsol a = (s', .ok z))
    (hp : s'.processResults w ptp false rx rdx = .ok (p, r)) :
    ∃ T, SolvesAdaptive ocp M T lbh ubh tol mid ∧ p.Shows ocp M T ∧ FollowsRates ocp M T := by
  obtain ⟨T, hT, hsh, -⟩ := C54_adaptive_feasible hf hv hs hsc hlb hub htol hM hsound earlier a hrun hp
  exact ⟨T, hT, hsh, followsRates hM.good hT.1.dynamics fun ph hp => (hT.1.widths ph hp).sum⟩

/-- **C89** With a known rate of the degree of the first order, the NLP of the module-level `solve` has no feasible point. -/
theorem C89_nothing_feasible (h : ocp.ClockDegree (M.order 0)) (hv : ValidOCP ocp) (hs : ocp.SettingsOK) (hsc : ocp.PosScales)
    (hM : MeshFor w scheme n arg M) (hn : M.orders.length = n) (hlt : w.tau0 < w.tau1)
    (hacc : w.accepts a.plugin (solverOptions w.vals a.plugin a.options) = true) (hwid : GoodWidths ocp n a.widths)
    (ht : ∀ ph < ocp.nPhases, entry ocp.t00 ph 0 0 ≠ entry ocp.tf0 ph 0 0) (hptp : ptp ≠ []) :
    ∃ c : SolverCall K V, (∀ z, ¬ c.IsSolution z) ∧
      ∀ (nlpsol : SolverCall K V → Py (List K)) (z : List K), nlpsol c = .ok z →
        z.length = c.solver.problem.x.length →
        ∃ out, mpSolve w nlpsol ocp ptp n arg scheme a rx rdx = .ok out := by
  obtain ⟨c, -, -, h1, -, h2⟩ := C52_solve_returns (rx := rx) (rdx := rdx) hv hs hsc hM hn hlt hacc hwid ht hptp
  have hn0 : 0 < n := by rw [← hn]; exact List.length_pos_iff.2 hM.good.nonempty
  refine ⟨c, fun z hz => ?_, h2⟩
  obtain ⟨T, hT, hw, -⟩ := (h1 z).1 hz
  exact ClockDegree.nothing hM.good h (fun ph hp => ((hw.fills hn0 hwid ph hp).1 0 hn0).ne') hT.1.bounds hT.1.dynamics

/-- **C89** And with a solver that only returns feasible points no call of `solve` of an `mpopt_adaptive` object with positive
lower bounds on widths returns. -/
theorem C89_adaptive_fails {s : AdaptOpt K V} {lbh ubh tol : List K} {mid : Bool} (h : ocp.ClockDegree (M.order 0))
    (hf : s.Ready w ocp n arg scheme lbh ubh tol mid) (hv : ValidOCP ocp) (hs : ocp.SettingsOK) (hsc : ocp.PosScales)
    (hlb : lbh.length = ocp.nPhases) (hub : ubh.length = ocp.nPhases) (htol : tol.length = ocp.nPhases)
    (hM : MeshFor w scheme n arg M) (hpos : ∀ ph < ocp.nPhases, 0 < lbh.getD ph 0)
    (hsound : ∀ c z, nlpsol c = .ok z → c.IsSolution z) (earlier : List (SolveArgs K V)) (a : SolveArgs K V) (z : List K) :
    ((s.run w nlpsol earlier).solve w nlpsol a).2 ≠ .ok z := by
  intro hok
  obtain ⟨d, honM, rfl, rfl, -, hc, -⟩ := hf.coherent hM
  have hr : (⟨d, lbh, ubh, tol, mid⟩ : Adapt K).Ready := ⟨hlb, hub, htol⟩
  obtain ⟨hc1, -⟩ := hc.run (nlpsol := nlpsol) earlier
  obtain ⟨-, -, k⟩ := hc1.solve (nlpsol := nlpsol) a
  obtain ⟨-, -, k'⟩ := hc1.solveCall a
  obtain ⟨c, sw, e1, e2, -⟩ := k z hok
  obtain ⟨q1, q2, q3⟩ := k' c e1
  have hT := ((adaptCall_spec honM hv hs hsc hr q1 q2 q3 z).1.1 (hsound c z e2)).2
  have h0 : 0 < M.orders.length := List.length_pos_iff.2 hM.good.nonempty
  exact ClockDegree.nothing hM.good h (fun ph hp => ((hpos ph hp).trans_le ((hT.1.widths ph hp).lower 0 h0)).ne')
    hT.1.bounds hT.1.dynamics

end

section
variable {V : Type} [FloorRing K] {w : HOutside K V} {nlpsol : Nat → Nat → SolverCall K V → Py (PyDict V)}
variable {ptp : List (List Nat)} {arg : OrdersArg} {scheme : String} {lbh ubh tol : List K} {s s' : HOpt K V}
variable {p : Post K} {r : Option (PyDict (ResidVal K))} {rx rdx : Bool}

/-- **C89** The same for `mpopt_h_adaptive`, after any calls that leave widths that fill the phases: known rates of degree below the
orders are exact, and no rate has the degree of the first order. -/
theorem C89_h (hf : s.Ready w ocp n arg scheme lbh ubh tol) (hv : ValidOCP ocp)
    (hs : ocp.SettingsOK) (hsc : ocp.PosScales) (hM : MeshFor w.toOutside scheme n arg M)
    (hsound : ∀ n k c sol, nlpsol n k c = .ok sol → ∃ z, Returned w sol z ∧ c.IsSolution z)
    {calls : List (HStart V × HArgs V)} (ho : OwnStarts calls) {sol : PyDict V}
    (hrun : s.run w nlpsol calls 0 none = (s', some sol)) {sw : List K} (hsw : s'.widths = some sw)
    (hval : ValidWidths n ocp.nPhases sw) (hpr : s'.processResults w sol ptp false rx rdx = .ok (p, r)) :
    (∃ T, SolvesOCP ocp M T ∧ p.Shows ocp M T ∧ FollowsRates ocp M T) ∧ ¬ ocp.ClockDegree (M.order 0) := by
  obtain ⟨T, hT, hsh, hwid⟩ := C59_h_feasible hf hv hs hsc hM hsound ho hrun hpr
  rw [hsw] at hwid
  have hn : M.orders.length = n := by rw [hM.orders.unique hf.orders, hf.length]
  subst hn
  have h0 : 0 < M.orders.length := List.length_pos_iff.2 hM.good.nonempty
  have hfill := fun ph hp => packed_widths (ph := ph) hp (hval.2 ph hp) (Option.some.inj hwid).symm
  exact ⟨⟨T, hT, hsh, followsRates hM.good hT.1.dynamics fun ph hp => (hfill ph hp).2⟩, fun h =>
    ClockDegree.nothing hM.good h (fun ph hp => ((hfill ph hp).1 0 h0).ne') hT.1.bounds hT.1.dynamics⟩

end

/-! ### A concrete case: `x₁' = t ^ d` beside a controlled `x₂' = u` -/

/-- `x₁(0) = x₂(0) = 0`, `x₂(1) = 1/4`, cost `∫ u²`. -/
noncomputable def ocpClock (d : Nat) : OCP ℝ :=
  { ocpFree with
    dynamics := [⟨2, fun p j => if j = 0 then p.t ^ d else p.u.getD 0 0⟩]
    x00 := [[0, 0]] }

/-- Its solution. -/
noncomputable def clockR (d : Nat) : CTraj :=
  ⟨fun _ j t => if j = 0 then t ^ (d + 1) / (d + 1) else t / 4, fun _ _ _ => 1 / 4, fun _ => 0, fun _ => 1, fun _ _ => 0⟩

theorem ocpClock_ready (d : Nat) : ValidOCP (ocpClock d) ∧ (ocpClock d).SettingsOK ∧ (ocpClock d).PosScales := by
  obtain ⟨hv, hs, hsc⟩ := ocpFree_ready
  refine ⟨?_, ?_, ?_⟩
  · cases hv
    constructor <;> first | assumption | simp [ocpClock, ocpFree, ocpR, HasShape]
  · cases hs
    constructor <;> assumption
  · cases hsc
    constructor <;> assumption

theorem clock_one {d : Nat} {P : Nat → Prop} (h : P 0) : ∀ ph < (ocpClock d).nPhases, P ph := by
  intro ph hp
  obtain rfl : ph = 0 := by simpa [ocpClock, ocpFree, ocpR] using hp
  exact h

theorem clockR_solves (d : Nat) : SolvesContinuously (ocpClock d) (clockR d) := by
  refine ⟨clock_one ?_, by simp [ocpClock, ocpFree, ocpR], by simp [ocpClock, ocpFree, ocpR],
    by simp [ocpClock, ocpFree, ocpR]⟩
  have hd : ∀ t : ℝ, HasDerivAt (fun t : ℝ => t / 4) (1 / 4) t := fun t => (hasDerivAt_id t).div_const 4
  have hd' : ∀ t : ℝ, HasDerivAt (fun t : ℝ => t ^ (d + 1) / (d + 1)) (t ^ d) t := by
    intro t
    have hne : (d + 1 : ℝ) ≠ 0 := by positivity
    have := (hasDerivAt_pow (d + 1) t).div_const (d + 1 : ℝ)
    simpa [hne] using this
  have hdyn : ∀ F, (ocpClock d).dynamics[0]? = some F → ∀ j < (ocpClock d).nx, ∀ (t : ℝ) (S : Set ℝ),
      HasDerivWithinAt ((clockR d).x 0 j) (F.f ((ocpClock d).cArg (clockR d) 0 t) j) S t := by
    intro F hF j hj t S
    have hF : (⟨2, fun p j => if j = 0 then p.t ^ d else p.u.getD 0 0⟩ : VFun (PArg ℝ) ℝ) = F := by
      simpa [ocpClock] using hF
    rw [← hF]
    have hj : j < 2 := hj
    interval_cases j
    · simpa [clockR, OCP.cArg, ocpClock] using (hd' t).hasDerivWithinAt
    · simpa [clockR, OCP.cArg, ocpClock, ocpFree, ocpR] using (hd t).hasDerivWithinAt
  refine ⟨by simp [clockR], ⟨fun F hF j hj t _ _ => hdyn F hF j hj t _, fun F hF j hj => hdyn F hF j hj _ _,
    fun j hj t _ => (hdyn _ rfl j hj t _).continuousWithinAt⟩, ?_, ?_, ?_, ?_, ?_, ?_, ?_, ?_⟩
  · intro F hF; simp [ocpClock, ocpFree] at hF
  · intro F hF c hc
    have hF : (⟨1, fun t _ => t.xf.getD 1 0 - 1 / 4⟩ : VFun (TArg ℝ) ℝ) = F := by simpa [ocpClock, ocpFree] using hF
    rw [← hF]
    simp [clockR, OCP.cEnd, ocpClock, ocpFree]
  · intro _ j hj
    have hj : j < 2 := hj
    interval_cases j <;> simp [clockR, ocpClock, entry]
  · intro t ht _ j hj
    obtain ⟨h0, h1⟩ := ht
    have h0 : 0 ≤ t := h0
    have h1 : t ≤ 1 := h1
    have hj : j < 2 := hj
    have hpos : (0 : ℝ) ≤ t ^ (d + 1) / (d + 1) := by positivity
    have hle : t ^ (d + 1) / (d + 1 : ℝ) ≤ 1 := by
      rw [div_le_one (by positivity)]
      have := pow_le_one₀ (n := d + 1) h0 h1
      have : (0 : ℝ) ≤ d := Nat.cast_nonneg d
      linarith
    interval_cases j <;> simp [clockR, ocpClock, ocpFree, entry, Within, Ext.Below, Ext.Above] <;> constructor <;> linarith
  · intro t ht j hj
    obtain rfl : j = 0 := by simpa [ocpClock, ocpFree, ocpR] using hj
    simp [clockR, ocpClock, ocpFree, ocpR, entry, Within, Ext.Below, Ext.Above]
    norm_num
  · simp [clockR, ocpClock, ocpFree, ocpR, entry, Within, Ext.Below, Ext.Above]
  · simp [clockR, ocpClock, ocpFree, ocpR, entry, Within, Ext.Below, Ext.Above]
  · intro k hk; simp [ocpClock, ocpFree, ocpR] at hk

theorem ocpClock_rate (d : Nat) {F : VFun (PArg ℝ) ℝ} (hF : (ocpClock d).dynamics[0]? = some F) :
    KnownRate F (ocpClock d).nx (fun j => if j = 0 then 1 else 0) (X ^ d) := by
  have hF : (⟨2, fun p j => if j = 0 then p.t ^ d else p.u.getD 0 0⟩ : VFun (PArg ℝ) ℝ) = F := by
    simpa [ocpClock] using hF
  rw [← hF]
  intro p _
  simp [ocpClock, ocpFree, Finset.sum_range_succ]

theorem ocpClock_degree (d : Nat) : (ocpClock d).ClockDegree d := by
  refine ⟨0, _, _, X ^ d, by simp [ocpClock, ocpFree, ocpR], rfl, ocpClock_rate d rfl, natDegree_X_pow d, ?_⟩
  rintro a b ⟨-, h1⟩ ⟨h2, -⟩ rfl
  have h1 : a ≤ 0 := h1
  have h2 : 1 ≤ a := h2
  linarith

/-- Both sides of C89. The problem has a solution. On LGR meshes of any orders above `d` its node values solve the collocated
problem, and follow known rates. On meshes whose first order is `d` the NLP has no feasible point. -/
theorem C89_example (d : Nat) (orders : List Nat) (hne : orders ≠ []) (hpos : ∀ p ∈ orders, 1 ≤ p) :
    ∃ M, MeshFor outsideR "LGR" orders.length (.list orders) M ∧ SolvesContinuously (ocpClock d) (clockR d) ∧
    ((∀ p ∈ orders, d < p) → ∃ T, Samples (ocpClock d) M (clockR d) T ∧ SolvesOCP (ocpClock d) M T ∧
      FollowsRates (ocpClock d) M T ∧ T.x 0 (M.N - 1) 0 = 1 / (d + 1)) ∧
    (orders.head? = some d →
      ∃ c : SolverCall ℝ Nat, (∀ z, ¬ c.IsSolution z) ∧
        ∀ (nlpsol : SolverCall ℝ Nat → Py (List ℝ)) (z : List ℝ), nlpsol c = .ok z →
          z.length = c.solver.problem.x.length →
          ∃ out, mpSolve outsideR nlpsol (ocpClock d) [[0]] orders.length (.list orders) "LGR" argsR true true = .ok out) := by
  obtain ⟨M, hM, ho⟩ := exists_lgr_mesh orders hne hpos
  obtain ⟨hv, hs, hsc⟩ := ocpClock_ready d
  have hC := clockR_solves d
  have hn0 : 0 < orders.length := List.length_pos_iff.2 hne
  refine ⟨M, hM, hC, fun hord => ?_, fun hd => ?_⟩
  · have hI : M.Inside := by
      intro p hp v hv
      obtain ⟨r, hr, hs⟩ := C01_lgr_nodes outsideR.lib outsideR.tau0 outsideR.tau1 (by norm_num [outsideR]) p
        (hM.good.pos p hp) fun _ => libR_jacobi 1 0 (p - 1)
      rw [hM.nodes p hp] at hr
      obtain rfl : M.nodes p = r := by injection hr
      rw [hM.tau0, hM.tau1]
      exact hs.inside v hv
    obtain ⟨T, hT, hTw⟩ := exists_samples_of (ocpClock d) M (clockR d) fun _ _ => 1 / (orders.length : ℝ)
    have hw : WidthsAre (ocpClock d) orders.length none T := by intro ph _ s _; rw [hTw]
    have hg : GoodWidths (ocpClock d) orders.length none := fun l hl => nomatch hl
    have hfill := hw.fills hn0 hg
    have hf : ∀ ph < (ocpClock d).nPhases, FullWidths M T ph := fun ph hp =>
      ⟨by rw [ho]; exact (hfill ph hp).1, by rw [ho]; exact (hfill ph hp).2⟩
    have hsol : SolvesOCP (ocpClock d) M T := by
      refine C56_exact_feasible hM.good hI hC hs.linkRange hT hf (clock_one fun j hj s hs => ?_)
        (clock_one fun h => by simp [ocpClock, ocpFree, ocpR] at h) (clock_one rfl) (clock_one rfl)
      have hds : d < M.order s := hord _ (ho ▸ hM.good.order_mem hs)
      refine ⟨if j = 0 then C (1 / (d + 1 : ℝ)) * X ^ (d + 1) else C (1 / 4) * X, ?_, fun t _ => ?_⟩
      · split
        · exact (natDegree_C_mul_X_pow_le _ _).trans hds
        · exact (natDegree_C_mul_le _ _).trans (natDegree_X_le.trans (by omega))
      · simp only [clockR]
        split <;> simp <;> ring
    have hfol : FollowsRates (ocpClock d) M T :=
      followsRates hM.good hsol.1.dynamics fun ph hp => (hf ph hp).sum
    refine ⟨T, hT, hsol, hfol, ?_⟩
    have h0 : (0 : Nat) < (ocpClock d).nPhases := by simp [ocpClock, ocpFree, ocpR]
    have hder : derivative (C (1 / (d + 1 : ℝ)) * X ^ (d + 1)) = X ^ d := by
      have hne : (d + 1 : ℝ) ≠ 0 := by positivity
      rw [derivative_C_mul, derivative_X_pow, ← mul_assoc, ← C_mul]
      simp [hne]
    have h := (hfol 0 h0 _ (fun j => if j = 0 then 1 else 0) (C (1 / (d + 1 : ℝ)) * X ^ (d + 1)) rfl
      (by rw [hder]; exact ocpClock_rate d rfl) (by rw [hder, natDegree_X_pow, ho]; exact hord)).2
    have hx0 := (hsol.1.bounds 0 h0).x0 rfl 0 (by simp [ocpClock, ocpFree])
    rw [hT.t0 0 h0, hT.tf 0 h0] at h
    simp [Traj.mode, ocpClock, ocpFree, clockR, entry] at h hx0
    rw [h, hx0]
    simp
  · have ho0 : M.order 0 = d := by
      unfold Mesh.order
      rw [ho]
      cases orders with
      | nil => exact absurd rfl hne
      | cons a l => simpa using hd
    refine C89_nothing_feasible (M := M) (by rw [ho0]; exact ocpClock_degree d) hv hs hsc hM (by rw [ho])
      (by norm_num [outsideR]) rfl (fun l hl => nomatch hl) (clock_one ?_) (by simp)
    simp [ocpClock, ocpFree, ocpR, entry]

/-- The hypotheses of `C89_driven` are met: `x' = -x + t` on two segments of order 1, with node values `-1, -1/2, 0`. The polynomial
solution is `t - 1`. -/
theorem C89_driven_case :
    let ocp : OCP ℝ := { ocpGrow with dynamics := [⟨1, fun p _ => -p.x.getD 0 0 + p.t⟩] }
    let T : Traj ℝ := { trajGrow with x := fun _ i _ => (i : ℝ) / 2 - 1 }
    meshGrow.Good ∧ CollocationOK ocp meshGrow T 0 ∧
      (∀ F : VFun (PArg ℝ) ℝ, ocp.dynamics[0]? = some F → DrivenMode F ocp.nx (fun _ => 1) (-1) X) ∧
      derivative (X - C 1 : ℝ[X]) = C (-1) * (X - C 1) + X ∧ (X - C 1 : ℝ[X]).natDegree ≤ meshGrow.order 0 ∧
      T.t0 0 ≠ T.tf 0 ∧ T.w 0 0 ≠ 0 := by
  intro ocp T
  refine ⟨meshGrow_good, ?_, ?_, ?_, ?_, by simp [T, trajGrow], by norm_num [T, trajGrow]⟩
  · intro F hF j hj s i hi
    obtain rfl : j = 0 := by simpa [ocp, ocpGrow, ocpR] using hj
    have hF : (⟨1, fun p _ => -p.x.getD 0 0 + p.t⟩ : VFun (PArg ℝ) ℝ) = F := by simpa [ocp] using hF
    rw [← hF]
    have p0 : meshGrow.piece (fun k => T.x 0 k 0) 0 = Polynomial.C (1 / 4) * X + Polynomial.C (-3 / 4) := by
      apply meshGrow_good.piece_eq (by simp [meshGrow])
      · exact degree_linear_le.trans_lt (by simp [meshGrow, Mesh.order])
      · intro i hi
        have : i ≤ 1 := hi
        interval_cases i <;> norm_num [meshGrow, Mesh.node, Mesh.order, Mesh.idx, segStart, T]
    have p1 : meshGrow.piece (fun k => T.x 0 k 0) 1 = Polynomial.C (1 / 4) * X + Polynomial.C (-1 / 4) := by
      apply meshGrow_good.piece_eq (by simp [meshGrow])
      · exact degree_linear_le.trans_lt (by simp [meshGrow, Mesh.order])
      · intro i hi
        have : i ≤ 1 := hi
        interval_cases i <;> norm_num [meshGrow, Mesh.node, Mesh.order, Mesh.idx, segStart, T]
    obtain ⟨h1, h2, h3⟩ := hi
    have h1 : s < 2 := h1
    interval_cases s
    · have h2 : i ≤ 1 := h2
      rw [p0]
      interval_cases i <;>
        norm_num [OCP.pArg, ocp, ocpGrow, ocpR, Mesh.idx, segStart, T, Mesh.time, Mesh.halfWidth, trajGrow, meshGrow, Mesh.node,
          Mesh.order]
    · have h2 : i ≤ 1 := h2
      obtain rfl : i = 1 := by omega
      rw [p1]
      norm_num [OCP.pArg, ocp, ocpGrow, ocpR, Mesh.idx, segStart, T, meshGrow, Mesh.halfWidth, Mesh.time, trajGrow, Mesh.node,
        Mesh.order]
  · intro F hF p _
    have hF : (⟨1, fun p _ => -p.x.getD 0 0 + p.t⟩ : VFun (PArg ℝ) ℝ) = F := by simpa [ocp] using hF
    rw [← hF]
    simp [ocp, ocpGrow, ocpR]
  · simp
  · rw [natDegree_X_sub_C]; simp [meshGrow, Mesh.order]

end MPOpt
