import Verif.Model.ExamplesLaunch
import Verif.Props.Staged
import Verif.Props.MoonExample

/-! # C109: the shipped launch vehicle -/

set_option autoImplicit false
set_option linter.unusedSectionVars false

namespace MPOpt
open Polynomial

namespace Launch

/-- The object the script builds, with any dynamics and any terminal constraints in place of the script's. -/
noncomputable def ocp (dyn : Nat → VFun (PArg ℝ) ℝ) (tgt : Option (VFun (TArg ℝ) ℝ)) : OCP ℝ :=
  { nx := 7, nu := 3, na := 0, nPhases := 4
    dynamics := [dyn 0, dyn 1, dyn 2, dyn 3]
    pathConstraints := [some path, some path, some path, some path]
    terminalCosts := [fun _ => 0, fun _ => 0, fun _ => 0, cost]
    runningCosts := [fun _ => 0, fun _ => 0, fun _ => 0, fun _ => 0]
    terminalConstraints := [none, none, none, tgt]
    phaseLinks := [(0, 1), (1, 2), (2, 3)]
    scaleX := [1 / Re, 1 / Re, 1 / Re, 1 / Real.sqrt (muE / Re), 1 / Real.sqrt (muE / Re), 1 / Real.sqrt (muE / Re), 1 / m0]
    scaleU := [1, 1, 1], scaleA := [], scaleT := Real.sqrt (muE / Re) / Re
    x00 := [x0, (toward t1).set 6 mass1, (toward t2).set 6 mass2, (toward t3).set 6 mass3]
    xf0 := [(toward t1).set 6 mass0f, (toward t2).set 6 mass1f, (toward t3).set 6 mass2f, xf]
    u00 := [[1, 0, 0], [1, 0, 0], [0, 1, 0], [0, 1, 0]]
    uf0 := [[0, 1, 0], [0, 1, 0], [0, 1, 0], [0, 1, 0]]
    t00 := [[0], [t1], [t2], [t3]], tf0 := [[t1], [t2], [t3], [t4]], a0 := [[], [], [], []]
    lbx := [lower mass0f, lower mass1f, lower mass2f, lower (mf + mdrySecond)]
    ubx := [upper m0, upper mass1, upper mass2, upper mass3]
    lbu := [[.fin (-1), .fin (-1), .fin (-1)], [.fin (-1), .fin (-1), .fin (-1)], [.fin (-1), .fin (-1), .fin (-1)],
      [.fin (-1), .fin (-1), .fin (-1)]]
    ubu := [[.fin 1, .fin 1, .fin 1], [.fin 1, .fin 1, .fin 1], [.fin 1, .fin 1, .fin 1], [.fin 1, .fin 1, .fin 1]]
    lba := [[], [], [], []], uba := [[], [], [], []]
    lbt0 := [[.fin 0], [.fin t1], [.fin t2], [.fin t3]], ubt0 := [[.fin 0], [.fin t1], [.fin t2], [.fin t3]]
    lbtf := [[.fin t1], [.fin t2], [.fin t3], [.fin (t4 - 100)]]
    ubtf := [[.fin t1], [.fin t2], [.fin t3], [.fin (t4 + 100)]]
    lbe := [jump (-6 * mdrySrb), jump (-3 * mdrySrb), jump (-mdryFirst)]
    ube := [jump (-6 * mdrySrb), jump (-3 * mdrySrb), jump (-mdryFirst)]
    diffU := [false, false, false, false]
    lbdu := [.fin (-15), .fin (-15), .fin (-15), .fin (-15)], ubdu := [.fin 15, .fin 15, .fin 15, .fin 15]
    midu := [true, true, true, true], duContinuity := [false, false, false, false] }

theorem script_eq (param : ℝ) : script param = .ok (ocp (dynamics param) (some target)) := rfl

/-- Dynamics that return seven rates, the last of which burns propellant as the script does. -/
structure Burns (dyn : Nat → VFun (PArg ℝ) ℝ) : Prop where
  seven : ∀ ph, (dyn ph).len = 7
  mass : ∀ ph p, (dyn ph).f p 6 = -mdot ph

theorem dynamics_burns (param : ℝ) : Burns (dynamics param) := ⟨fun _ => rfl, fun _ _ => rfl⟩

/-- The masses of the script add up: 23464 kg are left when the last stage ignites. -/
theorem masses : mass3 = 23464 ∧ mass0f ≤ m0 ∧ mass1f ≤ mass1 ∧ mass2f ≤ mass2 ∧ mf + mdrySecond ≤ mass3 := by
  simp only [mass3, mass2f, mass2, mass1f, mass1, mass0f, m0, mf, mdrySrb, mdryFirst, mdrySecond, t1, t2, t3]
  norm_num

variable {dyn : Nat → VFun (PArg ℝ) ℝ} {tgt : Option (VFun (TArg ℝ) ℝ)}

theorem ready (hb : Burns dyn) (hg : ∀ F, tgt = some F → 0 < F.len) : Ready (ocp dyn tgt) := by
  obtain ⟨-, m0', m1', m2', m3'⟩ := masses
  have hRe : (0 : ℝ) < Re := by norm_num [Re]
  have hmu : (0 : ℝ) < muE := by norm_num [muE]
  have hsq : 0 < Real.sqrt (muE / Re) := Real.sqrt_pos.2 (div_pos hmu hRe)
  have hm0 : (0 : ℝ) < m0 := by norm_num [m0]
  have box : ∀ {a b : ℝ}, a ≤ b → List.Forall₂ (fun a b => Ext.le a b = true) (lower a) (upper b) := by
    intro a b hab
    simp [lower, upper, Ext.le, hab]
    linarith
  have same : ∀ m : ℝ, List.Forall₂ (fun a b => Ext.le a b = true) (jump m) (jump m) := by
    intro m; simp [jump, Ext.le]
  refine ⟨?_, ?_, ?_⟩
  · constructor
    case ordX => exact rowOrdered_cons (box m0') (rowOrdered_cons (box m1') (rowOrdered_cons (box m2')
      (rowOrdered_cons (box m3') rowOrdered_nil)))
    case ordU =>
      have h : List.Forall₂ (fun a b : Ext ℝ => Ext.le a b = true) [.fin (-1), .fin (-1), .fin (-1)] [.fin 1, .fin 1, .fin 1] := by
        simp [Ext.le]
      exact rowOrdered_cons h (rowOrdered_cons h (rowOrdered_cons h (rowOrdered_cons h rowOrdered_nil)))
    case ordA =>
      exact rowOrdered_cons (by simp) (rowOrdered_cons (by simp) (rowOrdered_cons (by simp)
        (rowOrdered_cons (by simp) rowOrdered_nil)))
    case ordT0 =>
      exact rowOrdered_cons (by simp [Ext.le]) (rowOrdered_cons (by simp [Ext.le]) (rowOrdered_cons (by simp [Ext.le])
        (rowOrdered_cons (by simp [Ext.le]) rowOrdered_nil)))
    case ordTf =>
      exact rowOrdered_cons (by simp [Ext.le]) (rowOrdered_cons (by simp [Ext.le]) (rowOrdered_cons (by simp [Ext.le])
        (rowOrdered_cons (by simp [Ext.le, t4]; norm_num) rowOrdered_nil)))
    case ordE => exact rowOrdered_cons (same _) (rowOrdered_cons (same _) (rowOrdered_cons (same _) rowOrdered_nil))
    all_goals first
      | (simp [ocp, HasShape, x0, toward, xf, aeToRv, lower, upper, jump, hb.seven]; done)
      | skip
    case pathLen =>
      intro F hF
      have hF : F = path := by simpa [ocp] using hF
      rw [hF]
      norm_num [path]
    case termLen =>
      intro F hF
      have hF : some F = tgt := by simpa [ocp] using hF
      exact hg F hF.symm
  · constructor <;> simp [ocp]
  · constructor <;> simp [ocp, hRe, hsq, hm0]

theorem target_len : ∀ F, some target = some F → 0 < F.len := by
  rintro F ⟨⟩
  norm_num [target]

/-- What is dropped: six boosters, three boosters, the first stage. -/
noncomputable def drop : Nat → ℝ
  | 0 => -6 * mdrySrb
  | 1 => -3 * mdrySrb
  | _ => -mdryFirst

theorem staged (hb : Burns dyn) : (ocp dyn tgt).Staged 6 (fun ph => -mdot ph) drop := by
  refine ⟨by norm_num [ocp], fun ph hp => hp, fun ph F hF p => ?_, fun ph hp => ?_⟩
  · have hp : ph < 4 := (List.getElem?_eq_some_iff.1 hF).1
    interval_cases ph <;> (obtain rfl := Option.some.inj hF; exact hb.mass _ p)
  · have hp : ph + 1 < 4 := hp
    have hp : ph < 3 := by omega
    refine ⟨ph, ?_⟩
    interval_cases ph <;> exact ⟨rfl, rfl, rfl⟩

/-- The mass when the last stage burns out at `t`. -/
noncomputable def finalMass (t : ℝ) : ℝ := 23464 - 16820 / 700 * (t - 261)

theorem four {P : Nat → Prop} (h0 : P 0) (h1 : P 1) (h2 : P 2) (h3 : P 3) : ∀ ph < (ocp dyn tgt).nPhases, P ph := by
  intro ph hp
  have hp : ph < 4 := hp
  interval_cases ph <;> assumption

/-- The times of the first three phases are given. -/
def Timed (t0 tf : Nat → ℝ) : Prop :=
  t0 0 = 0 ∧ tf 0 = t1 ∧ t0 1 = t1 ∧ tf 1 = t2 ∧ t0 2 = t2 ∧ tf 2 = t3 ∧ t0 3 = t3 ∧ 824 ≤ tf 3 ∧ tf 3 ≤ 1024

theorem timed {t0 tf : Nat → ℝ}
    (h0 : ∀ ph < (ocp dyn tgt).nPhases, Within (entry (ocp dyn tgt).lbt0 ph 0 .nan) (entry (ocp dyn tgt).ubt0 ph 0 .nan) (t0 ph))
    (hf : ∀ ph < (ocp dyn tgt).nPhases, Within (entry (ocp dyn tgt).lbtf ph 0 .nan) (entry (ocp dyn tgt).ubtf ph 0 .nan) (tf ph)) :
    Timed t0 tf := by
  refine ⟨within_fin rfl rfl (h0 0 (by norm_num [ocp])), within_fin rfl rfl (hf 0 (by norm_num [ocp])),
    within_fin rfl rfl (h0 1 (by norm_num [ocp])), within_fin rfl rfl (hf 1 (by norm_num [ocp])),
    within_fin rfl rfl (h0 2 (by norm_num [ocp])), within_fin rfl rfl (hf 2 (by norm_num [ocp])),
    within_fin rfl rfl (h0 3 (by norm_num [ocp])), ?_⟩
  have h : t4 - 100 ≤ tf 3 ∧ tf 3 ≤ t4 + 100 := hf 3 (by norm_num [ocp])
  norm_num [t4] at h
  exact h

/-- What is left at the start of each phase. -/
theorem left_eq {t0 tf : Nat → ℝ} (h : Timed t0 tf) (t : ℝ) :
    leftAt m0 (fun ph => -mdot ph) drop t0 tf 0 = m0 ∧ leftAt m0 (fun ph => -mdot ph) drop t0 tf 1 = mass1 ∧
    leftAt m0 (fun ph => -mdot ph) drop t0 tf 2 = mass2 ∧ leftAt m0 (fun ph => -mdot ph) drop t0 tf 3 = mass3 ∧
    m0 + -mdot 0 * (tf 0 - t0 0) = mass0f ∧ mass1 + -mdot 1 * (tf 1 - t0 1) = mass1f ∧
    mass2 + -mdot 2 * (tf 2 - t0 2) = mass2f ∧ mass3 + -mdot 3 * (t - t0 3) = finalMass t := by
  obtain ⟨a1, a2, a3, a4, a5, a6, a7, -, -⟩ := h
  simp only [leftAt, Finset.sum_range_succ, Finset.sum_range_zero, a1, a2, a3, a4, a5, a6, a7, mdot, drop, finalMass, mass3,
    mass2f, mass2, mass1f, mass1, mass0f, m0, mdrySrb, mdryFirst, t1, t2, t3]
  norm_num
  ring

end Launch

open Launch

variable {dyn : Nat → VFun (PArg ℝ) ℝ} {tgt : Option (VFun (TArg ℝ) ℝ)} {M : Mesh ℝ} {T : Traj ℝ}

/-- **C109** What the collocated launch problem says about times, masses and cost, for any forces and any target: the mass is
known at the start and at the end of every phase, on every mesh, and at the burnout of the last stage depends on the time only. -/
theorem C109_launch (hb : Burns dyn) (hM : M.Good) (hT : CoreFeasible (ocp dyn tgt) M T)
    (hw : ∀ ph < 4, ∑ r ∈ Finset.range M.orders.length, T.w r ph = 1) :
    Timed T.t0 T.tf ∧ T.x 0 (M.N - 1) 6 = mass0f ∧ T.x 1 0 6 = mass1 ∧ T.x 1 (M.N - 1) 6 = mass1f ∧ T.x 2 0 6 = mass2 ∧
      T.x 2 (M.N - 1) 6 = mass2f ∧ T.x 3 0 6 = 23464 ∧ T.x 3 (M.N - 1) 6 = finalMass (T.tf 3) ∧
      (∀ s < M.orders.length, ∀ tau, (M.piece (fun k => T.x 3 k 6) s).eval tau = finalMass (M.time T 3 s tau)) ∧
      824 ≤ T.tf 3 ∧ T.tf 3 ≤ 961 := by
  have ht := timed (fun ph hp => (hT.bounds ph hp).t0) (fun ph hp => (hT.bounds ph hp).tf)
  have key := C109_exact (staged hb) hM hT hw (by norm_num [ocp])
  rw [show entry (ocp dyn tgt).x00 0 6 0 = m0 from rfl] at key
  obtain ⟨l0, l1, l2, l3, e0, e1, e2, e3⟩ := left_eq ht (T.tf 3)
  obtain ⟨-, -, k0⟩ := key 0 (by norm_num [ocp])
  obtain ⟨k1, -, k1'⟩ := key 1 (by norm_num [ocp])
  obtain ⟨k2, -, k2'⟩ := key 2 (by norm_num [ocp])
  obtain ⟨k3, kt, k3'⟩ := key 3 (by norm_num [ocp])
  rw [l0, e0] at k0
  rw [l1] at k1 k1'
  rw [e1] at k1'
  rw [l2] at k2 k2'
  rw [e2] at k2'
  rw [l3] at k3 kt k3'
  rw [e3] at k3'
  have hN : M.N - 1 < M.N := by unfold Mesh.N; omega
  have hlo : mf + mdrySecond ≤ T.x 3 (M.N - 1) 6 := ((hT.bounds 3 (by norm_num [ocp])).x (M.N - 1) hN (by simp) 6
    (by norm_num [ocp])).1
  rw [k3'] at hlo
  refine ⟨ht, k0, k1, k1', k2, k2', k3.trans masses.1, k3', fun s hs tau => ?_, ht.2.2.2.2.2.2.2.1, ?_⟩
  · rw [kt s hs tau]
    exact (left_eq ht _).2.2.2.2.2.2.2
  · norm_num [mf, mdrySecond, finalMass] at hlo
    linarith

/-- **C109** The same for the continuous-time problem. -/
theorem C109_launch_continuous (hb : Burns dyn) {C : CTraj} (hC : SolvesContinuously (ocp dyn tgt) C) :
    Timed C.t0 C.tf ∧ (∀ t ∈ Set.Icc (C.t0 3) (C.tf 3), C.x 3 6 t = finalMass t) ∧ 824 ≤ C.tf 3 ∧ C.tf 3 ≤ 961 ∧
      (ocp dyn tgt).trueCost C = -finalMass (C.tf 3) / m0 := by
  have ht := timed (fun ph hp => (hC.phase ph hp).t0) (fun ph hp => (hC.phase ph hp).tf)
  have key := C109_continuous (staged hb) hC (by norm_num [ocp]) 3 (by norm_num [ocp])
  rw [show entry (ocp dyn tgt).x00 0 6 0 = m0 from rfl] at key
  have hm : ∀ t ∈ Set.Icc (C.t0 3) (C.tf 3), C.x 3 6 t = finalMass t := by
    intro t h
    rw [key t h, (left_eq ht t).2.2.2.1]
    exact (left_eq ht t).2.2.2.2.2.2.2
  have hlast : C.tf 3 ∈ Set.Icc (C.t0 3) (C.tf 3) := ⟨(hC.phase 3 (by norm_num [ocp])).order.le, le_rfl⟩
  have hlo : mf + mdrySecond ≤ C.x 3 6 (C.tf 3) := ((hC.phase 3 (by norm_num [ocp])).x _ hlast (by simp) 6
    (by norm_num [ocp])).1
  rw [hm _ hlast] at hlo
  refine ⟨ht, hm, ht.2.2.2.2.2.2.2.1, ?_, ?_⟩
  · norm_num [mf, mdrySecond, finalMass] at hlo
    linarith
  · have e : OCP.trueCost (ocp dyn tgt) C = cost ((ocp dyn tgt).cEnd C 3) := by
      simp [OCP.trueCost, ocp, Finset.sum_range_succ]
    rw [e]
    have : ((ocp dyn tgt).cEnd C 3).xf.getD 6 0 = C.x 3 6 (C.tf 3) := rfl
    rw [cost, this, hm _ hlast]

/-- **C109** The cost is fixed by the time of burnout. -/
theorem C109_launch_cost (hb : Burns dyn) (hM : M.Good) (hT : CoreFeasible (ocp dyn tgt) M T)
    (hw : ∀ ph < 4, ∑ r ∈ Finset.range M.orders.length, T.w r ph = 1) {W : List ℝ} (hW : W.length = M.N) {J : ℝ}
    (hJ : PhysCost (ocp dyn tgt) M W T J) : J = -finalMass (T.tf 3) / m0 := by
  have h := cost_of_ends hM hW (four ⟨_, rfl, fun _ => rfl⟩ ⟨_, rfl, fun _ => rfl⟩ ⟨_, rfl, fun _ => rfl⟩
    ⟨_, rfl, fun _ => rfl⟩) hJ
  have e : ∑ ph ∈ Finset.range (ocp dyn tgt).nPhases, TerminalCost (ocp dyn tgt) M T ph =
      cost ((ocp dyn tgt).tArg T 3 M.N) := by
    simp [TerminalCost, ocp, Finset.sum_range_succ]
  have : ((ocp dyn tgt).tArg T 3 M.N).xf.getD 6 0 = T.x 3 (M.N - 1) 6 := rfl
  rw [h, e, cost, this, (C109_launch hb hM hT hw).2.2.2.2.2.2.2.1]

theorem finalMass_mono {a b : ℝ} (h : -finalMass a / m0 ≤ -finalMass b / m0) : a ≤ b := by
  have hm : (0 : ℝ) < m0 := by norm_num [m0]
  rw [div_le_div_iff_of_pos_right hm] at h
  simp only [finalMass] at h
  linarith

section
variable {V : Type} {w : Outside ℝ V} {nlpsol : SolverCall ℝ V → Py (List ℝ)} {ptp : List (List Nat)} {n : Nat}
  {arg : OrdersArg} {scheme : String} {rx rdx : Bool}

/-- **C109** `mpopt.solve` on the launch problem with a globally optimal NLP solver, for every scheme, number of segments and orders:
the cost is fixed by the time of burnout, which is the earliest of all trajectories of the collocated problem; the mass shown is
exact. -/
theorem C109_solve (hb : Burns dyn) (hg : ∀ F, tgt = some F → 0 < F.len) {a : SolveArgs ℝ V} {s : Session ℝ V}
    {p : Post ℝ} {r : Option (PyDict (ResidVal ℝ))}
    (hrun : mpSolve w nlpsol (ocp dyn tgt) ptp n arg scheme a rx rdx = .ok (s, p, r)) (hM : MeshFor w scheme n arg M)
    (hopt : ∀ c z, nlpsol c = .ok z → c.IsOptimal z) (hwid : GoodWidths (ocp dyn tgt) n a.widths) :
    ∃ T W, compQuadWeights ⟨w.method, w.tau0, w.tau1, tausFn w.lib w.tau0 w.tau1 scheme⟩ M.orders = .ok W ∧
      SolvesOCP (ocp dyn tgt) M T ∧ p.Shows (ocp dyn tgt) M T ∧ T.x 3 (M.N - 1) 6 = finalMass (T.tf 3) ∧
      PhysCost (ocp dyn tgt) M W T (-finalMass (T.tf 3) / m0) ∧
      ∀ T', SolvesOCP (ocp dyn tgt) M T' → WidthsAre (ocp dyn tgt) n a.widths T' → T.tf 3 ≤ T'.tf 3 := by
  obtain ⟨hv, hs, hsc⟩ := ready (tgt := tgt) hb hg
  obtain ⟨T, W, J, h1, h2, h3, h4, h5, h6⟩ := C53_solve_optimal hrun hv hs hsc hM hopt
  have hlen : M.orders.length = n := mpSolve_length hrun hM
  have hn : 0 < n := by rw [← hlen]; exact List.length_pos_iff.2 hM.good.nonempty
  have hWl := weights_length hM h1
  have fills : ∀ {T}, WidthsAre (ocp dyn tgt) n a.widths T → ∀ ph < 4, ∑ r ∈ Finset.range M.orders.length, T.w r ph = 1 :=
    fun h ph hp => by rw [hlen]; exact (h.fills hn hwid ph hp).2
  have e := C109_launch_cost hb hM.good h2.1.core (fills h3) hWl h5
  refine ⟨T, W, h1, h2, h4, (C109_launch hb hM.good h2.1.core (fills h3)).2.2.2.2.2.2.2.1, e ▸ h5, fun T' hT' hw' => ?_⟩
  obtain ⟨v, hv'⟩ := exists_samples (ocp dyn tgt) M T'
  have hJ' : PhysCost (ocp dyn tgt) M W T' _ := ⟨v, hv', rfl⟩
  have h7 := h6 T' _ hT' hw' hJ'
  rw [C109_launch_cost hb hM.good hT'.1.core (fills hw') hWl hJ', e] at h7
  exact finalMass_mono h7

/-- **C109** The same for `mpopt_adaptive`, over all admissible widths, after any earlier calls. -/
theorem C109_adaptive (hb : Burns dyn) (hg : ∀ F, tgt = some F → 0 < F.len) {lbh ubh tol : List ℝ} {mid : Bool}
    {s : AdaptOpt ℝ V} (hf : s.Ready w (ocp dyn tgt) n arg scheme lbh ubh tol mid) (hlb : lbh.length = 4)
    (hub : ubh.length = 4) (htol : tol.length = 4) (hM : MeshFor w scheme n arg M)
    (hopt : ∀ c z, nlpsol c = .ok z → c.IsOptimal z) (earlier : List (SolveArgs ℝ V)) (a : SolveArgs ℝ V)
    {s' : AdaptOpt ℝ V} {z : List ℝ} (hrun : (s.run w nlpsol earlier).solve w nlpsol a = (s', .ok z))
    {p : Post ℝ} {r : Option (PyDict (ResidVal ℝ))} (hp : s'.processResults w ptp false rx rdx = .ok (p, r)) :
    ∃ T W, compQuadWeights ⟨w.method, w.tau0, w.tau1, tausFn w.lib w.tau0 w.tau1 scheme⟩ M.orders = .ok W ∧
      SolvesAdaptive (ocp dyn tgt) M T lbh ubh tol mid ∧ p.Shows (ocp dyn tgt) M T ∧
      T.x 3 (M.N - 1) 6 = finalMass (T.tf 3) ∧ PhysCost (ocp dyn tgt) M W T (-finalMass (T.tf 3) / m0) ∧
      ∀ T', SolvesAdaptive (ocp dyn tgt) M T' lbh ubh tol mid → T.tf 3 ≤ T'.tf 3 := by
  obtain ⟨hv, hs, hsc⟩ := ready (tgt := tgt) hb hg
  obtain ⟨T, W, J, h1, h2, h3, h4, h5⟩ := C55_adaptive_optimal hf hv hs hsc hlb hub htol hM hopt earlier a hrun hp
  have hWl := weights_length hM h1
  have e := C109_launch_cost hb hM.good h2.1.core (fun ph hp => (h2.1.widths ph hp).sum) hWl h4
  refine ⟨T, W, h1, h2, h3, (C109_launch hb hM.good h2.1.core fun ph hp => (h2.1.widths ph hp).sum).2.2.2.2.2.2.2.1, e ▸ h4,
    fun T' hT' => ?_⟩
  obtain ⟨v, hv'⟩ := exists_samples (ocp dyn tgt) M T'
  have hJ' : PhysCost (ocp dyn tgt) M W T' _ := ⟨v, hv', rfl⟩
  have h7 := h5 T' _ hT' hJ'
  rw [C109_launch_cost hb hM.good hT'.1.core (fun ph hp => (hT'.1.widths ph hp).sum) hWl hJ', e] at h7
  exact finalMass_mono h7

end

section
variable {V : Type} {w : HOutside ℝ V} {nlpsol : Nat → Nat → SolverCall ℝ V → Py (PyDict V)} {ptp : List (List Nat)}
  {n : Nat} {arg : OrdersArg} {scheme : String} {lbh ubh tol : List ℝ} {s s' : HOpt ℝ V} {rx rdx : Bool}

/-- **C109** The same for `mpopt_h_adaptive`, after any calls that leave widths that fill the phases. -/
theorem C109_h (hb : Burns dyn) (hg : ∀ F, tgt = some F → 0 < F.len)
    (hf : s.Ready w (ocp dyn tgt) n arg scheme lbh ubh tol) (hM : MeshFor w.toOutside scheme n arg M)
    (hopt : ∀ n k c sol, nlpsol n k c = .ok sol → ∃ z, Returned w sol z ∧ c.IsOptimal z)
    {calls : List (HStart V × HArgs V)} (ho : OwnStarts calls) {sol : PyDict V}
    (hrun : s.run w nlpsol calls 0 none = (s', some sol)) {sw : List ℝ} (hsw : s'.widths = some sw)
    (hval : ValidWidths n 4 sw) {p : Post ℝ} {r : Option (PyDict (ResidVal ℝ))}
    (hp : s'.processResults w sol ptp false rx rdx = .ok (p, r)) :
    ∃ T W, compQuadWeights ⟨w.method, w.tau0, w.tau1, tausFn w.lib w.tau0 w.tau1 scheme⟩ M.orders = .ok W ∧
      SolvesOCP (ocp dyn tgt) M T ∧ p.Shows (ocp dyn tgt) M T ∧ sw = (ocp dyn tgt).packWidths n T ∧
      T.x 3 (M.N - 1) 6 = finalMass (T.tf 3) ∧ PhysCost (ocp dyn tgt) M W T (-finalMass (T.tf 3) / m0) ∧
      ∀ T', SolvesOCP (ocp dyn tgt) M T' → sw = (ocp dyn tgt).packWidths n T' → T.tf 3 ≤ T'.tf 3 := by
  obtain ⟨hv, hs, hsc⟩ := ready (tgt := tgt) hb hg
  obtain ⟨T, W, J, h1, h2, h3, h4, h5, h6⟩ := C60_h_optimal hf hv hs hsc hM hopt ho hrun hp
  have hn : M.orders.length = n := by rw [hM.orders.unique hf.orders, hf.length]
  have hWl := weights_length hM h1
  rw [hsw] at h4 h6
  have fills : ∀ {T}, sw = (ocp dyn tgt).packWidths n T → ∀ ph < 4, ∑ r ∈ Finset.range M.orders.length, T.w r ph = 1 :=
    fun h ph hp => by rw [hn]; exact (packed_widths (ocp := ocp dyn tgt) hp (hval.2 ph hp) h.symm).2
  have e4 := Option.some.inj h4
  have e := C109_launch_cost hb hM.good h2.1.core (fills e4) hWl h5
  refine ⟨T, W, h1, h2, h3, e4, (C109_launch hb hM.good h2.1.core (fills e4)).2.2.2.2.2.2.2.1, e ▸ h5, fun T' hT' hw' => ?_⟩
  obtain ⟨v, hv'⟩ := exists_samples (ocp dyn tgt) M T'
  have hJ' : PhysCost (ocp dyn tgt) M W T' _ := ⟨v, hv', rfl⟩
  have h7 := h6 T' _ hT' (congrArg some hw') hJ'
  rw [C109_launch_cost hb hM.good hT'.1.core (fills hw') hWl hJ', e] at h7
  exact finalMass_mono h7

end

end MPOpt
