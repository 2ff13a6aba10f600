import Verif.Props.ConvexLocal
import Verif.Props.ShippedExample
import Verif.Props.EndToEndExample

/-! # Concrete cases for C103

The shipped problem with a known solution is convex: a solver that only finds local minimisers finds the solution. Without
convexity a local minimiser may be far from the best trajectory. -/

set_option autoImplicit false

namespace MPOpt
open Polynomial

/-! ### The shipped problem -/

theorem mixList_getD {θ : ℝ} {x y : List ℝ} (h : x.length = 1) (h' : y.length = 1) :
    (mixList θ x y).getD 0 0 = (1 - θ) * x.getD 0 0 + θ * y.getD 0 0 := by
  obtain ⟨a, rfl⟩ := List.length_eq_one_iff.1 h
  obtain ⟨b, rfl⟩ := List.length_eq_one_iff.1 h'
  rfl

/-- The hypotheses of C103 for the shipped problem. -/
theorem ocpWS_convex : ocpWS.Convex ∧ ocpWS.FixedTimes ∧ ocpWS.StrictInControls := by
  have one : ∀ {ph : Nat}, ph < ocpWS.nPhases → ph = 0 := fun h => by simpa [ocpWS] using h
  refine ⟨⟨fun ph hp F hF j hj p q θ hp' hq' ht h0 h1 => ?_, fun ph hp F hF => ?_, fun ph hp F hF => ?_,
    fun ph hp f hf p q θ hp' hq' ht h0 h1 => ?_, fun ph hp f hf p q θ hp' hq' _ _ h0 h1 => ?_⟩, fun ph hp => ?_,
    fun ph hp f hf p q hp' hq' ht hne => ?_⟩ <;> obtain rfl := one hp
  · have hF : (⟨1, fun p _ => 2 * (1 - p.u.getD 0 0)⟩ : VFun (PArg ℝ) ℝ) = F := by simpa [ocpWS] using hF
    rw [← hF]
    show 2 * (1 - (mixList θ p.u q.u).getD 0 0) = _
    rw [mixList_getD hp'.u hq'.u]; ring
  · simp [ocpWS] at hF
  · simp [ocpWS] at hF
  · have hf : (fun p : PArg ℝ => 1 / 2 * p.u.getD 0 0 * p.u.getD 0 0 - p.x.getD 0 0) = f := by simpa [ocpWS] using hf
    rw [← hf]
    show 1 / 2 * (mixList θ p.u q.u).getD 0 0 * (mixList θ p.u q.u).getD 0 0 - (mixList θ p.x q.x).getD 0 0 ≤ _
    rw [mixList_getD hp'.u hq'.u, mixList_getD hp'.x hq'.x]
    nlinarith [mul_nonneg (mul_nonneg h0 (sub_nonneg.2 h1)) (sq_nonneg (p.u.getD 0 0 - q.u.getD 0 0))]
  · have hf : (fun _ : TArg ℝ => (0 : ℝ)) = f := by simpa [ocpWS] using hf
    rw [← hf]; simp
  · exact ⟨0, 1, by norm_num, by simp [ocpWS, entry], by simp [ocpWS, entry], by simp [ocpWS, entry], by simp [ocpWS, entry]⟩
  · have hf : (fun p : PArg ℝ => 1 / 2 * p.u.getD 0 0 * p.u.getD 0 0 - p.x.getD 0 0) = f := by simpa [ocpWS] using hf
    rw [← hf]
    show 1 / 2 * (mixList (1 / 2) p.u q.u).getD 0 0 * (mixList (1 / 2) p.u q.u).getD 0 0 - (mixList (1 / 2) p.x q.x).getD 0 0 < _
    rw [mixList_getD hp'.u hq'.u, mixList_getD hp'.x hq'.x]
    obtain ⟨a, ha⟩ := List.length_eq_one_iff.1 (hp'.u : p.u.length = 1)
    obtain ⟨b, hb⟩ := List.length_eq_one_iff.1 (hq'.u : q.u.length = 1)
    have hab : a - b ≠ 0 := fun e => hne (by rw [ha, hb, sub_eq_zero.1 e])
    simp only [ha, hb, List.getD_cons_zero]
    nlinarith [sq_pos_of_ne_zero hab]

section
variable {V : Type} {w : Outside ℝ V} {nlpsol : SolverCall ℝ V → Py (List ℝ)} {ocp : OCP ℝ} {ptp : List (List Nat)} {n : Nat}
variable {arg : OrdersArg} {rx rdx : Bool} {M : Mesh ℝ}

/-- **C103** The shipped problem with a known solution, solved with any solver that finds local minimisers: the exact solution is
found. (C68 asks for a solver that finds global ones.) -/
theorem C103_shipped (hocp : scriptWithSolution = .ok ocp) {a : SolveArgs ℝ V} {s : Session ℝ V}
    {p : Post ℝ} {r : Option (PyDict (ResidVal ℝ))}
    (hrun : mpSolve w nlpsol ocp ptp n arg "LGR" a rx rdx = .ok (s, p, r)) (hM : MeshFor w "LGR" n arg M)
    (hlt : w.tau0 < w.tau1) (hord : ∀ q ∈ M.orders, 2 ≤ q)
    (hj : ∀ q ∈ M.orders, IsJacobiRoots 1 0 (q - 1) (w.lib.jroots (q - 1) 1 0))
    (hopt : ∀ c z, nlpsol c = .ok z → c.IsLocal z)
    (hwid : ∀ l, a.widths = some l → l.sum = 1 ∧ ∀ x ∈ l, 0 < x) :
    ∃ T W J, compQuadWeights ⟨w.method, w.tau0, w.tau1, tausFn w.lib w.tau0 w.tau1 "LGR"⟩ M.orders = .ok W ∧
      p.Shows ocp M T ∧ PhysCost ocp M W T J ∧ FoundWS M T J := by
  obtain rfl : ocpWS = ocp := by rw [scriptWithSolution_eq] at hocp; injection hocp
  obtain ⟨hv, hs, hsc⟩ := ocpWS_ready
  obtain ⟨hc, hft, -⟩ := ocpWS_convex
  have hlen : M.orders.length = n := mpSolve_length hrun hM
  have hn : 0 < n := by rw [← hlen]; exact List.length_pos_iff.2 hM.good.nonempty
  obtain ⟨T, W, J, h1, h2, h3, h4, h5, h6⟩ := C103_global hrun hc hft hv hs hsc hM hlt hlen
    (fun W hW v hm => by
      obtain ⟨ws, rfl, -, hp⟩ := C67_lgr_composite w.lib w.method w.tau0 w.tau1 hlt hord hj hW
      rcases List.mem_cons.1 hm with rfl | hm
      · exact le_rfl
      · exact (hp v hm).le)
    (fun l e x hx => ((hwid l e).2 x hx).le) hopt
  obtain ⟨hI, hW⟩ := C57_lgr_integrates hM hlt hord hj h1
  have ho : ∀ s < M.orders.length, 2 ≤ M.order s := fun s hs => hord _ (hM.good.order_mem hs)
  obtain ⟨T', hT', hTw⟩ := exists_samples_of ocpWS M exactWS T.w
  have hw' : WidthsAre ocpWS n a.widths T' := by
    unfold WidthsAre OCP.packWidths at h3 ⊢
    rw [hTw]; exact h3
  have hfw := h3.full rfl hn hlen hwid
  have hfw' := hw'.full rfl hn hlen hwid
  obtain ⟨p1, p2, -⟩ := exactWS_poly ho (exactWS.breakTime T'.w 0)
  obtain ⟨-, -, p3⟩ := exactWS_poly (deg := fun s => 2 * M.order s - 2)
    (fun s hs => by have := ho s hs; omega) (exactWS.breakTime T'.w 0)
  have hS' := C56_exact_feasible hM.good hI exactWS_solves hs.linkRange hT' (one_phase hfw') (one_phase (one_entry p1))
    (one_phase fun _ => one_entry p2) (one_phase rfl) (one_phase rfl)
  have hJ' := C57_cost hM.good hI hW hv.runningCosts hT' (one_phase hfw')
    (fun ph hp => (exactWS_solves.phase ph hp).order) (one_phase p3)
  rw [exactWS_cost] at hJ'
  exact ⟨T, W, J, h1, h4, h5, foundWS hM.good hI hord hW (C67_lgr_composite w.lib w.method w.tau0 w.tau1 hlt hord hj h1)
    (h2.1.bounds 0 (by simp [ocpWS])) (h2.1.dynamics 0 (by simp [ocpWS])) hfw h5 (h6 T' _ hS' hw' hJ')⟩

end

/-- A global minimiser is a local one, so the runs of C68 meet the hypotheses. -/
theorem SolverCall.IsOptimal.local {K V : Type} [Field K] [LinearOrder K] [IsStrictOrderedRing K] {c : SolverCall K V} {z : List K}
    (h : c.IsOptimal z) : c.IsLocal z := ⟨h.sol, 1, one_pos, fun z' hz' _ => h.best z' hz'⟩

example : ∃ (M : Mesh ℝ) (nlpsol : SolverCall ℝ Nat → Py (List ℝ)) (out : _),
    MeshFor outsideR "LGR" 10 (.int 3) M ∧ (∀ c z, nlpsol c = .ok z → c.IsLocal z) ∧
      mpSolve outsideR nlpsol ocpWS [[0]] 10 (.int 3) "LGR" argsR false true = .ok out := by
  obtain ⟨M, nlpsol, out, h1, h2, h3, -⟩ := exampleWS (n := 10) (p := 3) (by norm_num) (by norm_num)
  exact ⟨M, nlpsol, out, h1, fun c z h => (h2 c z h).local, h3⟩

/-! ### Without convexity -/

/-- `x' = u` with `x`, `u` in `[-1, 1]`, `x(0) = 0`, on `[0, 1]`: end as far from 1/4 as possible. -/
def ocpBell : OCP ℚ :=
  { ocpQ with
    pathConstraints := [none], terminalConstraints := [none], runningCosts := [fun _ => 0]
    terminalCosts := [fun t => -((t.xf.getD 0 0 - 1 / 4) * (t.xf.getD 0 0 - 1 / 4))]
    lbx := [[.fin (-1)]], ubx := [[.fin 1]], lbu := [[.fin (-1)]], ubu := [[.fin 1]], lbtf := [[.fin 1]], ubtf := [[.fin 1]] }

/-- Straight down. -/
def trajDown : Traj ℚ :=
  { x := fun _ i _ => -i, u := fun _ _ _ => -1, t0 := fun _ => 0, tf := fun _ => 1, a := fun _ _ => 0
    w := fun _ _ => 1 }

theorem bell_ready : ValidOCP ocpBell ∧ ocpBell.SettingsOK ∧ ocpBell.PosScales := by
  obtain ⟨hv, hs, hsc⟩ := ocpQ_ready
  exact ⟨(C40_validate_iff _).1 (by decide +kernel), ⟨hs.nx, hs.diffU, hs.midu, hs.duContinuity, hs.lbdu, hs.ubdu, hs.nu, hs.links,
    hs.linkCount, hs.linkRange⟩, ⟨hsc.x, hsc.u, hsc.a, hsc.t⟩⟩

theorem bell_solves : SolvesOCP ocpBell meshE trajE ∧ SolvesOCP ocpBell meshE trajDown := by
  constructor <;>
  · refine ⟨⟨fun ph hph => ?_, fun ph hph => ?_, fun ph hph => ?_, fun ph hph => ?_, fun ph hph _ => ?_,
      fun ph hph h => ?_, fun h => absurd h (by simp [ocpBell, ocpQ])⟩, fun ph hph h => ?_⟩ <;>
      obtain rfl : ph = 0 := by simpa [ocpBell, ocpQ] using hph
    · refine ⟨fun _ j hj => ?_, fun i hi _ j hj => ?_, fun i _ j hj => ?_, ?_, ?_, fun k hk => ?_⟩
      · obtain rfl : j = 0 := by simpa [ocpBell, ocpQ] using hj
        simp [trajE, trajDown, entry, ocpBell, ocpQ]
      · obtain rfl : j = 0 := by simpa [ocpBell, ocpQ] using hj
        have hi : i < 2 := hi
        rcases (by omega : i = 0 ∨ i = 1) with rfl | rfl <;>
          norm_num [entry, ocpBell, ocpQ, Within, Ext.Below, Ext.Above, trajE, trajDown]
      · obtain rfl : j = 0 := by simpa [ocpBell, ocpQ] using hj
        norm_num [entry, ocpBell, ocpQ, Within, Ext.Below, Ext.Above, trajE, trajDown]
      · simp [entry, ocpBell, ocpQ, Within, Ext.Below, Ext.Above, trajE, trajDown]
      · simp [entry, ocpBell, ocpQ, Within, Ext.Below, Ext.Above, trajE, trajDown]
      · simp [ocpBell, ocpQ] at hk
    · intro F hF j hj s i ho
      obtain rfl : j = 0 := by simpa [ocpBell, ocpQ] using hj
      obtain ⟨rfl, -⟩ := meshE_owns ho
      have hF : (⟨1, fun p _ => p.u.getD 0 0⟩ : VFun (PArg ℚ) ℚ) = F := by simpa [ocpBell, ocpQ] using hF
      rw [meshE_piece, meshE_half, ← hF]
      norm_num [trajE, trajDown, OCP.pArg, ocpBell, ocpQ]
    · intro F hF; simp [ocpBell] at hF
    · intro F hF; simp [ocpBell] at hF
    · intro j hj s hs i hi
      obtain rfl : j = 0 := by simpa [ocpBell, ocpQ] using hj
      obtain rfl : s = 0 := by simpa [meshE] using hs
      rw [meshE_piece]
      norm_num [trajE, trajDown, entry, ocpBell, ocpQ, Within, Ext.Below, Ext.Above]
    · simp [ocpBell, ocpQ] at h
    · simp [ocpBell, ocpQ] at h

/-- The cost depends on the end only. -/
theorem bell_cost (T : Traj ℚ) : PhysCost ocpBell meshE [1, 1] T (-((T.x 0 1 0 - 1 / 4) * (T.x 0 1 0 - 1 / 4))) := by
  refine ⟨fun _ _ => 0, fun ph hph => ?_, ?_⟩
  · obtain rfl : ph = 0 := by simpa [ocpBell, ocpQ] using hph
    intro rc hrc s i ho
    have hrc : (fun _ : PArg ℚ => (0 : ℚ)) = rc := by simpa [ocpBell] using hrc
    rw [← hrc, mul_zero]
  · rw [show ocpBell.nPhases = 1 from rfl]
    have : TerminalCost ocpBell meshE T 0 = -((T.x 0 1 0 - 1 / 4) * (T.x 0 1 0 - 1 / 4)) := rfl
    simp [weightedSum, this]

/-- **C103, without convexity: false.** Times are fixed, dynamics are affine, no weight or width is negative, and the solver finds
a local minimiser; the trajectory shown costs -9/16 although another one costs -25/16. -/
theorem C103_nonconvex_false : ∃ (nlpsol : SolverCall ℚ Nat → Py (List ℚ)) (s : Session ℚ Nat) (p : Post ℚ)
    (r : Option (PyDict (ResidVal ℚ))), ocpBell.FixedTimes ∧ (∀ c z, nlpsol c = .ok z → c.IsLocal z) ∧
      mpSolve outsideQ nlpsol ocpBell [[0]] 1 (.int 1) "LGR" argsE false true = .ok (s, p, r) ∧
      ∃ T T' W, compQuadWeights ⟨outsideQ.method, outsideQ.tau0, outsideQ.tau1,
          tausFn outsideQ.lib outsideQ.tau0 outsideQ.tau1 "LGR"⟩ meshE.orders = .ok W ∧ (∀ v ∈ W, 0 ≤ v) ∧
        p.Shows ocpBell meshE T ∧ PhysCost ocpBell meshE W T (-9 / 16) ∧
        SolvesOCP ocpBell meshE T' ∧ WidthsAre ocpBell 1 argsE.widths T' ∧ PhysCost ocpBell meshE W T' (-25 / 16) := by
  classical
  obtain ⟨hv, hs, hsc⟩ := bell_ready
  obtain ⟨hup, hdown⟩ := bell_solves
  obtain ⟨c, W, hW, hsol, hobj, hret⟩ := C52_solve_returns (V := Nat) (ocp := ocpBell) (w := outsideQ) (a := argsE)
    (scheme := "LGR") (n := 1) (arg := .int 1) (M := meshE) (ptp := [[0]]) (rx := false) (rdx := true)
    hv hs hsc meshE_for rfl (by norm_num [outsideQ]) (by decide +kernel) (by simp [GoodWidths, argsE])
    (by
      intro ph hp
      obtain rfl : ph = 0 := by simpa [ocpBell, ocpQ] using hp
      simp [ocpBell, ocpQ, entry]) (by simp)
  have hWeq : compQuadWeights ⟨outsideQ.method, outsideQ.tau0, outsideQ.tau1,
        tausFn outsideQ.lib outsideQ.tau0 outsideQ.tau1 "LGR"⟩ meshE.orders = .ok [1, 1] := by decide +kernel
  have hW' : W = [1, 1] := by rw [hWeq] at hW; cases hW; rfl
  subst hW'
  have hwE : WidthsAre ocpBell 1 argsE.widths trajE := by
    intro ph _ s _; simp [trajE]
  have hwD : WidthsAre ocpBell 1 argsE.widths trajDown := by
    intro ph _ s _; simp [trajDown]
  have cE : PhysCost ocpBell meshE [1, 1] trajE (-9 / 16) := by
    have := bell_cost trajE
    norm_num [trajE] at this ⊢; exact this
  have cD : PhysCost ocpBell meshE [1, 1] trajDown (-25 / 16) := by
    have := bell_cost trajDown
    norm_num [trajDown] at this ⊢; exact this
  have hzs : c.IsSolution (ocpBell.packVec meshE.N trajE) := (hsol _).2 ⟨trajE, hup, hwE, rfl⟩
  have hz : c.IsLocal (ocpBell.packVec meshE.N trajE) := by
    refine ⟨hzs, 1, one_pos, fun z hz hclose => ?_⟩
    obtain ⟨T, hT, hwT, rfl⟩ := (hsol z).1 hz
    rw [hobj _ _ hwE cE, hobj _ _ hwT (bell_cost T)]
    have h1 := hclose 1 (by decide +kernel)
    have h1 : |T.x 0 1 0 * 2 - trajE.x 0 1 0 * 2| < 1 := h1
    have h2 := (hT.1.bounds 0 (by simp [ocpBell, ocpQ])).x 1 (by simp [meshE, Mesh.N]) (by simp) 0 (by simp [ocpBell, ocpQ])
    have h2 : T.x 0 1 0 ≤ 1 := by
      have := h2.2
      simpa [ocpBell, entry, Ext.Above] using this
    rw [abs_lt] at h1
    have h3 : trajE.x 0 1 0 = 1 := by simp [trajE]
    rw [h3] at h1
    nlinarith [h1.1]
  have hloc : ∀ (c' : SolverCall ℚ Nat) z, (if c'.IsLocal (ocpBell.packVec meshE.N trajE) then
      (.ok (ocpBell.packVec meshE.N trajE) : Py (List ℚ)) else .error .assertion) = .ok z →
      c'.IsLocal z ∧ z = ocpBell.packVec meshE.N trajE := by
    intro c' z h
    split at h
    · cases h; exact ⟨by assumption, rfl⟩
    · cases h
  obtain ⟨⟨s, p, r⟩, ho⟩ := hret
    (fun c => if c.IsLocal (ocpBell.packVec meshE.N trajE) then .ok (ocpBell.packVec meshE.N trajE)
      else .error .assertion) _ (if_pos hz) hzs.1
  refine ⟨_, s, p, r, ?_, fun c' z h => (hloc c' z h).1, ho, ?_⟩
  · intro ph hp
    obtain rfl : ph = 0 := by simpa [ocpBell, ocpQ] using hp
    exact ⟨0, 1, by norm_num, rfl, rfl, rfl, rfl⟩
  obtain ⟨c1, z1, h1, h2, h3, h4, h5, h6, h7, h8, h9, h10⟩ := mpSolve_pieces ho meshE_for
  obtain ⟨hl1, hz1⟩ := hloc c1 z1 h1
  obtain ⟨hc, hS, hw, hsh⟩ := shown_of_solution (a := argsE) hv hs hsc h2 h3 h4 h5 h6 h7 h8 h9 h10 hl1.sol
  refine ⟨p.solved.traj, trajDown, [1, 1], hWeq, by simp, hsh, ?_, hdown, hwD, cD⟩
  have hsame := decoded_packed (d := p.solved.disc) h2 (by rw [h3]; exact hv) (by rw [h3]; exact hsc) trajE
    (sw := c1.p) (by rw [h3, h4]; exact (packWidths_iff h10).1 hwE)
  have : p.solved.traj = physOf p.solved.disc.ocp (p.solved.disc.envOf (p.solved.disc.ocp.packVec meshE.N trajE) c1.p) := by
    unfold Solved.traj
    rw [h5, h6, hz1, h3]
  rw [this]
  rw [h3] at hsame ⊢
  exact hsame.symm.cost cE

end MPOpt
