import Verif.Props.LatePost
import Verif.Props.CompareExample
import Verif.Props.AdaptiveEndExample

/-! # Concrete cases for C104 -/

set_option autoImplicit false

namespace MPOpt
open Polynomial

/-- Nodes on `[0, 1]`, polynomials by the other method. -/
def outsideZ : Outside ℚ Nat := { outsideQ with tau0 := 0, tau1 := 1, method := .symbolic }

theorem meshZ_moved : meshE.Moved (meshE.onInterval 0 1) (1 / 2) (1 / 2) := by
  have := Mesh.onInterval_moved (M := meshE) (lo := 0) (hi := 1) (by norm_num [meshE]) (by norm_num)
  norm_num [meshE] at this ⊢
  exact this

theorem ocpQ_free : ocpQ.FreeSlopes := by
  intro ph hp
  obtain rfl : ph = 0 := by simpa [ocpQ] using hp
  rfl

/-- The hypotheses of `C104_free` are met: two runs with perfect solvers, on `[-1, 1]` and on `[0, 1]`. -/
theorem exampleInterval : ∃ (nlpsol nlpsol' : SolverCall ℚ Nat → Py (List ℚ)) (out out' : _),
    (∀ c z, nlpsol c = .ok z → c.IsOptimal z) ∧ (∀ c z, nlpsol' c = .ok z → c.IsOptimal z) ∧
      mpSolve outsideQ nlpsol ocpQ [[0]] 1 (.int 1) "LGR" argsE false true = .ok out ∧
      mpSolve outsideZ nlpsol' ocpQ [[0]] 1 (.int 1) "LGR" argsE false true = .ok out' := by
  classical
  obtain ⟨hv, hs, hsc⟩ := ocpQ_ready
  have hWE : compQuadWeights ⟨outsideQ.method, outsideQ.tau0, outsideQ.tau1,
      tausFn outsideQ.lib outsideQ.tau0 outsideQ.tau1 "LGR"⟩ meshE.orders = .ok [1, 1] := by decide +kernel
  obtain ⟨nlpsol, out, h1, h2⟩ := runE outsideQ argsE meshE_for hWE (by norm_num [outsideQ]) (by decide +kernel) (Or.inl rfl)
  have hMZ : MeshFor outsideZ "LGR" 1 (.int 1) (meshE.onInterval 0 1) :=
    meshE_for.moved (w' := outsideZ) rfl (by norm_num [outsideQ]) (by norm_num [outsideZ])
  obtain ⟨c, W, hW, hsol, hobj, hret⟩ := C52_solve_returns (w := outsideZ) (a := argsE) (ptp := [[0]]) (rx := false) (rdx := true)
    hv hs hsc hMZ rfl (by norm_num [outsideZ]) (by decide +kernel) (by simp [GoodWidths, argsE])
    (by
      intro ph hp
      obtain rfl : ph = 0 := by simpa [ocpQ] using hp
      simp [ocpQ, entry]) (by simp)
  have hW2 := compWeights_moved meshZ_moved meshE_for.good meshE_for.goodNodes hMZ.goodNodes rfl rfl rfl rfl hWE
  rw [hW2] at hW
  obtain rfl : [1, 1].map ((1 / 2 : ℚ) * ·) = W := by injection hW
  have hwE : WidthsAre ocpQ 1 argsE.widths trajE := fun ph _ s _ => by simp [trajE]
  have hcost : ∀ {T : Traj ℚ} {J : ℚ}, PhysCost ocpQ meshE [1, 1] T J → PhysCost ocpQ (meshE.onInterval 0 1)
      ([1, 1].map ((1 / 2) * ·)) T J := fun h => C104_cost meshZ_moved meshE_for.good 1 h
  have hzs : c.IsSolution (ocpQ.packVec (meshE.onInterval 0 1).N trajE) :=
    (hsol _).2 ⟨trajE, (C104_solves_free meshZ_moved meshE_for.good ocpQ_free _).2 trajE_solves, hwE, rfl⟩
  have hz : c.IsOptimal (ocpQ.packVec (meshE.onInterval 0 1).N trajE) := by
    refine ⟨hzs, fun z hz => ?_⟩
    obtain ⟨T, hT, hwT, rfl⟩ := (hsol z).1 hz
    rw [hobj _ _ hwE (hcost costE)]
    obtain ⟨v, hv'⟩ := exists_samples ocpQ meshE T
    have hJ : PhysCost ocpQ meshE [1, 1] T _ := ⟨v, hv', rfl⟩
    rw [hobj _ _ hwT (hcost hJ)]
    exact costE_ge ((C104_solves_free meshZ_moved meshE_for.good ocpQ_free _).1 hT)
      (by simpa using hwT 0 (by simp [ocpQ]) 0 (by simp)) hJ
  obtain ⟨out', ho⟩ := hret
    (fun c => if c.IsOptimal (ocpQ.packVec (meshE.onInterval 0 1).N trajE) then .ok (ocpQ.packVec (meshE.onInterval 0 1).N trajE)
      else .error .assertion) _ (if_pos hz) hzs.1
  refine ⟨nlpsol, _, out, out', h1, fun c' z h => ?_, h2, ho⟩
  split at h
  · cases h; assumption
  · cases h

/-! ## Slope limits that are not converted -/

/-- The state stands still; the control may change by at most 1/2 per unit of `tau`. -/
def ocpStill : OCP ℚ :=
  { ocpQ with
    dynamics := [⟨1, fun _ _ => 0⟩], pathConstraints := [none], terminalConstraints := [none], diffU := [true]
    lbdu := [.fin (-1 / 2)], ubdu := [.fin (1 / 2)] }

/-- The control rises from 0 to 1. -/
def trajStill : Traj ℚ :=
  { x := fun _ _ _ => 0, u := fun _ i _ => i, t0 := fun _ => 0, tf := fun _ => 1, a := fun _ _ => 0, w := fun _ _ => 1 }

/-- **C104** Slope limits not converted: what solves the problem on `[-1, 1]` need not solve it on `[0, 1]`. -/
theorem C104_slopes_matter : SolvesOCP ocpStill meshE trajStill ∧ ¬ SolvesOCP ocpStill (meshE.onInterval 0 1) trajStill := by
  have one : ∀ {ph : Nat}, ph < ocpStill.nPhases → ph = 0 := fun h => by simpa [ocpStill, ocpQ] using h
  constructor
  · refine ⟨⟨fun ph hph => ?_, fun ph hph => ?_, fun ph hph => ?_, fun ph hph => ?_, fun ph hph _ => ?_,
      fun ph hph h => ?_, fun h => absurd h (by simp [ocpStill, ocpQ])⟩, fun ph hph _ => ?_⟩ <;> obtain rfl := one hph
    · refine ⟨fun _ j hj => ?_, fun i hi _ j hj => ?_, fun i hi j hj => ?_, ?_, ?_, fun k hk => ?_⟩
      · obtain rfl : j = 0 := by simpa [ocpStill, ocpQ] using hj
        simp [trajStill, entry, ocpStill, ocpQ]
      · obtain rfl : j = 0 := by simpa [ocpStill, ocpQ] using hj
        norm_num [entry, ocpStill, ocpQ, Within, Ext.Below, Ext.Above, trajStill]
      · obtain rfl : j = 0 := by simpa [ocpStill, ocpQ] using hj
        have : (0 : ℚ) ≤ i := i.cast_nonneg
        simp only [entry, ocpStill, ocpQ, Within, Ext.Below, Ext.Above, trajStill]
        simp
        linarith
      · simp [entry, ocpStill, ocpQ, Within, Ext.Below, Ext.Above, trajStill]
      · simp [entry, ocpStill, ocpQ, Within, Ext.Below, Ext.Above, trajStill]
      · simp [ocpStill, ocpQ] at hk
    · intro F hF j hj s i ho
      obtain ⟨rfl, -⟩ := meshE_owns ho
      have hF : (⟨1, fun _ _ => 0⟩ : VFun (PArg ℚ) ℚ) = F := by simpa [ocpStill] using hF
      rw [meshE_piece, ← hF]
      simp [trajStill]
    · intro F hF; simp [ocpStill] at hF
    · intro F hF; simp [ocpStill] at hF
    · intro j hj s hs i hi
      obtain rfl : j = 0 := by simpa [ocpStill, ocpQ] using hj
      obtain rfl : s = 0 := by simpa [meshE] using hs
      obtain rfl : i = 0 := by simpa [meshE, Mesh.order] using hi
      rw [meshE_piece]
      norm_num [trajStill, entry, ocpStill, ocpQ, Within, Ext.Below, Ext.Above, meshE, Mesh.node]
    · simp [ocpStill, ocpQ] at h
    · intro j hj s i ho
      obtain rfl : j = 0 := by simpa [ocpStill, ocpQ] using hj
      obtain ⟨rfl, -⟩ := meshE_owns ho
      rw [meshE_piece]
      norm_num [trajStill, ocpStill, ocpQ, Within, Ext.Below, Ext.Above]
  · intro h
    have hb := h.2 0 (by simp [ocpStill, ocpQ]) rfl 0 (by simp [ocpStill, ocpQ]) 0 0 (by simp [Mesh.Owns, Mesh.onInterval, meshE])
    rw [meshZ_moved.node_eq meshE_for.good (by simp [meshE]) (by simp [meshE]),
      meshZ_moved.slope_eval meshE_for.good (by simp [meshE]), meshE_piece] at hb
    norm_num [trajStill, ocpStill, ocpQ, Within, Ext.Below, Ext.Above] at hb

/-! ## Plotting after the interval was changed -/

/-- **C104** The straight line from 0 to 1, solved on `[-1, 1]` and shown after `_TAU_MIN = 0`: at time 0, where the state is 0,
the state -1 is shown. -/
theorem C104_late_example : ∃ (p : Post ℚ) (D : PostData ℚ), p.solved.Ready meshE ∧
    p.solved.z = ocpQ.packVec 2 trajE ∧
    p.getDataIn ⟨.symbolic, 0, 1, tausFn libQ 0 1 "LGR"⟩ [0] true = .ok D ∧
    D.x.toRows.head? = some [-1] ∧ D.t.head? = some 0 := by
  obtain ⟨hv, hs, hsc⟩ := ocpQ_ready
  obtain ⟨-, d, honM, hocp, hseg, -⟩ := solve_call (w := outsideQ) (a := argsE) (ptp := [[0]]) (rx := false) (rdx := true)
    hv hs hsc meshE_for rfl (by norm_num [outsideQ]) (by decide +kernel) (by simp [GoodWidths, argsE])
    (by
      intro ph hp
      obtain rfl : ph = 0 := by simpa [ocpQ] using hp
      simp [ocpQ, entry]) (by simp)
  let p : Post ℚ := ⟨⟨d, ocpQ.packWidths 1 trajE, ["fixed"], 15, ocpQ.packVec 2 trajE⟩, false, [0]⟩
  have hN : d.N = 2 := honM.N_eq.symm
  have hz : p.solved.z = p.solved.disc.ocp.packVec p.solved.disc.N trajE := by
    show ocpQ.packVec 2 trajE = d.ocp.packVec d.N trajE
    rw [hocp, hN]
  have hw : p.solved.widths = p.solved.disc.ocp.packWidths p.solved.disc.nSegments trajE := by
    show ocpQ.packWidths 1 trajE = d.ocp.packWidths d.nSegments trajE
    rw [hocp, hseg]
  have hd : p.solved.disc.ocp = ocpQ := hocp
  have hx : ∀ s ∈ p.solved.disc.ocp.scaleX, s ≠ 0 := by rw [hd]; exact fun s h => (hsc.x s h).ne'
  have hu : ∀ s ∈ p.solved.disc.ocp.scaleU, s ≠ 0 := by rw [hd]; exact fun s h => (hsc.u s h).ne'
  have ha : ∀ s ∈ p.solved.disc.ocp.scaleA, s ≠ 0 := by rw [hd]; exact fun s h => (hsc.a s h).ne'
  have hr : p.solved.Ready meshE := ⟨honM, by rw [hd]; exact hv, by rw [hz, packVec_eq]; simp, by rw [hw, packWidths_eq]; simp,
    hx, hu, ha⟩
  have same := traj_packed (e := p.solved) (by rw [hd]; exact hv) hx hu ha (by rw [hd]; norm_num [ocpQ]) trajE hz hw
  obtain ⟨D, h1, h2, h3⟩ := C104_late_start (c := ⟨.symbolic, 0, 1, tausFn libQ 0 1 "LGR"⟩) hr rfl (by decide +kernel)
    (ph := 0) (by rw [hd]; simp [ocpQ])
  have hp : 0 < p.solved.disc.ocp.nPhases := by rw [hd]; simp [ocpQ]
  have hx0 : 0 < p.solved.disc.ocp.nx := by rw [hd]; simp [ocpQ]
  have hN' : p.solved.disc.N = 2 := hN
  refine ⟨p, D, hr, rfl, h1, ?_, ?_⟩
  · rw [h2, show p.solved.disc.ocp.nx = 1 by rw [hd]; rfl]
    simp only [List.range_one, List.map_cons, List.map_nil]
    rw [same.x 0 hp 0 (by rw [hN']; norm_num) 0 hx0, same.x 0 hp 1 (by rw [hN']; norm_num) 0 hx0]
    norm_num [unitOr, p, trajE]
  · rw [h3, same.t0 0 hp]; rfl

/-! ## `mpopt_adaptive` -/

/-- The object of `adaptE` with twice the slope limits and twice the tolerance. -/
def adaptZ : AdaptOpt ℚ Nat :=
  ⟨ocpQ.slopesTimes 2, 1, [1], "LGR", [1 / 10000], [1], [1 / 500], true, ["fixed"], 15, false, none, none, none, none⟩

theorem adaptZ_ready : adaptZ.Ready outsideZ (ocpQ.slopesTimes (outsideQ.ratio outsideZ)) 1 (.int 1) "LGR" [1 / 10000] [1]
    ([1 / 1000].map (outsideQ.ratio outsideZ * ·)) true := by
  have e : outsideQ.ratio outsideZ = 2 := by norm_num [Outside.ratio, outsideQ, outsideZ]
  rw [e]
  exact ⟨rfl, rfl, (adaptE_fresh.ready (w := outsideZ)).orders, rfl, rfl, rfl, rfl, by norm_num [adaptZ], rfl, (fun _ _ _ h => nomatch h),
    (fun _ _ _ h => nomatch h), (fun h => nomatch h)⟩

/-- The hypotheses of `C104_adaptive_optimal` are met. -/
theorem exampleIntervalAdaptive : ∃ (nlpsol nlpsol' : SolverCall ℚ Nat → Py (List ℚ)) (z z' : List ℚ) (out out' : _),
    (∀ c z, nlpsol c = .ok z → c.IsOptimal z) ∧ (∀ c z, nlpsol' c = .ok z → c.IsOptimal z) ∧
      (adaptE.solve outsideQ nlpsol argsE).2 = .ok z ∧
      (adaptE.solve outsideQ nlpsol argsE).1.processResults outsideQ [[0]] false false true = .ok out ∧
      (adaptZ.solve outsideZ nlpsol' argsE).2 = .ok z' ∧
      (adaptZ.solve outsideZ nlpsol' argsE).1.processResults outsideZ [[0]] false false true = .ok out' := by
  classical
  obtain ⟨hv, hs, hsc⟩ := ocpQ_ready
  obtain ⟨nlpsol, z, out, h1, h2, h3⟩ := exampleAdaptive
  have hMZ : MeshFor outsideZ "LGR" 1 (.int 1) (meshE.onInterval 0 1) :=
    meshE_for.moved (w' := outsideZ) rfl (by norm_num [outsideQ]) (by norm_num [outsideZ])
  have hr : outsideQ.ratio outsideZ = (1 / 2 : ℚ)⁻¹ := by norm_num [Outside.ratio, outsideQ, outsideZ]
  have hready := adaptZ_ready
  rw [hr] at hready
  obtain ⟨c, W, hW, hsol, hobj, hret⟩ := C54_adaptive_returns (a := argsE) (ptp := [[0]]) (rx := false) (rdx := true)
    hready (valid_slopesTimes hv _) (settings_slopesTimes hs _) (scales_slopesTimes hsc _) rfl rfl rfl hMZ
    (by norm_num [outsideZ]) rfl (by decide +kernel)
    (by norm_num) (by
      intro ph hp
      obtain rfl : ph = 0 := by simpa [OCP.slopesTimes, ocpQ] using hp
      simp [OCP.slopesTimes, ocpQ, entry]) (by simp)
  have hWE : compQuadWeights ⟨outsideQ.method, outsideQ.tau0, outsideQ.tau1,
      tausFn outsideQ.lib outsideQ.tau0 outsideQ.tau1 "LGR"⟩ meshE.orders = .ok [1, 1] := by decide +kernel
  have hW2 := compWeights_moved meshZ_moved meshE_for.good meshE_for.goodNodes hMZ.goodNodes rfl rfl rfl rfl hWE
  rw [hW2] at hW
  obtain rfl : [1, 1].map ((1 / 2 : ℚ) * ·) = W := by injection hW
  obtain ⟨z', hz', hf⟩ := hobj _ _ ((C104_adaptive meshZ_moved meshE_for.good _).2 trajE_solvesAdaptive)
    (C104_cost meshZ_moved meshE_for.good _ costE)
  have hopt : c.IsOptimal z' := by
    refine ⟨hz', fun y hy => ?_⟩
    obtain ⟨T, hT, hJ⟩ := hsol y hy
    rw [hf]
    have hT := (C104_adaptive meshZ_moved meshE_for.good T).1 hT
    obtain ⟨v, hv'⟩ := exists_samples ocpQ meshE T
    have hJ2 : PhysCost ocpQ meshE [1, 1] T _ := ⟨v, hv', rfl⟩
    have e := (C104_cost meshZ_moved meshE_for.good (1 / 2 : ℚ)⁻¹ hJ2).unique (meshZ_moved.good meshE_for.good)
      (hMZ.weights_length hW2) hv.runningCosts hJ
    rw [← e]
    have hw := (hT.1.widths 0 (by simp [ocpQ])).sum
    have hmu := hT.1.midControl
    refine costE_ge ⟨⟨hT.1.bounds, hT.1.dynamics, hT.1.path, hT.1.terminal, fun ph hp _ => hmu ph hp,
      fun ph hp h => ?_, hT.1.links⟩, hT.2⟩ (by simpa [meshE] using hw) hJ2
    obtain rfl : ph = 0 := by simpa [ocpQ] using hp
    simp [ocpQ] at h
  obtain ⟨k1, out', k2⟩ := hret (fun c => if c.IsOptimal z' then .ok z' else .error .assertion) z' (if_pos hopt) hz'
  refine ⟨nlpsol, _, z, z', out, out', h1, fun c' y h => ?_, h2, h3, k1, k2⟩
  split at h
  · cases h; assumption
  · cases h

end MPOpt
