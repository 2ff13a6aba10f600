import Verif.Props.Loosen
import Verif.Props.CompareExample

/-! # Concrete cases for C102: the same problem with the control limited to 1/2 -/

set_option autoImplicit false

namespace MPOpt
open Polynomial

/-- `ocpQ` with controls of at most 1/2. -/
def ocpSlow : OCP ℚ := { ocpQ with ubu := [[.fin (1 / 2)]] }

/-- The straight line, in time 2. -/
def trajSlow : Traj ℚ :=
  { x := fun _ i _ => i, u := fun _ _ _ => 1 / 2, t0 := fun _ => 0, tf := fun _ => 2, a := fun _ _ => 0
    w := fun _ _ => 1 }

theorem slow_ready : ValidOCP ocpSlow ∧ ocpSlow.SettingsOK ∧ ocpSlow.PosScales := by
  obtain ⟨hv, hs, hsc⟩ := ocpQ_ready
  refine ⟨(C40_validate_iff _).1 (by decide +kernel), ⟨hs.nx, hs.diffU, hs.midu, hs.duContinuity, hs.lbdu, hs.ubdu, hs.nu, hs.links,
    hs.linkCount, hs.linkRange⟩, ⟨hsc.x, hsc.u, hsc.a, hsc.t⟩⟩

/-- The example problem asks for less. -/
theorem slow_loosens : ocpSlow.Loosens ocpQ := by
  have one : ∀ {ph : Nat}, ph < ocpSlow.nPhases → ph = 0 := fun h => by simpa [ocpSlow, ocpQ] using h
  have row : ∀ {j : Nat}, j < 1 → j = 0 := fun h => by omega
  refine ⟨rfl, rfl, rfl, rfl, rfl, fun _ _ => rfl, fun ph hp => ?_, fun ph hp => ?_, fun ph hp => ?_, fun ph hp => ?_,
    fun ph hp => ?_, fun ph hp => ?_, fun ph hp => ?_, fun k p q hk => ?_, fun _ _ => id, fun _ _ => id, fun ph hp hd => ?_⟩
  · obtain rfl := one hp
    intro j hj; obtain rfl := row hj
    constructor <;> decide +kernel
  · obtain rfl := one hp
    intro j hj; obtain rfl := row hj
    constructor <;> decide +kernel
  · intro j hj; exact absurd hj (by simp [ocpSlow, ocpQ])
  · obtain rfl := one hp
    intro j hj; obtain rfl := row hj
    constructor <;> decide +kernel
  · obtain rfl := one hp
    intro j hj; obtain rfl := row hj
    constructor <;> decide +kernel
  · exact fun _ h => h
  · exact fun _ h => h
  · simp [ocpQ] at hk
  · obtain rfl := one hp
    simp [ocpQ] at hd

theorem slow_costs : ocpSlow.SameCosts ocpQ := ⟨rfl, rfl⟩

theorem trajSlow_solves : SolvesOCP ocpSlow meshE trajSlow := by
  refine ⟨⟨fun ph hph => ?_, fun ph hph => ?_, fun ph hph => ?_, fun ph hph => ?_, fun ph hph _ => ?_,
    fun ph hph h => ?_, fun h => absurd h (by simp [ocpSlow, ocpQ])⟩, fun ph hph h => ?_⟩ <;>
    obtain rfl : ph = 0 := by simpa [ocpSlow, ocpQ] using hph
  · refine ⟨fun _ j hj => ?_, fun i hi _ j hj => ?_, fun i _ j hj => ?_, ?_, ?_, fun k hk => ?_⟩
    · obtain rfl : j = 0 := by simpa [ocpSlow, ocpQ] using hj
      simp [trajSlow, entry, ocpSlow, ocpQ]
    · obtain rfl : j = 0 := by simpa [ocpSlow, ocpQ] using hj
      have hi : i < 2 := hi
      rcases (by omega : i = 0 ∨ i = 1) with rfl | rfl <;>
        norm_num [entry, ocpSlow, ocpQ, Within, Ext.Below, Ext.Above, trajSlow]
    · obtain rfl : j = 0 := by simpa [ocpSlow, ocpQ] using hj
      norm_num [entry, ocpSlow, ocpQ, Within, Ext.Below, Ext.Above, trajSlow]
    · simp [entry, ocpSlow, ocpQ, Within, Ext.Below, Ext.Above, trajSlow]
    · simp [entry, ocpSlow, ocpQ, Within, Ext.Below, Ext.Above, trajSlow]
    · simp [ocpSlow, ocpQ] at hk
  · intro F hF j hj s i ho
    obtain rfl : j = 0 := by simpa [ocpSlow, ocpQ] using hj
    obtain ⟨rfl, -⟩ := meshE_owns ho
    have hF : (⟨1, fun p _ => p.u.getD 0 0⟩ : VFun (PArg ℚ) ℚ) = F := by simpa [ocpSlow, ocpQ] using hF
    rw [meshE_piece, meshE_half, ← hF]
    simp [trajSlow, OCP.pArg, ocpSlow, ocpQ]
  · intro F hF s i ho c hc
    obtain ⟨rfl, hi⟩ := meshE_owns ho
    have hF : (⟨1, fun p _ => p.x.getD 0 0 - 3⟩ : VFun (PArg ℚ) ℚ) = F := by simpa [ocpSlow, ocpQ] using hF
    rw [← hF]
    rcases hi with rfl | rfl <;> norm_num [trajSlow, OCP.pArg, ocpSlow, ocpQ, Mesh.idx, segStart]
  · intro F hF c hc
    have hF : (⟨1, fun t _ => t.xf.getD 0 0 - 1⟩ : VFun (TArg ℚ) ℚ) = F := by simpa [ocpSlow, ocpQ] using hF
    rw [← hF]
    simp [trajSlow, OCP.tArg, ocpSlow, ocpQ, Mesh.N, meshE]
  · intro j hj s hs i hi
    obtain rfl : j = 0 := by simpa [ocpSlow, ocpQ] using hj
    obtain rfl : s = 0 := by simpa [meshE] using hs
    rw [meshE_piece]
    norm_num [trajSlow, entry, ocpSlow, ocpQ, Within, Ext.Below, Ext.Above]
  · simp [ocpSlow, ocpQ] at h
  · simp [ocpSlow, ocpQ] at h

/-- What trajectories of `ocpQ` on one segment cost. -/
theorem costE_value {T : Traj ℚ} {J : ℚ} (hT : SolvesOCP ocpQ meshE T) (hw : T.w 0 0 = 1)
    (hJ : PhysCost ocpQ meshE [1, 1] T J) : T.tf 0 * T.u 0 0 0 = 1 ∧ J = T.tf 0 + T.u 0 0 0 := by
  obtain ⟨⟨hB, hC, -, hTm, -, -, -⟩, -⟩ := hT
  have h0 : (0 : Nat) < ocpQ.nPhases := by simp [ocpQ]
  obtain ⟨b1, -, -, b4, b5, -⟩ := hB 0 h0
  have x0 : T.x 0 0 0 = 0 := by simpa [ocpQ, entry] using b1 rfl 0 (by simp [ocpQ])
  have t0 : T.t0 0 = 0 := by
    have : (0 : ℚ) ≤ T.t0 0 ∧ T.t0 0 ≤ 0 := by simpa [ocpQ, entry, Within, Ext.Below, Ext.Above] using b4
    exact le_antisymm this.2 this.1
  have x1 : T.x 0 1 0 = 1 := by
    have := hTm 0 h0 ⟨1, fun t _ => t.xf.getD 0 0 - 1⟩ rfl 0 Nat.one_pos
    have : T.x 0 1 0 - 1 = 0 := by simpa [OCP.tArg, ocpQ, Mesh.N, meshE] using this
    linarith
  have own : ∀ i, i = 0 ∨ i = 1 → meshE.Owns 0 i := by
    rintro i (rfl | rfl) <;> simp [Mesh.Owns, meshE, Mesh.order]
  have dyn : ∀ i, i = 0 ∨ i = 1 → T.tf 0 * T.u 0 i 0 = 1 := by
    intro i hi
    have := hC 0 h0 ⟨1, fun p _ => p.u.getD 0 0⟩ rfl 0 (by simp [ocpQ]) 0 i (own i hi)
    rw [meshE_piece, meshE_half, x0, x1, t0, hw] at this
    have e : (1 : ℚ) / 2 = T.tf 0 / 2 * T.u 0 (meshE.idx 0 i) 0 := by
      simpa [OCP.pArg, ocpQ] using this
    have ei : meshE.idx 0 i = i := by simp [Mesh.idx, segStart, meshE]
    rw [ei] at e
    linarith
  obtain ⟨v, hv, rfl⟩ := hJ
  have run : ∀ i, i = 0 ∨ i = 1 → v 0 i = T.u 0 i 0 / 2 := by
    intro i hi
    have := hv 0 h0 (fun p => p.u.getD 0 0 * p.u.getD 0 0) rfl 0 i (own i hi)
    have ei : meshE.idx 0 i = i := by simp [Mesh.idx, segStart, meshE]
    rw [meshE_half, ei, t0, hw] at this
    have e : v 0 i = T.tf 0 / 2 * (T.u 0 i 0 * T.u 0 i 0) := by
      simpa [OCP.pArg, ocpQ] using this
    rw [e, show T.tf 0 / 2 * (T.u 0 i 0 * T.u 0 i 0) = T.tf 0 * T.u 0 i 0 * T.u 0 i 0 / 2 by ring, dyn i hi,
      one_mul]
  have d0 := dyn 0 (Or.inl rfl)
  have d1 := dyn 1 (Or.inr rfl)
  have hne : T.tf 0 ≠ 0 := by rintro h; rw [h] at d0; simp at d0
  have hu : T.u 0 1 0 = T.u 0 0 0 := mul_left_cancel₀ hne (d1.trans d0.symm)
  have : TerminalCost ocpQ meshE T 0 = T.tf 0 := rfl
  refine ⟨d0, ?_⟩
  rw [show ocpQ.nPhases = 1 from rfl]
  simp [weightedSum, Finset.sum_range_succ, run, hu, this]

/-- With controls of at most 1/2 it costs at least 5/2. -/
theorem costSlow_ge {T : Traj ℚ} {J : ℚ} (hT : SolvesOCP ocpSlow meshE T) (hw : T.w 0 0 = 1)
    (hJ : PhysCost ocpSlow meshE [1, 1] T J) : 5 / 2 ≤ J := by
  obtain ⟨h1, rfl⟩ := costE_value (slow_loosens.solves hT) hw hJ
  have hB := hT.1.bounds 0 (by simp [ocpSlow, ocpQ])
  have hu : T.u 0 0 0 ≤ 1 / 2 := by
    have := (hB.u 0 (by simp [Mesh.N]) 0 (by simp [ocpSlow, ocpQ])).2
    simpa [ocpSlow, entry, Ext.Above] using this
  have htf : 0 ≤ T.tf 0 := by
    have := hB.tf.1
    simpa [ocpSlow, ocpQ, entry, Ext.Below] using this
  have hup : 0 < T.u 0 0 0 := by
    by_contra hn
    nlinarith
  nlinarith

theorem costSlow : PhysCost ocpSlow meshE [1, 1] trajSlow (5 / 2) := by
  refine ⟨fun _ _ => 1 / 4, fun ph hph => ?_, ?_⟩
  · obtain rfl : ph = 0 := by simpa [ocpSlow, ocpQ] using hph
    intro rc hrc s i ho
    obtain ⟨rfl, -⟩ := meshE_owns ho
    have hrc : (fun p : PArg ℚ => p.u.getD 0 0 * p.u.getD 0 0) = rc := by simpa [ocpSlow, ocpQ] using hrc
    rw [meshE_half, ← hrc]
    norm_num [trajSlow, OCP.pArg, ocpSlow, ocpQ]
  · rw [show ocpSlow.nPhases = 1 from rfl]
    have : TerminalCost ocpSlow meshE trajSlow 0 = 2 := rfl
    norm_num [weightedSum, Finset.sum_range_succ, this]

/-- The hypotheses of `C102_solve` are met by two runs with perfect solvers, and the looser problem is really cheaper: every
trajectory of the stricter one costs at least 5/2, and one of the looser one costs 2. -/
theorem C102_example : ocpSlow.Loosens ocpQ ∧ ocpSlow.SameCosts ocpQ ∧
    ∃ (nlpsol nlpsol' : SolverCall ℚ Nat → Py (List ℚ)) (out out' : _), (∀ c z, nlpsol c = .ok z → c.IsOptimal z) ∧
      (∀ c z, nlpsol' c = .ok z → c.IsOptimal z) ∧
      mpSolve outsideQ nlpsol ocpSlow [[0]] 1 (.int 1) "LGR" argsE false true = .ok out ∧
      mpSolve outsideQ nlpsol' ocpQ [[0]] 1 (.int 1) "LGR" argsE false true = .ok out' := by
  classical
  refine ⟨slow_loosens, slow_costs, ?_⟩
  obtain ⟨nlpsol', out', hopt', hrun'⟩ := exampleE
  obtain ⟨hv, hs, hsc⟩ := slow_ready
  obtain ⟨c, W, hW, hsol, hobj, hret⟩ := C52_solve_returns (V := Nat) (ocp := ocpSlow) (w := outsideQ) (a := argsE)
    (scheme := "LGR") (n := 1) (arg := .int 1) (M := meshE) (ptp := [[0]]) (rx := false) (rdx := true)
    hv hs hsc meshE_for rfl (by norm_num [outsideQ]) (by decide +kernel) (by simp [GoodWidths, argsE])
    (by
      intro ph hp
      obtain rfl : ph = 0 := by simpa [ocpSlow, ocpQ] using hp
      simp [ocpSlow, ocpQ, entry]) (by simp)
  have hW' : W = [1, 1] := by
    have : compQuadWeights ⟨outsideQ.method, outsideQ.tau0, outsideQ.tau1,
        tausFn outsideQ.lib outsideQ.tau0 outsideQ.tau1 "LGR"⟩ meshE.orders = .ok [1, 1] := by decide +kernel
    rw [this] at hW; cases hW; rfl
  subst hW'
  have hwE : WidthsAre ocpSlow 1 argsE.widths trajSlow := by
    intro ph _ s _; simp [trajSlow]
  have hzs : c.IsSolution (ocpSlow.packVec meshE.N trajSlow) := (hsol _).2 ⟨trajSlow, trajSlow_solves, hwE, rfl⟩
  have hz : c.IsOptimal (ocpSlow.packVec meshE.N trajSlow) := by
    refine ⟨hzs, fun z hz => ?_⟩
    obtain ⟨T, hT, hwT, rfl⟩ := (hsol z).1 hz
    rw [hobj _ _ hwE costSlow]
    obtain ⟨v, hv'⟩ := exists_samples ocpSlow meshE T
    have hJ : PhysCost ocpSlow meshE [1, 1] T _ := ⟨v, hv', rfl⟩
    rw [hobj _ _ hwT hJ]
    exact costSlow_ge hT (by simpa using hwT 0 (by simp [ocpSlow, ocpQ]) 0 (by simp)) hJ
  obtain ⟨out, ho⟩ := hret
    (fun c => if c.IsOptimal (ocpSlow.packVec meshE.N trajSlow) then .ok (ocpSlow.packVec meshE.N trajSlow)
      else .error .assertion) _ (if_pos hz) hzs.1
  refine ⟨_, nlpsol', out, out', fun c' z h => ?_, hopt', ho, hrun'⟩
  split at h
  · cases h; assumption
  · cases h

/-- The further hypotheses of `C102_cheaper` are met there: no negative weight, and phases run forwards. -/
theorem C102_example_forward : (∀ W, compQuadWeights ⟨outsideQ.method, outsideQ.tau0, outsideQ.tau1,
      tausFn outsideQ.lib outsideQ.tau0 outsideQ.tau1 "LGR"⟩ meshE.orders = .ok W → ∀ v ∈ W, 0 ≤ v) ∧
    ∀ T, SolvesOCP ocpSlow meshE T → WidthsAre ocpSlow 1 argsE.widths T →
      ∀ ph < ocpSlow.nPhases, T.t0 ph ≤ T.tf ph ∧ ∀ s < meshE.orders.length, 0 ≤ T.w s ph := by
  constructor
  · intro W hW
    have : compQuadWeights ⟨outsideQ.method, outsideQ.tau0, outsideQ.tau1,
        tausFn outsideQ.lib outsideQ.tau0 outsideQ.tau1 "LGR"⟩ meshE.orders = .ok [1, 1] := by decide +kernel
    rw [this] at hW; cases hW
    intro v hv
    obtain rfl : v = 1 := by simpa using hv
    norm_num
  · intro T hT hw ph hp
    obtain rfl : ph = 0 := by simpa [ocpSlow, ocpQ] using hp
    have hB := hT.1.bounds 0 hp
    refine ⟨?_, fun s hs => ?_⟩
    · have h1 : T.t0 0 ≤ 0 := by simpa [ocpSlow, ocpQ, entry, Ext.Above] using hB.t0.2
      have h2 : 0 ≤ T.tf 0 := by simpa [ocpSlow, ocpQ, entry, Ext.Below] using hB.tf.1
      linarith
    · obtain rfl : s = 0 := by simpa [meshE] using hs
      have := hw 0 hp 0 (by simp)
      rw [this]; norm_num

end MPOpt
