import Verif.Props.EndToEnd
import Verif.Props.Scaling

/-! # A concrete run for C52, C53: `min tf + ∫ u²`, `x' = u`, `x(0) = 0`, `x(tf) = 1` -/

set_option autoImplicit false

namespace MPOpt
open Polynomial

/-- One segment of order 1 on `[-1, 1]`. -/
def meshE : Mesh ℚ := ⟨[1], fun _ => [-1, 1], -1, 1⟩

/-- The straight line, in time 1. -/
def trajE : Traj ℚ :=
  { x := fun _ i _ => i, u := fun _ _ _ => 1, t0 := fun _ => 0, tf := fun _ => 1, a := fun _ _ => 0
    w := fun _ _ => 1 }

/-- Default call of `solve`. -/
def argsE : SolveArgs ℚ Nat := ⟨none, false, "ipopt", [], none⟩

theorem meshE_for : MeshFor outsideQ "LGR" 1 (.int 1) meshE := by
  refine ⟨⟨by simp [meshE], by simp [meshE], by simp [meshE], ?_, by simp [meshE], by simp [meshE]⟩, rfl, rfl, rfl,
    ?_⟩
  · intro p _; simp only [meshE]; norm_num
  · intro p hp
    obtain rfl : p = 1 := by simpa [meshE] using hp
    decide +kernel

theorem meshE_owns {s i : Nat} (h : meshE.Owns s i) : s = 0 ∧ (i = 0 ∨ i = 1) := by
  obtain ⟨h1, h2, -⟩ := h
  have hs : s = 0 := by simpa [meshE] using h1
  subst hs
  have : i ≤ 1 := h2
  omega

/-- The state polynomial of the segment. -/
theorem meshE_piece (v : Nat → ℚ) :
    meshE.piece v 0 = C ((v 1 - v 0) / 2) * (X + C 1) + C (v 0) := by
  apply meshE_for.good.piece_eq (by simp [meshE])
  · have : (C ((v 1 - v 0) / 2) * (X + C 1) + C (v 0) : ℚ[X]).degree ≤ 1 := by compute_degree
    exact this.trans_lt (by show ((1 : Nat) : WithBot Nat) < ((1 + 1 : Nat) : WithBot Nat); norm_cast)
  · intro i hi
    have hi : i ≤ 1 := hi
    rcases (by omega : i = 0 ∨ i = 1) with rfl | rfl
    · simp [meshE, Mesh.node, Mesh.idx, Mesh.order, segStart]
    · simp [meshE, Mesh.node, Mesh.idx, Mesh.order, segStart]; ring

theorem meshE_half (T : Traj ℚ) : meshE.halfWidth T 0 0 = (T.tf 0 - T.t0 0) / 2 * T.w 0 0 := by
  simp only [Mesh.halfWidth, meshE]; norm_num

theorem trajE_solves : SolvesOCP ocpQ meshE trajE := by
  refine ⟨⟨fun ph hph => ?_, fun ph hph => ?_, fun ph hph => ?_, fun ph hph => ?_, fun ph hph _ => ?_,
    fun ph hph h => ?_, fun h => absurd h (by simp [ocpQ])⟩, fun ph hph h => ?_⟩ <;>
    obtain rfl : ph = 0 := by simpa [ocpQ] using hph
  · refine ⟨fun _ j hj => ?_, fun i hi _ j hj => ?_, fun i _ j hj => ?_, ?_, ?_, fun k hk => ?_⟩
    · obtain rfl : j = 0 := by simpa [ocpQ] using hj
      simp [trajE, entry, ocpQ]
    · obtain rfl : j = 0 := by simpa [ocpQ] using hj
      have hi : i < 2 := hi
      rcases (by omega : i = 0 ∨ i = 1) with rfl | rfl <;>
        norm_num [entry, ocpQ, Within, Ext.Below, Ext.Above, trajE]
    · obtain rfl : j = 0 := by simpa [ocpQ] using hj
      norm_num [entry, ocpQ, Within, Ext.Below, Ext.Above, trajE]
    · simp [entry, ocpQ, Within, Ext.Below, Ext.Above, trajE]
    · simp [entry, ocpQ, Within, Ext.Below, Ext.Above, trajE]
    · simp [ocpQ] at hk
  · intro F hF j hj s i ho
    obtain rfl : j = 0 := by simpa [ocpQ] using hj
    obtain ⟨rfl, -⟩ := meshE_owns ho
    have hF : (⟨1, fun p _ => p.u.getD 0 0⟩ : VFun (PArg ℚ) ℚ) = F := by simpa [ocpQ] using hF
    rw [meshE_piece, meshE_half, ← hF]
    simp [trajE, OCP.pArg, ocpQ]
  · intro F hF s i ho c hc
    obtain ⟨rfl, hi⟩ := meshE_owns ho
    have hF : (⟨1, fun p _ => p.x.getD 0 0 - 3⟩ : VFun (PArg ℚ) ℚ) = F := by simpa [ocpQ] using hF
    rw [← hF]
    rcases hi with rfl | rfl <;> norm_num [trajE, OCP.pArg, ocpQ, Mesh.idx, segStart]
  · intro F hF c hc
    have hF : (⟨1, fun t _ => t.xf.getD 0 0 - 1⟩ : VFun (TArg ℚ) ℚ) = F := by simpa [ocpQ] using hF
    rw [← hF]
    simp [trajE, OCP.tArg, ocpQ, Mesh.N, meshE]
  · intro j hj s hs i hi
    obtain rfl : j = 0 := by simpa [ocpQ] using hj
    obtain rfl : s = 0 := by simpa [meshE] using hs
    rw [meshE_piece]
    norm_num [trajE, entry, ocpQ, Within, Ext.Below, Ext.Above]
  · simp [ocpQ] at h
  · simp [ocpQ] at h

/-- Every trajectory of the collocated problem costs at least 2. -/
theorem costE_ge {T : Traj ℚ} {J : ℚ} (hT : SolvesOCP ocpQ meshE T) (hw : T.w 0 0 = 1)
    (hJ : PhysCost ocpQ meshE [1, 1] T J) : 2 ≤ J := by
  obtain ⟨⟨hB, hC, -, hTm, -, -, -⟩, -⟩ := hT
  have h0 : (0 : Nat) < ocpQ.nPhases := by simp [ocpQ]
  obtain ⟨b1, -, -, b4, b5, -⟩ := hB 0 h0
  have x0 : T.x 0 0 0 = 0 := by simpa [ocpQ, entry] using b1 rfl 0 (by simp [ocpQ])
  have t0 : T.t0 0 = 0 := by
    have : (0 : ℚ) ≤ T.t0 0 ∧ T.t0 0 ≤ 0 := by simpa [ocpQ, entry, Within, Ext.Below, Ext.Above] using b4
    exact le_antisymm this.2 this.1
  have tf : 0 ≤ T.tf 0 := by simpa [ocpQ, entry, Within, Ext.Below, Ext.Above] using b5
  have x1 : T.x 0 1 0 = 1 := by
    have := hTm 0 h0 ⟨1, fun t _ => t.xf.getD 0 0 - 1⟩ rfl 0 Nat.one_pos
    have : T.x 0 1 0 - 1 = 0 := by simpa [OCP.tArg, ocpQ, Mesh.N, meshE] using this
    linarith
  have own : ∀ i, i = 0 ∨ i = 1 → meshE.Owns 0 i := by
    rintro i (rfl | rfl) <;> simp [Mesh.Owns, meshE, Mesh.order]
  have dyn : ∀ i, i = 0 ∨ i = 1 → T.tf 0 * T.u 0 i 0 = 1 := by
    intro i hi
    have := hC 0 h0 ⟨1, fun p _ => p.u.getD 0 0⟩ rfl 0 (by simp [ocpQ]) 0 i (own i hi)
    rw [meshE_piece, meshE_half, x0, x1, t0, hw] at this
    have e : (1 : ℚ) / 2 = T.tf 0 / 2 * T.u 0 (meshE.idx 0 i) 0 := by
      simpa [OCP.pArg, ocpQ] using this
    have ei : meshE.idx 0 i = i := by simp [Mesh.idx, segStart, meshE]
    rw [ei] at e
    linarith
  obtain ⟨v, hv, rfl⟩ := hJ
  have run : ∀ i, i = 0 ∨ i = 1 → v 0 i = T.u 0 i 0 / 2 := by
    intro i hi
    have := hv 0 h0 (fun p => p.u.getD 0 0 * p.u.getD 0 0) rfl 0 i (own i hi)
    have ei : meshE.idx 0 i = i := by simp [Mesh.idx, segStart, meshE]
    rw [meshE_half, ei, t0, hw] at this
    have e : v 0 i = T.tf 0 / 2 * (T.u 0 i 0 * T.u 0 i 0) := by
      simpa [OCP.pArg, ocpQ] using this
    rw [e, show T.tf 0 / 2 * (T.u 0 i 0 * T.u 0 i 0) = T.tf 0 * T.u 0 i 0 * T.u 0 i 0 / 2 by ring, dyn i hi,
      one_mul]
  have d0 := dyn 0 (Or.inl rfl)
  have d1 := dyn 1 (Or.inr rfl)
  have hne : T.tf 0 ≠ 0 := by rintro h; rw [h] at d0; simp at d0
  have hu : T.u 0 1 0 = T.u 0 0 0 := mul_left_cancel₀ hne (d1.trans d0.symm)
  have : TerminalCost ocpQ meshE T 0 = T.tf 0 := rfl
  have e : (∑ ph ∈ Finset.range ocpQ.nPhases, (TerminalCost ocpQ meshE T ph + weightedSum [1, 1] (v ph))) =
      T.tf 0 + T.u 0 0 0 := by
    rw [show ocpQ.nPhases = 1 from rfl]
    simp [weightedSum, Finset.sum_range_succ, run, hu, this]
  rw [e]
  nlinarith [sq_nonneg (T.tf 0 - T.u 0 0 0), sq_nonneg (T.tf 0 - 1), sq_nonneg (T.u 0 0 0 - 1),
    mul_nonneg tf (sq_nonneg (T.u 0 0 0 - 1))]

theorem costE : PhysCost ocpQ meshE [1, 1] trajE 2 := by
  refine ⟨fun _ _ => 1 / 2, fun ph hph => ?_, ?_⟩
  · obtain rfl : ph = 0 := by simpa [ocpQ] using hph
    intro rc hrc s i ho
    obtain ⟨rfl, -⟩ := meshE_owns ho
    have hrc : (fun p : PArg ℚ => p.u.getD 0 0 * p.u.getD 0 0) = rc := by simpa [ocpQ] using hrc
    rw [meshE_half, ← hrc]
    simp [trajE, OCP.pArg, ocpQ]
  · rw [show ocpQ.nPhases = 1 from rfl]
    have : TerminalCost ocpQ meshE trajE 0 = 1 := rfl
    norm_num [weightedSum, Finset.sum_range_succ, this]

/-- The hypotheses of C52, C53 are met by a run with a perfect NLP solver: the solver returns the straight line and
`solve` returns. -/
theorem exampleE : ∃ (nlpsol : SolverCall ℚ Nat → Py (List ℚ)) (out : _),
    (∀ c z, nlpsol c = .ok z → c.IsOptimal z) ∧
      mpSolve outsideQ nlpsol ocpQ [[0]] 1 (.int 1) "LGR" argsE false true = .ok out := by
  classical
  obtain ⟨hv, hs, hsc⟩ := ocpQ_ready
  obtain ⟨c, W, hW, hsol, hobj, hret⟩ := C52_solve_returns (V := Nat) (ocp := ocpQ) (w := outsideQ) (a := argsE)
    (scheme := "LGR") (n := 1) (arg := .int 1) (M := meshE) (ptp := [[0]]) (rx := false) (rdx := true)
    hv hs hsc meshE_for rfl (by norm_num [outsideQ]) (by decide +kernel) (by simp [GoodWidths, argsE])
    (by
      intro ph hp
      obtain rfl : ph = 0 := by simpa [ocpQ] using hp
      simp [ocpQ, entry]) (by simp)
  have hW' : W = [1, 1] := by
    have : compQuadWeights ⟨outsideQ.method, outsideQ.tau0, outsideQ.tau1,
        tausFn outsideQ.lib outsideQ.tau0 outsideQ.tau1 "LGR"⟩ meshE.orders = .ok [1, 1] := by decide +kernel
    rw [this] at hW; cases hW; rfl
  subst hW'
  have hwE : WidthsAre ocpQ 1 argsE.widths trajE := by
    intro ph _ s _; simp [trajE]
  have hzs : c.IsSolution (ocpQ.packVec meshE.N trajE) := (hsol _).2 ⟨trajE, trajE_solves, hwE, rfl⟩
  have hz : c.IsOptimal (ocpQ.packVec meshE.N trajE) := by
    refine ⟨hzs, fun z hz => ?_⟩
    obtain ⟨T, hT, hwT, rfl⟩ := (hsol z).1 hz
    rw [hobj _ _ hwE costE]
    obtain ⟨v, hv'⟩ := exists_samples ocpQ meshE T
    have hJ : PhysCost ocpQ meshE [1, 1] T _ := ⟨v, hv', rfl⟩
    rw [hobj _ _ hwT hJ]
    exact costE_ge hT (by simpa using hwT 0 (by simp [ocpQ]) 0 (by simp)) hJ
  obtain ⟨out, ho⟩ := hret
    (fun c => if c.IsOptimal (ocpQ.packVec meshE.N trajE) then .ok (ocpQ.packVec meshE.N trajE)
      else .error .assertion) _ (if_pos hz) hzs.1
  refine ⟨_, out, fun c' z h => ?_, ho⟩
  split at h
  · cases h; assumption
  · cases h

end MPOpt
