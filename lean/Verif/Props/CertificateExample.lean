import Verif.Props.Certificate
import Verif.Props.ExactFreeExample
import Verif.Props.ChebWeights
import Verif.Props.MineExample

/-! # C106: runs that meet its hypotheses, and meshes for which it fails -/

set_option autoImplicit false

namespace MPOpt
open Polynomial

/-- `V(t, x) = t/16 - x/2` for the example problem. -/
noncomputable def certR : Certificate := ⟨fun _ _ => C (-1 / 2), fun _ => C (1 / 16) * X⟩

/-- The straight line costs 1/16, and nothing costs less. -/
theorem certR_proves : certR.Proves ocpR (1 / 16) := by
  constructor
  · intro ph hph F L hF hL p _
    obtain rfl : ph = 0 := by simpa [ocpR] using hph
    have hF : (⟨1, fun p _ => p.u.getD 0 0⟩ : VFun (PArg ℝ) ℝ) = F := by simpa [ocpR] using hF
    have hL : (fun p : PArg ℝ => p.u.getD 0 0 * p.u.getD 0 0) = L := by simpa [ocpR] using hL
    rw [← hL, ← hF]
    simp only [Certificate.rate, show ocpR.nx = 1 from rfl, Finset.sum_range_one, certR, derivative_C, eval_zero,
      zero_mul, eval_C, derivative_mul, derivative_X, mul_one, zero_add]
    nlinarith [sq_nonneg (p.u.getD 0 0 - 1 / 4)]
  · intro E hE
    obtain ⟨b1, -, -, b4, b5, -⟩ := hE.bounds 0 (by simp [ocpR])
    have x0 : E.x 0 0 0 = 0 := by simpa [ocpR, entry] using b1 rfl 0 (by simp [ocpR])
    have x1 : E.x 0 1 0 - 1 / 4 = 0 := hE.terminal 0 (by simp [ocpR]) _ rfl 0 (by simp)
    have t0 : E.t0 0 = 0 := by
      have : (0 : ℝ) ≤ E.t0 0 ∧ E.t0 0 ≤ 0 := b4
      exact le_antisymm this.2 this.1
    have tf : E.tf 0 = 1 := by
      have : (1 : ℝ) ≤ E.tf 0 ∧ E.tf 0 ≤ 1 := b5
      exact le_antisymm this.2 this.1
    rw [show ocpR.nPhases = 1 from rfl, Finset.sum_range_one,
      show ocpR.terminalCosts.getD 0 (fun _ => 0) (ocpR.tArg E 0 2) = 0 from rfl]
    simp only [Certificate.value, show ocpR.nx = 1 from rfl, Finset.sum_range_one, certR, eval_C, eval_mul, eval_X, x0, t0, tf]
    linarith

theorem certR_fits {orders : List Nat} (h : ∀ p ∈ orders, 2 ≤ p) : certR.Fits ocpR orders := by
  intro ph _ p hp
  have := h p hp
  refine ⟨fun j _ => ?_, ?_⟩
  · show (C (-1 / 2) : ℝ[X]).natDegree + 1 ≤ p
    rw [natDegree_C]; omega
  · show (C (1 / 16) * X : ℝ[X]).natDegree + 1 ≤ 2 * p
    have : (C (1 / 16) * X : ℝ[X]).natDegree ≤ 1 := (natDegree_C_mul_le _ _).trans natDegree_X_le
    omega

theorem oneR {P : Nat → Prop} (h : P 0) : ∀ ph < ocpR.nPhases, P ph := by
  intro ph hp
  obtain rfl : ph = 0 := by simpa [ocpR] using hp
  exact h

/-- The hypotheses of `C106_adaptive` are met. -/
theorem exampleCertAdaptive : ∃ (M : Mesh ℝ) (nlpsol : SolverCall ℝ Nat → Py (List ℝ)) (z : List ℝ) (out : _),
    MeshFor outsideR "LGR" 2 (.list [2, 2]) M ∧ (adaptR.solve outsideR nlpsol argsR).2 = .ok z ∧
      (adaptR.solve outsideR nlpsol argsR).1.processResults outsideR [[0]] false false true = .ok out ∧
      ∃ T, out.1.Shows ocpR M T ∧
        ∀ W, compQuadWeights ⟨outsideR.method, outsideR.tau0, outsideR.tau1, tausFn outsideR.lib outsideR.tau0 outsideR.tau1
          "LGR"⟩ M.orders = .ok W → AtLeast (1 / 16) ocpR M W T := by
  obtain ⟨M, nlpsol, z, ⟨p, r⟩, hM, hopt, hz, hp, -⟩ := exampleFree
  obtain ⟨hv, hs, hsc⟩ := ocpR_ready
  have ho : M.orders = [2, 2] := hM.orders
  have hord : ∀ q ∈ M.orders, 2 ≤ q := by rw [ho]; simp
  obtain ⟨T, -, h2, h3⟩ := C106_adaptive certR_proves adaptR_fresh.ready hv hs hsc rfl rfl rfl (by norm_num) hM
    (by norm_num [outsideR]) hord (fun q _ => libR_jacobi 1 0 (q - 1)) (certR_fits hord) (fun c z h => (hopt c z h).sol) []
    argsR (Prod.ext rfl hz) hp
  exact ⟨M, nlpsol, z, (p, r), hM, hz, hp, T, h2, h3⟩

/-- The hypotheses of `C106_h` are met. -/
theorem exampleCertH : ∃ (M : Mesh ℝ) (nlpsol : Nat → Nat → SolverCall ℝ (List ℝ) → Py (PyDict (List ℝ))),
    MeshFor outsideRH.toOutside "LGR" 2 (.list [2, 2]) M ∧
      ∃ s' sol out, hoptR.run outsideRH nlpsol callsR 0 none = (s', some sol) ∧
        s'.processResults outsideRH sol [[0]] false false true = .ok out ∧
      ∃ T, out.1.Shows ocpR M T ∧
        ∀ W, compQuadWeights ⟨outsideRH.method, outsideRH.tau0, outsideRH.tau1, tausFn outsideRH.lib outsideRH.tau0
          outsideRH.tau1 "LGR"⟩ M.orders = .ok W → AtLeast (1 / 16) ocpR M W T := by
  obtain ⟨M, nlpsol, hM, hopt, s', sol, ⟨p, r⟩, hrun, hp, ⟨sw, e, hval⟩, -⟩ := exampleHExact
  obtain ⟨hv, hs, hsc⟩ := ocpR_ready
  have ho : M.orders = [2, 2] := hM.orders
  have hord : ∀ q ∈ M.orders, 2 ≤ q := by rw [ho]; simp
  have hown : OwnStarts callsR := by
    intro c hc x
    simp only [callsR, List.mem_cons, List.not_mem_nil, or_false] at hc
    rcases hc with rfl | rfl <;> simp
  obtain ⟨T, -, h2, -, h3⟩ := C106_h certR_proves hoptR_fresh.ready hv hs hsc hM (by norm_num [outsideRH]) hord
    (fun q _ => libR_jacobi 1 0 (q - 1)) (certR_fits hord) (fun n k c sol h => by
      obtain ⟨z, h1, h2⟩ := hopt n k c sol h
      exact ⟨z, h1, h2.sol⟩) hown hrun hp (by
      intro l hl
      rw [e] at hl
      cases hl
      exact hval)
  exact ⟨M, nlpsol, hM, s', sol, (p, r), hrun, hp, T, h2, h3⟩

/-! ### LGL and CGL -/

/-- Running cost 1 from time 0 to 1. -/
noncomputable def ocpUnit : OCP ℝ := { ocpMine abs with runningCosts := [fun _ => 1] }

noncomputable def certUnit : Certificate := ⟨fun _ _ => 0, fun _ => -X⟩

theorem certUnit_proves : certUnit.Proves ocpUnit 1 := by
  constructor
  · intro ph hph F L hF hL p _
    obtain rfl : ph = 0 := by simpa [ocpUnit, ocpMine] using hph
    have hL : (fun _ : PArg ℝ => (1 : ℝ)) = L := by simpa [ocpUnit] using hL
    rw [← hL]
    simp [Certificate.rate, certUnit]
  · intro E hE
    obtain ⟨-, -, -, b4, b5, -⟩ := hE.bounds 0 (by simp [ocpUnit, ocpMine])
    have t0 : E.t0 0 = 0 := by
      have : (0 : ℝ) ≤ E.t0 0 ∧ E.t0 0 ≤ 0 := b4
      exact le_antisymm this.2 this.1
    have tf : E.tf 0 = 1 := by
      have : (1 : ℝ) ≤ E.tf 0 ∧ E.tf 0 ≤ 1 := b5
      exact le_antisymm this.2 this.1
    rw [show ocpUnit.nPhases = 1 from rfl, Finset.sum_range_one,
      show ocpUnit.terminalCosts.getD 0 (fun _ => 0) (ocpUnit.tArg E 0 2) = 0 from rfl]
    simp [Certificate.value, certUnit, t0, tf]

/-- **C106** With several segments and nodes at both ends of the interval (LGL, CGL) the theorem fails, whatever the
orders: a certificate of degree 1 proves that the cost is at least 1, and every feasible trajectory is given a smaller one. -/
theorem C106_not_lobatto {V : Type} {w : Outside ℝ V} {scheme : String} {n : Nat} {arg : OrdersArg} {M : Mesh ℝ}
    (hM : MeshFor w scheme n arg M)
    (hrule : PositiveRule w.method w.tau0 w.tau1 (tausFn w.lib w.tau0 w.tau1 scheme) M.orders)
    (hlt : w.tau0 < w.tau1) (h2 : 2 ≤ M.orders.length) {W : List ℝ}
    (hW : compQuadWeights ⟨w.method, w.tau0, w.tau1, tausFn w.lib w.tau0 w.tau1 scheme⟩ M.orders = .ok W) :
    certUnit.Proves ocpUnit 1 ∧ (∃ T, SolvesOCP ocpUnit M T ∧ FullWidths M T 0) ∧
      ∀ T J, SolvesOCP ocpUnit M T → FullWidths M T 0 → PhysCost ocpUnit M W T J → J < 1 := by
  refine ⟨certUnit_proves, ?_, fun T J hT hf hJ => ?_⟩
  · have hm : (0 : ℝ) < M.orders.length := by exact_mod_cast (by omega : 0 < M.orders.length)
    refine ⟨⟨fun _ _ _ => 1, fun _ _ _ => 0, fun _ => 0, fun _ => 1, fun _ _ => 0, fun _ _ => 1 / M.orders.length⟩,
      ⟨⟨?_, ?_, ?_, ?_, ?_, ?_, ?_⟩, ?_⟩, ⟨fun s _ => by positivity, by simp; field_simp⟩⟩
    · intro ph hph
      obtain rfl : ph = 0 := by simpa [ocpUnit, ocpMine] using hph
      refine ⟨fun _ j hj => ?_, fun i _ _ j hj => ?_, fun i _ j hj => ?_, ?_, ?_, fun k hk => ?_⟩
      · obtain rfl : j = 0 := by simpa [ocpUnit, ocpMine] using hj
        simp [ocpUnit, ocpMine, entry]
      · obtain rfl : j = 0 := by simpa [ocpUnit, ocpMine] using hj
        simp [ocpUnit, ocpMine, entry, Within, Ext.Below, Ext.Above]
      · obtain rfl : j = 0 := by simpa [ocpUnit, ocpMine] using hj
        simp [ocpUnit, ocpMine, entry, Within, Ext.Below, Ext.Above]
      · simp [ocpUnit, ocpMine, entry, Within, Ext.Below, Ext.Above]
      · simp [ocpUnit, ocpMine, entry, Within, Ext.Below, Ext.Above]
      · simp [ocpUnit, ocpMine] at hk
    · intro ph hph F hF j hj s i ho
      obtain rfl : ph = 0 := by simpa [ocpUnit, ocpMine] using hph
      have hF : (⟨1, fun p _ => -p.u.getD 0 0⟩ : VFun (PArg ℝ) ℝ) = F := by simpa [ocpUnit, ocpMine] using hF
      rw [← hF, hM.good.piece_eq ho.1 _ (C 1) (by rw [degree_C one_ne_zero]; exact_mod_cast Nat.succ_pos _) fun i _ => by simp]
      simp [OCP.pArg, ocpUnit, ocpMine]
    · intro ph hph F hF; obtain rfl : ph = 0 := by simpa [ocpUnit, ocpMine] using hph
      simp [ocpUnit, ocpMine] at hF
    · intro ph hph F hF; obtain rfl : ph = 0 := by simpa [ocpUnit, ocpMine] using hph
      simp [ocpUnit, ocpMine] at hF
    · intro ph hph _ j hj s hs i hi
      obtain rfl : ph = 0 := by simpa [ocpUnit, ocpMine] using hph
      obtain rfl : j = 0 := by simpa [ocpUnit, ocpMine] using hj
      simp [ocpUnit, ocpMine, entry, Within, Ext.Below, Ext.Above]
    · intro ph hph h
      obtain rfl : ph = 0 := by simpa [ocpUnit, ocpMine] using hph
      simp [ocpUnit, ocpMine] at h
    · intro h; simp [ocpUnit, ocpMine] at h
    · intro ph hph h
      obtain rfl : ph = 0 := by simpa [ocpUnit, ocpMine] using hph
      simp [ocpUnit, ocpMine] at h
  · obtain ⟨-, -, -, b4, b5, -⟩ := hT.1.bounds 0 (by simp [ocpUnit, ocpMine])
    have t0 : T.t0 0 = 0 := by
      have : (0 : ℝ) ≤ T.t0 0 ∧ T.t0 0 ≤ 0 := b4
      exact le_antisymm this.2 this.1
    have tf : T.tf 0 = 1 := by
      have : (1 : ℝ) ≤ T.tf 0 ∧ T.tf 0 ≤ 1 := b5
      exact le_antisymm this.2 this.1
    obtain ⟨v, hv, rfl⟩ := hJ
    have := C74_minimum_time hM hrule hlt h2 (by rw [t0, tf]; norm_num) hf rfl (hv 0 (by simp [ocpUnit, ocpMine])) hW
    rw [show ocpUnit.nPhases = 1 from rfl, Finset.sum_range_one, show TerminalCost ocpUnit M T 0 = 0 from rfl, zero_add]
    rw [t0, tf] at this
    linarith

end MPOpt
