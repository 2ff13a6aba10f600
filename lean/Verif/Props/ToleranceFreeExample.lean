import Verif.Props.ToleranceFree
import Verif.Props.AdaptiveEndExample
import Verif.Props.HEndExample
import Verif.Props.ToleranceExample

/-! # Concrete runs for C86: the problem of C54 and of C60 with solvers that have tolerances -/

set_option autoImplicit false

namespace MPOpt
open Polynomial

/-- The straight line, with a segment that is too wide by `δ`. -/
def trajW (δ : ℚ) : Traj ℚ :=
  { x := fun _ i _ => i, u := fun _ _ _ => 1, t0 := fun _ => 0, tf := fun _ => 1, a := fun _ _ => 0
    w := fun _ _ => 1 + δ }

theorem trajW_solves {δ : ℚ} (h0 : 0 ≤ δ) (h1 : δ ≤ 1 / 100) :
    SolvesAdaptiveTo δ δ ocpQ meshE (trajW δ) [1 / 10000] [1] [1 / 1000] true := by
  refine ⟨fun ph hph => ?_, fun ph hph => ?_, fun ph hph => ?_, fun ph hph => ?_, fun ph hph h => ?_,
    fun ph hph s hs => ?_, fun ph hph s hs => ?_, fun ph hph => ?_, fun ph hph => ?_, fun ph hph => ?_,
    fun _ ph hph => ?_, fun h => absurd h (by simp [ocpQ])⟩ <;>
    obtain rfl : ph = 0 := by simpa [ocpQ] using hph
  · refine ⟨fun _ j hj => ?_, fun i hi _ j hj => ?_, fun i _ j hj => ?_, ?_, ?_, fun k hk => ?_⟩
    · obtain rfl : j = 0 := by simpa [ocpQ] using hj
      norm_num [trajW, entry, ocpQ]; linarith
    · obtain rfl : j = 0 := by simpa [ocpQ] using hj
      have hi : i < 2 := hi
      rcases (by omega : i = 0 ∨ i = 1) with rfl | rfl <;>
        norm_num [entry, ocpQ, WithinTo, Ext.Below, Ext.Above, trajW] <;> (try constructor) <;> linarith
    · obtain rfl : j = 0 := by simpa [ocpQ] using hj
      norm_num [entry, ocpQ, WithinTo, Ext.Below, Ext.Above, trajW]
      (try constructor) <;> linarith
    · norm_num [entry, ocpQ, WithinTo, Ext.Below, Ext.Above, trajW]
      (try constructor) <;> linarith
    · norm_num [entry, ocpQ, WithinTo, Ext.Below, Ext.Above, trajW]
      (try constructor) <;> linarith
    · simp [ocpQ] at hk
  · intro F hF j hj s i ho
    obtain rfl : j = 0 := by simpa [ocpQ] using hj
    obtain ⟨rfl, -⟩ := meshE_owns ho
    have hF : (⟨1, fun p _ => p.u.getD 0 0⟩ : VFun (PArg ℚ) ℚ) = F := by simpa [ocpQ] using hF
    rw [meshE_piece, meshE_half, ← hF]
    norm_num [trajW, OCP.pArg, ocpQ, abs_le]
    constructor <;> linarith
  · intro F hF s i ho c hc
    obtain ⟨rfl, hi⟩ := meshE_owns ho
    have hF : (⟨1, fun p _ => p.x.getD 0 0 - 3⟩ : VFun (PArg ℚ) ℚ) = F := by simpa [ocpQ] using hF
    rw [← hF]
    rcases hi with rfl | rfl <;> norm_num [trajW, OCP.pArg, ocpQ, Mesh.idx, segStart] <;> linarith
  · intro F hF c hc
    have hF : (⟨1, fun t _ => t.xf.getD 0 0 - 1⟩ : VFun (TArg ℚ) ℚ) = F := by simpa [ocpQ] using hF
    rw [← hF]
    norm_num [trajW, OCP.tArg, ocpQ, Mesh.N, meshE]; linarith
  · simp [ocpQ] at h
  · norm_num [trajW]; linarith
  · norm_num [trajW]
  · norm_num [trajW, meshE, abs_of_nonneg h0]
  · intro j hj s hs i hi
    obtain rfl : j = 0 := by simpa [ocpQ] using hj
    obtain rfl : s = 0 := by simpa [meshE] using hs
    rw [meshE_piece]
    norm_num [trajW, entry, ocpQ, WithinTo, Ext.Below, Ext.Above]
    (try constructor) <;> linarith
  · intro j hj s hs i hi
    obtain rfl : j = 0 := by simpa [ocpQ] using hj
    obtain rfl : s = 0 := by simpa [meshE] using hs
    obtain rfl : i = 0 := by simpa [meshE, Mesh.order] using hi
    rw [meshE_piece]
    norm_num [trajW, entry, ocpQ, WithinTo, Ext.Below, Ext.Above, meshE, Mesh.node, Mesh.order]
    (try constructor) <;> linarith
  · intro F hF j hj s hs i hi
    obtain rfl : j = 0 := by simpa [ocpQ] using hj
    obtain rfl : s = 0 := by simpa [meshE] using hs
    have hF : (⟨1, fun p _ => p.u.getD 0 0⟩ : VFun (PArg ℚ) ℚ) = F := by simpa [ocpQ] using hF
    have e : ocpQ.defect meshE (trajW δ) F 0 0 ((meshE.node 0 i + meshE.node 0 (i + 1)) / 2) 0 = -δ / 2 := by
      unfold OCP.defect OCP.pArgAt
      rw [← hF, meshE_piece, meshE_half]
      simp only [ocpQ, meshE_piece, trajW]
      norm_num
      ring
    rw [e, abs_le]
    constructor <;> norm_num [trajW, ocpQ] <;> nlinarith

theorem costW (δ : ℚ) : PhysCost ocpQ meshE [1, 1] (trajW δ) (2 + δ) := by
  refine ⟨fun _ _ => (1 + δ) / 2, fun ph hph => ?_, ?_⟩
  · obtain rfl : ph = 0 := by simpa [ocpQ] using hph
    intro rc hrc s i ho
    obtain ⟨rfl, -⟩ := meshE_owns ho
    have hrc : (fun p : PArg ℚ => p.u.getD 0 0 * p.u.getD 0 0) = rc := by simpa [ocpQ] using hrc
    rw [meshE_half, ← hrc]
    norm_num [trajW, OCP.pArg, ocpQ]
    ring
  · rw [show ocpQ.nPhases = 1 from rfl]
    have : TerminalCost ocpQ meshE (trajW δ) 0 = 1 := rfl
    norm_num [weightedSum, Finset.sum_range_succ, this]
    ring

/-- The width is not admissible, so this is no solution without tolerances. -/
theorem trajW_not {δ : ℚ} (h0 : 0 < δ) : ¬ SolvesAdaptive ocpQ meshE (trajW δ) [1 / 10000] [1] [1 / 1000] true := by
  intro h
  have := (h.1.widths 0 (by simp [ocpQ])).sum
  simp [meshE, trajW] at this
  exact h0.ne' this

/-- A solver that is optimal up to `δ` in every respect, and `solve` with it. -/
theorem exampleW {δ : ℚ} (h0 : 0 < δ) (h1 : δ ≤ 1 / 100) : ∃ nlpsol : SolverCall ℚ Nat → Py (List ℚ),
    (∀ c z, nlpsol c = .ok z → c.NearOptimal δ δ δ z) ∧
    (∃ c, nlpsol c = .ok (ocpQ.packFree 2 1 (trajW δ)) ∧ ¬ c.IsSolution (ocpQ.packFree 2 1 (trajW δ))) ∧
    (adaptE.solve outsideQ nlpsol argsE).2 = .ok (ocpQ.packFree 2 1 (trajW δ)) ∧
    (adaptE.solve outsideQ nlpsol argsE).1.widths = some (ocpQ.packWidths 1 (trajW δ)) ∧
    (δ < 1 / 1000000 →
      ∃ out, (adaptE.solve outsideQ nlpsol argsE).1.processResults outsideQ [[0]] false false true = .ok out) := by
  classical
  obtain ⟨hv, hs, hsc⟩ := ocpQ_ready
  obtain ⟨c, W, hW, hsol, hobj, hret⟩ := C86_adaptive_returns (a := argsE) (ptp := [[0]]) (rx := false) (rdx := true)
    adaptE_fresh.ready hv hs hsc rfl rfl rfl meshE_for (by norm_num [outsideQ]) rfl (by decide +kernel)
    (by
      intro ph hp
      obtain rfl : ph = 0 := by simpa [ocpQ] using hp
      simp [ocpQ, entry]) (by simp)
  have hW' : W = [1, 1] := by
    have : compQuadWeights ⟨outsideQ.method, outsideQ.tau0, outsideQ.tau1,
        tausFn outsideQ.lib outsideQ.tau0 outsideQ.tau1 "LGR"⟩ meshE.orders = .ok [1, 1] := by decide +kernel
    rw [this] at hW; cases hW; rfl
  subst hW'
  have hT := trajW_solves h0.le h1
  have exact0 : ∀ z, c.IsSolution z → c.NearSolution 0 0 z := fun z h => near_zero.2 h
  have hopt : c.NearOptimal δ δ δ (ocpQ.packFree 2 1 (trajW δ)) := by
    refine ⟨(hsol _ _ _).2 ⟨_, hT, rfl⟩, fun z' hz' => ?_⟩
    obtain ⟨T, hT, rfl⟩ := (hsol _ _ _).1 (exact0 z' hz')
    rw [show ocpQ.packFree 2 1 (trajW δ) = ocpQ.packFree meshE.N 1 (trajW δ) from rfl, hobj _ _ (costW δ)]
    obtain ⟨v, hv'⟩ := exists_samples ocpQ meshE T
    have hJ : PhysCost ocpQ meshE [1, 1] T _ := ⟨v, hv', rfl⟩
    rw [hobj _ _ hJ]
    have hT := (C86_exact T).1 hT
    have hw := (hT.1.widths 0 (by simp [ocpQ])).sum
    have hmu := hT.1.midControl
    have := costE_ge ⟨⟨hT.1.bounds, hT.1.dynamics, hT.1.path, hT.1.terminal, fun ph hp _ => hmu ph hp,
      fun ph hp h => by
        obtain rfl : ph = 0 := by simpa [ocpQ] using hp
        simp [ocpQ] at h, hT.1.links⟩, hT.2⟩ (by simpa [meshE] using hw) hJ
    linarith
  have hnot : ¬ c.IsSolution (ocpQ.packFree 2 1 (trajW δ)) := by
    intro h
    obtain ⟨T, hT, e⟩ := (hsol _ _ _).1 (exact0 _ h)
    have hw := (((C86_exact T).1 hT).1.widths 0 (by simp [ocpQ])).sum
    have hw : T.w 0 0 = 1 := by simpa [meshE] using hw
    have e := congrArg (fun l => l.getD 6 0) e
    have : 1 + δ = T.w 0 0 := by
      simpa [OCP.packFree, ocpQ, Mesh.N, meshE, List.range_succ, trajW] using e
    linarith
  obtain ⟨k1, k2, k3⟩ := hret (fun c => if c.NearOptimal δ δ δ (ocpQ.packFree 2 1 (trajW δ))
    then .ok (ocpQ.packFree 2 1 (trajW δ)) else .error .assertion) δ δ _ hT (if_pos hopt)
  refine ⟨_, fun c' z' h => ?_, ⟨c, if_pos hopt, hnot⟩, k1, k2, fun hδ => k3 (fun v hv => ?_) hδ⟩
  · split at h
    · cases h; assumption
    · cases h
  · obtain rfl : v = 1 / 10000 := by simpa using hv
    linarith

/-- The hypotheses of C86 are met by a run with a solver that has tolerances: what it returns is no solution of the
NLP, and `solve` and `process_results` return. -/
theorem exampleFreeNear : ∃ (nlpsol : SolverCall ℚ Nat → Py (List ℚ)) (z : List ℚ) (out : _),
    (∀ c z, nlpsol c = .ok z → c.NearOptimal (1 / 2000000) (1 / 2000000) (1 / 2000000) z) ∧
      (∃ c, nlpsol c = .ok z ∧ ¬ c.IsSolution z) ∧ (adaptE.solve outsideQ nlpsol argsE).2 = .ok z ∧
      (adaptE.solve outsideQ nlpsol argsE).1.processResults outsideQ [[0]] false false true = .ok out := by
  obtain ⟨nlpsol, h1, h2, h3, -, h4⟩ := exampleW (δ := 1 / 2000000) (by norm_num) (by norm_num)
  obtain ⟨out, h4⟩ := h4 (by norm_num)
  exact ⟨nlpsol, _, out, h1, h2, h3, h4⟩

/-- **C86 for coarse tolerances: false.** With a solver that respects a tolerance of `1/100` the call of
`process_results` after a `solve` that returned need not return. -/
theorem C86_coarse_false : ∃ (nlpsol : SolverCall ℚ Nat → Py (List ℚ)) (z : List ℚ),
    (∀ c z, nlpsol c = .ok z → c.NearOptimal (1 / 100) (1 / 100) (1 / 100) z) ∧
      (adaptE.solve outsideQ nlpsol argsE).2 = .ok z ∧
      ∀ out, (adaptE.solve outsideQ nlpsol argsE).1.processResults outsideQ [[0]] false false true ≠ .ok out := by
  obtain ⟨nlpsol, h1, -, h3, h4, -⟩ := exampleW (δ := 1 / 100) (by norm_num) (by norm_num)
  refine ⟨nlpsol, _, h1, h3, fun out h => ?_⟩
  have := C86_residuals_need_sum (nlpsol := nlpsol) adaptE_fresh.ready ocpQ_ready.1 meshE_for [argsE] (T := trajW (1 / 100))
    rfl h4 h 0 (by simp [ocpQ])
  norm_num [trajW] at this

/-! ### `mpopt_h_adaptive` -/

open Classical in
/-- A solver with tolerances: a line that misses the target, whenever it is within `1/100` of the NLP asked for. -/
noncomputable def nlpsolN (_ _ : Nat) (c : SolverCall ℚ (List ℚ)) : Py (PyDict (List ℚ)) :=
  if c.NearOptimal (1 / 100) (1 / 100) 0 (ocpQ.packVec 2 trajN) then .ok [("x", ocpQ.packVec 2 trajN)]
  else .error .assertion

theorem nlpsolN_answers {c : SolverCall ℚ (List ℚ)} (h : Asked outsideH hoptE c) :
    c.p = [1] ∧ ∀ i k, nlpsolN i k c = .ok [("x", ocpQ.packVec 2 trajN)] := by
  obtain ⟨hv, hs, hsc⟩ := ocpQ_ready
  obtain ⟨d, honM, h1, h2, hW, hc⟩ := hoptE_fresh.ready.coherent meshE_forH
  obtain ⟨d', k1, k2, k3, k4⟩ := h
  obtain rfl : d = d' := Except.ok.inj (hc.disc.symm.trans k1)
  have hp : c.p = [1] := by
    obtain ⟨l1, l2⟩ := k4
    obtain ⟨-, l3⟩ := l2 0 Nat.one_pos
    match hcp : c.p, l1 with
    | [a], _ =>
      have : a = 1 := by rw [hcp] at l3; simpa [hoptE] using l3
      rw [this]
  refine ⟨hp, fun i k => ?_⟩
  have hW' : d.compW = [1, 1] := by
    have : compQuadWeights ⟨outsideH.method, outsideH.tau0, outsideH.tau1,
        tausFn outsideH.lib outsideH.tau0 outsideH.tau1 "LGR"⟩ meshE.orders = .ok [1, 1] := by decide +kernel
    rw [this] at hW; exact (Except.ok.inj hW).symm
  have hseg : d.widthParams.length = 1 := by
    unfold Disc.widthParams; rw [h1, h2]; rfl
  obtain ⟨hsol, hobj⟩ := call_trajectories (req := some c.p) honM (by rw [h1]; exact hv) (by rw [h1]; exact hs)
    (by rw [h1]; exact hsc) k2 k3 (by rw [hp, hseg]; rfl) rfl
  have hnear := call_near_trajectories (req := some c.p) honM (by rw [h1]; exact hv) (by rw [h1]; exact hs)
    (by rw [h1]; exact hsc) k2 k3 (by rw [hp, hseg]; rfl) rfl (1 / 100) (1 / 100)
  rw [h1, h2] at hsol hobj hnear
  rw [hW'] at hobj
  have hwN : WidthsAre ocpQ 1 (some c.p) trajN := by
    show ocpQ.packWidths 1 trajN = c.p
    rw [hp]; rfl
  unfold nlpsolN
  refine if_pos ⟨(hnear _).2 ⟨trajN, trajN_solves, hwN, rfl⟩, fun z hz => ?_⟩
  obtain ⟨T, hT, hwT, rfl⟩ := (hsol z).1 hz
  rw [show ocpQ.packVec 2 trajN = ocpQ.packVec meshE.N trajN from rfl, hobj _ _ hwN costN]
  obtain ⟨v, hv'⟩ := exists_samples ocpQ meshE T
  have hJ : PhysCost ocpQ meshE [1, 1] T _ := ⟨v, hv', rfl⟩
  rw [hobj _ _ hwT hJ]
  have hwT : ocpQ.packWidths 1 T = c.p := hwT
  rw [hp] at hwT
  have := costE_ge hT (by simpa [OCP.packWidths, ocpQ] using hwT) hJ
  linarith

/-- The hypotheses of C86 for `mpopt_h_adaptive` are met: two calls return, and `process_results` after them. -/
theorem exampleHNear : OwnStarts callsE ∧
    (∀ n k c sol, nlpsolN n k c = .ok sol → ∃ z, Returned outsideH sol z ∧ c.NearOptimal (1 / 100) (1 / 100) 0 z) ∧
    ∃ s' sol out, hoptE.run outsideH nlpsolN callsE 0 none = (s', some sol) ∧
      s'.processResults outsideH sol [[0]] false true true = .ok out := by
  obtain ⟨hv, hs, hsc⟩ := ocpQ_ready
  have ho : OwnStarts callsE := by
    intro c hc x
    simp only [callsE, List.mem_cons, List.not_mem_nil, or_false] at hc
    rcases hc with rfl | rfl <;> simp
  refine ⟨ho, fun n k c sol h => ?_, ?_⟩
  · unfold nlpsolN at h
    split at h
    · cases h; exact ⟨_, ⟨_, rfl, rfl⟩, ‹_›⟩
    · cases h
  obtain ⟨s', sol, p, r1, -, -, out, r2⟩ := C62_h_returns (ptp := [[0]]) (rx := true) (rdx := true)
    (nlpsol := nlpsolN) hoptE_fresh.ready hv hs hsc meshE_forH (by norm_num [outsideH]) (by intro q _; simp [meshE])
    rfl rfl rfl rfl (by norm_num [hoptE]) (fun _ h => nomatch h) (by
      intro ph l u hl hu
      match ph with
      | 0 => cases hl; cases hu; norm_num
      | ph + 1 => cases hl) (fun l => abs_nonneg _) (by
      intro ph hp
      obtain rfl : ph = 0 := by simpa [ocpQ] using hp
      simp [ocpQ, entry]) (calls := callsE) (by simp [callsE]) ho (by
      intro c hc
      simp only [callsE, List.mem_cons, List.not_mem_nil, or_false] at hc
      rcases hc with rfl | rfl <;> exact ⟨by simp, rfl⟩) (fun i k c hc => by
      obtain ⟨hp, hk⟩ := nlpsolN_answers hc
      refine ⟨_, hk i k, ⟨⟨trajN, ⟨⟨_, rfl, rfl⟩, by rw [hp]; rfl⟩, fun _ ph _ => by norm_num [trajN]⟩, ?_⟩⟩
      rintro ⟨c, hc, hm, -⟩
      exfalso
      simp only [callsE, List.mem_cons, List.not_mem_nil, or_false] at hc
      rcases hc with rfl | rfl <;> exact absurd hm (by decide +kernel)) (by simp)
  exact ⟨s', sol, out, r1, r2⟩

end MPOpt
