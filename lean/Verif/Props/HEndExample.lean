import Verif.Props.HReturns
import Verif.Props.EndToEndExample

/-! # Concrete runs for C59–C62: `x' = u`, `x(0) = 0`, `x(tf) = 1` on two segments, and on one -/

set_option autoImplicit false

namespace MPOpt
open Polynomial

/-- Values are lists of rationals, the norm is that of the first component. -/
def outsideH : HOutside ℚ (List ℚ) :=
  { lib := libQ, method := .numerical, tau0 := -1, tau1 := 1, vals := ⟨[], [], [], [], []⟩
    accepts := fun p _ => p == "ipopt", vec := fun _ => [], num := .ok, norm := fun l => |l.headD 0|, zero := [0] }

/-- Two segments of order 1 on `[-1, 1]`. -/
def meshH : Mesh ℚ := ⟨[1, 1], fun _ => [-1, 1], -1, 1⟩

/-- The straight line in time 1, the first segment taking the fraction `a`. -/
def trajH (a : ℚ) : Traj ℚ :=
  { x := fun _ i _ => if i = 0 then 0 else if i = 1 then a else 1, u := fun _ _ _ => 1, t0 := fun _ => 0
    tf := fun _ => 1, a := fun _ _ => 0, w := fun s _ => if s = 0 then a else 1 - a }

theorem meshH_for : MeshFor outsideH.toOutside "LGR" 2 (.int 1) meshH := by
  refine ⟨⟨by simp [meshH], by simp [meshH], by simp [meshH], ?_, by simp [meshH], by simp [meshH]⟩, rfl, rfl, rfl,
    ?_⟩
  · intro p _; simp only [meshH]; norm_num
  · intro p hp
    obtain rfl : p = 1 := by simpa [meshH] using hp
    decide +kernel

theorem meshH_idx {s i : Nat} (hs : s < 2) : meshH.idx s i = s + i := by
  rcases (by omega : s = 0 ∨ s = 1) with rfl | rfl <;> simp [Mesh.idx, segStart, meshH]

theorem meshH_owns {s i : Nat} (h : meshH.Owns s i) : s < 2 ∧ i ≤ 1 := by
  obtain ⟨h1, h2, -⟩ := h
  have hs : s < 2 := by simpa [meshH] using h1
  refine ⟨hs, ?_⟩
  rcases (by omega : s = 0 ∨ s = 1) with rfl | rfl <;> simpa [Mesh.order, meshH] using h2

/-- The state polynomials of the segments. -/
theorem meshH_piece (v : Nat → ℚ) {s : Nat} (hs : s < 2) :
    meshH.piece v s = C ((v (s + 1) - v s) / 2) * (X + C 1) + C (v s) := by
  apply meshH_for.good.piece_eq (by simpa [meshH] using hs)
  · have : (C ((v (s + 1) - v s) / 2) * (X + C 1) + C (v s) : ℚ[X]).degree ≤ 1 := by compute_degree
    refine this.trans_lt ?_
    rcases (by omega : s = 0 ∨ s = 1) with rfl | rfl <;>
      (show ((1 : Nat) : WithBot Nat) < ((1 + 1 : Nat) : WithBot Nat); norm_cast)
  · intro i hi
    rw [meshH_idx hs]
    have ho : meshH.order s = 1 := by rcases (by omega : s = 0 ∨ s = 1) with rfl | rfl <;> rfl
    rw [ho] at hi
    rcases (by omega : i = 0 ∨ i = 1) with rfl | rfl
    · simp [meshH, Mesh.node]
    · simp [meshH, Mesh.node]; ring

theorem meshH_half (T : Traj ℚ) (s : Nat) : meshH.halfWidth T 0 s = (T.tf 0 - T.t0 0) / 2 * T.w s 0 := by
  simp only [Mesh.halfWidth, meshH]; norm_num

theorem trajH_solves {a : ℚ} (h0 : 0 < a) (h1 : a < 1) : SolvesOCP ocpQ meshH (trajH a) := by
  refine ⟨⟨fun ph hph => ?_, fun ph hph => ?_, fun ph hph => ?_, fun ph hph => ?_, fun ph hph _ => ?_,
    fun ph hph h => ?_, fun h => absurd h (by simp [ocpQ])⟩, fun ph hph h => ?_⟩ <;>
    obtain rfl : ph = 0 := by simpa [ocpQ] using hph
  · refine ⟨fun _ j hj => ?_, fun i hi _ j hj => ?_, fun i _ j hj => ?_, ?_, ?_, fun k hk => ?_⟩
    · obtain rfl : j = 0 := by simpa [ocpQ] using hj
      simp [trajH, entry, ocpQ]
    · obtain rfl : j = 0 := by simpa [ocpQ] using hj
      have hi : i < 3 := hi
      rcases (by omega : i = 0 ∨ i = 1 ∨ i = 2) with rfl | rfl | rfl <;>
        norm_num [entry, ocpQ, Within, Ext.Below, Ext.Above, trajH]
      constructor <;> linarith
    · obtain rfl : j = 0 := by simpa [ocpQ] using hj
      norm_num [entry, ocpQ, Within, Ext.Below, Ext.Above, trajH]
    · simp [entry, ocpQ, Within, Ext.Below, Ext.Above, trajH]
    · simp [entry, ocpQ, Within, Ext.Below, Ext.Above, trajH]
    · simp [ocpQ] at hk
  · intro F hF j hj s i ho
    obtain rfl : j = 0 := by simpa [ocpQ] using hj
    obtain ⟨hs, hi⟩ := meshH_owns ho
    have hF : (⟨1, fun p _ => p.u.getD 0 0⟩ : VFun (PArg ℚ) ℚ) = F := by simpa [ocpQ] using hF
    rw [meshH_piece _ hs, meshH_half, ← hF]
    rcases (by omega : s = 0 ∨ s = 1) with rfl | rfl <;> simp [trajH, OCP.pArg, ocpQ]
    · ring
    · ring
  · intro F hF s i ho c hc
    obtain ⟨hs, hi⟩ := meshH_owns ho
    have hF : (⟨1, fun p _ => p.x.getD 0 0 - 3⟩ : VFun (PArg ℚ) ℚ) = F := by simpa [ocpQ] using hF
    rw [← hF]
    rcases (by omega : s = 0 ∨ s = 1) with rfl | rfl <;> rcases (by omega : i = 0 ∨ i = 1) with rfl | rfl <;>
      norm_num [trajH, OCP.pArg, ocpQ, meshH_idx] <;> linarith
  · intro F hF c hc
    have hF : (⟨1, fun t _ => t.xf.getD 0 0 - 1⟩ : VFun (TArg ℚ) ℚ) = F := by simpa [ocpQ] using hF
    rw [← hF]
    simp [trajH, OCP.tArg, ocpQ, Mesh.N, meshH]
  · intro j hj s hs i hi
    obtain rfl : j = 0 := by simpa [ocpQ] using hj
    have hs : s < 2 := by simpa [meshH] using hs
    rw [meshH_piece _ hs]
    norm_num [trajH, entry, ocpQ, Within, Ext.Below, Ext.Above]
  · simp [ocpQ] at h
  · simp [ocpQ] at h

/-- The object, with the default settings. -/
def hoptH : HOpt ℚ (List ℚ) :=
  ⟨ocpQ, 2, [1, 1], "LGR", [1 / 100000], [1], [1 / 100], ["fixed"], 15, 1 / 10, 1 / 20, false, none, none, none, 0, []⟩

theorem hoptH_fresh : hoptH.Fresh ocpQ 2 (.int 1) "LGR" [1 / 100000] [1] [1 / 100] := ⟨⟨hoptH, _, _, _, _, rfl, rfl⟩⟩

/-- A call that merges and splits; one that continues with the control slopes; one with an unknown method. -/
def callsH : List (HStart (List ℚ) × HArgs (List ℚ)) :=
  [(.fresh, ⟨none, false, "ipopt", [], [("method", "residual"), ("sub_method", "merge_split")], 4⟩),
    (.previous, ⟨none, true, "ipopt", [], [("method", "control_slope")], 3⟩),
    (.fresh, ⟨none, false, "ipopt", [], [("method", "nosuch")], 1⟩),
    (.previous, ⟨none, false, "ipopt", [], [("method", "control_slope")], 2⟩)]

open Classical in
/-- A sound solver: the straight line, whenever it solves the NLP asked for. -/
noncomputable def nlpsolH (_ _ : Nat) (c : SolverCall ℚ (List ℚ)) : Py (PyDict (List ℚ)) :=
  if c.IsSolution (ocpQ.packVec 3 (trajH (c.p.headD 0))) then .ok [("x", ocpQ.packVec 3 (trajH (c.p.headD 0)))]
  else .error .assertion

theorem validH {p : List ℚ} (h : ValidWidths 2 1 p) : ∃ a, 0 < a ∧ a < 1 ∧ p = [a, 1 - a] := by
  obtain ⟨h1, h2⟩ := h
  obtain ⟨h2, h3⟩ := h2 0 Nat.one_pos
  match p, h1 with
  | [a, b], _ =>
    have ha : 0 < a := h2 a (by simp)
    have hb : 0 < b := h2 b (by simp)
    have hs : a + b = 1 := by simpa using h3
    exact ⟨a, ha, by linarith, by rw [← hs]; simp⟩

theorem nlpsolH_answers {c : SolverCall ℚ (List ℚ)} (h : Asked outsideH hoptH c) :
    ∃ a, 0 < a ∧ a < 1 ∧ c.p = [a, 1 - a] ∧ ∀ i k, nlpsolH i k c = .ok [("x", ocpQ.packVec 3 (trajH a))] := by
  obtain ⟨hv, hs, hsc⟩ := ocpQ_ready
  obtain ⟨d, honM, h1, h2, -, hc⟩ := hoptH_fresh.ready.coherent meshH_for
  obtain ⟨d', k1, k2, k3, k4⟩ := h
  obtain rfl : d = d' := Except.ok.inj (hc.disc.symm.trans k1)
  obtain ⟨a, a0, a1, ha⟩ := validH k4
  refine ⟨a, a0, a1, ha, fun i k => ?_⟩
  have hseg : d.widthParams.length = 2 := by
    unfold Disc.widthParams; rw [h1, h2]; rfl
  have hsol := (call_trajectories (req := some c.p) honM (by rw [h1]; exact hv) (by rw [h1]; exact hs)
    (by rw [h1]; exact hsc) k2 k3 (by rw [ha, hseg]; rfl) rfl).1
  unfold nlpsolH
  rw [ha]
  refine if_pos ((hsol _).2 ⟨trajH a, by rw [h1]; exact trajH_solves a0 a1, ?_, by rw [h1]; rfl⟩)
  rw [h1, h2]
  show ocpQ.packWidths 2 (trajH a) = c.p
  rw [ha]
  simp [OCP.packWidths, trajH, ocpQ, List.range_succ]

/-- The hypotheses of C59, C61 and C62 are met: four calls on two segments return, and `process_results` after them. -/
theorem exampleH : OwnStarts callsH ∧ (∀ n k c sol, nlpsolH n k c = .ok sol → ∃ z, Returned outsideH sol z ∧
      c.IsSolution z ∧ z.length = c.solver.problem.x.length) ∧
    ∃ s' sol p, hoptH.run outsideH nlpsolH callsH 0 none = (s', some sol) ∧ s'.widths = some p ∧
      ValidWidths 2 1 p ∧ ∃ out, s'.processResults outsideH sol [[0]] false false true = .ok out := by
  obtain ⟨hv, hs, hsc⟩ := ocpQ_ready
  have ho : OwnStarts callsH := by
    intro c hc x
    simp only [callsH, List.mem_cons, List.not_mem_nil, or_false] at hc
    rcases hc with rfl | rfl | rfl | rfl <;> simp
  refine ⟨ho, fun n k c sol h => ?_, ?_⟩
  · unfold nlpsolH at h
    split at h
    · rename_i hc
      cases h
      exact ⟨_, ⟨_, rfl, rfl⟩, hc, hc.1⟩
    · cases h
  refine C62_h_returns hoptH_fresh.ready hv hs hsc meshH_for (by norm_num [outsideH]) (by intro q _; simp [meshH]) rfl rfl rfl
    rfl (by norm_num [hoptH]) (fun _ h => nomatch h) ?_ (fun l => abs_nonneg _) ?_ (by simp [callsH]) ho ?_ (fun i k c hc => ?_) (by simp)
  · intro ph l u hl hu
    match ph with
    | 0 => cases hl; cases hu; norm_num
    | ph + 1 => cases hl
  · intro ph hp
    obtain rfl : ph = 0 := by simpa [ocpQ] using hp
    simp [ocpQ, entry]
  · intro c hc
    simp only [callsH, List.mem_cons, List.not_mem_nil, or_false] at hc
    rcases hc with rfl | rfl | rfl | rfl <;> exact ⟨by simp, rfl⟩
  · obtain ⟨a, a0, a1, ha, hk⟩ := nlpsolH_answers hc
    refine ⟨_, hk i k, ⟨⟨trajH a, ⟨⟨_, rfl, rfl⟩, ?_⟩, fun _ ph _ => by simp [trajH]⟩, ?_⟩⟩
    · rw [ha]
      simp [OCP.packWidths, trajH, ocpQ, List.range_succ, meshH, hoptH]
    · rintro ⟨c, hc, hm, hsub⟩
      exfalso
      simp only [callsH, List.mem_cons, List.not_mem_nil, or_false] at hc
      rcases hc with rfl | rfl | rfl | rfl
      · exact absurd hsub (by decide +kernel)
      all_goals exact absurd hm (by decide +kernel)

/-! ### A perfect solver on one segment -/

theorem meshE_forH : MeshFor outsideH.toOutside "LGR" 1 (.int 1) meshE :=
  ⟨meshE_for.good, rfl, rfl, rfl, meshE_for.nodes⟩

/-- The object with one segment. -/
def hoptE : HOpt ℚ (List ℚ) :=
  ⟨ocpQ, 1, [1], "LGR", [1 / 100000], [1], [1 / 100], ["fixed"], 15, 1 / 10, 1 / 20, false, none, none, none, 0, []⟩

theorem hoptE_fresh : hoptE.Fresh ocpQ 1 (.int 1) "LGR" [1 / 100000] [1] [1 / 100] := ⟨⟨hoptE, _, _, _, _, rfl, rfl⟩⟩

/-- Two calls, the second continuing the first. -/
def callsE : List (HStart (List ℚ) × HArgs (List ℚ)) :=
  [(.fresh, ⟨none, false, "ipopt", [], [("method", "control_slope")], 4⟩),
    (.previous, ⟨none, true, "ipopt", [], [("method", "control_slope")], 3⟩)]

open Classical in
/-- A perfect solver: the straight line, whenever it minimises the NLP asked for. -/
noncomputable def nlpsolE (_ _ : Nat) (c : SolverCall ℚ (List ℚ)) : Py (PyDict (List ℚ)) :=
  if c.IsOptimal (ocpQ.packVec 2 trajE) then .ok [("x", ocpQ.packVec 2 trajE)] else .error .assertion

theorem nlpsolE_answers {c : SolverCall ℚ (List ℚ)} (h : Asked outsideH hoptE c) :
    c.p = [1] ∧ ∀ i k, nlpsolE i k c = .ok [("x", ocpQ.packVec 2 trajE)] := by
  obtain ⟨hv, hs, hsc⟩ := ocpQ_ready
  obtain ⟨d, honM, h1, h2, hW, hc⟩ := hoptE_fresh.ready.coherent meshE_forH
  obtain ⟨d', k1, k2, k3, k4⟩ := h
  obtain rfl : d = d' := Except.ok.inj (hc.disc.symm.trans k1)
  have hp : c.p = [1] := by
    obtain ⟨l1, l2⟩ := k4
    obtain ⟨-, l3⟩ := l2 0 Nat.one_pos
    match hcp : c.p, l1 with
    | [a], _ =>
      have : a = 1 := by rw [hcp] at l3; simpa [hoptE] using l3
      rw [this]
  refine ⟨hp, fun i k => ?_⟩
  have hW' : d.compW = [1, 1] := by
    have : compQuadWeights ⟨outsideH.method, outsideH.tau0, outsideH.tau1,
        tausFn outsideH.lib outsideH.tau0 outsideH.tau1 "LGR"⟩ meshE.orders = .ok [1, 1] := by decide +kernel
    rw [this] at hW; exact (Except.ok.inj hW).symm
  have hseg : d.widthParams.length = 1 := by
    unfold Disc.widthParams; rw [h1, h2]; rfl
  obtain ⟨hsol, hobj⟩ := call_trajectories (req := some c.p) honM (by rw [h1]; exact hv) (by rw [h1]; exact hs)
    (by rw [h1]; exact hsc) k2 k3 (by rw [hp, hseg]; rfl) rfl
  rw [h1, h2] at hsol hobj
  rw [hW'] at hobj
  have hwE : WidthsAre ocpQ 1 (some c.p) trajE := by
    show ocpQ.packWidths 1 trajE = c.p
    rw [hp]; rfl
  unfold nlpsolE
  refine if_pos ⟨(hsol _).2 ⟨trajE, trajE_solves, hwE, rfl⟩, fun z hz => ?_⟩
  obtain ⟨T, hT, hwT, rfl⟩ := (hsol z).1 hz
  rw [show ocpQ.packVec 2 trajE = ocpQ.packVec meshE.N trajE from rfl, hobj _ _ hwE costE]
  obtain ⟨v, hv'⟩ := exists_samples ocpQ meshE T
  have hJ : PhysCost ocpQ meshE [1, 1] T _ := ⟨v, hv', rfl⟩
  rw [hobj _ _ hwT hJ]
  refine costE_ge hT ?_ hJ
  have hwT : ocpQ.packWidths 1 T = c.p := hwT
  rw [hp] at hwT
  simpa [OCP.packWidths, ocpQ] using hwT

/-- The hypotheses of C60 are met. -/
theorem exampleHOptimal : OwnStarts callsE ∧
    (∀ n k c sol, nlpsolE n k c = .ok sol → ∃ z, Returned outsideH sol z ∧ c.IsOptimal z) ∧
    ∃ s' sol out, hoptE.run outsideH nlpsolE callsE 0 none = (s', some sol) ∧
      s'.processResults outsideH sol [[0]] false true true = .ok out ∧ ∃ p, s'.widths = some p ∧ ValidWidths 1 1 p := by
  obtain ⟨hv, hs, hsc⟩ := ocpQ_ready
  have ho : OwnStarts callsE := by
    intro c hc x
    simp only [callsE, List.mem_cons, List.not_mem_nil, or_false] at hc
    rcases hc with rfl | rfl <;> simp
  refine ⟨ho, fun n k c sol h => ?_, ?_⟩
  · unfold nlpsolE at h
    split at h
    · cases h; exact ⟨_, ⟨_, rfl, rfl⟩, ‹_›⟩
    · cases h
  obtain ⟨s', sol, p, r1, r3, r4, out, r2⟩ := C62_h_returns (ptp := [[0]]) (rx := true) (rdx := true)
    (nlpsol := nlpsolE) hoptE_fresh.ready hv hs hsc meshE_forH (by norm_num [outsideH]) (by intro q _; simp [meshE])
    rfl rfl rfl rfl (by norm_num [hoptE]) (fun _ h => nomatch h) (by
      intro ph l u hl hu
      match ph with
      | 0 => cases hl; cases hu; norm_num
      | ph + 1 => cases hl) (fun l => abs_nonneg _) (by
      intro ph hp
      obtain rfl : ph = 0 := by simpa [ocpQ] using hp
      simp [ocpQ, entry]) (calls := callsE) (by simp [callsE]) ho (by
      intro c hc
      simp only [callsE, List.mem_cons, List.not_mem_nil, or_false] at hc
      rcases hc with rfl | rfl <;> exact ⟨by simp, rfl⟩) (fun i k c hc => by
      obtain ⟨hp, hk⟩ := nlpsolE_answers hc
      refine ⟨_, hk i k, ⟨⟨trajE, ⟨⟨_, rfl, rfl⟩, by rw [hp]; rfl⟩, fun _ ph _ => by simp [trajE]⟩, ?_⟩⟩
      rintro ⟨c, hc, hm, -⟩
      exfalso
      simp only [callsE, List.mem_cons, List.not_mem_nil, or_false] at hc
      rcases hc with rfl | rfl <;> exact absurd hm (by decide +kernel)) (by simp)
  exact ⟨s', sol, out, r1, r2, p, r3, r4⟩

/-! ### A run that is computed -/

/-- A solver that always returns `x = 0, 1, 0` at the nodes, `u = 1`, `tf = 1`. -/
def nlpsolC (_ _ : Nat) (_ : SolverCall ℚ (List ℚ)) : Py (PyDict (List ℚ)) :=
  .ok [("x", [0, 2, 0, 1, 1, 1, 0, 1])]

/-- The equal-area method on this solver: two measurements, and the reported error is not zero. -/
example : (hoptH.run outsideH nlpsolC [(.fresh, ⟨none, false, "ipopt", [], [], 2⟩)] 0 none).1.iterInfo =
    [(1, some (3 / 2)), (2, some (151 / 105))] := by decide +kernel

/-! ### Initial solutions of the caller -/

/-- The state stays at 0: the dynamics hold and the terminal constraint `x(tf) = 1` does not. -/
def restH : PyDict (List ℚ) := [("x", [0, 0, 0, 0, 0, 0, 0, 1])]

/-- **C59 for dictionaries of the caller: false.** An `initial_solution` with small residuals is returned as the
solution without a call of the solver, whether or not it meets the constraints of the problem: here the solver object
always raises. -/
theorem C59_given_false : (hoptH.run outsideH (fun _ _ _ => .error .assertion)
      [(.given restH, ⟨none, false, "ipopt", [], [], 3⟩)] 0 none).2 = some restH ∧
    ∀ p T, Holding outsideH ocpQ meshH restH p T → ¬ SolvesOCP ocpQ meshH T := by
  refine ⟨by decide +kernel, ?_⟩
  rintro p T ⟨⟨v, hv, hn⟩, -⟩ hT
  have hx : T.x 0 2 0 = 0 := by
    cases hv
    have : ocpQ.packVec meshH.N T = [0, 0, 0, 0, 0, 0, 0, 1] := (Except.ok.inj hn).symm
    have := congrArg (fun l => l.getD 2 0) this
    simpa [OCP.packVec, ocpQ, Mesh.N, meshH, List.range_succ] using this
  have := hT.1.terminal 0 (by simp [ocpQ]) ⟨1, fun t _ => t.xf.getD 0 0 - 1⟩ rfl 0 Nat.one_pos
  have : T.x 0 2 0 - 1 = 0 := by simpa [OCP.tArg, ocpQ, Mesh.N, meshH] using this
  rw [hx] at this
  norm_num at this

end MPOpt
