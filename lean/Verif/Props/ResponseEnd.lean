import Verif.Props.Response
import Verif.Props.HStop
import Verif.Props.ExactExample

/-! # C73 for the errors the code measures -/

set_option autoImplicit false

namespace MPOpt
open Polynomial

section
variable {ocp : OCP ℝ} {M : Mesh ℝ} {T : Traj ℝ} {F : VFun (PArg ℝ) ℝ} {ph : Nat} {X : Nat → ℝ → ℝ}
  {S : List ℝ → Prop} {L e η : ℝ} {N : Nat}

/-- Between the instants that are checked the scaled defect of phase `ph` changes by at most `η`: every instant has an
instant of its segment that is checked and where the defects differ by at most `η`. -/
def DefectVaries (ocp : OCP ℝ) (M : Mesh ℝ) (T : Traj ℝ) (N ph : Nat) (F : VFun (PArg ℝ) ℝ) (η : ℝ) : Prop :=
  ∀ s < M.orders.length, ∀ tau ∈ Set.Ico M.tau0 M.tau1, ∀ j < ocp.nx, ∃ tau', CheckPoint M T N ph s tau' ∧
    |ocp.scaleX.getD j 0 * (ocp.defect M T F ph s tau j - ocp.defect M T F ph s tau' j)| ≤ η

/-- **C73** The largest defect found at the check points bounds the distance to the exact response. -/
theorem C73_reported (hM : M.Good) (hI : M.Inside) (ht : T.t0 ph < T.tf ph) (hw : FullWidths M T ph)
    (hpos : ∀ j < ocp.nx, 0 < ocp.scaleX.getD j 0) (hph : ph < ocp.nPhases) (hF : ocp.dynamics[ph]? = some F)
    (he : LargestDefect ocp M T N e) (hη0 : 0 ≤ η) (hη : DefectVaries ocp M T N ph F η)
    (hX : Response ocp M T F ph X) (hL : 0 ≤ L) (hlip : LipschitzDynamics ocp M T F ph S L)
    (hS : StayIn ocp M T ph X S) (h0 : ∀ j < ocp.nx, X j (T.t0 ph) = T.x ph 0 j) {s : Nat}
    (hs : s < M.orders.length) {tau : ℝ} (htau : tau ∈ Set.Icc M.tau0 M.tau1) {j : Nat} (hj : j < ocp.nx) :
    |ocp.scaleX.getD j 0 * (M.stateAt T ph s tau j - X j (M.time T ph s tau))| ≤
      (s + 1) * (M.tau1 - M.tau0) * (e + η) * Real.exp (L * (M.time T ph s tau - T.t0 ph)) := by
  have := C73_error (D := e + η) (δ := 0) hM hI ht hw hpos hX hL hlip hS (add_nonneg he.1 hη0)
    (fun s hs tau htau j hj => by
      obtain ⟨tau', h1, h2⟩ := hη s hs tau htau j hj
      have h3 := he.2.1 ph hph _ ⟨F, s, tau', j, hF, h1, hj, rfl⟩
      have e1 : ocp.scaleX.getD j 0 * ocp.defect M T F ph s tau j = ocp.scaleX.getD j 0 * ocp.defect M T F ph s tau' j +
        ocp.scaleX.getD j 0 * (ocp.defect M T F ph s tau j - ocp.defect M T F ph s tau' j) := by ring
      rw [e1]
      exact (abs_add_le _ _).trans (add_le_add h3 h2)) le_rfl
    (fun j hj => by simp [h0 j hj]) hs htau j hj
  simpa using this

end

theorem ValidWidths.full {ocp : OCP ℝ} {M : Mesh ℝ} {T : Traj ℝ} {sw : List ℝ} {n ph : Nat}
    (hn : M.orders.length = n) (h : ValidWidths n ocp.nPhases sw) (he : sw = ocp.packWidths M.orders.length T)
    (hp : ph < ocp.nPhases) : FullWidths M T ph := by
  obtain ⟨h1, h2, h3⟩ := h.slice hp
  subst hn
  rw [he] at h2 h3
  unfold OCP.packWidths at h2 h3
  rw [phaseSlice_flatMap _ _ _ (fun p s => T.w s p) hp] at h2 h3
  refine ⟨fun s hs => h2 _ (List.mem_map.2 ⟨s, List.mem_range.2 hs, rfl⟩), ?_⟩
  rw [← h3]
  rfl

section
variable {V : Type} {w : HOutside ℝ V} {nlpsol : Nat → Nat → SolverCall ℝ V → Py (PyDict V)} {M : Mesh ℝ}
  {ocp : OCP ℝ} {n : Nat} {arg : OrdersArg} {scheme : String} {lbh ubh tol : List ℝ} {s : HOpt ℝ V}

/-- **C73** The error that `mpopt_h_adaptive.solve` records for the solution it returns bounds the distance of this
solution to the exact response, in every phase: with `η` for the variation of the defect between the check points. -/
theorem C73_h_adaptive (hf : s.Ready w ocp n arg scheme lbh ubh tol) (hv : ValidOCP ocp) (hs : ocp.SettingsOK)
    (hsc : ocp.PosScales) (hM : MeshFor w.toOutside scheme n arg M) (hlt : w.tau0 < w.tau1) (hI : M.Inside)
    (hgt : s.gridType = List.replicate ocp.nPhases "fixed")
    (hvec : ∀ i k c sol, nlpsol i k c = .ok sol → ∃ z, Returned w sol z ∧ z.length = c.solver.problem.x.length)
    {pre : List (HStart V × HArgs V)} {st : HStart V} {a : HArgs V} (ho : OwnStarts (pre ++ [(st, a)]))
    {s' : HOpt ℝ V} {sol : PyDict V} (hrun : s.run w nlpsol (pre ++ [(st, a)]) 0 none = (s', some sol))
    {sw : List ℝ} (hsw : s'.widths = some sw) (hval : ValidWidths n ocp.nPhases sw) (hn1 : n ≠ 1)
    (hmeth : asksFor a.method = some "residual" ∨ asksFor a.method = some "control_slope") :
    ∃ T e, Holding w ocp M sol sw T ∧ infoAt s'.iterInfo s'.iterCount = some (some e) ∧
      ∀ ph < ocp.nPhases, T.t0 ph < T.tf ph → ∀ F, ocp.dynamics[ph]? = some F →
      ∀ η, 0 ≤ η → DefectVaries ocp M T (max (M.orders.sum + 2) (s.maxGrid + 2)) ph F η →
      ∀ X S L, Response ocp M T F ph X → 0 ≤ L → LipschitzDynamics ocp M T F ph S L → StayIn ocp M T ph X S →
      (∀ j < ocp.nx, X j (T.t0 ph) = T.x ph 0 j) →
      ∀ s < M.orders.length, ∀ tau ∈ Set.Icc M.tau0 M.tau1, ∀ j < ocp.nx,
        |ocp.scaleX.getD j 0 * (M.stateAt T ph s tau j - X j (M.time T ph s tau))| ≤
          (s + 1) * (M.tau1 - M.tau0) * (e + η) * Real.exp (L * (M.time T ph s tau - T.t0 ph)) := by
  obtain ⟨-, hrep⟩ := C61_reported_error hf hv hs hsc hM hlt hgt hvec ho hrun
  obtain ⟨T, e, hT, hL, hinfo⟩ := hrep sw hsw hval hn1 hmeth
  obtain ⟨d, honM, h1, h2, -, hc⟩ := hf.coherent hM
  have hseg : M.orders.length = n := by rw [honM.orders, honM.segments, h2]
  refine ⟨T, e, hT, hinfo, fun ph hp ht F hF η hη0 hη X S L hX hL0 hlip hS h0 s hs tau htau j hj => ?_⟩
  exact C73_reported hM.good hI ht (hval.full hseg hT.2 hp) (fun j hj => by
    rw [List.getD_eq_getElem _ _ (by rw [hv.scaleX]; exact hj)]; exact hsc.x _ (List.getElem_mem _)) hp hF hL hη0 hη hX hL0 hlip hS h0
    hs htau hj

end

/-! ### A concrete case: `x' = x`, `x(0) = 1`, approximated by a polygon through `1`, `3/2`, `9/4` -/

/-- The problem `ocpR` with other dynamics. -/
noncomputable def ocpGrow : OCP ℝ := { ocpR with dynamics := [⟨1, fun p _ => p.x.getD 0 0⟩] }

/-- Two segments of order 1. -/
def meshGrow : Mesh ℝ := ⟨[1, 1], fun _ => [-1, 1], -1, 1⟩

/-- The polygon, on segments of equal width. -/
noncomputable def trajGrow : Traj ℝ :=
  ⟨fun _ i _ => if i = 0 then 1 else if i = 1 then 3 / 2 else 9 / 4, fun _ _ _ => 0, fun _ => 0, fun _ => 1,
    fun _ _ => 0, fun _ _ => 1 / 2⟩

theorem meshGrow_good : meshGrow.Good := by
  refine ⟨by simp [meshGrow], by simp [meshGrow], by simp [meshGrow], ?_, by simp [meshGrow], by simp [meshGrow]⟩
  intro p _
  norm_num [meshGrow]

theorem meshGrow_inside : meshGrow.Inside := by
  intro p _ v hv
  simp only [meshGrow, List.mem_cons, List.not_mem_nil, or_false] at hv
  rcases hv with rfl | rfl <;> norm_num [meshGrow]

theorem growPiece : (meshGrow.piece (fun k => trajGrow.x 0 k 0) 0 = Polynomial.C (1 / 4) * X + Polynomial.C (5 / 4)) ∧
    meshGrow.piece (fun k => trajGrow.x 0 k 0) 1 = Polynomial.C (3 / 8) * X + Polynomial.C (15 / 8) := by
  refine ⟨?_, ?_⟩
  · apply meshGrow_good.piece_eq (by simp [meshGrow])
    · exact degree_linear_le.trans_lt (by simp [meshGrow, Mesh.order])
    · intro i hi
      have : i ≤ 1 := hi
      interval_cases i <;>
        norm_num [meshGrow, Mesh.node, Mesh.order, Mesh.idx, segStart, trajGrow]
  · apply meshGrow_good.piece_eq (by simp [meshGrow])
    · exact degree_linear_le.trans_lt (by simp [meshGrow, Mesh.order])
    · intro i hi
      have : i ≤ 1 := hi
      interval_cases i <;>
        norm_num [meshGrow, Mesh.node, Mesh.order, Mesh.idx, segStart, trajGrow]

/-- The dynamics. -/
noncomputable def growF : VFun (PArg ℝ) ℝ := ⟨1, fun p _ => p.x.getD 0 0⟩

theorem growHalf (s : Nat) : meshGrow.halfWidth trajGrow 0 s = 1 / 4 := by
  norm_num [Mesh.halfWidth, meshGrow, trajGrow]

theorem growDefect_eq (s : Nat) (tau : ℝ) : ocpGrow.defect meshGrow trajGrow growF 0 s tau 0 =
    (derivative (meshGrow.piece (fun k => trajGrow.x 0 k 0) s)).eval tau -
      1 / 4 * (meshGrow.piece (fun k => trajGrow.x 0 k 0) s).eval tau := by
  unfold OCP.defect
  rw [growHalf]
  rfl

theorem growDefect (tau : ℝ) : ocpGrow.defect meshGrow trajGrow growF 0 0 tau 0 = -(1 + tau) / 16 ∧
    ocpGrow.defect meshGrow trajGrow growF 0 1 tau 0 = -3 * (1 + tau) / 32 := by
  rw [growDefect_eq, growDefect_eq, growPiece.1, growPiece.2]
  simp only [derivative_add, derivative_mul, derivative_C, derivative_X, eval_add, eval_mul, eval_C, eval_X]
  constructor <;> simp <;> ring

theorem growScaled {s : Nat} (hs : s < 2) {tau : ℝ} (h : tau ∈ Set.Icc (-1 : ℝ) 1) :
    |(2 : ℝ) * ocpGrow.defect meshGrow trajGrow growF 0 s tau 0| ≤ 3 / 8 := by
  obtain ⟨h1, h2⟩ := h
  obtain ⟨d0, d1⟩ := growDefect tau
  interval_cases s
  · rw [d0, abs_le]; constructor <;> linarith
  · rw [d1, abs_le]; constructor <;> linarith

theorem growFull : FullWidths meshGrow trajGrow 0 := by
  refine ⟨fun _ _ => by norm_num [trajGrow], ?_⟩
  simp [meshGrow, trajGrow]

theorem growPassed (s : Nat) (tau : ℝ) : meshGrow.passed trajGrow 0 s tau = s / 2 + (1 + tau) / 4 := by
  unfold Mesh.passed
  simp [meshGrow, trajGrow]
  ring

theorem growTime (s : Nat) (tau : ℝ) : meshGrow.time trajGrow 0 s tau = s / 2 + (1 + tau) / 4 := by
  unfold Mesh.time
  rw [growHalf]
  simp [meshGrow, trajGrow]
  ring

/-- The hypotheses of `C73_reported` are met: the exponential is the exact response, the largest defect at the check
points is `3/8`, at the end. -/
theorem exampleGrow :
    LargestDefect ocpGrow meshGrow trajGrow 17 (3 / 8) ∧ DefectVaries ocpGrow meshGrow trajGrow 17 0 growF (3 / 8) ∧
    Response ocpGrow meshGrow trajGrow growF 0 (fun _ t => Real.exp t) ∧
    LipschitzDynamics ocpGrow meshGrow trajGrow growF 0 (fun _ => True) 1 ∧
    StayIn ocpGrow meshGrow trajGrow 0 (fun _ t => Real.exp t) (fun _ => True) ∧
    |(2 : ℝ) * (9 / 4 - Real.exp 1)| ≤ 2 * 2 * (3 / 8 + 3 / 8) * Real.exp 1 := by
  have hsc : ocpGrow.scaleX.getD 0 0 = (2 : ℝ) := by simp [ocpGrow, ocpR]
  have hzero : ∀ {j}, j < ocpGrow.nx → j = 0 := by intro j hj; simpa [ocpGrow, ocpR] using hj
  have hseg : ∀ {s}, s < meshGrow.orders.length → s < 2 := fun h => h
  have hL : LargestDefect ocpGrow meshGrow trajGrow 17 (3 / 8) := by
    refine ⟨by norm_num, ?_, fun _ => ⟨0, by simp [ocpGrow, ocpR], _, ⟨growF, 1, 1, 0, rfl, ⟨by simp [meshGrow],
      by norm_num [meshGrow], 16, ?_, by simp⟩, by simp [ocpGrow, ocpR], rfl⟩, ?_⟩⟩
    · intro ph hp v ⟨F, s, tau, j, hF, hc, hj, hv⟩
      obtain rfl : ph = 0 := by simpa [ocpGrow, ocpR] using hp
      obtain rfl := hzero hj
      obtain rfl : growF = F := by simpa [ocpGrow, growF] using hF
      rw [hv, hsc]
      exact growScaled (hseg hc.segment) ⟨hc.inside.1.le, hc.inside.2⟩
    · rw [growPassed]; norm_num
    · rw [hsc, (growDefect 1).2]; norm_num
  have hV : DefectVaries ocpGrow meshGrow trajGrow 17 0 growF (3 / 8) := by
    intro s hs tau ht j hj
    obtain rfl := hzero hj
    have hs := hseg hs
    have ht : tau ∈ Set.Icc (-1 : ℝ) 1 := ⟨ht.1, ht.2.le⟩
    rw [hsc]
    obtain ⟨h1, h2⟩ := ht
    interval_cases s
    · refine ⟨-3 / 4, ⟨by simp [meshGrow], by norm_num [meshGrow], 1, ?_, fun _ => by norm_num [trajGrow]⟩, ?_⟩
      · rw [growPassed]; norm_num
      · rw [(growDefect _).1, (growDefect _).1, abs_le]; constructor <;> linarith
    · refine ⟨1, ⟨by simp [meshGrow], by norm_num [meshGrow], 16, ?_, by simp⟩, ?_⟩
      · rw [growPassed]; norm_num
      · rw [(growDefect _).2, (growDefect _).2, abs_le]; constructor <;> linarith
  have hR : Response ocpGrow meshGrow trajGrow growF 0 (fun _ t => Real.exp t) := by
    refine ⟨fun _ _ => Real.continuous_exp.continuousOn, fun s _ tau _ j _ => ?_⟩
    exact (Real.hasDerivAt_exp _).hasDerivWithinAt
  have hP : LipschitzDynamics ocpGrow meshGrow trajGrow growF 0 (fun _ => True) 1 := by
    intro s _ tau _ p q d _ _ hd j hj
    obtain rfl := hzero hj
    have := hd 0 (by simp [ocpGrow, ocpR])
    rw [one_mul]
    exact this
  have hS : StayIn ocpGrow meshGrow trajGrow 0 (fun _ t => Real.exp t) (fun _ => True) :=
    ⟨fun _ _ _ _ => trivial, fun _ _ _ _ => trivial⟩
  refine ⟨hL, hV, hR, hP, hS, ?_⟩
  have := C73_reported (s := 1) (tau := 1) (j := 0) meshGrow_good meshGrow_inside (by norm_num [trajGrow]) growFull
    (fun j hj => by obtain rfl := hzero hj; rw [hsc]; norm_num) (by simp [ocpGrow, ocpR]) rfl hL (by norm_num) hV hR
    zero_le_one hP hS (fun j _ => by simp [trajGrow]) (by simp [meshGrow]) (by norm_num [meshGrow])
    (by simp [ocpGrow, ocpR])
  rw [hsc, growTime] at this
  unfold Mesh.stateAt at this
  rw [growPiece.2] at this
  norm_num [meshGrow, trajGrow] at this ⊢
  exact this

end MPOpt
