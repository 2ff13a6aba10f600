import Verif.Spec.ConsistencyFree
import Verif.Props.FlownFree

/-! # C88: `mpopt_adaptive` against all smooth motions of the real system -/

set_option autoImplicit false

namespace MPOpt
open Polynomial
variable {M : Mesh ℝ} {ocp : OCP ℝ} {C : CTraj} {T : Traj ℝ} {ph : Nat}

theorem Mesh.SlopeBound.nodes {D : ℝ} (h : M.SlopeBound D) (hM : M.Good) (hI : M.Inside) : M.DerivBound D :=
  fun s hs _ hi => h s hs _ (hI.node hM hs hi)

/-- Slope of a piece anywhere: that of a straight line, when the node values are near it. -/
theorem Mesh.Good.piece_slope_at (hM : M.Good) {D : ℝ} (hD : M.SlopeBound D) {s : Nat} (hs : s < M.orders.length) {tau : ℝ}
    (htau : tau ∈ Set.Icc M.tau0 M.tau1) {v : Nat → ℝ} {c d E : ℝ} (h0 : 0 ≤ E)
    (hE : ∀ k ≤ M.order s, |v (M.idx s k) - c - d * (M.node s k - tau)| ≤ E) :
    |(derivative (M.piece v s)).eval tau - d| ≤ D * E := by
  rw [hM.piece_line hs v c d tau, Lagrange.interpolate_apply]
  simp only [derivative_add, derivative_mul, derivative_C, derivative_sub, derivative_X, derivative_sum, eval_add, eval_mul,
    eval_C, eval_finsetSum, zero_mul, zero_add, sub_zero, mul_one, add_zero]
  rw [add_sub_cancel_left]
  refine abs_sum_mul_le (fun k hk => ?_) h0 (hD s hs tau htau)
  rw [← sub_sub]
  exact hE k (by omega)

/-- **C88** For given nodes there are such bounds for all meshes with orders out of `P`, however many segments they have. -/
theorem C88_bounds (lo hi : ℝ) (taus : Nat → Py (List ℝ)) (P : List Nat) :
    ∃ D, 0 ≤ D ∧ ∀ M : Mesh ℝ, MeshOf lo hi taus P M → M.SlopeBound D := by
  set nd : Nat → Nat → ℝ := fun p i => (match taus p with
    | .ok l => l
    | .error _ => []).getD i 0 with hnd
  have hb : ∀ p, ∃ c, ∀ tau ∈ Set.Icc lo hi, ‖∑ k ∈ Finset.range (p + 1),
      |(derivative (Lagrange.basis (Finset.range (p + 1)) (nd p) k)).eval tau|‖ ≤ c := fun p =>
    isCompact_Icc.exists_bound_of_continuousOn
      (continuous_finsetSum _ fun i _ => (Polynomial.continuous _).abs).continuousOn
  choose c hc using hb
  have hsum : ∀ g : Nat → ℝ, 0 ≤ (P.map fun p => |g p|).sum := fun g =>
    List.sum_nonneg (by simp only [List.mem_map]; rintro _ ⟨p, -, rfl⟩; exact abs_nonneg _)
  have hle : ∀ (g : Nat → ℝ), ∀ p ∈ P, |g p| ≤ (P.map fun p => |g p|).sum := fun g p hp =>
    List.single_le_sum (by simp only [List.mem_map]; rintro _ ⟨p, -, rfl⟩; exact abs_nonneg _) _
      (List.mem_map.2 ⟨p, hp, rfl⟩)
  refine ⟨_, hsum c, fun M h s hs tau htau => ?_⟩
  have hm := h.good.order_mem hs
  have e : M.node s = nd (M.order s) := by
    funext i
    simp only [hnd, h.nodes _ hm, Mesh.node]
  rw [h.tau0, h.tau1] at htau
  have := (le_abs_self _).trans ((hc (M.order s) _ htau).trans ((le_abs_self _).trans (hle c _ (h.allowed _ hm))))
  rwa [← e] at this

/-- States between nodes. -/
theorem state_between (hM : M.Good) (hI : M.Inside) (hT : Samples ocp M C T) (hp : ph < ocp.nPhases) (ht : C.t0 ph < C.tf ph)
    (hw : FullWidths M T ph) (hsc : ∀ j < ocp.nx, 0 < ocp.scaleX.getD j 0) (hC : DynamicsHold ocp C ph) {A ω : ℝ}
    (hA : M.ValueBound A) (hω : RatesVary ocp C M.orders.length T.w ph ω) {F : VFun (PArg ℝ) ℝ} (hF : ocp.dynamics[ph]? = some F)
    {j : Nat} (hj : j < ocp.nx) {s : Nat} (hs : s < M.orders.length) {tau : ℝ} (htau : tau ∈ Set.Icc M.tau0 M.tau1)
    (ho : s = 0 ∨ M.tau0 < tau) :
    |ocp.scaleX.getD j 0 * ((M.piece (fun k => T.x ph k j) s).eval tau - C.x ph j (M.time T ph s tau))| ≤
      A * ω * ((T.tf ph - T.t0 ph) * T.w s ph) := by
  have hs0 := hsc j hj
  have hlt := sub_pos.2 (hI.tau_lt hM)
  have hh := (time_bounds (s := s) hM hI (by rw [hT.t0 ph hp, hT.tf ph hp]; exact ht) hw hs).1
  obtain ⟨hω0, hE⟩ := near_tangent hM hI hT hp ht hw hsc hC hω hF hj hs htau ho
  have := hM.piece_value (v := fun q => T.x ph q j) hA hs htau (by positivity) hE
  rw [abs_mul, abs_of_pos hs0]
  refine (mul_le_mul_of_nonneg_left this hs0.le).trans (le_of_eq ?_)
  unfold Mesh.halfWidth
  field_simp

/-- Slopes between nodes. -/
theorem slope_between (hM : M.Good) (hI : M.Inside) (hT : Samples ocp M C T) (hp : ph < ocp.nPhases) (ht : C.t0 ph < C.tf ph)
    (hw : FullWidths M T ph) (hsc : ∀ j < ocp.nx, 0 < ocp.scaleX.getD j 0) (hC : DynamicsHold ocp C ph) {D ω : ℝ}
    (hD : M.SlopeBound D) (hω : RatesVary ocp C M.orders.length T.w ph ω) {F : VFun (PArg ℝ) ℝ} (hF : ocp.dynamics[ph]? = some F)
    {j : Nat} (hj : j < ocp.nx) {s : Nat} (hs : s < M.orders.length) {tau : ℝ} (htau : tau ∈ Set.Icc M.tau0 M.tau1)
    (ho : s = 0 ∨ M.tau0 < tau) :
    |ocp.scaleX.getD j 0 * ((derivative (M.piece (fun k => T.x ph k j) s)).eval tau -
      M.halfWidth T ph s * F.f (ocp.cArg C ph (M.time T ph s tau)) j)| ≤ D * ω * ((T.tf ph - T.t0 ph) * T.w s ph) := by
  have hs0 := hsc j hj
  have hlt := sub_pos.2 (hI.tau_lt hM)
  have hh := (time_bounds (s := s) hM hI (by rw [hT.t0 ph hp, hT.tf ph hp]; exact ht) hw hs).1
  obtain ⟨hω0, hE⟩ := near_tangent hM hI hT hp ht hw hsc hC hω hF hj hs htau ho
  have := hM.piece_slope_at (v := fun q => T.x ph q j) hD hs htau (by positivity) hE
  rw [abs_mul, abs_of_pos hs0]
  refine (mul_le_mul_of_nonneg_left this hs0.le).trans (le_of_eq ?_)
  unfold Mesh.halfWidth
  field_simp

theorem FullWidths.le_one (hw : FullWidths M T ph) {s : Nat} (hs : s < M.orders.length) : T.w s ph ≤ 1 := by
  rw [← hw.sum]
  exact Finset.single_le_sum (f := fun s => T.w s ph) (fun r hr => (hw.pos r (Finset.mem_range.1 hr)).le) (Finset.mem_range.2 hs)

/-- **C88** Node values of a solution of the continuous-time problem nearly solve the problem of `mpopt_adaptive` too, with any admissible
widths: beyond C83, states and controls half-way between nodes are within `A ω H` and `A e` of the motion, and the weighted defect there
is at most `D ω H` plus `dt/dtau` times the change `ν` of the rates within that distance. -/
theorem C88_consistent (hv : ValidOCP ocp) (hsc : ocp.PosScales) (hM : M.Good) (hI : M.Inside) (hC : SolvesContinuously ocp C)
    (hl : ∀ l ∈ ocp.phaseLinks, l.1 < ocp.nPhases ∧ l.2 < ocp.nPhases)
    (hT : Samples ocp M C T) (hw : ∀ ph < ocp.nPhases, FullWidths M T ph) {D A ω e H ε : ℝ} (hD : M.SlopeBound D)
    (hA : M.ValueBound A) (hω : ∀ ph < ocp.nPhases, RatesVary ocp C M.orders.length T.w ph ω)
    (he : ∀ ph < ocp.nPhases, ControlsBend ocp C M.orders.length T.w ph e)
    (hH : ∀ ph < ocp.nPhases, M.Lasts T ph H) (h0 : 0 ≤ ω) (hε : D * ω * H ≤ ε) (hε' : A * e ≤ ε) (hε'' : A * ω * H ≤ ε)
    (hdf : ∀ ph < ocp.nPhases, ocp.diffU.getD ph false = false) {lbh ubh tol : List ℝ} {mid : Bool}
    (hlo : ∀ ph < ocp.nPhases, ∀ s < M.orders.length, lbh.getD ph 0 ≤ T.w s ph)
    (hup : ∀ ph < ocp.nPhases, ∀ s < M.orders.length, T.w s ph ≤ ubh.getD ph 0)
    (hmid : mid = true → ∀ ph < ocp.nPhases, ∃ ρ ν, RatesNear ocp C ph ρ ν ∧ A * ω * H ≤ ρ ∧ A * e ≤ ρ ∧ 0 ≤ ν ∧
      D * ω * H + H / (M.tau1 - M.tau0) * ν ≤ tol.getD ph 0 + ε) :
    SolvesAdaptiveTo 0 ε ocp M T lbh ubh tol mid := by
  have px : ∀ j < ocp.nx, 0 < ocp.scaleX.getD j 0 := fun j hj => getD_mem_ne hv.scaleX hsc.x hj
  have pu : ∀ j < ocp.nu, 0 < ocp.scaleU.getD j 0 := fun j hj => getD_mem_ne hv.scaleU hsc.u hj
  have hlt := sub_pos.2 (hI.tau_lt hM)
  have hl0 : 0 < M.orders.length := List.length_pos_iff.2 hM.nonempty
  have hA0 : 0 ≤ A := (Finset.sum_nonneg fun _ _ => abs_nonneg _).trans (hA 0 hl0 _ ⟨le_rfl, (hI.tau_lt hM).le⟩)
  have hD0 : 0 ≤ D := (Finset.sum_nonneg fun _ _ => abs_nonneg _).trans (hD 0 hl0 _ ⟨le_rfl, (hI.tau_lt hM).le⟩)
  -- the rows at nodes and the controls half-way
  let ocp' : OCP ℝ := { ocp with midu := List.replicate ocp.nPhases true, duContinuity := [] }
  have hv' : ValidOCP ocp' := by
    cases hv
    constructor <;> assumption
  have hC' : SolvesContinuously ocp' C := by
    obtain ⟨p1, p2, p3, p4⟩ := hC
    refine ⟨fun ph hp => ?_, p2, p3, p4⟩
    obtain ⟨q1, ⟨r1, r2, r3⟩, q3, q4, q5, q6, q7, q8, q9, q10⟩ := p1 ph hp
    exact ⟨q1, ⟨r1, r2, r3⟩, q3, q4, q5, q6, q7, q8, q9, q10⟩
  have hT' : Samples ocp' M C T := ⟨hT.t0, hT.tf, hT.a, hT.x, hT.u⟩
  obtain ⟨k1, k2, k3, k4, k5, k6, -, k8⟩ := C83_consistent (ocp := ocp') hv' ⟨hsc.x, hsc.u, hsc.a, hsc.t⟩ hM hI hC' hl hT' hw
    (hD.nodes hM hI) hA hω (fun ph hp _ => he ph hp) hH h0 hε (fun _ => hε') (fun ph hp => rfl) hdf
  -- half-way between nodes
  have hx : ∀ ph < ocp.nPhases, ∀ j < ocp.nx, ∀ s < M.orders.length, ∀ i < M.order s,
      |ocp.scaleX.getD j 0 * ((M.piece (fun k => T.x ph k j) s).eval ((M.node s i + M.node s (i + 1)) / 2) -
        C.x ph j (M.time T ph s ((M.node s i + M.node s (i + 1)) / 2)))| ≤ A * ω * H := by
    intro ph hp j hj s hs i hi
    obtain ⟨m1, m2⟩ := hI.mid hM hs hi
    have hF : ocp.dynamics[ph]? = some (ocp.dynamics[ph]'(by rw [hv.dynamics]; exact hp)) := List.getElem?_eq_getElem _
    exact (state_between hM hI hT hp (hC.phase ph hp).order (hw ph hp) px (hC.phase ph hp).dynamics hA (hω ph hp) hF hj hs
      ⟨m1.le, m2⟩ (.inr m1)).trans (mul_le_mul_of_nonneg_left (hH ph hp s hs) (by positivity))
  have hin : ∀ ph < ocp.nPhases, ∀ s < M.orders.length, ∀ i < M.order s,
      M.time T ph s ((M.node s i + M.node s (i + 1)) / 2) ∈ Set.Icc (C.t0 ph) (C.tf ph) := by
    intro ph hp s hs i hi
    obtain ⟨m1, m2⟩ := hI.mid hM hs hi
    obtain ⟨-, ht0, ht1⟩ := time_bounds (s := s) hM hI
      (by rw [hT.t0 ph hp, hT.tf ph hp]; exact (hC.phase ph hp).order) (hw ph hp) hs
    exact ⟨by rw [← hT.t0 ph hp]; exact ht0 _ m1.le, by rw [← hT.tf ph hp]; exact ht1 _ m2⟩
  have hmidu : ∀ ph < ocp.nPhases, ocp'.midu.getD ph false = true := by
    intro ph hp
    show (List.replicate ocp.nPhases true).getD ph false = true
    rw [List.getD_eq_getElem _ _ (by simpa using hp)]
    simp
  constructor
  case bounds => exact fun ph hp => ⟨(k1 ph hp).x0, (k1 ph hp).x, (k1 ph hp).u, (k1 ph hp).t0, (k1 ph hp).tf, (k1 ph hp).a⟩
  case dynamics => exact k2
  case path => exact k3
  case terminal => exact k4
  case slope => exact fun ph hp hd => by rw [hdf ph hp] at hd; cases hd
  case lower => exact fun ph hp s hs => by rw [sub_zero]; exact hlo ph hp s hs
  case upper => exact fun ph hp s hs => by rw [add_zero]; exact hup ph hp s hs
  case sum =>
    intro ph hp
    rw [(hw ph hp).sum, sub_self, abs_zero]
    refine le_trans ?_ hε
    have : 0 ≤ H := by
      refine le_trans ?_ (hH ph hp 0 hl0)
      refine mul_nonneg ?_ ((hw ph hp).pos 0 hl0).le
      rw [hT.t0 ph hp, hT.tf ph hp]
      exact (sub_pos.2 (hC.phase ph hp).order).le
    positivity
  case midControl => exact fun ph hp j hj s hs i hi => k6 ph hp (hmidu ph hp) j hj s hs i hi
  case midState =>
    intro ph hp j hj s hs i hi
    have h2 : WithinTo (0 / ocp.scaleX.getD j 0) (entry ocp.lbx ph j .nan) (entry ocp.ubx ph j .nan)
        (C.x ph j (M.time T ph s ((M.node s i + M.node s (i + 1)) / 2))) := by
      rw [zero_div, withinTo_exact]
      refine (hC.phase ph hp).x _ (hin ph hp s hs i hi) ?_ j hj
      rintro ⟨e0, h⟩
      obtain ⟨m1, -⟩ := hI.mid hM hs hi
      obtain ⟨hh, ht0, -⟩ := time_bounds (s := s) hM hI
        (by rw [hT.t0 ph hp, hT.tf ph hp]; exact (hC.phase ph hp).order) (hw ph hp) hs
      have h3 := ht0 M.tau0 le_rfl
      have h := h.trans ((congrArg C.t0 e0).symm.trans (hT.t0 ph hp).symm)
      have h4 := mul_pos hh (sub_pos.2 m1)
      unfold Mesh.time at h h3
      simp only [sub_self, mul_zero, add_zero] at h3
      linarith
    have := h2.shift (px j hj) ((hx ph hp j hj s hs i hi).trans hε'')
    simpa using this
  case midResidual =>
    intro hm ph hp F hF j hj s hs i hi
    obtain ⟨ρ, ν, n1, n2, n3, n4, n5⟩ := hmid hm ph hp
    obtain ⟨m1, m2⟩ := hI.mid hM hs hi
    set tau := (M.node s i + M.node s (i + 1)) / 2 with htau
    have hh := (time_bounds (s := s) hM hI
      (by rw [hT.t0 ph hp, hT.tf ph hp]; exact (hC.phase ph hp).order) (hw ph hp) hs).1
    have g1 := (slope_between hM hI hT hp (hC.phase ph hp).order (hw ph hp) px (hC.phase ph hp).dynamics hD (hω ph hp) hF hj hs
      ⟨m1.le, m2⟩ (.inr m1)).trans (mul_le_mul_of_nonneg_left (hH ph hp s hs) (by positivity))
    have harg : ocp.pArgAt M T ph s tau = { ocp.cArg C ph (M.time T ph s tau) with
        x := (List.range ocp.nx).map fun j => (M.piece (fun k => T.x ph k j) s).eval tau
        u := (List.range ocp.nu).map fun j => (M.piece (fun k => T.u ph k j) s).eval tau } := by
      unfold OCP.pArgAt OCP.cArg
      congr 1
      split_ifs
      · rfl
      · congr 1
        exact List.map_congr_left fun k hk => hT.a ph hp k (List.mem_range.1 hk)
    have g2 := n1 F hF _ (hin ph hp s hs i hi) ((List.range ocp.nx).map fun j => (M.piece (fun k => T.x ph k j) s).eval tau)
      ((List.range ocp.nu).map fun j => (M.piece (fun k => T.u ph k j) s).eval tau) (by simp) (by simp)
      (fun k hk => by
        rw [getD_map_range _ _ _ hk]
        exact (hx ph hp k hk s hs i hi).trans n2)
      (fun k hk => by
        rw [getD_map_range _ _ _ hk]
        have h1 := control_between hM hI hT hp (hC.phase ph hp).order (hw ph hp) hA (he ph hp) hk (pu k hk) hs ⟨m1.le, m2⟩
        rw [abs_mul, abs_of_pos (pu k hk)]
        refine (mul_le_mul_of_nonneg_left h1 (pu k hk).le).trans (le_trans (le_of_eq ?_) n3)
        have := (pu k hk).ne'
        field_simp) j hj
    rw [← harg] at g2
    have hhalf : M.halfWidth T ph s ≤ H / (M.tau1 - M.tau0) := by
      rw [le_div_iff₀ hlt]
      refine le_trans (le_of_eq ?_) (hH ph hp s hs)
      unfold Mesh.halfWidth
      field_simp
    have g3 : |ocp.scaleX.getD j 0 * ocp.defect M T F ph s tau j| ≤ D * ω * H + H / (M.tau1 - M.tau0) * ν := by
      have e1 : ocp.scaleX.getD j 0 * ocp.defect M T F ph s tau j =
          ocp.scaleX.getD j 0 * ((derivative (M.piece (fun k => T.x ph k j) s)).eval tau -
            M.halfWidth T ph s * F.f (ocp.cArg C ph (M.time T ph s tau)) j) -
          M.halfWidth T ph s * (ocp.scaleX.getD j 0 * (F.f (ocp.pArgAt M T ph s tau) j -
            F.f (ocp.cArg C ph (M.time T ph s tau)) j)) := by
        unfold OCP.defect; ring
      rw [e1]
      refine (abs_sub _ _).trans (add_le_add g1 ?_)
      rw [abs_mul, abs_of_pos hh]
      exact mul_le_mul hhalf g2 (abs_nonneg _) (hh.le.trans hhalf)
    rw [abs_mul, abs_of_pos ((hw ph hp).pos s hs)]
    calc T.w s ph * |ocp.scaleX.getD j 0 * ocp.defect M T F ph s tau j|
        ≤ 1 * |ocp.scaleX.getD j 0 * ocp.defect M T F ph s tau j| :=
          mul_le_mul_of_nonneg_right ((hw ph hp).le_one hs) (abs_nonneg _)
      _ ≤ _ := by rw [one_mul]; exact g3.trans n5
  case links => exact fun h2 => ⟨(k8 h2).x, (k8 h2).u, (k8 h2).t⟩

/-- **C88** On fine meshes the node values of a smooth solution of the continuous-time problem solve the problem of `mpopt_adaptive` up to
any fraction `ν` of the length of the longest segment, the residual tolerance being anything down to zero. -/
theorem C88_fine (hv : ValidOCP ocp) (hsc : ocp.PosScales) (hC : SolvesContinuously ocp C) (hS : SmoothMotion ocp C)
    (hu : SmoothControls ocp C) (hR : RatesContinuous ocp C)
    (hl : ∀ l ∈ ocp.phaseLinks, l.1 < ocp.nPhases ∧ l.2 < ocp.nPhases)
    (hdf : ∀ ph < ocp.nPhases, ocp.diffU.getD ph false = false) {lo hi : ℝ} (hlt : lo < hi) (taus : Nat → Py (List ℝ)) (P : List Nat)
    {ν : ℝ} (hν : 0 < ν) :
    ∃ ρ, 0 < ρ ∧ ∀ (M : Mesh ℝ) (T : Traj ℝ) (H : ℝ) (lbh ubh tol : List ℝ) (mid : Bool), FineSamples ocp lo hi taus P ρ C M T →
      (∀ ph < ocp.nPhases, M.Lasts T ph H) → H ≤ ρ →
      (∀ ph < ocp.nPhases, ∀ s < M.orders.length, lbh.getD ph 0 ≤ T.w s ph) →
      (∀ ph < ocp.nPhases, ∀ s < M.orders.length, T.w s ph ≤ ubh.getD ph 0) →
      (mid = true → ∀ ph < ocp.nPhases, 0 ≤ tol.getD ph 0) → SolvesAdaptiveTo 0 (ν * H) ocp M T lbh ubh tol mid := by
  have hd := sub_pos.2 hlt
  obtain ⟨D, hD0, hD⟩ := C88_bounds lo hi taus P
  obtain ⟨D', A, -, hA0, hDA⟩ := C83_bounds lo hi taus P
  -- rates near the motion change by less than half of what is allowed
  obtain ⟨ρ1, r10, r1⟩ : ∃ ρ, 0 < ρ ∧ ∀ ph < ocp.nPhases, ∀ r, 0 < r → r ≤ ρ →
      RatesNear ocp C ph r (ν / 2 * (hi - lo)) := by
    refine exists_least fun ph hp => ?_
    obtain ⟨ρ, h0, h⟩ := hR ph hp _ (mul_pos (half_pos hν) hd)
    exact ⟨ρ, h0, fun r _ hr F hF t ht x u hx hu k1 k2 => h F hF t ht x u hx hu (fun k hk => (k1 k hk).trans hr)
      fun k hk => (k2 k hk).trans hr⟩
  set c := D + A + 1 with hc
  have hc0 : 0 < c := by positivity
  set ω := ν / 2 / c with hω
  have hω0 : 0 < ω := by positivity
  have hωD : D * ω ≤ ν / 2 := by
    rw [hω, ← mul_div_assoc, div_le_iff₀ hc0]; nlinarith
  have hωA : A * ω ≤ ν / 2 := by
    rw [hω, ← mul_div_assoc, div_le_iff₀ hc0]; nlinarith
  have hv' : ValidOCP { ocp with midu := List.replicate ocp.nPhases true } := by
    cases hv
    constructor <;> assumption
  obtain ⟨ρ2, r20, r2⟩ := SmoothMotion.fine (ocp := { ocp with midu := List.replicate ocp.nPhases true }) hv'
    ⟨hsc.x, hsc.u, hsc.a, hsc.t⟩ (fun ph hp => (hC.phase ph hp).order) ⟨hS.rates, fun ph hp _ => hu ph hp⟩ lo hi taus P hω0 hω0
  set ρ := min (ρ1 / ν) ρ2 with hρd
  have hρ0 : 0 < ρ := lt_min (div_pos r10 hν) r20
  refine ⟨ρ, hρ0, fun M T H lbh ubh tol mid hF hH hHρ hlo hup htol => ?_⟩
  obtain ⟨hm, hT, hw, hρ⟩ := hF
  obtain ⟨hH0, hr, hb⟩ := r2 M T H ⟨hm, ⟨hT.t0, hT.tf, hT.a, hT.x, hT.u⟩, hw,
    fun ph hp s hs => (hρ ph hp s hs).trans (min_le_right _ _)⟩ hH
  have hmidu : ∀ ph < ocp.nPhases, (List.replicate ocp.nPhases true).getD ph false = true := by
    intro ph hp
    rw [List.getD_eq_getElem _ _ (by simpa using hp)]
    simp
  have hsmall : ν * H ≤ ρ1 := by
    have := hHρ.trans (min_le_left _ _)
    rw [le_div_iff₀ hν] at this
    linarith
  have hAH : A * ω * H ≤ ν * H := mul_le_mul_of_nonneg_right (by linarith) hH0
  refine C88_consistent hv hsc hm.good hm.inside hC hl hT hw (D := D) (A := A) (ω := ω) (e := ω * H) (H := H) (hD M hm)
    (hDA M hm).2 hr (fun ph hp => hb ph hp (hmidu ph hp)) hH hω0.le (mul_le_mul_of_nonneg_right (by linarith) hH0)
    (by rw [← mul_assoc]; exact hAH) hAH hdf hlo hup fun hmid ph hp => ⟨ρ1, ν / 2 * (hi - lo), r1 ph hp ρ1 r10 le_rfl,
      hAH.trans hsmall, by rw [← mul_assoc]; exact hAH.trans hsmall, by positivity, ?_⟩
  rw [hm.tau0, hm.tau1]
  have e1 : H / (hi - lo) * (ν / 2 * (hi - lo)) = ν / 2 * H := by field_simp
  have e2 := mul_le_mul_of_nonneg_right hωD hH0
  rw [e1]
  linarith [htol hmid ph hp]

/-- **C88** It is enough that rates are Lipschitz functions of states and controls. -/
theorem C88_lipschitz (hsc : ∀ j < ocp.nx, 0 < ocp.scaleX.getD j 0) {L : ℝ} (hL : 0 ≤ L)
    (h : ∀ ph < ocp.nPhases, ∀ F, ocp.dynamics[ph]? = some F → ∀ t ∈ Set.Icc (C.t0 ph) (C.tf ph), ∀ x u : List ℝ,
      x.length = ocp.nx → u.length = ocp.nu → ∀ d, (∀ k < ocp.nx, |ocp.scaleX.getD k 0 * (x.getD k 0 - C.x ph k t)| ≤ d) →
      (∀ k < ocp.nu, |ocp.scaleU.getD k 0 * (u.getD k 0 - C.u ph k t)| ≤ d) → ∀ j < ocp.nx,
        |F.f { ocp.cArg C ph t with x := x, u := u } j - F.f (ocp.cArg C ph t) j| ≤ L * d) : RatesContinuous ocp C := by
  intro ph hp ν hν
  set B := ∑ j ∈ Finset.range ocp.nx, ocp.scaleX.getD j 0 with hB
  have hB0 : 0 ≤ B := Finset.sum_nonneg fun j hj => (hsc j (Finset.mem_range.1 hj)).le
  refine ⟨ν / (B * L + 1), by positivity, fun F hF t ht x u hx hu k1 k2 j hj => ?_⟩
  rw [abs_mul, abs_of_pos (hsc j hj)]
  have h1 := mul_le_mul_of_nonneg_left (h ph hp F hF t ht x u hx hu _ k1 k2 j hj) (hsc j hj).le
  have h2 : ocp.scaleX.getD j 0 ≤ B :=
    Finset.single_le_sum (f := fun j => ocp.scaleX.getD j 0) (fun k hk => (hsc k (Finset.mem_range.1 hk)).le) (Finset.mem_range.2 hj)
  have h3 : 0 ≤ L * (ν / (B * L + 1)) := by positivity
  refine h1.trans ((mul_le_mul_of_nonneg_right h2 h3).trans ?_)
  rw [← mul_assoc, ← mul_div_assoc, div_le_iff₀ (by positivity)]
  nlinarith [mul_nonneg hB0 hL]

theorem SolvesAdaptiveTo.mono (hv : ValidOCP ocp) (hsc : ocp.PosScales) {εb ε εb' : ℝ} {lbh ubh tol : List ℝ} {mid : Bool}
    (h : SolvesAdaptiveTo εb ε ocp M T lbh ubh tol mid) (hb : εb ≤ εb') : SolvesAdaptiveTo εb' ε ocp M T lbh ubh tol mid := by
  have px : ∀ j < ocp.nx, 0 < ocp.scaleX.getD j 0 := fun j hj => getD_mem_ne hv.scaleX hsc.x hj
  have pu : ∀ j < ocp.nu, 0 < ocp.scaleU.getD j 0 := fun j hj => getD_mem_ne hv.scaleU hsc.u hj
  have pa : ∀ j < ocp.na, 0 < ocp.scaleA.getD j 0 := fun j hj => getD_mem_ne hv.scaleA hsc.a hj
  have pt := hsc.t
  obtain ⟨h1, h2, h3, h4, h5, h6, h7, h8, h9, h10, h11, h12⟩ := h
  refine ⟨fun ph hp => ?_, h2, h3, h4, h5, fun ph hp s hs => by linarith [h6 ph hp s hs],
    fun ph hp s hs => by linarith [h7 ph hp s hs], h8, h9, h10, h11, h12⟩
  obtain ⟨b1, b2, b3, b4, b5, b6⟩ := h1 ph hp
  exact ⟨fun e j hj => (b1 e j hj).trans (div_le_div_of_nonneg_right hb (px j hj).le),
    fun i hi hn j hj => (b2 i hi hn j hj).mono (div_le_div_of_nonneg_right hb (px j hj).le),
    fun i hi j hj => (b3 i hi j hj).mono (div_le_div_of_nonneg_right hb (pu j hj).le),
    b4.mono (div_le_div_of_nonneg_right hb pt.le), b5.mono (div_le_div_of_nonneg_right hb pt.le),
    fun k hk => (b6 k hk).mono (div_le_div_of_nonneg_right hb (pa k hk).le)⟩

section free
variable {V : Type} {w : Outside ℝ V} {nlpsol : SolverCall ℝ V → Py (List ℝ)} {ptp : List (List Nat)} {n : Nat}
  {arg : OrdersArg} {lbh ubh tol : List ℝ} {mid rx rdx : Bool} {s : AdaptOpt ℝ V} {εb ε η : ℝ}

/-- If the solver returns the best of the points within its tolerances but for `η`, the trajectory shown compares so with all trajectories
that solve the problem of `mpopt_adaptive` up to these tolerances. -/
theorem adaptive_best {scheme : String} (hf : s.Ready w ocp n arg scheme lbh ubh tol mid) (hv : ValidOCP ocp)
    (hs : ocp.SettingsOK) (hsc : ocp.PosScales) (hlb : lbh.length = ocp.nPhases) (hub : ubh.length = ocp.nPhases)
    (htol : tol.length = ocp.nPhases) (hM : MeshFor w scheme n arg M)
    (hopt : ∀ c z, nlpsol c = .ok z → c.BestNear εb ε η z) (earlier : List (SolveArgs ℝ V)) (a : SolveArgs ℝ V)
    {s' : AdaptOpt ℝ V} {z : List ℝ} (hrun : (s.run w nlpsol earlier).solve w nlpsol a = (s', .ok z))
    {p : Post ℝ} {r : Option (PyDict (ResidVal ℝ))} (hp : s'.processResults w ptp false rx rdx = .ok (p, r)) :
    ∃ T W J, compQuadWeights ⟨w.method, w.tau0, w.tau1, tausFn w.lib w.tau0 w.tau1 scheme⟩ M.orders = .ok W ∧
      SolvesAdaptiveTo εb ε ocp M T lbh ubh tol mid ∧ p.Shows ocp M T ∧ PhysCost ocp M W T J ∧
      ∀ T' J', SolvesAdaptiveTo εb ε ocp M T' lbh ubh tol mid → PhysCost ocp M W T' J' → J ≤ J' + η := by
  obtain ⟨d, honM, rfl, rfl, hW, hc, -⟩ := hf.coherent hM
  have hr : (⟨d, lbh, ubh, tol, mid⟩ : Adapt ℝ).Ready := ⟨hlb, hub, htol⟩
  obtain ⟨hc1, -⟩ := hc.run (nlpsol := nlpsol) earlier
  obtain ⟨hc2, -, k⟩ := hc1.solve (nlpsol := nlpsol) a
  obtain ⟨-, -, k'⟩ := hc1.solveCall a
  rw [hrun] at hc2 k
  obtain ⟨c, sw, e1, e2, e3, e4, e5⟩ := k z rfl
  obtain ⟨q1, q2, q3⟩ := k' c e1
  have ho := hopt c z e2
  have hsol := ((near_adaptCall_spec honM hv hs hsc hr q1 q2 q3 εb ε z).1 ho.sol).2
  obtain ⟨-, hcost⟩ := adaptCall_spec honM hv hs hsc hr q1 q2 q3 z
  obtain ⟨g1, g2⟩ := adapt_shown honM hv hsc hc2 e3 e4 e5 hp
  refine ⟨_, d.compW, _, hW, hsol, g1, hcost, fun T' J' hT' hJ' => ?_⟩
  have hsame := adapt_decoded (ad := ⟨d, lbh, ubh, tol, mid⟩) honM hv hsc T'
  obtain ⟨-, hcost'⟩ := adaptCall_spec honM hv hs hsc hr q1 q2 q3
    ((⟨d, lbh, ubh, tol, mid⟩ : Adapt ℝ).allVars.map (packEnv d.ocp T'))
  have hWl : d.compW.length = M.N := by
    obtain ⟨-, -, hl, -⟩ := C15_objective honM hv hs hsc
    exact hl
  rw [PhysCost.unique honM.good hWl hv.runningCosts hJ' (hsame.cost hcost')]
  exact ho.best _ ((near_adaptCall_spec honM hv hs hsc hr q1 q2 q3 εb ε _).2 ⟨by simp, hsame.symm.solvesAdaptiveTo hs hT'⟩)

/-- **C88** `mpopt_adaptive` with LGR nodes of order at least 2 and a solver that returns the best of the points within its tolerances but
for `η`: flown to the end of its last segments on the real system, the plan costs no more than any solution of the continuous-time problem
that changes so little within the segments of some admissible mesh that the tolerances cover it, but for `η` and the sizes of the changes. -/
theorem C88_adaptive_best (hf : s.Ready w ocp n arg "LGR" lbh ubh tol mid) (hv : ValidOCP ocp) (hs : ocp.SettingsOK)
    (hsc : ocp.PosScales) (hlb : lbh.length = ocp.nPhases) (hub : ubh.length = ocp.nPhases) (htol : tol.length = ocp.nPhases)
    (hM : MeshFor w "LGR" n arg M) (hlt : w.tau0 < w.tau1) (hord : ∀ q ∈ M.orders, 2 ≤ q)
    (hj : ∀ q ∈ M.orders, IsJacobiRoots 1 0 (q - 1) (w.lib.jroots (q - 1) 1 0))
    (hopt : ∀ c z, nlpsol c = .ok z → c.BestNear εb ε η z) (hεb : 0 ≤ εb) (hpos : ∀ ph < ocp.nPhases, εb < lbh.getD ph 0)
    (hdf : ∀ ph < ocp.nPhases, ocp.diffU.getD ph false = false) (earlier : List (SolveArgs ℝ V)) (a : SolveArgs ℝ V)
    {s' : AdaptOpt ℝ V} {z : List ℝ} (hrun : (s.run w nlpsol earlier).solve w nlpsol a = (s', .ok z))
    {p : Post ℝ} {r : Option (PyDict (ResidVal ℝ))} (hp : s'.processResults w ptp false rx rdx = .ok (p, r)) :
    ∃ T, SolvesAdaptiveTo εb ε ocp M T lbh ubh tol mid ∧ p.Shows ocp M T ∧
      ∀ (θ : ℝ) (lo hi : Nat → Nat → ℝ) (U : Nat → List ℝ → Prop) (K : Sizes),
      EndsNear ocp M T θ → K.Allows ocp M T (ε + θ) →
      (∀ ph < ocp.nPhases, Sized ocp M (T.filled M.orders.length) ph (lo ph) (hi ph) (U ph) K) →
      ∃ C, Flies ocp M (T.filled M.orders.length) C ∧ NearlySolvesTo ocp C (K.slack (εb + θ) (ε + θ)) ∧
      ∀ (Z : CTraj) (v : Nat → Nat → ℝ) (D A ω e H q : ℝ), SolvesContinuously ocp Z →
        (∀ ph < ocp.nPhases, (∀ s < n, 0 < v s ph ∧ lbh.getD ph 0 ≤ v s ph ∧ v s ph ≤ ubh.getD ph 0) ∧
          ∑ s ∈ Finset.range n, v s ph = 1) →
        M.SlopeBound D → M.ValueBound A → 0 ≤ ω → (∀ ph < ocp.nPhases, RatesVary ocp Z n v ph ω) →
        (∀ ph < ocp.nPhases, ControlsBend ocp Z n v ph e) →
        (∀ ph < ocp.nPhases, ∀ s < n, (Z.tf ph - Z.t0 ph) * v s ph ≤ H) →
        D * ω * H ≤ ε → A * e ≤ ε → A * ω * H ≤ ε →
        (mid = true → ∀ ph < ocp.nPhases, ∃ ρ ν, RatesNear ocp Z ph ρ ν ∧ A * ω * H ≤ ρ ∧ A * e ≤ ρ ∧ 0 ≤ ν ∧
          D * ω * H + H / (w.tau1 - w.tau0) * ν ≤ tol.getD ph 0 + ε) →
        ContinuousCosts ocp Z →
        (∀ ph < ocp.nPhases, ∀ t ∈ Set.Icc (Z.t0 ph) (Z.tf ph), ∀ t' ∈ Set.Icc (Z.t0 ph) (Z.tf ph), |t - t'| ≤ H →
          |ocp.runningCosts.getD ph (fun _ => 0) (ocp.cArg Z ph t) - ocp.runningCosts.getD ph (fun _ => 0) (ocp.cArg Z ph t')| ≤ q) →
        ocp.trueCost C ≤ ocp.trueCost Z + q * ∑ ph ∈ Finset.range ocp.nPhases, (Z.tf ph - Z.t0 ph) + η +
          ocp.nPhases * (θ + (K.Px * K.drift + K.change * K.dur)) := by
  obtain ⟨T, W, J, h1, h2, h4, h5, h6⟩ := adaptive_best hf hv hs hsc hlb hub htol hM hopt earlier a hrun hp
  obtain ⟨d, honM, e1, e2, -, -⟩ := hf.coherent hM
  have hseg : M.orders.length = n := by rw [honM.orders, honM.segments, e2]
  have hI := hM.lgr_inside hlt hord hj
  refine ⟨T, h2, h4, fun θ lo hi U K hθ hε hK => ?_⟩
  obtain ⟨C, c1, c2, c3⟩ := C87_flown w.lib w.method hv hs hsc (hM.meshOf hI) hord hj h2 hpos hθ hε hK h1 h5
  refine ⟨C, c1, c2, fun Z v D A ω e H q hZ hwid hD hA hω0 hω he hH hε hε' hε'' hmid hc hq => ?_⟩
  obtain ⟨T', hS, hw'⟩ := exists_samples_of ocp M Z v
  have hf : ∀ ph < ocp.nPhases, FullWidths M T' ph := fun ph hp =>
    ⟨fun s hs => by rw [hw']; exact ((hwid ph hp).1 s (by omega)).1, by rw [hw', hseg]; exact (hwid ph hp).2⟩
  have hlast : ∀ ph < ocp.nPhases, M.Lasts T' ph H := by
    intro ph hp s hs
    rw [hw', hS.t0 ph hp, hS.tf ph hp]
    exact hH ph hp s (by omega)
  have hnear : SolvesAdaptiveTo 0 ε ocp M T' lbh ubh tol mid := C88_consistent hv hsc hM.good hI hZ hs.linkRange hS hf hD hA
    (by rw [hw', hseg]; exact hω) (by rw [hw', hseg]; exact he) hlast hω0 hε hε' hε'' hdf
    (fun ph hp s hs => by rw [hw']; exact ((hwid ph hp).1 s (by omega)).2.1)
    (fun ph hp s hs => by rw [hw']; exact ((hwid ph hp).1 s (by omega)).2.2)
    (by rw [hM.tau0, hM.tau1]; exact hmid)
  obtain ⟨J', hJ'⟩ : ∃ J', PhysCost ocp M W T' J' := exists_physCost ocp M W T'
  have k1 := h6 T' J' (hnear.mono hv hsc hεb) hJ'
  have k2 := C84_cost w.lib w.method (hM.meshOf hI) hord hj hc hS hf hlast hq h1 hJ'
  linarith [(abs_le.1 c3).1, (abs_le.1 k2).2]

/-- **C88** In the limit: let `Z` be a smooth solution of the continuous-time problem. All sessions of `mpopt_adaptive` with enough segments
of LGR nodes, orders out of a given list, width bounds that admit equal widths, non-negative residual tolerances and tolerance `ν / n` on the
rows do as well as `Z` but for `η` and the solver's `η0`, if controls vary by no more than `δ` within a segment of the plan. -/
theorem C88_limit (w : Outside ℝ V) (hv : ValidOCP ocp) (hs : ocp.SettingsOK) (hsc : ocp.PosScales) (hlt : w.tau0 < w.tau1)
    {P : List Nat} (hord : ∀ q ∈ P, 2 ≤ q) (hj : ∀ q ∈ P, IsJacobiRoots 1 0 (q - 1) (w.lib.jroots (q - 1) 1 0))
    (hdf : ∀ ph < ocp.nPhases, ocp.diffU.getD ph false = false) {Z : CTraj} (hZ : SolvesContinuously ocp Z)
    (hsm : SmoothMotion ocp Z) (hu : SmoothControls ocp Z) (hR : RatesContinuous ocp Z) (hc : ContinuousCosts ocp Z) (K : Sizes)
    {η : ℝ} (hη : 0 < η) :
    ∃ δ, 0 < δ ∧ ∀ ν, 0 < ν → ∃ N : Nat, ∀ (n : Nat) (arg : OrdersArg) (M : Mesh ℝ) (nlpsol : SolverCall ℝ V → Py (List ℝ))
      (ptp : List (List Nat)) (lbh ubh tol : List ℝ) (mid rx rdx : Bool) (s s' : AdaptOpt ℝ V) (earlier : List (SolveArgs ℝ V))
      (a : SolveArgs ℝ V) (z : List ℝ) (p : Post ℝ) (r : Option (PyDict (ResidVal ℝ))) (εb η0 : ℝ), N ≤ n →
      s.Ready w ocp n arg "LGR" lbh ubh tol mid → lbh.length = ocp.nPhases → ubh.length = ocp.nPhases → tol.length = ocp.nPhases →
      MeshFor w "LGR" n arg M → (∀ q ∈ M.orders, q ∈ P) → 0 ≤ εb → (∀ ph < ocp.nPhases, εb < lbh.getD ph 0) →
      (∀ ph < ocp.nPhases, lbh.getD ph 0 ≤ 1 / n ∧ 1 / n ≤ ubh.getD ph 0 ∧ 0 ≤ tol.getD ph 0) →
      (∀ c z, nlpsol c = .ok z → c.BestNear εb (ν / n) η0 z) →
      (s.run w nlpsol earlier).solve w nlpsol a = (s', .ok z) → s'.processResults w ptp false rx rdx = .ok (p, r) →
      ∃ T, SolvesAdaptiveTo εb (ν / n) ocp M T lbh ubh tol mid ∧ p.Shows ocp M T ∧
        ∀ (lo hi : Nat → Nat → ℝ) (U : Nat → List ℝ → Prop) (H e κ θ : ℝ), EndsNear ocp M T θ →
        Sizes.Allows { K with H := H, e := e, tol := κ } ocp M T (ν / n + θ) →
        (∀ ph < ocp.nPhases,
          Sized ocp M (T.filled M.orders.length) ph (lo ph) (hi ph) (U ph) { K with H := H, e := e, tol := κ }) →
        H ≤ δ → e ≤ δ → κ ≤ δ → θ ≤ δ → εb + θ ≤ δ → ν / n + θ ≤ δ →
        ∃ C, Flies ocp M (T.filled M.orders.length) C ∧ NearlySolvesTo ocp C (Slack.all η) ∧
          ocp.trueCost C ≤ ocp.trueCost Z + η0 + η := by
  obtain ⟨δ, hδ, hplan⟩ := C87_fine_plan (a := w.tau0) (b := w.tau1) w.lib w.method hv hs hsc hord hj K (half_pos hη)
  obtain ⟨B, hB0, hB⟩ := exists_longest ocp Z
  obtain ⟨ρ2, r20, r2⟩ := C78_lgr w.lib w.method hlt hord hj hc (half_pos hη)
  refine ⟨δ, hδ, fun ν hν => ?_⟩
  obtain ⟨ρ1, r10, r1⟩ := C88_fine hv hsc hZ hsm hu hR hs.linkRange hdf hlt (tausFn w.lib w.tau0 w.tau1 "LGR") P (div_pos hν hB0)
  obtain ⟨N1, hN1⟩ := exists_nat_ge (B / ρ1)
  obtain ⟨N2, hN2⟩ := exists_nat_ge (B / ρ2)
  refine ⟨max N1 N2, fun n arg M nlpsol ptp lbh ubh tol mid rx rdx s s' earlier a z p r εb η0 hN hf hlb hub htol hM hP hεb hpos hwid
    hopt hrun hp => ?_⟩
  obtain ⟨T, W, J, h1, h2, h4, h5, h6⟩ := adaptive_best hf hv hs hsc hlb hub htol hM hopt earlier a hrun hp
  obtain ⟨d, honM, e1, e2, -, -⟩ := hf.coherent hM
  have hseg : M.orders.length = n := by rw [honM.orders, honM.segments, e2]
  have hn0 : 0 < n := by rw [← hseg]; exact List.length_pos_iff.2 hM.good.nonempty
  have hnr : (0 : ℝ) < n := by exact_mod_cast hn0
  have c1 : B / ρ1 ≤ n := hN1.trans (by exact_mod_cast (le_max_left _ _).trans hN)
  have c2 : B / ρ2 ≤ n := hN2.trans (by exact_mod_cast (le_max_right _ _).trans hN)
  rw [div_le_iff₀ r10] at c1
  rw [div_le_iff₀ r20] at c2
  have hI := hM.lgr_inside hlt (fun q hq => hord q (hP q hq)) (fun q hq => hj q (hP q hq))
  have hmesh : MeshOf w.tau0 w.tau1 (tausFn w.lib w.tau0 w.tau1 "LGR") P M :=
    ⟨hM.good, hI, hM.tau0, hM.tau1, hP, hM.nodes⟩
  refine ⟨T, h2, h4, fun lo hi U H e κ θ hθ hε hK hH he hκ ht hb hr => ?_⟩
  obtain ⟨C, d1, d2, d3⟩ := hplan M T W J H e κ εb (ν / n) θ lo hi U lbh ubh tol mid hmesh h2 hpos hθ hε hK h1 h5 hH he hκ ht hb hr
  refine ⟨C, d1, d2.mono hv hsc ?_ ?_ ?_ ?_ ?_ ?_ ?_, ?_⟩
  iterate 7 exact half_le_self hη.le
  obtain ⟨T', hS, hw'⟩ := exists_samples_of ocp M Z fun _ _ => 1 / (n : ℝ)
  have hwid' : WidthsAre ocp n none T' := fun ph hp s hs => by rw [hw']
  have hfull : ∀ ph < ocp.nPhases, FullWidths M T' ph := fun ph hp => hwid'.equal_full hseg hn0 hp
  have hlast : ∀ ph < ocp.nPhases, M.Lasts T' ph (B / n) := by
    intro ph hp s hs
    rw [hw', hS.t0 ph hp, hS.tf ph hp, mul_one_div]
    exact div_le_div_of_nonneg_right (hB ph hp) hnr.le
  have hfine : ∀ ρ, B ≤ n * ρ → FineSamples ocp w.tau0 w.tau1 (tausFn w.lib w.tau0 w.tau1 "LGR") P ρ Z M T' := fun ρ hρ =>
    ⟨hmesh, hS, hfull, fun ph hp s hs => (hlast ph hp s hs).trans (by rw [div_le_iff₀ hnr]; linarith)⟩
  have hnear := r1 M T' (B / n) lbh ubh tol mid (hfine ρ1 c1) hlast (by rw [div_le_iff₀ hnr]; linarith)
    (fun ph hp s hs => by rw [hw']; exact (hwid ph hp).1) (fun ph hp s hs => by rw [hw']; exact (hwid ph hp).2.1)
    fun _ ph hp => (hwid ph hp).2.2
  rw [show ν / B * (B / n) = ν / n by field_simp] at hnear
  obtain ⟨J', hJ'⟩ : ∃ J', PhysCost ocp M W T' J' := exists_physCost ocp M W T'
  have k1 := h6 T' J' (hnear.mono hv hsc hεb) hJ'
  have k2 := r2 M T' W J' (hfine ρ2 c2) h1 hJ'
  linarith [(abs_le.1 d3).1, (abs_le.1 k2).2]

end free

end MPOpt
