import Verif.Props.Flown
import Verif.Props.Tolerance
import Verif.Spec.FlownTo

/-! # C82: what tolerances of the solver mean for the real system -/

set_option autoImplicit false

namespace MPOpt
open Polynomial
variable {ocp : OCP ℝ} {M : Mesh ℝ} {T : Traj ℝ} {K : Sizes} {ph : Nat}

theorem WithinTo.shift {ε d sc v v' : ℝ} {lo hi : Ext ℝ} (hsc : 0 < sc) (h : WithinTo (ε / sc) lo hi v)
    (hd : |sc * (v' - v)| ≤ d) : WithinTo ((d + ε) / sc) lo hi v' := by
  have hd' : |v' - v| ≤ d / sc := by
    rw [le_div_iff₀ hsc]
    calc |v' - v| * sc = |sc * (v' - v)| := by rw [abs_mul, abs_of_pos hsc, mul_comm]
      _ ≤ d := hd
  obtain ⟨h1, h2⟩ := abs_le.1 hd'
  rw [add_div]
  refine ⟨?_, ?_⟩
  · have := h.1
    cases lo <;> simp only [Ext.Below] at this ⊢
    · linarith
  · have := h.2
    cases hi <;> simp only [Ext.Above] at this ⊢
    · linarith

theorem CollocationTo.rate {ε κ : ℝ} (hC : CollocationTo ε ocp M T ph) (hpos : ∀ j < ocp.nx, 0 < ocp.scaleX.getD j 0)
    (h : ∀ s < M.orders.length, ε ≤ M.halfWidth T ph s * κ) : CollocationRate κ ocp M T ph := by
  intro F hF j hj s i ho
  have := hC F hF j hj s i ho
  rw [le_div_iff₀ (hpos j hj)] at this
  rw [abs_mul, abs_of_pos (hpos j hj), mul_comm]
  exact this.trans (h s ho.1)

section
variable {C : CTraj} {lo hi : Nat → ℝ} {U : List ℝ → Prop} {εb ε : ℝ}

theorem PhaseFlown.nearlyTo (h : PhaseFlown ocp M T C ph lo hi U K) (hK : Sized ocp M T ph lo hi U K) (hM : M.Good) (hI : M.Inside)
    (hw : FullWidths M T ph) (hx : ∀ j < ocp.nx, 0 < ocp.scaleX.getD j 0) (hu : ∀ j < ocp.nu, 0 < ocp.scaleU.getD j 0)
    (hB : BoundsTo εb ocp M T ph) (hC : CollocationRate K.tol ocp M T ph)
    (hP : ∀ F, ocp.pathConstraints[ph]? = some (some F) → ∀ s i, M.Owns s i → ∀ c < F.len,
      F.f (ocp.pArg T ph (M.idx s i) (M.time T ph s (M.node s i))) c ≤ ε)
    (hT : ∀ F, ocp.terminalConstraints[ph]? = some (some F) → ∀ c < F.len, |F.f (ocp.tArg T ph M.N) c| ≤ ε) :
    PhaseNearlyTo ocp C ph (K.slack εb ε) := by
  have hN : ∀ s < M.orders.length, M.idx s (M.order s) < M.N := fun s hs => by
    exact Mesh.idx_lt hs le_rfl
  have hI1 : ∀ s < M.orders.length, M.idx s (M.order s) ≠ 0 := fun s hs => by
    have := hM.order_pos hs
    unfold Mesh.idx; omega
  constructor
  case order => rw [h.t0, h.tf]; exact hK.order
  case dynamics => exact h.dynamics hK hM hI hw hx
  case path =>
    intro F hF c hc t ht
    rw [h.t0, h.tf] at ht
    obtain ⟨s, hs, tau, htau, rfl⟩ := exists_instant hM hI hK.order hw ht
    have h1 := h.change hK hM hI hw hC (hK.path F hF c hc) hs htau le_rfl
    have h2 := hP F hF s (M.order s) ⟨hs, le_rfl, Or.inr (hM.order_pos hs)⟩ c hc
    show _ ≤ K.change + ε
    linarith [(abs_le.1 h1).2]
  case terminal =>
    intro F hF c hc
    have h1 := abs_le.1 (h.endArg hK hM hI hw (hK.terminal F hF c hc))
    have h2 := abs_le.1 (hT F hF c hc)
    show _ ≤ K.Px * K.drift + ε
    rw [abs_le]
    constructor <;> linarith [h1.1, h1.2, h2.1, h2.2]
  case x0 =>
    rintro rfl j hj
    rw [h.t0, h.start hj]
    exact hB.x0 rfl j hj
  case x =>
    intro t ht j hj
    rw [h.t0, h.tf] at ht
    obtain ⟨s, hs, tau, htau, rfl⟩ := exists_instant hM hI hK.order hw ht
    exact (hB.x _ (hN s hs) (fun h => hI1 s hs h.2) j hj).shift (hx j hj) (h.near hK hM hI hw hC hs htau le_rfl hj)
  case u =>
    intro t ht j hj
    rw [h.t0, h.tf] at ht
    obtain ⟨s, hs, tau, htau, rfl⟩ := exists_instant hM hI hK.order hw ht
    exact (hB.u _ (hN s hs) j hj).shift (hu j hj) (h.nearU hK hM hI hs htau le_rfl hj)
  case t0 => rw [h.t0]; exact hB.t0
  case tf => rw [h.tf]; exact hB.tf
  case a => rw [h.a]; exact hB.a

end

section
variable {lo hi : Nat → Nat → ℝ} {U : Nat → List ℝ → Prop} {εb ε : ℝ}

theorem SolvesTo.meets (h : SolvesTo εb ε ocp M T) : MeetsTo εb ε ocp M T := ⟨h.bounds, h.dynamics, h.path, h.terminal, h.links⟩

theorem flownTo_all (hv : ValidOCP ocp) (hs : ocp.SettingsOK) (hsc : ocp.PosScales) (hM : M.Good) (hI : M.Inside)
    (hT : MeetsTo εb ε ocp M T) (hε : K.Allows ocp M T ε) (hw : ∀ ph < ocp.nPhases, FullWidths M T ph)
    (hK : ∀ ph < ocp.nPhases, Sized ocp M T ph (lo ph) (hi ph) (U ph) K) :
    ∃ C, Flies ocp M T C ∧ NearlySolvesTo ocp C (K.slack εb ε) ∧
      ∀ ph < ocp.nPhases, PhaseFlown ocp M T C ph (lo ph) (hi ph) (U ph) K := by
  have hpos : ∀ j < ocp.nx, 0 < ocp.scaleX.getD j 0 := fun j hj => getD_mem_ne hv.scaleX hsc.x hj
  have hposu : ∀ j < ocp.nu, 0 < ocp.scaleU.getD j 0 := fun j hj => getD_mem_ne hv.scaleU hsc.u hj
  have hcol : ∀ ph < ocp.nPhases, CollocationRate K.tol ocp M T ph := fun ph hp => (hT.dynamics ph hp).rate hpos (hε ph hp)
  obtain ⟨C, hC⟩ := exists_flown hv hsc hM hI hcol hw hK
  have h0 := hC 0 hv.phases
  have hlast : ∀ p < ocp.nPhases, ∀ j < ocp.nu, C.u p j (C.tf p) = T.u p (M.N - 1) j := by
    intro p hp j hj
    have hl : 0 < M.orders.length := List.length_pos_iff.2 hM.nonempty
    have hs : M.orders.length - 1 < M.orders.length := by omega
    have := (hC p hp).u j hj _ hs M.tau1 ⟨(hI.tau_lt hM).le, le_rfl⟩
    rw [(C13_segment_ends hM T p).2.2.2 (hw p hp).sum, ← hM.node_last hs, controlAt_node hM hs le_rfl,
      Mesh.last_idx (by omega)] at this
    rw [h0.tf, this]
  have hfirst : ∀ p < ocp.nPhases, ∀ j < ocp.nu, C.u p j (C.t0 p) = T.u p 0 j := by
    intro p hp j hj
    have hl : 0 < M.orders.length := List.length_pos_iff.2 hM.nonempty
    have := (hC p hp).u j hj 0 hl M.tau0 ⟨le_rfl, (hI.tau_lt hM).le⟩
    rw [(C13_segment_ends hM T p).1, ← hM.node_first hl, controlAt_node hM hl (Nat.zero_le _)] at this
    rw [h0.t0, this]
    simp [Mesh.idx, segStart_zero]
  refine ⟨C, ⟨h0.t0, h0.tf, h0.a, fun ph hp => (hC ph hp).u, fun ph hp j hj => by rw [h0.t0]; exact (hC ph hp).start hj⟩,
    ⟨fun ph hp => (hC ph hp).nearlyTo (hK ph hp) hM hI (hw ph hp) hpos hposu (hT.bounds ph hp) (hcol ph hp)
      (hT.path ph hp) (hT.terminal ph hp), ?_, ?_, ?_⟩, hC⟩
  · intro h2 k p q hk j hj
    obtain ⟨hp, hq⟩ := hs.linkRange _ (List.mem_of_getElem? hk)
    refine ((hT.links h2).x k p q hk j hj).shift (hpos j hj) ?_
    have := (hC p hp).final (hK p hp) hM hI (hw p hp) hj
    rw [h0.t0, (hC q hq).start hj, h0.tf]
    refine le_trans (le_of_eq ?_) this
    rw [← abs_neg]
    congr 1; ring
  · intro h2 k p q hk j hj
    obtain ⟨hp, hq⟩ := hs.linkRange _ (List.mem_of_getElem? hk)
    rw [hfirst q hq j hj, hlast p hp j hj]
    exact (hT.links h2).u k p q hk j hj
  · intro h2 k p q hk
    rw [h0.t0, h0.tf]
    exact (hT.links h2).t k p q hk

/-- **C82** A plan that only nearly solves the collocated problem can be flown: the tolerances of the solver add to those of C80, and the
tolerance of the collocation equations, divided by `dt/dtau` of the shortest segment, adds to the failure of the dynamics. -/
theorem C82_flown (hv : ValidOCP ocp) (hs : ocp.SettingsOK) (hsc : ocp.PosScales) (hM : M.Good) (hI : M.Inside)
    (hT : SolvesTo εb ε ocp M T) (hε : K.Allows ocp M T ε) (hw : ∀ ph < ocp.nPhases, FullWidths M T ph)
    (hK : ∀ ph < ocp.nPhases, Sized ocp M T ph (lo ph) (hi ph) (U ph) K) :
    ∃ C, Flies ocp M T C ∧ NearlySolvesTo ocp C (K.slack εb ε) := by
  obtain ⟨C, h1, h2, -⟩ := flownTo_all hv hs hsc hM hI hT.meets hε hw hK
  exact ⟨C, h1, h2⟩

/-- With no tolerance left this is the continuous-time problem. -/
theorem NearlySolvesTo.exact (hl : ocp.nPhases = 1 → ocp.phaseLinks = []) (hv : ValidOCP ocp) {C : CTraj}
    (h : NearlySolvesTo ocp C (Slack.all 0)) : SolvesContinuously ocp C := by
  have h2 : ∀ (k p q : Nat), ocp.phaseLinks[k]? = some (p, q) → 2 ≤ ocp.nPhases := by
    intro k p q hk
    by_contra hcon
    have := hv.phases
    rw [hl (by omega)] at hk
    simp at hk
  have ab : ∀ v : ℝ, |v| ≤ 0 ↔ v = 0 := fun v => abs_nonpos_iff
  refine ⟨fun ph hp => ?_, fun k p q hk j hj => ?_, fun k p q hk j hj => ?_, fun k p q hk => ?_⟩
  · obtain ⟨k1, k2, k3, k4, k5, k6, k7, k8, k9, k10⟩ := h.phase ph hp
    simp only [Slack.all, zero_div, withinTo_exact, ab, sub_eq_zero] at k3 k4 k5 k6 k7 k8 k9 k10
    exact ⟨k1, k2, k3, k4, k5, fun t ht _ j hj => k6 t ht j hj, k7, k8, k9, k10⟩
  · have := h.linkX (h2 k p q hk) k p q hk j hj
    simpa only [Slack.all, zero_div, withinTo_exact] using this
  · have := h.linkU (h2 k p q hk) k p q hk j hj
    simpa only [Slack.all, zero_div, ab, sub_eq_zero] using this
  · have := h.linkT (h2 k p q hk) k p q hk
    simpa only [Slack.all, zero_div, ab, sub_eq_zero] using this

section
variable {m : Method} {a b : ℝ} {taus : Nat → Py (List ℝ)} {P : List Nat}

theorem MeetsTo.cost (hv : ValidOCP ocp) (hs : ocp.SettingsOK) (hsc : ocp.PosScales) (hm : MeshOf a b taus P M)
    (hT : MeetsTo εb ε ocp M T) (hε : K.Allows ocp M T ε) (hw : ∀ ph < ocp.nPhases, FullWidths M T ph)
    (hK : ∀ ph < ocp.nPhases, Sized ocp M T ph (lo ph) (hi ph) (U ph) K)
    {κ A : ℝ} (hκ : ∀ p ∈ P, ∀ r, taus p = .ok r → 1 - (quadWeights m r a b).getD 0 0 / (b - a) = κ)
    (hA : ∀ p ∈ M.orders, ∑ i ∈ Finset.range p, |(quadWeights m (M.nodes p) a b).getD (i + 1) 0| ≤ A * (b - a)) {W : List ℝ}
    (hW : compQuadWeights ⟨m, a, b, taus⟩ M.orders = .ok W) {J : ℝ} (hJ : PhysCost ocp M W T J) :
    ∃ C, Flies ocp M T C ∧ NearlySolvesTo ocp C (K.slack εb ε) ∧
      |J - ocp.weighedCost C κ| ≤ ∑ ph ∈ Finset.range ocp.nPhases, (K.Px * K.drift + (A * K.change * K.dur +
        |1 - κ| * K.H * |ocp.runningCosts.getD ph (fun _ => 0) (ocp.pArg T ph 0 (T.t0 ph))|)) := by
  have hpos : ∀ j < ocp.nx, 0 < ocp.scaleX.getD j 0 := fun j hj => getD_mem_ne hv.scaleX hsc.x hj
  obtain ⟨C, h1, h2, h3⟩ := flownTo_all hv hs hsc hm.good hm.inside hT hε hw hK
  exact ⟨C, h1, h2, flown_cost hv hm (fun ph hp => (hT.dynamics ph hp).rate hpos (hε ph hp)) hw hK h3 hκ hA hW hJ⟩

theorem MeetsTo.lgr (lib : NodeLib ℝ) (m : Method) (hv : ValidOCP ocp) (hs : ocp.SettingsOK) (hsc : ocp.PosScales)
    (hm : MeshOf a b (tausFn lib a b "LGR") P M) (hord : ∀ p ∈ P, 2 ≤ p)
    (hj : ∀ p ∈ P, IsJacobiRoots 1 0 (p - 1) (lib.jroots (p - 1) 1 0)) (hT : MeetsTo εb ε ocp M T)
    (hε : K.Allows ocp M T ε)
    (hw : ∀ ph < ocp.nPhases, FullWidths M T ph) (hK : ∀ ph < ocp.nPhases, Sized ocp M T ph (lo ph) (hi ph) (U ph) K)
    {W : List ℝ} (hW : compQuadWeights ⟨m, a, b, tausFn lib a b "LGR"⟩ M.orders = .ok W) {J : ℝ} (hJ : PhysCost ocp M W T J) :
    ∃ C, Flies ocp M T C ∧ NearlySolvesTo ocp C (K.slack εb ε) ∧
      |J - ocp.trueCost C| ≤ ocp.nPhases * (K.Px * K.drift + K.change * K.dur) := by
  have hlt : a < b := by
    have hI : M.Inside := hm.inside
    have := hI.tau_lt hm.good; rwa [hm.tau0, hm.tau1] at this
  obtain ⟨C, h1, h2, h3⟩ := MeetsTo.cost (m := m) (κ := 1) (A := 1) hv hs hsc hm hT hε hw hK (lgr_share lib m hlt hord hj) (fun p hp => by
    rw [lgr_sum_abs lib m hlt (hord p (hm.allowed p hp)) (hj p (hm.allowed p hp)) (hm.nodes p hp), one_mul]) hW hJ
  refine ⟨C, h1, h2, ?_⟩
  rw [ocp.weighedCost_one] at h3
  rw [mul_add]
  simpa using h3

/-- **C82** What such a plan costs when it is flown. -/
theorem C82_cost (hv : ValidOCP ocp) (hs : ocp.SettingsOK) (hsc : ocp.PosScales) (hm : MeshOf a b taus P M)
    (hT : SolvesTo εb ε ocp M T) (hε : K.Allows ocp M T ε) (hw : ∀ ph < ocp.nPhases, FullWidths M T ph)
    (hK : ∀ ph < ocp.nPhases, Sized ocp M T ph (lo ph) (hi ph) (U ph) K)
    {κ A : ℝ} (hκ : ∀ p ∈ P, ∀ r, taus p = .ok r → 1 - (quadWeights m r a b).getD 0 0 / (b - a) = κ)
    (hA : ∀ p ∈ M.orders, ∑ i ∈ Finset.range p, |(quadWeights m (M.nodes p) a b).getD (i + 1) 0| ≤ A * (b - a)) {W : List ℝ}
    (hW : compQuadWeights ⟨m, a, b, taus⟩ M.orders = .ok W) {J : ℝ} (hJ : PhysCost ocp M W T J) :
    ∃ C, Flies ocp M T C ∧ NearlySolvesTo ocp C (K.slack εb ε) ∧
      |J - ocp.weighedCost C κ| ≤ ∑ ph ∈ Finset.range ocp.nPhases, (K.Px * K.drift + (A * K.change * K.dur +
        |1 - κ| * K.H * |ocp.runningCosts.getD ph (fun _ => 0) (ocp.pArg T ph 0 (T.t0 ph))|)) :=
  hT.meets.cost hv hs hsc hm hε hw hK hκ hA hW hJ

/-- **C82** With LGR and orders at least 2 the cost claimed is the true cost of the motion, but for the size of the changes within a
segment. -/
theorem C82_lgr (lib : NodeLib ℝ) (m : Method) (hv : ValidOCP ocp) (hs : ocp.SettingsOK) (hsc : ocp.PosScales)
    (hm : MeshOf a b (tausFn lib a b "LGR") P M) (hord : ∀ p ∈ P, 2 ≤ p)
    (hj : ∀ p ∈ P, IsJacobiRoots 1 0 (p - 1) (lib.jroots (p - 1) 1 0)) (hT : SolvesTo εb ε ocp M T)
    (hε : K.Allows ocp M T ε)
    (hw : ∀ ph < ocp.nPhases, FullWidths M T ph) (hK : ∀ ph < ocp.nPhases, Sized ocp M T ph (lo ph) (hi ph) (U ph) K)
    {W : List ℝ} (hW : compQuadWeights ⟨m, a, b, tausFn lib a b "LGR"⟩ M.orders = .ok W) {J : ℝ} (hJ : PhysCost ocp M W T J) :
    ∃ C, Flies ocp M T C ∧ NearlySolvesTo ocp C (K.slack εb ε) ∧
      |J - ocp.trueCost C| ≤ ocp.nPhases * (K.Px * K.drift + K.change * K.dur) :=
  hT.meets.lgr lib m hv hs hsc hm hord hj hε hw hK hW hJ

end

theorem NearlySolvesTo.mono (hv : ValidOCP ocp) (hsc : ocp.PosScales) {C : CTraj} {E E' : Slack} (h : NearlySolvesTo ocp C E)
    (h1 : E.x ≤ E'.x) (h2 : E.u ≤ E'.u) (h3 : E.path ≤ E'.path) (h4 : E.terminal ≤ E'.terminal) (h5 : E.linkX ≤ E'.linkX)
    (h6 : E.bound ≤ E'.bound) (h7 : E.link ≤ E'.link) : NearlySolvesTo ocp C E' := by
  have px : ∀ j < ocp.nx, 0 < ocp.scaleX.getD j 0 := fun j hj => getD_mem_ne hv.scaleX hsc.x hj
  have pu : ∀ j < ocp.nu, 0 < ocp.scaleU.getD j 0 := fun j hj => getD_mem_ne hv.scaleU hsc.u hj
  have pa : ∀ j < ocp.na, 0 < ocp.scaleA.getD j 0 := fun j hj => getD_mem_ne hv.scaleA hsc.a hj
  have pt := hsc.t
  refine ⟨fun ph hp => ?_, fun a k p q hk j hj => ?_, fun a k p q hk j hj => ?_, fun a k p q hk => ?_⟩
  · obtain ⟨k1, k2, k3, k4, k5, k6, k7, k8, k9, k10⟩ := h.phase ph hp
    exact ⟨k1, k2, fun F hF c hc t ht => (k3 F hF c hc t ht).trans h3, fun F hF c hc => (k4 F hF c hc).trans h4,
      fun e j hj => (k5 e j hj).trans (div_le_div_of_nonneg_right h6 (px j hj).le),
      fun t ht j hj => (k6 t ht j hj).mono (div_le_div_of_nonneg_right h1 (px j hj).le),
      fun t ht j hj => (k7 t ht j hj).mono (div_le_div_of_nonneg_right h2 (pu j hj).le),
      k8.mono (div_le_div_of_nonneg_right h6 pt.le), k9.mono (div_le_div_of_nonneg_right h6 pt.le),
      fun k hk => (k10 k hk).mono (div_le_div_of_nonneg_right h6 (pa k hk).le)⟩
  · exact (h.linkX a k p q hk j hj).mono (div_le_div_of_nonneg_right h5 (px j hj).le)
  · exact (h.linkU a k p q hk j hj).trans (div_le_div_of_nonneg_right h7 (pu j hj).le)
  · exact (h.linkT a k p q hk).trans (div_le_div_of_nonneg_right h7 pt.le)

section
variable {P : List Nat} {a b : ℝ}

/-- As below, for what holds at nodes. -/
theorem MeetsTo.fine_plan (lib : NodeLib ℝ) (m : Method) (hv : ValidOCP ocp) (hs : ocp.SettingsOK) (hsc : ocp.PosScales)
    (hord : ∀ p ∈ P, 2 ≤ p) (hj : ∀ p ∈ P, IsJacobiRoots 1 0 (p - 1) (lib.jroots (p - 1) 1 0)) (K : Sizes) {η : ℝ} (hη : 0 < η) :
    ∃ δ, 0 < δ ∧ ∀ (M : Mesh ℝ) (T : Traj ℝ) (W : List ℝ) (J H e κ εb ε : ℝ) (lo hi : Nat → Nat → ℝ) (U : Nat → List ℝ → Prop),
      MeshOf a b (tausFn lib a b "LGR") P M → MeetsTo εb ε ocp M T → (∀ ph < ocp.nPhases, FullWidths M T ph) →
      Sizes.Allows { K with H := H, e := e, tol := κ } ocp M T ε →
      (∀ ph < ocp.nPhases, Sized ocp M T ph (lo ph) (hi ph) (U ph) { K with H := H, e := e, tol := κ }) →
      compQuadWeights ⟨m, a, b, tausFn lib a b "LGR"⟩ M.orders = .ok W → PhysCost ocp M W T J →
      H ≤ δ → e ≤ δ → κ ≤ δ → εb ≤ δ → ε ≤ δ →
      ∃ C, Flies ocp M T C ∧ NearlySolvesTo ocp C (Slack.all η) ∧ |J - ocp.trueCost C| ≤ η := by
  obtain ⟨G, hG, hsmall⟩ := K.small
  have hn0 : (0 : ℝ) ≤ ocp.nPhases := by positivity
  set D := (3 * G * (2 * ocp.nPhases + 1) + 1) with hD
  have hD0 : 0 < D := by positivity
  have hD1 : 1 ≤ D := by
    have : 0 ≤ 3 * G * (2 * ocp.nPhases + 1) := by positivity
    linarith
  refine ⟨min 1 (η / (D + 1)), by positivity, fun M T W J H e κ εb ε lo hi U hm hT hw hε hK hW hJ hH he hκ hb hr => ?_⟩
  obtain ⟨C, h1, h2, h3⟩ := hT.lgr lib m hv hs hsc hm hord hj hε hw hK hW hJ
  have hF : ocp.dynamics[0]? = some (ocp.dynamics[0]'(by rw [hv.dynamics]; exact hv.phases)) :=
    List.getElem?_eq_getElem _
  have hH0 : 0 ≤ H := ((hK 0 hv.phases).nonneg hm.good hm.inside (hw 0 hv.phases) hF).2.1
  have he0 : 0 ≤ e := ((hK 0 hv.phases).tame _ hF).e
  have hκ0 : 0 ≤ κ := (hK 0 hv.phases).tol
  obtain ⟨s1, s2, s3, s4, s5, s6⟩ := hsmall H e κ hH0 he0 hκ0 (hκ.trans (min_le_left _ _))
  set q := η / (D + 1) with hq
  have hq0 : 0 < q := by positivity
  have hqη : q * (D + 1) = η := div_mul_cancel₀ _ (by positivity)
  have hH := hH.trans (min_le_right _ _)
  have he := he.trans (min_le_right _ _)
  have hκ := hκ.trans (min_le_right _ _)
  have hb := hb.trans (min_le_right _ _)
  have hr := hr.trans (min_le_right _ _)
  have hGe : G * (H + e + κ) ≤ q * (3 * G) := by
    have := mul_le_mul_of_nonneg_left (add_le_add (add_le_add hH he) hκ) hG
    linarith
  have hp0 : 0 ≤ q * (3 * G) := by positivity
  have hb' : q * (3 * G) * (2 * ocp.nPhases + 1) + 2 * q ≤ η := by
    rw [← hqη, hD]; ring_nf; linarith
  have hb1 : q * (3 * G) + q ≤ η := by nlinarith
  refine ⟨C, h1, h2.mono hv hsc ?_ ?_ ?_ ?_ ?_ ?_ ?_, h3.trans ?_⟩
  · show _ + εb ≤ η; linarith
  · show e + εb ≤ η; linarith
  · show _ + ε ≤ η; linarith
  · show K.Px * _ + ε ≤ η; linarith
  · show _ + ε ≤ η; linarith
  · show εb ≤ η; linarith
  · show ε ≤ η; linarith
  · have h5 := s5.trans hGe
    have h6 := s6.trans hGe
    have := mul_le_mul_of_nonneg_left (add_le_add h5 h6) hn0
    refine this.trans ?_
    nlinarith


/-- **C82** On fine LGR meshes, with controls that vary little within a segment and a solver whose tolerances are small enough (those of
the rows also after division by `dt/dtau`), the plan can be flown so that every constraint holds but for as little as wanted, at the cost
claimed but for as little as wanted. -/
theorem C82_fine_plan (lib : NodeLib ℝ) (m : Method) (hv : ValidOCP ocp) (hs : ocp.SettingsOK) (hsc : ocp.PosScales)
    (hord : ∀ p ∈ P, 2 ≤ p) (hj : ∀ p ∈ P, IsJacobiRoots 1 0 (p - 1) (lib.jroots (p - 1) 1 0)) (K : Sizes) {η : ℝ} (hη : 0 < η) :
    ∃ δ, 0 < δ ∧ ∀ (M : Mesh ℝ) (T : Traj ℝ) (W : List ℝ) (J H e κ εb ε : ℝ) (lo hi : Nat → Nat → ℝ) (U : Nat → List ℝ → Prop),
      MeshOf a b (tausFn lib a b "LGR") P M → SolvesTo εb ε ocp M T → (∀ ph < ocp.nPhases, FullWidths M T ph) →
      Sizes.Allows { K with H := H, e := e, tol := κ } ocp M T ε →
      (∀ ph < ocp.nPhases, Sized ocp M T ph (lo ph) (hi ph) (U ph) { K with H := H, e := e, tol := κ }) →
      compQuadWeights ⟨m, a, b, tausFn lib a b "LGR"⟩ M.orders = .ok W → PhysCost ocp M W T J →
      H ≤ δ → e ≤ δ → κ ≤ δ → εb ≤ δ → ε ≤ δ →
      ∃ C, Flies ocp M T C ∧ NearlySolvesTo ocp C (Slack.all η) ∧ |J - ocp.trueCost C| ≤ η := by
  obtain ⟨δ, h0, h⟩ := MeetsTo.fine_plan (a := a) (b := b) lib m hv hs hsc hord hj K hη
  exact ⟨δ, h0, fun M T W J H e κ εb ε lo hi U hm hT => h M T W J H e κ εb ε lo hi U hm hT.meets⟩
end

end

/-! ## The module-level `solve` -/

section
variable {V : Type} {w : Outside ℝ V} {ptp : List (List Nat)} {n : Nat} {arg : OrdersArg} {a : SolveArgs ℝ V} {rx rdx : Bool}
  {εb ε : ℝ}

/-- With `n` segments of equal width. -/
theorem Sizes.allows_equal (hM : M.Good) (hI : M.Inside) (hn : M.orders.length = n)
    (hw : WidthsAre ocp n none T) (hK : ∀ ph < ocp.nPhases, ε * n * (M.tau1 - M.tau0) ≤ (T.tf ph - T.t0 ph) * K.tol) :
    K.Allows ocp M T ε := by
  intro ph hp s hs
  have hn0 : (0 : ℝ) < n := by
    rw [← hn]; exact_mod_cast List.length_pos_iff.2 hM.nonempty
  have hlt := sub_pos.2 (hI.tau_lt hM)
  rw [Mesh.halfWidth, show T.w s ph = 1 / (n : ℝ) from hw ph hp s (by omega)]
  have := hK ph hp
  have e : (T.tf ph - T.t0 ph) / (M.tau1 - M.tau0) * (1 / (n : ℝ)) * K.tol =
      (T.tf ph - T.t0 ph) * K.tol / ((M.tau1 - M.tau0) * n) := by field_simp
  rw [e, le_div_iff₀ (by positivity)]
  linarith

/-- **C82** The module-level `solve` with LGR nodes of order at least 2, `n` segments of equal width and a solver that only promises points
within tolerances: what is shown are the node values of a plan; if its sizes are known, it can be flown. The tolerance of the rows enters
`n` times. -/
theorem C82_solve {nlpsol : SolverCall ℝ V → Py (List ℝ)} {s : Session ℝ V} {p : Post ℝ}
    {r : Option (PyDict (ResidVal ℝ))} (hrun : mpSolve w nlpsol ocp ptp n arg "LGR" a rx rdx = .ok (s, p, r))
    (hv : ValidOCP ocp) (hs : ocp.SettingsOK) (hsc : ocp.PosScales) (hM : MeshFor w "LGR" n arg M)
    (hn : M.orders.length = n) (hlt : w.tau0 < w.tau1) (hord : ∀ q ∈ M.orders, 2 ≤ q)
    (hj : ∀ q ∈ M.orders, IsJacobiRoots 1 0 (q - 1) (w.lib.jroots (q - 1) 1 0)) (hnone : a.widths = none)
    (hnear : ∀ c z, nlpsol c = .ok z → c.NearSolution εb ε z) :
    ∃ T, SolvesTo εb ε ocp M T ∧ p.Shows ocp M T ∧ ∀ (W : List ℝ) (J : ℝ) (lo hi : Nat → Nat → ℝ) (U : Nat → List ℝ → Prop)
      (K : Sizes),
      compQuadWeights ⟨w.method, w.tau0, w.tau1, tausFn w.lib w.tau0 w.tau1 "LGR"⟩ M.orders = .ok W → PhysCost ocp M W T J →
      (∀ ph < ocp.nPhases, ε * n * (w.tau1 - w.tau0) ≤ (T.tf ph - T.t0 ph) * K.tol) →
      (∀ ph < ocp.nPhases, Sized ocp M T ph (lo ph) (hi ph) (U ph) K) →
      ∃ C, Flies ocp M T C ∧ NearlySolvesTo ocp C (K.slack εb ε) ∧
        |J - ocp.trueCost C| ≤ ocp.nPhases * (K.Px * K.drift + K.change * K.dur) := by
  obtain ⟨T, hT, hw, hsh⟩ := C81_solve_near hrun hv hs hsc hM hnear
  rw [hnone] at hw
  have hn0 : 0 < n := by rw [← hn]; exact List.length_pos_iff.2 hM.good.nonempty
  refine ⟨T, hT, hsh, fun W J lo hi U K hW hJ htol hK => ?_⟩
  have hI := hM.lgr_inside hlt hord hj
  refine C82_lgr w.lib w.method hv hs hsc (hM.meshOf hI) hord hj hT
    (Sizes.allows_equal hM.good hI hn hw ?_) (fun ph hp => hw.equal_full hn hn0 hp) hK hW hJ
  rw [hM.tau0, hM.tau1]
  exact htol

/-- **C82** If the solver is optimal up to `η`, the motion costs no more than any solution of the continuous-time problem that is a
piecewise polynomial of the orders of the mesh, but for `η` and the same bound. -/
theorem C82_solve_best {nlpsol : SolverCall ℝ V → Py (List ℝ)} {s : Session ℝ V} {p : Post ℝ} {η : ℝ}
    {r : Option (PyDict (ResidVal ℝ))} (hrun : mpSolve w nlpsol ocp ptp n arg "LGR" a rx rdx = .ok (s, p, r))
    (hv : ValidOCP ocp) (hs : ocp.SettingsOK) (hsc : ocp.PosScales) (hM : MeshFor w "LGR" n arg M)
    (hn : M.orders.length = n) (hlt : w.tau0 < w.tau1) (hord : ∀ q ∈ M.orders, 2 ≤ q)
    (hj : ∀ q ∈ M.orders, IsJacobiRoots 1 0 (q - 1) (w.lib.jroots (q - 1) 1 0)) (hnone : a.widths = none)
    (hopt : ∀ c z, nlpsol c = .ok z → c.NearOptimal εb ε η z)
    (hdu : ∀ ph < ocp.nPhases, ocp.duContinuity.getD ph false = false)
    (hdf : ∀ ph < ocp.nPhases, ocp.diffU.getD ph false = false) :
    ∃ T, SolvesTo εb ε ocp M T ∧ p.Shows ocp M T ∧ ∀ (lo hi : Nat → Nat → ℝ) (U : Nat → List ℝ → Prop) (K : Sizes),
      (∀ ph < ocp.nPhases, ε * n * (w.tau1 - w.tau0) ≤ (T.tf ph - T.t0 ph) * K.tol) →
      (∀ ph < ocp.nPhases, Sized ocp M T ph (lo ph) (hi ph) (U ph) K) →
      ∃ C, Flies ocp M T C ∧ NearlySolvesTo ocp C (K.slack εb ε) ∧
      ∀ D T', SolvesContinuously ocp D → Samples ocp M D T' → WidthsAre ocp n none T' →
        (∀ ph < ocp.nPhases, ∀ j < ocp.nx,
          PiecewisePoly M.orders.length M.order (D.breakTime T'.w ph) (D.x ph j)) →
        (∀ ph < ocp.nPhases, ocp.midu.getD ph false = true → ∀ j < ocp.nu,
          PiecewisePoly M.orders.length M.order (D.breakTime T'.w ph) (D.u ph j)) →
        (∀ ph < ocp.nPhases, LeftPiecewisePoly M.orders.length (fun s => 2 * M.order s - 2) (D.breakTime T'.w ph)
          fun t => ocp.runningCosts.getD ph (fun _ => 0) (ocp.cArg D ph t)) →
        ocp.trueCost C ≤ ocp.trueCost D + η + ocp.nPhases * (K.Px * K.drift + K.change * K.dur) := by
  obtain ⟨T, W, J, h1, h2, h3, h4, h5, h6⟩ := C81_solve_near_optimal hrun hv hs hsc hM hopt
  rw [hnone] at h3 h6
  have hn0 : 0 < n := by rw [← hn]; exact List.length_pos_iff.2 hM.good.nonempty
  have hI := hM.lgr_inside hlt hord hj
  refine ⟨T, h2, h4, fun lo hi U K htol hK => ?_⟩
  obtain ⟨C, c1, c2, c3⟩ := C82_lgr w.lib w.method hv hs hsc (hM.meshOf hI) hord hj h2
    (Sizes.allows_equal hM.good hI hn h3 (by rw [hM.tau0, hM.tau1]; exact htol))
    (fun ph hp => h3.equal_full hn hn0 hp) hK h1 h5
  refine ⟨C, c1, c2, fun D T' hD hS hw' hx hu hc => ?_⟩
  obtain ⟨hI', hWi⟩ := C57_lgr_integrates hM hlt hord hj h1
  have hf : ∀ ph < ocp.nPhases, FullWidths M T' ph := fun ph hp => hw'.equal_full hn hn0 hp
  have := h6 T' _ (C56_exact_feasible hM.good hI' hD hs.linkRange hS hf hx hu hdu hdf) hw'
    (C57_cost hM.good hI' hWi hv.runningCosts hS hf (fun ph hp => (hD.phase ph hp).order) hc)
  linarith [(abs_le.1 c3).1]

end

end MPOpt
