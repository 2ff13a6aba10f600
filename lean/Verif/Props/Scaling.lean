import Verif.Props.Transcription

/-! # C17 (scaling invariance) and the real-time reading of C19 -/

set_option autoImplicit false
set_option linter.unusedSectionVars false

namespace MPOpt
open Polynomial

variable {K : Type} [Field K] [LinearOrder K] [IsStrictOrderedRing K] {d d' : Disc K} {M : Mesh K}

/-- The same problem with other scale factors. -/
def OCP.withScales (ocp : OCP K) (sx su sa : List K) (st : K) : OCP K :=
  { ocp with scaleX := sx, scaleU := su, scaleA := sa, scaleT := st }

/-- Values of the decision variables with given physical trajectory. -/
def encode (ocp : OCP K) (T : Traj K) : Env K
  | .X ph i j => T.x ph i j * ocp.scaleX.getD j 0
  | .U ph i j => T.u ph i j * ocp.scaleU.getD j 0
  | .T0 ph => T.t0 ph * ocp.scaleT
  | .Tf ph => T.tf ph * ocp.scaleT
  | .A k ph => T.a ph k * ocp.scaleA.getD k 0
  | .H s ph => T.w s ph

/-- A trajectory that assigns 0 to components the problem does not have. -/
def Trim (ocp : OCP K) (T : Traj K) : Prop :=
  (∀ ph i j, ocp.nx ≤ j → T.x ph i j = 0) ∧ (∀ ph i j, ocp.nu ≤ j → T.u ph i j = 0) ∧
    ∀ ph k, ocp.na ≤ k → T.a ph k = 0

theorem getD_pos {l : List K} (h : ∀ s ∈ l, 0 < s) {j : Nat} (hj : j < l.length) :
    0 < l.getD j 0 := by
  rw [List.getD_eq_getElem _ _ hj]; exact h _ (List.getElem_mem hj)

theorem physOf_trim (ocp : OCP K) (hv : ValidOCP ocp) (σ : Env K) : Trim ocp (physOf ocp σ) := by
  have h0 : ∀ (l : List K) (j : Nat), l.length ≤ j → l.getD j 0 = 0 := by
    intro l j h; rw [List.getD_eq_getElem?_getD, List.getElem?_eq_none h]; rfl
  refine ⟨fun ph i j h => ?_, fun ph i j h => ?_, fun ph k h => ?_⟩ <;>
    simp only [physOf]
  · rw [h0 _ _ (by rw [hv.scaleX]; exact h), div_zero]
  · rw [h0 _ _ (by rw [hv.scaleU]; exact h), div_zero]
  · rw [h0 _ _ (by rw [hv.scaleA]; exact h), div_zero]

theorem physOf_encode (ocp : OCP K) (hv : ValidOCP ocp) (hsc : ocp.PosScales) (T : Traj K)
    (hT : Trim ocp T) : physOf ocp (encode ocp T) = T := by
  ext
  · rename_i ph i j
    simp only [physOf, encode]
    rcases Nat.lt_or_ge j ocp.nx with h | h
    · exact mul_div_cancel_right₀ _ (getD_pos hsc.x (by rw [hv.scaleX]; exact h)).ne'
    · rw [hT.1 ph i j h]; simp
  · rename_i ph i j
    simp only [physOf, encode]
    rcases Nat.lt_or_ge j ocp.nu with h | h
    · exact mul_div_cancel_right₀ _ (getD_pos hsc.u (by rw [hv.scaleU]; exact h)).ne'
    · rw [hT.2.1 ph i j h]; simp
  · exact mul_div_cancel_right₀ _ hsc.t.ne'
  · exact mul_div_cancel_right₀ _ hsc.t.ne'
  · rename_i ph k
    simp only [physOf, encode]
    rcases Nat.lt_or_ge k ocp.na with h | h
    · exact mul_div_cancel_right₀ _ (getD_pos hsc.a (by rw [hv.scaleA]; exact h)).ne'
    · rw [hT.2.2 ph k h]; simp
  · rfl

/-- Physical trajectories that are feasible for an NLP, with their objective value. -/
def Disc.Attainable (d : Disc K) (T : Traj K) (J : K) : Prop :=
  ∃ nlp σ, d.createNlp = .ok nlp ∧ nlp.Feasible σ ∧ physOf d.ocp σ = T ∧ nlp.f σ = J

/-- Feasible trajectories and objective values in terms of the unscaled problem. -/
theorem attainable_iff (h : d.OnMesh M) (hv : ValidOCP d.ocp) (hs : d.ocp.SettingsOK)
    (hsc : d.ocp.PosScales) (hoff : ∀ b ∈ d.ocp.diffU, b = false) (T : Traj K) (J : K) :
    d.Attainable T J ↔ Trim d.ocp T ∧ PhysFeasible d.ocp M T ∧ ∃ v : Nat → Nat → K,
      (∀ ph < d.ocp.nPhases, RunningSamples d.ocp M T ph (v ph)) ∧
      J = ∑ ph ∈ Finset.range d.ocp.nPhases,
        (TerminalCost d.ocp M T ph + weightedSum d.compW (v ph)) := by
  obtain ⟨nlp, hn, hfeas⟩ := C14_feasible_iff h hv hs hsc
  obtain ⟨nlp', hn', -, hobj⟩ := C15_objective h hv hs hsc
  rw [hn] at hn'; cases hn'
  have hd : ∀ ph, d.ocp.diffU.getD ph false = false := by
    intro ph
    rcases Nat.lt_or_ge ph d.ocp.diffU.length with h | h
    · rw [List.getD_eq_getElem _ _ h]; exact hoff _ (List.getElem_mem h)
    · rw [List.getD_eq_getElem?_getD, List.getElem?_eq_none h]; rfl
  have hsamp : ∀ T : Traj K, ∃ v : Nat → Nat → K,
      ∀ ph < d.ocp.nPhases, RunningSamples d.ocp M T ph (v ph) := by
    intro T
    classical
    refine ⟨fun ph k => if hk : ∃ s i, M.Owns s i ∧ M.idx s i = k then
      M.halfWidth T ph hk.choose * d.ocp.runningCosts.getD ph (fun _ => 0)
        (d.ocp.pArg T ph k (M.time T ph hk.choose (M.node hk.choose hk.choose_spec.choose)))
      else 0, fun ph _ rc hrc s i ho => ?_⟩
    have hk : ∃ s' i', M.Owns s' i' ∧ M.idx s' i' = M.idx s i := ⟨s, i, ho, rfl⟩
    beta_reduce
    rw [dif_pos hk]
    have h1 := hk.choose_spec.choose_spec
    obtain ⟨e1, e2⟩ := M.owner_unique h1.1 ho h1.2
    rw [e2, e1, List.getD_eq_getElem?_getD, hrc]
    rfl
  constructor
  · rintro ⟨nlp', σ, hn', hf, rfl, rfl⟩
    rw [hn] at hn'; cases hn'
    obtain ⟨v, hvs⟩ := hsamp (physOf d.ocp σ)
    exact ⟨physOf_trim _ hv σ, ((hfeas σ).1 hf).1, v, hvs, hobj σ v hvs⟩
  · rintro ⟨htr, hf, v, hvs, rfl⟩
    have e := physOf_encode d.ocp hv hsc T htr
    refine ⟨nlp, encode d.ocp T, hn, (hfeas _).2 ⟨by rw [e]; exact hf, fun ph _ hh => ?_⟩, e, ?_⟩
    · rw [hd ph] at hh; cases hh
    · rw [hobj (encode d.ocp T) v (by rw [e]; exact hvs), e]

/-- The same discretisation object for the problem with other scale factors. -/
def Disc.withScales (d : Disc K) (sx su sa : List K) (st : K) : Disc K :=
  { d with ocp := d.ocp.withScales sx su sa st }

theorem Disc.OnMesh.withScales (h : d.OnMesh M) (sx su sa : List K) (st : K) :
    (d.withScales sx su sa st).OnMesh M :=
  ⟨h.good, h.orders, h.tau0, h.tau1, h.taus, h.segments, h.compD, h.compW⟩

/-- The constructor only stores the problem. -/
theorem mkDisc_withScales (lib : NodeLib K) (m : Method) (lo hi : K) (ocp : OCP K) (n : Nat)
    (orders : List Nat) (scheme : String) (sx su sa : List K) (st : K)
    (h : mkDisc lib m lo hi ocp n orders scheme = .ok d) :
    mkDisc lib m lo hi (ocp.withScales sx su sa st) n orders scheme =
      .ok (d.withScales sx su sa st) := by
  unfold mkDisc at *
  cases h1 : pyAssert (orders.length == n) with
  | error e => rw [h1] at h; cases h
  | ok _ =>
    cases h2 : mkColloc lib m lo hi orders scheme with
    | error e => rw [h1, h2] at h; cases h
    | ok c =>
      cases h3 : compDiffMatrix c orders 1 with
      | error e => rw [h1, h2] at h; simp only [py_bind_ok, h3] at h; cases h
      | ok D =>
        cases h4 : compQuadWeights c orders with
        | error e => rw [h1, h2] at h; simp only [py_bind_ok, h3, h4] at h; cases h
        | ok W =>
          rw [h1, h2] at h
          simp only [py_bind_ok, h3, h4] at h ⊢
          cases h
          rfl

/-- **C17** With `diff_u` off, the physical trajectories that are feasible for the NLP and their objective
values do not depend on the (positive) scale factors. -/
theorem C17_scaling_invariant (h : d.OnMesh M) (hv : ValidOCP d.ocp) (hs : d.ocp.SettingsOK)
    (hsc : d.ocp.PosScales) (sx su sa : List K) (st : K) (hx : sx.length = d.ocp.nx)
    (hu : su.length = d.ocp.nu) (ha : sa.length = d.ocp.na)
    (hsc' : (d.ocp.withScales sx su sa st).PosScales) (hoff : ∀ b ∈ d.ocp.diffU, b = false)
    (T : Traj K) (J : K) : d.Attainable T J ↔ (d.withScales sx su sa st).Attainable T J := by
  have hs' : (d.withScales sx su sa st).ocp.SettingsOK :=
    ⟨hs.nx, hs.diffU, hs.midu, hs.duContinuity, hs.lbdu, hs.ubdu, hs.nu, hs.links,
      hs.linkCount, hs.linkRange⟩
  have hv' : ValidOCP (d.withScales sx su sa st).ocp :=
    { hv with scaleX := hx, scaleU := hu, scaleA := ha }
  rw [attainable_iff h hv hs hsc hoff, attainable_iff (h.withScales sx su sa st) hv' hs' hsc' hoff]
  have e1 : PhysFeasible (d.ocp.withScales sx su sa st) M T ↔ PhysFeasible d.ocp M T :=
    ⟨fun ⟨a, b, c, e, f, g, i⟩ => ⟨fun ph hp => ⟨(a ph hp).x0, (a ph hp).x, (a ph hp).u, (a ph hp).t0,
      (a ph hp).tf, (a ph hp).a⟩, b, c, e, f, g, fun h2 => ⟨(i h2).x, (i h2).u, (i h2).t⟩⟩,
     fun ⟨a, b, c, e, f, g, i⟩ => ⟨fun ph hp => ⟨(a ph hp).x0, (a ph hp).x, (a ph hp).u, (a ph hp).t0,
      (a ph hp).tf, (a ph hp).a⟩, b, c, e, f, g, fun h2 => ⟨(i h2).x, (i h2).u, (i h2).t⟩⟩⟩
  have e2 : (d.withScales sx su sa st).ocp = d.ocp.withScales sx su sa st := rfl
  rw [e2, e1]
  exact Iff.rfl

/-- Non-vacuity: `ocpQ` (scales 2, 1, 1) against scales 1/3, 7, 10. -/
example : ∃ (d : Disc ℚ) (M : Mesh ℚ), d.OnMesh M ∧ ∀ T J,
    d.Attainable T J ↔ (d.withScales [1 / 3] [7] [] 10).Attainable T J := by
  obtain ⟨d, M, -, h, he, -⟩ := exampleDisc
  refine ⟨d, M, h, fun T J => ?_⟩
  obtain ⟨hv, hs, hsc⟩ := ocpQ_ready
  rw [← he] at hv hs hsc
  exact C17_scaling_invariant h hv hs hsc _ _ _ _ (by rw [he]; rfl) (by rw [he]; rfl) (by rw [he]; rfl)
    ⟨by simp [OCP.withScales], by simp [OCP.withScales], by simp [OCP.withScales],
      by norm_num [OCP.withScales]⟩ (by rw [he]; simp [ocpQ]) T J

/-! ### With `diff_u` on the claim is false -/

/-- A polynomial of low degree with the right node values is the piece. -/
theorem Mesh.Good.piece_eq (hM : M.Good) {s : Nat} (hs : s < M.orders.length) (v : Nat → K) (q : K[X])
    (hq : q.degree < (M.order s + 1 : Nat))
    (he : ∀ i ≤ M.order s, q.eval (M.node s i) = v (M.idx s i)) : M.piece v s = q := by
  unfold Mesh.piece
  symm
  apply Lagrange.eq_interpolate_of_eval_eq
  · intro a ha b hb hab
    have hp := hM.order_mem hs
    have hl := hM.length _ hp
    simp only [Finset.coe_range, Set.mem_Iio] at ha hb
    unfold Mesh.node at hab
    rw [List.getD_eq_getElem _ _ (by omega), List.getD_eq_getElem _ _ (by omega)] at hab
    exact (List.Nodup.getElem_inj_iff (hM.nodup _ hp)).1 hab
  · rw [Finset.card_range]; exact hq
  · intro i hi
    exact he i (by have := Finset.mem_range.1 hi; omega)

/-- One motionless state, one free control, no constraints; one scale for the control; slope bounds
`[-15, 15]`. -/
def ocpSlope (su : ℚ) (diff cont : Bool) : OCP ℚ :=
  { nx := 1, nu := 1, na := 0, nPhases := 1
    dynamics := [⟨1, fun _ _ => 0⟩]
    pathConstraints := [none], terminalCosts := [fun _ => 0], runningCosts := [fun _ => 0]
    terminalConstraints := [none], phaseLinks := []
    scaleX := [1], scaleU := [su], scaleA := [], scaleT := 1
    x00 := [[0]], xf0 := [[0]], u00 := [[0]], uf0 := [[0]], t00 := [[0]], tf0 := [[1]], a0 := [[]]
    lbx := [[.ninf]], ubx := [[.pinf]], lbu := [[.ninf]], ubu := [[.pinf]], lba := [[]]
    uba := [[]], lbt0 := [[.fin 0]], ubt0 := [[.fin 0]], lbtf := [[.fin 0]], ubtf := [[.pinf]]
    lbe := [], ube := [], diffU := [diff], lbdu := [.fin (-15)], ubdu := [.fin 15], midu := [true]
    duContinuity := [cont] }

/-- State 0, control `2 * (node number)`, duration 1, segment widths `w`. -/
def trajSlope (w : Nat → ℚ) : Traj ℚ :=
  { x := fun _ _ _ => 0, u := fun _ i j => if j = 0 then 2 * i else 0, t0 := fun _ => 0, tf := fun _ => 1
    a := fun _ _ => 0, w := fun s _ => w s }

theorem ocpSlope_ready (su : ℚ) (hsu : 0 < su) (a b : Bool)
    (hval : (ocpSlope su a b).validate = .ok ()) : ValidOCP (ocpSlope su a b) ∧
    (ocpSlope su a b).SettingsOK ∧ (ocpSlope su a b).PosScales := by
  refine ⟨(C40_validate_iff _).1 hval, ⟨Nat.one_pos, rfl, rfl, rfl, rfl, rfl, Or.inl Nat.one_pos,
    fun h => absurd h (by simp [ocpSlope]), fun h => absurd h (by simp [ocpSlope]),
    by simp [ocpSlope]⟩, ⟨?_, ?_, ?_, by norm_num [ocpSlope]⟩⟩
  all_goals simp [ocpSlope, hsu]

/-- On segments of order 1 over `[-1, 1]` the control of `trajSlope` has `tau`-slope 1 everywhere. -/
theorem trajSlope_piece {M : Mesh ℚ} (hM : M.Good) {n : Nat} (ho : M.orders = List.replicate n 1)
    (h0 : M.tau0 = -1) (h1 : M.tau1 = 1) {s : Nat} (hs : s < n) (w : Nat → ℚ) (ph : Nat) :
    M.piece (fun k => (trajSlope w).u ph k 0) s = X + C (1 + 2 * (s : ℚ)) := by
  have hs' : s < M.orders.length := by rw [ho]; simpa using hs
  have hord : M.order s = 1 := by
    unfold Mesh.order
    rw [ho, List.getD_eq_getElem _ _ (by simpa using hs)]; simp
  have hidx : ∀ i, M.idx s i = s + i := by
    intro i
    unfold Mesh.idx segStart
    rw [ho]; simp [List.take_replicate, Nat.min_eq_left hs.le]
  apply hM.piece_eq hs'
  · rw [hord]
    exact (degree_X_add_C _).trans_lt (by norm_num)
  · intro i hi
    rw [hord] at hi
    rw [hidx]
    have n0 := hM.node_first hs'
    have n1 := hM.node_last hs'
    rw [hord] at n1
    interval_cases i
    · rw [n0, h0]; simp [trajSlope]
    · rw [n1, h1]; simp [trajSlope]; ring

/-- `trajSlope` solves the collocated problem. -/
theorem trajSlope_feasible {M : Mesh ℚ} (hM : M.Good) {n : Nat} (ho : M.orders = List.replicate n 1)
    (h0 : M.tau0 = -1) (h1 : M.tau1 = 1) (su : ℚ) (a b : Bool) (w : Nat → ℚ) :
    PhysFeasible (ocpSlope su a b) M (trajSlope w) := by
  refine ⟨fun ph hph => ?_, fun ph hph => ?_, fun ph hph => ?_, fun ph hph => ?_, fun ph hph _ => ?_,
    fun ph hph _ => ?_, fun h => absurd h (by simp [ocpSlope])⟩ <;>
    obtain rfl : ph = 0 := by simpa [ocpSlope] using hph
  · refine ⟨fun _ j hj => ?_, fun i _ _ j hj => ?_, fun i _ j hj => ?_, ?_, ?_, fun k hk => ?_⟩
    · obtain rfl : j = 0 := by simpa [ocpSlope] using hj
      simp [trajSlope, entry, ocpSlope]
    · obtain rfl : j = 0 := by simpa [ocpSlope] using hj
      simp [entry, ocpSlope, Within, Ext.Below, Ext.Above]
    · obtain rfl : j = 0 := by simpa [ocpSlope] using hj
      simp [entry, ocpSlope, Within, Ext.Below, Ext.Above]
    · simp [entry, ocpSlope, Within, Ext.Below, Ext.Above, trajSlope]
    · simp [entry, ocpSlope, Within, Ext.Below, Ext.Above, trajSlope]
    · simp [ocpSlope] at hk
  · intro F hF j hj s i hown
    have e : M.piece (fun k => (trajSlope w).x 0 k j) s = 0 := by
      simp only [trajSlope]
      exact hM.piece_eq hown.1 _ 0 (by rw [degree_zero]; exact WithBot.bot_lt_coe _) (by simp)
    have hF : (⟨1, fun _ _ => 0⟩ : VFun (PArg ℚ) ℚ) = F := by simpa [ocpSlope] using hF
    rw [e, ← hF]; simp
  · intro F hF; simp [ocpSlope] at hF
  · intro F hF; simp [ocpSlope] at hF
  · intro j hj s hs i hi
    obtain rfl : j = 0 := by simpa [ocpSlope] using hj
    simp [entry, ocpSlope, Within, Ext.Below, Ext.Above]
  · intro j hj s hs
    obtain rfl : j = 0 := by simpa [ocpSlope] using hj
    have hn : M.orders.length = n := by rw [ho]; simp
    rw [trajSlope_piece hM ho h0 h1 (by omega), trajSlope_piece hM ho h0 h1 (by omega)]
    simp

theorem trajSlope_trim (su : ℚ) (a b : Bool) (w : Nat → ℚ) : Trim (ocpSlope su a b) (trajSlope w) := by
  refine ⟨fun _ _ _ _ => rfl, fun ph i j h => ?_, fun _ _ _ => rfl⟩
  have h : 1 ≤ j := h
  have : j ≠ 0 := by omega
  simp [trajSlope, this]

/-- Discretisation of `ocpSlope` on `n` segments of order 1. -/
theorem slopeDisc (ocp : OCP ℚ) (n : Nat) (hn : 0 < n) : ∃ (d : Disc ℚ) (M : Mesh ℚ),
    mkDisc libQ .numerical (-1) 1 ocp n (List.replicate n 1) "LGR" = .ok d ∧ d.OnMesh M ∧
      d.ocp = ocp ∧ M.orders = List.replicate n 1 ∧ M.tau0 = -1 ∧ M.tau1 = 1 := by
  obtain ⟨d, M, e1, e2, e3, e4, e5, e6, -⟩ := C43_lgr_setup libQ .numerical (-1) 1 (by norm_num) ocp
    (List.replicate n 1) (by simp; omega) (by simp) (by
      intro p hp h2
      rw [(List.mem_replicate.1 hp).2] at h2
      omega)
  rw [List.length_replicate] at e1
  exact ⟨d, M, e1, e2, e3, e4, e5, e6⟩

/-- **C17, `diff_u` on: false.** A trajectory that is feasible with control scale 1 is infeasible for the
same problem with control scale 100: the slope bounds are compared with the slope of the scaled control. -/
theorem C17_scaling_diff_u_false : ∃ (d : Disc ℚ) (M : Mesh ℚ) (T : Traj ℚ), d.OnMesh M ∧
    ValidOCP d.ocp ∧ d.ocp.SettingsOK ∧ d.ocp.PosScales ∧ (∃ J, d.Attainable T J) ∧
    ValidOCP (d.withScales [1] [100] [] 1).ocp ∧ (d.withScales [1] [100] [] 1).ocp.PosScales ∧
    ∀ J, ¬ (d.withScales [1] [100] [] 1).Attainable T J := by
  obtain ⟨d, M, -, h, he, ho, h0, h1⟩ := slopeDisc (ocpSlope 1 true false) 1 one_pos
  obtain ⟨hv, hs, hsc⟩ := ocpSlope_ready 1 one_pos true false (by decide +kernel)
  obtain ⟨hv', hs', hsc'⟩ := ocpSlope_ready 100 (by norm_num) true false (by decide +kernel)
  have he' : (d.withScales [1] [100] [] 1).ocp = ocpSlope 100 true false := by
    simp only [Disc.withScales, he]; rfl
  have slope : ∀ s < 1, derivative (M.piece (fun k => (trajSlope fun _ => 1).u 0 k 0) s) = 1 := by
    intro s hs
    rw [trajSlope_piece h.good ho h0 h1 hs]; simp
  refine ⟨d, M, trajSlope fun _ => 1, h, ?_⟩
  rw [he', he]
  refine ⟨hv, hs, hsc, ?_, hv', hsc', ?_⟩
  · rw [← he] at hv hs hsc
    obtain ⟨nlp, hn, hf⟩ := C14_feasible_iff h hv hs hsc
    have e := physOf_encode d.ocp hv hsc (trajSlope fun _ => 1) (by rw [he]; exact trajSlope_trim _ _ _ _)
    refine ⟨_, nlp, encode d.ocp (trajSlope fun _ => 1), hn, (hf _).2 ?_, e, rfl⟩
    rw [e, he]
    refine ⟨trajSlope_feasible h.good ho h0 h1 _ _ _ _, ?_⟩
    intro ph hph _ j hj s i hown
    obtain rfl : ph = 0 := by simpa [ocpSlope] using hph
    obtain rfl : j = 0 := by simpa [ocpSlope] using hj
    have hs : s < 1 := by simpa [ho] using hown.1
    rw [slope s hs]
    simp [ocpSlope, Within, Ext.Below, Ext.Above]
    norm_num
  · rintro J ⟨nlp, σ, hn, hf, hT, -⟩
    have h' : (d.withScales [1] [100] [] 1).OnMesh M := h.withScales _ _ _ _
    rw [← he'] at hv' hs' hsc'
    obtain ⟨nlp', hn', hf'⟩ := C14_feasible_iff h' hv' hs' hsc'
    rw [hn] at hn'; cases hn'
    have := ((hf' σ).1 hf).2
    rw [hT, he'] at this
    have := this 0 (by simp [ocpSlope]) rfl 0 (by simp [ocpSlope]) 0 0
      ⟨by simp [ho], Nat.zero_le _, Or.inl rfl⟩
    rw [slope 0 one_pos] at this
    simp [ocpSlope, Within, Ext.Below, Ext.Above] at this
    norm_num at this

/-! ### C19 in real time -/

/-- The control of segment `s` as a polynomial in real time. -/
noncomputable def Mesh.realPiece (M : Mesh K) (T : Traj K) (ph : Nat) (v : Nat → K) (s : Nat) : K[X] :=
  (M.piece v s).comp (C (M.halfWidth T ph s)⁻¹ * (X - C (M.time T ph s M.tau0)) + C M.tau0)

/-- `realPiece` at the time of `tau` is the piece at `tau`. -/
theorem realPiece_eval (M : Mesh K) (T : Traj K) (ph : Nat) (v : Nat → K) {s : Nat} (tau : K)
    (hw : M.halfWidth T ph s ≠ 0) :
    (M.realPiece T ph v s).eval (M.time T ph s tau) = (M.piece v s).eval tau := by
  unfold Mesh.realPiece
  rw [eval_comp]
  congr 1
  simp only [eval_add, eval_mul, eval_C, eval_sub, eval_X, Mesh.time, sub_self, mul_zero, add_zero]
  field_simp
  ring

theorem realPiece_slope (M : Mesh K) (T : Traj K) (ph : Nat) (v : Nat → K) {s : Nat} (tau : K)
    (hw : M.halfWidth T ph s ≠ 0) :
    (derivative (M.realPiece T ph v s)).eval (M.time T ph s tau) =
      (derivative (M.piece v s)).eval tau / M.halfWidth T ph s := by
  unfold Mesh.realPiece
  rw [derivative_comp, eval_mul, eval_comp]
  have : (C (M.halfWidth T ph s)⁻¹ * (X - C (M.time T ph s M.tau0)) + C M.tau0).eval
      (M.time T ph s tau) = tau := by
    simp only [eval_add, eval_mul, eval_C, eval_sub, eval_X, Mesh.time, sub_self, mul_zero, add_zero]
    field_simp
    ring
  rw [this]
  simp
  field_simp

/-- **C19, real time** Where the constraint of the code holds, the slope in real time is continuous at an
interior boundary iff the two segments are equally wide or the slope vanishes there. -/
theorem C19_real_time_iff (hM : M.Good) (ocp : OCP K) (T : Traj K) (ph : Nat)
    (hc : SlopeContinuous ocp M T ph) (ht : T.t0 ph ≠ T.tf ph) (j s : Nat) (hj : j < ocp.nu)
    (hs : s + 1 < M.orders.length) (hw : T.w s ph ≠ 0) (hw' : T.w (s + 1) ph ≠ 0) :
    (derivative (M.realPiece T ph (fun k => T.u ph k j) s)).eval (M.time T ph s M.tau1) =
      (derivative (M.realPiece T ph (fun k => T.u ph k j) (s + 1))).eval (M.time T ph (s + 1) M.tau0) ↔
    T.w s ph = T.w (s + 1) ph ∨
      (derivative (M.realPiece T ph (fun k => T.u ph k j) s)).eval (M.time T ph s M.tau1) = 0 := by
  have ht' : T.tf ph - T.t0 ph ≠ 0 := sub_ne_zero.2 (Ne.symm ht)
  have htau := hM.tau_ne
  have n1 : M.halfWidth T ph s ≠ 0 := mul_ne_zero (div_ne_zero ht' htau) hw
  have n2 : M.halfWidth T ph (s + 1) ≠ 0 := mul_ne_zero (div_ne_zero ht' htau) hw'
  rw [realPiece_slope _ _ _ _ _ n1, realPiece_slope _ _ _ _ _ n2, ← hc j hj s hs]
  generalize (derivative (M.piece (fun k => T.u ph k j) s)).eval M.tau1 = v
  have q : (T.tf ph - T.t0 ph) / (M.tau1 - M.tau0) ≠ 0 := div_ne_zero ht' htau
  rw [div_eq_div_iff n1 n2, div_eq_zero_iff, or_iff_left n1]
  unfold Mesh.halfWidth
  constructor
  · intro e
    by_cases hv : v = 0
    · exact Or.inr hv
    · left
      have := mul_left_cancel₀ q (mul_left_cancel₀ hv e)
      exact this.symm
  · rintro (e | e)
    · rw [e]
    · rw [e]; simp

/-- **C19, real time: false in general.** A feasible point of an NLP with `du_continuity` on whose control
slope jumps in real time. -/
theorem C19_real_time_false : ∃ (d : Disc ℚ) (M : Mesh ℚ) (T : Traj ℚ), d.OnMesh M ∧
    ValidOCP d.ocp ∧ d.ocp.SettingsOK ∧ d.ocp.PosScales ∧ d.ocp.duContinuity = [true] ∧
    (∃ J, d.Attainable T J) ∧ T.t0 0 < T.tf 0 ∧ (∀ s < 2, 0 < T.w s 0) ∧ T.w 0 0 + T.w 1 0 = 1 ∧
    (derivative (M.realPiece T 0 (fun k => T.u 0 k 0) 0)).eval (M.time T 0 0 M.tau1) ≠
      (derivative (M.realPiece T 0 (fun k => T.u 0 k 0) 1)).eval (M.time T 0 1 M.tau0) := by
  obtain ⟨d, M, -, h, he, ho, h0, h1⟩ := slopeDisc (ocpSlope 1 false true) 2 two_pos
  obtain ⟨hv, hs, hsc⟩ := ocpSlope_ready 1 one_pos false true (by decide +kernel)
  let w : Nat → ℚ := fun s => if s = 0 then 1 / 4 else 3 / 4
  have hf0 := trajSlope_feasible h.good ho h0 h1 1 false true w
  have hw : ∀ s, (0 : ℚ) < (trajSlope w).w s 0 := by
    intro s; simp only [trajSlope, w]; split <;> norm_num
  refine ⟨d, M, trajSlope w, h, ?_⟩
  rw [he]
  refine ⟨hv, hs, hsc, rfl, ?_, by norm_num [trajSlope], fun s _ => hw s, by norm_num [trajSlope, w], ?_⟩
  · rw [← he] at hv hs hsc
    obtain ⟨nlp, hn, hf⟩ := C14_feasible_iff h hv hs hsc
    have e := physOf_encode d.ocp hv hsc (trajSlope w) (by rw [he]; exact trajSlope_trim _ _ _ _)
    refine ⟨_, nlp, encode d.ocp (trajSlope w), hn, (hf _).2 ?_, e, rfl⟩
    rw [e, he]
    refine ⟨hf0, ?_⟩
    intro ph hph hon
    obtain rfl : ph = 0 := by simpa [ocpSlope] using hph
    simp [ocpSlope] at hon
  · have nz : ∀ s, M.halfWidth (trajSlope w) 0 s ≠ 0 := by
      intro s
      exact mul_ne_zero (by rw [h0, h1]; norm_num [trajSlope]) (hw s).ne'
    rw [realPiece_slope _ _ _ _ _ (nz 0), realPiece_slope _ _ _ _ _ (nz 1),
      trajSlope_piece h.good ho h0 h1 (by norm_num), trajSlope_piece h.good ho h0 h1 (by norm_num)]
    unfold Mesh.halfWidth
    rw [h0, h1]
    norm_num [trajSlope, w]

end MPOpt
