import Verif.Lemmas.Phase
import Verif.Props.CompositeQuad

/-! # Constraint blocks of a phase in closed form: path, terminal, control blocks and cost -/

set_option autoImplicit false
set_option linter.unusedSectionVars false

namespace MPOpt
open Polynomial
open Disc (Block NodeArg midPoints constMat)

variable {K : Type} [Field K] [LinearOrder K] {d : Disc K} {M : Mesh K}

theorem vec_mem {α : Type} (X : Mat α) (P : α → Prop) :
    (∀ e ∈ X.vec, P e) ↔ ∀ j < X.cols, ∀ i < X.rows, P (X.e i j) := by
  unfold Mat.vec
  simp only [List.mem_flatMap, List.mem_map, List.mem_range]
  constructor
  · intro h j hj i hi; exact h _ ⟨j, hj, i, hi, rfl⟩
  · rintro h e ⟨j, hj, i, hi, rfl⟩; exact h j hj i hi

/-- Path rows are the path constraint components at all nodes, bounded above by zero. -/
theorem Disc.OnMesh.pathBlock_rows (h : d.OnMesh M) (hv : ValidOCP d.ocp) {ph : Nat}
    (hph : ph < d.ocp.nPhases) :
    ∃ f c q pc, d.discretized ph = .ok (f, c, q) ∧ pyIdx d.ocp.pathConstraints ph = .ok pc ∧
      (pathBlock c (Disc.pathLen pc) : Block K).Sized ∧
      (pathBlock c (Disc.pathLen pc) : Block K).g.length =
        (Disc.pathLen pc) * M.N ∧
      ∀ (W : Ext K → Ext K → K → Prop) (σ : Env K), (pathBlock c (Disc.pathLen pc) : Block K).SatBy W σ ↔
        ∀ F, d.ocp.pathConstraints[ph]? = some (some F) → ∀ s i, M.Owns s i → ∀ c < F.len,
          W .ninf (.fin 0) (F.f (d.ocp.pArg (physOf d.ocp σ) ph (M.idx s i)
            (M.time (physOf d.ocp σ) ph s (M.node s i))) c) := by
  obtain ⟨args', hargs', hlen, hspec⟩ := h.nodeArgs_spec hv hph
  obtain ⟨args, F, pc, rc, hargs, -, hpc, -, hdisc⟩ := h.discretized_spec hv hph
  rw [hargs'] at hargs; cases hargs
  refine ⟨_, _, _, pc, hdisc, pyIdx_eq_ok.2 hpc, ?_⟩
  cases pc with
  | none =>
    refine ⟨sized_empty, by simp [pathBlock, Block.empty, Disc.pathLen], fun W σ => ⟨fun _ F' hF' => ?_, fun _ => satBy_empty σ⟩⟩
    rw [hpc] at hF'; cases hF'
  | some C =>
    simp only [Disc.pathLen]
    have hne : (args'.map fun n => (List.range C.len).map fun c => fun σ : Env K =>
        C.f (n.val σ) c).isEmpty = false := by
      rw [List.isEmpty_eq_false_iff]
      intro hh
      have : args'.length = 0 := by simpa using congrArg List.length hh
      rw [hlen] at this
      unfold Mesh.N at this; omega
    unfold pathBlock
    rw [hne]
    simp only [Bool.false_eq_true, if_false]
    refine ⟨sized_const _ _ _, ?_, fun W σ => ?_⟩
    · show (Mat.vec _).length = _
      rw [Mat.length_vec]
      simp [Mat.ofRows, hlen]
    rw [satBy_const, vec_mem]
    have hrows : (Mat.ofRows C.len (args'.map fun n => (List.range C.len).map fun c =>
        fun σ : Env K => C.f (n.val σ) c)).rows = M.N := by
      simp [Mat.ofRows, hlen]
    have hent : ∀ s i, M.Owns s i → ∀ c < C.len, ((Mat.ofRows C.len (args'.map fun n =>
        (List.range C.len).map fun c => fun σ : Env K => C.f (n.val σ) c)).e (M.idx s i) c) σ =
        C.f (d.ocp.pArg (physOf d.ocp σ) ph (M.idx s i)
          (M.time (physOf d.ocp σ) ph s (M.node s i))) c := by
      intro s i ho c hc
      obtain ⟨n, hn, hval⟩ := hspec s i ho
      simp only [Mat.ofRows]
      rw [getD_map_of_getElem? hn, getD_map_range _ _ _ hc, (hval σ).1]
    rw [hrows, hpc]
    constructor
    · intro hh F' hF' s i ho c hc
      cases hF'
      rw [← hent s i ho c hc]
      exact hh c hc _ (Mesh.idx_lt ho.1 ho.2.1)
    · intro hh c hc k hk
      obtain ⟨s, i, ho, rfl⟩ := M.exists_owner h.good.nonempty hk
      rw [hent s i ho c hc]
      exact hh C rfl s i ho c hc

/-- Path rows ⇔ all path constraint components non-positive at all nodes. -/
theorem Disc.OnMesh.pathBlock_spec (h : d.OnMesh M) (hv : ValidOCP d.ocp) {ph : Nat}
    (hph : ph < d.ocp.nPhases) :
    ∃ f c q pc, d.discretized ph = .ok (f, c, q) ∧ pyIdx d.ocp.pathConstraints ph = .ok pc ∧
      (pathBlock c (Disc.pathLen pc) : Block K).Sized ∧
      (pathBlock c (Disc.pathLen pc) : Block K).g.length =
        (Disc.pathLen pc) * M.N ∧
      ∀ σ, (pathBlock c (Disc.pathLen pc) : Block K).Sat σ ↔
        PathOK d.ocp M (physOf d.ocp σ) ph := by
  obtain ⟨f, c, q, pc, h1, h2, h3, h4, h5⟩ := h.pathBlock_rows hv hph
  refine ⟨f, c, q, pc, h1, h2, h3, h4, fun σ => ?_⟩
  rw [Block.sat_iff_by, h5]
  simp only [within_ninf_zero]
  rfl

/-- Terminal rows are the terminal constraints, pinned to zero; the Mayer term is the terminal cost. -/
theorem Disc.OnMesh.termBlock_rows (h : d.OnMesh M) (hv : ValidOCP d.ocp) {ph : Nat}
    (hph : ph < d.ocp.nPhases) :
    ∃ B J cost, d.termBlock ph = .ok (B, J) ∧ d.ocp.terminalCosts[ph]? = some cost ∧ B.Sized ∧
      (∀ (W : Ext K → Ext K → K → Prop) (σ : Env K), B.SatBy W σ ↔
        ∀ F, d.ocp.terminalConstraints[ph]? = some (some F) → ∀ c < F.len,
          W (.fin 0) (.fin 0) (F.f (d.ocp.tArg (physOf d.ocp σ) ph M.N) c)) ∧
      ∀ σ, J σ = cost (d.ocp.tArg (physOf d.ocp σ) ph M.N) := by
  have h1 : ph < d.ocp.terminalConstraints.length := by rw [hv.terminalConstraints]; exact hph
  have h2 : ph < d.ocp.terminalCosts.length := by rw [hv.terminalCosts]; exact hph
  have ha : d.au ph = .ok ((List.range d.ocp.na).map fun j => fun σ =>
      sym (.A j ph) σ / d.ocp.scaleA.getD j 0) := if_pos hv.scaleA
  have hx : ∀ k, d.xu ph k = .ok ((List.range d.ocp.nx).map fun j => fun σ =>
      sym (.X ph k j) σ / d.ocp.scaleX.getD j 0) := fun k => if_pos hv.scaleX
  have harg : ∀ σ, (⟨evalAll ((List.range d.ocp.nx).map fun j => fun σ =>
        sym (.X ph (d.N - 1) j) σ / d.ocp.scaleX.getD j 0) σ, d.tfu ph σ,
      evalAll ((List.range d.ocp.nx).map fun j => fun σ =>
        sym (.X ph 0 j) σ / d.ocp.scaleX.getD j 0) σ, d.t0u ph σ,
      (d.ocp.aArg ((List.range d.ocp.na).map fun j => fun σ =>
        sym (.A j ph) σ / d.ocp.scaleA.getD j 0)).map (evalAll · σ)⟩ : TArg K) =
      d.ocp.tArg (physOf d.ocp σ) ph M.N := by
    intro σ
    rw [evalAll_unscale, evalAll_unscale]
    unfold OCP.tArg
    congr 1
    · rw [h.N_eq]; rfl
    · unfold OCP.aArg
      by_cases hna : d.ocp.na = 0
      · simp [hna]
      · simp only [hna, if_false, Option.map_some]
        rw [evalAll_unscale]; rfl
  have hterm : d.termArg ph = .ok ((List.range d.ocp.nx).map (fun j => fun σ =>
        sym (.X ph (d.N - 1) j) σ / d.ocp.scaleX.getD j 0), d.tfu ph,
      (List.range d.ocp.nx).map (fun j => fun σ => sym (.X ph 0 j) σ / d.ocp.scaleX.getD j 0),
      d.t0u ph, d.ocp.aArg ((List.range d.ocp.na).map fun j => fun σ =>
        sym (.A j ph) σ / d.ocp.scaleA.getD j 0)) := by
    unfold termArg
    rw [hx, hx, ha]
    rfl
  have hT : pyIdx d.ocp.terminalConstraints ph = .ok d.ocp.terminalConstraints[ph] := pyIdx_ok h1
  have hC : pyIdx d.ocp.terminalCosts ph = .ok d.ocp.terminalCosts[ph] := pyIdx_ok h2
  cases htc : d.ocp.terminalConstraints[ph] with
  | none =>
    rw [htc] at hT
    refine ⟨Block.empty, _, d.ocp.terminalCosts[ph], ?_, List.getElem?_eq_getElem h2, sized_empty,
      fun W σ => ⟨fun _ F hF => ?_, fun _ => satBy_empty σ⟩, fun σ => congrArg _ (harg σ)⟩
    · unfold termBlock OCP.hasTerminal
      rw [hterm, hT, hC]
      simp only [py_bind_ok, pure, Except.pure]
    · rw [List.getElem?_eq_getElem h1, htc] at hF; cases hF
  | some F =>
    rw [htc] at hT
    refine ⟨Block.const (F.traceT
      ((List.range d.ocp.nx).map fun j => fun σ => sym (.X ph (d.N - 1) j) σ / d.ocp.scaleX.getD j 0)
      (d.tfu ph)
      ((List.range d.ocp.nx).map fun j => fun σ => sym (.X ph 0 j) σ / d.ocp.scaleX.getD j 0)
      (d.t0u ph) (d.ocp.aArg ((List.range d.ocp.na).map fun j => fun σ =>
        sym (.A j ph) σ / d.ocp.scaleA.getD j 0))) (.fin 0) (.fin 0),
      _, d.ocp.terminalCosts[ph], ?_, List.getElem?_eq_getElem h2, sized_const _ _ _,
      fun W σ => ?_, fun σ => congrArg _ (harg σ)⟩
    · unfold termBlock OCP.hasTerminal
      rw [hterm, hT, hC]
      simp only [py_bind_ok, pure, Except.pure, Option.isSome_some, if_true]
    · rw [satBy_const]
      unfold VFun.traceT
      rw [List.getElem?_eq_getElem h1, htc]
      simp only [List.mem_map, List.mem_range]
      constructor
      · intro hh F' hF' c hc
        cases hF'
        have := hh _ ⟨c, hc, rfl⟩
        simp only [harg σ] at this
        exact this
      · rintro hh e ⟨c, hc, rfl⟩
        simp only [harg σ]
        exact hh F rfl c hc

/-- Terminal rows ⇔ terminal constraints vanish; the Mayer term is the terminal cost. -/
theorem Disc.OnMesh.termBlock_spec (h : d.OnMesh M) (hv : ValidOCP d.ocp) {ph : Nat}
    (hph : ph < d.ocp.nPhases) :
    ∃ B J cost, d.termBlock ph = .ok (B, J) ∧ d.ocp.terminalCosts[ph]? = some cost ∧ B.Sized ∧
      (∀ σ, B.Sat σ ↔ TerminalOK d.ocp M (physOf d.ocp σ) ph) ∧
      ∀ σ, J σ = cost (d.ocp.tArg (physOf d.ocp σ) ph M.N) := by
  obtain ⟨B, J, cost, h1, h2, h3, h4, h5⟩ := h.termBlock_rows hv hph
  refine ⟨B, J, cost, h1, h2, h3, fun σ => ?_, h5⟩
  rw [Block.sat_iff_by, h4]
  simp only [within_zero_zero]
  rfl

theorem getD_of_pyIdx {α : Type} {l : List α} {i : Nat} {a b : α} (h : pyIdx l i = .ok a) :
    l.getD i b = a := by
  rw [pyIdx_eq_ok] at h
  simp [h]

/-- Slope rows are the slopes of the scaled controls within the slope bounds. -/
theorem Disc.OnMesh.slopeBlock_rows (h : d.OnMesh M) (hv : ValidOCP d.ocp) (hs : d.ocp.SettingsOK)
    (hsc : ∀ s ∈ d.ocp.scaleU, s ≠ 0) {ph : Nat} (hph : ph < d.ocp.nPhases) :
    ∃ B, d.slopeBlock ph = .ok B ∧ B.Sized ∧
      ∀ (W : Ext K → Ext K → K → Prop) (σ : Env K), B.SatBy W σ ↔ (d.ocp.diffU.getD ph false = true →
        ∀ j < d.ocp.nu, ∀ s i, M.Owns s i → W (d.ocp.lbdu.getD ph .nan) (d.ocp.ubdu.getD ph .nan)
          (d.ocp.scaleU.getD j 0 * (derivative (M.piece (fun k => (physOf d.ocp σ).u ph k j) s)).eval
            (M.node s i))) := by
  have h1 : ph < d.ocp.diffU.length := by rw [hs.diffU]; exact hph
  have h2 : ph < d.ocp.lbdu.length := by rw [hs.lbdu]; exact hph
  have h3 : ph < d.ocp.ubdu.length := by rw [hs.ubdu]; exact hph
  unfold slopeBlock
  rw [pyIdx_ok h1, py_bind_ok, List.getD_eq_getElem _ _ h1]
  by_cases hon : d.ocp.diffU[ph] = true
  · have hnu : 0 < d.ocp.nu := by
      rcases hs.nu with h | h
      · exact h
      · have := h.1 _ (List.getElem_mem h1); rw [hon] at this; cases this
    have hshape := h.compD_shape
    rw [if_pos hon, mtimesCol_blockDiag hnu d.compD (d.matU ph) rfl
      (by rw [hshape.2, h.N_eq]; rfl), py_bind_ok, pyIdx_ok h2, py_bind_ok, pyIdx_ok h3, py_bind_ok]
    refine ⟨_, rfl, sized_const _ _ _, fun W σ => ?_⟩
    rw [satBy_const]
    simp only [List.mem_flatMap, List.mem_map, List.mem_range, hon, true_imp_iff]
    rw [List.getD_eq_getElem _ _ h2, List.getD_eq_getElem _ _ h3]
    have conv : ∀ j < d.ocp.nu, ∀ s i, M.Owns s i →
        (d.compD.rowDot (M.idx s i) fun k => (d.matU ph).e k j σ) = d.ocp.scaleU.getD j 0 *
          (derivative (M.piece (fun k => (physOf d.ocp σ).u ph k j) s)).eval (M.node s i) := by
      intro j hj s i ho
      exact h.compD_row_scaled _ _ _ (getD_mem_ne hv.scaleU hsc hj) (fun k => rfl) ho
    constructor
    · intro hh j hj s i ho
      have := hh _ ⟨j, hj, M.idx s i, by rw [hshape.1]; exact Mesh.idx_lt ho.1 ho.2.1, rfl⟩
      rw [← conv j hj s i ho]; exact this
    · rintro hh e ⟨j, hj, k, hk, rfl⟩
      rw [hshape.1] at hk
      obtain ⟨s, i, ho, rfl⟩ := M.exists_owner h.good.nonempty hk
      simp only [conv j hj s i ho]
      exact hh j hj s i ho
  · rw [if_neg hon]
    refine ⟨_, rfl, sized_empty, fun W σ => ⟨fun _ h => absurd h hon, fun _ => satBy_empty σ⟩⟩

/-- Slope rows. -/
theorem Disc.OnMesh.slopeBlock_spec (h : d.OnMesh M) (hv : ValidOCP d.ocp) (hs : d.ocp.SettingsOK)
    (hsc : ∀ s ∈ d.ocp.scaleU, s ≠ 0) {ph : Nat} (hph : ph < d.ocp.nPhases) :
    ∃ B, d.slopeBlock ph = .ok B ∧ B.Sized ∧
      ∀ σ, B.Sat σ ↔ (d.ocp.diffU.getD ph false = true →
        SlopeBounded d.ocp M (physOf d.ocp σ) (fun j => d.ocp.scaleU.getD j 0) ph) := by
  obtain ⟨B, h1, h2, h3⟩ := h.slopeBlock_rows hv hs hsc hph
  exact ⟨B, h1, h2, fun σ => h3 Within σ⟩

theorem length_midPoints (tau : List K) : (midPoints tau).length = tau.length - 1 := by
  simp [midPoints]

theorem midPoints_getElem (tau : List K) (i : Nat) (hi : i < (midPoints tau).length) :
    (midPoints tau)[i] = (tau.getD i 0 + tau.getD (i + 1) 0) / 2 := by
  have h1 : i + 1 < tau.length := by rw [length_midPoints] at hi; omega
  rw [List.getD_eq_getElem _ _ (by omega), List.getD_eq_getElem _ _ h1]
  simp [midPoints]

theorem flatMap_eq_range {α β : Type} (l : List α) (dflt : α) (g : α → List β) :
    l.flatMap g = (List.range l.length).flatMap fun j => g (l.getD j dflt) := by
  conv_lhs => rw [show l = (List.range l.length).map (fun j => l.getD j dflt) from by
    apply List.ext_getElem
    · simp
    · intro i h1 h2
      simp [h1]]
  rw [List.flatMap_map]

theorem replicate_eq_map_range {α : Type} (n : Nat) (a : α) :
    List.replicate n a = (List.range n).map fun _ => a := by
  apply List.ext_getElem <;> simp

theorem getD_zipWith_mul {l : List (Ext K)} {sc : List K} {n j : Nat} (h1 : l.length = n)
    (h2 : sc.length = n) (hj : j < n) :
    (List.zipWith Ext.mul l sc).getD j .nan = Ext.mul (l.getD j .nan) (sc.getD j 0) := by
  rw [List.getD_eq_getElem _ _ (by simp; omega), List.getD_eq_getElem _ _ (by omega),
    List.getD_eq_getElem _ _ (by omega)]
  simp

theorem within_trivial (v : K) : Within .ninf .pinf v := by simp [Within, Ext.Below, Ext.Above]

theorem ext_of_le {a b : Ext K} (h : Ext.le a b = true) : a ≠ .nan ∧ b ≠ .nan := by
  constructor
  · rintro rfl; simp [Ext.le] at h
  · rintro rfl; cases a <;> simp [Ext.le] at h

variable [IsStrictOrderedRing K]

/-- Composite interpolation matrix rows, scaled samples. -/
theorem Disc.OnMesh.interp_scaled (h : d.OnMesh M) (taus : List (List K))
    (hlen : taus.length = M.orders.length) :
    ∃ I, compInterpMatrix d.colloc taus d.orders = .ok I ∧ I.rows = (taus.map List.length).sum ∧
      I.cols = M.N ∧ ∀ (v p : Nat → K) (c : K), c ≠ 0 → (∀ k, p k = v k / c) →
        ∀ (s : Nat) (hs : s < taus.length) (i : Nat) (hi : i < taus[s].length),
          I.rowDot (segStart (taus.map List.length) s + i) v =
            c * (M.piece p s).eval taus[s][i] := by
  have key := fun v => C08_composite_interp d.colloc d.orders M.nodes h.goodNodes taus
    (by rw [hlen, h.orders]) (M.piece v) (by rw [← h.orders]; exact h.good.piece_degrees v) v
    (by rw [← h.orders]; exact h.good.piece_samples v)
  obtain ⟨I, hI, hr, hc, -⟩ := key 0
  refine ⟨I, hI, hr, by rw [hc, h.N_eq]; rfl, fun v p c hc0 hvp s hs i hi => ?_⟩
  obtain ⟨I', hI', -, -, hrow⟩ := key v
  rw [hI] at hI'; cases hI'
  have : v = fun k => c * p k := by
    funext k; rw [hvp, mul_div_cancel₀ _ hc0]
  rw [hrow s hs i hi]
  conv_lhs => rw [this]
  rw [Mesh.piece_smul, eval_mul, eval_C]

/-- The same for derivative rows. -/
theorem Disc.OnMesh.interpD_scaled (h : d.OnMesh M) (taus : List (List K))
    (hlen : taus.length = M.orders.length) (order : Nat) (ho : order = 1 ∨ order = 2) :
    ∃ I, compInterpDMatrix d.colloc taus d.orders order = .ok I ∧
      I.rows = (taus.map List.length).sum ∧
      I.cols = M.N ∧ ∀ (v p : Nat → K) (c : K), c ≠ 0 → (∀ k, p k = v k / c) →
        ∀ (s : Nat) (hs : s < taus.length) (i : Nat) (hi : i < taus[s].length),
          I.rowDot (segStart (taus.map List.length) s + i) v =
            c * (Polynomial.derivative^[order] (M.piece p s)).eval taus[s][i] := by
  have key := fun v => C08_composite_interp_derivative d.colloc d.orders M.nodes h.goodNodes taus
    (by rw [hlen, h.orders]) order ho (M.piece v)
    (by rw [← h.orders]; exact h.good.piece_degrees v) v
    (by rw [← h.orders]; exact h.good.piece_samples v)
  obtain ⟨I, hI, hr, hc, -⟩ := key 0
  refine ⟨I, hI, hr, by rw [hc, h.N_eq]; rfl, fun v p c hc0 hvp s hs i hi => ?_⟩
  obtain ⟨I', hI', -, -, hrow⟩ := key v
  rw [hI] at hI'; cases hI'
  have : v = fun k => c * p k := by
    funext k; rw [hvp, mul_div_cancel₀ _ hc0]
  rw [hrow s hs i hi]
  conv_lhs => rw [this]
  rw [Mesh.piece_smul, iterate_derivative_C_mul, eval_mul, eval_C]

/-- Mid-point control rows are the scaled control polynomials at the midpoints, within the scaled bounds. The rows
are left out when no bound is finite; the sense `W` must then hold without bounds. -/
theorem Disc.OnMesh.midBlock_rows (h : d.OnMesh M) (hv : ValidOCP d.ocp) (hs : d.ocp.SettingsOK)
    (hsc : ∀ s ∈ d.ocp.scaleU, 0 < s) {ph : Nat} (hph : ph < d.ocp.nPhases) :
    ∃ B, d.midBlock ph = .ok B ∧ B.Sized ∧
      ∀ (W : Ext K → Ext K → K → Prop) (σ : Env K), (∀ v, W .ninf .pinf v) →
        (B.SatBy W σ ↔ (d.ocp.midu.getD ph false = true →
          ∀ j < d.ocp.nu, ∀ s < M.orders.length, ∀ i < M.order s,
            W (Ext.mul (entry d.ocp.lbu ph j .nan) (d.ocp.scaleU.getD j 0))
              (Ext.mul (entry d.ocp.ubu ph j .nan) (d.ocp.scaleU.getD j 0))
              (d.ocp.scaleU.getD j 0 * (M.piece (fun k => (physOf d.ocp σ).u ph k j) s).eval
                ((M.node s i + M.node s (i + 1)) / 2)))) := by
  have h1 : ph < d.ocp.midu.length := by rw [hs.midu]; exact hph
  have h2 : ph < d.ocp.lbu.length := by rw [hv.lbu.1]; exact hph
  have h3 : ph < d.ocp.ubu.length := by rw [hv.ubu.1]; exact hph
  have l2 : d.ocp.lbu[ph].length = d.ocp.nu := hv.lbu.2 _ (List.getElem_mem h2)
  have l3 : d.ocp.ubu[ph].length = d.ocp.nu := hv.ubu.2 _ (List.getElem_mem h3)
  unfold midBlock
  rw [pyIdx_ok h1, py_bind_ok, List.getD_eq_getElem _ _ h1]
  by_cases hon : d.ocp.midu[ph] = true
  swap
  · rw [if_neg hon]
    exact ⟨_, rfl, sized_empty, fun W σ _ => ⟨fun _ h => absurd h hon, fun _ => satBy_empty σ⟩⟩
  set taus : List (List K) := M.orders.map fun p => midPoints (M.nodes p) with htaus
  have htm : (d.orders.mapM fun p => do return midPoints (← d.colloc.taus p)) = .ok taus := by
    rw [htaus, h.orders]
    apply mapM_ok
    intro p hp
    rw [h.taus p hp]; rfl
  have hlens : taus.map List.length = M.orders := by
    rw [htaus, List.map_map]
    conv_rhs => rw [← List.map_id M.orders]
    apply List.map_congr_left
    intro p hp
    simp only [Function.comp_apply, id_eq, length_midPoints, h.good.length p hp]
    omega
  have hmid : ∀ (s : Nat) (hs' : s < taus.length) (i : Nat) (hi : i < taus[s].length),
      taus[s][i] = (M.node s i + M.node s (i + 1)) / 2 := by
    intro s hs' i hi
    have hs2 : s < M.orders.length := by rw [htaus] at hs'; simpa using hs'
    simp only [htaus, List.getElem_map, midPoints_getElem]
    unfold Mesh.node
    rw [Mesh.order_eq hs2]
  obtain ⟨I, hI, hr, hc, hrow⟩ := h.interp_scaled taus (by simp [htaus])
  rw [hlens] at hr hrow
  have hmt : (constMat I).mtimes (d.matU ph) =
      .ok ⟨I.rows, d.ocp.nu, fun i j => ∑ k ∈ Finset.range I.cols,
        (constMat I).e i k * (d.matU ph).e k j⟩ := by
    unfold Mat.mtimes
    rw [if_pos (by show I.cols = d.N; rw [hc, h.N_eq])]; rfl
  simp only [if_pos hon, htm, py_bind_ok, hI, hmt, pyIdx_ok h2, pyIdx_ok h3]
  have tauLen : ∀ s, s < M.orders.length → ∀ (hs' : s < taus.length), taus[s].length = M.order s := by
    intro s hs2 hs'
    rw [Mesh.order_eq hs2]
    have : (taus.map List.length)[s]'(by simpa using hs') = M.orders[s] := by simp only [hlens]
    simpa using this
  by_cases hany : (d.ocp.lbu[ph].any (fun b => Ext.lt .ninf b) ||
      d.ocp.ubu[ph].any (fun b => Ext.lt b .pinf)) = true
  · rw [if_pos hany]
    unfold scaleRow
    rw [if_pos (by rw [l2, hv.scaleU]), if_pos (by rw [l3, hv.scaleU])]
    simp only [py_bind_ok]
    refine ⟨_, rfl, ?_, fun W σ _ => ?_⟩
    · have e2 : (List.zipWith Ext.mul d.ocp.lbu[ph] d.ocp.scaleU).length = d.ocp.nu := by
        simp [l2, hv.scaleU]
      have e3 : (List.zipWith Ext.mul d.ocp.ubu[ph] d.ocp.scaleU).length = d.ocp.nu := by
        simp [l3, hv.scaleU]
      constructor
      · rw [Mat.length_vec, List.length_flatMap]
        simp only [List.length_replicate, List.map_const', List.sum_replicate, e2]
        rfl
      · rw [Mat.length_vec, List.length_flatMap]
        simp only [List.length_replicate, List.map_const', List.sum_replicate, e3]
        rfl
    · unfold Block.SatBy
      simp only []
      have e2 : (List.zipWith Ext.mul d.ocp.lbu[ph] d.ocp.scaleU).length = d.ocp.nu := by
        simp [l2, hv.scaleU]
      have e3 : (List.zipWith Ext.mul d.ocp.ubu[ph] d.ocp.scaleU).length = d.ocp.nu := by
        simp [l3, hv.scaleU]
      rw [flatMap_eq_range (List.zipWith Ext.mul d.ocp.lbu[ph] d.ocp.scaleU) .nan,
        flatMap_eq_range (List.zipWith Ext.mul d.ocp.ubu[ph] d.ocp.scaleU) .nan, e2, e3]
      have hval : evalAll (Mat.vec ⟨I.rows, d.ocp.nu, fun i j => ∑ k ∈ Finset.range I.cols,
          (constMat I).e i k * (d.matU ph).e k j⟩) σ = (List.range d.ocp.nu).flatMap fun j =>
          (List.range I.rows).map fun r => I.rowDot r fun k => σ (.U ph k j) := by
        unfold evalAll Mat.vec
        rw [List.map_flatMap]
        simp only [List.map_map]
        congr 1
        funext j
        apply List.map_congr_left
        intro r _
        simp only [Function.comp_apply, Finset.sum_apply]
        rfl
      rw [hval]
      simp only [replicate_eq_map_range]
      rw [holdsBy_flatMap _ _ _ _ (by simp) (by simp)]
      simp only [holdsBy_map_range, hon, true_imp_iff]
      unfold entry
      rw [List.getD_eq_getElem _ _ h2, List.getD_eq_getElem _ _ h3]
      have conv : ∀ j < d.ocp.nu, ∀ s < M.orders.length, ∀ i < M.order s,
          (W ((List.zipWith Ext.mul d.ocp.lbu[ph] d.ocp.scaleU).getD j .nan)
            ((List.zipWith Ext.mul d.ocp.ubu[ph] d.ocp.scaleU).getD j .nan)
            (I.rowDot (segStart M.orders s + i) fun k => σ (.U ph k j)) ↔
          W (Ext.mul (d.ocp.lbu[ph].getD j .nan) (d.ocp.scaleU.getD j 0))
            (Ext.mul (d.ocp.ubu[ph].getD j .nan) (d.ocp.scaleU.getD j 0))
            (d.ocp.scaleU.getD j 0 * (M.piece (fun k => (physOf d.ocp σ).u ph k j) s).eval
              ((M.node s i + M.node s (i + 1)) / 2))) := by
        intro j hj s hs2 i hi
        have hpos : 0 < d.ocp.scaleU.getD j 0 := getD_mem_ne hv.scaleU hsc hj
        have hs' : s < taus.length := by simpa [htaus] using hs2
        have hi' : i < taus[s].length := by rw [tauLen s hs2 hs']; exact hi
        rw [getD_zipWith_mul l2 hv.scaleU hj, getD_zipWith_mul l3 hv.scaleU hj,
          hrow _ (fun k => (physOf d.ocp σ).u ph k j) _ hpos.ne'
            (fun k => rfl) s hs' i hi', hmid s hs' i hi']
      constructor
      · intro hh j hj s hs2 i hi
        rw [← conv j hj s hs2 i hi]
        apply hh j hj
        rw [hr]
        have := Mesh.idx_lt (M := M) hs2 (i := i + 1) (by omega)
        unfold Mesh.idx Mesh.N at this
        omega
      · intro hh j hj r hrr
        rw [hr] at hrr
        obtain ⟨s, i, ho, hi⟩ := M.exists_owner h.good.nonempty (k := r + 1)
          (by unfold Mesh.N; omega)
        have hi1 : 1 ≤ i := by
          rcases ho.2.2 with rfl | h
          · unfold Mesh.idx at hi; rw [segStart_zero] at hi; omega
          · exact h
        have hlt : i - 1 < M.order s := by have := ho.2.1; omega
        have hr' : r = segStart M.orders s + (i - 1) := by unfold Mesh.idx at hi; omega
        rw [hr', conv j hj s ho.1 _ hlt]
        exact hh j hj s ho.1 _ hlt
  · rw [if_neg hany]
    refine ⟨_, rfl, sized_empty, fun W σ hW => ⟨fun _ _ => ?_, fun _ => satBy_empty σ⟩⟩
    simp only [Bool.or_eq_true, List.any_eq_true, not_or, not_exists, not_and] at hany
    intro j hj s hs2 i hi
    have hpos : 0 < d.ocp.scaleU.getD j 0 := getD_mem_ne hv.scaleU hsc hj
    have elb : entry d.ocp.lbu ph j .nan = d.ocp.lbu[ph][j]'(by omega) := by
      unfold entry; rw [List.getD_eq_getElem _ _ h2, List.getD_eq_getElem _ _ (by omega)]
    have eub : entry d.ocp.ubu ph j .nan = d.ocp.ubu[ph][j]'(by omega) := by
      unfold entry; rw [List.getD_eq_getElem _ _ h3, List.getD_eq_getElem _ _ (by omega)]
    rw [elb, eub]
    have j2 : j < d.ocp.lbu[ph].length := by omega
    have j3 : j < d.ocp.ubu[ph].length := by omega
    have hle := hv.ordU ph _ _ (List.getElem?_eq_getElem h2) (List.getElem?_eq_getElem h3) j _ _
      (List.getElem?_eq_getElem j2) (List.getElem?_eq_getElem j3)
    have n2 := hany.1 _ (List.getElem_mem j2)
    have n3 := hany.2 _ (List.getElem_mem j3)
    obtain ⟨m2, m3⟩ := ext_of_le hle
    have q2 : d.ocp.lbu[ph][j] = .ninf := by
      generalize d.ocp.lbu[ph][j] = b at *
      cases b <;> simp_all [Ext.lt]
    have q3 : d.ocp.ubu[ph][j] = .pinf := by
      generalize d.ocp.ubu[ph][j] = b at *
      cases b <;> simp_all [Ext.lt]
    rw [q2, q3]
    simp only [Ext.mul, hpos, if_true]
    exact hW _

/-- Mid-point control rows ⇔ control polynomials within bounds at the midpoints. -/
theorem Disc.OnMesh.midBlock_spec (h : d.OnMesh M) (hv : ValidOCP d.ocp) (hs : d.ocp.SettingsOK)
    (hsc : ∀ s ∈ d.ocp.scaleU, 0 < s) {ph : Nat} (hph : ph < d.ocp.nPhases) :
    ∃ B, d.midBlock ph = .ok B ∧ B.Sized ∧
      ∀ σ, B.Sat σ ↔ (d.ocp.midu.getD ph false = true →
        MidControlOK d.ocp M (physOf d.ocp σ) ph) := by
  obtain ⟨B, h1, h2, h3⟩ := h.midBlock_rows hv hs hsc hph
  refine ⟨B, h1, h2, fun σ => ?_⟩
  rw [Block.sat_iff_by, h3 Within σ within_trivial]
  unfold MidControlOK
  refine forall_congr' fun _ => forall₂_congr fun j hj => forall₂_congr fun s _ => forall₂_congr fun i _ => ?_
  have hpos : 0 < d.ocp.scaleU.getD j 0 := getD_mem_ne hv.scaleU hsc hj
  rw [within_mul _ _ _ _ hpos, mul_div_cancel_left₀ _ hpos.ne']

theorem segStart_two (l : List (List K)) (h : ∀ x ∈ l, x.length = 2) :
    ∀ s ≤ l.length, segStart (l.map List.length) s = 2 * s := by
  intro s
  induction s with
  | zero => intro _; simp [segStart_zero]
  | succ s ih =>
    intro hs
    rw [segStart_succ _ (by simpa using hs), ih (by omega)]
    simp [h _ (List.getElem_mem (show s < l.length by omega))]
    omega

theorem rowDot_sub (A B : Mat K) (v : Nat → K) (r a b : Nat) (hcols : A.cols = B.cols)
    (C : Mat K) (hC : C.cols = A.cols) (he : ∀ k, C.e r k = A.e a k - B.e b k) :
    C.rowDot r v = A.rowDot a v - B.rowDot b v := by
  unfold Mat.rowDot
  rw [hC, ← hcols, ← Finset.sum_sub_distrib]
  apply Finset.sum_congr rfl
  intro k _
  rw [he, sub_mul]

/-- Slope-continuity rows are the scaled jumps of the `tau`-slopes at interior boundaries, pinned to zero. -/
theorem Disc.OnMesh.contBlock_rows (h : d.OnMesh M) (hv : ValidOCP d.ocp) (hs : d.ocp.SettingsOK)
    (hsc : ∀ s ∈ d.ocp.scaleU, s ≠ 0) {ph : Nat} (hph : ph < d.ocp.nPhases) :
    ∃ B, d.contBlock ph = .ok B ∧ B.Sized ∧
      ∀ (W : Ext K → Ext K → K → Prop) (σ : Env K), B.SatBy W σ ↔ (d.ocp.duContinuity.getD ph false = true →
        ∀ j < d.ocp.nu, ∀ s, s + 1 < M.orders.length → W (.fin 0) (.fin 0) (d.ocp.scaleU.getD j 0 *
          ((derivative (M.piece (fun k => (physOf d.ocp σ).u ph k j) s)).eval M.tau1 -
            (derivative (M.piece (fun k => (physOf d.ocp σ).u ph k j) (s + 1))).eval M.tau0))) := by
  have h1 : ph < d.ocp.duContinuity.length := by rw [hs.duContinuity]; exact hph
  unfold contBlock
  rw [pyIdx_ok h1, py_bind_ok, List.getD_eq_getElem _ _ h1]
  by_cases hoff : d.nSegments = 1 ∨ d.ocp.duContinuity[ph] = false
  · rw [if_pos hoff]
    refine ⟨_, rfl, sized_empty, fun W σ => ⟨fun _ hon => ?_, fun _ => satBy_empty σ⟩⟩
    rcases hoff with h' | h'
    · intro j _ s hs'
      rw [h.segLen, h'] at hs'; omega
    · rw [h'] at hon; cases hon
  rw [if_neg hoff]
  obtain ⟨hns1, hon⟩ := not_or.1 hoff
  have hon : d.ocp.duContinuity[ph] = true := by simpa using hon
  have hnu : 0 < d.ocp.nu := by
    rcases hs.nu with h | h
    · exact h
    · have := h.2 _ (List.getElem_mem h1); rw [hon] at this; cases this
  set taus : List (List K) := d.orders.map fun _ => [d.colloc.tau0, d.colloc.tau1] with htaus
  have tl : taus.length = d.nSegments := by rw [htaus, List.length_map, h.segments]
  have t2 : ∀ x ∈ taus, x.length = 2 := by
    intro x hx
    simp only [htaus, List.mem_map] at hx
    obtain ⟨_, -, rfl⟩ := hx; rfl
  obtain ⟨I, hI, hr, hc, hrow⟩ := h.interpD_scaled taus (by rw [tl, h.segLen]) 1 (Or.inl rfl)
  have hrows : I.rows = 2 * d.nSegments := by
    rw [hr, ← tl, ← segStart_two taus t2 _ le_rfl, ← List.length_map (f := List.length) (as := taus),
      segStart_length]
  have hpos : 0 < d.nSegments := by
    rw [← h.segLen]; exact List.length_pos_iff.2 h.good.nonempty
  have r1 : (I.everySecondRow 1 (I.rows - 1)).rows = d.nSegments - 1 := by
    simp only [Mat.everySecondRow, hrows]; omega
  have r2 : (I.everySecondRow 2 (I.rows - 1)).rows = d.nSegments - 1 := by
    simp only [Mat.everySecondRow, hrows]; omega
  have hsub : (I.everySecondRow 1 (I.rows - 1)).sub (I.everySecondRow 2 (I.rows - 1)) =
      .ok ⟨d.nSegments - 1, I.cols, fun i j => I.e (1 + 2 * i) j - I.e (2 + 2 * i) j⟩ := by
    unfold Mat.sub
    rw [if_pos ⟨by rw [r1, r2], rfl⟩, r1]; rfl
  simp only [hI, py_bind_ok, hsub]
  rw [mtimesCol_blockDiag hnu _ (d.matU ph) rfl (by show I.cols = d.N; rw [hc, h.N_eq]), py_bind_ok]
  refine ⟨_, rfl, sized_const _ _ _, fun W σ => ?_⟩
  rw [satBy_const]
  simp only [List.mem_flatMap, List.mem_map, List.mem_range, hon, true_imp_iff]
  have conv : ∀ j < d.ocp.nu, ∀ s, s + 1 < d.nSegments →
      (Mat.rowDot ⟨d.nSegments - 1, I.cols, fun i j => I.e (1 + 2 * i) j - I.e (2 + 2 * i) j⟩ s
        fun k => (d.matU ph).e k j σ) = d.ocp.scaleU.getD j 0 *
      ((derivative (M.piece (fun k => (physOf d.ocp σ).u ph k j) s)).eval M.tau1 -
        (derivative (M.piece (fun k => (physOf d.ocp σ).u ph k j) (s + 1))).eval M.tau0) := by
    intro j hj s hss
    have hne : d.ocp.scaleU.getD j 0 ≠ 0 := getD_mem_ne hv.scaleU hsc hj
    rw [rowDot_sub I I _ s (1 + 2 * s) (2 + 2 * s) rfl ⟨d.nSegments - 1, I.cols,
      fun i j => I.e (1 + 2 * i) j - I.e (2 + 2 * i) j⟩ rfl (fun k => rfl)]
    have a1 := hrow (fun k => (d.matU ph).e k j σ) (fun k => (physOf d.ocp σ).u ph k j)
      (d.ocp.scaleU.getD j 0) hne (fun k => rfl) s (by omega) 1
      (by rw [t2 _ (List.getElem_mem _)]; omega)
    have a2 := hrow (fun k => (d.matU ph).e k j σ) (fun k => (physOf d.ocp σ).u ph k j)
      (d.ocp.scaleU.getD j 0) hne (fun k => rfl) (s + 1) (by omega) 0
      (by rw [t2 _ (List.getElem_mem _)]; omega)
    rw [segStart_two taus t2 s (by omega)] at a1
    rw [segStart_two taus t2 (s + 1) (by omega)] at a2
    rw [show 1 + 2 * s = 2 * s + 1 by omega, a1, show 2 + 2 * s = 2 * (s + 1) + 0 by omega, a2]
    simp only [htaus, List.getElem_map, List.getElem_cons_succ, List.getElem_cons_zero,
      Function.iterate_one, ← h.tau0, ← h.tau1]
    rw [← mul_sub]
  constructor
  · intro hh j hj s hss
    rw [h.segLen] at hss
    rw [← conv j hj s hss]
    exact hh _ ⟨j, hj, s, by omega, rfl⟩
  · rintro hh e ⟨j, hj, s, hss, rfl⟩
    simp only [conv j hj s (by omega)]
    exact hh j hj s (by rw [h.segLen]; omega)

/-- Slope-continuity rows ⇔ equal `tau`-slopes at interior boundaries. -/
theorem Disc.OnMesh.contBlock_spec (h : d.OnMesh M) (hv : ValidOCP d.ocp) (hs : d.ocp.SettingsOK)
    (hsc : ∀ s ∈ d.ocp.scaleU, s ≠ 0) {ph : Nat} (hph : ph < d.ocp.nPhases) :
    ∃ B, d.contBlock ph = .ok B ∧ B.Sized ∧
      ∀ σ, B.Sat σ ↔ (d.ocp.duContinuity.getD ph false = true →
        SlopeContinuous d.ocp M (physOf d.ocp σ) ph) := by
  obtain ⟨B, h1, h2, h3⟩ := h.contBlock_rows hv hs hsc hph
  refine ⟨B, h1, h2, fun σ => ?_⟩
  rw [Block.sat_iff_by, h3]
  unfold SlopeContinuous
  refine forall_congr' fun _ => forall₂_congr fun j hj => forall₂_congr fun s _ => ?_
  rw [within_zero_zero, mul_eq_zero, or_iff_right (getD_mem_ne hv.scaleU hsc hj), sub_eq_zero]

/-- Composite quadrature of the running cost at the nodes. -/
theorem Disc.OnMesh.quadCost_spec (h : d.OnMesh M) (hv : ValidOCP d.ocp) {ph : Nat}
    (hph : ph < d.ocp.nPhases) :
    ∃ f c q J rc, d.discretized ph = .ok (f, c, q) ∧ d.ocp.runningCosts[ph]? = some rc ∧
      d.quadCost q = .ok J ∧ ∀ σ, ∃ v : Nat → K, J σ = weightedSum d.compW v ∧
        ∀ s i, M.Owns s i → v (M.idx s i) = M.halfWidth (physOf d.ocp σ) ph s *
          rc (d.ocp.pArg (physOf d.ocp σ) ph (M.idx s i)
            (M.time (physOf d.ocp σ) ph s (M.node s i))) := by
  obtain ⟨args', hargs', hlen, hspec⟩ := h.nodeArgs_spec hv hph
  obtain ⟨args, F, pc, rc, hargs, -, -, hrc, hdisc⟩ := h.discretized_spec hv hph
  rw [hargs'] at hargs; cases hargs
  have hne : d.orders ≠ [] := by rw [← h.orders]; exact h.good.nonempty
  obtain ⟨w, hw, hwl, -⟩ := compQuadWeights_spec d.colloc d.orders hne M.nodes h.goodNodes
  rw [h.compW] at hw; cases hw
  have hwN : d.compW.length = M.N := by rw [hwl, h.N_eq]; rfl
  refine ⟨_, _, _, fun σ => (List.zipWith (fun w qi => w * qi σ) d.compW
    (args'.map fun n => (fun σ => n.h σ * rc (n.val σ) : SX K))).sum, rc, hdisc, hrc, ?_,
    fun σ => ?_⟩
  · unfold quadCost
    rw [if_pos (by simp [hwN, hlen])]
  · refine ⟨fun k => ((args'.map fun n => (fun σ => n.h σ * rc (n.val σ) : SX K)).getD k 0) σ, ?_, ?_⟩
    · simp only []
      unfold weightedSum
      rw [Finset.sum_range, ← List.sum_ofFn]
      congr 1
      apply List.ext_getElem
      · simp [hwN, hlen]
      · intro k hk1 hk2
        have hk : k < d.compW.length := by simpa using hk2
        have hka : k < args'.length := by omega
        simp [hka]
    · intro s i ho
      obtain ⟨n, hn, hval⟩ := hspec s i ho
      simp only []
      rw [getD_map_of_getElem? hn, (hval σ).1, (hval σ).2]

end MPOpt
