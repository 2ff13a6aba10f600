import Verif.Props.Setup

/-!
# C10–C19, C40: the NLP handed to the solver

`d.OnMesh M` says the discretisation object was built on mesh `M` (`Props/Setup.lean` derives it from
the constructor for LGR, LGL and CGL). `ValidOCP` is what `validate()` accepts (`C40_validate_iff`),
`SettingsOK` the flags and links `validate()` does not look at, `PosScales` positive scale factors.
`ocpQ_ready` and `exampleDisc` show a concrete problem that meets all of them.
-/

set_option autoImplicit false
set_option linter.unusedSectionVars false

namespace MPOpt
open Polynomial

variable {K : Type} [Field K] [LinearOrder K] [IsStrictOrderedRing K] {d : Disc K} {M : Mesh K}

/-- If one call raises, the whole comprehension raises. -/
theorem mapM_error_of_mem {α β : Type} (f : α → Py β) (l : List α) (a : α) (ha : a ∈ l)
    (h : ∃ e, f a = .error e) : ∃ e, l.mapM f = .error e := by
  induction l with
  | nil => simp at ha
  | cons b l ih =>
    rw [List.mapM_cons]
    cases hb : f b with
    | error e => exact ⟨e, rfl⟩
    | ok v =>
      rcases List.mem_cons.1 ha with rfl | ha
      · obtain ⟨e, he⟩ := h; rw [hb] at he; cases he
      · obtain ⟨e, he⟩ := ih ha
        exact ⟨e, by rw [he]; rfl⟩

/-- **C10** Every decision variable appears exactly once in the NLP vector, nothing else does. -/
theorem C10_variables_once (h : d.OnMesh M) (hv : ValidOCP d.ocp) (hs : d.ocp.SettingsOK)
    (hsc : d.ocp.PosScales) :
    ∃ nlp, d.createNlp = .ok nlp ∧ nlp.x.Nodup ∧ (∀ s, s ∈ nlp.x ↔ IsDecisionVar d.ocp M.N s) ∧
      nlp.x.length = d.ocp.nPhases * (M.N * (d.ocp.nx + d.ocp.nu) + 2 + d.ocp.na) := by
  obtain ⟨bs, J, nlp, hn, -, -, -, hx, -⟩ := h.createNlp_spec hv hs hsc
  refine ⟨nlp, hn, ?_, ?_, ?_⟩
  · rw [hx, List.nodup_flatMap]
    refine ⟨fun ph _ => Disc.nodup_phaseVars ph, ?_⟩
    apply List.nodup_range.imp
    intro p q hne
    simp only [Function.onFun, List.disjoint_left, Disc.mem_phaseVars]
    rintro s hs1 hs2
    apply hne
    rcases hs1 with ⟨i, -, j, -, rfl⟩ | ⟨i, -, j, -, rfl⟩ | rfl | rfl | ⟨k, -, rfl⟩ <;>
      rcases hs2 with ⟨i', -, j', -, e⟩ | ⟨i', -, j', -, e⟩ | e | e | ⟨k', -, e⟩ <;>
      first
        | (cases e; rfl)
        | cases e
  · intro s
    rw [hx, h.N_eq]
    simp only [List.mem_flatMap, List.mem_range, Disc.mem_phaseVars]
    constructor
    · rintro ⟨ph, hph, ⟨i, hi, j, hj, rfl⟩ | ⟨i, hi, j, hj, rfl⟩ | rfl | rfl | ⟨k, hk, rfl⟩⟩
      · exact ⟨hph, hi, hj⟩
      · exact ⟨hph, hi, hj⟩
      · exact hph
      · exact hph
      · exact ⟨hph, hk⟩
    · intro hs
      cases s with
      | X ph i j => exact ⟨ph, hs.1, Or.inl ⟨i, hs.2.1, j, hs.2.2, rfl⟩⟩
      | U ph i j => exact ⟨ph, hs.1, Or.inr (Or.inl ⟨i, hs.2.1, j, hs.2.2, rfl⟩)⟩
      | T0 ph => exact ⟨ph, hs, by simp⟩
      | Tf ph => exact ⟨ph, hs, by simp⟩
      | A k ph => exact ⟨ph, hs.1, by simp [hs.2]⟩
      | H s ph => exact hs.elim
  · rw [hx, List.length_flatMap, h.N_eq]
    simp [Disc.length_phaseVars]

/-- **C11** Bounds line up with variables: at the position of each variable, `lbx` and `ubx` hold the
bound of its component times its scale (the first node of phase 0 is pinned to `x00[0]`). -/
theorem C11_bounds_aligned (h : d.OnMesh M) (hv : ValidOCP d.ocp) (hs : d.ocp.SettingsOK)
    (hsc : d.ocp.PosScales) :
    ∃ nlp, d.createNlp = .ok nlp ∧ nlp.lbx.length = nlp.x.length ∧ nlp.ubx.length = nlp.x.length ∧
      ∀ (i : Nat) (s : Sym), nlp.x[i]? = some s →
        nlp.lbx[i]? = some (scaledLower d.ocp s) ∧ nlp.ubx[i]? = some (scaledUpper d.ocp s) := by
  obtain ⟨bs, J, nlp, hn, -, -, -, -, hl, hu, -⟩ := h.createNlp_spec hv hs hsc
  refine ⟨nlp, hn, by rw [hl]; simp, by rw [hu]; simp, fun i s hs => ?_⟩
  rw [hl, hu, List.getElem?_map, List.getElem?_map, hs]
  exact ⟨rfl, rfl⟩

/-- **C12** Constraint vector and both bound vectors have equal length. -/
theorem C12_lengths (h : d.OnMesh M) (hv : ValidOCP d.ocp) (hs : d.ocp.SettingsOK)
    (hsc : d.ocp.PosScales) :
    ∃ nlp, d.createNlp = .ok nlp ∧ nlp.g.length = nlp.lbg.length ∧
      nlp.g.length = nlp.ubg.length := by
  obtain ⟨bs, J, nlp, hn, -, -, hbs, -, -, -, -, -, ev, hev, -, -, hg, hl, hu⟩ :=
    h.createNlp_spec hv hs hsc
  have := sized_flatten (bs := bs ++ ev) (by
    intro b hb
    rcases List.mem_append.1 hb with hb | hb
    · exact hbs b hb
    · exact hev b hb)
  exact ⟨nlp, hn, by rw [hg, hl]; exact this.1, by rw [hg, hu]; exact this.2⟩

/-- **C13** The time grid: the loop never leaves the mesh, has one entry per node, and entry `k` is the
time of its node (`Mesh.time`). -/
theorem C13_time_grid (h : d.OnMesh M) {ph : Nat} (hph : ph < d.ocp.nPhases) :
    ∃ g, d.nodeGrid ph = .ok g ∧ g.length = M.N ∧
      ∀ (s i : Nat), M.Owns s i → ∃ th, g[M.idx s i]? = some th ∧
        ∀ σ, th.1 σ = M.time (physOf d.ocp σ) ph s (M.node s i) := by
  obtain ⟨g, hg, hl, hspec⟩ := h.nodeGrid_spec hph
  refine ⟨g, hg, hl, fun s i ho => ?_⟩
  obtain ⟨th, h1, h2, -⟩ := hspec s i ho
  exact ⟨th, h1, h2⟩

/-- **C13** The first node is at `t0`; the end of segment `s` is at
`t0 + (tf - t0) * (w_0 + … + w_s)`, which is also the time of the first node of the next segment. -/
theorem C13_segment_ends (hM : M.Good) (T : Traj K) (ph : Nat) :
    M.time T ph 0 M.tau0 = T.t0 ph ∧
    (∀ s, M.time T ph s M.tau1 =
      T.t0 ph + (T.tf ph - T.t0 ph) * ∑ r ∈ Finset.range (s + 1), T.w r ph) ∧
    (∀ s, M.time T ph (s + 1) M.tau0 = M.time T ph s M.tau1) ∧
    ((∑ r ∈ Finset.range M.orders.length, T.w r ph) = 1 →
      M.time T ph (M.orders.length - 1) M.tau1 = T.tf ph) := by
  have e2 : ∀ s, M.time T ph s M.tau1 =
      T.t0 ph + (T.tf ph - T.t0 ph) * ∑ r ∈ Finset.range (s + 1), T.w r ph := by
    intro s
    simp only [Mesh.time, Mesh.halfWidth, Finset.sum_range_succ]
    have := hM.tau_ne
    field_simp
    ring
  refine ⟨by simp [Mesh.time], e2, fun s => by rw [e2]; simp [Mesh.time], fun hw => ?_⟩
  have h0 : 0 < M.orders.length := List.length_pos_iff.2 hM.nonempty
  rw [e2, Nat.sub_add_cancel h0, hw]; ring

/-- **C13** With `tf > t0`, positive widths and increasing nodes, times increase strictly along the
nodes. -/
theorem C13_strictly_increasing (hM : M.Good) (hord : ∀ p ∈ M.orders, (M.nodes p).Pairwise (· < ·))
    (T : Traj K) (ph : Nat) (ht : T.t0 ph < T.tf ph)
    (hw : ∀ s < M.orders.length, 0 < T.w s ph) {s i s' i' : Nat} (ho : M.Owns s i)
    (ho' : M.Owns s' i') (hlt : M.idx s i < M.idx s' i') :
    M.time T ph s (M.node s i) < M.time T ph s' (M.node s' i') := by
  have node_lt : ∀ r, r < M.orders.length → ∀ a b, a < b → b ≤ M.order r → M.node r a < M.node r b := by
    intro r hr a b hab hb
    have hp := hM.order_mem hr
    have hl := hM.length _ hp
    unfold Mesh.node
    rw [List.getD_eq_getElem _ _ (by omega), List.getD_eq_getElem _ _ (by omega)]
    exact List.pairwise_iff_getElem.1 (hord _ hp) a b (by omega) (by omega) hab
  have htau : M.tau0 < M.tau1 := by
    have h0 : 0 < M.orders.length := List.length_pos_iff.2 hM.nonempty
    rw [← hM.node_first h0, ← hM.node_last h0]
    exact node_lt 0 h0 0 _ (hM.order_pos h0) le_rfl
  have hh : ∀ r < M.orders.length, 0 < M.halfWidth T ph r := by
    intro r hr
    unfold Mesh.halfWidth
    exact mul_pos (div_pos (by linarith) (by linarith)) (hw r hr)
  have mono : ∀ r < M.orders.length, ∀ a b : K, a < b → M.time T ph r a < M.time T ph r b := by
    intro r hr a b hab
    unfold Mesh.time
    have := mul_lt_mul_of_pos_left (show a - M.tau0 < b - M.tau0 by linarith) (hh r hr)
    linarith
  have le_end : ∀ r < M.orders.length, ∀ a ≤ M.order r, M.node r a ≤ M.tau1 := by
    intro r hr a ha
    rw [← hM.node_last hr]
    rcases Nat.lt_or_ge a (M.order r) with h | h
    · exact (node_lt r hr a _ h le_rfl).le
    · rw [Nat.le_antisymm ha h]
  have mono_le : ∀ r < M.orders.length, ∀ a b : K, a ≤ b → M.time T ph r a ≤ M.time T ph r b := by
    intro r hr a b hab
    rcases hab.lt_or_eq with h | h
    · exact (mono r hr a b h).le
    · rw [h]
  have ends : ∀ k r, r + k < M.orders.length → 1 ≤ k →
      M.time T ph r M.tau1 ≤ M.time T ph (r + k) M.tau0 := by
    intro k
    induction k with
    | zero => intro r _ h; omega
    | succ k ih =>
      intro r hr _
      rcases Nat.eq_zero_or_pos k with rfl | hk
      · exact ((C13_segment_ends hM T ph).2.2.1 r).ge
      · refine (ih r (by omega) hk).trans ?_
        rw [← Nat.add_assoc, (C13_segment_ends hM T ph).2.2.1 (r + k)]
        exact (mono _ (by omega) _ _ htau).le
  rcases Nat.lt_trichotomy s s' with hss | hss | hss
  · have hi1 : 1 ≤ i' := by
      rcases ho'.2.2 with h | h
      · omega
      · exact h
    have a1 := mono_le s ho.1 _ _ (le_end s ho.1 i ho.2.1)
    have a2 := ends (s' - s) s (by have := ho'.1; omega) (by omega)
    rw [Nat.add_sub_cancel' hss.le] at a2
    have a3 := mono s' ho'.1 M.tau0 (M.node s' i') (by
      rw [← hM.node_first ho'.1]
      exact node_lt s' ho'.1 0 i' hi1 ho'.2.1)
    linarith
  · subst hss
    exact mono s ho.1 _ _ (node_lt s ho.1 i i' (by unfold Mesh.idx at hlt; omega) ho'.2.1)
  · exfalso
    have h1 := segStart_add_le (l := M.orders) ho'.1 hss
    rw [← Mesh.order_eq ho'.1] at h1
    have h2 := ho'.2.1
    unfold Mesh.idx at hlt
    omega

/-- **C14** Dynamics rows of a phase hold iff the collocation equations hold in physical units. -/
theorem C14_dynamics_rows (h : d.OnMesh M) (hv : ValidOCP d.ocp) (hnx : 0 < d.ocp.nx)
    (hsc : ∀ s ∈ d.ocp.scaleX, s ≠ 0) {ph : Nat} (hph : ph < d.ocp.nPhases) :
    ∃ f c q B, d.discretized ph = .ok (f, c, q) ∧ d.dynBlock f ph = .ok B ∧
      B.g.length = d.ocp.nx * M.N ∧
      ∀ σ, Holds (evalAll B.g σ) B.lo B.hi ↔ CollocationOK d.ocp M (physOf d.ocp σ) ph := by
  obtain ⟨f, c, q, B, h1, h2, h3, -, h4⟩ := h.dynBlock_spec hv hnx hsc hph
  exact ⟨f, c, q, B, h1, h2, h3, h4⟩

/-- **C15** Path rows hold iff all path constraints are non-positive at every node. -/
theorem C15_path_rows (h : d.OnMesh M) (hv : ValidOCP d.ocp) {ph : Nat} (hph : ph < d.ocp.nPhases) :
    ∃ f c q pc, d.discretized ph = .ok (f, c, q) ∧ pyIdx d.ocp.pathConstraints ph = .ok pc ∧
      (Disc.pathBlock c (Disc.pathLen pc)).g.length = Disc.pathLen pc * M.N ∧
      ∀ σ, Holds (evalAll (Disc.pathBlock c (Disc.pathLen pc)).g σ)
          (Disc.pathBlock c (Disc.pathLen pc)).lo (Disc.pathBlock c (Disc.pathLen pc)).hi ↔
        PathOK d.ocp M (physOf d.ocp σ) ph := by
  obtain ⟨f, c, q, pc, h1, h2, -, h3, h4⟩ := h.pathBlock_spec hv hph
  exact ⟨f, c, q, pc, h1, h2, h3, h4⟩

/-- **C15** Terminal rows hold iff all terminal constraints vanish. -/
theorem C15_terminal_rows (h : d.OnMesh M) (hv : ValidOCP d.ocp) {ph : Nat}
    (hph : ph < d.ocp.nPhases) :
    ∃ B J, d.termBlock ph = .ok (B, J) ∧
      (∀ σ, Holds (evalAll B.g σ) B.lo B.hi ↔ TerminalOK d.ocp M (physOf d.ocp σ) ph) ∧
      ∀ σ cost, d.ocp.terminalCosts[ph]? = some cost →
        J σ = cost (d.ocp.tArg (physOf d.ocp σ) ph M.N) := by
  obtain ⟨B, J, cost, h1, h2, -, h3, h4⟩ := h.termBlock_spec hv hph
  refine ⟨B, J, h1, h3, fun σ c hc => ?_⟩
  rw [h2] at hc; cases hc
  exact h4 σ

/-- Values of `dt/dtau` times the running cost at the nodes of a phase. -/
def RunningSamples (ocp : OCP K) (M : Mesh K) (T : Traj K) (ph : Nat) (v : Nat → K) : Prop :=
  ∀ rc, ocp.runningCosts[ph]? = some rc → ∀ s i, M.Owns s i →
    v (M.idx s i) = M.halfWidth T ph s *
      rc (ocp.pArg T ph (M.idx s i) (M.time T ph s (M.node s i)))

/-- Terminal cost of a phase. -/
def TerminalCost (ocp : OCP K) (M : Mesh K) (T : Traj K) (ph : Nat) : K :=
  ocp.terminalCosts.getD ph (fun _ => 0) (ocp.tArg T ph M.N)

/-- **C15** The objective: the sum over phases of terminal cost plus composite quadrature of `dt/dtau`
times the running cost at the nodes, all in physical units. -/
theorem C15_objective (h : d.OnMesh M) (hv : ValidOCP d.ocp) (hs : d.ocp.SettingsOK)
    (hsc : d.ocp.PosScales) :
    ∃ nlp, d.createNlp = .ok nlp ∧ d.compW.length = M.N ∧ ∀ (σ : Env K) (v : Nat → Nat → K),
      (∀ ph < d.ocp.nPhases, RunningSamples d.ocp M (physOf d.ocp σ) ph (v ph)) →
      nlp.f σ = ∑ ph ∈ Finset.range d.ocp.nPhases,
        (TerminalCost d.ocp M (physOf d.ocp σ) ph + weightedSum d.compW (v ph)) := by
  obtain ⟨bs, J, nlp, hn, hbl, hbs, -, -, -, -, -, hf, -⟩ := h.createNlp_spec hv hs hsc
  have hne : d.orders ≠ [] := by rw [← h.orders]; exact h.good.nonempty
  obtain ⟨w, hw, hwl, -⟩ := compQuadWeights_spec d.colloc d.orders hne M.nodes h.goodNodes
  rw [h.compW] at hw; cases hw
  have hwN : d.compW.length = M.N := by rw [hwl, h.N_eq]; rfl
  refine ⟨nlp, hn, hwN, fun σ v hvs => ?_⟩
  rw [hf]
  apply Finset.sum_congr rfl
  intro ph hph
  have hph : ph < d.ocp.nPhases := by simpa using hph
  obtain ⟨B, J', rc, tc, hB, -, -, hrc, htc, hJ⟩ := h.discretizePhase_spec hv hs hsc hph
  have hbl' : ph < bs.length := by omega
  have hB' := hbs ph _ (List.getElem?_eq_getElem hbl')
  rw [hB] at hB'
  injection hB' with hB'
  have hJJ : J ph = J' := by injection hB' with _ e; exact e.symm
  obtain ⟨v', e1, e2⟩ := hJ σ
  rw [hJJ, e1]
  congr 1
  · unfold TerminalCost
    rw [List.getD_eq_getElem?_getD, htc]; rfl
  · unfold weightedSum
    apply Finset.sum_congr rfl
    intro k hk
    have hk : k < M.N := by rw [← hwN]; simpa using hk
    obtain ⟨s, i, ho, rfl⟩ := M.exists_owner h.good.nonempty hk
    rw [e2 s i ho, hvs ph hph rc hrc s i ho]

/-- **C16** Linking rows hold iff all phase links do. -/
theorem C16_link_rows (h : d.OnMesh M) (hv : ValidOCP d.ocp) (hs : d.ocp.SettingsOK)
    (hsc : d.ocp.PosScales) (h2 : 2 ≤ d.ocp.nPhases) :
    ∃ B, d.eventBlock = .ok B ∧
      ∀ σ, Holds (evalAll B.g σ) B.lo B.hi ↔ LinksOK d.ocp M (physOf d.ocp σ) := by
  obtain ⟨B, h1, -, h3⟩ := h.eventBlock_spec hv hs hsc h2
  exact ⟨B, h1, h3⟩

/-- **C18** Mid-point rows hold iff the control polynomials respect the bounds at the mid-points. -/
theorem C18_midpoint_rows (h : d.OnMesh M) (hv : ValidOCP d.ocp) (hs : d.ocp.SettingsOK)
    (hsc : d.ocp.PosScales) {ph : Nat} (hph : ph < d.ocp.nPhases) :
    ∃ B, d.midBlock ph = .ok B ∧ ∀ σ, Holds (evalAll B.g σ) B.lo B.hi ↔
      (d.ocp.midu.getD ph false = true → MidControlOK d.ocp M (physOf d.ocp σ) ph) := by
  obtain ⟨B, h1, -, h3⟩ := h.midBlock_spec hv hs hsc.u hph
  exact ⟨B, h1, h3⟩

/-- **C19** Slope-continuity rows hold iff `tau`-slopes agree at interior boundaries. -/
theorem C19_continuity_rows (h : d.OnMesh M) (hv : ValidOCP d.ocp) (hs : d.ocp.SettingsOK)
    (hsc : d.ocp.PosScales) {ph : Nat} (hph : ph < d.ocp.nPhases) :
    ∃ B, d.contBlock ph = .ok B ∧ ∀ σ, Holds (evalAll B.g σ) B.lo B.hi ↔
      (d.ocp.duContinuity.getD ph false = true →
        SlopeContinuous d.ocp M (physOf d.ocp σ) ph) := by
  obtain ⟨B, h1, -, h3⟩ := h.contBlock_spec hv hs (fun s hs => (hsc.u s hs).ne') hph
  exact ⟨B, h1, h3⟩

/-- **C14–C19, end to end** A point is feasible for the NLP iff its physical trajectory solves the
collocated optimal control problem, including the (scaled) slope bounds where `diff_u` is on. -/
theorem C14_feasible_iff (h : d.OnMesh M) (hv : ValidOCP d.ocp) (hs : d.ocp.SettingsOK)
    (hsc : d.ocp.PosScales) :
    ∃ nlp, d.createNlp = .ok nlp ∧ ∀ σ, nlp.Feasible σ ↔
      PhysFeasible d.ocp M (physOf d.ocp σ) ∧ ∀ ph < d.ocp.nPhases,
        d.ocp.diffU.getD ph false = true →
          SlopeBounded d.ocp M (physOf d.ocp σ) (fun j => d.ocp.scaleU.getD j 0) ph := by
  obtain ⟨bs, J, nlp, hn, hbl, hbs, hsz, hx, hl, hu, -, -, ev, hevs, hev1, hev2, hg, hlg, hug⟩ :=
    h.createNlp_spec hv hs hsc
  refine ⟨nlp, hn, fun σ => ?_⟩
  unfold Disc.NLP.Feasible
  have hbox : Holds (nlp.x.map σ) nlp.lbx nlp.ubx ↔
      ∀ ph < d.ocp.nPhases, BoundsOK d.ocp M (physOf d.ocp σ) ph := by
    rw [hl, hu, holds_map, hx]
    simp only [List.mem_flatMap, List.mem_range]
    constructor
    · intro hh ph hph
      exact (h.bounds_spec hv hsc σ).1 fun s hs => hh s ⟨ph, hph, hs⟩
    · rintro hh s ⟨ph, hph, hs⟩
      exact (h.bounds_spec hv hsc σ).2 (hh ph hph) s hs
  have hrows : Holds (evalAll nlp.g σ) nlp.lbg nlp.ubg ↔
      (∀ b ∈ bs, b.Sat σ) ∧ ∀ b ∈ ev, b.Sat σ := by
    rw [hg, hlg, hug, sat_flatten (by
      intro b hb
      rcases List.mem_append.1 hb with hb | hb
      · exact hsz b hb
      · exact hevs b hb)]
    simp only [List.mem_append]
    exact ⟨fun h => ⟨fun b hb => h b (Or.inl hb), fun b hb => h b (Or.inr hb)⟩,
      fun h b hb => hb.elim (h.1 b) (h.2 b)⟩
  have hphase : (∀ b ∈ bs, b.Sat σ) ↔ ∀ ph < d.ocp.nPhases,
      CollocationOK d.ocp M (physOf d.ocp σ) ph ∧
        PathOK d.ocp M (physOf d.ocp σ) ph ∧
        (d.ocp.diffU.getD ph false = true →
          SlopeBounded d.ocp M (physOf d.ocp σ) (fun j => d.ocp.scaleU.getD j 0) ph) ∧
        (d.ocp.midu.getD ph false = true → MidControlOK d.ocp M (physOf d.ocp σ) ph) ∧
        (d.ocp.duContinuity.getD ph false = true →
          SlopeContinuous d.ocp M (physOf d.ocp σ) ph) ∧
        TerminalOK d.ocp M (physOf d.ocp σ) ph := by
    have key : ∀ ph (hb : ph < bs.length), bs[ph].Sat σ ↔
        CollocationOK d.ocp M (physOf d.ocp σ) ph ∧
        PathOK d.ocp M (physOf d.ocp σ) ph ∧
        (d.ocp.diffU.getD ph false = true →
          SlopeBounded d.ocp M (physOf d.ocp σ) (fun j => d.ocp.scaleU.getD j 0) ph) ∧
        (d.ocp.midu.getD ph false = true → MidControlOK d.ocp M (physOf d.ocp σ) ph) ∧
        (d.ocp.duContinuity.getD ph false = true →
          SlopeContinuous d.ocp M (physOf d.ocp σ) ph) ∧
        TerminalOK d.ocp M (physOf d.ocp σ) ph := by
      intro ph hb
      have hph : ph < d.ocp.nPhases := by omega
      obtain ⟨B, J', rc, tc, hB, -, hsat, -⟩ := h.discretizePhase_spec hv hs hsc hph
      have hB' := hbs ph _ (List.getElem?_eq_getElem hb)
      rw [hB] at hB'
      injection hB' with hB'
      injection hB' with hB' _
      rw [← hB']
      exact hsat σ
    constructor
    · intro hh ph hph
      exact (key ph (by omega)).1 (hh _ (List.getElem_mem _))
    · intro hh b hb
      obtain ⟨ph, hph, rfl⟩ := List.mem_iff_getElem.1 hb
      exact (key ph hph).2 (hh ph (by omega))
  have hlink : (∀ b ∈ ev, b.Sat σ) ↔ (2 ≤ d.ocp.nPhases → LinksOK d.ocp M (physOf d.ocp σ)) := by
    by_cases h2 : 2 ≤ d.ocp.nPhases
    · obtain ⟨e, he, rfl⟩ := hev2 h2
      obtain ⟨e', he', -, hsat⟩ := h.eventBlock_spec hv hs hsc h2
      rw [he] at he'; cases he'
      simp [h2, hsat]
    · rw [hev1 (by omega)]
      simp [h2]
  rw [hbox, hrows, hphase, hlink]
  constructor
  · rintro ⟨hb, hp, hl⟩
    exact ⟨⟨hb, fun ph hph => (hp ph hph).1, fun ph hph => (hp ph hph).2.1,
      fun ph hph => (hp ph hph).2.2.2.2.2, fun ph hph => (hp ph hph).2.2.2.1,
      fun ph hph => (hp ph hph).2.2.2.2.1, hl⟩, fun ph hph => (hp ph hph).2.2.1⟩
  · rintro ⟨⟨hb, h1, h2, h3, h4, h5, hl⟩, h6⟩
    exact ⟨hb, fun ph hph => ⟨h1 ph hph, h2 ph hph, h6 ph hph, h4 ph hph, h5 ph hph, h3 ph hph⟩, hl⟩

/-- **C40** `validate()` and positive scales guarantee `lbx ≤ ubx`; with `lbdu ≤ ubdu` in the phases with
`diff_u` also `lbg ≤ ubg`. -/
theorem C40_nlp_bounds_ordered (h : d.OnMesh M) (hval : d.ocp.validate = .ok ())
    (hs : d.ocp.SettingsOK) (hsc : d.ocp.PosScales) :
    ∃ nlp, d.createNlp = .ok nlp ∧ BoundsOrdered nlp.lbx nlp.ubx ∧
      ((∀ ph : Nat, d.ocp.diffU[ph]? = some true → ∀ a b : Ext K, d.ocp.lbdu[ph]? = some a →
        d.ocp.ubdu[ph]? = some b → Ext.le a b = true) → BoundsOrdered nlp.lbg nlp.ubg) := by
  have hv := (C40_validate_iff _).1 hval
  obtain ⟨bs, J, nlp, hn, hbl, hbs, hsz, hx, hl, hu, -, -, ev, hevs, hev1, hev2, hg, hlg, hug⟩ :=
    h.createNlp_spec hv hs hsc
  refine ⟨nlp, hn, ?_, fun hdu => ?_⟩
  · obtain ⟨nlp', hn', -, hmem, -⟩ := C10_variables_once h hv hs hsc
    rw [hn] at hn'; cases hn'
    rw [hl, hu]
    exact ordered_map _ _ _ fun s hs => scaled_le hv hsc ((hmem s).1 hs)
  · rw [hlg, hug]
    apply ordered_flatten
    · intro b hb
      rcases List.mem_append.1 hb with hb | hb
      · exact hsz b hb
      · exact hevs b hb
    · intro b hb
      rcases List.mem_append.1 hb with hb | hb
      · obtain ⟨ph, hph, rfl⟩ := List.mem_iff_getElem.1 hb
        exact Disc.ordered_phase hv hsc (hdu ph) (hbs ph _ (List.getElem?_eq_getElem hph))
      · by_cases h2 : 2 ≤ d.ocp.nPhases
        · obtain ⟨e, he, rfl⟩ := hev2 h2
          simp only [List.mem_singleton] at hb
          subst hb
          exact Disc.ordered_event hv hsc he
        · rw [hev1 (by omega)] at hb; simp at hb

/-! ### Concrete problems meeting the hypotheses -/

/-- A two-phase problem: one state, two controls, one parameter, a jump of at most 1 at the link. -/
def ocpQ2 : OCP ℚ :=
  { nx := 1, nu := 2, na := 1, nPhases := 2
    dynamics := [⟨1, fun p _ => p.u.getD 0 0⟩, ⟨1, fun p _ => p.u.getD 1 0 + p.t⟩]
    pathConstraints := [none, some ⟨2, fun p c => if c = 0 then p.x.getD 0 0 - 3 else -p.t⟩]
    terminalCosts := [fun t => t.tf, fun t => t.xf.getD 0 0]
    runningCosts := [fun _ => 0, fun p => p.u.getD 0 0]
    terminalConstraints := [none, some ⟨1, fun t _ => t.xf.getD 0 0 - 1⟩]
    phaseLinks := [(0, 1)]
    scaleX := [2], scaleU := [1, 1 / 2], scaleA := [3], scaleT := 5
    x00 := [[0], [0]], xf0 := [[1], [1]], u00 := [[0, 0], [0, 0]], uf0 := [[0, 0], [0, 0]]
    t00 := [[0], [1]], tf0 := [[1], [2]], a0 := [[0], [0]]
    lbx := [[.fin (-5)], [.ninf]], ubx := [[.fin 5], [.pinf]]
    lbu := [[.fin (-1), .ninf], [.ninf, .ninf]], ubu := [[.pinf, .pinf], [.pinf, .pinf]]
    lba := [[.fin 0], [.fin 0]], uba := [[.fin 1], [.fin 1]]
    lbt0 := [[.fin 0], [.fin 0]], ubt0 := [[.fin 0], [.pinf]], lbtf := [[.fin 0], [.fin 0]]
    ubtf := [[.pinf], [.pinf]]
    lbe := [[.fin (-1)]], ube := [[.fin 1]], diffU := [true, false], lbdu := [.fin (-15), .fin (-15)]
    ubdu := [.fin 15, .fin 15], midu := [true, false], duContinuity := [false, true] }

theorem ocpQ2_ready : ocpQ2.validate = .ok () ∧ ValidOCP ocpQ2 ∧ ocpQ2.SettingsOK ∧
    ocpQ2.PosScales := by
  have hval : ocpQ2.validate = .ok () := by decide +kernel
  refine ⟨hval, (C40_validate_iff _).1 hval, ⟨by decide, rfl, rfl, rfl, rfl, rfl, by decide,
    by decide, by decide, by decide⟩, ⟨?_, ?_, ?_, by norm_num [ocpQ2]⟩⟩ <;> simp [ocpQ2]

/-- The two-phase problem on two segments of orders 1 and 2: every theorem of this file applies. -/
theorem exampleDisc2 : ∃ (d : Disc ℚ) (M : Mesh ℚ),
    mkDisc libQ .numerical (-1) 1 ocpQ2 2 [1, 2] "LGR" = .ok d ∧ d.OnMesh M ∧ d.ocp = ocpQ2 ∧
      M.orders = [1, 2] ∧ ∀ p ∈ M.orders, (M.nodes p).Pairwise (· < ·) := by
  obtain ⟨d, M, h1, h2, h3, h4, -, -, h5⟩ := C43_lgr_setup libQ .numerical (-1) 1 (by norm_num) ocpQ2
    [1, 2] (by simp) (by simp) (by
      intro p hp h2
      simp only [List.mem_cons, List.not_mem_nil, or_false] at hp
      rcases hp with rfl | rfl
      · omega
      · exact libQ_lgr2)
  refine ⟨d, M, h1, h2, h3, h4, fun p hp => (h5 p ?_).sorted⟩
  rw [h4] at hp; exact hp

example : ∃ (d : Disc ℚ) (M : Mesh ℚ) (nlp : Disc.NLP ℚ), d.OnMesh M ∧ d.createNlp = .ok nlp ∧
    nlp.x.length = 2 * (4 * 3 + 2 + 1) ∧ 2 ≤ d.ocp.nPhases := by
  obtain ⟨d, M, -, h, he, ho, -⟩ := exampleDisc2
  obtain ⟨-, hv, hs, hsc⟩ := ocpQ2_ready
  rw [← he] at hv hs hsc
  obtain ⟨nlp, hn, -, -, hl⟩ := C10_variables_once h hv hs hsc
  refine ⟨d, M, nlp, h, hn, ?_, by rw [he]; decide⟩
  rw [hl, he, Mesh.N, ho]; rfl

/-- **C16** More than one phase without links, or with more links than rows of `lbe`: raises. -/
theorem C16_bad_link_count_raises (hv : ValidOCP d.ocp) (h2 : 2 ≤ d.ocp.nPhases)
    (hbad : d.ocp.phaseLinks = [] ∨ d.ocp.nPhases - 1 < d.ocp.phaseLinks.length) :
    ∃ e, d.eventBlock = .error e := by
  have h2' : ¬ d.ocp.nPhases < 2 := by omega
  rcases hbad with h0 | h0
  · refine ⟨.value, ?_⟩
    unfold Disc.eventBlock
    simp only [h2', if_false, h0]
    rfl
  · unfold Disc.eventBlock
    simp only [h2', if_false]
    split
    · exact ⟨.index, rfl⟩
    · have : ∃ e, ((List.range d.ocp.phaseLinks.length).mapM fun k => do
          scaleRow (← pyIdx d.ocp.lbe k) d.ocp.scaleX) = (.error e : Py (List (List (Ext K)))) := by
        apply mapM_error_of_mem _ _ (d.ocp.nPhases - 1) (by simpa using h0)
        have : pyIdx d.ocp.lbe (d.ocp.nPhases - 1) = .error .index := by
          unfold pyIdx
          rw [List.getElem?_eq_none (by rw [hv.lbe.1])]
        exact ⟨.index, by rw [this]; rfl⟩
      obtain ⟨e, he⟩ := this
      refine ⟨e, ?_⟩
      rw [he]
      rfl

end MPOpt
