import Verif.Spec.CheckPoint
import Verif.Props.EndToEnd
import Verif.Props.HAdaptive

/-! # The residual grid is the set of check points, and the error `solve` compares is the largest defect there -/

set_option autoImplicit false
set_option linter.unusedSectionVars false

namespace MPOpt
variable {K : Type} [Field K] [LinearOrder K] [IsStrictOrderedRing K]
variable {e : Solved K} {M : Mesh K}

omit [Field K] [IsStrictOrderedRing K] in
theorem mem_dropLast_sorted {l : List K} (h : l.Pairwise (· < ·)) {x : K} :
    x ∈ l.dropLast ↔ x ∈ l ∧ ∃ y ∈ l, x < y := by
  induction l using List.reverseRecOn with
  | nil => simp
  | append_singleton l a _ =>
    rw [List.dropLast_concat]
    rw [List.pairwise_append] at h
    obtain ⟨h1, -, h3⟩ := h
    constructor
    · intro hx
      exact ⟨by simp [hx], a, by simp, h3 x hx a (by simp)⟩
    · rintro ⟨hx, y, hy, hxy⟩
      rcases List.mem_append.1 hx with hx | hx
      · exact hx
      · rw [List.mem_singleton.1 hx] at hxy
        rcases List.mem_append.1 hy with hy | hy
        · exact absurd (h3 y hy a (by simp)) (not_lt.2 hxy.le)
        · rw [List.mem_singleton.1 hy] at hxy; exact absurd hxy (lt_irrefl _)

theorem Solved.Ready.widths_eq (h : e.Ready M) {ph : Nat} (hph : ph < e.disc.ocp.nPhases) :
    (e.phaseWidths ph).length = M.orders.length ∧
      (∀ r < M.orders.length, e.traj.w r ph = (e.phaseWidths ph).getD r 0) ∧
      ∀ n ≤ M.orders.length, ∑ r ∈ Finset.range n, e.traj.w r ph = ((e.phaseWidths ph).take n).sum := by
  have hns : e.disc.nSegments = M.orders.length := by rw [← h.mesh.segments, h.mesh.orders]
  have hlen : (e.phaseWidths ph).length = M.orders.length := by
    rw [← hns]; exact length_phaseSlice h.widths hph
  have hw : ∀ r < M.orders.length, e.traj.w r ph = (e.phaseWidths ph).getD r 0 := by
    intro r hr
    have := phaseSlice_getElem? h.z h.widths hph (by rw [hns]; exact hr)
    unfold Solved.phaseWidths
    rw [List.getD_eq_getElem?_getD, this]
    rfl
  refine ⟨hlen, hw, fun n => ?_⟩
  induction n with
  | zero => simp
  | succ n ih =>
    intro hn
    rw [Finset.sum_range_succ, ih (by omega), take_sum_succ _ (by omega), hw n (by omega)]

/-- The `fixed` residual grid of a phase consists of its check points. -/
theorem Solved.Ready.grid_checkPoint (h : e.Ready M) (hlt : M.tau0 < M.tau1) {ph : Nat}
    (hph : ph < e.disc.ocp.nPhases) (hpos : ∀ w ∈ e.phaseWidths ph, 0 < w) (hsum : (e.phaseWidths ph).sum = 1) :
    ∃ g, e.residualGrid ph (some "fixed") = .ok (some g) ∧ g.length = M.orders.length ∧
      ∀ s < M.orders.length, ∀ tau, tau ∈ g.getD s [] ↔ CheckPoint M e.traj e.fixedCount ph s tau := by
  have hn : 2 ≤ e.fixedCount := by unfold Solved.fixedCount; omega
  obtain ⟨hlen, hw, hcum⟩ := h.widths_eq hph
  have h0 := h.mesh.tau0
  have h1 := h.mesh.tau1
  set w := e.phaseWidths ph with hwdef
  set a := M.tau0 with ha
  set b := M.tau1 with hb
  set N := e.fixedCount with hN
  set L := linspace a b N with hL
  have hn' : (0 : K) < ((N - 1 : Nat) : K) := by exact_mod_cast (by omega : 0 < N - 1)
  have hd : 0 < b - a := sub_pos.2 hlt
  have hwl : 0 < w.length := by
    rcases Nat.eq_zero_or_pos w.length with h | h
    · rw [List.length_eq_zero_iff.1 h] at hsum; simp at hsum
    · exact h
  have ho := interpTaus_closed L hlt hpos (near_one hsum)
  set out := (List.range w.length).map fun s =>
      (L.filter fun x => decide (InSegment w a b s x)).map fun x => a + (x - breakTau w a b s) / w.getD s 0 with hout
  have hg := fixed_grid (e := e) ph (out := out) (by rw [← h0, ← h1]; exact ho) (by simp [hout]; omega)
  refine ⟨_, hg, by simp [hout, hlen], fun s hs tau => ?_⟩
  have hws : 0 < w.getD s 0 := getD_pos hpos (by omega)
  have houts : ∀ s < w.length, out.getD s [] = (L.filter fun x => decide (InSegment w a b s x)).map
      fun x => a + (x - breakTau w a b s) / w.getD s 0 := by
    intro s hs
    rw [List.getD_eq_getElem _ _ (by simp [hout]; exact hs)]
    simp [hout]
  -- position of `tau`
  have hpass : M.passed e.traj ph s tau = (w.take s).sum + w.getD s 0 * ((tau - a) / (b - a)) := by
    unfold Mesh.passed
    rw [hcum s (by omega), hw s hs]
  have hinv : ∀ x, a + (x - breakTau w a b s) / w.getD s 0 = tau ↔
      x = a + (b - a) * M.passed e.traj ph s tau := by
    intro x
    rw [hpass]
    unfold breakTau
    constructor
    · intro h
      rw [← h]
      field_simp
      ring
    · intro h
      rw [h]
      field_simp
      ring
  have hin : ∀ x, x = a + (b - a) * M.passed e.traj ph s tau →
      (InSegment w a b s x ↔ a < tau ∧ tau ≤ b) := by
    rintro x rfl
    unfold InSegment
    rw [breakTau_succ (by omega), hpass]
    unfold breakTau
    have e1 : a + (b - a) * ((w.take s).sum + w.getD s 0 * ((tau - a) / (b - a))) =
        a + (b - a) * (w.take s).sum + w.getD s 0 * (tau - a) := by
      field_simp
      ring
    rw [e1, lt_add_iff_pos_right, mul_pos_iff_of_pos_left hws, sub_pos, add_le_add_iff_left, mul_comm (b - a),
      mul_le_mul_iff_right₀ hws, sub_le_sub_iff_right]
  have hLmem : ∀ x, x ∈ L ↔ ∃ k < N, a + (b - a) * ((k : K) / ((N - 1 : Nat) : K)) = x := by
    intro x; simp [hL, linspace]
  have hmem : ∀ k : Nat, a + (b - a) * ((k : K) / ((N - 1 : Nat) : K)) =
      a + (b - a) * M.passed e.traj ph s tau ↔ M.passed e.traj ph s tau = (k : K) / ((N - 1 : Nat) : K) := by
    intro k
    rw [add_right_inj, mul_right_inj' hd.ne', eq_comm]
  have hle1 : a < tau ∧ tau ≤ b → M.passed e.traj ph s tau ≤ 1 := by
    rintro ⟨-, ht⟩
    rw [hpass]
    have h1 : (w.take (s + 1)).sum ≤ 1 := by
      rw [← hsum]
      conv_rhs => rw [← List.take_append_drop (s + 1) w, List.sum_append]
      have : 0 ≤ (w.drop (s + 1)).sum := List.sum_nonneg fun x hx => (hpos x (List.mem_of_mem_drop hx)).le
      linarith
    rw [take_sum_succ _ (by omega)] at h1
    have : (tau - a) / (b - a) ≤ 1 := by rw [div_le_one hd]; linarith
    have := mul_le_mul_of_nonneg_left this hws.le
    linarith
  rcases Nat.eq_zero_or_pos s with rfl | hs0
  · -- first segment
    rw [List.getD_eq_getElem?_getD, List.getElem?_set_self (by simp [hout]; omega), Option.getD_some,
      houts 0 hwl, ← List.map_dropLast, List.mem_map]
    have hsort : (L.filter fun x => decide (InSegment w a b 0 x)).Pairwise (· < ·) :=
      (linspace_sorted hlt hn).filter _
    constructor
    · rintro ⟨x, hx, hxt⟩
      rw [mem_dropLast_sorted hsort] at hx
      obtain ⟨hx, y, hy, hxy⟩ := hx
      rw [List.mem_filter, decide_eq_true_iff] at hx hy
      have hx0 := (hinv x).1 hxt
      have hi := (hin x hx0).1 hx.2
      obtain ⟨k, hk, hkx⟩ := (hLmem x).1 hx.1
      obtain ⟨j, hj, hjy⟩ := (hLmem y).1 hy.1
      refine ⟨hs, hi, k, (hmem k).1 (hkx.trans hx0), fun _ => ?_⟩
      have hkj : (k : K) < j := by
        rw [← hkx, ← hjy, add_lt_add_iff_left, mul_lt_mul_iff_right₀ hd, div_lt_div_iff_of_pos_right hn'] at hxy
        exact hxy
      have hkj' : k + 1 ≤ j := by exact_mod_cast hkj
      have hy2 := hy.2.2
      rw [← hjy, breakTau_succ hwl, breakTau_zero, add_le_add_iff_left, mul_le_mul_iff_right₀ hd] at hy2
      rw [hw 0 hs]
      refine le_trans ?_ hy2
      rw [div_le_div_iff_of_pos_right hn']
      exact_mod_cast hkj'
    · rintro ⟨-, hi, k, hk, hk1⟩
      refine ⟨a + (b - a) * M.passed e.traj ph 0 tau, ?_, (hinv _).2 rfl⟩
      rw [mem_dropLast_sorted hsort]
      have hk1 := hk1 rfl
      rw [hw 0 hs] at hk1
      have hw1 : w.getD 0 0 ≤ 1 := by
        have := take_sum_succ w hwl
        have h2 : (w.take 1).sum ≤ 1 := by
          rw [← hsum]
          conv_rhs => rw [← List.take_append_drop 1 w, List.sum_append]
          have : 0 ≤ (w.drop 1).sum := List.sum_nonneg fun x hx => (hpos x (List.mem_of_mem_drop hx)).le
          linarith
        rw [zero_add, List.take_zero, List.sum_nil, zero_add] at this
        rw [← this]; exact h2
      have hkN : k + 1 < N := by
        have := hk1.trans hw1
        rw [div_le_one hn'] at this
        have : k + 1 ≤ N - 1 := by exact_mod_cast this
        omega
      refine ⟨?_, a + (b - a) * (((k + 1 : Nat) : K) / ((N - 1 : Nat) : K)), ?_, ?_⟩
      · rw [List.mem_filter, decide_eq_true_iff]
        exact ⟨(hLmem _).2 ⟨k, by omega, (hmem k).2 hk⟩, (hin _ rfl).2 hi⟩
      · rw [List.mem_filter, decide_eq_true_iff]
        refine ⟨(hLmem _).2 ⟨k + 1, hkN, rfl⟩, ?_, ?_⟩
        · rw [breakTau_zero, lt_add_iff_pos_right]
          have : (0 : K) < ((k + 1 : Nat) : K) := by exact_mod_cast Nat.succ_pos k
          positivity
        · rw [breakTau_succ hwl, breakTau_zero, add_le_add_iff_left, mul_le_mul_iff_right₀ hd]
          exact hk1
      · rw [hk, add_lt_add_iff_left, mul_lt_mul_iff_right₀ hd, div_lt_div_iff_of_pos_right hn']
        exact_mod_cast Nat.lt_succ_self k
  · rw [List.getD_eq_getElem?_getD, List.getElem?_set_ne (by omega), ← List.getD_eq_getElem?_getD,
      houts s (by omega), List.mem_map]
    constructor
    · rintro ⟨x, hx, hxt⟩
      rw [List.mem_filter, decide_eq_true_iff] at hx
      have hx0 := (hinv x).1 hxt
      obtain ⟨k, hk, hkx⟩ := (hLmem x).1 hx.1
      exact ⟨hs, (hin x hx0).1 hx.2, k, (hmem k).1 (hkx.trans hx0), fun h => by omega⟩
    · rintro ⟨-, hi, k, hk, -⟩
      refine ⟨a + (b - a) * M.passed e.traj ph s tau, ?_, (hinv _).2 rfl⟩
      rw [List.mem_filter, decide_eq_true_iff]
      refine ⟨(hLmem _).2 ⟨k, ?_, (hmem k).2 hk⟩, (hin _ rfl).2 hi⟩
      have := hle1 hi
      rw [hk, div_le_one hn'] at this
      have : k ≤ N - 1 := by exact_mod_cast this
      omega

/-! ### The largest residual -/

theorem seqMax_spec {l : List K} (h : l ≠ []) : ∃ m, seqMax l = .ok m ∧ m ∈ l ∧ ∀ v ∈ l, v ≤ m := by
  obtain ⟨a, l, rfl⟩ := List.exists_cons_of_ne_nil h
  refine ⟨l.foldl max a, rfl, ?_⟩
  clear h
  induction l generalizing a with
  | nil => simp
  | cons b l ih =>
    rw [List.foldl_cons]
    obtain ⟨h1, h2⟩ := ih (max a b)
    refine ⟨?_, fun v hv => ?_⟩
    · rcases List.mem_cons.1 h1 with h | h
      · rw [h]
        rcases max_choice a b with h' | h' <;> rw [h'] <;> simp
      · exact List.mem_cons_of_mem _ (List.mem_cons_of_mem _ h)
    · rcases List.mem_cons.1 hv with rfl | hv
      · exact le_trans (le_max_left v b) (h2 _ (by simp))
      rcases List.mem_cons.1 hv with rfl | hv
      · exact le_trans (le_max_right a v) (h2 _ (by simp))
      · exact h2 _ (List.mem_cons_of_mem _ hv)

/-- Largest entry in absolute value of a residual matrix, 0 when there is none. -/
theorem absMax_spec {err : SegResidual K} (h : ∀ rows, err = some rows → rows.flatten ≠ []) :
    ∃ m, absMax err = .ok m ∧ 0 ≤ m ∧ (∀ rows, err = some rows → ∀ v ∈ rows.flatten, |v| ≤ m) ∧
      (0 < m → ∃ rows, err = some rows ∧ ∃ v ∈ rows.flatten, |v| = m) := by
  cases err with
  | none => exact ⟨0, rfl, le_rfl, nofun, fun h => absurd h (lt_irrefl _)⟩
  | some rows =>
    obtain ⟨m, h1, h2, h3⟩ := seqMax_spec (l := rows.flatten.map fun v => |v|) (by simpa using h rows rfl)
    obtain ⟨v, hv, rfl⟩ := List.mem_map.1 h2
    refine ⟨|v|, h1, abs_nonneg _, ?_, fun _ => ⟨rows, rfl, v, hv, rfl⟩⟩
    intro rows' hr u hu
    cases hr
    exact h3 _ (List.mem_map.2 ⟨u, hu, rfl⟩)

/-- Largest entry over the segments of a phase. -/
theorem maxResidual_spec {errs : List (SegResidual K)} (hne : errs ≠ [])
    (h : ∀ rows, some rows ∈ errs → rows.flatten ≠ []) :
    ∃ ms m, errs.mapM absMax = .ok ms ∧ ms.length = errs.length ∧ maxResidual errs = .ok m ∧ 0 ≤ m ∧
      (∀ rows, some rows ∈ errs → ∀ v ∈ rows.flatten, |v| ≤ m) ∧
      (0 < m → ∃ rows, some rows ∈ errs ∧ ∃ v ∈ rows.flatten, |v| = m) := by
  obtain ⟨ms, hms⟩ := mapM_succeeds (f := absMax) (l := errs) fun err herr => by
    obtain ⟨m, hm, -⟩ := absMax_spec (err := err) fun rows hr => h rows (hr ▸ herr)
    exact ⟨m, hm⟩
  obtain ⟨hl, hb⟩ := mapM_rows hms
  obtain ⟨m, h1, h2, h3⟩ := seqMax_spec (l := ms) (by
    intro h0; rw [h0] at hl; exact hne (List.length_eq_zero_iff.1 hl.symm))
  have hms' := hms
  rw [mapM_eq_ok] at hms
  obtain ⟨err, herr, hm⟩ := hb m h2
  obtain ⟨m', k1, k2, -, k4⟩ := absMax_spec (err := err) fun rows hr => h rows (hr ▸ herr)
  rw [hm] at k1; cases k1
  refine ⟨ms, m, hms', hl, ?_, k2, ?_, ?_⟩
  · unfold maxResidual
    rw [hms', py_bind_ok, h1]
  · intro rows hr v hv
    obtain ⟨i, hi, hie⟩ := List.getElem_of_mem hr
    have := (List.forall₂_iff_get.1 hms).2 i hi (by omega)
    obtain ⟨m'', j1, -, j3, -⟩ := absMax_spec (err := errs[i]) fun rows' hr' => h rows' (hr' ▸ List.getElem_mem hi)
    have e1 : ms[i]'(by omega) = m'' := by
      have e2 : absMax errs[i] = .ok (ms[i]'(by omega)) := this
      rw [j1] at e2; exact (Except.ok.inj e2).symm
    refine (j3 rows hie v hv).trans ?_
    rw [← e1]
    exact h3 _ (List.getElem_mem _)
  · intro hpos
    obtain ⟨rows, hr, hv⟩ := k4 hpos
    exact ⟨rows, hr ▸ herr, hv⟩

/-- The error of all phases as the loop accumulates it. -/
theorem foldErr_spec (l : List K) (a : K) :
    let m := l.foldl (fun e m => if e < m then m else e) a
    a ≤ m ∧ (∀ v ∈ l, v ≤ m) ∧ (m = a ∨ m ∈ l) := by
  induction l generalizing a with
  | nil => simp
  | cons b l ih =>
    simp only [List.foldl_cons]
    obtain ⟨h1, h2, h3⟩ := ih (if a < b then b else a)
    have hab : a ≤ (if a < b then b else a) ∧ b ≤ (if a < b then b else a) := by
      split
      · rename_i h; exact ⟨h.le, le_rfl⟩
      · rename_i h; exact ⟨le_rfl, not_lt.1 h⟩
    refine ⟨hab.1.trans h1, fun v hv => ?_, ?_⟩
    · rcases List.mem_cons.1 hv with rfl | hv
      · exact hab.2.trans h1
      · exact h2 v hv
    · rcases h3 with h3 | h3
      · rw [h3]
        split
        · exact Or.inr (by simp)
        · exact Or.inl rfl
      · exact Or.inr (List.mem_cons_of_mem _ h3)

/-- What the residual function returns for a solution with sensible widths: per phase one residual per segment;
their entries are the scaled defects at the check points. -/
theorem Solved.Ready.residual_table (h : e.Ready M) (hlt : M.tau0 < M.tau1)
    (hg : e.gridType = List.replicate e.disc.ocp.nPhases "fixed")
    (hw : ∀ ph < e.disc.ocp.nPhases, (∀ v ∈ e.phaseWidths ph, 0 < v) ∧ (e.phaseWidths ph).sum = 1)
    (hnx : 0 < e.disc.ocp.nx) :
    ∃ res, e.dynResiduals none none false = .ok res ∧ res.length = e.disc.ocp.nPhases ∧
      ∀ ph < e.disc.ocp.nPhases, ∃ errs, (res.map (·.2))[ph]? = some errs ∧ errs.length = M.orders.length ∧
        (∀ rows, some rows ∈ errs → rows.flatten ≠ []) ∧
        ∀ v, (∃ rows, some rows ∈ errs ∧ v ∈ rows.flatten) ↔ ChecksTo e.disc.ocp M e.traj e.fixedCount ph v := by
  have hgrid : ∀ ph, ∃ g F, ph < e.disc.ocp.nPhases → e.residualGrid ph (some "fixed") = .ok (some g) ∧
      g.length = M.orders.length ∧ e.disc.ocp.dynamics[ph]? = some F ∧
      ∀ s < M.orders.length, ∀ tau, tau ∈ g.getD s [] ↔ CheckPoint M e.traj e.fixedCount ph s tau := by
    intro ph
    by_cases hp : ph < e.disc.ocp.nPhases
    · obtain ⟨g, h1, h2, h3⟩ := h.grid_checkPoint hlt hp (hw ph hp).1 (hw ph hp).2
      exact ⟨g, e.disc.ocp.dynamics[ph]'(by rw [h.valid.dynamics]; exact hp), fun _ =>
        ⟨h1, h2, List.getElem?_eq_getElem _, h3⟩⟩
    · exact ⟨[], ⟨0, fun _ _ => 0⟩, fun hh => absurd hh hp⟩
  choose g F hgF using hgrid
  let errs : Nat → List (SegResidual K) := fun ph => (List.range M.orders.length).map fun s =>
    if ((g ph).getD s []).length = 0 then none else
      some (((g ph).getD s []).map fun tau => (List.range e.disc.ocp.nx).map fun j =>
        e.disc.ocp.scaleX.getD j 0 * e.disc.ocp.defect M e.traj (F ph) ph s tau j)
  have hok : e.dynResiduals none none false = .ok ((List.range e.disc.ocp.nPhases).map fun ph =>
      ((List.range M.orders.length).map fun s => ((g ph).getD s []).map (M.time e.traj ph s), errs ph)) := by
    rw [C30_uses_phase_zero_type e false "fixed"
      (by rw [hg, List.getElem?_replicate, if_pos h.valid.phases]) h.valid.phases]
    apply mapM_ok
    intro ph hp
    have hp : ph < e.disc.ocp.nPhases := by simpa using hp
    obtain ⟨g1, g2, g3, -⟩ := hgF ph hp
    simp only [g1, py_bind_ok, phaseResult]
    rw [h.dynPhase_spec hp g2 g3]
    rfl
  refine ⟨_, hok, by simp, fun ph hp => ⟨errs ph, ?_, by simp [errs], ?_, ?_⟩⟩
  · rw [List.map_map, List.getElem?_map, List.getElem?_range hp]
    rfl
  · intro rows hr
    obtain ⟨s, -, hs⟩ := List.mem_map.1 hr
    split at hs
    · cases hs
    · rename_i hlen
      cases hs
      obtain ⟨tau, l, hl⟩ := List.exists_cons_of_ne_nil (l := (g ph).getD s []) (fun h0 => hlen (by rw [h0]; rfl))
      obtain ⟨k, hk⟩ : ∃ k, e.disc.ocp.nx = k + 1 := ⟨_, (Nat.succ_pred hnx.ne').symm⟩
      rw [hl, hk, List.range_succ_eq_map]
      simp
  · obtain ⟨-, -, g3, g4⟩ := hgF ph hp
    intro v
    constructor
    · rintro ⟨rows, hr, hv⟩
      obtain ⟨s, hs, hse⟩ := List.mem_map.1 hr
      have hs : s < M.orders.length := by simpa using hs
      split at hse
      · cases hse
      · cases hse
        obtain ⟨row, hrow, hv⟩ := List.mem_flatten.1 hv
        obtain ⟨tau, ht, rfl⟩ := List.mem_map.1 hrow
        obtain ⟨j, hj, rfl⟩ := List.mem_map.1 hv
        exact ⟨F ph, s, tau, j, g3, (g4 s hs tau).1 ht, by simpa using hj, rfl⟩
    · rintro ⟨F', s, tau, j, hF, hc, hj, rfl⟩
      rw [g3] at hF
      cases hF
      have ht := (g4 s hc.segment tau).2 hc
      refine ⟨_, List.mem_map.2 ⟨s, by simpa using hc.segment, if_neg ?_⟩, ?_⟩
      · intro h0
        rw [List.length_eq_zero_iff.1 h0] at ht
        cases ht
      · exact List.mem_flatten.2 ⟨_, List.mem_map.2 ⟨tau, ht, rfl⟩, List.mem_map.2 ⟨j, by simpa using hj, rfl⟩⟩

end MPOpt
