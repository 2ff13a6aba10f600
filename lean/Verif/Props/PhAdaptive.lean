import Mathlib.Tactic.Linarith
import Mathlib.Tactic.Ring
import Mathlib.Tactic.FieldSimp
import Verif.Model.PhAdaptive
import Verif.Props.CompositeQuad

/-! # C41 Limits of `mpopt_ph_adaptive`, `solve_ph` -/

set_option autoImplicit false

namespace MPOpt
variable {K : Type} [Field K]

theorem foldl_min_spec (l : List Nat) (a : Nat) :
    (∀ p ∈ a :: l, l.foldl min a ≤ p) ∧ l.foldl min a ∈ a :: l := by
  induction l generalizing a with
  | nil => simp
  | cons b l ih =>
    obtain ⟨h1, h2⟩ := ih (min a b)
    simp only [List.foldl_cons]
    constructor
    · intro p hp
      have hm := h1 (min a b) (by simp)
      rcases List.mem_cons.1 hp with rfl | hp
      · omega
      · rcases List.mem_cons.1 hp with rfl | hp
        · omega
        · exact h1 p (by simp [hp])
    · rcases List.mem_cons.1 h2 with h2 | h2
      · rw [h2]
        rcases Nat.le_total a b with h | h
        · simp [Nat.min_eq_left h]
        · simp [Nat.min_eq_right h]
      · simp [h2]

theorem foldl_max_spec (l : List Nat) (a : Nat) :
    (∀ p ∈ a :: l, p ≤ l.foldl max a) ∧ l.foldl max a ∈ a :: l := by
  induction l generalizing a with
  | nil => simp
  | cons b l ih =>
    obtain ⟨h1, h2⟩ := ih (max a b)
    simp only [List.foldl_cons]
    constructor
    · intro p hp
      have hm := h1 (max a b) (by simp)
      rcases List.mem_cons.1 hp with rfl | hp
      · omega
      · rcases List.mem_cons.1 hp with rfl | hp
        · omega
        · exact h1 p (by simp [hp])
    · rcases List.mem_cons.1 h2 with h2 | h2
      · rw [h2]
        rcases Nat.le_total a b with h | h
        · simp [Nat.max_eq_right h]
        · simp [Nat.max_eq_left h]
      · simp [h2]

/-- The orders a constructor call asks for. -/
def PhArgs.orders (a : PhArgs K) : List Nat :=
  match a.polyOrders with
  | .int p => List.replicate a.nSegments p
  | .list l => l

/-- **C41** The constructor returns exactly when there is one order per segment and at least one segment. -/
theorem C41_constructs_iff (nPhases : Nat) (a : PhArgs K) :
    (∃ o, mkPh nPhases a = .ok o) ↔ a.orders.length = a.nSegments ∧ a.nSegments ≠ 0 := by
  have e : initOrders a.nSegments a.polyOrders =
      (pyAssert (a.orders.length == a.nSegments) >>= fun _ => pure (a.orders, a.orders.sum + 1)) := by
    unfold initOrders PhArgs.orders; cases a.polyOrders <;> rfl
  unfold mkPh
  rw [e]
  by_cases hl : a.orders.length = a.nSegments
  · have hb : (a.orders.length == a.nSegments) = true := by simpa using hl
    simp only [pyAssert, hb, if_true, py_bind_ok]
    cases ho : a.orders with
    | nil =>
      rw [ho] at hl
      have : pyMin ([] : List Nat) = .error .value := rfl
      simp only [List.length_nil] at hl
      constructor
      · rintro ⟨o, h⟩
        rw [show (pure (([] : List Nat), ([] : List Nat).sum + 1) : Py (List Nat × Nat)) =
          .ok ([], 1) from rfl, py_bind_ok] at h
        simp only [this] at h
        cases h
      · intro h; exact absurd hl.symm h.2
    | cons p l =>
      rw [ho] at hl
      have hb' : ((p :: l).length == a.nSegments) = true := by simpa using hl
      constructor
      · exact fun _ => ⟨hl, by rw [← hl]; simp⟩
      · intro _
        rw [show (pure (p :: l, (p :: l).sum + 1) : Py (List Nat × Nat)) =
          .ok (p :: l, (p :: l).sum + 1) from rfl, py_bind_ok]
        simp only [pyMin, pyMax, py_bind_ok, hb', if_true]
        exact ⟨_, rfl⟩
  · have hb : (a.orders.length == a.nSegments) = false := by simpa using hl
    simp only [pyAssert, hb]
    constructor
    · rintro ⟨o, h⟩; cases h
    · intro h; exact absurd h.1 hl

/-- **C41** After construction every order is within `[poly_order_min, poly_order_max]` and the number of
segments within `[seg_min, seg_max]`; the limits are the requested ones, widened only as far as the orders
and the number of segments need. -/
theorem C41_limits {nPhases : Nat} {a : PhArgs K} {o : PhObj K} (h : mkPh nPhases a = .ok o) :
    o.orders = a.orders ∧ o.nSegments = a.nSegments ∧
    (∀ p ∈ o.orders, o.polyMin ≤ (p : Int) ∧ (p : Int) ≤ o.polyMax) ∧
    (o.minSegments ≤ (o.nSegments : Int) ∧ (o.nSegments : Int) ≤ o.maxSegments) ∧
    (o.polyMin = a.polyMin ∨ o.polyMin < a.polyMin ∧ ∃ p ∈ o.orders, o.polyMin = (p : Int)) ∧
    (o.polyMax = a.polyMax ∨ a.polyMax < o.polyMax ∧ ∃ p ∈ o.orders, o.polyMax = (p : Int)) ∧
    (o.minSegments = min a.segMin a.nSegments ∧ o.maxSegments = max a.segMax a.nSegments) := by
  obtain ⟨hl, -⟩ := (C41_constructs_iff nPhases a).1 ⟨o, h⟩
  have e : initOrders a.nSegments a.polyOrders =
      (pyAssert (a.orders.length == a.nSegments) >>= fun _ => pure (a.orders, a.orders.sum + 1)) := by
    unfold initOrders PhArgs.orders; cases a.polyOrders <;> rfl
  unfold mkPh at h
  rw [e] at h
  have hb : (a.orders.length == a.nSegments) = true := by simpa using hl
  simp only [pyAssert, hb, if_true, py_bind_ok] at h
  rw [show (pure (a.orders, a.orders.sum + 1) : Py (List Nat × Nat)) = .ok (a.orders, a.orders.sum + 1)
    from rfl, py_bind_ok] at h
  simp only [py_bind_eq_ok, py_pure_eq_ok] at h
  obtain ⟨mn, hmn, mx, hmx, _, _, rfl⟩ := h
  cases ho : a.orders with
  | nil => rw [ho] at hmn; cases hmn
  | cons p l =>
    rw [ho] at hmn hmx
    simp only [pyMin, pyMax, Except.ok.injEq] at hmn hmx
    obtain ⟨n1, n2⟩ := foldl_min_spec l p
    obtain ⟨x1, x2⟩ := foldl_max_spec l p
    rw [hmn] at n1 n2
    rw [hmx] at x1 x2
    refine ⟨rfl, rfl, fun q hq => ?_, ⟨?_, ?_⟩, ?_, ?_, ?_, ?_⟩
    · have a1 := n1 q hq
      have a2 := x1 q hq
      constructor <;> dsimp only <;> split <;> omega
    · dsimp only; split <;> omega
    · dsimp only; split <;> omega
    · dsimp only
      split
      · exact Or.inr ⟨by omega, mn, n2, rfl⟩
      · exact Or.inl rfl
    · dsimp only
      split
      · exact Or.inr ⟨by omega, mx, x2, rfl⟩
      · exact Or.inl rfl
    · dsimp only; split <;> omega
    · dsimp only; split <;> omega

/-- **C41** Saturation keeps orders in range, does not change orders that are in range, and keeps the
number of orders; it works even if the requested limits were contradictory. -/
theorem C41_saturation {nPhases : Nat} {a : PhArgs K} {o : PhObj K} (h : mkPh nPhases a = .ok o)
    (orders : List Int) : (o.limitOrders orders).length = orders.length ∧
      (∀ p ∈ o.limitOrders orders, o.polyMin ≤ p ∧ p ≤ o.polyMax) ∧
      ((∀ p ∈ orders, o.polyMin ≤ p ∧ p ≤ o.polyMax) → o.limitOrders orders = orders) := by
  obtain ⟨ho, -, hr, -⟩ := C41_limits h
  have hle : o.polyMin ≤ o.polyMax := by
    obtain ⟨hl, h0⟩ := (C41_constructs_iff nPhases a).1 ⟨o, h⟩
    have : o.orders ≠ [] := by
      rw [ho]; intro e; rw [e] at hl; exact h0 hl.symm
    obtain ⟨p, hp⟩ := List.exists_mem_of_ne_nil _ this
    have := hr p hp
    omega
  refine ⟨by simp [PhObj.limitOrders], fun p hp => ?_, fun hin => ?_⟩
  · obtain ⟨q, -, rfl⟩ := List.mem_map.1 hp
    omega
  · unfold PhObj.limitOrders
    conv_rhs => rw [← List.map_id orders]
    apply List.map_congr_left
    intro p hp
    have := hin p hp
    simp only [id]
    omega

omit [Field K] in
/-- **C41 is false about `solve_ph`**: it raises `UnboundLocalError` for every object and every remainder
of the body. -/
theorem C41_solve_ph_false {S : Type} (o : PhObj K) (rest : String → Py S) :
    o.solvePh rest = .error .unboundLocal := rfl

/-! ### `get_abs_max_residual` -/

variable [LinearOrder K]

omit [Field K] in
theorem maxFrom_spec (best : Nat × K) (i : Nat) (l : List K) :
    best.2 ≤ (maxFrom best i l).2 ∧ (∀ v ∈ l, v ≤ (maxFrom best i l).2) ∧
    (maxFrom best i l = best ∨ ∃ k v, l[k]? = some v ∧ maxFrom best i l = (i + k, v) ∧ best.2 < v ∧
      ∀ k' < k, ∀ v', l[k']? = some v' → v' < v) := by
  induction l generalizing best i with
  | nil => exact ⟨le_refl _, by simp, Or.inl rfl⟩
  | cons a l ih =>
    rw [maxFrom]
    by_cases h : best.2 < a
    · rw [if_pos h]
      obtain ⟨h1, h2, h3⟩ := ih (i, a) (i + 1)
      simp only at h1
      refine ⟨h.le.trans h1, ?_, Or.inr ?_⟩
      · intro v hv
        rcases List.mem_cons.1 hv with rfl | hv
        · exact h1
        · exact h2 v hv
      · rcases h3 with h3 | ⟨k, v, hk, h3, hlt, hfst⟩
        · exact ⟨0, a, rfl, h3, h, by simp⟩
        · refine ⟨k + 1, v, by simpa using hk, by rw [h3]; congr 1; omega, h.trans hlt, ?_⟩
          intro k' hk' v' hv'
          cases k' with
          | zero => simp only [List.getElem?_cons_zero, Option.some.injEq] at hv'; rw [← hv']; exact hlt
          | succ k' => exact hfst k' (by omega) v' (by simpa using hv')
    · rw [if_neg h]
      obtain ⟨h1, h2, h3⟩ := ih best (i + 1)
      refine ⟨h1, ?_, ?_⟩
      · intro v hv
        rcases List.mem_cons.1 hv with rfl | hv
        · exact (not_lt.1 h).trans h1
        · exact h2 v hv
      · rcases h3 with h3 | ⟨k, v, hk, h3, hlt, hfst⟩
        · exact Or.inl h3
        · refine Or.inr ⟨k + 1, v, by simpa using hk, by rw [h3]; congr 1; omega, hlt, ?_⟩
          intro k' hk' v' hv'
          cases k' with
          | zero =>
            simp only [List.getElem?_cons_zero, Option.some.injEq] at hv'
            rw [← hv']; exact (not_lt.1 h).trans_lt hlt
          | succ k' => exact hfst k' (by omega) v' (by simpa using hv')

/-- One column: the value is the largest absolute value, the index its first position. -/
theorem absMaxCol_spec {col : List K} (h : col ≠ []) : ∃ i v, absMaxCol col = .ok (i, |v|) ∧
    col[i]? = some v ∧ (∀ w ∈ col, |w| ≤ |v|) ∧ ∀ k < i, ∀ w, col[k]? = some w → |w| < |v| := by
  cases col with
  | nil => exact absurd rfl h
  | cons a l =>
    obtain ⟨h1, h2, h3⟩ := maxFrom_spec (0, |a|) 1 (l.map fun v => |v|)
    simp only at h1
    rcases h3 with h3 | ⟨k, v, hk, h3, hlt, hfst⟩
    · refine ⟨0, a, by rw [absMaxCol, h3], rfl, fun w hw => ?_, by simp⟩
      rcases List.mem_cons.1 hw with rfl | hw
      · exact le_refl _
      · have := h2 |w| (List.mem_map.2 ⟨w, hw, rfl⟩)
        rw [h3] at this; exact this
    · rw [List.getElem?_map, Option.map_eq_some_iff] at hk
      obtain ⟨w, hw, rfl⟩ := hk
      rw [h3] at h1 h2
      refine ⟨1 + k, w, by rw [absMaxCol, h3], by rw [Nat.add_comm]; simpa using hw, fun u hu => ?_, ?_⟩
      · rcases List.mem_cons.1 hu with rfl | hu
        · exact h1
        · exact h2 |u| (List.mem_map.2 ⟨u, hu, rfl⟩)
      · intro k' hk' u hu
        cases k' with
        | zero => simp only [List.getElem?_cons_zero, Option.some.injEq] at hu; rw [← hu]; exact hlt
        | succ k' =>
          refine hfst k' (by omega) |u| ?_
          rw [List.getElem?_map]
          simp only [List.getElem?_cons_succ] at hu
          rw [hu]; rfl

/-- **C51** `get_abs_max_residual`: for every phase, segment and state it returns the largest absolute
residual of that segment and the first position where it occurs. -/
theorem C51_abs_max_residual (nx : Nat) (residual : List (List (SegResidual K)))
    (h : ∀ phase ∈ residual, ∀ seg ∈ phase, ∃ rows, seg = some rows ∧ rows ≠ []) :
    ∃ R, absMaxResidual nx residual = .ok R ∧ R.length = residual.length ∧
      ∀ (ph : Nat) phase, residual[ph]? = some phase → ∃ Rp, R[ph]? = some Rp ∧ Rp.length = phase.length ∧
        ∀ (s : Nat) rows, phase[s]? = some (some rows) → ∃ Rs, Rp[s]? = some Rs ∧ Rs.length = nx ∧
          ∀ j < nx, ∃ (i : Nat) (row : List K), rows[i]? = some row ∧
            Rs[j]? = some (i, |row.getD j 0|) ∧
            (∀ r ∈ rows, |r.getD j 0| ≤ |row.getD j 0|) ∧
            ∀ k < i, ∀ r, rows[k]? = some r → |r.getD j 0| < |row.getD j 0| := by
  let colOf := fun (rows : List (List K)) (j : Nat) => rows.map fun row => row.getD j 0
  let segOf := fun (seg : SegResidual K) => (List.range nx).map fun j =>
    match absMaxCol (colOf (seg.getD []) j) with
    | .ok v => v
    | .error _ => (0, 0)
  have hseg : ∀ phase ∈ residual, ∀ seg ∈ phase, (match seg with
      | none => .error .type
      | some rows => (List.range nx).mapM fun j => absMaxCol (rows.map fun row => row.getD j 0) :
        Py (List (Nat × K))) = .ok (segOf seg) := by
    intro phase hp seg hs
    obtain ⟨rows, rfl, hne⟩ := h phase hp seg hs
    apply mapM_ok
    intro j _
    obtain ⟨i, v, e, -⟩ := absMaxCol_spec (col := colOf rows j) (by simpa [colOf] using hne)
    simp only [Option.getD_some]
    rw [show (rows.map fun row => row.getD j 0) = colOf rows j from rfl, e]
  have key : absMaxResidual nx residual = .ok (residual.map fun phase => phase.map segOf) := by
    unfold absMaxResidual
    apply mapM_ok
    intro phase hp
    exact mapM_ok _ _ _ (hseg phase hp)
  refine ⟨_, key, by simp, fun ph phase hph => ⟨phase.map segOf, by simp [hph], by simp,
    fun s rows hs => ⟨segOf (some rows), by simp [hs], by simp [segOf], fun j hj => ?_⟩⟩⟩
  obtain ⟨rows', e, hne⟩ := h phase (List.mem_of_getElem? hph) _ (List.mem_of_getElem? hs)
  cases e
  obtain ⟨i, v, e, hi, hmax, hfst⟩ := absMaxCol_spec (col := colOf rows j) (by simpa [colOf] using hne)
  simp only [colOf, List.getElem?_map, Option.map_eq_some_iff] at hi
  obtain ⟨row, hrow, rfl⟩ := hi
  refine ⟨i, row, hrow, ?_, fun r hr => hmax _ (List.mem_map.2 ⟨r, hr, rfl⟩), fun k hk r hr => ?_⟩
  · simp only [segOf, List.getElem?_map, List.getElem?_range hj, Option.map_some, Option.getD_some]
    rw [e]
  · exact hfst k hk _ (by simp [colOf, hr])

/-- **C51** A segment without points makes it raise. -/
theorem C51_empty_segment (nx : Nat) (phase : List (SegResidual K)) :
    absMaxResidual nx [none :: phase] = .error .type := rfl

/-! ### Mesh update (dead code) -/

omit [LinearOrder K] in
/-- Splitting keeps the total width of a phase (if 2 ≠ 0), keeps widths and orders in step, and adds one segment
per mark. -/
theorem C41_split {widths : List K} {orders : List Nat} {split : List Bool} (h2 : (2 : K) ≠ 0)
    (hw : widths.length = split.length) (ho : orders.length = split.length) (hne : split ≠ []) :
    ∃ w' o', phSplit widths orders split = .ok (w', o') ∧ w'.length = o'.length ∧
      w'.length = split.length + split.count true ∧ w'.sum = widths.sum ∧ ∀ p ∈ o', p ∈ orders := by
  let part := fun (si : Bool × Nat) => if si.1 then
    ([widths.getD si.2 0 / 2, widths.getD si.2 0 / 2], [orders.getD si.2 0, orders.getD si.2 0])
    else ([widths.getD si.2 0], [orders.getD si.2 0])
  have key : phSplit widths orders split = .ok (((split.zipIdx.map part).map (·.1)).flatten,
      ((split.zipIdx.map part).map (·.2)).flatten) := by
    unfold phSplit
    rw [mapM_ok _ part]
    · rw [py_bind_ok, if_neg (by simpa using hne)]; rfl
    · intro si hsi
      have hlt : si.2 < split.length := by
        have := List.mem_zipIdx_iff_getElem?.1 hsi
        exact (List.getElem?_eq_some_iff.1 this).1
      rw [pyIdx_ok (by omega), py_bind_ok, pyIdx_ok (by omega), py_bind_ok]
      simp only [part, List.getD_eq_getElem _ _ (show si.2 < widths.length by omega),
        List.getD_eq_getElem _ _ (show si.2 < orders.length by omega)]
      rfl
  refine ⟨_, _, key, ?_, ?_, ?_, ?_⟩
  · simp only [List.length_flatten, List.map_map]
    congr 1
    apply List.map_congr_left
    intro si _
    simp only [Function.comp, part]
    split <;> rfl
  · rw [List.length_flatten, List.map_map, List.map_map]
    have : ∀ (l : List Bool) (k : Nat), ((l.zipIdx k).map
        ((List.length ∘ fun x : List K × List Nat => x.1) ∘ part)).sum = l.length + l.count true := by
      intro l
      induction l with
      | nil => intro k; rfl
      | cons b l ih =>
        intro k
        rw [List.zipIdx_cons, List.map_cons, List.sum_cons, ih (k + 1)]
        cases b
        · simp [part]; omega
        · simp [part]; omega
    exact this split 0
  · rw [List.sum_flatten, List.map_map, List.map_map]
    have e : (split.zipIdx.map ((List.sum ∘ fun x : List K × List Nat => x.1) ∘ part)) = widths := by
      apply List.ext_getElem
      · simp [hw]
      · intro i h1 h2'
        have hi : i < split.length := by omega
        simp only [List.getElem_map, List.getElem_zipIdx, Function.comp, part, Nat.zero_add]
        rw [List.getD_eq_getElem _ _ h2']
        split
        · simp only [List.sum_cons, List.sum_nil, add_zero]
          field_simp
          ring
        · simp
    rw [e]
  · intro p hp
    simp only [List.mem_flatten, List.mem_map] at hp
    obtain ⟨l, ⟨_, ⟨si, hsi, rfl⟩, rfl⟩, hp⟩ := hp
    have hlt : si.2 < split.length := by
      have := List.mem_zipIdx_iff_getElem?.1 hsi
      exact (List.getElem?_eq_some_iff.1 this).1
    have hm : orders.getD si.2 0 ∈ orders := by
      rw [List.getD_eq_getElem _ _ (by omega)]; exact List.getElem_mem _
    simp only [part] at hp
    split at hp <;> simp at hp <;> rw [hp] <;> simpa using hm

/-- With two phases the update would keep only the last phase: two phases of two segments each give three
widths instead of at least four. -/
theorem C41_two_phases_lost : phMesh ([1/2, 1/2, 1/4, 3/4] : List ℚ) [3, 4]
    [[true, true], [true, false]] = .ok ([1/4, 1/4, 1/2], [3, 3, 4]) := by decide +kernel

/-! ### Examples -/

/-- Three segments of orders 2, 5, 20 with default limits. -/
def phArgsQ : PhArgs ℚ := { nSegments := 3, polyOrders := .list [2, 5, 20], maxResidual := 1 / 10000 }

example : ∃ o, mkPh 2 phArgsQ = .ok o ∧ o.polyMin = 2 ∧ o.polyMax = 20 ∧ o.minSegments = 1 ∧
    o.maxSegments = 20 ∧ o.limitOrders [1, 8, 23] = [2, 8, 20] ∧ o.gridType = ["spectral", "spectral"] :=
  ⟨_, rfl, by decide +kernel⟩

/-- Contradictory limits. -/
example : ∃ o, mkPh 1 { phArgsQ with polyMin := 10, polyMax := 4, segMin := 7, segMax := 2 } = .ok o ∧
    o.polyMin = 2 ∧ o.polyMax = 20 ∧ o.minSegments = 3 ∧ o.maxSegments = 3 ∧
    o.limitOrders [1, 8, 23] = [2, 8, 20] := ⟨_, rfl, by decide +kernel⟩

example : absMaxResidual 2 ([[some [[1, -2], [-3, 2], [3, 0]]]] : List (List (SegResidual ℚ))) =
    .ok [[[(1, 3), (0, 2)]]] := by decide +kernel

example : phSplit ([1/4, 3/4] : List ℚ) [3, 4] [false, true] = .ok ([1/4, 3/8, 3/8], [3, 4, 4]) := by
  decide +kernel

end MPOpt
