import Verif.Props.Plot
import Verif.Props.DefaultGrid

/-! # C71: the residuals in `plot_phases` -/

set_option autoImplicit false
set_option linter.unusedSectionVars false

namespace MPOpt

/-- Phases have the same number of points in all segments, the same for all phases; or each phase has segments with
different numbers of points. -/
def SameShape {K : Type} (grids : List (List (List K))) : Prop :=
  ∀ a ∈ grids, ∀ b ∈ grids, ∀ m, (∀ x ∈ a, x.length = m) → ∀ x ∈ b, x.length = m

section
variable {K : Type}

theorem flatten_flatMap' {A B : Type} (l : List A) (f : A → List (List B)) :
    (l.flatMap f).flatten = l.flatMap fun a => (f a).flatten := by
  induction l with
  | nil => rfl
  | cons a l ih => rw [List.flatMap_cons, List.flatten_append, ih, List.flatMap_cons]

theorem commonLength_eq_some {segs : List (List K)} {m : Nat} :
    commonLength segs = some m ↔ segs ≠ [] ∧ ∀ x ∈ segs, x.length = m := by
  cases segs with
  | nil => simp [commonLength]
  | cons s l =>
    unfold commonLength
    simp only
    by_cases h : l.all fun x => x.length == s.length
    · rw [if_pos h, Option.some.injEq]
      have h' : ∀ x ∈ l, x.length = s.length := by simpa using h
      constructor
      · rintro rfl
        refine ⟨by simp, fun x hx => ?_⟩
        rcases List.mem_cons.1 hx with rfl | hx
        · rfl
        · exact h' x hx
      · rintro ⟨-, h2⟩
        exact h2 s (by simp)
    · rw [if_neg h]
      constructor
      · intro hh; cases hh
      · rintro ⟨-, h2⟩
        refine absurd ?_ h
        rw [List.all_eq_true]
        intro x hx
        rw [h2 x (by simp [hx]), h2 s (by simp)]
        simp

theorem stackTimes_eq {time : List (List (List K))} (hne : time ≠ []) (hseg : ∀ p ∈ time, p ≠ []) [Decidable (SameShape time)] :
    stackTimes time = if SameShape time then .ok time.flatten.flatten else .error .value := by
  obtain ⟨p, l, rfl⟩ := List.exists_cons_of_ne_nil hne
  unfold stackTimes
  simp only
  have hiff : (l.all fun q => commonLength q == commonLength p) = true ↔ SameShape (p :: l) := by
    rw [List.all_eq_true]
    constructor
    · intro h a ha b hb m hm
      have hc : ∀ q ∈ p :: l, commonLength q = commonLength p := by
        intro q hq
        rcases List.mem_cons.1 hq with rfl | hq
        · rfl
        · simpa using h q hq
      have := commonLength_eq_some.2 ⟨hseg a ha, hm⟩
      rw [hc a ha, ← hc b hb] at this
      exact (commonLength_eq_some.1 this).2
    · intro h q hq
      have hp := hseg p (by simp)
      have hq' := hseg q (by simp [hq])
      rw [beq_iff_eq]
      apply Option.ext
      intro m
      constructor
      · intro hm
        exact commonLength_eq_some.2 ⟨hp, h q (by simp [hq]) p (by simp) m (commonLength_eq_some.1 hm).2⟩
      · intro hm
        exact commonLength_eq_some.2 ⟨hq', h p (by simp) q (by simp [hq]) m (commonLength_eq_some.1 hm).2⟩
  by_cases h : SameShape (p :: l)
  · rw [if_pos h, if_pos (hiff.2 h)]
  · rw [if_neg h, if_neg fun hh => h (hiff.1 hh)]

/-- Rows put together. -/
theorem concatRows_ok [Zero K] {segs : List (List (List K))} {n : Nat} (h1 : segs.flatten ≠ [])
    (hn : ∀ r ∈ segs.flatten, r.length = n) :
    ∃ A, concatRows segs = .ok A ∧ A.rows = segs.flatten.length ∧ A.cols = n ∧
      ∀ j, A.column j = segs.flatten.map fun r => r.getD j 0 := by
  have hs : segs ≠ [] := by rintro rfl; exact h1 rfl
  have hhead : (segs.flatten.headD []).length = n := by
    obtain ⟨a, l, hal⟩ := List.exists_cons_of_ne_nil h1
    rw [hal]
    exact hn a (by rw [hal]; simp)
  refine ⟨⟨segs.flatten.length, n, fun i j => (segs.flatten.getD i []).getD j 0⟩, ?_, rfl, rfl, fun j => ?_⟩
  · unfold concatRows npConcat
    rw [if_neg (by simpa using hs), py_bind_ok]
    simp only [hhead]
    rw [if_pos]
    · rfl
    · rw [List.all_eq_true]
      intro r hr
      simpa using hn r hr
  · unfold Mat.column
    apply List.ext_getElem (by rw [List.length_map, List.length_map, List.length_range])
    intro i h2 h3
    have hi : i < segs.flatten.length := by simpa using h2
    simp only [List.getElem_map, List.getElem_range]
    rw [List.getD_eq_getElem _ _ hi]

/-- Rows of segments given point by point. -/
def segRows (row : K → List K) (pts : List K) : SegResidual K :=
  if pts.length = 0 then none else some (pts.map row)

theorem segRows_getD (row : K → List K) (pts : List K) : (segRows row pts).getD [] = pts.map row := by
  unfold segRows
  split
  · rename_i h
    rw [List.length_eq_zero_iff.1 h]; rfl
  · rfl

theorem filterMap_segRows (row : Nat → K → List K) (pts : Nat → List K) (l : List Nat) :
    ((l.map fun s => segRows (row s) (pts s)).filterMap id).flatten = l.flatMap fun s => (pts s).map (row s) := by
  induction l with
  | nil => rfl
  | cons s l ih =>
    rw [List.map_cons, List.flatMap_cons, ← ih, ← segRows_getD (row s)]
    cases hc : segRows (row s) (pts s) with
    | none => simp
    | some v => simp

theorem filterMap_ne_nil {row : Nat → K → List K} {pts : Nat → List K} {l : List Nat}
    (h : (l.flatMap fun s => (pts s).map (row s)) ≠ []) :
    (l.map fun s => segRows (row s) (pts s)).filterMap id ≠ [] := by
  rw [← filterMap_segRows] at h
  rintro hh
  rw [hh] at h
  exact h rfl

end

section
variable {K : Type} [Field K] [LinearOrder K] {e : Solved K} {M : Mesh K}

/-- Times of the points `pts ph s`, phase by phase. -/
def Mesh.allTimes (M : Mesh K) (T : Traj K) (n : Nat) (pts : Nat → Nat → List K) : List K :=
  (List.range n).flatMap fun ph => (List.range M.orders.length).flatMap fun s => (pts ph s).map (M.time T ph s)

/-- Values at these points. -/
def Mesh.allValues (M : Mesh K) (n : Nat) (pts : Nat → Nat → List K) (v : Nat → Nat → K → K) : List K :=
  (List.range n).flatMap fun ph => (List.range M.orders.length).flatMap fun s => (pts ph s).map (v ph s)

theorem residRows_ok {n nx : Nat} {pts : Nat → Nat → List K} (v : Nat → Nat → K → Nat → K)
    (hp : 0 < n) (hpt : ∀ ph < n, ∃ s < M.orders.length, pts ph s ≠ []) :
    (∃ A, residRows ((List.range n).map fun ph => (List.range M.orders.length).map fun s =>
        segRows (fun tau => (List.range nx).map (v ph s tau)) (pts ph s)) = .ok A ∧ A.cols = nx ∧
      (∀ T : Traj K, (M.allTimes T n pts).length = A.rows) ∧
      ∀ j < nx, A.column j = M.allValues n pts fun ph s tau => v ph s tau j) ∧
    ∃ A, residRowsByPhase ((List.range n).map fun ph => (List.range M.orders.length).map fun s =>
        segRows (fun tau => (List.range nx).map (v ph s tau)) (pts ph s)) = .ok A ∧ A.cols = nx ∧
      (∀ T : Traj K, (M.allTimes T n pts).length = A.rows) ∧
      ∀ j < nx, A.column j = M.allValues n pts fun ph s tau => v ph s tau j := by
  set R : Nat → List (List K) := fun ph => (List.range M.orders.length).flatMap fun s =>
    (pts ph s).map fun tau => (List.range nx).map (v ph s tau) with hR
  have hRne : ∀ ph < n, R ph ≠ [] := by
    intro ph hph
    obtain ⟨s, hs, hne⟩ := hpt ph hph
    obtain ⟨x, l, hx⟩ := List.exists_cons_of_ne_nil hne
    apply List.ne_nil_of_mem (a := (List.range nx).map (v ph s x))
    exact List.mem_flatMap.2 ⟨s, by simpa using hs, List.mem_map.2 ⟨x, by rw [hx]; simp, rfl⟩⟩
  have hfl : ((List.range n).flatMap R) ≠ [] := by
    obtain ⟨a, l, ha⟩ := List.exists_cons_of_ne_nil (hRne 0 hp)
    apply List.ne_nil_of_mem (a := a)
    exact List.mem_flatMap.2 ⟨0, by simpa using hp, by rw [ha]; simp⟩
  have hrow : ∀ r ∈ (List.range n).flatMap R, r.length = nx := by
    intro r hr
    obtain ⟨ph, -, hr⟩ := List.mem_flatMap.1 hr
    obtain ⟨s, -, hr⟩ := List.mem_flatMap.1 hr
    obtain ⟨tau, -, rfl⟩ := List.mem_map.1 hr
    simp
  have hlen : ∀ T : Traj K, (M.allTimes T n pts).length = ((List.range n).flatMap R).length := by
    intro T
    unfold Mesh.allTimes
    rw [List.length_flatMap, List.length_flatMap]
    congr 1
    apply List.map_congr_left
    intro ph _
    rw [hR, List.length_flatMap, List.length_flatMap]
    simp
  have hcol : ∀ j < nx, ((List.range n).flatMap R).map (fun r => r.getD j 0) =
      M.allValues n pts fun ph s tau => v ph s tau j := by
    intro j hj
    unfold Mesh.allValues
    rw [List.map_flatMap]
    refine List.flatMap_congr fun ph _ => ?_
    rw [hR, List.map_flatMap]
    refine List.flatMap_congr fun s _ => ?_
    rw [List.map_map]
    exact List.map_congr_left fun tau _ => getD_map_range _ _ _ hj
  have fm : ∀ ph, ((((List.range M.orders.length).map fun s =>
      segRows (fun tau => (List.range nx).map (v ph s tau)) (pts ph s)).filterMap id).flatten) = R ph := fun ph =>
    filterMap_segRows (fun s tau => (List.range nx).map (v ph s tau)) (pts ph) _
  constructor
  · have key : (((List.range n).map fun ph => (List.range M.orders.length).map fun s =>
        segRows (fun tau => (List.range nx).map (v ph s tau)) (pts ph s)).flatMap fun p => p.filterMap id).flatten =
        (List.range n).flatMap R := by
      rw [List.flatMap_map, flatten_flatMap']
      exact List.flatMap_congr fun ph _ => fm ph
    obtain ⟨A, h1, h2, h3, h4⟩ := concatRows_ok (n := nx) (segs := ((List.range n).map fun ph =>
        (List.range M.orders.length).map fun s =>
        segRows (fun tau => (List.range nx).map (v ph s tau)) (pts ph s)).flatMap fun p => p.filterMap id)
        (by rw [key]; exact hfl) (by rw [key]; exact hrow)
    rw [key] at h2 h4
    exact ⟨A, h1, h3, fun T => by rw [hlen T, h2], fun j hj => by rw [h4, hcol j hj]⟩
  · have hm : ((List.range n).map fun ph => (List.range M.orders.length).map fun s =>
        segRows (fun tau => (List.range nx).map (v ph s tau)) (pts ph s)).mapM
          (fun p => npConcat (p.filterMap id)) = .ok ((List.range n).map R) := by
      rw [List.mapM_map]
      apply mapM_ok
      intro ph hph
      have hph : ph < n := by simpa using hph
      have h1 := fm ph
      simp only [Function.comp_apply]
      unfold npConcat
      rw [if_neg, h1]
      intro hh
      rw [List.isEmpty_iff.1 hh] at h1
      exact hRne ph hph h1.symm
    obtain ⟨A, h1, h2, h3, h4⟩ := concatRows_ok (n := nx) (segs := (List.range n).map R)
        (by rw [← List.flatMap_def]; exact hfl) (by rw [← List.flatMap_def]; exact hrow)
    rw [← List.flatMap_def] at h2 h4
    refine ⟨A, ?_, h3, fun T => by rw [hlen T, h2], fun j hj => by rw [h4, hcol j hj]⟩
    unfold residRowsByPhase
    rw [hm, py_bind_ok, h1]

/-- Axes with one line per component. -/
def residAxes (t : List K) (y : Nat → List K) (n : Nat) (name : String) (ylabel : String) (xlabel : Option String) :
    Axes K :=
  ⟨(List.range n).map fun j => ⟨t, y j, ".", fromOne name j⟩, xlabel, some ylabel, true⟩

theorem plotCurve_resid {A : Mat K} {t : List K} {y : Nat → List K} {n : Nat} (hc : A.cols = n) (ht : t.length = A.rows)
    (hy : ∀ j < n, A.column j = y j) (hn : n ≤ 15) (name ylabel : String) :
    plotCurve .empty A t (some name) (some ylabel) (dots 15) none = .ok (residAxes t y n name ylabel none) := by
  rw [plotCurve_ok .empty _ _ ht (by rw [hc]; simpa [dots] using hn) (by intro l hl; cases hl), hc]
  show Except.ok _ = Except.ok _
  congr 1
  unfold residAxes
  congr 1
  rw [show (Axes.empty : Axes K).curves = [] from rfl, List.nil_append]
  apply List.map_congr_left
  intro j hj
  have hj : j < n := by simpa using hj
  rw [hy j hj, dots, getD_replicate_of_lt (by omega)]
  rfl

variable {grids : List (List (List K))}

theorem stackTimes_mesh (T : Traj K) (hM : M.Good) (hp : 0 < e.disc.ocp.nPhases)
    (hn : GridShape M e.disc.ocp.nPhases grids) [Decidable (SameShape grids)] :
    stackTimes ((List.range e.disc.ocp.nPhases).map fun ph => (List.range M.orders.length).map fun s =>
      ((grids.getD ph []).getD s []).map (M.time T ph s)) =
      if SameShape grids then .ok (M.allTimes T e.disc.ocp.nPhases fun ph s => (grids.getD ph []).getD s [])
      else .error .value := by
  classical
  have hseg : 0 < M.orders.length := List.length_pos_iff.2 hM.nonempty
  have hlen : ∀ ph < e.disc.ocp.nPhases, ((List.range M.orders.length).map fun s =>
      ((grids.getD ph []).getD s []).map (M.time T ph s)).map List.length = (grids.getD ph []).map List.length := by
    intro ph hph
    have hl : ph < grids.length := by rw [hn.1]; exact hph
    have hg : (grids.getD ph []).length = M.orders.length := by
      rw [List.getD_eq_getElem _ _ hl]; exact hn.2 _ (List.getElem_mem hl)
    apply List.ext_getElem (by rw [List.length_map, List.length_map, List.length_map, List.length_range, hg])
    intro i h1 h2
    have hi : i < (grids.getD ph []).length := by simpa using h2
    simp only [List.getElem_map, List.getElem_range, List.length_map]
    rw [List.getD_eq_getElem _ _ hi]
  have hall : ∀ (l : List (List K)) (m : Nat), (∀ x ∈ l, x.length = m) ↔ ∀ k ∈ l.map List.length, k = m := by
    intro l m; simp
  have hmem : ∀ g, g ∈ grids ↔ ∃ ph < e.disc.ocp.nPhases, grids.getD ph [] = g := by
    intro g
    constructor
    · intro hg
      obtain ⟨i, hi, rfl⟩ := List.mem_iff_getElem.1 hg
      exact ⟨i, by rw [← hn.1]; exact hi, List.getD_eq_getElem _ _ hi⟩
    · rintro ⟨ph, hph, rfl⟩
      have hl : ph < grids.length := by rw [hn.1]; exact hph
      rw [List.getD_eq_getElem _ _ hl]
      exact List.getElem_mem hl
  have hiff : SameShape ((List.range e.disc.ocp.nPhases).map fun ph => (List.range M.orders.length).map fun s =>
      ((grids.getD ph []).getD s []).map (M.time T ph s)) ↔ SameShape grids := by
    unfold SameShape
    constructor
    · intro h a ha b hb m hm
      obtain ⟨i, hi, rfl⟩ := (hmem a).1 ha
      obtain ⟨k, hk, rfl⟩ := (hmem b).1 hb
      rw [hall, ← hlen k hk, ← hall]
      refine h _ (List.mem_map.2 ⟨i, by simpa using hi, rfl⟩) _ (List.mem_map.2 ⟨k, by simpa using hk, rfl⟩) m ?_
      rw [hall, hlen i hi, ← hall]
      exact hm
    · intro h a ha b hb m hm
      obtain ⟨i, hi, rfl⟩ := List.mem_map.1 ha
      obtain ⟨k, hk, rfl⟩ := List.mem_map.1 hb
      have hi : i < e.disc.ocp.nPhases := by simpa using hi
      have hk : k < e.disc.ocp.nPhases := by simpa using hk
      rw [hall, hlen k hk, ← hall]
      refine h _ ((hmem _).2 ⟨i, hi, rfl⟩) _ ((hmem _).2 ⟨k, hk, rfl⟩) m ?_
      rw [hall, ← hlen i hi, ← hall]
      exact hm
  rw [stackTimes_eq]
  · simp only [hiff]
    congr 2
    unfold Mesh.allTimes
    rw [← List.flatMap_def, flatten_flatMap']
    refine List.flatMap_congr fun ph _ => ?_
    rw [← List.flatMap_def]
  · rw [Ne, List.map_eq_nil_iff, List.range_eq_nil]; omega
  · intro q hq
    obtain ⟨ph, -, rfl⟩ := List.mem_map.1 hq
    rw [Ne, List.map_eq_nil_iff, List.range_eq_nil]; omega

end

end MPOpt
