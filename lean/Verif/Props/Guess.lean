import Verif.Model.Solver
import Verif.Props.Transcription

/-! # C20: the default initial guess -/

set_option autoImplicit false
set_option linter.unusedSectionVars false

namespace MPOpt

variable {K : Type} [Field K] [LinearOrder K] [IsStrictOrderedRing K] {d : Disc K} {M : Mesh K}

/-- Value at node `k` of `N` on the straight line from `y0` (first node) to `yf` (last node). -/
def lineValue (y0 yf : K) (N k : Nat) : K := y0 + (yf - y0) * (k / (N - 1))

/-- The guess a user expects for a decision variable, in scaled units. -/
def guessOf (ocp : OCP K) (N : Nat) : Sym → K
  | .X ph i j => lineValue (entry ocp.x00 ph j 0) (entry ocp.xf0 ph j 0) N i * ocp.scaleX.getD j 0
  | .U ph i j => lineValue (entry ocp.u00 ph j 0) (entry ocp.uf0 ph j 0) N i * ocp.scaleU.getD j 0
  | .T0 ph => entry ocp.t00 ph 0 0 * ocp.scaleT
  | .Tf ph => entry ocp.tf0 ph 0 0 * ocp.scaleT
  | .A k ph => entry ocp.a0 ph k 0 * ocp.scaleA.getD k 0
  | .H _ _ => 0

/-- Control variables. -/
def IsControl : Sym → Prop
  | .U _ _ _ => True
  | _ => False

theorem linspace_sub (t0 tf : K) (h : tf ≠ t0) (y0 yf : K) (n k : Nat) :
    y0 + (yf - y0) / (tf - t0) * (linspaceAt t0 tf n k - t0) = lineValue y0 yf n k := by
  unfold linspaceAt lineValue
  have : tf - t0 ≠ 0 := sub_ne_zero.2 h
  have e : (yf - y0) / (tf - t0) * (t0 + k * ((tf - t0) / ((n : K) - 1)) - t0) =
      (yf - y0) * ((k : K) / (n - 1)) := by
    rw [add_sub_cancel_left, div_mul_eq_mul_div, div_eq_iff this]
    simp only [div_eq_mul_inv]
    ring
  rw [e]

theorem lineValue_mul (y0 yf s : K) (n k : Nat) :
    lineValue (y0 * s) (yf * s) n k = lineValue y0 yf n k * s := by
  unfold lineValue; ring

theorem mulRow_ok {arr : List (List K)} {sc : List K} {r c : Nat} (h : HasShape arr r c)
    (hs : sc.length = c) {ph : Nat} (hph : ph < r) :
    ∃ row, pyIdx arr ph = .ok row ∧ mulRow row sc =
      .ok ((List.range c).map fun j => entry arr ph j 0 * sc.getD j 0) := by
  have hl : ph < arr.length := by rw [h.1]; exact hph
  have hr := h.2 _ (List.getElem_mem hl)
  refine ⟨arr[ph], pyIdx_eq_ok.2 (List.getElem?_eq_getElem hl), ?_⟩
  unfold mulRow
  rw [if_pos (by rw [hr, hs])]
  congr 1
  apply List.ext_getElem
  · simp [hr, hs]
  · intro i h1 h2
    simp only [List.length_zipWith, hr, hs, Nat.min_self] at h1
    simp only [List.getElem_zipWith, List.getElem_map, List.getElem_range, entry]
    rw [List.getD_eq_getElem _ _ hl, List.getD_eq_getElem _ _ (by rw [hr]; exact h1),
      List.getD_eq_getElem _ _ (by rw [hs]; exact h1)]

/-- Decision variables of a phase in the order in which the guess is written: controls node by node. -/
def guessVars (ocp : OCP K) (N ph : Nat) : List Sym :=
  ((List.range ocp.nx).flatMap fun j => (List.range N).map fun i => Sym.X ph i j) ++
  ((List.range N).flatMap fun i => (List.range ocp.nu).map fun j => Sym.U ph i j) ++
  [Sym.T0 ph] ++ [Sym.Tf ph] ++ (List.range ocp.na).map fun k => Sym.A k ph

/-- Closed form of the guess of a phase: controls node by node. -/
theorem guessPhase_spec (ocp : OCP K) (hv : ValidOCP ocp) (hnx : 0 < ocp.nx) {ph N : Nat}
    (hph : ph < ocp.nPhases) (hN : 0 < N) (ht : entry ocp.t00 ph 0 0 ≠ entry ocp.tf0 ph 0 0)
    (hsc : ocp.scaleT ≠ 0) :
    ocp.guessPhase N ph = .ok ((guessVars ocp N ph).map fun s => Ext.fin (guessOf ocp N s)) := by
  obtain ⟨r1, p1, q1⟩ := mulRow_ok hv.x00 hv.scaleX hph
  obtain ⟨r2, p2, q2⟩ := mulRow_ok hv.xf0 hv.scaleX hph
  obtain ⟨r3, p3, q3⟩ := mulRow_ok hv.u00 hv.scaleU hph
  obtain ⟨r4, p4, q4⟩ := mulRow_ok hv.uf0 hv.scaleU hph
  obtain ⟨r5, p5, q5⟩ := mulRow_ok hv.a0 hv.scaleA hph
  have one : ∀ (arr : List (List K)), HasShape arr ocp.nPhases 1 →
      pyIdx arr ph = .ok [entry arr ph 0 0] := by
    intro arr h
    have hl : ph < arr.length := by rw [h.1]; exact hph
    have hr := h.2 _ (List.getElem_mem hl)
    obtain ⟨a, ha⟩ := List.length_eq_one_iff.1 hr
    rw [pyIdx_eq_ok, List.getElem?_eq_getElem hl, ha]
    unfold entry
    rw [List.getD_eq_getElem _ _ hl, ha]; rfl
  have nonempty : ∀ {α : Type} (n : Nat) (f : Nat → List α), 0 < n →
      npConcat ((List.range n).map f) = .ok ((List.range n).flatMap f) := by
    intro α n f hn
    unfold npConcat
    have : ((List.range n).map f).isEmpty = false := by
      rw [List.isEmpty_eq_false_iff]; simp; omega
    rw [this]
    simp [List.flatMap_def]
  have hne : entry ocp.tf0 ph 0 0 * ocp.scaleT ≠ entry ocp.t00 ph 0 0 * ocp.scaleT :=
    fun h => ht (mul_right_cancel₀ hsc h).symm
  unfold OCP.guessPhase
  simp only [p1, p2, p3, p4, p5, q1, q2, q3, q4, q5, one _ hv.t00, one _ hv.tf0, py_bind_ok,
    List.map_cons, List.map_nil]
  simp only [pyIdx, List.getElem?_cons_zero, py_bind_ok, nonempty _ _ hnx, nonempty _ _ hN]
  simp only [guessAt, if_neg hne, linspace_sub _ _ hne]
  show Except.ok _ = Except.ok _
  congr 1
  simp only [guessVars, List.map_append, List.map_flatMap, List.map_map, List.map_cons, List.map_nil]
  congr 1
  congr 1
  congr 1
  congr 1
  · apply List.flatMap_congr
    intro j hj
    apply List.map_congr_left
    intro i _
    have hj : j < ocp.nx := by simpa using hj
    simp only [Function.comp, guessOf]
    rw [List.getD_eq_getElem _ _ (by simpa using hj), List.getD_eq_getElem _ _ (by simpa using hj)]
    simp [lineValue_mul]
  · apply List.flatMap_congr
    intro i _
    apply List.map_congr_left
    intro j hj
    have hj : j < ocp.nu := by simpa using hj
    simp only [Function.comp, guessOf]
    rw [List.getD_eq_getElem _ _ (by simpa using hj), List.getD_eq_getElem _ _ (by simpa using hj)]
    simp [lineValue_mul]

theorem forall₂_flatMap {α β ι : Type} (R : α → β → Prop) (l : List ι) (f : ι → List α)
    (g : ι → List β) (h : ∀ i ∈ l, List.Forall₂ R (f i) (g i)) :
    List.Forall₂ R (l.flatMap f) (l.flatMap g) := by
  induction l with
  | nil => simp
  | cons i l ih =>
    rw [List.flatMap_cons, List.flatMap_cons]
    exact List.rel_append (h i (by simp)) (ih fun j hj => h j (by simp [hj]))

/-- `nu ≤ 1`: node-by-node and component-by-component order coincide. -/
theorem rowMajor_one {α : Type} (N nu : Nat) (h : nu ≤ 1) (f : Nat → Nat → α) :
    ((List.range N).flatMap fun i => (List.range nu).map fun j => f i j) =
      (List.range nu).flatMap fun j => (List.range N).map fun i => f i j := by
  rcases Nat.eq_zero_or_pos nu with rfl | h0
  · simp
  · obtain rfl : nu = 1 := by omega
    simp only [List.range_one, List.map_cons, List.map_nil, List.flatMap_cons, List.flatMap_nil,
      List.append_nil]
    exact List.flatMap_pure_eq_map (fun i => f i 0) _

/-- Variables of a phase beside the entries of its guess. -/
theorem guess_forall₂ (hN : M.N = d.N) (ph : Nat) :
    List.Forall₂ (fun s (v : Ext K) => ¬ IsControl s ∨ d.ocp.nu ≤ 1 →
      v = .fin (guessOf d.ocp M.N s)) (d.phaseVars ph)
      ((guessVars d.ocp M.N ph).map fun s => Ext.fin (guessOf d.ocp M.N s)) := by
  have refl : ∀ l : List Sym, List.Forall₂ (fun s (v : Ext K) => ¬ IsControl s ∨ d.ocp.nu ≤ 1 →
      v = .fin (guessOf d.ocp M.N s)) l (l.map fun s => Ext.fin (guessOf d.ocp M.N s)) := by
    intro l
    rw [List.forall₂_map_right_iff, List.forall₂_same]
    intro _ _ _; rfl
  unfold Disc.phaseVars guessVars
  rw [← hN]
  simp only [List.map_append, List.append_assoc, List.cons_append, List.nil_append, List.map_cons]
  apply List.rel_append (refl _)
  apply List.rel_append
  · by_cases hnu : d.ocp.nu ≤ 1
    · rw [rowMajor_one _ _ hnu]; exact refl _
    · rw [List.forall₂_iff_get]
      refine ⟨?_, fun i h1 h2 hc => ?_⟩
      · simp [List.length_flatMap, Nat.mul_comm]
      · exfalso
        rcases hc with hc | hc
        · apply hc
          have hm := List.get_mem ((List.range d.ocp.nu).flatMap fun j =>
            (List.range M.N).map fun i => Sym.U ph i j) ⟨i, h1⟩
          simp only [List.mem_flatMap, List.mem_map] at hm
          obtain ⟨j, -, k, -, e⟩ := hm
          rw [← e]; trivial
        · exact hnu hc
  · exact refl (Sym.T0 ph :: Sym.Tf ph :: (List.range d.ocp.na).map fun k => Sym.A k ph)

/-- **C20** The default guess has the length of `x`. Position by position it is the straight-line value for
every variable that is not a control, and for every variable when there is at most one control. -/
theorem C20_guess (h : d.OnMesh M) (hv : ValidOCP d.ocp) (hs : d.ocp.SettingsOK)
    (hsc : d.ocp.PosScales)
    (ht : ∀ ph < d.ocp.nPhases, entry d.ocp.t00 ph 0 0 ≠ entry d.ocp.tf0 ph 0 0) :
    ∃ nlp z, d.createNlp = .ok nlp ∧ d.ocp.initialGuess M.N = .ok z ∧ z.length = nlp.x.length ∧
      ∀ (i : Nat) (s : Sym), nlp.x[i]? = some s → ¬ IsControl s ∨ d.ocp.nu ≤ 1 →
        z[i]? = some (.fin (guessOf d.ocp M.N s)) := by
  obtain ⟨bs, J, nlp, hn, -, -, -, hx, -⟩ := h.createNlp_spec hv hs hsc
  have hN : 0 < M.N := by unfold Mesh.N; omega
  have hphase := fun ph hph => guessPhase_spec d.ocp hv hs.nx (ph := ph) hph hN (ht ph hph) hsc.t.ne'
  have hmap := mapM_ok (d.ocp.guessPhase M.N) _ (List.range d.ocp.nPhases) fun ph hph =>
    hphase ph (by simpa using hph)
  have hz : d.ocp.initialGuess M.N = .ok ((List.range d.ocp.nPhases).flatMap fun ph =>
      (guessVars d.ocp M.N ph).map fun s => Ext.fin (guessOf d.ocp M.N s)) := by
    unfold OCP.initialGuess
    rw [hmap, py_bind_ok, npConcat, if_neg, List.flatMap_def]
    simpa using hv.phases.ne'
  have hF : List.Forall₂ (fun s (v : Ext K) => ¬ IsControl s ∨ d.ocp.nu ≤ 1 →
      v = .fin (guessOf d.ocp M.N s)) nlp.x ((List.range d.ocp.nPhases).flatMap fun ph =>
      (guessVars d.ocp M.N ph).map fun s => Ext.fin (guessOf d.ocp M.N s)) := by
    rw [hx]
    exact forall₂_flatMap _ _ _ _ fun ph _ => guess_forall₂ h.N_eq ph
  refine ⟨nlp, _, hn, hz, ?_, ?_⟩
  · exact hF.length_eq.symm
  · intro i s hi hc
    have hil : i < nlp.x.length := (List.getElem?_eq_some_iff.1 hi).1
    have := hF.get hil (by rw [← hF.length_eq]; exact hil)
    rw [List.getElem?_eq_getElem (by rw [← hF.length_eq]; exact hil)]
    simp only [List.get_eq_getElem] at this
    have e : nlp.x[i] = s := (List.getElem_eq_iff hil).2 hi
    rw [this (by rw [e]; exact hc), e]

/-- A two-phase problem with two controls whose guesses are constantly 0 and 1. -/
def ocpGuess : OCP ℚ :=
  { ocpQ2 with scaleU := [1, 1], u00 := [[0, 1], [0, 1]], uf0 := [[0, 1], [0, 1]] }

/-- The hypotheses of `C20_guess` are met by `ocpQ2` and by `ocpGuess`. -/
example : ∀ ph < ocpQ2.nPhases, entry ocpQ2.t00 ph 0 0 ≠ entry ocpQ2.tf0 ph 0 0 := by decide +kernel

/-- **C20, `nu ≥ 2`: false.** Two controls with guesses 0 and 1, constant in time, on three nodes: the
position of the first control at node 1 holds the guess of the second control. -/
theorem C20_controls_false : ∃ (d : Disc ℚ) (M : Mesh ℚ) (nlp : Disc.NLP ℚ) (z : List (Ext ℚ)) (i : Nat),
    d.OnMesh M ∧ ValidOCP d.ocp ∧ d.createNlp = .ok nlp ∧ d.ocp.initialGuess M.N = .ok z ∧
      nlp.x[i]? = some (Sym.U 0 1 0) ∧ z[i]? = some (.fin 1) ∧
      guessOf d.ocp M.N (Sym.U 0 1 0) = 0 := by
  obtain ⟨d, M, -, h, he, ho, -⟩ := C43_lgr_setup libQ .numerical (-1) 1 (by norm_num) ocpGuess [2]
    (by simp) (by simp) (by
      intro p hp h2
      simp only [List.mem_singleton] at hp
      subst hp; exact libQ_lgr2)
  have hv : ValidOCP ocpGuess := (C40_validate_iff _).1 (by decide +kernel)
  have hs : ocpGuess.SettingsOK := ⟨by decide, rfl, rfl, rfl, rfl, rfl, by decide, by decide, by decide,
    by decide⟩
  have hsc : ocpGuess.PosScales := by
    refine ⟨?_, ?_, ?_, by norm_num [ocpGuess, ocpQ2]⟩ <;> simp [ocpGuess, ocpQ2]
  have hN : M.N = 3 := by rw [Mesh.N, ho]; rfl
  obtain ⟨bs, J, nlp, hn, -, -, -, hx, -⟩ :=
    h.createNlp_spec (by rw [he]; exact hv) (by rw [he]; exact hs) (by rw [he]; exact hsc)
  refine ⟨d, M, nlp, [.fin 0, .fin 1, .fin 2, .fin 0, .fin 1, .fin 0, .fin 1, .fin 0, .fin 1, .fin 0,
    .fin 5, .fin 0, .fin 0, .fin 1, .fin 2, .fin 0, .fin 1, .fin 0, .fin 1, .fin 0, .fin 1, .fin 5,
    .fin 10, .fin 0], 4, h, by rw [he]; exact hv, hn, ?_, ?_, rfl, ?_⟩
  · rw [he, hN]; decide +kernel
  · rw [hx]
    unfold Disc.phaseVars
    rw [← h.N_eq, hN, he]
    rfl
  · rw [he, hN]; decide +kernel

end MPOpt
