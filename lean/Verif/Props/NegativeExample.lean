import Verif.Props.Negative
import Verif.Props.SecondPlotExample

/-! # C113: concrete cases -/

set_option autoImplicit false

namespace MPOpt

/-- The link `(-2, -1)` of a problem with two phases is the default link: the NLP exists and is the usual one. -/
theorem exampleNegativeLink : ∃ (d : Disc ℚ) (M : Mesh ℚ) (nlp : Disc.NLP ℚ), d.OnMesh M ∧ d.ocp.nPhases = 2 ∧
    d.createNlp = .ok nlp ∧ d.createNlpZ [(-2, -1)] d.nlpVariables d.discretizePhase = .ok nlp := by
  obtain ⟨d, M, -, h, he, ho, -⟩ := exampleDisc2
  obtain ⟨-, hv, hs, hsc⟩ := ocpQ2_ready
  have hl : d.withLinks [(0, 1)] = d := by
    unfold Disc.withLinks
    have : ({ d.ocp with phaseLinks := [(0, 1)] } : OCP ℚ) = d.ocp := by rw [he]; rfl
    rw [this]
  have hn : d.ocp.nPhases = 2 := by rw [he]; rfl
  rw [← he] at hv hs hsc
  obtain ⟨nlp, hnlp, -⟩ := C10_variables_once h hv hs hsc
  refine ⟨d, M, nlp, h, hn, hnlp, ?_⟩
  rw [C113_nlp (ps := [(0, 1)]) (by
    rw [hn]
    exact .cons ⟨⟨by omega, Or.inr (by norm_num)⟩, ⟨by omega, Or.inr (by norm_num)⟩⟩ .nil), hl, hnlp]

/-- A solved problem with two phases: number `-2` gives the integrated states of phase 0, `-1` raises although `1` does
not, and `get_data` accepts both. -/
theorem exampleNegativePhase : ∃ e : Solved ℚ, solvedQBend = .ok e ∧ e.disc.ocp.nPhases = 2 ∧
    (∃ v, e.stateResidualsOfZ [-2] none false = .ok v ∧ e.stateResidualsOf (some [0]) none false = .ok v) ∧
    (∃ v, e.stateResidualsOf (some [1]) none false = .ok v) ∧ (∃ err, e.stateResidualsOfZ [-1] none false = .error err) ∧
    ∃ v, (⟨e, false, [0]⟩ : Post ℚ).getDataZ [-2, -1] false = .ok v := by
  obtain ⟨e, M, he, hr, ho, hocp⟩ := solvedQBend_ready
  have hn : e.disc.ocp.nPhases = 2 := by rw [hocp]; rfl
  have hlen : (solvedQBend >>= fun e => return (e.gridType.length, e.widths.length, e.disc.nSegments) : Py (Nat × Nat × Nat)) =
      .ok (2, 2, 1) := by decide +kernel
  rw [he, py_bind_ok, py_pure_eq_ok] at hlen
  simp only [Prod.mk.injEq] at hlen
  obtain ⟨hg, hw, hs⟩ := hlen
  have ex : ∀ {α : Type} (f : Solved ℚ → Py α), (solvedQBend >>= fun e => do let _ ← f e; return 0 : Py Nat) = .ok 0 →
      ∃ v, f e = .ok v := by
    intro α f h
    rw [he, py_bind_ok, py_bind_eq_ok] at h
    obtain ⟨v, hv, -⟩ := h
    exact ⟨v, hv⟩
  obtain ⟨v0, h0⟩ := ex (fun e => e.stateResidualsOf (some [0]) none false) (by decide +kernel)
  obtain ⟨v1, h1⟩ := ex (fun e => e.stateResidualsOf (some [1]) none false) (by decide +kernel)
  obtain ⟨v2, h2⟩ := ex (fun e => (⟨e, false, [0]⟩ : Post ℚ).getData [0, 1] false) (by decide +kernel)
  refine ⟨e, he, hn, ⟨v0, ?_, h0⟩, ⟨v1, h1⟩, C113_last_raises e (by omega) (by simp) _ _, v2, ?_⟩
  · rw [C113_states (ps := [0]) (.cons ⟨by omega, Or.inr (by rw [hn]; norm_num)⟩ .nil) (by simp) (by rw [hg, hn])
      (by rw [hw, hs, hn]) (by rw [hocp]; rfl) (by simp), h0]
  · rw [C113_data _ (by simp) (ps := [0, 1]) (.cons ⟨by simp [hn], Or.inr (by rw [hn]; norm_num)⟩
      (.cons ⟨by simp [hn], Or.inr (by rw [hn]; norm_num)⟩ .nil)), h2]

end MPOpt
