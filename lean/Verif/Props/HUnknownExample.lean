import Verif.Props.HUnknown
import Verif.Props.ShippedExample

/-! # Concrete cases for C97 -/

set_option autoImplicit false

namespace MPOpt

variable {n p : Nat}

/-- The options written in examples/Multi-phase/tpschwartz.py:107: the code knows `residual`, not `residuals`. -/
def misspelt : PyDict String := [("method", "residuals"), ("sub_method", "merge_split")]

theorem misspelt_asks : AsksNothing misspelt := by
  constructor <;> decide +kernel

/-- Two calls that refine, and one with a misspelt method. -/
def callsU : List (HStart (List ℝ) × HArgs (List ℝ)) :=
  callsR ++ [(.previous, ⟨none, false, "ipopt", [], misspelt, 20⟩)]

theorem callsU_own : OwnStarts callsU := by
  intro c hc x
  simp only [callsU, callsR, List.cons_append, List.nil_append, List.mem_cons, List.not_mem_nil, or_false] at hc
  rcases hc with rfl | rfl | rfl <;> simp

/-- The hypotheses of `C97_same_as_plain` are met, for all numbers of segments and orders, and the result is not trivial: on the
problem of a shipped script both trajectories cost `-8/3`. -/
theorem C97_example (hn : 0 < n) (hp : 2 ≤ p) :
    ∃ (M : Mesh ℝ) (nlpsol : Nat → Nat → SolverCall ℝ (List ℝ) → Py (PyDict (List ℝ))) (nlpsol' : SolverCall ℝ (List ℝ) → Py (List ℝ)),
    MeshFor outsideRH.toOutside "LGR" n (.int p) M ∧
      (∀ n k c sol, nlpsol n k c = .ok sol → ∃ z, Returned outsideRH sol z ∧ c.IsOptimal z) ∧
      (∀ c z, nlpsol' c = .ok z → c.IsOptimal z) ∧
      ∃ s' sol out out', (hoptWS n p).run outsideRH nlpsol callsU 0 none = (s', some sol) ∧
        s'.processResults outsideRH sol [[0]] false false true = .ok out ∧
        mpSolve outsideRH.toOutside nlpsol' ocpWS [[0]] n (.int p) "LGR" ⟨none, false, "ipopt", [], none⟩ false true = .ok out' ∧
        s'.iterInfo = [(1, none)] ∧
        ∃ T T' J, out.1.Shows ocpWS M T ∧ out'.2.1.Shows ocpWS M T' ∧ FoundWS M T J ∧ FoundWS M T' J := by
  obtain ⟨M, nlpsol, h1, h2, s', sol, out, h3, h4, T, J, h5, h6⟩ := exampleHWS_calls (calls := callsU) hn hp (by simp [callsU])
    callsU_own (fun c hc => by
      simp only [callsU, callsR, List.cons_append, List.nil_append, List.mem_cons, List.not_mem_nil, or_false] at hc
      rcases hc with rfl | rfl | rfl <;> exact ⟨by simp, rfl⟩) (by
      rintro ⟨c, hc, hm, hsub⟩
      simp only [callsU, callsR, List.cons_append, List.nil_append, List.mem_cons, List.not_mem_nil, or_false] at hc
      rcases hc with rfl | rfl | rfl
      · exact absurd hsub (by decide +kernel)
      · exact absurd hm (by decide +kernel)
      · exact absurd hm (by decide +kernel))
  obtain ⟨nlpsol', out', k1, k2, T', J', k3, k4⟩ := exampleWS_of (w := outsideRH.toOutside)
    (a := ⟨none, false, "ipopt", [], none⟩) rfl rfl rfl rfl rfl rfl hn hp h1
  obtain ⟨hv, hs, hsc⟩ := ocpWS_ready
  obtain ⟨q, r⟩ := out
  obtain ⟨S, q', r'⟩ := out'
  obtain ⟨i1, -⟩ := C97_same_as_plain (hoptWS_fresh (n := n) (p := p)).ready hv hs hsc h1 h2 k1 (by norm_num [hoptWS]) callsU_own
    (Or.inl misspelt_asks) h3 h4 rfl k2
  obtain rfl : J = J' := h6.cost.trans k4.cost.symm
  exact ⟨M, nlpsol, nlpsol', h1, h2, k1, s', sol, (q, r), (S, q', r'), h3, h4, k2, i1, T, T', J, h5, k3, h6, k4⟩

/-- The hypotheses of `C97_unknown_method` are met. -/
example (hn : 0 < n) (hp : 2 ≤ p) : ∃ (nlpsol : Nat → SolverCall ℝ (List ℝ) → Py (PyDict (List ℝ))) (s s' : HOpt ℝ (List ℝ)) (sol : _),
    s.nSegments = n ∧ 0 ≤ s.tolChange ∧ s.solve outsideRH nlpsol ⟨none, false, "ipopt", [], misspelt, 20⟩ = (s', .ok sol) := by
  obtain ⟨M, nlpsol, h1, h2, s', sol, out, h3, h4, -⟩ :=
    exampleHWS_calls (calls := [(.fresh, ⟨none, false, "ipopt", [], misspelt, 20⟩)]) hn hp (by simp)
    (fun c hc x => by simp at hc; subst hc; simp) (fun c hc => by simp at hc; subst hc; exact ⟨by simp, rfl⟩) (by
      rintro ⟨c, hc, hm, hsub⟩
      simp at hc; subst hc
      exact absurd hm (by decide +kernel))
  refine ⟨nlpsol 0, hoptWS n p, s', sol, rfl, by norm_num [hoptWS], ?_⟩
  obtain ⟨e1, e2⟩ := Prod.mk.inj h3
  refine Prod.ext e1 ?_
  have e2 : ((hoptWS n p).solve outsideRH (nlpsol 0) ⟨none, false, "ipopt", [], misspelt, 20⟩).2.toOption = some sol := e2
  generalize ((hoptWS n p).solve outsideRH (nlpsol 0) ⟨none, false, "ipopt", [], misspelt, 20⟩).2 = X at e2
  cases X with
  | error e => cases e2
  | ok v => cases e2; rfl

end MPOpt
