import Verif.Spec.Tolerance
import Verif.Props.EndToEnd
import Mathlib.Tactic.Positivity

/-! # C81: what tolerances of the NLP solver mean for the trajectory -/

set_option autoImplicit false
set_option linter.unusedSectionVars false

namespace MPOpt
open Polynomial
open Disc (Block NLP)
variable {K V : Type} [Field K] [LinearOrder K] [IsStrictOrderedRing K]

theorem withinTo_pinned (ε a v : K) : WithinTo ε (.fin a) (.fin a) v ↔ |v - a| ≤ ε := by
  simp only [WithinTo, Ext.Below, Ext.Above, abs_le]
  constructor
  · rintro ⟨h1, h2⟩; constructor <;> linarith
  · rintro ⟨h1, h2⟩; constructor <;> linarith

theorem withinTo_zero (ε v : K) : WithinTo ε (.fin 0) (.fin 0) v ↔ |v| ≤ ε := by
  rw [withinTo_pinned, sub_zero]

theorem withinTo_neg (ε v : K) : WithinTo ε .ninf (.fin 0) v ↔ v ≤ ε := by
  simp only [WithinTo, Ext.Below, Ext.Above, true_and]
  constructor <;> intro h <;> linarith

theorem withinTo_free (ε v : K) : WithinTo ε .ninf .pinf v := by simp [WithinTo, Ext.Below, Ext.Above]

theorem withinTo_mul (ε : K) (lo hi : Ext K) (v s : K) (hs : 0 < s) :
    WithinTo ε (Ext.mul lo s) (Ext.mul hi s) v ↔ WithinTo (ε / s) lo hi (v / s) := by
  simp only [WithinTo, below_mul lo _ s hs, above_mul hi _ s hs, add_div, sub_div]

theorem withinTo_scaled (ε : K) (lo hi : Ext K) (v s : K) (hs : 0 < s) :
    WithinTo ε (Ext.mul lo s) (Ext.mul hi s) (s * v) ↔ WithinTo (ε / s) lo hi v := by
  rw [withinTo_mul _ _ _ _ _ hs, mul_div_cancel_left₀ _ hs.ne']

theorem withinTo_zero_scaled (ε s v : K) (hs : 0 < s) :
    WithinTo ε (.fin 0) (.fin 0) (s * v) ↔ |v| ≤ ε / s := by
  rw [withinTo_zero, abs_mul, abs_of_pos hs, le_div_iff₀ hs, mul_comm]

theorem withinTo_exact (lo hi : Ext K) (v : K) : WithinTo 0 lo hi v ↔ Within lo hi v := by
  simp only [WithinTo, Within, add_zero, sub_zero]

theorem WithinTo.mono {ε ε' : K} {lo hi : Ext K} {v : K} (h : WithinTo ε lo hi v) (hε : ε ≤ ε') :
    WithinTo ε' lo hi v := by
  refine ⟨?_, ?_⟩
  · have := h.1
    cases lo <;> simp only [Ext.Below] at this ⊢ <;> (first | exact this | linarith)
  · have := h.2
    cases hi <;> simp only [Ext.Above] at this ⊢ <;> (first | exact this | linarith)

theorem holdsTo_iff_by (ε : K) (g : List K) (lo hi : List (Ext K)) :
    HoldsTo ε g lo hi ↔ HoldsBy (WithinTo ε) g lo hi := Iff.rfl

/-- Rows of a phase up to a tolerance. -/
theorem rowsBy_withinTo {ocp : OCP K} {M : Mesh K} (hv : ValidOCP ocp) (hsc : ocp.PosScales) (ε : K) (T : Traj K)
    (ph : Nat) :
    RowsBy (WithinTo ε) ocp M T ph ↔ CollocationTo ε ocp M T ph ∧
      (∀ F, ocp.pathConstraints[ph]? = some (some F) → ∀ s i, M.Owns s i → ∀ c < F.len,
        F.f (ocp.pArg T ph (M.idx s i) (M.time T ph s (M.node s i))) c ≤ ε) ∧
      (ocp.diffU.getD ph false = true → ∀ j < ocp.nu, ∀ s i, M.Owns s i →
        WithinTo ε (ocp.lbdu.getD ph .nan) (ocp.ubdu.getD ph .nan)
          (ocp.scaleU.getD j 0 * (derivative (M.piece (fun k => T.u ph k j) s)).eval (M.node s i))) ∧
      (ocp.midu.getD ph false = true → ∀ j < ocp.nu, ∀ s < M.orders.length, ∀ i < M.order s,
        WithinTo (ε / ocp.scaleU.getD j 0) (entry ocp.lbu ph j .nan) (entry ocp.ubu ph j .nan)
          ((M.piece (fun k => T.u ph k j) s).eval ((M.node s i + M.node s (i + 1)) / 2))) ∧
      (ocp.duContinuity.getD ph false = true → ∀ j < ocp.nu, ∀ s, s + 1 < M.orders.length →
        |(derivative (M.piece (fun k => T.u ph k j) s)).eval M.tau1 -
          (derivative (M.piece (fun k => T.u ph k j) (s + 1))).eval M.tau0| ≤ ε / ocp.scaleU.getD j 0) ∧
      ∀ F, ocp.terminalConstraints[ph]? = some (some F) → ∀ c < F.len, |F.f (ocp.tArg T ph M.N) c| ≤ ε := by
  have px : ∀ j < ocp.nx, 0 < ocp.scaleX.getD j 0 := fun j hj => getD_mem_ne hv.scaleX hsc.x hj
  have pu : ∀ j < ocp.nu, 0 < ocp.scaleU.getD j 0 := fun j hj => getD_mem_ne hv.scaleU hsc.u hj
  constructor
  · rintro ⟨a, b, c, e, f, g⟩
    exact ⟨fun F hF j hj s i ho => (withinTo_zero_scaled _ _ _ (px j hj)).1 (a F hF j hj s i ho),
      fun F hF s i ho k hk => (withinTo_neg _ _).1 (b F hF s i ho k hk), c,
      fun hm j hj s hs i hi => (withinTo_scaled _ _ _ _ _ (pu j hj)).1 (e hm j hj s hs i hi),
      fun hm j hj s hs => (withinTo_zero_scaled _ _ _ (pu j hj)).1 (f hm j hj s hs),
      fun F hF k hk => (withinTo_zero _ _).1 (g F hF k hk)⟩
  · rintro ⟨a, b, c, e, f, g⟩
    exact ⟨fun F hF j hj s i ho => (withinTo_zero_scaled _ _ _ (px j hj)).2 (a F hF j hj s i ho),
      fun F hF s i ho k hk => (withinTo_neg _ _).2 (b F hF s i ho k hk), c,
      fun hm j hj s hs i hi => (withinTo_scaled _ _ _ _ _ (pu j hj)).2 (e hm j hj s hs i hi),
      fun hm j hj s hs => (withinTo_zero_scaled _ _ _ (pu j hj)).2 (f hm j hj s hs),
      fun F hF k hk => (withinTo_zero _ _).2 (g F hF k hk)⟩

theorem linkRowsBy_withinTo {ocp : OCP K} {M : Mesh K} (hv : ValidOCP ocp) (hsc : ocp.PosScales) (ε : K)
    (T : Traj K) : LinkRowsBy (WithinTo ε) ocp M T ↔ LinksTo ε ocp M T := by
  have px : ∀ j < ocp.nx, 0 < ocp.scaleX.getD j 0 := fun j hj => getD_mem_ne hv.scaleX hsc.x hj
  have pu : ∀ j < ocp.nu, 0 < ocp.scaleU.getD j 0 := fun j hj => getD_mem_ne hv.scaleU hsc.u hj
  exact ⟨fun ⟨a, b, c⟩ => ⟨fun k p q hk j hj => (withinTo_scaled _ _ _ _ _ (px j hj)).1 (a k p q hk j hj),
      fun k p q hk j hj => (withinTo_zero_scaled _ _ _ (pu j hj)).1 (b k p q hk j hj),
      fun k p q hk => (withinTo_zero_scaled _ _ _ hsc.t).1 (c k p q hk)⟩,
    fun ⟨a, b, c⟩ => ⟨fun k p q hk j hj => (withinTo_scaled _ _ _ _ _ (px j hj)).2 (a k p q hk j hj),
      fun k p q hk j hj => (withinTo_zero_scaled _ _ _ (pu j hj)).2 (b k p q hk j hj),
      fun k p q hk => (withinTo_zero_scaled _ _ _ hsc.t).2 (c k p q hk)⟩⟩

variable {d : Disc K} {M : Mesh K}

/-- Box constraints of a phase up to a tolerance. -/
theorem Disc.OnMesh.boundsTo_spec (h : d.OnMesh M) (hv : ValidOCP d.ocp) (hsc : d.ocp.PosScales) (ε : K)
    {ph : Nat} (σ : Env K) :
    (∀ s ∈ d.phaseVars ph, WithinTo ε (scaledLower d.ocp s) (scaledUpper d.ocp s) (σ s)) ↔
      BoundsTo ε d.ocp M (physOf d.ocp σ) ph := by
  have px : ∀ j < d.ocp.nx, 0 < d.ocp.scaleX.getD j 0 := fun j hj => getD_mem_ne hv.scaleX hsc.x hj
  have pu : ∀ j < d.ocp.nu, 0 < d.ocp.scaleU.getD j 0 := fun j hj => getD_mem_ne hv.scaleU hsc.u hj
  have pa : ∀ j < d.ocp.na, 0 < d.ocp.scaleA.getD j 0 := fun j hj => getD_mem_ne hv.scaleA hsc.a hj
  have pt := hsc.t
  have c0 : ∀ j < d.ocp.nx, ((WithinTo ε (scaledLower d.ocp (.X 0 0 j)) (scaledUpper d.ocp (.X 0 0 j))
      (σ (.X 0 0 j))) ↔ |(physOf d.ocp σ).x 0 0 j - entry d.ocp.x00 0 j 0| ≤ ε / d.ocp.scaleX.getD j 0) := by
    intro j hj
    simp only [scaledLower, scaledUpper, scaledBound, and_self, if_true, withinTo_pinned, physOf]
    rw [le_div_iff₀ (px j hj), ← abs_of_pos (px j hj), ← abs_mul, abs_of_pos (px j hj), sub_mul,
      div_mul_cancel₀ _ (px j hj).ne']
  have cx : ∀ i, ¬ (ph = 0 ∧ i = 0) → ∀ j < d.ocp.nx,
      ((WithinTo ε (scaledLower d.ocp (.X ph i j)) (scaledUpper d.ocp (.X ph i j)) (σ (.X ph i j))) ↔
        WithinTo (ε / d.ocp.scaleX.getD j 0) (entry d.ocp.lbx ph j .nan) (entry d.ocp.ubx ph j .nan)
          ((physOf d.ocp σ).x ph i j)) := by
    intro i hi j hj
    simp only [scaledLower, scaledUpper, scaledBound, hi, if_false, withinTo_mul _ _ _ _ _ (px j hj)]
    rfl
  have cu : ∀ i, ∀ j < d.ocp.nu,
      ((WithinTo ε (scaledLower d.ocp (.U ph i j)) (scaledUpper d.ocp (.U ph i j)) (σ (.U ph i j))) ↔
        WithinTo (ε / d.ocp.scaleU.getD j 0) (entry d.ocp.lbu ph j .nan) (entry d.ocp.ubu ph j .nan)
          ((physOf d.ocp σ).u ph i j)) := by
    intro i j hj
    simp only [scaledLower, scaledUpper, scaledBound, withinTo_mul _ _ _ _ _ (pu j hj)]
    rfl
  have c1 : ((WithinTo ε (scaledLower d.ocp (.T0 ph)) (scaledUpper d.ocp (.T0 ph)) (σ (.T0 ph))) ↔
        WithinTo (ε / d.ocp.scaleT) (entry d.ocp.lbt0 ph 0 .nan) (entry d.ocp.ubt0 ph 0 .nan)
          ((physOf d.ocp σ).t0 ph)) := by
    simp only [scaledLower, scaledUpper, scaledBound, withinTo_mul _ _ _ _ _ pt]
    rfl
  have c2 : ((WithinTo ε (scaledLower d.ocp (.Tf ph)) (scaledUpper d.ocp (.Tf ph)) (σ (.Tf ph))) ↔
        WithinTo (ε / d.ocp.scaleT) (entry d.ocp.lbtf ph 0 .nan) (entry d.ocp.ubtf ph 0 .nan)
          ((physOf d.ocp σ).tf ph)) := by
    simp only [scaledLower, scaledUpper, scaledBound, withinTo_mul _ _ _ _ _ pt]
    rfl
  have ca : ∀ k < d.ocp.na,
      ((WithinTo ε (scaledLower d.ocp (.A k ph)) (scaledUpper d.ocp (.A k ph)) (σ (.A k ph))) ↔
        WithinTo (ε / d.ocp.scaleA.getD k 0) (entry d.ocp.lba ph k .nan) (entry d.ocp.uba ph k .nan)
          ((physOf d.ocp σ).a ph k)) := by
    intro k hk
    simp only [scaledLower, scaledUpper, scaledBound, withinTo_mul _ _ _ _ _ (pa k hk)]
    rfl
  have hN : M.N = d.N := h.N_eq
  have hNpos : 0 < d.N := by unfold Disc.N; omega
  constructor
  · intro hh
    refine ⟨?_, ?_, ?_, ?_, ?_, ?_⟩
    · rintro rfl j hj
      exact (c0 j hj).1 (hh _ (mem_phaseVars.2 (Or.inl ⟨0, hNpos, j, hj, rfl⟩)))
    · intro i hi hne j hj
      exact (cx i hne j hj).1 (hh _ (mem_phaseVars.2 (Or.inl ⟨i, hN ▸ hi, j, hj, rfl⟩)))
    · intro i hi j hj
      exact (cu i j hj).1 (hh _ (mem_phaseVars.2 (Or.inr (Or.inl ⟨i, hN ▸ hi, j, hj, rfl⟩))))
    · exact c1.1 (hh _ (mem_phaseVars.2 (by simp)))
    · exact c2.1 (hh _ (mem_phaseVars.2 (by simp)))
    · intro k hk
      exact (ca k hk).1 (hh _ (mem_phaseVars.2 (by simp [hk])))
  · intro hb s hs
    rcases mem_phaseVars.1 hs with ⟨i, hi, j, hj, rfl⟩ | ⟨i, hi, j, hj, rfl⟩ | rfl | rfl | ⟨k, hk, rfl⟩
    · by_cases h0 : ph = 0 ∧ i = 0
      · obtain ⟨rfl, rfl⟩ := h0
        exact (c0 j hj).2 (hb.x0 rfl j hj)
      · exact (cx i h0 j hj).2 (hb.x i (hN ▸ hi) h0 j hj)
    · exact (cu i j hj).2 (hb.u i (hN ▸ hi) j hj)
    · exact c1.2 hb.t0
    · exact c2.2 hb.tf
    · exact (ca k hk).2 (hb.a k hk)

/-- **C81** A point respects the NLP up to `εb` in the variable bounds and `ε` in the rows exactly when the trajectory
it stands for solves the collocated problem up to these tolerances, divided by the scale factors. -/
theorem C81_near_iff (h : d.OnMesh M) (hv : ValidOCP d.ocp) (hs : d.ocp.SettingsOK) (hsc : d.ocp.PosScales) :
    ∃ nlp, d.createNlp = .ok nlp ∧ ∀ (εb ε : K) (σ : Env K),
      nlp.FeasibleTo εb ε σ ↔ SolvesTo εb ε d.ocp M (physOf d.ocp σ) := by
  obtain ⟨bs, J, nlp, hn, hbl, hbs, hsz, hx, hl, hu, -, -, ev, hevs, hev1, hev2, hg, hlg, hug⟩ :=
    h.createNlp_spec hv hs hsc
  refine ⟨nlp, hn, fun εb ε σ => ?_⟩
  unfold Disc.NLP.FeasibleTo
  have hbox : HoldsTo εb (nlp.x.map σ) nlp.lbx nlp.ubx ↔
      ∀ ph < d.ocp.nPhases, BoundsTo εb d.ocp M (physOf d.ocp σ) ph := by
    rw [holdsTo_iff_by, hl, hu, holdsBy_map, hx]
    simp only [List.mem_flatMap, List.mem_range]
    constructor
    · intro hh ph hph
      exact (h.boundsTo_spec hv hsc εb σ).1 fun s hs => hh s ⟨ph, hph, hs⟩
    · rintro hh s ⟨ph, hph, hs⟩
      exact (h.boundsTo_spec hv hsc εb σ).2 (hh ph hph) s hs
  have hrows : HoldsTo ε (evalAll nlp.g σ) nlp.lbg nlp.ubg ↔
      (∀ b ∈ bs, b.SatBy (WithinTo ε) σ) ∧ ∀ b ∈ ev, b.SatBy (WithinTo ε) σ := by
    rw [holdsTo_iff_by, hg, hlg, hug, satBy_flatten (by
      intro b hb
      rcases List.mem_append.1 hb with hb | hb
      · exact hsz b hb
      · exact hevs b hb)]
    simp only [List.mem_append]
    exact ⟨fun h => ⟨fun b hb => h b (Or.inl hb), fun b hb => h b (Or.inr hb)⟩,
      fun h b hb => hb.elim (h.1 b) (h.2 b)⟩
  have hphase : (∀ b ∈ bs, b.SatBy (WithinTo ε) σ) ↔ ∀ ph < d.ocp.nPhases,
      RowsBy (WithinTo ε) d.ocp M (physOf d.ocp σ) ph := by
    have key : ∀ ph (hb : ph < bs.length), bs[ph].SatBy (WithinTo ε) σ ↔
        RowsBy (WithinTo ε) d.ocp M (physOf d.ocp σ) ph := by
      intro ph hb
      have hph : ph < d.ocp.nPhases := by omega
      obtain ⟨B, J', rc, tc, hB, -, hsat, -⟩ := h.discretizePhase_rows hv hs hsc hph
      have hB' := hbs ph _ (List.getElem?_eq_getElem hb)
      rw [hB] at hB'
      injection hB' with hB'
      injection hB' with hB' _
      rw [← hB']
      exact hsat _ σ (withinTo_free ε)
    constructor
    · intro hh ph hph
      exact (key ph (by omega)).1 (hh _ (List.getElem_mem _))
    · intro hh b hb
      obtain ⟨ph, hph, rfl⟩ := List.mem_iff_getElem.1 hb
      exact (key ph hph).2 (hh ph (by omega))
  have hlink : (∀ b ∈ ev, b.SatBy (WithinTo ε) σ) ↔
      (2 ≤ d.ocp.nPhases → LinksTo ε d.ocp M (physOf d.ocp σ)) := by
    by_cases h2 : 2 ≤ d.ocp.nPhases
    · obtain ⟨e, he, rfl⟩ := hev2 h2
      obtain ⟨e', he', -, hsat⟩ := h.eventBlock_rows hv hs hsc h2
      rw [he] at he'; cases he'
      simp [h2, hsat, linkRowsBy_withinTo hv hsc]
    · rw [hev1 (by omega)]
      simp [h2]
  rw [hbox, hrows, hphase, hlink]
  simp only [rowsBy_withinTo hv hsc]
  constructor
  · rintro ⟨hb, hp, hl⟩
    exact ⟨hb, fun ph hph => (hp ph hph).1, fun ph hph => (hp ph hph).2.1,
      fun ph hph => (hp ph hph).2.2.2.2.2, fun ph hph => (hp ph hph).2.2.1, fun ph hph => (hp ph hph).2.2.2.1,
      fun ph hph => (hp ph hph).2.2.2.2.1, hl⟩
  · rintro ⟨hb, h1, h2, h3, h4, h5, h6, hl⟩
    exact ⟨hb, fun ph hph => ⟨h1 ph hph, h2 ph hph, h4 ph hph, h5 ph hph, h6 ph hph, h3 ph hph⟩, hl⟩

/-- **C81** Without tolerances the trajectory solves the collocated problem. -/
theorem C81_exact {ocp : OCP K} (T : Traj K) : SolvesTo 0 0 ocp M T ↔ SolvesOCP ocp M T := by
  have ab : ∀ v : K, |v| ≤ 0 ↔ v = 0 := fun v => abs_nonpos_iff
  constructor
  · rintro ⟨h1, h2, h3, h4, h5, h6, h7, h8⟩
    refine ⟨⟨fun ph hp => ?_, fun ph hp F hF j hj s i ho => ?_, h3, fun ph hp F hF c hc => ?_,
      fun ph hp hm j hj s hs i hi => ?_, fun ph hp hm j hj s hs => ?_, fun h2 => ?_⟩,
      fun ph hp hd j hj s i ho => (withinTo_exact _ _ _).1 (h5 ph hp hd j hj s i ho)⟩
    · obtain ⟨b1, b2, b3, b4, b5, b6⟩ := h1 ph hp
      simp only [zero_div, withinTo_exact, ab, sub_eq_zero] at b1 b2 b3 b4 b5 b6
      exact ⟨b1, b2, b3, b4, b5, b6⟩
    · have := h2 ph hp F hF j hj s i ho
      rwa [zero_div, ab, sub_eq_zero] at this
    · exact (ab _).1 (h4 ph hp F hF c hc)
    · have := h6 ph hp hm j hj s hs i hi
      rwa [zero_div, withinTo_exact] at this
    · have := h7 ph hp hm j hj s hs
      rwa [zero_div, ab, sub_eq_zero] at this
    · obtain ⟨b1, b2, b3⟩ := h8 h2
      simp only [zero_div, withinTo_exact, ab, sub_eq_zero] at b1 b2 b3
      exact ⟨b1, b2, b3⟩
  · rintro ⟨⟨h1, h2, h3, h4, h6, h7, h8⟩, h5⟩
    refine ⟨fun ph hp => ?_, fun ph hp F hF j hj s i ho => ?_, h3, fun ph hp F hF c hc => ?_,
      fun ph hp hd j hj s i ho => (withinTo_exact _ _ _).2 (h5 ph hp hd j hj s i ho),
      fun ph hp hm j hj s hs i hi => ?_, fun ph hp hm j hj s hs => ?_, fun h2 => ?_⟩
    · obtain ⟨b1, b2, b3, b4, b5, b6⟩ := h1 ph hp
      refine ⟨?_, ?_, ?_, ?_, ?_, ?_⟩ <;> simp only [zero_div, withinTo_exact, ab, sub_eq_zero] <;> assumption
    · rw [zero_div, ab, sub_eq_zero]; exact h2 ph hp F hF j hj s i ho
    · exact (ab _).2 (h4 ph hp F hF c hc)
    · rw [zero_div, withinTo_exact]; exact h6 ph hp hm j hj s hs i hi
    · rw [zero_div, ab, sub_eq_zero]; exact h7 ph hp hm j hj s hs
    · obtain ⟨b1, b2, b3⟩ := h8 h2
      refine ⟨?_, ?_, ?_⟩ <;> simp only [zero_div, withinTo_exact, ab, sub_eq_zero] <;> assumption

variable {w : Outside K V} {nlpsol : SolverCall K V → Py (List K)} {ocp : OCP K}
    {ptp : List (List Nat)} {n : Nat} {arg : OrdersArg} {scheme : String} {a : SolveArgs K V} {rx rdx : Bool}
    {s : Session K V} {p : Post K} {r : Option (PyDict (ResidVal K))}

/-- Near solutions of the NLP handed to the solver, in terms of trajectories. -/
theorem near_call_spec {c : SolverCall K V} (h : d.OnMesh M) (hv : ValidOCP d.ocp)
    (hs : d.ocp.SettingsOK) (hsc : d.ocp.PosScales) (hn : d.createNlp = .ok c.bounds)
    (hp : c.solver.problem = c.bounds) (z : List K) (hc : c.p.length = d.widthParams.length) (εb ε : K) :
    c.NearSolution εb ε z ↔
      z.length = d.allVars.length ∧ SolvesTo εb ε d.ocp M (physOf d.ocp (d.envOf z c.p)) := by
  obtain ⟨bs, J, nlp, hn', -, -, -, hx, -, -, hpp, -⟩ := h.createNlp_spec hv hs hsc
  obtain ⟨nlp', hn'', hiff⟩ := C81_near_iff h hv hs hsc
  rw [hn] at hn' hn''
  cases hn'; cases hn''
  have hpt : c.point z = d.envOf z c.p := by
    unfold SolverCall.point Disc.envOf
    rw [hp, hx, hpp]; rfl
  constructor
  · rintro ⟨h1, h2, h3, h4⟩
    have hz : z.length = d.allVars.length := by rw [h1, hp, hx]; rfl
    refine ⟨hz, (hiff εb ε _).1 ⟨?_, ?_⟩⟩
    · rw [hx]
      have := (Disc.envOf_map hz hc).1
      unfold Disc.allVars at this
      rw [this]; exact h3
    · rw [← hpt, ← hp] at *; exact h4
  · rintro ⟨hz, h1⟩
    obtain ⟨h3, h4⟩ := (hiff εb ε _).2 h1
    refine ⟨by rw [hz, hp, hx]; rfl, by rw [hc, hp, hpp], ?_, ?_⟩
    · rw [hx] at h3
      have := (Disc.envOf_map hz hc).1
      unfold Disc.allVars at this
      rw [this] at h3; exact h3
    · rw [hpt, hp]; exact h4

/-- A near solution of the NLP, shown by the post-processor. -/
theorem shown_of_near {c : SolverCall K V} {z : List K} {εb ε : K} (hv : ValidOCP ocp) (hs : ocp.SettingsOK)
    (hsc : ocp.PosScales) (h2 : p.solved.disc.OnMesh M) (h3 : p.solved.disc.ocp = ocp)
    (h4 : p.solved.disc.nSegments = n) (h5 : p.solved.widths = c.p) (h6 : p.solved.z = z)
    (h7 : p.scaling = false) (h8 : p.solved.disc.createNlp = .ok c.bounds) (h9 : c.solver.problem = c.bounds)
    (h10 : match a.widths with
        | some l => c.p = l
        | none => equalWidths n ocp.nPhases = .ok c.p) (hsol : c.NearSolution εb ε z) :
    c.p.length = p.solved.disc.widthParams.length ∧ SolvesTo εb ε ocp M p.solved.traj ∧
      WidthsAre ocp n a.widths p.solved.traj ∧ p.Shows ocp M p.solved.traj := by
  subst h3 h6
  obtain ⟨bs, J, nlp, hn', -, -, -, hx, -, -, hpp, -⟩ := h2.createNlp_spec hv hs hsc
  rw [h8] at hn'; cases hn'
  have hc : c.p.length = p.solved.disc.widthParams.length := by rw [hsol.p, h9, hpp]
  obtain ⟨hz, hfeas⟩ := (near_call_spec h2 hv hs hsc h8 h9 p.solved.z hc εb ε).1 hsol
  rw [← h5] at hfeas hc
  have hready : p.solved.Ready M := ⟨h2, hv, hz, hc, fun s hs => (hsc.x s hs).ne',
    fun s hs => (hsc.u s hs).ne', fun s hs => (hsc.a s hs).ne'⟩
  refine ⟨by rw [← h5]; exact hc, hfeas, ?_, ?_⟩
  · rw [packWidths_iff h10, ← h4, packWidths_eq, ← h5]
    have e := (Disc.envOf_map hz hc).2
    conv_rhs => rw [← e]
    apply List.map_congr_left
    intro s hs
    obtain ⟨ph, -, i, -, rfl⟩ := Disc.mem_widthParams.1 hs
    rfl
  · intro phases hne hph
    obtain ⟨D, d1, d2, d3, d4, -⟩ := C25_get_data hready phases hne hph
    have hu : ∀ sc : List K, unitOr p.scaling sc = fun _ => 1 := by
      intro sc; funext j; rw [unitOr, h7]; rfl
    rw [hu] at d2 d3
    exact ⟨D, d1, d2, d3, d4⟩

/-- **C81** When the module-level `solve` returns and the NLP solver only promises points within its tolerances, the
node values shown are those of a trajectory that solves the collocated problem of the user up to these tolerances,
each divided by the scale factor of the variable or state it belongs to. -/
theorem C81_solve_near (hrun : mpSolve w nlpsol ocp ptp n arg scheme a rx rdx = .ok (s, p, r))
    (hv : ValidOCP ocp) (hs : ocp.SettingsOK) (hsc : ocp.PosScales) (hM : MeshFor w scheme n arg M) {εb ε : K}
    (hnear : ∀ c z, nlpsol c = .ok z → c.NearSolution εb ε z) :
    ∃ T, SolvesTo εb ε ocp M T ∧ WidthsAre ocp n a.widths T ∧ p.Shows ocp M T := by
  obtain ⟨c, z, h1, h2, h3, h4, h5, h6, h7, h8, h9, h10⟩ := mpSolve_pieces hrun hM
  exact ⟨_, (shown_of_near hv hs hsc h2 h3 h4 h5 h6 h7 h8 h9 h10 (hnear c z h1)).2⟩

/-- **C81** With a solver that is in addition optimal up to `η`, the cost of the trajectory shown exceeds the cost of no
trajectory that solves the collocated problem on that mesh with those widths by more than `η`. -/
theorem C81_solve_near_optimal (hrun : mpSolve w nlpsol ocp ptp n arg scheme a rx rdx = .ok (s, p, r))
    (hv : ValidOCP ocp) (hs : ocp.SettingsOK) (hsc : ocp.PosScales) (hM : MeshFor w scheme n arg M) {εb ε η : K}
    (hopt : ∀ c z, nlpsol c = .ok z → c.NearOptimal εb ε η z) :
    ∃ T W J, compQuadWeights ⟨w.method, w.tau0, w.tau1, tausFn w.lib w.tau0 w.tau1 scheme⟩ M.orders = .ok W ∧
      SolvesTo εb ε ocp M T ∧ WidthsAre ocp n a.widths T ∧ p.Shows ocp M T ∧ PhysCost ocp M W T J ∧
      ∀ T' J', SolvesOCP ocp M T' → WidthsAre ocp n a.widths T' → PhysCost ocp M W T' J' → J ≤ J' + η := by
  obtain ⟨orders, d, c0, z0, i1, i2, -, -, -, -, i7, -⟩ := mpSolve_inv hrun
  obtain ⟨c, z, h1, h2, h3, h4, h5, h6, h7, h8, h9, h10⟩ := mpSolve_pieces hrun hM
  have ho := hopt c z h1
  obtain ⟨hc, hS, hw, hsh⟩ := shown_of_near hv hs hsc h2 h3 h4 h5 h6 h7 h8 h9 h10 ho.sol
  obtain ⟨-, -, -, -, g5, -, -⟩ := mkDisc_inv i2
  have hcol : p.solved.disc.colloc = ⟨w.method, w.tau0, w.tau1, tausFn w.lib w.tau0 w.tau1 scheme⟩ := by
    rw [i7]; exact g5
  subst h3 h6
  have hcost := (call_spec h2 hv hs hsc h8 h9 p.solved.z hc).2
  refine ⟨_, p.solved.disc.compW, c.solver.problem.f (c.point p.solved.z), ?_, hS, hw, hsh, ?_,
    fun T' J' hS' hw' hJ' => ?_⟩
  · rw [← hcol, h2.orders]; exact h2.compW
  · unfold Solved.traj; rw [h5]; exact hcost
  · obtain ⟨k1, k2⟩ := call_trajectories h2 hv hs hsc h8 h9 hc (req := a.widths) (by rw [h4]; exact h10)
    rw [h4] at k1 k2
    rw [← k2 T' J' hw' hJ']
    exact ho.best _ ((k1 _).2 ⟨T', hS', hw', rfl⟩)

/-! ### The solutions of the call are the trajectories up to tolerances -/

theorem SameOn.solvesTo {S T : Traj K} {εb ε : K} (h : SameOn ocp M.N M.orders.length S T) (hs : ocp.SettingsOK)
    (hS : SolvesTo εb ε ocp M S) : SolvesTo εb ε ocp M T := by
  have hN : 0 < M.N := by unfold Mesh.N; omega
  obtain ⟨h1, h2, h3, h4, h5, h6, h7, h8⟩ := hS
  refine ⟨fun ph hp => ?_, fun ph hp F hF j hj s i ho => ?_, fun ph hp F hF s i ho c hc => ?_,
    fun ph hp F hF c hc => ?_, fun ph hp hd j hj s i ho => ?_, fun ph hp hd j hj s hs i hi => ?_,
    fun ph hp hd j hj s hs => ?_, fun hm => ?_⟩
  · obtain ⟨b1, b2, b3, b4, b5, b6⟩ := h1 ph hp
    refine ⟨fun h0 j hj => ?_, fun i hi hn j hj => ?_, fun i hi j hj => ?_, ?_, ?_, fun k hk => ?_⟩
    · rw [← h.x 0 (by omega) 0 hN j hj]; exact b1 h0 j hj
    · rw [← h.x ph hp i hi j hj]; exact b2 i hi hn j hj
    · rw [← h.u ph hp i hi j hj]; exact b3 i hi j hj
    · rw [← h.t0 ph hp]; exact b4
    · rw [← h.tf ph hp]; exact b5
    · rw [← h.a ph hp k hk]; exact b6 k hk
  · rw [← Mesh.piece_congr ho.1 fun k hk => h.x ph hp k hk j hj, ← h.half hp ho.1, ← h.time hp ho.1,
      ← h.pArg hp (Mesh.idx_lt ho.1 ho.2.1)]
    exact h2 ph hp F hF j hj s i ho
  · rw [← h.time hp ho.1, ← h.pArg hp (Mesh.idx_lt ho.1 ho.2.1)]
    exact h3 ph hp F hF s i ho c hc
  · rw [← h.tArg hp]
    exact h4 ph hp F hF c hc
  · rw [← Mesh.piece_congr ho.1 fun k hk => h.u ph hp k hk j hj]
    exact h5 ph hp hd j hj s i ho
  · rw [← Mesh.piece_congr hs fun k hk => h.u ph hp k hk j hj]
    exact h6 ph hp hd j hj s hs i hi
  · rw [← Mesh.piece_congr (show s < _ by omega) fun k hk => h.u ph hp k hk j hj,
      ← Mesh.piece_congr hs fun k hk => h.u ph hp k hk j hj]
    exact h7 ph hp hd j hj s hs
  · have hr : ∀ (k p q : Nat), ocp.phaseLinks[k]? = some (p, q) → p < ocp.nPhases ∧ q < ocp.nPhases :=
      fun k p q e => hs.linkRange (p, q) (List.mem_of_getElem? e)
    obtain ⟨l1, l2, l3⟩ := h8 hm
    refine ⟨fun k p q e j hj => ?_, fun k p q e j hj => ?_, fun k p q e => ?_⟩
    · obtain ⟨hp, hq⟩ := hr k p q e
      rw [← h.x q hq 0 hN j hj, ← h.x p hp _ (by omega) j hj]
      exact l1 k p q e j hj
    · obtain ⟨hp, hq⟩ := hr k p q e
      rw [← h.u q hq 0 hN j hj, ← h.u p hp _ (by omega) j hj]
      exact l2 k p q e j hj
    · obtain ⟨hp, hq⟩ := hr k p q e
      rw [← h.t0 q hq, ← h.tf p hp]
      exact l3 k p q e

theorem call_near_trajectories {c : SolverCall K V} {req : Option (List K)} (h : d.OnMesh M)
    (hv : ValidOCP d.ocp) (hs : d.ocp.SettingsOK) (hsc : d.ocp.PosScales) (hn : d.createNlp = .ok c.bounds)
    (hp : c.solver.problem = c.bounds) (hc : c.p.length = d.widthParams.length)
    (hreq : match req with
        | some l => c.p = l
        | none => equalWidths d.nSegments d.ocp.nPhases = .ok c.p) (εb ε : K) (z : List K) :
    c.NearSolution εb ε z ↔ ∃ T, SolvesTo εb ε d.ocp M T ∧ WidthsAre d.ocp d.nSegments req T ∧
        z = d.ocp.packVec M.N T := by
  have hN : d.N = M.N := h.N_eq.symm
  constructor
  · intro hz
    obtain ⟨h1, h2⟩ := (near_call_spec h hv hs hsc hn hp z hc εb ε).1 hz
    refine ⟨_, h2, ?_, by rw [← hN]; exact (pack_decoded hv hsc h1 hc).symm⟩
    rw [packWidths_iff hreq, packWidths_eq]
    conv_rhs => rw [← (Disc.envOf_map h1 hc).2]
    apply List.map_congr_left
    intro s hs
    obtain ⟨ph, -, i, -, rfl⟩ := Disc.mem_widthParams.1 hs
    rfl
  · rintro ⟨T, hS, hw, rfl⟩
    have hsame := decoded_packed h hv hsc T ((packWidths_iff hreq).1 hw)
    refine (near_call_spec h hv hs hsc hn hp _ hc εb ε).2 ⟨?_, hsame.symm.solvesTo hs hS⟩
    rw [← hN, packVec_eq, List.length_map]

/-- **C81** The call of the solver object that `solve` makes: the points a solver with given tolerances may return are
exactly the packed trajectories that solve the collocated problem up to these tolerances, the objective is their cost,
and `solve` returns whenever the call returns such a point. -/
theorem C81_solve_returns (hv : ValidOCP ocp) (hs : ocp.SettingsOK) (hsc : ocp.PosScales)
    (hM : MeshFor w scheme n arg M) (hn : M.orders.length = n) (hlt : w.tau0 < w.tau1)
    (hacc : w.accepts a.plugin (solverOptions w.vals a.plugin a.options) = true)
    (hwid : GoodWidths ocp n a.widths)
    (ht : ∀ ph < ocp.nPhases, entry ocp.t00 ph 0 0 ≠ entry ocp.tf0 ph 0 0) (hptp : ptp ≠ []) :
    ∃ (c : SolverCall K V) (W : List K),
      compQuadWeights ⟨w.method, w.tau0, w.tau1, tausFn w.lib w.tau0 w.tau1 scheme⟩ M.orders = .ok W ∧
      (∀ z, c.IsSolution z ↔ ∃ T, SolvesOCP ocp M T ∧ WidthsAre ocp n a.widths T ∧ z = ocp.packVec M.N T) ∧
      (∀ εb ε z, c.NearSolution εb ε z ↔
        ∃ T, SolvesTo εb ε ocp M T ∧ WidthsAre ocp n a.widths T ∧ z = ocp.packVec M.N T) ∧
      (∀ T J, WidthsAre ocp n a.widths T → PhysCost ocp M W T J →
        c.solver.problem.f (c.point (ocp.packVec M.N T)) = J) ∧
      ∀ (nlpsol : SolverCall K V → Py (List K)) (εb ε : K) (z : List K), nlpsol c = .ok z → c.NearSolution εb ε z →
        ∃ out, mpSolve w nlpsol ocp ptp n arg scheme a rx rdx = .ok out := by
  obtain ⟨c, d, h1, rfl, rfl, h4, h5, h6, h7, h8, h9⟩ := solve_call (ptp := ptp) (rx := rx) (rdx := rdx) hv hs hsc hM hn
    hlt hacc hwid ht hptp
  obtain ⟨k1, k2⟩ := call_trajectories h1 hv hs hsc h5 h6 h7 h8
  exact ⟨c, d.compW, h4, k1, call_near_trajectories h1 hv hs hsc h5 h6 h7 h8, k2,
    fun f εb ε z hz hsol => h9 f z hz hsol.x⟩

end MPOpt
