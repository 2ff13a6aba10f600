import Verif.Model.Negative
import Verif.Props.Transcription

/-! # C113: phase numbers below zero -/

set_option autoImplicit false
set_option linter.unusedSectionVars false

namespace MPOpt
variable {K : Type} [Field K] [LinearOrder K]

/-- `i` names phase `p` out of `n`: from the front, or from the end when negative. -/
def Names (n : Nat) (i : Int) (p : Nat) : Prop := p < n ∧ (i = p ∨ i + n = p)

theorem Names.wrap {n p : Nat} {i : Int} (h : Names n i p) : wrapIdx n i = .ok p := by
  obtain ⟨h1, rfl | h2⟩ := h
  · unfold wrapIdx; simp [h1]
  · unfold wrapIdx
    rw [if_neg (by omega), if_pos (by omega), h2]
    rfl

/-- Numbers that name no phase raise `IndexError`. -/
theorem wrapIdx_error {n : Nat} {i : Int} (h : ∀ p, ¬ Names n i p) : wrapIdx n i = .error .index := by
  unfold wrapIdx
  split
  · split
    · exact absurd ⟨by omega, Or.inl (by omega)⟩ (h i.toNat)
    · rfl
  · split
    · exact absurd ⟨by omega, Or.inr (by omega)⟩ (h (i + n).toNat)
    · rfl

theorem Names.idx {α : Type} {l : List α} {p : Nat} {i : Int} (h : Names l.length i p) : pyIdxZ l i = pyIdx l p := by
  unfold pyIdxZ; rw [h.wrap]; rfl

/-- The slice of the widths. -/
theorem Names.slice {e : Solved K} {p : Nat} {i : Int} (h : Names e.disc.ocp.nPhases i p) (hi : i ≠ -1)
    (hw : e.widths.length = e.disc.nSegments * e.disc.ocp.nPhases) : e.phaseWidthsZ i = e.phaseWidths p := by
  obtain ⟨hp, h⟩ := h
  have hcast : (e.widths.length : Int) = e.disc.nSegments * e.disc.ocp.nPhases := by rw [hw]; push_cast; rfl
  have hle : e.disc.nSegments * p + e.disc.nSegments ≤ e.widths.length := by
    rw [hw, ← Nat.mul_succ]; exact Nat.mul_le_mul_left _ hp
  have e1 : sliceBound e.widths.length (e.disc.nSegments * i) = e.disc.nSegments * p := by
    unfold sliceBound
    rcases h with rfl | h
    · rw [if_pos (by positivity)]
      have : ((e.disc.nSegments : Int) * p).toNat = e.disc.nSegments * p := by
        rw [← Nat.cast_mul]; rfl
      omega
    · rcases Nat.eq_zero_or_pos e.disc.nSegments with h0 | h0
      · simp [h0]
      · have hneg : (e.disc.nSegments : Int) * i < 0 := by
          have : i < 0 := by omega
          exact mul_neg_of_pos_of_neg (by exact_mod_cast h0) this
        rw [if_neg (by omega), hcast, ← mul_add, h, ← Nat.cast_mul]
        rfl
  have e2 : sliceBound e.widths.length (e.disc.nSegments * (i + 1)) = e.disc.nSegments * p + e.disc.nSegments := by
    unfold sliceBound
    rcases h with rfl | h
    · rw [if_pos (by positivity)]
      have : ((e.disc.nSegments : Int) * (p + 1)).toNat = e.disc.nSegments * p + e.disc.nSegments := by
        rw [← Nat.mul_succ]
        rw [show ((e.disc.nSegments : Int) * (p + 1)) = ((e.disc.nSegments * p.succ : Nat) : Int) by push_cast; rfl]
        rfl
      omega
    · rcases Nat.eq_zero_or_pos e.disc.nSegments with h0 | h0
      · simp [h0]
      · have hneg : (e.disc.nSegments : Int) * (i + 1) < 0 := by
          have : i + 1 < 0 := by omega
          exact mul_neg_of_pos_of_neg (by exact_mod_cast h0) this
        rw [if_neg (by omega), hcast, ← mul_add, show i + 1 + (e.disc.ocp.nPhases : Int) = p + 1 by omega, ← Nat.mul_succ]
        rw [show ((e.disc.nSegments : Int) * (p + 1)) = ((e.disc.nSegments * p.succ : Nat) : Int) by push_cast; rfl]
        rfl
  unfold Solved.phaseWidthsZ Solved.phaseWidths pySlice phaseSlice
  rw [e1, e2, Nat.add_sub_cancel_left]

/-- With `-1` the slice is empty: it ends at position 0. -/
theorem slice_last (e : Solved K) : e.phaseWidthsZ (-1) = [] := by
  unfold Solved.phaseWidthsZ pySlice
  have : sliceBound e.widths.length (e.disc.nSegments * (-1 + 1)) = 0 := by
    unfold sliceBound
    simp
  rw [this, Nat.zero_sub, List.take_zero]

/-! ## Links between phases -/

/-- The discretised problem with other links. -/
def Disc.withLinks (d : Disc K) (ps : List (Nat × Nat)) : Disc K := { d with ocp := { d.ocp with phaseLinks := ps } }

section
variable {d : Disc K}

theorem mapM_forall2 {α β γ : Type} {R : α → β → Prop} {f : α → Py γ} {g : β → γ} (h : ∀ a b, R a b → f a = .ok (g b))
    {l : List α} {l' : List β} (hl : List.Forall₂ R l l') : l.mapM f = .ok (l'.map g) := by
  induction hl with
  | nil => rfl
  | cons hab _ ih => rw [List.mapM_cons, h _ _ hab, py_bind_ok, ih, py_bind_ok]; rfl

/-- **C113** Links with negative numbers give the constraints of the links between the phases they name. -/
theorem C113_event {links : List (Int × Int)} {ps : List (Nat × Nat)}
    (h : List.Forall₂ (fun l p => Names d.ocp.nPhases l.1 p.1 ∧ Names d.ocp.nPhases l.2 p.2) links ps) :
    d.eventBlockZ links = (d.withLinks ps).eventBlock := by
  unfold Disc.eventBlockZ Disc.eventBlock
  by_cases h2 : d.ocp.nPhases < 2
  · rw [if_pos h2, if_pos (show (d.withLinks ps).ocp.nPhases < 2 from h2)]
  · rw [if_neg h2, if_neg (show ¬ (d.withLinks ps).ocp.nPhases < 2 from h2)]
    have hany : (d.withLinks ps).ocp.phaseLinks.any (fun l => decide ((d.withLinks ps).ocp.nPhases ≤ l.1) ||
        decide ((d.withLinks ps).ocp.nPhases ≤ l.2)) = false := by
      show ps.any (fun l => decide (d.ocp.nPhases ≤ l.1) || decide (d.ocp.nPhases ≤ l.2)) = false
      rw [List.any_eq_false]
      intro p hp
      obtain ⟨k, hk, rfl⟩ := List.getElem_of_mem hp
      have hk' : k < links.length := by rw [h.length_eq]; exact hk
      obtain ⟨h1, h2⟩ := (List.forall₂_iff_get.1 h).2 k hk' hk
      have a := h1.1
      have b := h2.1
      simp only [List.get_eq_getElem] at a b
      simp [a, b]
    have hlen : (d.withLinks ps).ocp.phaseLinks.length = links.length := h.length_eq.symm
    dsimp only
    rw [hany, hlen]
    have m0 := mapM_forall2 (γ := List (SX K)) (f := fun l => do
        let j ← wrapIdx d.ocp.nPhases l.2
        let i ← wrapIdx d.ocp.nPhases l.1
        return (List.range d.ocp.nx).map fun c => (fun σ => σ (.X j 0 c) - σ (.X i (d.N - 1) c) : SX K))
      (g := fun p => (List.range d.ocp.nx).map fun c => (fun σ => σ (.X p.2 0 c) - σ (.X p.1 (d.N - 1) c) : SX K))
      (fun a b hab => by rw [hab.2.wrap, py_bind_ok, hab.1.wrap, py_bind_ok]; rfl) h
    have m1 := mapM_forall2 (γ := List (SX K)) (f := fun l => do
        let j ← wrapIdx d.ocp.nPhases l.2
        let i ← wrapIdx d.ocp.nPhases l.1
        return (List.range d.ocp.nu).map fun c => (fun σ => σ (.U j 0 c) - σ (.U i (d.N - 1) c) : SX K))
      (g := fun p => (List.range d.ocp.nu).map fun c => (fun σ => σ (.U p.2 0 c) - σ (.U p.1 (d.N - 1) c) : SX K))
      (fun a b hab => by rw [hab.2.wrap, py_bind_ok, hab.1.wrap, py_bind_ok]; rfl) h
    have m2 := mapM_forall2 (γ := SX K) (f := fun l => do
        let j ← wrapIdx d.ocp.nPhases l.2
        let i ← wrapIdx d.ocp.nPhases l.1
        return (fun σ => σ (.T0 j) - σ (.Tf i) : SX K))
      (g := fun p => (fun σ => σ (.T0 p.2) - σ (.Tf p.1) : SX K))
      (fun a b hab => by rw [hab.2.wrap, py_bind_ok, hab.1.wrap, py_bind_ok]; rfl) h
    simp only [m0, m1, m2, py_bind_ok, Bool.false_eq_true, if_false]
    simp only [← List.flatMap_def]
    rfl

/-- **C113** The rows hold iff the phases named are linked. -/
theorem C113_links [IsStrictOrderedRing K] {M : Mesh K} (hM : d.OnMesh M) {links : List (Int × Int)} {ps : List (Nat × Nat)}
    (h : List.Forall₂ (fun l p => Names d.ocp.nPhases l.1 p.1 ∧ Names d.ocp.nPhases l.2 p.2) links ps)
    (hv : ValidOCP (d.withLinks ps).ocp) (hs : (d.withLinks ps).ocp.SettingsOK) (hsc : d.ocp.PosScales)
    (h2 : 2 ≤ d.ocp.nPhases) : ∃ B, d.eventBlockZ links = .ok B ∧
      ∀ σ, Holds (evalAll B.g σ) B.lo B.hi ↔ LinksOK (d.withLinks ps).ocp M (physOf d.ocp σ) := by
  rw [C113_event h]
  exact C16_link_rows (d := d.withLinks ps) ⟨hM.1, hM.2, hM.3, hM.4, hM.5, hM.6, hM.7, hM.8⟩ hv hs ⟨hsc.1, hsc.2, hsc.3, hsc.4⟩ h2

/-- **C113** A link that names no phase raises `IndexError`. -/
theorem C113_event_raises {links : List (Int × Int)} (h2 : 2 ≤ d.ocp.nPhases) {l : Int × Int} (hl : l ∈ links)
    (h : (∀ p, ¬ Names d.ocp.nPhases l.1 p) ∨ ∀ p, ¬ Names d.ocp.nPhases l.2 p) :
    d.eventBlockZ links = .error .index := by
  have key : ∀ ls : List (Int × Int), (∃ l ∈ ls, (∀ p, ¬ Names d.ocp.nPhases l.1 p) ∨ ∀ p, ¬ Names d.ocp.nPhases l.2 p) →
      ls.mapM (fun l => do
        let j ← wrapIdx d.ocp.nPhases l.2
        let i ← wrapIdx d.ocp.nPhases l.1
        return (List.range d.ocp.nx).map fun c => (fun σ => σ (.X j 0 c) - σ (.X i (d.N - 1) c) : SX K)) =
        (.error .index : Py (List (List (SX K)))) := by
    intro ls
    induction ls with
    | nil => rintro ⟨_, h, -⟩; simp at h
    | cons a as ih =>
      intro hex
      rw [List.mapM_cons]
      by_cases ha : ∃ p, Names d.ocp.nPhases a.1 p
      · obtain ⟨p, hp⟩ := ha
        by_cases hb : ∃ q, Names d.ocp.nPhases a.2 q
        · obtain ⟨q, hq⟩ := hb
          have hrest : ∃ l ∈ as, (∀ p, ¬ Names d.ocp.nPhases l.1 p) ∨ ∀ p, ¬ Names d.ocp.nPhases l.2 p := by
            obtain ⟨l, hl, h⟩ := hex
            rcases List.mem_cons.1 hl with rfl | hl
            · rcases h with h | h
              · exact absurd hp (h p)
              · exact absurd hq (h q)
            · exact ⟨l, hl, h⟩
          rw [hq.wrap, py_bind_ok, hp.wrap, py_bind_ok, ih hrest]
          rfl
        · rw [wrapIdx_error (not_exists.1 hb)]; rfl
      · by_cases hb : ∃ q, Names d.ocp.nPhases a.2 q
        · obtain ⟨q, hq⟩ := hb
          rw [hq.wrap, py_bind_ok, wrapIdx_error (not_exists.1 ha)]; rfl
        · rw [wrapIdx_error (not_exists.1 hb)]; rfl
  unfold Disc.eventBlockZ
  rw [if_neg (by omega)]
  dsimp only
  rw [key links ⟨l, hl, h⟩]
  rfl

theorem withLinks_nodeGrid (ps : List (Nat × Nat)) (ph : Nat) : (d.withLinks ps).nodeGrid ph = d.nodeGrid ph := by
  have key : ∀ n st, (d.withLinks ps).nodeLoop ph n st = d.nodeLoop ph n st := by
    intro n
    induction n with
    | zero => intro st; rfl
    | succ n ih =>
      intro st
      unfold Disc.nodeLoop
      simp only [ih]
      rfl
  unfold Disc.nodeGrid
  simp only [key]
  rfl

theorem withLinks_discretized (ps : List (Nat × Nat)) (ph : Nat) : (d.withLinks ps).discretized ph = d.discretized ph := by
  have : (d.withLinks ps).nodeArgs ph = d.nodeArgs ph := by
    unfold Disc.nodeArgs
    rw [withLinks_nodeGrid]
    rfl
  unfold Disc.discretized
  rw [this]
  rfl

theorem withLinks_discretize (ps : List (Nat × Nat)) : (d.withLinks ps).discretizePhase = d.discretizePhase := by
  funext ph
  unfold Disc.discretizePhase
  rw [withLinks_discretized]
  rfl

/-- **C113** The whole NLP of `mpopt` and `mpopt_h_adaptive`. -/
theorem C113_nlp {links : List (Int × Int)} {ps : List (Nat × Nat)}
    (h : List.Forall₂ (fun l p => Names d.ocp.nPhases l.1 p.1 ∧ Names d.ocp.nPhases l.2 p.2) links ps) :
    d.createNlpZ links d.nlpVariables d.discretizePhase = (d.withLinks ps).createNlp := by
  rw [Disc.createNlp_eq, show (d.withLinks ps).nlpVariables = d.nlpVariables from rfl,
    withLinks_discretize]
  unfold Disc.createNlpZ Disc.createNlpWith
  rw [C113_event h]
  rfl

section
variable (ad : Adapt K) (ps : List (Nat × Nat))

/-- The same for `mpopt_adaptive`. -/
def Adapt.withLinks : Adapt K := { ad with disc := ad.disc.withLinks ps }

theorem withLinks_widthBlock (ph : Nat) : (ad.withLinks ps).widthBlock ph = ad.widthBlock ph := by
  have hg : (ad.withLinks ps).disc.nodeGrid ph = ad.disc.nodeGrid ph := withLinks_nodeGrid ps ph
  have hr : (ad.withLinks ps).residualSeg = ad.residualSeg := rfl
  have hs : (ad.withLinks ps).widthSum ph = ad.widthSum ph := rfl
  unfold Adapt.widthBlock
  dsimp only
  rw [hg, hr, hs]
  rfl

theorem withLinks_discretize_adaptive : (ad.withLinks ps).discretizePhase = ad.discretizePhase := by
  funext ph
  have hd : (ad.withLinks ps).disc.discretized ph = ad.disc.discretized ph := withLinks_discretized ps ph
  unfold Adapt.discretizePhase
  dsimp only
  rw [hd, withLinks_widthBlock]
  rfl
end

/-- **C113** The whole NLP of `mpopt_adaptive`. -/
theorem C113_nlp_adaptive {ad : Adapt K} {links : List (Int × Int)} {ps : List (Nat × Nat)}
    (h : List.Forall₂ (fun l p => Names ad.disc.ocp.nPhases l.1 p.1 ∧ Names ad.disc.ocp.nPhases l.2 p.2) links ps) :
    ad.disc.createNlpZ links ad.nlpVariables ad.discretizePhase = (ad.withLinks ps).createNlp := by
  have hv : (ad.withLinks ps).nlpVariables = ad.nlpVariables := rfl
  unfold Adapt.createNlp
  rw [hv, withLinks_discretize_adaptive]
  unfold Disc.createNlpZ Disc.createNlpWith
  rw [C113_event h]
  rfl
end

/-! ## Results -/

section
variable {e : Solved K} {i : Int} {p : Nat}

theorem Names.trajectories (h : Names e.disc.ocp.nPhases i p) (z w : List K) :
    e.disc.trajectoriesZ i z w = e.disc.trajectories p z w := by
  unfold Disc.trajectoriesZ; rw [h.wrap]; rfl

/-- **C113** `get_data` takes the phases that the numbers name. -/
theorem C113_data (q : Post K) {is : List Int} {ps : List Nat} (h0 : is ≠ [])
    (h : List.Forall₂ (Names q.solved.disc.ocp.nPhases) is ps) (interpolate : Bool) :
    q.getDataZ is interpolate = q.getData ps interpolate := by
  have hT : ∀ i p, Names q.solved.disc.ocp.nPhases i p → q.getTrajectoriesZ i = q.getTrajectories p := by
    intro i p hip
    unfold Post.getTrajectoriesZ Post.getTrajectories
    dsimp only
    rw [hip.trajectories]
  have hA : ∀ I taus i p, Names q.solved.disc.ocp.nPhases i p → q.phaseAtZ I taus i = q.phaseAt I taus p := by
    intro I taus i p hip
    have e1 : q.originalDataZ [i] = q.getTrajectoriesZ i := by
      unfold Post.originalDataZ
      rw [show pyIdx [i] 0 = .ok i from rfl, py_bind_ok]
      exact bind_pure _
    have e2 : q.originalData [p] = q.getTrajectories p := by
      unfold Post.originalData
      simp only [List.isEmpty_cons, Bool.false_eq_true, if_false]
      rw [show pyIdx [p] 0 = .ok p from rfl, py_bind_ok]
      exact bind_pure _
    unfold Post.phaseAtZ Post.phaseAt
    dsimp only
    rw [e1, e2, hT i p hip]
  have fold : ∀ {α : Type} (F : α → Int → Py α) (G : α → Nat → Py α) {is : List Int} {ps : List Nat},
      (∀ a i p, Names q.solved.disc.ocp.nPhases i p → F a i = G a p) →
      List.Forall₂ (Names q.solved.disc.ocp.nPhases) is ps → ∀ a, is.foldlM F a = ps.foldlM G a := by
    intro α F G is ps hFG hl
    induction hl with
    | nil => intro a; rfl
    | cons hab _ ih =>
      intro a
      rw [List.foldlM_cons, List.foldlM_cons, hFG _ _ _ hab]
      congr 1
      funext b
      exact ih b
  cases h with
  | nil => exact absurd rfl h0
  | @cons i p is ps hip hl =>
    unfold Post.getDataZ Post.getData
    dsimp only [List.isEmpty_cons]
    cases interpolate
    · simp only [Bool.false_eq_true, if_false]
      unfold Post.originalDataZ Post.originalData
      simp only [List.isEmpty_cons, Bool.false_eq_true, if_false, List.tail_cons]
      show (do let first ← q.getTrajectoriesZ i; _) = (do let first ← q.getTrajectories p; _)
      rw [hT i p hip]
      congr 1
      funext first
      exact fold _ _ (fun a j r hjr => by rw [hT j r hjr]) hl first
    · simp only [if_true, Bool.false_eq_true, if_false]
      unfold Post.interpolatedDataZ Post.interpolatedData
      simp only [List.tail_cons]
      congr 1
      funext taus
      congr 1
      funext I
      rw [show pyIdx (i :: is) 0 = .ok i from rfl, show pyIdx (p :: ps) 0 = .ok p from rfl, py_bind_ok, py_bind_ok]
      rw [hA I taus i p hip]
      congr 1
      funext first
      exact fold _ _ (fun a j r hjr => by rw [hA I taus j r hjr]) hl first

/-- The residual grid. -/
theorem Names.grid (h : Names e.disc.ocp.nPhases i p) (hi : i ≠ -1) (hg : e.gridType.length = e.disc.ocp.nPhases)
    (hw : e.widths.length = e.disc.nSegments * e.disc.ocp.nPhases) (gt : Option String) :
    e.residualGridZ i gt = e.residualGrid p gt := by
  unfold Solved.residualGridZ Solved.residualGrid
  rw [h.slice hi hw, Names.idx (by rw [hg]; exact h)]
  rfl

theorem Names.interpolate (h : Names e.disc.ocp.nPhases i p) (hi : i ≠ -1) (hg : e.gridType.length = e.disc.ocp.nPhases)
    (hw : e.widths.length = e.disc.nSegments * e.disc.ocp.nPhases) (nodes : Option (List (List K))) :
    e.interpolateZ i nodes = e.interpolate p nodes := by
  unfold Solved.interpolateZ Solved.interpolate
  dsimp only
  rw [h.trajectories, Names.idx (by rw [hg]; exact h)]
  simp only [h.grid hi hg hw]
  rfl

/-- **C113** Except for `-1`, the residuals, integrated states and second derivatives are those of the phase named. -/
theorem C113_residuals (h : Names e.disc.ocp.nPhases i p) (hi : i ≠ -1) (hg : e.gridType.length = e.disc.ocp.nPhases)
    (hw : e.widths.length = e.disc.nSegments * e.disc.ocp.nPhases) (hd : e.disc.ocp.dynamics.length = e.disc.ocp.nPhases)
    (nodes : Option (List (List K))) : e.dynPhaseZ i nodes = e.dynPhase p nodes ∧
      e.statePhaseZ i nodes = e.statePhase p nodes ∧ e.secondPhaseZ i nodes = e.secondPhase p nodes := by
  have hseg : ∀ s r, e.hSegZ i s r = e.hSeg p s r := by
    intro s r
    unfold Solved.hSegZ Solved.hSeg
    rw [h.slice hi hw]
  have hG := Names.idx (l := e.gridType) (by rw [hg]; exact h)
  have hD := Names.idx (l := e.disc.ocp.dynamics) (by rw [hd]; exact h)
  refine ⟨?_, ?_, ?_⟩
  · unfold Solved.dynPhaseZ Solved.dynPhase
    simp only [h.interpolate hi hg hw, hD, hseg]
  · unfold Solved.statePhaseZ Solved.statePhase
    simp only [h.trajectories, h.interpolate hi hg hw, hD, hG, hseg, h.grid hi hg hw]
    rfl
  · unfold Solved.secondPhaseZ Solved.secondPhase
    simp only [h.trajectories, hG, h.grid hi hg hw]
    rfl

/-- **C113** `get_states_residuals` for phases given by numbers other than `-1`. -/
theorem C113_states {is : List Int} {ps : List Nat} (h : List.Forall₂ (Names e.disc.ocp.nPhases) is ps) (hi : -1 ∉ is)
    (hg : e.gridType.length = e.disc.ocp.nPhases) (hw : e.widths.length = e.disc.nSegments * e.disc.ocp.nPhases)
    (hd : e.disc.ocp.dynamics.length = e.disc.ocp.nPhases) {nodes : Option (List (List (List K)))}
    (hn : ∀ l, nodes = some l → l.length = e.disc.ocp.nPhases) (rel : Bool) :
    e.stateResidualsOfZ is nodes rel = e.stateResidualsOf (some ps) nodes rel := by
  have hT : ∀ i p, Names e.disc.ocp.nPhases i p → i ≠ -1 → e.stateTargetZ nodes i = e.stateTarget nodes p := by
    intro i p hip hne
    unfold Solved.stateTargetZ Solved.stateTarget
    cases nodes with
    | none =>
      dsimp only
      rw [Names.idx (by rw [hg]; exact hip)]
      simp only [hip.grid hne hg hw]
    | some l =>
      dsimp only
      rw [Names.idx (by rw [hn l rfl]; exact hip)]
  have hO : ∀ i p, Names e.disc.ocp.nPhases i p → i ≠ -1 → e.stateOneZ nodes rel i = e.stateOne nodes rel p := by
    intro i p hip hne
    unfold Solved.stateOneZ Solved.stateOne
    rw [hT i p hip hne]
    simp only [(C113_residuals hip hne hg hw hd _).2.1]
    rfl
  have hC : ∀ i p t, Names e.disc.ocp.nPhases i p → i ≠ -1 → e.stateControlsZ i t = e.stateControls p t := by
    intro i p t hip hne
    unfold Solved.stateControlsZ Solved.stateControls
    rw [Names.idx (by rw [hg]; exact hip)]
    simp only [hip.grid hne hg hw, hip.interpolate hne hg hw]
    rfl
  unfold Solved.stateResidualsOfZ Solved.stateResidualsOf
  simp only [Option.getD_some]
  generalize List.replicate e.disc.ocp.nPhases none = out
  induction h generalizing out with
  | nil => rfl
  | @cons i p is ps hip _ ih =>
    have hne : i ≠ -1 := fun h => hi (by simp [h])
    rw [List.foldlM_cons, List.foldlM_cons, hO i p hip hne, hT i p hip hne, hip.wrap]
    simp only [hC i p _ hip hne, py_bind_ok]
    congr 1
    funext out'
    exact ih (fun h => hi (List.mem_cons_of_mem _ h)) out'

/-- **C113** With `-1` the equally spaced grid fails its assertion: the widths handed over are an empty list. -/
theorem C113_last_fixed [IsStrictOrderedRing K] (e : Solved K) : e.residualGridZ (-1) (some "fixed") = .error .assertion := by
  have : decide (|(0 : K) - 1| < 1 / 1000000) = false := by
    rw [decide_eq_false_iff_not]
    rw [zero_sub, abs_neg, abs_one]
    norm_num
  have key : ∀ (l : List K) (a b : K), interpTaus l [] a b = .error .assertion := by
    intro l a b
    unfold interpTaus
    change (pyAssert (decide (|(0 : K) - 1| < 1 / 1000000)) >>= _) = _
    rw [this]
    rfl
  unfold Solved.residualGridZ
  simp only [beq_self_eq_true, if_true, py_bind_ok, slice_last, key]
  rfl

/-- **C113** With `-1` the integrated states are never computed. -/
theorem C113_last_states (e : Solved K) (hn : 0 < e.disc.nSegments) (nodes : Option (List (List K))) :
    ∃ err, e.statePhaseZ (-1) nodes = .error err := by
  cases hc : e.statePhaseZ (-1) nodes with
  | error err => exact ⟨err, rfl⟩
  | ok v =>
    exfalso
    unfold Solved.statePhaseZ at hc
    simp only [py_bind_eq_ok] at hc
    obtain ⟨tr, -, target, -, r, -, dyn, -, hm⟩ := hc
    obtain ⟨k, hk⟩ : ∃ k, e.disc.nSegments = k + 1 := ⟨_, (Nat.succ_pred_eq_of_pos hn).symm⟩
    rw [hk, List.range_succ_eq_map, List.mapM_cons] at hm
    simp only [py_bind_eq_ok] at hm
    obtain ⟨_, ⟨taus, -, h, hh, -⟩, -⟩ := hm
    unfold Solved.hSegZ at hh
    rw [slice_last] at hh
    simp [pyIdx] at hh
    cases hh

/-- **C113** Hence `get_states_residuals` raises whenever `-1` is among the phases. -/
theorem C113_last_raises (e : Solved K) (hn : 0 < e.disc.nSegments) {is : List Int} (hi : -1 ∈ is)
    (nodes : Option (List (List (List K)))) (rel : Bool) : ∃ err, e.stateResidualsOfZ is nodes rel = .error err := by
  have hO : ∃ err, e.stateOneZ nodes rel (-1) = .error err := by
    unfold Solved.stateOneZ
    cases e.stateTargetZ nodes (-1) with
    | error err => exact ⟨err, rfl⟩
    | ok t =>
      rw [py_bind_ok]
      obtain ⟨err, h⟩ := C113_last_states e hn t
      exact ⟨err, by rw [h]; rfl⟩
  obtain ⟨err, hO⟩ := hO
  unfold Solved.stateResidualsOfZ
  generalize List.replicate e.disc.ocp.nPhases none = out
  induction is generalizing out with
  | nil => simp at hi
  | cons i is ih =>
    rw [List.foldlM_cons]
    by_cases h1 : i = -1
    · subst h1
      exact ⟨err, by rw [hO]; rfl⟩
    · have hmem : -1 ∈ is := by
        rcases List.mem_cons.1 hi with h | h
        · exact absurd h.symm h1
        · exact h
      generalize (do
        let segs ← e.stateOneZ nodes rel i
        let u ← e.stateControlsZ i (← e.stateTargetZ nodes i)
        return out.set (← wrapIdx e.disc.ocp.nPhases i) (some (segs, u)) : Py _) = step
      cases step with
      | error err => exact ⟨err, rfl⟩
      | ok out' => rw [py_bind_ok]; exact ih hmem out'

/-- **C113** With `-1` the residuals of the dynamics are computed only when no segment has a node. -/
theorem C113_last_dynamics (e : Solved K) {taus : List (List K)} {seg : Nat} (hs : seg < e.disc.nSegments)
    (hne : taus.getD seg [] ≠ []) : ∃ err, e.dynPhaseZ (-1) (some taus) = .error err := by
  cases hc : e.dynPhaseZ (-1) (some taus) with
  | error err => exact ⟨err, rfl⟩
  | ok v =>
    exfalso
    unfold Solved.dynPhaseZ at hc
    simp only [py_bind_eq_ok] at hc
    obtain ⟨r, hr, dyn, -, segs, hm, -⟩ := hc
    have ht : r.taus = taus := by
      unfold Solved.interpolateZ at hr
      simp only [py_bind_eq_ok] at hr
      obtain ⟨tr, -, t, h1, ti, -, I, -, D, -, x, -, u, -, dx, -, du, -, h2⟩ := hr
      injection h1 with h1
      injection h2 with h2
      rw [← h2, ← h1]
    have hy := mapM_getElem hm seg (by simpa using hs) (by rw [mapM_length hm]; simpa using hs)
    rw [List.getElem_range] at hy
    simp only [py_bind_eq_ok] at hy
    obtain ⟨tau, h1, f, -, t, -, h2⟩ := hy
    rw [ht] at h1
    have htau : taus.getD seg [] = tau := by
      unfold pyIdx at h1
      rw [List.getD_eq_getElem?_getD]
      split at h1
      · rename_i x hx
        injection h1 with h1
        rw [hx, h1]; rfl
      · cases h1
    rw [if_neg (by rw [← htau]; simpa using hne)] at h2
    simp only [py_bind_eq_ok] at h2
    obtain ⟨h, hh, -⟩ := h2
    unfold Solved.hSegZ at hh
    rw [slice_last] at hh
    simp [pyIdx] at hh
    cases hh

/-- **C113** Second derivatives at given nodes need no widths: `-1` is the last phase there. -/
theorem C113_last_second (e : Solved K) (h0 : 0 < e.disc.ocp.nPhases) (taus : List (List K)) :
    e.secondPhaseZ (-1) (some taus) = e.secondPhase (e.disc.ocp.nPhases - 1) (some taus) := by
  have h : Names e.disc.ocp.nPhases (-1) (e.disc.ocp.nPhases - 1) := ⟨by omega, Or.inr (by omega)⟩
  unfold Solved.secondPhaseZ Solved.secondPhase
  simp only [h.trajectories]

/-- **C113** `get_data` raises `IndexError` when the first number names no phase. -/
theorem C113_data_raises (q : Post K) {i : Int} {is : List Int} (h : ∀ p, ¬ Names q.solved.disc.ocp.nPhases i p) :
    q.getDataZ (i :: is) false = .error .index := by
  unfold Post.getDataZ Post.originalDataZ Post.getTrajectoriesZ Disc.trajectoriesZ
  simp only [Bool.false_eq_true, if_false]
  rw [show pyIdx (i :: is) 0 = .ok i from rfl, py_bind_ok, wrapIdx_error h]
  rfl

end
end MPOpt
