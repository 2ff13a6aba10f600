import Verif.Props.Principle

/-! # C116: planning again, with requested widths -/

set_option autoImplicit false
set_option linter.unusedSectionVars false

namespace MPOpt

variable {K V : Type} [Field K] [LinearOrder K] [IsStrictOrderedRing K]
variable {ocp : OCP K} {M : Mesh K} {T S : Traj K} {q n : Nat} {x : Nat → K} {t : K} {req : Option (List K)}

/-- The widths that are requested for phase `q`. -/
def widthsOnly (n q : Nat) (req : Option (List K)) : Option (List K) := req.map fun l => (l.drop (n * q)).take n

theorem packWidths_only (hq : q < ocp.nPhases) :
    (ocp.only q x t).packWidths n (T.only q) = ((ocp.packWidths n T).drop (n * q)).take n := by
  have := phaseSlice_flatMap n ocp.nPhases q (fun p s => T.w s p) hq
  unfold phaseSlice at this
  unfold OCP.packWidths
  rw [this]
  simp [OCP.only, Traj.only]

theorem requested_only (hq : q < ocp.nPhases) (h : WidthsAre ocp n req T) :
    WidthsAre (ocp.only q x t) n (widthsOnly n q req) (T.only q) := by
  cases req with
  | none => exact widths_only hq h
  | some l =>
    have h : ocp.packWidths n T = l := h
    subst h
    exact packWidths_only hq

theorem requested_put (hq : q < ocp.nPhases) (h : WidthsAre ocp n req T)
    (hS : WidthsAre (ocp.only q x t) n (widthsOnly n q req) S) : WidthsAre ocp n req (T.put q S) := by
  cases req with
  | none => exact widths_put h hS
  | some l =>
    have h : ocp.packWidths n T = l := h
    subst h
    have hS : (ocp.only q x t).packWidths n S = ((ocp.packWidths n T).drop (n * q)).take n := hS
    rw [← packWidths_only (x := x) (t := t) hq, packWidths_agree] at hS
    refine packWidths_agree.2 fun p hp s hs => ?_
    by_cases e : p = q
    · subst e
      rw [samePhase_put.w]; exact hS 0 Nat.one_pos s hs
    · rw [(samePhase_other e).w]

variable {w : Outside K V} {scheme : String} {arg : OrdersArg}

/-- **C116** The principle of optimality for widths as requested: what is left is planned with the widths of its phase. -/
theorem C116_best_widths (hM : MeshFor w scheme n arg M) (hv : ValidOCP ocp) (hq : q < ocp.nPhases) (hf : ocp.Final q)
    (hT : BestTraj w scheme ocp M n req T) {W : List K}
    (hW : compQuadWeights ⟨w.method, w.tau0, w.tau1, tausFn w.lib w.tau0 w.tau1 scheme⟩ M.orders = .ok W) {L L' : K}
    (hL : PhysCost (ocp.only q (T.x q 0) (T.t0 q)) M W (T.only q) L)
    (hS : SolvesOCP (ocp.only q (T.x q 0) (T.t0 q)) M S)
    (hSw : WidthsAre (ocp.only q (T.x q 0) (T.t0 q)) n (widthsOnly n q req) S)
    (hu : ∀ j < ocp.nu, S.u 0 0 j = T.u q 0 j) (hL' : PhysCost (ocp.only q (T.x q 0) (T.t0 q)) M W S L') : L ≤ L' := by
  obtain ⟨v, hv1⟩ := exists_samples ocp M T
  have hJ : PhysCost ocp M W T _ := ⟨v, hv1, rfl⟩
  have := hT.best W _ hW hJ _ _ (C116_put hq hf hT.solves hS hu) (requested_put hq hT.widths hSw)
    (C116_cost hM.good hv hq (hM.weights_length hW) hJ hL hL')
  linarith

variable {nlpsol nlpsol' : SolverCall K V → Py (List K)} {s : Session K V} {p : Post K} {r : Option (PyDict (ResidVal K))}
variable {a a' : SolveArgs K V} {ptp ptp' : List (List Nat)} {rx rdx rx' rdx' : Bool}

/-- **C116** `C116_solve` for any request of widths: the second run is asked for the widths that the first was asked for in phase `q`. -/
theorem C116_solve_widths (hrun : mpSolve w nlpsol ocp ptp n arg scheme a rx rdx = .ok (s, p, r))
    (hv : ValidOCP ocp) (hs : ocp.SettingsOK) (hsc : ocp.PosScales) (hM : MeshFor w scheme n arg M)
    (hopt : ∀ c z, nlpsol c = .ok z → c.IsOptimal z) (hopt' : ∀ c z, nlpsol' c = .ok z → c.IsOptimal z)
    (hq : q < ocp.nPhases) (hf : ocp.Final q) (hwid : a'.widths = widthsOnly n q a.widths) :
    ∃ T W J L, compQuadWeights ⟨w.method, w.tau0, w.tau1, tausFn w.lib w.tau0 w.tau1 scheme⟩ M.orders = .ok W ∧
      p.Shows ocp M T ∧ PhysCost ocp M W T J ∧ PhysCost (ocp.only q (T.x q 0) (T.t0 q)) M W (T.only q) L ∧
      ∀ s' p' r', mpSolve w nlpsol' (ocp.only q (T.x q 0) (T.t0 q)) ptp' n arg scheme a' rx' rdx' = .ok (s', p', r') →
        ∃ S L', p'.Shows (ocp.only q (T.x q 0) (T.t0 q)) M S ∧ PhysCost (ocp.only q (T.x q 0) (T.t0 q)) M W S L' ∧ L' ≤ L ∧
          ((∀ j < ocp.nu, S.u 0 0 j = T.u q 0 j) → L' = L ∧ SolvesOCP ocp M (T.put q S) ∧ PhysCost ocp M W (T.put q S) J) := by
  obtain ⟨T, W, J, hW, hT, hTw, hsh, hJ, hb⟩ := C53_solve_optimal hrun hv hs hsc hM hopt
  have hWl := hM.weights_length hW
  have hbest : BestTraj w scheme ocp M n a.widths T := ⟨hT, hTw, fun W' J' hW' hJ' => by
    obtain rfl : W = W' := by rw [hW] at hW'; cases hW'; rfl
    obtain rfl := hJ'.unique hM.good hWl hv.runningCosts hJ
    exact hb⟩
  obtain ⟨hv', hs', hsc'⟩ := only_ready (x := T.x q 0) (t := T.t0 q) hv hs hsc hq
  obtain ⟨v, hv1⟩ := exists_samples (ocp.only q (T.x q 0) (T.t0 q)) M (T.only q)
  have hL : PhysCost (ocp.only q (T.x q 0) (T.t0 q)) M W (T.only q) _ := ⟨v, hv1, rfl⟩
  refine ⟨T, W, J, _, hW, hsh, hJ, hL, fun s' p' r' hrun' => ?_⟩
  obtain ⟨S, W', L', hW', hS, hSw, hsh', hL', hb'⟩ := C53_solve_optimal hrun' hv' hs' hsc' hM hopt'
  obtain rfl : W = W' := by rw [hW] at hW'; cases hW'; rfl
  rw [hwid] at hSw hb'
  have hle := hb' _ _ (C116_tail hq hT) (requested_only hq hTw) hL
  refine ⟨S, L', hsh', hL', hle, fun hu => ?_⟩
  have e := le_antisymm hle (C116_best_widths hM hv hq hf hbest hW hL hS hSw hu hL')
  refine ⟨e, C116_put hq hf hT hS hu, ?_⟩
  have := C116_cost hM.good hv hq hWl hJ hL hL'
  rw [e] at this
  simpa using this

/-- Two phases of two segments: the request of the second phase. -/
example : widthsOnly 2 1 (some ([1/4, 3/4, 1/3, 2/3] : List K)) = some [1/3, 2/3] := rfl

end MPOpt
