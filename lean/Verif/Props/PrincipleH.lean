import Verif.Props.PrincipleWidths
import Verif.Props.HEnd

/-! # C115 and C116 for `mpopt_h_adaptive` -/

set_option autoImplicit false
set_option linter.unusedSectionVars false

namespace MPOpt

variable {K V : Type} [Field K] [LinearOrder K] [IsStrictOrderedRing K] [FloorRing K]
variable {ocp : OCP K} {M : Mesh K} {q n : Nat} {w : HOutside K V} {scheme : String} {arg : OrdersArg}
variable {nlpsol : Nat → Nat → SolverCall K V → Py (PyDict V)} {ptp ptp' : List (List Nat)} {lbh ubh tol : List K}
variable {rx rdx rx' rdx' : Bool} {s s' : HOpt K V} {calls : List (HStart V × HArgs V)} {sol : PyDict V}
variable {p : Post K} {r : Option (PyDict (ResidVal K))}

/-- What `mpopt_h_adaptive` shows has least cost for the stored widths. -/
theorem best_h (hf : s.Ready w ocp n arg scheme lbh ubh tol) (hv : ValidOCP ocp) (hs : ocp.SettingsOK)
    (hsc : ocp.PosScales) (hM : MeshFor w.toOutside scheme n arg M)
    (hopt : ∀ n k c sol, nlpsol n k c = .ok sol → ∃ z, Returned w sol z ∧ c.IsOptimal z) (ho : OwnStarts calls)
    (hrun : s.run w nlpsol calls 0 none = (s', some sol)) (hp : s'.processResults w sol ptp false rx rdx = .ok (p, r)) :
    ∃ T, p.Shows ocp M T ∧ s'.widths = some (ocp.packWidths n T) ∧ BestTraj w.toOutside scheme ocp M n s'.widths T := by
  obtain ⟨T, W, J, hW, hT, hsh, hwT, hJ, hb⟩ := C60_h_optimal hf hv hs hsc hM hopt ho hrun hp
  refine ⟨T, hsh, hwT, hT, by rw [hwT]; rfl, fun W' J' hW' hJ' T' L hT' hw' hL => ?_⟩
  obtain rfl : W = W' := by
    have hW' : compQuadWeights ⟨w.method, w.tau0, w.tau1, tausFn w.lib w.tau0 w.tau1 scheme⟩ M.orders = .ok W' := hW'
    rw [hW] at hW'; cases hW'; rfl
  obtain rfl := hJ'.unique hM.good (hM.weights_length hW) hv.runningCosts hJ
  rw [hwT] at hw'
  have hw' : ocp.packWidths n T' = ocp.packWidths n T := hw'
  exact hb T' L hT' (by rw [hwT, hw']) hL

/-- **C115** The image of what `mpopt_h_adaptive` shows has least cost for the stored widths, too. -/
theorem C115_h {S : Symmetry K} (hi : ocp.Invariant S) (hdf : ∀ ph < ocp.nPhases, ocp.diffU.getD ph false = false)
    (hf : s.Ready w ocp n arg scheme lbh ubh tol) (hv : ValidOCP ocp) (hs : ocp.SettingsOK)
    (hsc : ocp.PosScales) (hM : MeshFor w.toOutside scheme n arg M)
    (hopt : ∀ n k c sol, nlpsol n k c = .ok sol → ∃ z, Returned w sol z ∧ c.IsOptimal z) (ho : OwnStarts calls)
    (hrun : s.run w nlpsol calls 0 none = (s', some sol)) (hp : s'.processResults w sol ptp false rx rdx = .ok (p, r)) :
    ∃ T, p.Shows ocp M T ∧ ∀ T' ∈ [T, T.image ocp S], BestTraj w.toOutside scheme ocp M n s'.widths T' := by
  obtain ⟨T, hsh, -, hT⟩ := best_h hf hv hs hsc hM hopt ho hrun hp
  refine ⟨T, hsh, fun T' hT' => ?_⟩
  simp only [List.mem_cons, List.not_mem_nil, or_false] at hT'
  rcases hT' with rfl | rfl
  · exact hT
  · exact C115_best hi hM.good hdf hT

variable {nlpsol' : SolverCall K V → Py (List K)} {a' : SolveArgs K V}

/-- **C116** After `mpopt_h_adaptive`: what is left when phase `q` begins is planned again by `solve`, with the widths that the search
has stored for this phase. It costs no more, and less only if the first control differs. -/
theorem C116_h (hf : s.Ready w ocp n arg scheme lbh ubh tol) (hv : ValidOCP ocp) (hs : ocp.SettingsOK)
    (hsc : ocp.PosScales) (hM : MeshFor w.toOutside scheme n arg M)
    (hopt : ∀ n k c sol, nlpsol n k c = .ok sol → ∃ z, Returned w sol z ∧ c.IsOptimal z)
    (hopt' : ∀ c z, nlpsol' c = .ok z → c.IsOptimal z) (ho : OwnStarts calls)
    (hrun : s.run w nlpsol calls 0 none = (s', some sol)) (hp : s'.processResults w sol ptp false rx rdx = .ok (p, r))
    (hq : q < ocp.nPhases) (hf' : ocp.Final q) (hwid : a'.widths = widthsOnly n q s'.widths) :
    ∃ T, p.Shows ocp M T ∧ ∀ t' p' r',
      mpSolve w.toOutside nlpsol' (ocp.only q (T.x q 0) (T.t0 q)) ptp' n arg scheme a' rx' rdx' = .ok (t', p', r') →
        ∃ S W L L', compQuadWeights ⟨w.method, w.tau0, w.tau1, tausFn w.lib w.tau0 w.tau1 scheme⟩ M.orders = .ok W ∧
          p'.Shows (ocp.only q (T.x q 0) (T.t0 q)) M S ∧ PhysCost (ocp.only q (T.x q 0) (T.t0 q)) M W (T.only q) L ∧
          PhysCost (ocp.only q (T.x q 0) (T.t0 q)) M W S L' ∧ L' ≤ L ∧
          ((∀ j < ocp.nu, S.u 0 0 j = T.u q 0 j) → L' = L ∧ SolvesOCP ocp M (T.put q S)) := by
  obtain ⟨T, hsh, -, hT⟩ := best_h hf hv hs hsc hM hopt ho hrun hp
  refine ⟨T, hsh, fun t' p' r' hrun' => ?_⟩
  obtain ⟨hv', hs', hsc'⟩ := only_ready (x := T.x q 0) (t := T.t0 q) hv hs hsc hq
  obtain ⟨v, hv1⟩ := exists_samples (ocp.only q (T.x q 0) (T.t0 q)) M (T.only q)
  obtain ⟨S, W, L', hW, hS, hSw, hsh', hL', hb'⟩ := C53_solve_optimal hrun' hv' hs' hsc' hM hopt'
  have hL : PhysCost (ocp.only q (T.x q 0) (T.t0 q)) M W (T.only q) _ := ⟨v, hv1, rfl⟩
  rw [hwid] at hSw hb'
  have hle := hb' _ _ (C116_tail hq hT.solves) (requested_only hq hT.widths) hL
  exact ⟨S, W, _, L', hW, hsh', hL, hL', hle, fun hu =>
    ⟨le_antisymm hle (C116_best_widths hM hv hq hf' hT hW hL hS hSw hu hL'), C116_put hq hf' hT.solves hS hu⟩⟩

end MPOpt
