import Verif.Props.Interval

/-! # C104: runs on different intervals -/

set_option autoImplicit false
set_option linter.unusedSectionVars false

namespace MPOpt
open Polynomial

section
variable {K : Type} [Field K] [LinearOrder K] [IsStrictOrderedRing K] {M M' : Mesh K} {c b : K}

theorem Mesh.onInterval_moved (hlt : M.tau0 < M.tau1) {lo hi : K} (h : lo < hi) :
    M.Moved (M.onInterval lo hi) ((hi - lo) / (M.tau1 - M.tau0)) (lo - (hi - lo) / (M.tau1 - M.tau0) * M.tau0) where
  pos := div_pos (sub_pos.2 h) (sub_pos.2 hlt)
  orders := rfl
  tau0 := by show lo = _; ring
  tau1 := by
    have := (sub_pos.2 hlt).ne'
    show hi = _; field_simp; ring
  nodes p _ := List.map_congr_left fun r _ => by ring

/-- Nodes of a scheme on one interval are those on another, moved. -/
theorem tausFn_moved {lib : NodeLib K} {lo hi lo' hi' : K} (hlt : lo < hi) {scheme : String} {deg : Nat} (hd : 1 ≤ deg)
    {r : List K} (hr : tausFn lib lo hi scheme deg = .ok r) :
    tausFn lib lo' hi' scheme deg = .ok (r.map fun v => lo' + (hi' - lo') / (hi - lo) * (v - lo)) := by
  have hne : hi - lo ≠ 0 := (sub_pos.2 hlt).ne'
  have hsc : ∀ l : List K, (l.map (rescale lo hi)).map (fun v => lo' + (hi' - lo') / (hi - lo) * (v - lo)) =
      l.map (rescale lo' hi') := by
    intro l
    rw [List.map_map]
    refine List.map_congr_left fun v _ => ?_
    simp only [Function.comp, rescale]
    field_simp; ring
  have hends : [lo, hi].map (fun v => lo' + (hi' - lo') / (hi - lo) * (v - lo)) = [lo', hi'] := by
    simp only [List.map_cons, List.map_nil, sub_self, mul_zero, add_zero, div_mul_cancel₀ _ hne, add_sub_cancel]
  unfold tausFn at hr ⊢
  split at hr
  · rename_i hs
    rw [if_pos hs]
    unfold lgRoots at hr ⊢
    split at hr
    · cases hr
    · rename_i h1; rw [if_neg h1]; cases hr; rw [hsc]
  rename_i hs
  rw [if_neg hs]
  split at hr
  · rename_i hs
    rw [if_pos hs]
    unfold lgrRoots at hr ⊢
    split at hr
    · rename_i h1; rw [if_pos h1]; cases hr; rw [hsc]
    · rename_i h1
      rw [if_pos (by omega)] at hr
      rw [if_neg h1, if_pos (by omega)]; cases hr; rw [hends]
  rename_i hs
  rw [if_neg hs]
  split at hr
  · rename_i hs
    rw [if_pos hs]
    unfold lglRoots at hr ⊢
    split at hr
    · rename_i h1; rw [if_pos h1]; cases hr; rw [hsc]
    · rename_i h1
      rw [if_pos (by omega)] at hr
      rw [if_neg h1, if_pos (by omega)]; cases hr; rw [hends]
  rename_i hs
  rw [if_neg hs]
  split at hr
  · rename_i hs
    rw [if_pos hs]
    unfold cglRoots at hr ⊢
    split at hr
    · cases hr
    · rename_i h1; rw [if_neg h1]; cases hr; rw [hsc]
  rename_i hs
  rw [if_neg hs]
  unfold otherRoots at hr ⊢
  split at hr
  · rename_i h1
    rw [if_pos h1]; cases hr
    unfold linspace
    rw [List.map_map]
    congr 1
    refine List.map_congr_left fun i _ => ?_
    simp only [Function.comp, add_sub_cancel_left]
    rw [← mul_assoc, div_mul_cancel₀ _ hne]
  · rename_i h1
    rw [if_neg h1]; cases hr; rw [hends]

/-- Weights on the moved nodes. -/
theorem quadWeights_moved (m m' : Method) {r : List K} (hn : r.Nodup) (hc : c ≠ 0) (t0 t1 : K) (j : Nat) :
    (quadWeights m' (r.map fun v => c * v + b) (c * t0 + b) (c * t1 + b)).getD j 0 = c * (quadWeights m r t0 t1).getD j 0 := by
  by_cases hj : j < r.length
  · obtain ⟨d, hd⟩ : ∃ d, r.length = d + 1 := ⟨r.length - 1, by omega⟩
    have hn' : (r.map fun v => c * v + b).Nodup := hn.map fun x y e => mul_left_cancel₀ hc (add_right_cancel e)
    have hj' : j < (r.map fun v => c * v + b).length := by simpa using hj
    rw [getD_quadWeights _ _ _ _ hj']
    obtain ⟨Q, hQ, -⟩ := exists_antiderivative (lbasis (r.map fun v => c * v + b) j)
    rw [← hQ, polyIntegral_derivative]
    have hdeg : (derivative Q).natDegree ≤ d := by
      rw [hQ]
      have := degree_lbasis hn' hj'
      rw [List.length_map, hd, Nat.add_sub_cancel] at this
      exact natDegree_le_of_degree_le this.le
    have hder : derivative (Q.comp (C c * X + C b)) = C c * (derivative Q).comp (C c * X + C b) := by
      rw [derivative_comp]; simp
    have h5 := C05_quadrature_exact m r hn d hd t0 t1 (Q.comp (C c * X + C b)) (by
      rw [hder]
      refine (natDegree_C_mul_le _ _).trans ?_
      rw [natDegree_comp, natDegree_linear hc, mul_one]; exact hdeg) (fun i => c * if i = j then 1 else 0) (fun i hi => by
        have e : (derivative Q).eval (c * r[i] + b) = if i = j then 1 else 0 := by
          rw [hQ]
          have := eval_lbasis hn' (i := i) (by simpa using hi) hj'
          rw [← this]
          congr 1
          unfold nodeAt
          rw [List.getD_eq_getElem _ _ (by simpa using hi), List.getElem_map]
        rw [hder, eval_mul, eval_C, eval_comp]
        simp only [eval_add, eval_mul, eval_C, eval_X]
        rw [e])
    simp only [eval_comp, eval_add, eval_mul, eval_C, eval_X] at h5
    rw [← h5]
    unfold weightedSum
    rw [length_quadWeights, Finset.sum_eq_single j]
    · simp [mul_comm]
    · intro i _ hi; simp [hi]
    · intro h; exact absurd (Finset.mem_range.2 hj) h
  · rw [List.getD_eq_default _ _ (by rw [length_quadWeights, List.length_map]; omega),
      List.getD_eq_default _ _ (by rw [length_quadWeights]; omega), mul_zero]

/-- Composite weights on the moved nodes, by either method. -/
theorem compWeights_moved {e e' : Colloc K} (h : M.Moved M' c b) (hM : M.Good) (hR : GoodNodes e M.orders M.nodes)
    (hR' : GoodNodes e' M'.orders M'.nodes) (h0 : e.tau0 = M.tau0) (h1 : e.tau1 = M.tau1) (h0' : e'.tau0 = M'.tau0)
    (h1' : e'.tau1 = M'.tau1) {W : List K} (hW : compQuadWeights e M.orders = .ok W) :
    compQuadWeights e' M'.orders = .ok (W.map (c * ·)) := by
  obtain ⟨V, hV, v1, v2, v3⟩ := compQuadWeights_spec e M.orders hM.nonempty M.nodes hR
  rw [hW] at hV; cases hV
  obtain ⟨V, hV, w1, w2, w3⟩ := compQuadWeights_spec e' M'.orders (h.good hM).nonempty M'.nodes hR'
  rw [hV]
  have hs0 : 0 < M.orders.length := List.length_pos_iff.2 hM.nonempty
  have key : ∀ p ∈ M.orders, ∀ j, (quadWeights e'.method (M'.nodes p) e'.tau0 e'.tau1).getD j 0 =
      c * (quadWeights e.method (M.nodes p) e.tau0 e.tau1).getD j 0 := by
    intro p hp j
    rw [h.nodes p hp, h0, h1, h0', h1', h.tau0, h.tau1]
    exact quadWeights_moved _ _ (hM.nodup p hp) h.ne _ _ j
  rw [h.orders] at w1 w2 w3
  have hall : ∀ j < M.N, V.getD j 0 = c * W.getD j 0 := by
    intro j hj
    obtain ⟨s, i, ho, rfl⟩ := M.exists_owner hM.nonempty hj
    have hs := ho.1
    have hoi : i ≤ M.orders[s] := by have := ho.2.1; unfold Mesh.order at this; rwa [List.getD_eq_getElem _ _ hs] at this
    cases i with
    | zero =>
      obtain rfl : s = 0 := ho.2.2.resolve_right (by omega)
      have e0 : M.idx 0 0 = 0 := by simp [Mesh.idx, segStart]
      rw [e0, v2, w2]
      exact key _ (by rw [List.getD_eq_getElem _ _ hs]; exact List.getElem_mem hs) 0
    | succ i =>
      unfold Mesh.idx
      rw [v3 s hs i (by omega), w3 s hs i (by omega)]
      exact key _ (List.getElem_mem hs) _
  congr 1
  apply List.ext_getElem
  · rw [List.length_map, v1, w1]
  · intro i h1 h2
    have hi : i < W.length := by simpa using h2
    have := hall i (by unfold Mesh.N; rw [← v1]; exact hi)
    rw [List.getD_eq_getElem _ _ h1, List.getD_eq_getElem _ _ hi] at this
    rw [List.getElem_map]; exact this

/-- What is shown on the moved mesh is what is shown on the mesh. -/
theorem shows_moved {p : Post K} {ocp ocp' : OCP K} {T : Traj K} (h : M.Moved M' c b) (hM : M.Good)
    (hn : ocp'.nPhases = ocp.nPhases) (hx : ocp'.nx = ocp.nx) (hu : ocp'.nu = ocp.nu) :
    p.Shows ocp' M' T ↔ p.Shows ocp M T := by
  unfold Post.Shows
  have ht : M'.nodeTimes T = M.nodeTimes T := by
    funext ph
    unfold Mesh.nodeTimes
    congr 1
    rw [h.orders]
    refine List.flatMap_congr fun s hs => ?_
    rw [h.order_eq]
    refine List.map_congr_left fun i hi => ?_
    have hi : i < M.order s := List.mem_range.1 hi
    rw [h.node_eq hM (List.mem_range.1 hs) hi, h.time_eq]
  rw [h.N_eq, ht, hn, hx, hu]

end

section
variable {K V V' : Type} [Field K] [LinearOrder K] [IsStrictOrderedRing K]
variable {ocp : OCP K} {M : Mesh K} {n : Nat} {w : Outside K V} {w' : Outside K V'} {nlpsol : SolverCall K V → Py (List K)}
variable {nlpsol' : SolverCall K V' → Py (List K)} {ptp ptp' : List (List Nat)} {arg : OrdersArg} {scheme : String}
variable {a : SolveArgs K V} {a' : SolveArgs K V'} {rx rdx rx' rdx' : Bool} {s : Session K V} {s' : Session K V'} {p p' : Post K}
variable {r r' : Option (PyDict (ResidVal K))}

/-- With other settings `_TAU_MIN`, `_TAU_MAX` and `D_MATRIX_METHOD` the mesh is moved. -/
theorem MeshFor.moved (hM : MeshFor w scheme n arg M) (hl : w'.lib = w.lib) (hlt : w.tau0 < w.tau1) (hlt' : w'.tau0 < w'.tau1) :
    MeshFor w' scheme n arg (M.onInterval w'.tau0 w'.tau1) where
  good := (Mesh.onInterval_moved (by rw [hM.tau0, hM.tau1]; exact hlt) hlt').good hM.good
  orders := hM.orders
  tau0 := rfl
  tau1 := rfl
  nodes p hp := by
    rw [hl, tausFn_moved (lo' := w'.tau0) (hi' := w'.tau1) hlt (hM.good.pos p hp) (hM.nodes p hp)]
    unfold Mesh.onInterval
    rw [hM.tau0, hM.tau1]

theorem valid_slopesTimes (hv : ValidOCP ocp) (k : K) : ValidOCP (ocp.slopesTimes k) := by
  cases hv
  constructor <;> assumption

theorem settings_slopesTimes (hs : ocp.SettingsOK) (k : K) : (ocp.slopesTimes k).SettingsOK := by
  cases hs
  constructor <;> first | assumption | (simp only [OCP.slopesTimes, List.length_map]; assumption)

theorem scales_slopesTimes (hsc : ocp.PosScales) (k : K) : (ocp.slopesTimes k).PosScales := by
  cases hsc
  constructor <;> assumption

theorem widths_slopesTimes {req : Option (List K)} {T : Traj K} (k : K) :
    WidthsAre (ocp.slopesTimes k) n req T ↔ WidthsAre ocp n req T := by
  cases req <;> rfl

/-- How slopes and residuals are multiplied when the interval of `w` is replaced by that of `w'`. -/
def Outside.ratio (w : Outside K V) (w' : Outside K V') : K := (w.tau1 - w.tau0) / (w'.tau1 - w'.tau0)

theorem ratio_eq (hM : MeshFor w scheme n arg M) : ((w'.tau1 - w'.tau0) / (M.tau1 - M.tau0))⁻¹ = w.ratio w' := by
  rw [hM.tau0, hM.tau1, inv_div]; rfl

/-- **C104** What `solve` shows with other settings `_TAU_MIN`, `_TAU_MAX`, `D_MATRIX_METHOD`, and slope limits converted, solves
the problem of the settings of `w`. -/
theorem C104_feasible (hrun : mpSolve w' nlpsol' (ocp.slopesTimes (w.ratio w')) ptp' n arg scheme a' rx' rdx' = .ok (s', p', r'))
    (hv : ValidOCP ocp) (hs : ocp.SettingsOK) (hsc : ocp.PosScales) (hM : MeshFor w scheme n arg M) (hl : w'.lib = w.lib)
    (hlt : w.tau0 < w.tau1) (hlt' : w'.tau0 < w'.tau1) (hsound : ∀ c z, nlpsol' c = .ok z → c.IsSolution z) :
    ∃ T, SolvesOCP ocp M T ∧ WidthsAre ocp n a'.widths T ∧ p'.Shows ocp M T := by
  obtain ⟨T, hT, hw, hsh⟩ := C52_solve_feasible hrun (valid_slopesTimes hv _) (settings_slopesTimes hs _) (scales_slopesTimes hsc _)
    (hM.moved hl hlt hlt') hsound
  have hm := Mesh.onInterval_moved (M := M) (by rw [hM.tau0, hM.tau1]; exact hlt) hlt'
  rw [← ratio_eq hM] at hT
  exact ⟨T, (C104_solves hm hM.good T).1 hT, (widths_slopesTimes _).1 hw, (shows_moved hm hM.good rfl rfl rfl).1 hsh⟩

/-- **C104** And with a solver that returns global minimisers it costs the same as what `solve` shows with the settings of `w`. -/
theorem C104_optimal (hrun : mpSolve w nlpsol ocp ptp n arg scheme a rx rdx = .ok (s, p, r))
    (hrun' : mpSolve w' nlpsol' (ocp.slopesTimes (w.ratio w')) ptp' n arg scheme a' rx' rdx' = .ok (s', p', r'))
    (hv : ValidOCP ocp) (hs : ocp.SettingsOK) (hsc : ocp.PosScales) (hM : MeshFor w scheme n arg M) (hl : w'.lib = w.lib)
    (hlt : w.tau0 < w.tau1) (hlt' : w'.tau0 < w'.tau1) (ha : a'.widths = a.widths)
    (hopt : ∀ c z, nlpsol c = .ok z → c.IsOptimal z) (hopt' : ∀ c z, nlpsol' c = .ok z → c.IsOptimal z) :
    ∃ T T' W J, compQuadWeights ⟨w.method, w.tau0, w.tau1, tausFn w.lib w.tau0 w.tau1 scheme⟩ M.orders = .ok W ∧
      SolvesOCP ocp M T ∧ p.Shows ocp M T ∧ PhysCost ocp M W T J ∧
      SolvesOCP ocp M T' ∧ p'.Shows ocp M T' ∧ PhysCost ocp M W T' J := by
  obtain ⟨T, W, J, hW, hT, hw, hsh, hJ, hle⟩ := C53_solve_optimal hrun hv hs hsc hM hopt
  have hM' := hM.moved hl hlt hlt'
  obtain ⟨T', W', J', hW', hT', hw', hsh', hJ', hle'⟩ := C53_solve_optimal hrun' (valid_slopesTimes hv _) (settings_slopesTimes hs _)
    (scales_slopesTimes hsc _) hM' hopt'
  have hm := Mesh.onInterval_moved (M := M) (by rw [hM.tau0, hM.tau1]; exact hlt) hlt'
  have hW2 := compWeights_moved hm hM.good hM.goodNodes hM'.goodNodes hM.tau0.symm hM.tau1.symm rfl rfl hW
  rw [hW2] at hW'
  obtain rfl : W.map _ = W' := by injection hW'
  have hT'' := hT'
  rw [← ratio_eq hM] at hT''
  have hT2 := (C104_solves hm hM.good T').1 hT''
  obtain ⟨v, hvs⟩ := exists_samples ocp M T'
  have hJ2 : PhysCost ocp M W T' _ := ⟨v, hvs, rfl⟩
  have e := (C104_cost hm hM.good (w.ratio w') hJ2).unique (hm.good hM.good) (hM'.weights_length hW2) hv.runningCosts hJ'
  have hw2 := (widths_slopesTimes _).1 hw'
  rw [ha] at hw2
  have l1 := hle T' _ hT2 hw2 hJ2
  have l2 := hle' T J (by rw [← ratio_eq hM]; exact (C104_solves hm hM.good T).2 hT) ((widths_slopesTimes _).2 (ha ▸ hw))
    (C104_cost hm hM.good _ hJ)
  rw [← e] at l2
  have e2 := le_antisymm l1 l2
  exact ⟨T, T', W, J, hW, hT, hsh, hJ, hT2, (shows_moved hm hM.good rfl rfl rfl).1 hsh', by rw [e2]; exact hJ2⟩

/-- **C104** Without limits on control slopes the same problem can be given to both. -/
theorem C104_free (hrun : mpSolve w nlpsol ocp ptp n arg scheme a rx rdx = .ok (s, p, r))
    (hrun' : mpSolve w' nlpsol' ocp ptp' n arg scheme a' rx' rdx' = .ok (s', p', r'))
    (hv : ValidOCP ocp) (hs : ocp.SettingsOK) (hsc : ocp.PosScales) (hf : ocp.FreeSlopes) (hM : MeshFor w scheme n arg M)
    (hl : w'.lib = w.lib) (hlt : w.tau0 < w.tau1) (hlt' : w'.tau0 < w'.tau1) (ha : a'.widths = a.widths)
    (hopt : ∀ c z, nlpsol c = .ok z → c.IsOptimal z) (hopt' : ∀ c z, nlpsol' c = .ok z → c.IsOptimal z) :
    ∃ T T' W J, compQuadWeights ⟨w.method, w.tau0, w.tau1, tausFn w.lib w.tau0 w.tau1 scheme⟩ M.orders = .ok W ∧
      SolvesOCP ocp M T ∧ p.Shows ocp M T ∧ PhysCost ocp M W T J ∧
      SolvesOCP ocp M T' ∧ p'.Shows ocp M T' ∧ PhysCost ocp M W T' J := by
  obtain ⟨T, W, J, hW, hT, hw, hsh, hJ, hle⟩ := C53_solve_optimal hrun hv hs hsc hM hopt
  have hM' := hM.moved hl hlt hlt'
  obtain ⟨T', W', J', hW', hT', hw', hsh', hJ', hle'⟩ := C53_solve_optimal hrun' hv hs hsc hM' hopt'
  have hm := Mesh.onInterval_moved (M := M) (by rw [hM.tau0, hM.tau1]; exact hlt) hlt'
  have hW2 := compWeights_moved hm hM.good hM.goodNodes hM'.goodNodes hM.tau0.symm hM.tau1.symm rfl rfl hW
  rw [hW2] at hW'
  obtain rfl : W.map _ = W' := by injection hW'
  have hT2 := (C104_solves_free hm hM.good hf T').1 hT'
  obtain ⟨v, hvs⟩ := exists_samples ocp M T'
  have hJ2 : PhysCost ocp M W T' _ := ⟨v, hvs, rfl⟩
  have hcost : ∀ {T : Traj K} {J : K}, PhysCost ocp M W T J → PhysCost ocp (M.onInterval w'.tau0 w'.tau1)
      (W.map ((w'.tau1 - w'.tau0) / (M.tau1 - M.tau0) * ·)) T J := fun h => C104_cost hm hM.good 1 h
  have e := (hcost hJ2).unique (hm.good hM.good) (hM'.weights_length hW2) hv.runningCosts hJ'
  have l1 := hle T' _ hT2 (ha ▸ hw') hJ2
  have l2 := hle' T J ((C104_solves_free hm hM.good hf T).2 hT) (ha ▸ hw) (hcost hJ)
  rw [← e] at l2
  have e2 := le_antisymm l1 l2
  exact ⟨T, T', W, J, hW, hT, hsh, hJ, hT2, (shows_moved hm hM.good rfl rfl rfl).1 hsh', by rw [e2]; exact hJ2⟩

/-- **C104** `mpopt_adaptive`: slope limits and the tolerances on residuals have to be converted; then with solvers that return
global minimisers what both settings show solves the same problem, at the same cost. -/
theorem C104_adaptive_optimal {o : AdaptOpt K V} {o' : AdaptOpt K V'} {lbh ubh tol : List K} {mid : Bool}
    (hf : o.Ready w ocp n arg scheme lbh ubh tol mid)
    (hf' : o'.Ready w' (ocp.slopesTimes (w.ratio w')) n arg scheme lbh ubh (tol.map (w.ratio w' * ·)) mid)
    (hv : ValidOCP ocp) (hs : ocp.SettingsOK) (hsc : ocp.PosScales) (hlb : lbh.length = ocp.nPhases)
    (hub : ubh.length = ocp.nPhases) (htol : tol.length = ocp.nPhases) (hM : MeshFor w scheme n arg M) (hl : w'.lib = w.lib)
    (hlt : w.tau0 < w.tau1) (hlt' : w'.tau0 < w'.tau1)
    (hopt : ∀ c z, nlpsol c = .ok z → c.IsOptimal z) (hopt' : ∀ c z, nlpsol' c = .ok z → c.IsOptimal z)
    (earlier : List (SolveArgs K V)) (earlier' : List (SolveArgs K V')) {q : AdaptOpt K V} {q' : AdaptOpt K V'} {z z' : List K}
    (hrun : (o.run w nlpsol earlier).solve w nlpsol a = (q, .ok z))
    (hrun' : (o'.run w' nlpsol' earlier').solve w' nlpsol' a' = (q', .ok z'))
    (hp : q.processResults w ptp false rx rdx = .ok (p, r)) (hp' : q'.processResults w' ptp' false rx' rdx' = .ok (p', r')) :
    ∃ T T' W J, compQuadWeights ⟨w.method, w.tau0, w.tau1, tausFn w.lib w.tau0 w.tau1 scheme⟩ M.orders = .ok W ∧
      SolvesAdaptive ocp M T lbh ubh tol mid ∧ p.Shows ocp M T ∧ PhysCost ocp M W T J ∧
      SolvesAdaptive ocp M T' lbh ubh tol mid ∧ p'.Shows ocp M T' ∧ PhysCost ocp M W T' J := by
  obtain ⟨T, W, J, hW, hT, hsh, hJ, hle⟩ := C55_adaptive_optimal hf hv hs hsc hlb hub htol hM hopt earlier a hrun hp
  have hM' := hM.moved hl hlt hlt'
  obtain ⟨T', W', J', hW', hT', hsh', hJ', hle'⟩ := C55_adaptive_optimal hf' (valid_slopesTimes hv _) (settings_slopesTimes hs _)
    (scales_slopesTimes hsc _) hlb hub (by rw [List.length_map]; exact htol) hM' hopt' earlier' a' hrun' hp'
  have hm := Mesh.onInterval_moved (M := M) (by rw [hM.tau0, hM.tau1]; exact hlt) hlt'
  have hW2 := compWeights_moved hm hM.good hM.goodNodes hM'.goodNodes hM.tau0.symm hM.tau1.symm rfl rfl hW
  rw [hW2] at hW'
  obtain rfl : W.map _ = W' := by injection hW'
  have hT'' := hT'
  rw [← ratio_eq hM] at hT''
  have hT2 := (C104_adaptive hm hM.good T').1 hT''
  obtain ⟨v, hvs⟩ := exists_samples ocp M T'
  have hJ2 : PhysCost ocp M W T' _ := ⟨v, hvs, rfl⟩
  have e := (C104_cost hm hM.good (w.ratio w') hJ2).unique (hm.good hM.good) (hM'.weights_length hW2) hv.runningCosts hJ'
  have l1 := hle T' _ hT2 hJ2
  have l2 := hle' T J (by rw [← ratio_eq hM]; exact (C104_adaptive hm hM.good T).2 hT) (C104_cost hm hM.good _ hJ)
  rw [← e] at l2
  have e2 := le_antisymm l1 l2
  exact ⟨T, T', W, J, hW, hT, hsh, hJ, hT2, (shows_moved hm hM.good rfl rfl rfl).1 hsh', by rw [e2]; exact hJ2⟩

/-- **C104** Residuals are taken with respect to `tau`: on another interval they are multiplied. -/
theorem C104_defect {M M' : Mesh K} {c b : K} (h : M.Moved M' c b) (hM : M.Good) (T : Traj K) (F : VFun (PArg K) K) (ph : Nat)
    {s : Nat} (hs : s < M.orders.length) (tau : K) (j : Nat) :
    ocp.defect M' T F ph s (c * tau + b) j = c⁻¹ * ocp.defect M T F ph s tau j :=
  h.defect_eq hM F ph hs tau j

/-- **C104** What happens if slope limits are not converted: they are multiplied by the ratio of the intervals' lengths. -/
theorem C104_unconverted {M M' : Mesh K} {c b : K} (h : M.Moved M' c b) (hM : M.Good) (T : Traj K) :
    SolvesOCP ocp M' T ↔ SolvesOCP (ocp.slopesTimes c) M T := by
  have e : (ocp.slopesTimes c).slopesTimes c⁻¹ = ocp := by
    have key : ∀ l : List (Ext K), (l.map (Ext.affine c 0)).map (Ext.affine c⁻¹ 0) = l := by
      intro l
      rw [List.map_map]
      refine (List.map_congr_left fun v _ => ?_).trans (List.map_id l)
      cases v <;> simp [Ext.affine, inv_mul_cancel_left₀ h.ne]
    unfold OCP.slopesTimes
    simp only [key]
  have := C104_solves (ocp := ocp.slopesTimes c) h hM T
  rwa [e] at this

end
end MPOpt
