import Verif.Props.AdaptiveEndExample
import Verif.Props.HEnd

/-! # C95: the solver classes compared with each other -/

set_option autoImplicit false
set_option linter.unusedSectionVars false

namespace MPOpt
open Polynomial

variable {K : Type} [Field K] [LinearOrder K] [IsStrictOrderedRing K] {ocp : OCP K} {M : Mesh K} {T : Traj K} {n : Nat}
variable {lbh ubh tol : List K} {mid : Bool}

/-- What `mpopt_adaptive` asks of a trajectory and `mpopt` does not: widths within their limits that fill the phases, state and
control polynomials within bounds half-way between nodes and, with `mid_residuals`, small defects there. -/
structure MidPointsOK (ocp : OCP K) (M : Mesh K) (T : Traj K) (lbh ubh tol : List K) (mid : Bool) : Prop where
  sum : ∀ ph < ocp.nPhases, ∑ s ∈ Finset.range M.orders.length, T.w s ph = 1
  lower : ∀ ph < ocp.nPhases, ∀ s < M.orders.length, lbh.getD ph 0 ≤ T.w s ph
  upper : ∀ ph < ocp.nPhases, ∀ s < M.orders.length, T.w s ph ≤ ubh.getD ph 0
  control : ∀ ph < ocp.nPhases, MidControlOK ocp M T ph
  state : ∀ ph < ocp.nPhases, MidStateOK ocp M T ph
  residual : mid = true → ∀ ph < ocp.nPhases, MidResidualOK ocp M T (tol.getD ph 0) ph

/-- What `mpopt` asks of a trajectory and `mpopt_adaptive` does not. -/
def SlopesContinue (ocp : OCP K) (M : Mesh K) (T : Traj K) : Prop :=
  ∀ ph < ocp.nPhases, ocp.duContinuity.getD ph false = true → SlopeContinuous ocp M T ph

/-- **C95** The trajectories both classes accept: `mpopt_adaptive` asks for the mid-point conditions and the limits on widths in
addition, `mpopt` for continuous control slopes. -/
theorem C95_same_solutions : SolvesOCP ocp M T ∧ MidPointsOK ocp M T lbh ubh tol mid ↔
    SolvesAdaptive ocp M T lbh ubh tol mid ∧ SlopesContinue ocp M T := by
  constructor
  · rintro ⟨⟨h, h'⟩, m⟩
    exact ⟨⟨⟨h.bounds, h.dynamics, h.path, h.terminal, fun ph hp => ⟨m.sum ph hp, m.lower ph hp, m.upper ph hp⟩, m.control,
      m.state, m.residual, h.links⟩, h'⟩, h.cont⟩
  · rintro ⟨⟨h, h'⟩, hc⟩
    exact ⟨⟨⟨h.bounds, h.dynamics, h.path, h.terminal, fun ph hp _ => h.midControl ph hp, hc, h.links⟩, h'⟩,
      ⟨fun ph hp => (h.widths ph hp).sum, fun ph hp => (h.widths ph hp).lower, fun ph hp => (h.widths ph hp).upper,
        h.midControl, h.midState, h.midResidual⟩⟩

/-! ### Orders one: the mid-point conditions are for free -/

/-- The mean of two values within bounds is within them. -/
theorem Within.mean {lo hi : Ext K} {a b : K} (ha : Within lo hi a) (hb : Within lo hi b) : Within lo hi ((a + b) / 2) := by
  obtain ⟨a1, a2⟩ := ha
  obtain ⟨b1, b2⟩ := hb
  refine ⟨?_, ?_⟩
  · cases lo <;> simp only [Ext.Below] at *
    linarith
  · cases hi <;> simp only [Ext.Above] at *
    linarith

/-- On a segment of order one the polynomial half-way between the nodes is the mean of the values there. -/
theorem piece_mean (hM : M.Good) {s : Nat} (hs : s < M.orders.length) (ho : M.order s = 1) (v : Nat → K) :
    (M.piece v s).eval ((M.node s 0 + M.node s 1) / 2) = (v (M.idx s 0) + v (M.idx s 1)) / 2 := by
  have hd := hM.piece_degrees v s hs
  have e0 := hM.piece_eval_node v hs (i := 0) (by omega)
  have e1 := hM.piece_eval_node v hs (i := 1) (by omega)
  rw [← Mesh.order_eq (M := M) hs, ho] at hd
  rw [← e0, ← e1]
  generalize M.piece v s = P at hd
  rw [eq_X_add_C_of_natDegree_le_one hd]
  simp only [eval_add, eval_mul, eval_C, eval_X]
  ring

/-- **C95** With orders one and a start within the state bounds, every solution of the collocated problem meets the mid-point
conditions on states and controls. -/
theorem C95_order_one (hM : M.Good) (ho : ∀ p ∈ M.orders, p = 1) (hT : SolvesOCP ocp M T)
    (hst : ∀ j < ocp.nx, Within (entry ocp.lbx 0 j .nan) (entry ocp.ubx 0 j .nan) (entry ocp.x00 0 j 0)) :
    ∀ ph < ocp.nPhases, MidControlOK ocp M T ph ∧ MidStateOK ocp M T ph := by
  intro ph hp
  have hB := hT.1.bounds ph hp
  have one : ∀ s, s < M.orders.length → M.order s = 1 := fun s hs => ho _ (hM.order_mem hs)
  refine ⟨fun j hj s hs i hi => ?_, fun j hj s hs i hi => ?_⟩
  · rw [one s hs] at hi
    obtain rfl : i = 0 := by omega
    rw [piece_mean hM hs (one s hs)]
    exact (hB.u _ (Mesh.idx_lt hs (Nat.zero_le _)) j hj).mean (hB.u _ (Mesh.idx_lt hs (by rw [one s hs])) j hj)
  · rw [one s hs] at hi
    obtain rfl : i = 0 := by omega
    rw [piece_mean hM hs (one s hs)]
    have hx : ∀ k < M.N, Within (entry ocp.lbx ph j .nan) (entry ocp.ubx ph j .nan) (T.x ph k j) := by
      intro k hk
      by_cases h : ph = 0 ∧ k = 0
      · obtain ⟨rfl, rfl⟩ := h
        rw [hB.x0 rfl j hj]
        exact hst j hj
      · exact hB.x k hk h j hj
    exact (hx _ (Mesh.idx_lt hs (Nat.zero_le _))).mean (hx _ (Mesh.idx_lt hs (by rw [one s hs])))

/-! ### Runs with optimal solvers -/

section
variable {V : Type} {w : Outside K V} {nlpsol nlpsol' : SolverCall K V → Py (List K)} {ptp ptp' : List (List Nat)}
variable {arg : OrdersArg} {scheme : String} {a : SolveArgs K V} {rx rdx rx' rdx' : Bool}

/-- **C95** What `mpopt_adaptive` shows costs no more than what `mpopt` shows if the latter meets the mid-point conditions. And it
costs no less if `mpopt` is asked for the widths of the former and its control slopes, where they have to be, are continuous. -/
theorem C95_costs {s : AdaptOpt K V} (hf : s.Ready w ocp n arg scheme lbh ubh tol mid) (hv : ValidOCP ocp) (hs : ocp.SettingsOK)
    (hsc : ocp.PosScales) (hlb : lbh.length = ocp.nPhases) (hub : ubh.length = ocp.nPhases) (htol : tol.length = ocp.nPhases)
    (hM : MeshFor w scheme n arg M) (hopt : ∀ c z, nlpsol c = .ok z → c.IsOptimal z)
    (hopt' : ∀ c z, nlpsol' c = .ok z → c.IsOptimal z) (earlier : List (SolveArgs K V)) (b : SolveArgs K V)
    {s' : AdaptOpt K V} {z : List K} (hrun : (s.run w nlpsol earlier).solve w nlpsol b = (s', .ok z))
    {p : Post K} {r : Option (PyDict (ResidVal K))} (hp : s'.processResults w ptp false rx rdx = .ok (p, r))
    {S : Session K V} {p' : Post K} {r' : Option (PyDict (ResidVal K))}
    (hrun' : mpSolve w nlpsol' ocp ptp' n arg scheme a rx' rdx' = .ok (S, p', r')) :
    ∃ T J T' J' W, compQuadWeights ⟨w.method, w.tau0, w.tau1, tausFn w.lib w.tau0 w.tau1 scheme⟩ M.orders = .ok W ∧
      p.Shows ocp M T ∧ PhysCost ocp M W T J ∧ p'.Shows ocp M T' ∧ PhysCost ocp M W T' J' ∧ WidthsAre ocp n a.widths T' ∧
      (MidPointsOK ocp M T' lbh ubh tol mid → J ≤ J') ∧
      (WidthsAre ocp n a.widths T → SlopesContinue ocp M T → J' ≤ J) := by
  obtain ⟨T, W, J, hW, hT, hsh, hJ, hle⟩ := C55_adaptive_optimal hf hv hs hsc hlb hub htol hM hopt earlier b hrun hp
  obtain ⟨T', W', J', hW', hT', hwid, hsh', hJ', hle'⟩ := C53_solve_optimal hrun' hv hs hsc hM hopt'
  rw [hW] at hW'; cases hW'
  exact ⟨T, J, T', J', W, hW, hsh, hJ, hsh', hJ', hwid, fun m => hle T' J' (C95_same_solutions.1 ⟨hT', m⟩).1 hJ',
    fun e c => hle' T J ((C95_same_solutions (lbh := lbh) (ubh := ubh) (tol := tol) (mid := mid)).2 ⟨hT, c⟩).1 e hJ⟩

/-- **C95** With orders one, a start within bounds and without `mid_residuals`, `mpopt_adaptive` is never worse than `mpopt` with
widths it could have chosen. -/
theorem C95_never_worse {s : AdaptOpt K V} (hf : s.Ready w ocp n arg scheme lbh ubh tol false) (hv : ValidOCP ocp)
    (hs : ocp.SettingsOK) (hsc : ocp.PosScales) (hlb : lbh.length = ocp.nPhases) (hub : ubh.length = ocp.nPhases)
    (htol : tol.length = ocp.nPhases) (hM : MeshFor w scheme n arg M) (ho : ∀ p ∈ M.orders, p = 1)
    (hst : ∀ j < ocp.nx, Within (entry ocp.lbx 0 j .nan) (entry ocp.ubx 0 j .nan) (entry ocp.x00 0 j 0))
    (hlim : ∀ T, WidthsAre ocp n a.widths T → ∀ ph < ocp.nPhases, WidthsOK M T (lbh.getD ph 0) (ubh.getD ph 0) ph)
    (hopt : ∀ c z, nlpsol c = .ok z → c.IsOptimal z)
    (hopt' : ∀ c z, nlpsol' c = .ok z → c.IsOptimal z) (earlier : List (SolveArgs K V)) (b : SolveArgs K V)
    {s' : AdaptOpt K V} {z : List K} (hrun : (s.run w nlpsol earlier).solve w nlpsol b = (s', .ok z))
    {p : Post K} {r : Option (PyDict (ResidVal K))} (hp : s'.processResults w ptp false rx rdx = .ok (p, r))
    {S : Session K V} {p' : Post K} {r' : Option (PyDict (ResidVal K))}
    (hrun' : mpSolve w nlpsol' ocp ptp' n arg scheme a rx' rdx' = .ok (S, p', r')) :
    ∃ T J T' J' W, compQuadWeights ⟨w.method, w.tau0, w.tau1, tausFn w.lib w.tau0 w.tau1 scheme⟩ M.orders = .ok W ∧
      p.Shows ocp M T ∧ PhysCost ocp M W T J ∧ p'.Shows ocp M T' ∧ PhysCost ocp M W T' J' ∧ J ≤ J' := by
  obtain ⟨T, W, J, hW, hT, hsh, hJ, hle⟩ := C55_adaptive_optimal hf hv hs hsc hlb hub htol hM hopt earlier b hrun hp
  obtain ⟨T', W', J', hW', hT', hwid, hsh', hJ', hle'⟩ := C53_solve_optimal hrun' hv hs hsc hM hopt'
  rw [hW] at hW'; cases hW'
  have hm := C95_order_one hM.good ho hT' hst
  refine ⟨T, J, T', J', W, hW, hsh, hJ, hsh', hJ', hle T' J' (C95_same_solutions.1 ⟨hT', ?_⟩).1 hJ'⟩
  exact ⟨fun ph hp => (hlim T' hwid ph hp).sum, fun ph hp => (hlim T' hwid ph hp).lower, fun ph hp => (hlim T' hwid ph hp).upper,
    fun ph hp => (hm ph hp).1, fun ph hp => (hm ph hp).2, fun h => nomatch h⟩

end

section
variable {V : Type} [FloorRing K] {w : HOutside K V} {nlpsol : Nat → Nat → SolverCall K V → Py (PyDict V)}
variable {nlpsol' : SolverCall K V → Py (List K)} {ptp ptp' : List (List Nat)} {arg : OrdersArg} {scheme : String}
variable {s s' : HOpt K V} {p p' : Post K} {r r' : Option (PyDict (ResidVal K))} {rx rdx rx' rdx' : Bool}

/-- **C95** `mpopt` asked for the widths at which an `mpopt_h_adaptive` object stopped shows a trajectory of the same cost. -/
theorem C95_h_same (hf : s.Ready w ocp n arg scheme lbh ubh tol) (hv : ValidOCP ocp)
    (hs : ocp.SettingsOK) (hsc : ocp.PosScales) (hM : MeshFor w.toOutside scheme n arg M)
    (hopt : ∀ n k c sol, nlpsol n k c = .ok sol → ∃ z, Returned w sol z ∧ c.IsOptimal z)
    (hopt' : ∀ c z, nlpsol' c = .ok z → c.IsOptimal z)
    {calls : List (HStart V × HArgs V)} (ho : OwnStarts calls) {sol : PyDict V}
    (hrun : s.run w nlpsol calls 0 none = (s', some sol)) (hpr : s'.processResults w sol ptp false rx rdx = .ok (p, r))
    {a : SolveArgs K V} (ha : a.widths = s'.widths) {S : Session K V}
    (hrun' : mpSolve w.toOutside nlpsol' ocp ptp' n arg scheme a rx' rdx' = .ok (S, p', r')) :
    ∃ T T' J W, compQuadWeights ⟨w.method, w.tau0, w.tau1, tausFn w.lib w.tau0 w.tau1 scheme⟩ M.orders = .ok W ∧
      p.Shows ocp M T ∧ p'.Shows ocp M T' ∧ PhysCost ocp M W T J ∧ PhysCost ocp M W T' J ∧
      s'.widths = some (ocp.packWidths n T) ∧ s'.widths = some (ocp.packWidths n T') := by
  obtain ⟨T, W, J, hW, hT, hsh, hwid, hJ, hle⟩ := C60_h_optimal hf hv hs hsc hM hopt ho hrun hpr
  obtain ⟨T', W', J', hW', hT', hwid', hsh', hJ', hle'⟩ := C53_solve_optimal hrun' hv hs hsc hM hopt'
  rw [hW] at hW'; cases hW'
  have e : ∀ T'' : Traj K, WidthsAre ocp n a.widths T'' ↔ s'.widths = some (ocp.packWidths n T'') := by
    intro T''
    rw [ha, hwid]
    simp only [WidthsAre, Option.some.injEq, eq_comm]
  have h1 := hle T' J' hT' ((e T').1 hwid') hJ'
  have h2 := hle' T J hT ((e T).2 hwid) hJ
  obtain rfl := le_antisymm h1 h2
  exact ⟨T, T', J, W, hW, hsh, hsh', hJ, hJ', hwid, (e T').1 hwid'⟩

end

end MPOpt
