import Verif.Props.Shipped

/-! # C69: the problems of the shipped examples are admissible; cost of the moon lander -/

set_option autoImplicit false

namespace MPOpt
open Polynomial

theorem rowOrdered_nil (ph : Nat) : RowOrdered ([] : List (List (Ext ℝ))) [] ph := by
  intro l u hl; simp at hl

theorem rowOrdered_cons {l u : List (Ext ℝ)} {ls us : List (List (Ext ℝ))}
    (h : List.Forall₂ (fun a b => Ext.le a b = true) l u) (ht : ∀ ph, RowOrdered ls us ph) (ph : Nat) : RowOrdered (l :: ls) (u :: us) ph := by
  intro l' u' hl hu i a b ha hb
  cases ph with
  | zero =>
    obtain rfl : l = l' := by simpa using hl
    obtain rfl : u = u' := by simpa using hu
    obtain ⟨h1, rfl⟩ := List.getElem?_eq_some_iff.1 ha
    obtain ⟨h2, rfl⟩ := List.getElem?_eq_some_iff.1 hb
    exact (List.forall₂_iff_get.1 h).2 i h1 h2
  | succ ph => exact ht ph l' u' (by simpa using hl) (by simpa using hu) i a b ha hb

/-- The problem is valid and its settings and scales are admissible. -/
def Ready (ocp : OCP ℝ) : Prop := ValidOCP ocp ∧ ocp.SettingsOK ∧ ocp.PosScales

theorem scriptMoonLander_ready : ∃ ocp, scriptMoonLander = .ok ocp ∧ Ready ocp := by
  refine ⟨_, rfl, ?_, ?_, ?_⟩
  · constructor
    case ordX => exact rowOrdered_cons (by simp [Ext.le]) rowOrdered_nil
    case ordU => exact rowOrdered_cons (by simp [Ext.le]) rowOrdered_nil
    case ordA => exact rowOrdered_cons (by simp) rowOrdered_nil
    case ordT0 => exact rowOrdered_cons (by simp [Ext.le]) rowOrdered_nil
    case ordTf => exact rowOrdered_cons (by simp [Ext.le]; norm_num) rowOrdered_nil
    case ordE => exact rowOrdered_nil
    all_goals simp [HasShape]
  · constructor <;> simp
  · constructor <;> simp

theorem scriptHyperSensitive_ready : ∃ ocp, scriptHyperSensitive = .ok ocp ∧ Ready ocp := by
  refine ⟨_, rfl, ?_, ?_, ?_⟩
  · constructor
    case ordX => exact rowOrdered_cons (by simp [Ext.le]) rowOrdered_nil
    case ordU => exact rowOrdered_cons (by simp [Ext.le]) rowOrdered_nil
    case ordA => exact rowOrdered_cons (by simp) rowOrdered_nil
    case ordT0 => exact rowOrdered_cons (by simp [Ext.le]) rowOrdered_nil
    case ordTf => exact rowOrdered_cons (by simp [Ext.le]) rowOrdered_nil
    case ordE => exact rowOrdered_nil
    all_goals simp [HasShape]
  · constructor <;> simp
  · constructor <;> simp

theorem scriptSchwartz_ready : ∃ ocp, scriptSchwartz = .ok ocp ∧ Ready ocp := by
  refine ⟨_, rfl, ?_, ?_, ?_⟩
  · constructor
    case ordX => exact rowOrdered_cons (by simp [Ext.le]) (rowOrdered_cons (by simp [Ext.le]) rowOrdered_nil)
    case ordU => exact rowOrdered_cons (by simp [Ext.le]) (rowOrdered_cons (by simp [Ext.le]) rowOrdered_nil)
    case ordA => exact rowOrdered_cons (by simp) (rowOrdered_cons (by simp) rowOrdered_nil)
    case ordT0 => exact rowOrdered_cons (by simp [Ext.le]) (rowOrdered_cons (by simp [Ext.le]) rowOrdered_nil)
    case ordTf => exact rowOrdered_cons (by simp [Ext.le]) (rowOrdered_cons (by simp [Ext.le]) rowOrdered_nil)
    case ordE => exact rowOrdered_cons (by simp [Ext.le]) rowOrdered_nil
    all_goals simp [HasShape]
  · constructor <;> simp
  · constructor <;> simp
/-- **C69** The shipped problems pass `validate` and have admissible settings and scales, so that the end-to-end theorems
apply to them. -/
theorem C69_scripts_ready : (∃ ocp, scriptWithSolution = .ok ocp ∧ ocp.validate = .ok () ∧ Ready ocp) ∧
    (∃ ocp, scriptMoonLander = .ok ocp ∧ ocp.validate = .ok () ∧ Ready ocp) ∧
    (∃ ocp, scriptHyperSensitive = .ok ocp ∧ ocp.validate = .ok () ∧ Ready ocp) ∧
    (∃ ocp, scriptSchwartz = .ok ocp ∧ ocp.validate = .ok () ∧ Ready ocp) := by
  obtain ⟨o2, h2, r2⟩ := scriptMoonLander_ready
  obtain ⟨o3, h3, r3⟩ := scriptHyperSensitive_ready
  obtain ⟨o4, h4, r4⟩ := scriptSchwartz_ready
  exact ⟨⟨_, scriptWithSolution_eq, (C40_validate_iff _).2 ocpWS_ready.1, ocpWS_ready⟩,
    ⟨o2, h2, (C40_validate_iff _).2 r2.1, r2⟩, ⟨o3, h3, (C40_validate_iff _).2 r3.1, r3⟩,
    ⟨o4, h4, (C40_validate_iff _).2 r4.1, r4⟩⟩

/-! ### Moon lander -/

variable {M : Mesh ℝ}

/-- Bounds, dynamics and terminal constraints fix the cost of the collocated moon lander up to the final time. -/
theorem moon_cost {ocp : OCP ℝ} (hocp : scriptMoonLander = .ok ocp) (hM : M.Good) {W : List ℝ}
    (hord : ∀ q ∈ M.orders, 2 ≤ q) (hW : M.Integrates W fun s => 2 * M.order s - 2) {T : Traj ℝ} {J : ℝ}
    (hB : BoundsOK ocp M T 0) (hC : CollocationOK ocp M T 0) (hT : TerminalOK ocp M T 0) (hw : FullWidths M T 0)
    (hJ : PhysCost ocp M W T J) : J = 2 + 3 / 2 * T.tf 0 ∧ 3 ≤ T.tf 0 ∧ T.tf 0 ≤ 5 := by
  unfold scriptMoonLander mkOCP at hocp
  rw [if_neg (by norm_num), py_bind_ok] at hocp
  injection hocp with hocp
  obtain ⟨b1, -, -, b4, b5, -⟩ := hB
  have hlen : 0 < M.orders.length := List.length_pos_iff.2 hM.nonempty
  have x0 : T.x 0 0 1 = -2 := by
    have := b1 rfl 1 (by rw [← hocp]; simp)
    rw [← hocp] at this
    simpa [entry] using this
  have t0 : T.t0 0 = 0 := by
    rw [← hocp] at b4
    have : (0 : ℝ) ≤ T.t0 0 ∧ T.t0 0 ≤ 0 := by simpa [entry, Within, Ext.Below, Ext.Above] using b4
    exact le_antisymm this.2 this.1
  have tf : 3 ≤ T.tf 0 ∧ T.tf 0 ≤ 5 := by
    rw [← hocp] at b5
    simpa [entry, Within, Ext.Below, Ext.Above] using b5
  have xf : T.x 0 (M.N - 1) 1 = 0 := by
    have := hT _ (by rw [← hocp]; rfl) 1 (by norm_num)
    rw [← hocp] at this
    simpa [OCP.tArg] using this
  obtain ⟨j1, -, j3, j4⟩ := C13_segment_ends hM T 0
  obtain ⟨v, hv, rfl⟩ := hJ
  set Xs : Nat → ℝ[X] := fun s => M.piece (fun k => T.x 0 k 1) s with hXs
  have hXn : ∀ s < M.orders.length, ∀ i ≤ M.order s, (Xs s).eval (M.node s i) = T.x 0 (M.idx s i) 1 :=
    fun s hs i hi => hM.piece_eval_node (fun k => T.x 0 k 1) hs hi
  have hsum := hW.telescope hM (P := fun s => Xs s + C (3 / 2) * M.clockPoly T 0 s) (v := v 0) (by
    intro s hs
    have h2 : 2 ≤ M.order s := hord _ (hM.order_mem hs)
    have h3 := hM.piece_degrees (fun k => T.x 0 k 1) s hs
    rw [← Mesh.order_eq hs] at h3
    have h4 : (M.clockPoly T 0 s).natDegree ≤ 1 := natDegree_linear_le
    have h5 : (Xs s + C (3 / 2) * M.clockPoly T 0 s).natDegree ≤ M.order s :=
      (natDegree_add_le _ _).trans (max_le h3 ((natDegree_C_mul_le _ _).trans (by omega)))
    have := natDegree_derivative_le (Xs s + C (3 / 2) * M.clockPoly T 0 s)
    omega) (by
    intro s hs
    have a := hXn (s + 1) hs 0 (Nat.zero_le _)
    have b := hXn s (by omega) (M.order s) le_rfl
    rw [hM.node_first hs] at a
    rw [hM.node_last (by omega)] at b
    simp only [eval_add, eval_mul, eval_C, M.clockPoly_eval, j3 s, a, b]
    congr 2
    simp only [Mesh.idx, Nat.add_zero]
    rw [Mesh.order_eq (by omega : s < M.orders.length)]
    exact segStart_succ M.orders (by omega)) (by
    intro s i ho
    have hc := hC _ (by rw [← hocp]; rfl) 1 (by rw [← hocp]; simp) s i ho
    have e1 := hv 0 (by rw [← hocp]; simp) _ (by rw [← hocp]; rfl) s i ho
    rw [← hocp] at hc e1
    have e1 : v 0 (M.idx s i) = M.halfWidth T 0 s * T.u 0 (M.idx s i) 0 := by simpa [OCP.pArg] using e1
    have hc : (derivative (Xs s)).eval (M.node s i) = M.halfWidth T 0 s * (T.u 0 (M.idx s i) 0 - 3 / 2) := by
      simpa [OCP.pArg] using hc
    simp only [derivative_add, derivative_C_mul, eval_add, eval_mul, eval_C, hc, e1]
    simp [Mesh.clockPoly]
    ring)
  have a := hXn 0 hlen 0 (Nat.zero_le _)
  have b := hXn (M.orders.length - 1) (by omega) (M.order (M.orders.length - 1)) le_rfl
  rw [hM.node_first hlen, show M.idx 0 0 = 0 by simp [Mesh.idx, segStart], x0] at a
  have hlast : M.idx (M.orders.length - 1) (M.order (M.orders.length - 1)) = M.N - 1 := by
    have hl : M.orders.length - 1 < M.orders.length := by omega
    unfold Mesh.idx
    rw [Mesh.order_eq hl, ← segStart_succ M.orders hl, Nat.sub_add_cancel hlen]
    simp [segStart, Mesh.N]
  rw [hM.node_last (by omega), hlast, xf] at b
  refine ⟨?_, tf⟩
  have ht : TerminalCost ocp M T 0 = 0 := by rw [← hocp]; rfl
  have hp1 : ocp.nPhases = 1 := by rw [← hocp]
  rw [hp1, Finset.sum_range_one, ht, hsum]
  simp only [eval_add, eval_mul, eval_C, M.clockPoly_eval, a, b, j1, j4 hw.sum, t0]
  ring

variable {V : Type} {w : Outside ℝ V} {nlpsol : SolverCall ℝ V → Py (List ℝ)} {ptp : List (List Nat)} {n : Nat}
  {arg : OrdersArg} {rx rdx : Bool} {ocp : OCP ℝ}

/-- **C69** `mpopt.solve` on the moon lander with LGR nodes of order at least 2 and a globally optimal NLP solver: the
fuel shown is `2 + 1.5 tf` exactly, and no trajectory of the collocated problem lands earlier. -/
theorem C69_moon_solve (hocp : scriptMoonLander = .ok ocp) {a : SolveArgs ℝ V} {s : Session ℝ V}
    {p : Post ℝ} {r : Option (PyDict (ResidVal ℝ))}
    (hrun : mpSolve w nlpsol ocp ptp n arg "LGR" a rx rdx = .ok (s, p, r)) (hM : MeshFor w "LGR" n arg M)
    (hlt : w.tau0 < w.tau1) (hord : ∀ q ∈ M.orders, 2 ≤ q)
    (hj : ∀ q ∈ M.orders, IsJacobiRoots 1 0 (q - 1) (w.lib.jroots (q - 1) 1 0))
    (hopt : ∀ c z, nlpsol c = .ok z → c.IsOptimal z)
    (hwid : ∀ l, a.widths = some l → l.sum = 1 ∧ ∀ x ∈ l, 0 < x) :
    ∃ T W, compQuadWeights ⟨w.method, w.tau0, w.tau1, tausFn w.lib w.tau0 w.tau1 "LGR"⟩ M.orders = .ok W ∧
      SolvesOCP ocp M T ∧ p.Shows ocp M T ∧ PhysCost ocp M W T (2 + 3 / 2 * T.tf 0) ∧
      ∀ T', SolvesOCP ocp M T' → WidthsAre ocp n a.widths T' → T.tf 0 ≤ T'.tf 0 := by
  obtain ⟨o, ho, hv, hs, hsc⟩ := scriptMoonLander_ready
  obtain rfl : o = ocp := by rw [hocp] at ho; injection ho with ho; exact ho.symm
  have hp1 : o.nPhases = 1 := by injection hocp with h; rw [← h]
  obtain ⟨T, W, J, h1, h2, h3, h4, h5, h6⟩ := C53_solve_optimal hrun hv hs hsc hM hopt
  obtain ⟨-, hW⟩ := C57_lgr_integrates hM hlt hord hj h1
  have hlen : M.orders.length = n := mpSolve_length hrun hM
  have hn : 0 < n := by rw [← hlen]; exact List.length_pos_iff.2 hM.good.nonempty
  have h0 : 0 < o.nPhases := by omega
  have key : ∀ {T J}, SolvesOCP o M T → WidthsAre o n a.widths T → PhysCost o M W T J → J = 2 + 3 / 2 * T.tf 0 :=
    fun hS hw hJ => (moon_cost hocp hM.good hord hW (hS.1.bounds 0 h0) (hS.1.dynamics 0 h0) (hS.1.terminal 0 h0)
      (hw.full hp1 hn hlen hwid) hJ).1
  have e := key h2 h3 h5
  refine ⟨T, W, h1, h2, h4, e ▸ h5, fun T' hT' hw' => ?_⟩
  obtain ⟨v, hv'⟩ := exists_samples o M T'
  have hJ' : PhysCost o M W T' _ := ⟨v, hv', rfl⟩
  have h7 := h6 T' _ hT' hw' hJ'
  rw [key hT' hw' hJ', e] at h7
  linarith

/-- **C69** The same for `mpopt_adaptive`, over all admissible widths. -/
theorem C69_moon_adaptive (hocp : scriptMoonLander = .ok ocp) {lb ub tol : ℝ} {mid : Bool} {s : AdaptOpt ℝ V}
    (hf : s.Ready w ocp n arg "LGR" [lb] [ub] [tol] mid) (hlb : 0 < lb) (hM : MeshFor w "LGR" n arg M)
    (hlt : w.tau0 < w.tau1) (hord : ∀ q ∈ M.orders, 2 ≤ q)
    (hj : ∀ q ∈ M.orders, IsJacobiRoots 1 0 (q - 1) (w.lib.jroots (q - 1) 1 0))
    (hopt : ∀ c z, nlpsol c = .ok z → c.IsOptimal z) (earlier : List (SolveArgs ℝ V)) (a : SolveArgs ℝ V)
    {s' : AdaptOpt ℝ V} {z : List ℝ} (hrun : (s.run w nlpsol earlier).solve w nlpsol a = (s', .ok z))
    {p : Post ℝ} {r : Option (PyDict (ResidVal ℝ))} (hp : s'.processResults w ptp false rx rdx = .ok (p, r)) :
    ∃ T W, compQuadWeights ⟨w.method, w.tau0, w.tau1, tausFn w.lib w.tau0 w.tau1 "LGR"⟩ M.orders = .ok W ∧
      SolvesAdaptive ocp M T [lb] [ub] [tol] mid ∧ p.Shows ocp M T ∧ PhysCost ocp M W T (2 + 3 / 2 * T.tf 0) ∧
      ∀ T', SolvesAdaptive ocp M T' [lb] [ub] [tol] mid → T.tf 0 ≤ T'.tf 0 := by
  obtain ⟨o, ho, hv, hs, hsc⟩ := scriptMoonLander_ready
  obtain rfl : o = ocp := by rw [hocp] at ho; injection ho with ho; exact ho.symm
  have hp1 : o.nPhases = 1 := by injection hocp with h; rw [← h]
  obtain ⟨T, W, J, h1, h2, h3, h4, h5⟩ := C55_adaptive_optimal hf hv hs hsc (by rw [hp1]; rfl) (by rw [hp1]; rfl)
    (by rw [hp1]; rfl) hM hopt earlier a hrun hp
  obtain ⟨-, hW⟩ := C57_lgr_integrates hM hlt hord hj h1
  have h0 : 0 < o.nPhases := by omega
  have key : ∀ {T J}, SolvesAdaptive o M T [lb] [ub] [tol] mid → PhysCost o M W T J → J = 2 + 3 / 2 * T.tf 0 :=
    fun hS hJ => (moon_cost hocp hM.good hord hW (hS.1.bounds 0 h0) (hS.1.dynamics 0 h0) (hS.1.terminal 0 h0)
      ⟨fun s hs => hlb.trans_le ((hS.1.widths 0 h0).lower s hs), (hS.1.widths 0 h0).sum⟩ hJ).1
  have e := key h2 h4
  refine ⟨T, W, h1, h2, h3, e ▸ h4, fun T' hT' => ?_⟩
  obtain ⟨v, hv'⟩ := exists_samples o M T'
  have hJ' : PhysCost o M W T' _ := ⟨v, hv', rfl⟩
  have h7 := h5 T' _ hT' hJ'
  rw [key hT' hJ', e] at h7
  linarith

end MPOpt
