import Verif.Props.Flown

/-! # Concrete cases for C80 -/

set_option autoImplicit false

namespace MPOpt
open Polynomial

/-- Every mesh has a Lebesgue constant. -/
theorem exists_lebesgue (M : Mesh ℝ) : ∃ C, 0 ≤ C ∧ M.Lebesgue C := by
  have hex : ∀ s, ∃ C, 0 ≤ C ∧ ∀ tau ∈ Set.Icc M.tau0 M.tau1,
      ∑ i ∈ Finset.Icc 1 (M.order s), |(Lagrange.basis (Finset.Icc 1 (M.order s)) (M.node s) i).eval tau| ≤ C := by
    intro s
    have hc : Continuous fun tau => ∑ i ∈ Finset.Icc 1 (M.order s),
        |(Lagrange.basis (Finset.Icc 1 (M.order s)) (M.node s) i).eval tau| :=
      continuous_finsetSum _ fun i _ => (Polynomial.continuous _).abs
    obtain ⟨C, hC⟩ := isCompact_Icc.exists_bound_of_continuousOn (s := Set.Icc M.tau0 M.tau1) hc.continuousOn
    exact ⟨|C|, abs_nonneg _, fun tau ht => (le_abs_self _).trans ((hC tau ht).trans (le_abs_self _))⟩
  choose c h0 hc using hex
  refine ⟨∑ s ∈ Finset.range M.orders.length, c s, Finset.sum_nonneg fun s _ => h0 s, fun s hs tau ht => (hc s tau ht).trans ?_⟩
  exact Finset.single_le_sum (f := c) (fun s _ => h0 s) (Finset.mem_range.2 hs)

/-! ### `x' = u + x²/100`: the motion really leaves the plan -/

/-- `ocpBox` with the final state 1/2. -/
noncomputable def ocpFly : OCP ℝ := { ocpBox with terminalConstraints := [some ⟨1, fun t _ => t.xf.getD 0 0 - 1 / 2⟩] }

/-- What is known of it. -/
noncomputable def sizesFly : Sizes := ⟨1, 2, 2 / 25, 2, 0, 1 / 2, 1, 1, 1 / 2, 2, 0, 1 / 2, 0⟩

theorem ocpFly_ready : ValidOCP ocpFly ∧ ocpFly.SettingsOK ∧ ocpFly.PosScales := by
  refine ⟨?_, ⟨Nat.one_pos, rfl, rfl, rfl, rfl, rfl, Or.inl Nat.one_pos, fun h => absurd h (by simp [ocpFly, ocpBox, ocpR]),
    fun h => absurd h (by simp [ocpFly, ocpBox, ocpR]), by simp [ocpFly, ocpBox, ocpR]⟩,
    ⟨?_, ?_, ?_, by norm_num [ocpFly, ocpBox, ocpR]⟩⟩
  · constructor
    case ordX => exact rowOrdered_single (by simp [Ext.le])
    case ordU => exact rowOrdered_single (by simp [Ext.le])
    case ordA => exact rowOrdered_empty
    case ordT0 => exact rowOrdered_single (by simp [Ext.le])
    case ordTf => exact rowOrdered_single (by simp [Ext.le])
    case ordE => intro ph l u hl; simp [ocpFly, ocpBox, ocpR] at hl
    all_goals simp [ocpFly, ocpBox, ocpR, HasShape, boxF]
  all_goals simp [ocpFly, ocpBox, ocpR]

theorem sizesFly_drift : 0 ≤ sizesFly.drift ∧ sizesFly.drift ≤ 7 := by
  have hexp : Real.exp (2 / 25) ≤ 2.8 := by
    have h1 : Real.exp (2 / 25) ≤ Real.exp 1 := Real.exp_le_exp.2 (by norm_num)
    linarith [Real.exp_one_lt_d9]
  have := Real.exp_pos (2 / 25)
  unfold Sizes.drift Sizes.rate sizesFly
  norm_num at hexp this ⊢
  constructor <;> nlinarith

theorem trajBox_node {i : Nat} : 0 ≤ trajBox.x 0 i 0 ∧ trajBox.x 0 i 0 ≤ 1 / 2 ∧ -1 ≤ trajBox.u 0 i 0 := by
  refine ⟨?_, ?_, ?_⟩ <;> simp only [trajBox, trajStep]
  · split <;> norm_num
  · split <;> norm_num
  · split
    · norm_num
    · split <;> norm_num

theorem trajBox_feasible : PhysFeasible ocpFly meshGrow trajBox := by
  have one : ∀ {P : Nat → Prop}, P 0 → ∀ ph < ocpFly.nPhases, P ph := by
    intro P h ph hp
    obtain rfl : ph = 0 := by simpa [ocpFly, ocpBox, ocpR] using hp
    exact h
  refine ⟨one ⟨?_, ?_, ?_, ?_, ?_, ?_⟩, one C79_example.1, one ?_, one ?_, one ?_, one ?_, ?_⟩
  · intro _ j hj
    obtain rfl : j = 0 := by simpa [ocpFly, ocpBox, ocpR] using hj
    simp [trajBox, trajStep, ocpFly, ocpBox, ocpR, entry]
  · intro i _ _ j hj
    obtain rfl : j = 0 := by simpa [ocpFly, ocpBox, ocpR] using hj
    have := trajBox_node (i := i)
    show (-5 : ℝ) ≤ trajBox.x 0 i 0 ∧ trajBox.x 0 i 0 ≤ 5
    constructor <;> linarith [this.1, this.2.1]
  · intro i _ j hj
    obtain rfl : j = 0 := by simpa [ocpFly, ocpBox, ocpR] using hj
    exact ⟨(trajBox_node (i := i)).2.2, trivial⟩
  · simp [trajBox, trajStep, ocpFly, ocpBox, ocpR, entry, Within, Ext.Below, Ext.Above]
  · simp [trajBox, trajStep, ocpFly, ocpBox, ocpR, entry, Within, Ext.Below, Ext.Above]
  · intro k hk; simp [ocpFly, ocpBox, ocpR] at hk
  · intro F hF s i _ c _
    have hF : (⟨1, fun p _ => p.x.getD 0 0 - 3⟩ : VFun (PArg ℝ) ℝ) = F := by simpa [ocpFly, ocpBox, ocpR] using hF
    rw [← hF]
    show trajBox.x 0 (meshGrow.idx s i) 0 - 3 ≤ 0
    linarith [(trajBox_node (i := meshGrow.idx s i)).2.1]
  · intro F hF c _
    have hF : (⟨1, fun t _ => t.xf.getD 0 0 - 1 / 2⟩ : VFun (TArg ℝ) ℝ) = F := by simpa [ocpFly, ocpBox, ocpR] using hF
    rw [← hF]
    norm_num [OCP.tArg, ocpFly, ocpBox, ocpR, meshGrow, Mesh.N, trajBox, trajStep]
  · intro h; simp [ocpFly, ocpBox, ocpR] at h
  · intro h; simp [ocpFly, ocpBox, ocpR] at h
  · intro h; simp [ocpFly, ocpBox, ocpR] at h

theorem trajBox_sized : Sized ocpFly meshGrow trajBox 0 (fun _ => -4) (fun _ => 4) (fun u => |u.getD 0 0| ≤ 1) sizesFly := by
  obtain ⟨-, -, ht, hk, -⟩ := C79_example
  have hsx : ocpFly.scaleX.getD 0 0 = (2 : ℝ) := by simp [ocpFly, ocpBox, ocpR]
  have hsu : ocpFly.scaleU.getD 0 0 = (1 : ℝ) := by simp [ocpFly, ocpBox, ocpR]
  have hx0 : 0 < ocpFly.nx := by simp [ocpFly, ocpBox, ocpR]
  have hu0 : 0 < ocpFly.nu := by simp [ocpFly, ocpBox, ocpR]
  constructor
  case order => norm_num [trajBox, trajStep]
  case length => norm_num [trajBox, trajStep, sizesFly]
  case tame =>
    intro F hF
    have hF : boxF = F := by simpa [ocpFly, ocpBox] using hF
    rw [← hF]
    refine ⟨ht.lebesgue, ht.rates, fun p q h1 h2 _ _ h5 h6 h7 h7' dx du h8 h9 =>
      ht.lipschitz p q h1 h2 trivial trivial h5 h6 h7 h7' dx du h8 h9,
      ht.lasts, ht.varies, ht.states, fun s hs tau htau => ?_, ht.B, ht.Lx, ht.Lu, ht.Lt, ht.e⟩
    rw [getD_range_map _ hu0]
    have hs : s < 2 := hs
    obtain ⟨a1, a2⟩ := htau
    simp only [meshGrow] at a1 a2
    unfold Mesh.controlAt
    rw [abs_le]
    interval_cases s
    · rw [boxPieces.2.2.1]; simp; constructor <;> linarith
    · rw [boxPieces.2.2.2]; simp; constructor <;> linarith
  case keeps =>
    intro s hs tau htau k hk'
    have h1 := hk s hs tau htau k hk'
    have h2 := sizesFly_drift.2
    constructor
    · exact le_trans (add_le_add le_rfl h2) h1.1
    · exact h1.2.trans (sub_le_sub_left h2 _)
  case path =>
    intro F hF c _ p q _ _ _ _ _ _ _ _ dx du hx hu
    have hF : (⟨1, fun p _ => p.x.getD 0 0 - 3⟩ : VFun (PArg ℝ) ℝ) = F := by simpa [ocpFly, ocpBox, ocpR] using hF
    have h1 := hx 0 hx0
    have h2 := (abs_nonneg _).trans (hu 0 hu0)
    rw [← hF]
    rw [hsx, abs_mul, abs_of_pos (by norm_num : (0 : ℝ) < 2)] at h1
    simp only [sizesFly]
    rw [sub_sub_sub_cancel_right]
    linarith
  case cost =>
    intro g hg p q _ _ hp hq _ _ _ _ dx du hx hu
    have hg : (fun p : PArg ℝ => p.u.getD 0 0 * p.u.getD 0 0) = g := by simpa [ocpFly, ocpBox, ocpR] using hg
    have h1 := hu 0 hu0
    have h2 := (abs_nonneg _).trans (hx 0 hx0)
    rw [← hg]
    rw [hsu, one_mul] at h1
    simp only [sizesFly]
    have e : p.u.getD 0 0 * p.u.getD 0 0 - q.u.getD 0 0 * q.u.getD 0 0 =
        (p.u.getD 0 0 + q.u.getD 0 0) * (p.u.getD 0 0 - q.u.getD 0 0) := by ring
    rw [e, abs_mul]
    have h3 : |p.u.getD 0 0 + q.u.getD 0 0| ≤ 2 := (abs_add_le _ _).trans (by linarith)
    have := mul_le_mul h3 h1 (abs_nonneg _) (by norm_num)
    linarith
  case terminal =>
    intro F hF c _ x y _ _ d hd
    have hF : (⟨1, fun t _ => t.xf.getD 0 0 - 1 / 2⟩ : VFun (TArg ℝ) ℝ) = F := by simpa [ocpFly, ocpBox, ocpR] using hF
    have h1 := hd 0 hx0
    rw [← hF]
    rw [hsx, abs_mul, abs_of_pos (by norm_num : (0 : ℝ) < 2)] at h1
    simp only [sizesFly]
    rw [sub_sub_sub_cancel_right]
    linarith
  case endCost =>
    intro g hg x y _ _ d hd
    have hg : (fun _ : TArg ℝ => (0 : ℝ)) = g := by simpa [ocpFly, ocpBox, ocpR] using hg
    have h1 := (abs_nonneg _).trans (hd 0 hx0)
    rw [← hg]
    simp only [sizesFly, sub_zero, abs_zero]
    linarith
  case Qt => norm_num [sizesFly]
  case tol => norm_num [sizesFly]

/-- **C80** The hypotheses of `C80_flown` are met by a plan that is not a motion of the system: flown, it obeys `x' = u + x²/100` exactly,
starts at 0, and ends within `7/2` of the final state 1/2 wanted. -/
theorem C80_example : ∃ C, Flies ocpFly meshGrow trajBox C ∧
    NearlySolves ocpFly C sizesFly.gap 1 sizesFly.change (1 / 2 * sizesFly.drift) ∧ C.x 0 0 0 = 0 ∧ |C.x 0 0 1 - 1 / 2| ≤ 7 / 2 := by
  obtain ⟨hv, hs, hsc⟩ := ocpFly_ready
  have one : ∀ {P : Nat → Prop}, P 0 → ∀ ph < ocpFly.nPhases, P ph := by
    intro P h ph hp
    obtain rfl : ph = 0 := by simpa [ocpFly, ocpBox, ocpR] using hp
    exact h
  obtain ⟨C, h1, h2⟩ := C80_flown (lo := fun _ _ => -4) (hi := fun _ _ => 4) (U := fun _ u => |u.getD 0 0| ≤ 1) hv hs hsc
    meshGrow_good meshGrow_inside trajBox_feasible (one C79_example.2.1) (one trajBox_sized)
  refine ⟨C, h1, h2, ?_, ?_⟩
  · have h3 := h1.start 0 (by simp [ocpFly, ocpBox, ocpR]) 0 (by simp [ocpFly, ocpBox, ocpR])
    rw [h1.t0] at h3
    simpa [trajBox, trajStep] using h3
  · have h3 := (h2.phase 0 (by simp [ocpFly, ocpBox, ocpR])).terminal ⟨1, fun t _ => t.xf.getD 0 0 - 1 / 2⟩ rfl 0 Nat.one_pos
    have e : (ocpFly.cEnd C 0).xf.getD 0 0 = C.x 0 0 1 := by
      have : C.tf 0 = 1 := by rw [h1.tf]; rfl
      rw [← this]
      exact getD_range_map (fun j => C.x 0 j (C.tf 0)) (by simp [ocpFly, ocpBox, ocpR])
    simp only [e] at h3
    refine h3.trans ?_
    have := sizesFly_drift.2
    have e : sizesFly.Px = 1 / 2 := rfl
    rw [e]; linarith

/-! ### LGR: the straight line -/

/-- The hypotheses of `C80_lgr`, `C80_fine`, `C80_solve` and `C80_solve_best` are met: the straight line on two LGR segments of order 2.
Nothing drifts. -/
theorem C80_lgr_example : ∃ (M : Mesh ℝ) (T : Traj ℝ) (K : Sizes) (W : List ℝ) (J : ℝ), MeshFor outsideR "LGR" 2 (.list [2, 2]) M ∧
    SolvesOCP ocpR M T ∧ WidthsAre ocpR 2 none T ∧
    compQuadWeights ⟨.numerical, -1, 1, tausFn libR (-1) 1 "LGR"⟩ M.orders = .ok W ∧ PhysCost ocpR M W T J ∧ J = 1 / 16 ∧
    Sized ocpR M T 0 (fun _ => -1) (fun _ => 2) (fun u => |u.getD 0 0| ≤ 1) K ∧ K.drift = 0 ∧
    ∃ C, Flies ocpR M T C ∧ NearlySolves ocpR C K.gap K.e K.change 0 ∧ |J - ocpR.trueCost C| ≤ K.change := by
  obtain ⟨hv, hs, hsc⟩ := ocpR_ready
  obtain ⟨M, hM, ho⟩ := exists_lgr_mesh [2, 2] (by simp) (by simp)
  have hM : MeshFor outsideR "LGR" 2 (.list [2, 2]) M := hM
  have hord : ∀ p ∈ M.orders, 2 ≤ p := by rw [ho]; decide
  have hj : ∀ p ∈ M.orders, IsJacobiRoots 1 0 (p - 1) (outsideR.lib.jroots (p - 1) 1 0) := fun p _ => libR_jacobi 1 0 _
  have hlt : outsideR.tau0 < outsideR.tau1 := by norm_num [outsideR]
  have hI := hM.lgr_inside hlt hord hj
  have hm := hM.meshOf hI
  obtain ⟨W, hW, -⟩ := compQuadWeights_spec ⟨.numerical, -1, 1, tausFn libR (-1) 1 "LGR"⟩ M.orders hm.good.nonempty M.nodes
    (hm.goodNodes (m := .numerical))
  obtain ⟨-, hInt⟩ := C57_lgr_integrates hM hlt hord hj hW
  obtain ⟨T, hw, hsamp, hsol, hJ⟩ := sampled (C := lineR) hM rfl rfl hI hInt lineR_solves fun T _ => lineR_poly ho T
  have hfw : FullWidths M T 0 := (halves ho (C := lineR) rfl rfl hw).1
  have one : ∀ {P : Nat → Prop}, P 0 → ∀ ph < ocpR.nPhases, P ph := by
    intro P h ph hp
    obtain rfl : ph = 0 := by simpa [ocpR] using hp
    exact h
  have hp0 : 0 < ocpR.nPhases := by simp [ocpR]
  have hx0 : 0 < ocpR.nx := by simp [ocpR]
  have hu0 : 0 < ocpR.nu := by simp [ocpR]
  have ht0 : T.t0 0 = 0 := hsamp.t0 0 hp0
  have htf : T.tf 0 = 1 := hsamp.tf 0 hp0
  have hts : T.t0 0 < T.tf 0 := by rw [ht0, htf]; norm_num
  obtain ⟨Λ, hΛ0, hΛ⟩ := exists_lebesgue M
  have hsx : ocpR.scaleX.getD 0 0 = (2 : ℝ) := by simp [ocpR]
  have hsu : ocpR.scaleU.getD 0 0 = (1 : ℝ) := by simp [ocpR]
  -- node values and pieces
  have hnu : ∀ s < M.orders.length, ∀ i ≤ M.order s, T.u 0 (M.idx s i) 0 = 1 / 4 := by
    intro s hs i hi
    rcases Nat.eq_zero_or_pos i with rfl | hi0
    · rcases Nat.eq_zero_or_pos s with rfl | hs0
      · exact hsamp.u 0 hp0 0 hu0 0 0 ⟨hs, hi, Or.inl rfl⟩
      · have e : M.idx s 0 = M.idx (s - 1) (M.order (s - 1)) := by
          unfold Mesh.idx
          have := segStart_succ M.orders (s := s - 1) (by omega)
          rw [Nat.sub_add_cancel hs0] at this
          rw [this, Mesh.order_eq (by omega), Nat.add_zero]
        rw [e]
        exact hsamp.u 0 hp0 0 hu0 (s - 1) _ ⟨by omega, le_rfl, Or.inr (hM.good.order_pos (by omega))⟩
    · exact hsamp.u 0 hp0 0 hu0 s i ⟨hs, hi, Or.inr hi0⟩
  have hu : ∀ s < M.orders.length, ∀ tau, M.controlAt T 0 s tau 0 = 1 / 4 := by
    intro s hs tau
    unfold Mesh.controlAt
    have : M.piece (fun i => T.u 0 i 0) s = Polynomial.C (1 / 4) := by
      refine hM.good.piece_eq hs _ _ ?_ fun i hi => ?_
      · exact degree_C_le.trans_lt (by exact_mod_cast Nat.succ_pos _)
      · rw [eval_C, hnu s hs i hi]
    rw [this, eval_C]
  have hx : ∀ s < M.orders.length, ∀ tau ∈ Set.Icc M.tau0 M.tau1,
      M.stateAt T 0 s tau 0 = M.time T 0 s tau / 4 := by
    intro s hs tau htau
    rcases htau.1.lt_or_eq with h | rfl
    · exact (exact_inner hM.good hI hsamp hp0 (by norm_num [lineR]) hfw hs h htau.2).2.2.2.2 0 hx0 ((lineR_poly ho T).1 0 hx0)
    · rcases Nat.eq_zero_or_pos s with rfl | hs0
      · have e := stateAt_node (T := T) (ph := 0) hM.good hs (Nat.zero_le _) 0
        rw [hM.good.node_first hs] at e
        rw [e, hsamp.x 0 hp0 0 hx0 0 0 ⟨hs, Nat.zero_le _, Or.inl rfl⟩, hM.good.node_first hs]
        rfl
      · have hs1 : s - 1 < M.orders.length := by omega
        have e := stateAt_node (T := T) (ph := 0) hM.good hs (Nat.zero_le _) 0
        have e1 : M.idx s 0 = M.idx (s - 1) (M.order (s - 1)) := by
          unfold Mesh.idx
          have := segStart_succ M.orders (s := s - 1) (by omega)
          rw [Nat.sub_add_cancel hs0] at this
          rw [this, Mesh.order_eq (by omega), Nat.add_zero]
        have e2 := (C13_segment_ends hM.good T 0).2.2.1 (s - 1)
        rw [Nat.sub_add_cancel hs0] at e2
        rw [hM.good.node_first hs, e1] at e
        rw [e, hsamp.x 0 hp0 0 hx0 (s - 1) _ ⟨hs1, le_rfl, Or.inr (hM.good.order_pos hs1)⟩, hM.good.node_last hs1, e2]
        rfl
  have hxb : ∀ s < M.orders.length, ∀ tau ∈ Set.Icc M.tau0 M.tau1,
      0 ≤ M.stateAt T 0 s tau 0 ∧ M.stateAt T 0 s tau 0 ≤ 1 / 4 := by
    intro s hs tau htau
    obtain ⟨-, b2, b3⟩ := time_bounds hM.good hI hts hfw hs
    have b2 := b2 _ htau.1
    have b3 := b3 _ htau.2
    rw [ht0] at b2
    rw [htf] at b3
    rw [hx s hs tau htau]
    constructor <;> linarith
  let K : Sizes := ⟨Λ, 1 / 2, 0, 2, 0, 1 / 2, 0, 1, 1 / 2, 2, 0, 1 / 2, 0⟩
  have hdrift : K.drift = 0 := by simp [Sizes.drift, Sizes.rate, K]
  have hsz : Sized ocpR M T 0 (fun _ => -1) (fun _ => 2) (fun u => |u.getD 0 0| ≤ 1) K := by
    constructor
    case order => exact hts
    case length => rw [ht0, htf]; norm_num [K]
    case tame =>
      intro F hF
      have hF : (⟨1, fun p _ => p.u.getD 0 0⟩ : VFun (PArg ℝ) ℝ) = F := by simpa [ocpR] using hF
      rw [← hF]
      refine ⟨hΛ, fun s i hi j hj => ?_, fun p q _ _ _ _ _ _ _ _ dx du h8 h9 j hj => ?_, fun s hs => ?_,
        fun s hs tau _ tau' _ k hk => ?_, fun s hs tau htau k hk => ?_, fun s hs tau _ => ?_, ?_, ?_, ?_, ?_, ?_⟩
      · obtain rfl : j = 0 := by simpa [ocpR] using hj
        show |ocpR.scaleX.getD 0 0 * T.u 0 (M.idx s i) 0| ≤ 1 / 2
        rw [hsx, hnu s hi.1 i hi.2.1]; norm_num
      · obtain rfl : j = 0 := by simpa [ocpR] using hj
        have := h9 0 hu0
        rw [hsu, one_mul] at this
        rw [hsx, abs_mul, abs_of_pos (by norm_num : (0 : ℝ) < 2)]
        simp only [K]
        linarith
      · rw [ht0, htf]
        have hs' : s < 2 := by simpa [ho] using hs
        have e : T.w s 0 = 1 / 2 := by simpa using hw 0 hp0 s hs'
        rw [e]; norm_num [K]
      · obtain rfl : k = 0 := by simpa [ocpR] using hk
        rw [hu s hs, hu s hs]; simp [K]
      · obtain rfl : k = 0 := by simpa [ocpR] using hk
        rw [getD_range_map _ hk]
        have := hxb s hs tau htau
        constructor <;> linarith [this.1, this.2]
      · rw [getD_range_map _ hu0, hu s hs, abs_of_pos (by norm_num)]; norm_num
      all_goals norm_num [K]
    case keeps =>
      intro s hs tau htau k hk
      obtain rfl : k = 0 := by simpa [ocpR] using hk
      rw [hsx, hdrift]
      have := hxb s hs tau htau
      constructor <;> linarith [this.1, this.2]
    case path =>
      intro F hF c _ p q _ _ _ _ _ _ _ _ dx du hx hu
      have hF : (⟨1, fun p _ => p.x.getD 0 0 - 3⟩ : VFun (PArg ℝ) ℝ) = F := by simpa [ocpR] using hF
      have h1 := hx 0 hx0
      have h2 := (abs_nonneg _).trans (hu 0 hu0)
      rw [← hF]
      rw [hsx, abs_mul, abs_of_pos (by norm_num : (0 : ℝ) < 2)] at h1
      simp only [K]
      rw [sub_sub_sub_cancel_right]
      linarith
    case cost =>
      intro g hg p q _ _ hp hq _ _ _ _ dx du hx hu
      have hg : (fun p : PArg ℝ => p.u.getD 0 0 * p.u.getD 0 0) = g := by simpa [ocpR] using hg
      have h1 := hu 0 hu0
      have h2 := (abs_nonneg _).trans (hx 0 hx0)
      rw [← hg]
      rw [hsu, one_mul] at h1
      simp only [K]
      have e : p.u.getD 0 0 * p.u.getD 0 0 - q.u.getD 0 0 * q.u.getD 0 0 =
          (p.u.getD 0 0 + q.u.getD 0 0) * (p.u.getD 0 0 - q.u.getD 0 0) := by ring
      rw [e, abs_mul]
      have h3 : |p.u.getD 0 0 + q.u.getD 0 0| ≤ 2 := (abs_add_le _ _).trans (by linarith)
      have := mul_le_mul h3 h1 (abs_nonneg _) (by norm_num)
      linarith
    case terminal =>
      intro F hF c _ x y _ _ d hd
      have hF : (⟨1, fun t _ => t.xf.getD 0 0 - 1 / 4⟩ : VFun (TArg ℝ) ℝ) = F := by simpa [ocpR] using hF
      have h1 := hd 0 hx0
      rw [← hF]
      rw [hsx, abs_mul, abs_of_pos (by norm_num : (0 : ℝ) < 2)] at h1
      simp only [K]
      rw [sub_sub_sub_cancel_right]
      linarith
    case endCost =>
      intro g hg x y _ _ d hd
      have hg : (fun _ : TArg ℝ => (0 : ℝ)) = g := by simpa [ocpR] using hg
      have h1 := (abs_nonneg _).trans (hd 0 hx0)
      rw [← hg]
      simp only [K, sub_zero, abs_zero]
      linarith
    case Qt => norm_num [K]
    case tol => norm_num [K]
  obtain ⟨C, c1, c2, c3⟩ := C80_lgr (lo := fun _ _ => -1) (hi := fun _ _ => 2) (U := fun _ u => |u.getD 0 0| ≤ 1) libR .numerical
    hv hs hsc hm hord hj hsol.1 (one hfw) (one hsz) hW hJ
  rw [hdrift, mul_zero] at c2 c3
  refine ⟨M, T, K, W, _, hM, hsol, hw, hW, hJ, lineR_cost, hsz, hdrift, C, c1, c2, ?_⟩
  have : (ocpR.nPhases : ℝ) = 1 := by simp [ocpR]
  rw [this] at c3
  simpa [K] using c3

end MPOpt
