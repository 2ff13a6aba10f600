import Verif.Props.Mayer
import Verif.Props.KnownRateEnd

/-! # C90 for runs of `solve`, in continuous time, and concrete cases -/

set_option autoImplicit false
set_option linter.unusedSectionVars false

namespace MPOpt
open Polynomial

section
variable {K : Type} [Field K] [LinearOrder K] [IsStrictOrderedRing K] {ocp : OCP K} {M : Mesh K} {T : Traj K}
variable {V : Type} {w : Outside K V} {n : Nat} {arg : OrdersArg} {scheme : String}

theorem MeshFor.weights_length (hM : MeshFor w scheme n arg M) {W : List K}
    (hW : compQuadWeights ⟨w.method, w.tau0, w.tau1, tausFn w.lib w.tau0 w.tau1 scheme⟩ M.orders = .ok W) : W.length = M.N := by
  obtain ⟨W', hW', hlen, -, -⟩ := compQuadWeights_spec ⟨w.method, w.tau0, w.tau1, tausFn w.lib w.tau0 w.tau1 scheme⟩ M.orders
    hM.good.nonempty M.nodes hM.goodNodes
  rw [hW] at hW'
  obtain rfl : W = W' := by injection hW'
  exact hlen

theorem mayer_widths (σ : K) {req : Option (List K)} : WidthsAre (ocp.mayer σ) n req T ↔ WidthsAre ocp n req T := Iff.rfl

theorem SameOn.widths {S : Traj K} (h : SameOn ocp M.N n S T) {req : Option (List K)} (hS : WidthsAre ocp n req S) :
    WidthsAre ocp n req T := by
  cases req with
  | none => exact fun ph hp s hs => by rw [← h.w ph hp s hs]; exact hS ph hp s hs
  | some l =>
    have hS : ocp.packWidths n S = l := hS
    show ocp.packWidths n T = l
    rw [← hS]
    unfold OCP.packWidths
    refine List.flatMap_congr fun ph hp => List.map_congr_left fun s hs => ?_
    exact (h.w ph (List.mem_range.1 hp) s (List.mem_range.1 hs)).symm

/-- **C90** What a perfect solver shows for a problem and for its Mayer form, LGR nodes of order at least 2 and the same mesh and
widths: the plan for the Mayer form is a plan of the problem with that cost, and the best one among the plans whose first running
costs fit. So it is no better than the plan for the problem itself, and as good as it if that one fits. -/
theorem C90_solve {nlpsol nlpsol' : SolverCall K V → Py (List K)} {ptp ptp' : List (List Nat)} {a a' : SolveArgs K V}
    {rx rdx rx' rdx' : Bool} {s s' : Session K V} {p p' : Post K} {r r' : Option (PyDict (ResidVal K))} {σ : K} (hσ : 0 < σ)
    (hrun : mpSolve w nlpsol ocp ptp n arg "LGR" a rx rdx = .ok (s, p, r))
    (hrun' : mpSolve w nlpsol' (ocp.mayer σ) ptp' n arg "LGR" a' rx' rdx' = .ok (s', p', r')) (hwid : a'.widths = a.widths)
    (hv : ValidOCP ocp) (hs : ocp.SettingsOK) (hsc : ocp.PosScales) (hM : MeshFor w "LGR" n arg M) (hn : M.orders.length = n)
    (hlt : w.tau0 < w.tau1) (hord : ∀ q ∈ M.orders, 2 ≤ q)
    (hj : ∀ q ∈ M.orders, IsJacobiRoots 1 0 (q - 1) (w.lib.jroots (q - 1) 1 0))
    (hopt : ∀ c z, nlpsol c = .ok z → c.IsOptimal z) (hopt' : ∀ c z, nlpsol' c = .ok z → c.IsOptimal z) :
    ∃ T J T' J' W, compQuadWeights ⟨w.method, w.tau0, w.tau1, tausFn w.lib w.tau0 w.tau1 "LGR"⟩ M.orders = .ok W ∧
      SolvesOCP ocp M T ∧ WidthsAre ocp n a.widths T ∧ p.Shows ocp M T ∧ PhysCost ocp M W T J ∧
      SolvesOCP ocp M T' ∧ WidthsAre ocp n a.widths T' ∧ p'.Shows (ocp.mayer σ) M T' ∧ PhysCost ocp M W T' J' ∧ PhysCost (ocp.mayer σ) M W T' J' ∧
      J ≤ J' ∧ (FirstCostsFit ocp M T → J = J') ∧
      ∀ S Js, SolvesOCP ocp M S → WidthsAre ocp n a.widths S → FirstCostsFit ocp M S → PhysCost ocp M W S Js → J' ≤ Js := by
  obtain ⟨hv', hs', hsc'⟩ := mayer_ready hv hs hsc hσ
  obtain ⟨T, W, J, hW, hT, hw, hsh, hJ, hbest⟩ := C53_solve_optimal hrun hv hs hsc hM hopt
  obtain ⟨T', W', J', hW', hT', hw', hsh', hJ', hbest'⟩ := C53_solve_optimal hrun' hv' hs' hsc' hM hopt'
  rw [hW] at hW'
  obtain rfl : W = W' := by injection hW'
  subst hn
  have hsum := C90_lgr hM hlt hord hj hW
  have hlen := hM.weights_length hW
  obtain ⟨k1, k2⟩ := C90_mayer_cost hM.good hv hs hsum hlen hT' J'
  rw [hwid] at hw' hbest'
  have hfit : ∀ S Js, SolvesOCP ocp M S → WidthsAre ocp M.orders.length a.widths S → FirstCostsFit ocp M S →
      PhysCost ocp M W S Js → J' ≤ Js := by
    intro S Js hS hwS hfS hJs
    obtain ⟨S', hsame, hS'⟩ := (C90_mayer_iff hM.good hv hs σ).2 ⟨hS, hfS⟩
    exact hbest' S' Js hS' (hsame.widths hwS) ((C90_mayer_cost hM.good hv hs hsum hlen hS' Js).2.2 (hsame.cost hJs))
  have hle := hbest T' J' k1 hw' (k2.1 hJ')
  exact ⟨T, J, T', J', W, hW, hT, hw, hsh, hJ, k1, hw', hsh', k2.1 hJ', hJ', hle,
    fun hf => le_antisymm hle (hfit T J hT hw hf hJ), hfit⟩

end

/-- **C90** (false for other schemes) Two LGL segments of order 1: with weights `[1, 1, 1]` the slopes 1 of a state that goes from 0 to
4 add up to 3. -/
theorem C90_lgl_false :
    compQuadWeights (⟨.numerical, -1, 1, tausFn libQ (-1) 1 "LGL"⟩ : Colloc ℚ) [1, 1] = .ok [1, 1, 1] ∧
      (⟨[1, 1], fun _ => [-1, 1], -1, 1⟩ : Mesh ℚ).Good ∧ tausFn libQ (-1) 1 "LGL" 1 = .ok [-1, 1] ∧
      ¬ (⟨[1, 1], fun _ => [-1, 1], -1, 1⟩ : Mesh ℚ).SumsRates [1, 1, 1] := by
  have hG : (⟨[1, 1], fun _ => [-1, 1], -1, 1⟩ : Mesh ℚ).Good := by
    refine ⟨by simp, by simp, by simp, ?_, by simp, by simp⟩
    intro p _
    norm_num
  refine ⟨by decide +kernel, hG, rfl, fun h => ?_⟩
  have := h (fun k => 2 * k) (fun _ => 1) fun s i ho => ?_
  · norm_num [weightedSum, Finset.sum_range_succ, Mesh.N] at this
  · have hp : (⟨[1, 1], fun _ => [-1, 1], -1, 1⟩ : Mesh ℚ).piece (fun k => 2 * (k : ℚ)) s = X + C (2 * (s : ℚ) + 1) := by
      refine hG.piece_eq ho.1 _ _ ?_ fun i hi => ?_
      · rw [degree_X_add_C]
        have h1 := ho.1
        have h1 : s < 2 := h1
        interval_cases s <;> simp [Mesh.order]
      · have h1 : s < 2 := ho.1
        interval_cases s
        · have hi : i ≤ 1 := hi
          interval_cases i <;> norm_num [Mesh.node, Mesh.order, Mesh.idx, segStart]
        · have hi : i ≤ 1 := hi
          interval_cases i <;> norm_num [Mesh.node, Mesh.order, Mesh.idx, segStart]
    rw [hp]
    simp

/-! ### Continuous time: the two forms are equivalent there -/

section
variable {ocp : OCP ℝ} {C : CTraj}

theorem mayer_cArg (ocp : OCP ℝ) (σ : ℝ) (C : CTraj) (ph : Nat) (t : ℝ) :
    ((ocp.mayer σ).cArg C ph t).cut ocp.nx = ocp.cArg C ph t := by
  simp only [PArg.cut, OCP.cArg, OCP.mayer, take_range_map]
  rfl

theorem mayer_cEnd (ocp : OCP ℝ) (σ : ℝ) (C : CTraj) (ph : Nat) :
    ((ocp.mayer σ).cEnd C ph).cut ocp.nx = ocp.cEnd C ph := by
  simp only [TArg.cut, OCP.cEnd, OCP.mayer, take_range_map]
  rfl

/-- **C90** In continuous time nothing is lost: every solution with continuous running costs has a cost state that makes it a
solution of the Mayer form, with the same cost. -/
theorem C90_continuous (hv : ValidOCP ocp) (hs : ocp.SettingsOK) (σ : ℝ) (hC : SolvesContinuously ocp C)
    (hc : ∀ ph < ocp.nPhases, ∀ rc, ocp.runningCosts[ph]? = some rc →
      ContinuousOn (fun t => rc (ocp.cArg C ph t)) (Set.Icc (C.t0 ph) (C.tf ph))) :
    ∃ C' : CTraj, SolvesContinuously (ocp.mayer σ) C' ∧ (ocp.mayer σ).trueCost C' = ocp.trueCost C ∧
      C'.u = C.u ∧ C'.t0 = C.t0 ∧ C'.tf = C.tf ∧ C'.a = C.a ∧ ∀ ph, ∀ j < ocp.nx, C'.x ph j = C.x ph j := by
  -- running cost as a continuous function on the whole line
  have hg : ∀ ph, ∃ g : ℝ → ℝ, ph < ocp.nPhases → Continuous g ∧ ∀ rc, ocp.runningCosts[ph]? = some rc →
      ∀ t ∈ Set.Icc (C.t0 ph) (C.tf ph), g t = rc (ocp.cArg C ph t) := by
    intro ph
    by_cases hp : ph < ocp.nPhases
    · obtain ⟨F, rc, -, e2, -⟩ := mayer_dynamics hv σ hp
      have hle := (hC.phase ph hp).order.le
      refine ⟨Set.IccExtend hle ((Set.Icc (C.t0 ph) (C.tf ph)).restrict fun t => rc (ocp.cArg C ph t)), fun _ =>
        ⟨continuous_IccExtend_iff.2 (hc ph hp rc e2).restrict, fun rc' hrc' t ht => ?_⟩⟩
      rw [e2] at hrc'
      injection hrc' with hrc'
      rw [← hrc', Set.IccExtend_of_mem _ _ ht]
      rfl
    · exact ⟨0, fun h => absurd h hp⟩
  choose g hg using hg
  set C' : CTraj := { C with x := fun ph j t => if j = ocp.nx then ∫ r in (C.t0 ph)..t, g ph r else C.x ph j t } with hC'
  have hx : ∀ ph, ∀ j < ocp.nx, C'.x ph j = C.x ph j := by
    intro ph j hj
    funext t
    simp [hC', hj.ne]
  have hxn : ∀ ph t, C'.x ph ocp.nx t = ∫ r in (C.t0 ph)..t, g ph r := by intro ph t; simp [hC']
  have hder : ∀ ph < ocp.nPhases, ∀ t, HasDerivAt (C'.x ph ocp.nx) (g ph t) t := by
    intro ph hp t
    have hcont := (hg ph hp).1
    have : C'.x ph ocp.nx = fun t => ∫ r in (C.t0 ph)..t, g ph r := funext (hxn ph)
    rw [this]
    exact intervalIntegral.integral_hasDerivAt_right (hcont.intervalIntegrable _ _)
      hcont.stronglyMeasurable.stronglyMeasurableAtFilter hcont.continuousAt
  have hcArg : ∀ ph t, ocp.cArg C' ph t = ocp.cArg C ph t := by
    intro ph t
    unfold OCP.cArg
    rw [List.map_congr_left fun j hj => by rw [hx ph j (List.mem_range.1 hj)]]
  have hcEnd : ∀ ph, ocp.cEnd C' ph = ocp.cEnd C ph := by
    intro ph
    unfold OCP.cEnd
    rw [List.map_congr_left fun j hj => by rw [hx ph j (List.mem_range.1 hj)],
      List.map_congr_left (l := List.range ocp.nx) (f := fun j => C'.x ph j (C'.t0 ph)) fun j hj => by
        rw [hx ph j (List.mem_range.1 hj)]]
  have hp0 := hv.phases
  refine ⟨C', ⟨fun ph hp => ?_, fun k p q e j hj => ?_, hC.linkU, hC.linkT⟩, ?_, rfl, rfl, rfl, rfl, hx⟩
  · have hp : ph < ocp.nPhases := hp
    have b := hC.phase ph hp
    obtain ⟨F, rc, e1, e2, e3⟩ := mayer_dynamics hv σ hp
    refine ⟨b.order, ⟨fun F' hF' j hj t h1 h2 => ?_, fun F' hF' j hj => ?_, fun j hj => ?_⟩, ?_, ?_, fun e j hj => ?_,
      fun t ht hne j hj => ?_, b.u, b.t0, b.tf, b.a⟩
    · rw [e3] at hF'
      injection hF' with hF'
      rw [← hF']
      have hj : j < ocp.nx + 1 := hj
      by_cases hlt : j < ocp.nx
      · simp only [hlt, if_true, mayer_cArg, hcArg]
        rw [hx ph j hlt]
        exact b.dynamics.left F e1 j hlt t h1 h2
      · obtain rfl : j = ocp.nx := by omega
        simp only [lt_irrefl, if_false, mayer_cArg, hcArg]
        rw [← (hg ph hp).2 rc e2 t ⟨le_of_lt h1, h2⟩]
        exact (hder ph hp t).hasDerivWithinAt
    · rw [e3] at hF'
      injection hF' with hF'
      rw [← hF']
      have hj : j < ocp.nx + 1 := hj
      by_cases hlt : j < ocp.nx
      · simp only [hlt, if_true, mayer_cArg, hcArg]
        rw [hx ph j hlt]
        exact b.dynamics.start F e1 j hlt
      · obtain rfl : j = ocp.nx := by omega
        simp only [lt_irrefl, if_false, mayer_cArg, hcArg]
        rw [← (hg ph hp).2 rc e2 (C'.t0 ph) ⟨le_rfl, b.order.le⟩]
        exact (hder ph hp _).hasDerivWithinAt
    · have hj : j < ocp.nx + 1 := hj
      by_cases hlt : j < ocp.nx
      · rw [hx ph j hlt]; exact b.dynamics.continuous j hlt
      · obtain rfl : j = ocp.nx := by omega
        exact fun t _ => (hder ph hp t).continuousAt.continuousWithinAt
    · intro F' hF' c hc t ht
      have hF' : (ocp.pathConstraints.map (Option.map fun F => (⟨F.len, fun p => F.f (p.cut ocp.nx)⟩ : VFun (PArg ℝ) ℝ)))[ph]? =
        some (some F') := hF'
      rw [List.getElem?_map, Option.map_eq_some_iff] at hF'
      obtain ⟨o, ho', e⟩ := hF'
      obtain ⟨G, rfl, rfl⟩ := Option.map_eq_some_iff.1 e
      have := b.path G ho' c hc t ht
      simpa only [mayer_cArg, hcArg] using this
    · intro F' hF' c hc
      have hF' : (ocp.terminalConstraints.map (Option.map fun F => (⟨F.len, fun p => F.f (p.cut ocp.nx)⟩ : VFun (TArg ℝ) ℝ)))[ph]? =
        some (some F') := hF'
      rw [List.getElem?_map, Option.map_eq_some_iff] at hF'
      obtain ⟨o, ho', e⟩ := hF'
      obtain ⟨G, rfl, rfl⟩ := Option.map_eq_some_iff.1 e
      have := b.terminal G ho' c hc
      simpa only [mayer_cEnd, hcEnd] using this
    · have hj : j < ocp.nx + 1 := hj
      rw [show (ocp.mayer σ).x00 = ocp.x00.map (· ++ [0]) from rfl]
      by_cases hlt : j < ocp.nx
      · rw [entry_snoc hv.x00 hlt, hx 0 j hlt]; exact b.x0 e j hlt
      · obtain rfl : j = ocp.nx := by omega
        rw [entry_snoc_last hv.x00 hp0, hxn]
        exact intervalIntegral.integral_same
    · have hj : j < ocp.nx + 1 := hj
      rw [show (ocp.mayer σ).lbx = ocp.lbx.map (· ++ [.ninf]) from rfl, show (ocp.mayer σ).ubx = ocp.ubx.map (· ++ [.pinf]) from rfl]
      by_cases hlt : j < ocp.nx
      · rw [entry_snoc hv.lbx hlt, entry_snoc hv.ubx hlt, hx ph j hlt]; exact b.x t ht hne j hlt
      · obtain rfl : j = ocp.nx := by omega
        rw [entry_snoc_last hv.lbx hp, entry_snoc_last hv.ubx hp]
        exact ⟨trivial, trivial⟩
  · have e' : ocp.phaseLinks[k]? = some (p, q) := e
    have hj : j < ocp.nx + 1 := hj
    rw [show (ocp.mayer σ).lbe = ocp.lbe.map (· ++ [.ninf]) from rfl, show (ocp.mayer σ).ube = ocp.ube.map (· ++ [.pinf]) from rfl]
    by_cases hlt : j < ocp.nx
    · rw [entry_snoc hv.lbe hlt, entry_snoc hv.ube hlt, hx p j hlt, hx q j hlt]; exact hC.linkX k p q e' j hlt
    · obtain rfl : j = ocp.nx := by omega
      have hk : k < ocp.nPhases - 1 := by
        have h1 := (List.getElem?_eq_some_iff.1 e').1
        have hr := hs.linkRange (p, q) (List.mem_of_getElem? e')
        by_cases h2 : 2 ≤ ocp.nPhases
        · have h3 := hs.linkCount h2
          omega
        · exfalso
          have hpq : p = 0 ∧ q = 0 := by simp only at hr; omega
          have ht := hC.linkT k p q e'
          rw [hpq.1, hpq.2] at ht
          exact absurd ht (hC.phase 0 hp0).order.ne
      rw [entry_snoc_last hv.lbe hk, entry_snoc_last hv.ube hk]
      exact ⟨trivial, trivial⟩
  · unfold OCP.trueCost
    refine Finset.sum_congr rfl fun ph hp => ?_
    have hp : ph < ocp.nPhases := Finset.mem_range.1 hp
    obtain ⟨F, rc, -, e2, -⟩ := mayer_dynamics hv σ hp
    have hl : ph < ocp.terminalCosts.length := by rw [hv.terminalCosts]; exact hp
    have et : (ocp.mayer σ).terminalCosts = ocp.terminalCosts.map fun c t =>
      c (t.cut ocp.nx) + (t.xf.getD ocp.nx 0 - t.x0.getD ocp.nx 0) := rfl
    have er : (ocp.mayer σ).runningCosts = List.replicate ocp.nPhases fun _ => 0 := rfl
    have e1 : ((ocp.mayer σ).cEnd C' ph).xf = (List.range (ocp.nx + 1)).map fun j => C'.x ph j (C.tf ph) := rfl
    have e0 : ((ocp.mayer σ).cEnd C' ph).x0 = (List.range (ocp.nx + 1)).map fun j => C'.x ph j (C.t0 ph) := rfl
    have hle := (hC.phase ph hp).order.le
    rw [et, er, List.getD_eq_getElem _ _ (by simpa using hl), List.getElem_map, List.getD_eq_getElem _ _ hl, mayer_cEnd, hcEnd, e1, e0,
      List.getD_eq_getElem (l := (List.range (ocp.nx + 1)).map fun j => C'.x ph j (C.tf ph)) _ (by simp),
      List.getD_eq_getElem (l := (List.range (ocp.nx + 1)).map fun j => C'.x ph j (C.t0 ph)) _ (by simp),
      List.getD_eq_getElem (l := List.replicate _ _) _ (by simpa using hp), List.getD_eq_getElem?_getD, e2]
    simp only [List.getElem_map, List.getElem_range, List.getElem_replicate, hxn, intervalIntegral.integral_same, sub_zero,
      intervalIntegral.integral_zero, add_zero, Option.getD_some]
    congr 1
    refine intervalIntegral.integral_congr fun t ht => ?_
    rw [Set.uIcc_of_le hle] at ht
    exact (hg ph hp).2 rc e2 t ht

end

/-! ### Concrete cases -/

/-- A solver that returns an optimal point whenever there is one, and fails otherwise. -/
noncomputable def perfect (c : SolverCall ℝ Nat) : Py (List ℝ) :=
  open Classical in if h : ∃ z, c.IsOptimal z then .ok h.choose else .error .assertion

theorem perfect_optimal {c : SolverCall ℝ Nat} {z : List ℝ} (h : perfect c = .ok z) : c.IsOptimal z := by
  unfold perfect at h
  split at h
  · next hz =>
    injection h with h
    rw [← h]
    exact hz.choose_spec
  · cases h

theorem perfect_returns {c : SolverCall ℝ Nat} {z : List ℝ} (h : c.IsOptimal z) : ∃ z, perfect c = .ok z ∧ c.IsOptimal z := by
  have hz : ∃ z, c.IsOptimal z := ⟨z, h⟩
  have : perfect c = .ok hz.choose := by
    unfold perfect
    rw [dif_pos hz]
  exact ⟨_, this, perfect_optimal this⟩

theorem line_fits {M : Mesh ℝ} {L : Traj ℝ} (hM : M.Good) (hL : Samples ocpR M lineR L) : FirstCostsFit ocpR M L := by
  intro ph hp rc hrc
  obtain rfl : ph = 0 := by simpa [ocpR] using hp
  have hrc : (fun p : PArg ℝ => p.u.getD 0 0 * p.u.getD 0 0) = rc := by simpa [ocpR] using hrc
  have h0 : 0 < M.orders.length := List.length_pos_iff.2 hM.nonempty
  refine ⟨C (M.halfWidth L 0 0 * (1 / 16)), by rw [natDegree_C]; exact hM.pos _ (hM.order_mem h0), fun i hi => ?_⟩
  have hu : L.u 0 (M.idx 0 i) 0 = 1 / 4 := hL.u 0 hp 0 (by simp [ocpR]) 0 i ⟨h0, hi, Or.inl rfl⟩
  have hp : ∀ t, (ocpR.pArg L 0 (M.idx 0 i) t).u.getD 0 0 = 1 / 4 := by
    intro t
    have : (ocpR.pArg L 0 (M.idx 0 i) t).u = [L.u 0 (M.idx 0 i) 0] := rfl
    rw [this, hu]
    rfl
  rw [eval_C, ← hrc]
  simp only [hp]
  norm_num

/-- The hypotheses of `C90_solve` are met on two LGR segments of order 2, and here both runs show plans of cost 1/16. -/
theorem exampleMayer : ∃ (M : Mesh ℝ) (out out' : _), MeshFor outsideR "LGR" 2 (.list [2, 2]) M ∧
    mpSolve outsideR perfect ocpR [[0]] 2 (.list [2, 2]) "LGR" argsR false true = .ok out ∧
    mpSolve outsideR perfect (ocpR.mayer 3) [[0]] 2 (.list [2, 2]) "LGR" argsR false true = .ok out' ∧
    ∃ T T' W, SolvesOCP ocpR M T ∧ out.2.1.Shows ocpR M T ∧ PhysCost ocpR M W T (1 / 16) ∧
      SolvesOCP ocpR M T' ∧ out'.2.1.Shows (ocpR.mayer 3) M T' ∧ PhysCost ocpR M W T' (1 / 16) ∧
      PhysCost (ocpR.mayer 3) M W T' (1 / 16) := by
  obtain ⟨hv, hs, hsc⟩ := ocpR_ready
  obtain ⟨hv', hs', hsc'⟩ := mayer_ready hv hs hsc (σ := 3) (by norm_num)
  obtain ⟨M, hM, ho⟩ := exists_lgr_mesh [2, 2] (by simp) (by simp)
  have hM : MeshFor outsideR "LGR" 2 (.list [2, 2]) M := hM
  have hlt : outsideR.tau0 < outsideR.tau1 := by norm_num [outsideR]
  have hn : M.orders.length = 2 := by rw [ho]; rfl
  have ht : ∀ ph < ocpR.nPhases, entry ocpR.t00 ph 0 0 ≠ entry ocpR.tf0 ph 0 0 := by
    intro ph hp
    obtain rfl : ph = 0 := by simpa [ocpR] using hp
    simp [ocpR, entry]
  obtain ⟨c, W, hWeq, hsol, hobj, hret⟩ := C52_solve_returns (V := Nat) (ocp := ocpR) (w := outsideR) (a := argsR)
    (scheme := "LGR") (n := 2) (arg := .list [2, 2]) (M := M) (ptp := [[0]]) (rx := false) (rdx := true)
    hv hs hsc hM hn hlt rfl (by simp [GoodWidths, argsR]) ht (by simp)
  obtain ⟨c', W', hWeq', hsol', hobj', hret'⟩ := C52_solve_returns (V := Nat) (ocp := ocpR.mayer 3) (w := outsideR) (a := argsR)
    (scheme := "LGR") (n := 2) (arg := .list [2, 2]) (M := M) (ptp := [[0]]) (rx := false) (rdx := true)
    hv' hs' hsc' hM hn hlt rfl (by simp [GoodWidths, argsR]) ht (by simp)
  rw [hWeq] at hWeq'
  obtain rfl : W = W' := by injection hWeq'
  have hj : ∀ p ∈ M.orders, IsJacobiRoots 1 0 (p - 1) (outsideR.lib.jroots (p - 1) 1 0) :=
    fun p _ => libR_jacobi 1 0 (p - 1)
  have hord : ∀ p ∈ M.orders, 2 ≤ p := by rw [ho]; simp
  obtain ⟨hI, hW⟩ := C57_lgr_integrates hM hlt hord hj hWeq
  have hsum := C90_lgr hM hlt hord hj hWeq
  have hlen := hM.weights_length hWeq
  obtain ⟨L, hLw, hLm, hLs, hLc⟩ := sampled hM rfl rfl hI hW lineR_solves fun T _ => lineR_poly ho T
  rw [lineR_cost] at hLc
  have hfit := line_fits hM.good hLm
  -- the problem itself
  have hz : c.IsOptimal (ocpR.packVec M.N L) := by
    refine ⟨(hsol _).2 ⟨L, hLs, hLw, rfl⟩, fun z hz => ?_⟩
    obtain ⟨T, hT, hwT, rfl⟩ := (hsol z).1 hz
    rw [hobj _ _ hLw hLc]
    obtain ⟨v, hv'⟩ := exists_samples ocpR M T
    have hJ : PhysCost ocpR M W T _ := ⟨v, hv', rfl⟩
    rw [hobj _ _ hwT hJ]
    exact costR_ge hM hW hT hwT hJ
  obtain ⟨z, hz1, hz2⟩ := perfect_returns hz
  obtain ⟨⟨s, p, r⟩, hout⟩ := hret perfect z hz1 hz2.1.1
  -- its Mayer form
  obtain ⟨L', hsame, hL'⟩ := (C90_mayer_iff hM.good hv hs 3).2 ⟨hLs, hfit⟩
  rw [hn] at hsame
  have hLw' : WidthsAre (ocpR.mayer 3) 2 argsR.widths L' := hsame.widths (req := none) hLw
  have hLc' := (C90_mayer_cost hM.good hv hs hsum hlen hL' _).2.2 (SameOn.cost (hn.symm ▸ hsame) hLc)
  have hz' : c'.IsOptimal ((ocpR.mayer 3).packVec M.N L') := by
    refine ⟨(hsol' _).2 ⟨L', hL', hLw', rfl⟩, fun z hz => ?_⟩
    obtain ⟨T, hT, hwT, rfl⟩ := (hsol' z).1 hz
    rw [hobj' _ _ hLw' hLc']
    obtain ⟨v, hv'⟩ := exists_samples (ocpR.mayer 3) M T
    have hJ : PhysCost (ocpR.mayer 3) M W T _ := ⟨v, hv', rfl⟩
    rw [hobj' _ _ hwT hJ]
    obtain ⟨k1, k2⟩ := C90_mayer_cost hM.good hv hs hsum hlen hT _
    exact costR_ge hM hW k1 hwT (k2.1 hJ)
  obtain ⟨z', hz1', hz2'⟩ := perfect_returns hz'
  obtain ⟨⟨s', p', r'⟩, hout'⟩ := hret' perfect z' hz1' hz2'.1.1
  obtain ⟨T, J, T', J', W', q0, q1, q2, q3, q4, q5, q6, q7, q8, q9, q10, -, q11⟩ := C90_solve (by norm_num) hout hout' rfl hv hs hsc hM
    hn hlt hord hj (fun _ _ => perfect_optimal) (fun _ _ => perfect_optimal)
  rw [hWeq] at q0
  obtain rfl : W = W' := by injection q0
  have e1 : J' ≤ 1 / 16 := q11 L _ hLs hLw hfit hLc
  have e2 : 1 / 16 ≤ J := costR_ge hM hW q1 q2 q4
  obtain rfl : J = 1 / 16 := le_antisymm (q10.trans e1) e2
  obtain rfl : J' = 1 / 16 := le_antisymm e1 q10
  exact ⟨M, _, _, hM, hout, hout', T, T', W, q1, q3, q4, q5, q7, q8, q9⟩

/-- The problem of `ocpR` with running cost `t ^ d`. -/
noncomputable def ocpLate (d : Nat) : OCP ℝ := { ocpR with runningCosts := [fun p => p.t ^ d] }

theorem ocpLate_ready (d : Nat) : ValidOCP (ocpLate d) ∧ (ocpLate d).SettingsOK ∧ (ocpLate d).PosScales := by
  obtain ⟨hv, hs, hsc⟩ := ocpR_ready
  refine ⟨?_, ?_, ?_⟩
  · cases hv
    constructor <;> first | assumption | simp [ocpLate, ocpR]
  · cases hs
    constructor <;> assumption
  · cases hsc
    constructor <;> assumption

theorem ocpLate_degree (d : Nat) (σ : ℝ) : ((ocpLate d).mayer σ).ClockDegree d := by
  refine ⟨0, ⟨2, fun p j => if j < 1 then (p.cut 1).u.getD 0 0 else (p.cut 1).t ^ d⟩, fun j => if j = 1 then 1 else 0, X ^ d,
    Nat.one_pos, rfl, ?_, natDegree_X_pow d, ?_⟩
  · intro p _
    show ∑ j ∈ Finset.range 2, _ = _
    simp [Finset.sum_range_succ, PArg.cut]
  · rintro a b ⟨-, h1⟩ ⟨h2, -⟩ rfl
    have h1 : a ≤ 0 := h1
    have h2 : 1 ≤ a := h2
    linarith

/-- **C90** (what the Mayer form loses) With running cost `t ^ d` the problem has a solution in continuous time, and so has its Mayer
form. On every LGR mesh the NLP of the problem has a feasible point. The NLP of the Mayer form has none when the first order is `d`. -/
theorem C90_mayer_false (d : Nat) (orders : List Nat) (hpos : ∀ p ∈ orders, 1 ≤ p) (hd : orders.head? = some d) :
    SolvesContinuously (ocpLate d) lineR ∧ (∃ C', SolvesContinuously ((ocpLate d).mayer 3) C') ∧
    (∃ c : SolverCall ℝ Nat, (∃ z, c.IsSolution z) ∧
      ∀ (nlpsol : SolverCall ℝ Nat → Py (List ℝ)) (z : List ℝ), nlpsol c = .ok z → z.length = c.solver.problem.x.length →
        ∃ out, mpSolve outsideR nlpsol (ocpLate d) [[0]] orders.length (.list orders) "LGR" argsR true true = .ok out) ∧
    ∃ c : SolverCall ℝ Nat, (∀ z, ¬ c.IsSolution z) ∧
      ∀ (nlpsol : SolverCall ℝ Nat → Py (List ℝ)) (z : List ℝ), nlpsol c = .ok z → z.length = c.solver.problem.x.length →
        ∃ out, mpSolve outsideR nlpsol ((ocpLate d).mayer 3) [[0]] orders.length (.list orders) "LGR" argsR true true = .ok out := by
  have hne : orders ≠ [] := by rintro rfl; cases hd
  obtain ⟨M, hM, ho⟩ := exists_lgr_mesh orders hne hpos
  obtain ⟨hv, hs, hsc⟩ := ocpLate_ready d
  obtain ⟨hv', hs', hsc'⟩ := mayer_ready hv hs hsc (σ := 3) (by norm_num)
  have hC : SolvesContinuously (ocpLate d) lineR := by
    obtain ⟨h1, h2, h3, h4⟩ := lineR_solves
    exact ⟨fun ph hp => by obtain ⟨a1, ⟨a2, a3, a4⟩, a5, a6, a7, a8, a9, a10, a11, a12⟩ := h1 ph hp
                           exact ⟨a1, ⟨a2, a3, a4⟩, a5, a6, a7, a8, a9, a10, a11, a12⟩, h2, h3, h4⟩
  have hn0 : 0 < orders.length := List.length_pos_iff.2 hne
  have one : ∀ {P : Nat → Prop}, P 0 → ∀ ph < (ocpLate d).nPhases, P ph := by
    intro P h ph hp
    obtain rfl : ph = 0 := by simpa [ocpLate, ocpR] using hp
    exact h
  have ht : ∀ ph < (ocpLate d).nPhases, entry (ocpLate d).t00 ph 0 0 ≠ entry (ocpLate d).tf0 ph 0 0 :=
    one (by simp [ocpLate, ocpR, entry])
  have hg : GoodWidths (ocpLate d) orders.length none := fun l hl => nomatch hl
  refine ⟨hC, ?_, ?_, ?_⟩
  · obtain ⟨C', hC', -⟩ := C90_continuous hv hs 3 hC (one fun rc hrc => by
      have hrc : (fun p : PArg ℝ => p.t ^ d) = rc := by simpa [ocpLate] using hrc
      rw [← hrc]
      exact (continuous_pow d).continuousOn)
    exact ⟨C', hC'⟩
  · obtain ⟨c, -, -, h1, -, h2⟩ := C52_solve_returns (V := Nat) (ocp := ocpLate d) (w := outsideR) (a := argsR)
      (scheme := "LGR") (n := orders.length) (arg := .list orders) (M := M) (ptp := [[0]]) (rx := true) (rdx := true)
      hv hs hsc hM (by rw [ho]) (by norm_num [outsideR]) rfl hg ht (by simp)
    have hI : M.Inside := by
      intro p hp v hv
      obtain ⟨r, hr, hs⟩ := C01_lgr_nodes outsideR.lib outsideR.tau0 outsideR.tau1 (by norm_num [outsideR]) p
        (hM.good.pos p hp) fun _ => libR_jacobi 1 0 (p - 1)
      rw [hM.nodes p hp] at hr
      obtain rfl : M.nodes p = r := by injection hr
      rw [hM.tau0, hM.tau1]
      exact hs.inside v hv
    obtain ⟨T, hT, hTw⟩ := exists_samples_of (ocpLate d) M lineR fun _ _ => 1 / (orders.length : ℝ)
    have hw : WidthsAre (ocpLate d) orders.length none T := by intro ph _ s _; rw [hTw]
    have hfill := hw.fills hn0 hg
    have hf : ∀ ph < (ocpLate d).nPhases, FullWidths M T ph := fun ph hp =>
      ⟨by rw [ho]; exact (hfill ph hp).1, by rw [ho]; exact (hfill ph hp).2⟩
    refine ⟨c, ⟨_, (h1 _).2 ⟨T, ?_, hw, rfl⟩⟩, h2⟩
    refine C56_exact_feasible hM.good hI hC hs.linkRange hT hf (one fun j hj s hs => ?_)
      (one fun h => by simp [ocpLate, ocpR] at h) (one rfl) (one rfl)
    refine ⟨C (1 / 4) * X, (natDegree_C_mul_le _ _).trans (natDegree_X_le.trans (hM.good.pos _ (hM.good.order_mem hs))),
      fun t _ => ?_⟩
    simp only [lineR, eval_mul, eval_C, eval_X]
    ring
  · have ho0 : M.order 0 = d := by
      unfold Mesh.order
      rw [ho]
      cases orders with
      | nil => exact absurd rfl hne
      | cons a l => simpa using hd
    exact C89_nothing_feasible (M := M) (by rw [ho0]; exact ocpLate_degree d 3) hv' hs' hsc' hM (by rw [ho])
      (by norm_num [outsideR]) rfl (fun l hl => nomatch hl) ht (by simp)

end MPOpt
