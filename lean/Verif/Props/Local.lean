import Verif.Spec.Local
import Verif.Props.AdaptiveEnd
import Verif.Props.HEnd
import Verif.Props.MayerEnd

/-! # C103: solvers that find local minimisers -/

set_option autoImplicit false
set_option linter.unusedSectionVars false

namespace MPOpt
open Polynomial

variable {K V : Type} [Field K] [LinearOrder K] [IsStrictOrderedRing K]

theorem exists_bound1 (f : Nat → K) (n : Nat) : ∃ B : K, 0 ≤ B ∧ ∀ i < n, |f i| ≤ B := by
  refine ⟨∑ i ∈ Finset.range n, |f i|, Finset.sum_nonneg fun _ _ => abs_nonneg _, fun i hi => ?_⟩
  exact Finset.single_le_sum (f := fun i => |f i|) (fun _ _ => abs_nonneg _) (Finset.mem_range.2 hi)

theorem exists_bound2 (f : Nat → Nat → K) (m n : Nat) : ∃ B : K, 0 ≤ B ∧ ∀ i < m, ∀ j < n, |f i j| ≤ B := by
  choose b hb hb' using fun i => exists_bound1 (f i) n
  obtain ⟨B, hB, hB'⟩ := exists_bound1 b m
  exact ⟨B, hB, fun i hi j hj => (hb' i j hj).trans ((le_abs_self _).trans (hB' i hi))⟩

theorem exists_bound3 (f : Nat → Nat → Nat → K) (l m n : Nat) :
    ∃ B : K, 0 ≤ B ∧ ∀ i < l, ∀ j < m, ∀ k < n, |f i j k| ≤ B := by
  choose b hb hb' using fun i => exists_bound2 (f i) m n
  obtain ⟨B, hB, hB'⟩ := exists_bound1 b l
  exact ⟨B, hB, fun i hi j hj k hk => (hb' i j hj k hk).trans ((le_abs_self _).trans (hB' i hi))⟩

/-- Any two trajectories are within some distance. -/
theorem Traj.exists_near (ocp : OCP K) (n : Nat) (S T : Traj K) : ∃ B, 0 ≤ B ∧ S.Near ocp n B T := by
  obtain ⟨B1, p1, h1⟩ := exists_bound3 (fun ph i j => T.x ph i j - S.x ph i j) ocp.nPhases n ocp.nx
  obtain ⟨B2, p2, h2⟩ := exists_bound3 (fun ph i j => T.u ph i j - S.u ph i j) ocp.nPhases n ocp.nu
  obtain ⟨B3, p3, h3⟩ := exists_bound1 (fun ph => T.t0 ph - S.t0 ph) ocp.nPhases
  obtain ⟨B4, p4, h4⟩ := exists_bound1 (fun ph => T.tf ph - S.tf ph) ocp.nPhases
  obtain ⟨B5, p5, h5⟩ := exists_bound2 (fun ph k => T.a ph k - S.a ph k) ocp.nPhases ocp.na
  refine ⟨B1 + B2 + B3 + B4 + B5, by positivity, ⟨fun ph hp i hi j hj => (h1 ph hp i hi j hj).trans ?_,
    fun ph hp i hi j hj => (h2 ph hp i hi j hj).trans ?_, fun ph hp => (h3 ph hp).trans ?_, fun ph hp => (h4 ph hp).trans ?_,
    fun ph hp k hk => (h5 ph hp k hk).trans ?_⟩⟩ <;> linarith

/-- Nearby trajectories have nearby solution vectors: a distance for states, controls, times, parameters and widths that keeps
all scaled values within `ε`. -/
theorem near_scaled (ocp : OCP K) {ε : K} (hε : 0 < ε) : ∃ δ, 0 < δ ∧ ∀ (d : Disc K) (S T : Traj K), d.ocp = ocp →
    S.Near ocp d.N δ T → (∀ s ∈ d.allVars, |packEnv ocp T s - packEnv ocp S s| < ε) ∧
      (S.NearWidths ocp d.nSegments δ T → ∀ s ∈ d.widthParams, |packEnv ocp T s - packEnv ocp S s| < ε) := by
  obtain ⟨B1, p1, h1⟩ := exists_bound1 (fun j => ocp.scaleX.getD j 0) ocp.nx
  obtain ⟨B2, p2, h2⟩ := exists_bound1 (fun j => ocp.scaleU.getD j 0) ocp.nu
  obtain ⟨B3, p3, h3⟩ := exists_bound1 (fun j => ocp.scaleA.getD j 0) ocp.na
  set S := B1 + B2 + B3 + |ocp.scaleT| + 1 with hS
  have hS0 : 0 < S := by have := abs_nonneg ocp.scaleT; rw [hS]; linarith
  have hlt : ∀ {v sc : K}, |v| ≤ ε / (2 * S) → |sc| ≤ S → |v * sc| < ε := by
    intro v sc hv hs
    rw [abs_mul]
    have h : |v| * |sc| ≤ ε / (2 * S) * S := mul_le_mul hv hs (abs_nonneg _) (by positivity)
    rw [show ε / (2 * S) * S = ε / 2 by field_simp] at h
    linarith
  have s1 : ∀ {b : K}, b ≤ B1 → b ≤ S := by intro b hb; have := abs_nonneg ocp.scaleT; rw [hS]; linarith
  have s2 : ∀ {b : K}, b ≤ B2 → b ≤ S := by intro b hb; have := abs_nonneg ocp.scaleT; rw [hS]; linarith
  have s3 : ∀ {b : K}, b ≤ B3 → b ≤ S := by intro b hb; have := abs_nonneg ocp.scaleT; rw [hS]; linarith
  have s4 : |ocp.scaleT| ≤ S := by rw [hS]; linarith
  have s5 : |(1 : K)| ≤ S := by rw [abs_one]; have := abs_nonneg ocp.scaleT; rw [hS]; linarith
  refine ⟨ε / (2 * S), by positivity, fun d A T e hN => ⟨fun s hs => ?_, fun hW s hs => ?_⟩⟩
  · unfold Disc.allVars at hs
    simp only [List.mem_flatMap, Disc.mem_phaseVars, e, List.mem_range] at hs
    obtain ⟨ph, hp, ⟨i, hi, j, hj, rfl⟩ | ⟨i, hi, j, hj, rfl⟩ | rfl | rfl | ⟨k, hk, rfl⟩⟩ := hs <;>
      simp only [packEnv, ← sub_mul]
    · exact hlt (hN.x ph hp i hi j hj) (s1 (h1 j hj))
    · exact hlt (hN.u ph hp i hi j hj) (s2 (h2 j hj))
    · exact hlt (hN.t0 ph hp) s4
    · exact hlt (hN.tf ph hp) s4
    · exact hlt (hN.a ph hp k hk) (s3 (h3 k hk))
  · obtain ⟨ph, hp, i, hi, rfl⟩ := Disc.mem_widthParams.1 hs
    rw [e] at hp
    simp only [packEnv]
    have := hlt (hW ph hp i hi) s5
    rwa [mul_one] at this

/-- Entries of a list of values. -/
theorem getD_map_close {α : Type} {l : List α} {f g : α → K} {ε : K} (h : ∀ s ∈ l, |f s - g s| < ε) (i : Nat)
    (hi : i < (l.map g).length) : |(l.map f).getD i 0 - (l.map g).getD i 0| < ε := by
  rw [List.length_map] at hi
  rw [List.getD_eq_getElem _ _ (by simpa using hi), List.getD_eq_getElem _ _ (by simpa using hi), List.getElem_map, List.getElem_map]
  exact h _ (List.getElem_mem hi)

section
variable {w : Outside K V} {nlpsol : SolverCall K V → Py (List K)} {ocp : OCP K}
    {ptp : List (List Nat)} {n : Nat} {arg : OrdersArg} {scheme : String} {a : SolveArgs K V} {rx rdx : Bool}
    {s : Session K V} {p : Post K} {r : Option (PyDict (ResidVal K))} {M : Mesh K}

/-- A local minimiser of the NLP is locally best among trajectories. -/
theorem call_local {d : Disc K} {c : SolverCall K V} {req : Option (List K)} (h : d.OnMesh M)
    (hv : ValidOCP d.ocp) (hs : d.ocp.SettingsOK) (hsc : d.ocp.PosScales) (hn : d.createNlp = .ok c.bounds)
    (hp : c.solver.problem = c.bounds) (hc : c.p.length = d.widthParams.length)
    (hreq : match req with
        | some l => c.p = l
        | none => equalWidths d.nSegments d.ocp.nPhases = .ok c.p) {z : List K} (hz : c.IsLocal z) :
    ∃ δ, 0 < δ ∧ ∀ T' J', SolvesOCP d.ocp M T' → WidthsAre d.ocp d.nSegments req T' →
      (physOf d.ocp (d.envOf z c.p)).Near d.ocp M.N δ T' → PhysCost d.ocp M d.compW T' J' →
      c.solver.problem.f (c.point z) ≤ J' := by
  obtain ⟨hsol, ε, hε, hbest⟩ := hz
  obtain ⟨δ, hδ, hnear⟩ := near_scaled d.ocp hε
  refine ⟨δ, hδ, fun T' J' hS' hw' hN hJ' => ?_⟩
  obtain ⟨k1, k2⟩ := call_trajectories h hv hs hsc hn hp hc hreq
  have hl := ((call_spec h hv hs hsc hn hp z hc).1.1 hsol).1
  rw [← h.N_eq.symm] at hN
  have hclose := (hnear d _ T' rfl hN).1
  have e := pack_decoded hv hsc hl hc
  rw [packVec_eq] at e
  rw [← k2 T' J' hw' hJ']
  refine hbest _ ((k1 _).2 ⟨T', hS', hw', rfl⟩) fun i hi => ?_
  rw [← h.N_eq.symm, packVec_eq]
  have := getD_map_close hclose i (by rw [e]; exact hi)
  rwa [e] at this

/-- **C103** With a solver that returns a local minimiser of the NLP it is given, no trajectory that solves the collocated
problem with those segment widths and lies close enough to the one shown is cheaper. -/
theorem C103_local (hrun : mpSolve w nlpsol ocp ptp n arg scheme a rx rdx = .ok (s, p, r))
    (hv : ValidOCP ocp) (hs : ocp.SettingsOK) (hsc : ocp.PosScales) (hM : MeshFor w scheme n arg M)
    (hopt : ∀ c z, nlpsol c = .ok z → c.IsLocal z) :
    ∃ T W J δ, compQuadWeights ⟨w.method, w.tau0, w.tau1, tausFn w.lib w.tau0 w.tau1 scheme⟩ M.orders = .ok W ∧
      SolvesOCP ocp M T ∧ WidthsAre ocp n a.widths T ∧ p.Shows ocp M T ∧ PhysCost ocp M W T J ∧ 0 < δ ∧
      ∀ T' J', SolvesOCP ocp M T' → WidthsAre ocp n a.widths T' → T.Near ocp M.N δ T' → PhysCost ocp M W T' J' → J ≤ J' := by
  obtain ⟨orders, d, c0, z0, i1, i2, -, -, -, -, i7, -⟩ := mpSolve_inv hrun
  obtain ⟨c, z, h1, h2, h3, h4, h5, h6, h7, h8, h9, h10⟩ := mpSolve_pieces hrun hM
  have ho := hopt c z h1
  obtain ⟨hc, hS, hw, hsh⟩ := shown_of_solution hv hs hsc h2 h3 h4 h5 h6 h7 h8 h9 h10 ho.sol
  obtain ⟨-, -, -, -, g5, -, -⟩ := mkDisc_inv i2
  have hcol : p.solved.disc.colloc = ⟨w.method, w.tau0, w.tau1, tausFn w.lib w.tau0 w.tau1 scheme⟩ := by
    rw [i7]; exact g5
  subst h3 h6 h4
  have hcost := (call_spec h2 hv hs hsc h8 h9 p.solved.z hc).2
  obtain ⟨δ, hδ, hbest⟩ := call_local h2 hv hs hsc h8 h9 hc (req := a.widths) h10 ho
  have ht : p.solved.traj = physOf p.solved.disc.ocp (p.solved.disc.envOf p.solved.z c.p) := by
    unfold Solved.traj; rw [h5]
  rw [ht] at hS hw hsh
  refine ⟨_, p.solved.disc.compW, _, δ, ?_, hS, hw, hsh, hcost, hδ, fun T' J' hS' hw' hN hJ' => hbest T' J' hS' hw' hN hJ'⟩
  rw [← hcol, h2.orders]; exact h2.compW

variable {lbh ubh tol : List K} {mid : Bool} {o : AdaptOpt K V}

/-- **C103** The same for `mpopt_adaptive`: no trajectory close enough, with segment widths close enough, is cheaper. -/
theorem C103_local_adaptive (hf : o.Ready w ocp n arg scheme lbh ubh tol mid) (hv : ValidOCP ocp)
    (hs : ocp.SettingsOK) (hsc : ocp.PosScales) (hlb : lbh.length = ocp.nPhases) (hub : ubh.length = ocp.nPhases)
    (htol : tol.length = ocp.nPhases) (hM : MeshFor w scheme n arg M)
    (hopt : ∀ c z, nlpsol c = .ok z → c.IsLocal z) (earlier : List (SolveArgs K V)) (a : SolveArgs K V)
    {o' : AdaptOpt K V} {z : List K} (hrun : (o.run w nlpsol earlier).solve w nlpsol a = (o', .ok z))
    (hp : o'.processResults w ptp false rx rdx = .ok (p, r)) :
    ∃ T W J δ, compQuadWeights ⟨w.method, w.tau0, w.tau1, tausFn w.lib w.tau0 w.tau1 scheme⟩ M.orders = .ok W ∧
      SolvesAdaptive ocp M T lbh ubh tol mid ∧ p.Shows ocp M T ∧ PhysCost ocp M W T J ∧ 0 < δ ∧
      ∀ T' J', SolvesAdaptive ocp M T' lbh ubh tol mid → T.Near ocp M.N δ T' → T.NearWidths ocp n δ T' →
        PhysCost ocp M W T' J' → J ≤ J' := by
  obtain ⟨d, honM, rfl, rfl, hW, hc, -⟩ := hf.coherent hM
  set ad : Adapt K := ⟨d, lbh, ubh, tol, mid⟩ with had
  have hr : ad.Ready := ⟨hlb, hub, htol⟩
  obtain ⟨hc1, -⟩ := hc.run (nlpsol := nlpsol) earlier
  obtain ⟨hc2, -, k⟩ := hc1.solve (nlpsol := nlpsol) a
  obtain ⟨-, -, k'⟩ := hc1.solveCall a
  rw [hrun] at hc2 k
  obtain ⟨c, sw, e1, e2, e3, e4, e5⟩ := k z rfl
  obtain ⟨q1, q2, q3⟩ := k' c e1
  obtain ⟨hz, ε, hε, hbest⟩ := hopt c z e2
  obtain ⟨hsol, hcost⟩ := adaptCall_spec honM hv hs hsc hr q1 q2 q3 z
  obtain ⟨g1, g2⟩ := adapt_shown honM hv hsc hc2 e3 e4 e5 hp
  obtain ⟨hl, hfeas⟩ := hsol.1 hz
  obtain ⟨δ, hδ, hnear⟩ := near_scaled d.ocp hε
  refine ⟨_, d.compW, _, δ, hW, hfeas, g1, hcost, hδ, fun T' J' hT' hN hNw hJ' => ?_⟩
  have hsame := adapt_decoded (ad := ad) honM hv hsc T'
  obtain ⟨hsol', hcost'⟩ := adaptCall_spec honM hv hs hsc hr q1 q2 q3 (ad.allVars.map (packEnv d.ocp T'))
  have hWl : d.compW.length = M.N := by
    obtain ⟨-, -, hl, -⟩ := C15_objective honM hv hs hsc
    exact hl
  rw [PhysCost.unique honM.good hWl hv.runningCosts hJ' (hsame.cost hcost')]
  refine hbest _ (hsol'.2 ⟨by simp, hsame.symm.solvesAdaptive hs hT'⟩) fun i hi => ?_
  rw [honM.N_eq] at hN
  obtain ⟨n1, n2⟩ := hnear d _ T' rfl hN
  have n2 := n2 hNw
  -- the solution vector is the packed trajectory it decodes to
  have e : ad.allVars.map (packEnv d.ocp (physOf d.ocp (bindSyms ad.allVars z))) = z := by
    obtain ⟨nlp3, hn4, hnd, -⟩ := C10_adaptive_variables_once honM hv hs hsc hr
    obtain ⟨bs, Jf, nlp, hn', -, -, -, hx, -⟩ := Adapt.createNlp_spec honM hv hs hsc hr
    rw [hn'] at hn4; cases hn4
    rw [hx] at hnd
    conv_rhs => rw [← map_bindSyms hnd hl]
    apply List.map_congr_left
    intro s hs'
    rcases List.mem_append.1 (Adapt.allVars_sub hs') with hs' | hs'
    · unfold Disc.allVars at hs'
      simp only [List.mem_flatMap, Disc.mem_phaseVars] at hs'
      obtain ⟨ph, -, ⟨i, -, j, hj, rfl⟩ | ⟨i, -, j, hj, rfl⟩ | rfl | rfl | ⟨k, hk, rfl⟩⟩ := hs'
      · exact div_mul_cancel₀ _ (getD_pos hsc.x (by rw [hv.scaleX]; exact hj)).ne'
      · exact div_mul_cancel₀ _ (getD_pos hsc.u (by rw [hv.scaleU]; exact hj)).ne'
      · exact div_mul_cancel₀ _ hsc.t.ne'
      · exact div_mul_cancel₀ _ hsc.t.ne'
      · exact div_mul_cancel₀ _ (getD_pos hsc.a (by rw [hv.scaleA]; exact hk)).ne'
    · obtain ⟨ph, -, i, -, rfl⟩ := Disc.mem_widthParams.1 hs'
      rfl
  have := getD_map_close (l := ad.allVars) (f := packEnv d.ocp T')
    (g := packEnv d.ocp (physOf d.ocp (bindSyms ad.allVars z))) (ε := ε) (fun s hs' => by
      rcases List.mem_append.1 (Adapt.allVars_sub hs') with hs' | hs'
      · exact n1 s hs'
      · exact n2 s hs') i (by rw [e]; exact hi)
  rwa [e] at this

end

section
variable [FloorRing K] {w : HOutside K V} {nlpsol : Nat → Nat → SolverCall K V → Py (PyDict V)} {ocp : OCP K}
variable {ptp : List (List Nat)} {n : Nat} {arg : OrdersArg} {scheme : String} {lbh ubh tol : List K} {rx rdx : Bool}
variable {s : HOpt K V} {M : Mesh K}

/-- **C103** And for `mpopt_h_adaptive`, with the stored widths. -/
theorem C103_local_h (hf : s.Ready w ocp n arg scheme lbh ubh tol) (hv : ValidOCP ocp) (hs : ocp.SettingsOK)
    (hsc : ocp.PosScales) (hM : MeshFor w.toOutside scheme n arg M)
    (hopt : ∀ n k c sol, nlpsol n k c = .ok sol → ∃ z, Returned w sol z ∧ c.IsLocal z)
    {calls : List (HStart V × HArgs V)} (ho : OwnStarts calls) {s' : HOpt K V} {sol : PyDict V}
    (hrun : s.run w nlpsol calls 0 none = (s', some sol))
    {p : Post K} {r : Option (PyDict (ResidVal K))} (hp : s'.processResults w sol ptp false rx rdx = .ok (p, r)) :
    ∃ T W J δ, compQuadWeights ⟨w.method, w.tau0, w.tau1, tausFn w.lib w.tau0 w.tau1 scheme⟩ M.orders = .ok W ∧
      SolvesOCP ocp M T ∧ p.Shows ocp M T ∧ s'.widths = some (ocp.packWidths n T) ∧ PhysCost ocp M W T J ∧ 0 < δ ∧
      ∀ T' J', SolvesOCP ocp M T' → s'.widths = some (ocp.packWidths n T') → T.Near ocp M.N δ T' → PhysCost ocp M W T' J' →
        J ≤ J' := by
  obtain ⟨d, honM, rfl, rfl, hW, hc⟩ := hf.coherent hM
  obtain ⟨k1, -, k3⟩ := hc.run (nlpsol := nlpsol) ho (n := 0) (last := none) (fun _ h => by cases h)
  rw [hrun] at k1 k3
  obtain ⟨c, ⟨i, k, hk⟩, c2, c3, c4⟩ := k3 sol rfl
  obtain ⟨sw, v, z, q1, q2, q3, q4, q5, q6, q7⟩ := k1.processResults hp
  obtain ⟨z', hz', hsol⟩ := hopt i k c sol hk
  have : z' = z := hz'.unique ⟨v, q2, q3⟩
  subst this
  have hsw : sw = c.p := by
    have c4 : s'.widths = some c.p := c4
    rw [q1] at c4; exact Option.some.inj c4
  subst hsw
  subst q4 q6
  obtain ⟨hcl, t1, t2, t3⟩ := shown_of_solution (a := ({ initial := none, reinitialize := false, widths := some c.p, plugin := "", options := [] } : SolveArgs K V)) hv hs hsc honM
    rfl rfl q5 rfl q7 c2 c3 rfl hsol.sol
  have hcost := (call_spec honM hv hs hsc c2 c3 p.solved.z hcl).2
  obtain ⟨δ, hδ, hbest⟩ := call_local honM hv hs hsc c2 c3 hcl (req := some c.p) rfl hsol
  have ht : p.solved.traj = physOf p.solved.disc.ocp (p.solved.disc.envOf p.solved.z c.p) := by
    unfold Solved.traj; rw [q5]
  rw [ht] at t1 t2 t3
  refine ⟨_, _, _, δ, hW, t1, t3, by rw [q1]; exact congrArg some t2.symm, hcost, hδ, fun T' J' hS' hw' hN hJ' => ?_⟩
  refine hbest T' J' hS' ?_ hN hJ'
  rw [q1] at hw'
  exact (Option.some.inj hw').symm

end

end MPOpt
