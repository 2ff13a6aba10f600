import Verif.Model.Helpers
import Verif.Spec.Solution
import Verif.Lemmas.SameOn
import Verif.Props.LifeCycle
import Verif.Props.Guess
import Verif.Props.Setup
import Verif.Props.ResidualGrid

/-! # C52, C53: the module-level `solve`, from the user's problem to the returned trajectory -/

set_option autoImplicit false
set_option linter.unusedSectionVars false

namespace MPOpt
open Polynomial
variable {K V : Type} [Field K] [LinearOrder K]

/-- What a discretisation object consists of. -/
theorem mkDisc_inv {lib : NodeLib K} {m : Method} {lo hi : K} {ocp : OCP K} {n : Nat} {orders : List Nat}
    {scheme : String} {d : Disc K} (h : mkDisc lib m lo hi ocp n orders scheme = .ok d) :
    orders.length = n ∧ d.ocp = ocp ∧ d.nSegments = n ∧ d.orders = orders ∧
      d.colloc = ⟨m, lo, hi, tausFn lib lo hi scheme⟩ ∧
      compDiffMatrix d.colloc d.orders 1 = .ok d.compD ∧ compQuadWeights d.colloc d.orders = .ok d.compW := by
  unfold mkDisc at h
  simp only [py_bind_eq_ok, pyAssert_eq_ok', mkColloc] at h
  obtain ⟨_, ha, c, ⟨_, _, hc⟩, D, hD, W, hW, h⟩ := h
  cases hc
  cases h
  exact ⟨by simpa using ha, rfl, rfl, rfl, rfl, hD, hW⟩

theorem initOrders_inv {n N : Nat} {arg : OrdersArg} {orders : List Nat}
    (h : initOrders n arg = .ok (orders, N)) : arg.Means n orders ∧ orders.length = n ∧ N = orders.sum + 1 := by
  unfold initOrders at h
  simp only [py_bind_eq_ok, pyAssert_eq_ok', py_pure_eq_ok] at h
  obtain ⟨_, hlen, h⟩ := h
  cases arg <;> (cases h; exact ⟨rfl, by simp at hlen ⊢; try exact hlen, rfl⟩)

/-- State and call after a `solve` that makes the solver object. -/
theorem first_solve {w : Outside K V} {s : Session K V} {a : SolveArgs K V} {c : SolverCall K V}
    (hi : s.opt.initialized = false ∨ a.reinitialize = true) (h : (s.solve w a).2 = .ok c) :
    (s.solve w a).1.heap = s.heap ∧ (s.solve w a).1.opt.ocp = s.opt.ocp ∧
      (s.solve w a).1.opt.orders = s.opt.orders ∧ (s.solve w a).1.opt.nSegments = s.opt.nSegments ∧
      (s.solve w a).1.opt.scheme = s.opt.scheme ∧ (s.solve w a).1.opt.widths = some c.p ∧
      s.buildNlp w = .ok c.bounds ∧ c.solver.problem = c.bounds ∧
      (match a.widths with
        | some l => c.p = l
        | none => ∃ ocp, s.ocp? = .ok ocp ∧ equalWidths s.opt.nSegments ocp.nPhases = .ok c.p) := by
  unfold Session.solve at *
  simp only [hi, if_true] at h ⊢
  unfold Session.createSolver at *
  rcases hb : s.buildNlp w with e | nlp
  · simp only [hb] at h; cases h
  simp only [hb] at h ⊢
  by_cases hacc : w.accepts a.plugin (solverOptions w.vals a.plugin a.options) = true
  · rw [if_pos hacc] at h ⊢
    simp only at h ⊢
    rcases hw : a.widths with _ | l
    · simp only [hw] at h ⊢
      rcases ho : (Session.ocp? { s with opt := { s.opt with bounds := some nlp, solver := some ⟨nlp, a.plugin, solverOptions w.vals a.plugin a.options⟩, initialized := true } } : Py (OCP K)) with e | ocp
      · simp only [ho] at h; cases h
      · have ho' : s.ocp? = .ok ocp := ho
        simp only [ho, py_bind_ok] at h ⊢
        rcases he : (equalWidths s.opt.nSegments ocp.nPhases : Py (List K)) with e | sw
        · simp only [he] at h; cases h
        · simp only [he] at h ⊢
          simp only [py_bind_eq_ok] at h
          obtain ⟨i, -, h⟩ := h
          cases h
          exact ⟨trivial, trivial, trivial, trivial, trivial, rfl, rfl, rfl, ocp, ho', he⟩
    · simp only [hw, py_bind_eq_ok] at h ⊢
      obtain ⟨i, -, h⟩ := h
      cases h
      exact ⟨trivial, trivial, trivial, trivial, trivial, rfl, rfl, rfl, rfl⟩
  · rw [if_neg hacc] at h; cases h

/-- What happened when the module-level `solve` returned. -/
theorem mpSolve_inv {w : Outside K V} {nlpsol : SolverCall K V → Py (List K)} {ocp : OCP K}
    {ptp : List (List Nat)} {n : Nat} {arg : OrdersArg} {scheme : String} {a : SolveArgs K V} {rx rdx : Bool}
    {s : Session K V} {p : Post K} {r : Option (PyDict (ResidVal K))}
    (h : mpSolve w nlpsol ocp ptp n arg scheme a rx rdx = .ok (s, p, r)) :
    ∃ orders d c z, arg.Means n orders ∧
      mkDisc w.lib w.method w.tau0 w.tau1 ocp n orders scheme = .ok d ∧
      d.createNlp = .ok c.bounds ∧ c.solver.problem = c.bounds ∧ nlpsol c = .ok z ∧
      (match a.widths with
        | some l => c.p = l
        | none => equalWidths n ocp.nPhases = .ok c.p) ∧
      p.solved = ⟨d, c.p, List.replicate ocp.nPhases "fixed", 15, z⟩ ∧ p.scaling = false := by
  unfold mpSolve newSession at h
  simp only [py_bind_eq_ok, py_pure_eq_ok] at h
  obtain ⟨s0, ⟨⟨orders, N⟩, ho, rfl⟩, c, hc, z, hz, ⟨p', r'⟩, hp, h⟩ := h
  cases h
  obtain ⟨hmeans, hlen, -⟩ := initOrders_inv ho
  obtain ⟨e1, e2, e3, e4, e5, e6, e7, e8, e9⟩ := first_solve (Or.inl rfl) hc
  unfold Session.processResults Session.solved Session.ocp? at hp
  rw [e1, e2, e3, e4, e5, e6] at hp
  simp only [py_bind_eq_ok, py_pure_eq_ok] at hp
  obtain ⟨e, ⟨oc, hoc, d, hd, he⟩, _, -, p'', hp'', hpp⟩ := hp
  have hoc : oc = ocp := by
    have : (.ok ocp : Py (OCP K)) = .ok oc := hoc
    cases this; rfl
  subst hoc
  cases hpp
  cases he
  unfold mkPost at hp''
  simp only [py_bind_eq_ok, py_pure_eq_ok] at hp''
  obtain ⟨ph, -, rfl⟩ := hp''
  have hd : mkDisc w.lib w.method w.tau0 w.tau1 oc orders.length orders scheme = .ok d := hd
  rw [hlen] at hd
  obtain ⟨-, f2, f3, f4, -⟩ := mkDisc_inv hd
  have hdd : ({ d with nSegments := n } : Disc K) = d := by rw [← f3]
  refine ⟨orders, d, c, z, ?_, hd, ?_, e8, hz, ?_, ?_, rfl⟩
  · exact hmeans
  · unfold Session.buildNlp Session.ocp? at e7
    simp only [py_bind_eq_ok] at e7
    obtain ⟨oc', hoc', d', hd', e7⟩ := e7
    have : (.ok oc : Py (OCP K)) = .ok oc' := hoc'
    cases this
    have hd' : mkDisc w.lib w.method w.tau0 w.tau1 oc orders.length orders scheme = .ok d' := hd'
    rw [hlen] at hd'
    rw [hd] at hd'; cases hd'
    rw [hdd] at e7
    by_cases hN : N = d.N
    · simpa [hN] using e7
    · simp only [ne_eq, hN, not_false_eq_true, if_true] at e7
      cases e7
  · rcases hw : a.widths with _ | l
    · rw [hw] at e9
      obtain ⟨oc', hoc', e9⟩ := e9
      have : (.ok oc : Py (OCP K)) = .ok oc' := hoc'
      cases this
      exact e9
    · rw [hw] at e9; exact e9
  · simp only [hdd]

/-- The mesh the arguments of `solve` describe: the orders asked for, on the nodes of the scheme. -/
structure MeshFor (w : Outside K V) (scheme : String) (n : Nat) (arg : OrdersArg) (M : Mesh K) : Prop where
  good : M.Good
  orders : arg.Means n M.orders
  tau0 : M.tau0 = w.tau0
  tau1 : M.tau1 = w.tau1
  nodes : ∀ p ∈ M.orders, tausFn w.lib w.tau0 w.tau1 scheme p = .ok (M.nodes p)

/-- Total cost of a trajectory with quadrature weights `W`: terminal costs plus the weighted samples of `dt/dtau`
times running cost. -/
def PhysCost (ocp : OCP K) (M : Mesh K) (W : List K) (T : Traj K) (J : K) : Prop :=
  ∃ v : Nat → Nat → K, (∀ ph < ocp.nPhases, RunningSamples ocp M T ph (v ph)) ∧
    J = ∑ ph ∈ Finset.range ocp.nPhases, (TerminalCost ocp M T ph + weightedSum W (v ph))

/-- The trajectory solves the collocated problem; with `diff_u` also the bounds on the slope of the scaled controls. -/
def SolvesOCP (ocp : OCP K) (M : Mesh K) (T : Traj K) : Prop :=
  PhysFeasible ocp M T ∧ ∀ ph < ocp.nPhases, ocp.diffU.getD ph false = true →
    SlopeBounded ocp M T (fun j => ocp.scaleU.getD j 0) ph

theorem OrdersArg.Means.unique {n : Nat} {arg : OrdersArg} {a b : List Nat} (h : arg.Means n a)
    (h' : arg.Means n b) : a = b := by
  cases arg <;> exact h.trans h'.symm

section
variable [IsStrictOrderedRing K]

theorem SameOn.solves {ocp : OCP K} {M : Mesh K} {S T : Traj K} (h : SameOn ocp M.N M.orders.length S T)
    (hs : ocp.SettingsOK) (hS : SolvesOCP ocp M S) : SolvesOCP ocp M T :=
  ⟨h.feasible hs.linkRange hS.1, fun ph hp hd => h.slopeBounded hp (hS.2 ph hp hd)⟩

theorem SameOn.cost {ocp : OCP K} {M : Mesh K} {S T : Traj K} (h : SameOn ocp M.N M.orders.length S T)
    {W : List K} {J : K} (hS : PhysCost ocp M W S J) : PhysCost ocp M W T J := by
  obtain ⟨v, hv, rfl⟩ := hS
  refine ⟨v, fun ph hp => h.runningSamples hp (hv ph hp), Finset.sum_congr rfl fun ph hp => ?_⟩
  rw [h.terminalCost (Finset.mem_range.1 hp)]

/-- Two costs of a trajectory agree: the samples are determined on all nodes. -/
theorem PhysCost.unique {ocp : OCP K} {M : Mesh K} {W : List K} {T : Traj K} {J J' : K} (hM : M.Good)
    (hW : W.length = M.N) (hrc : ocp.runningCosts.length = ocp.nPhases)
    (h : PhysCost ocp M W T J) (h' : PhysCost ocp M W T J') : J = J' := by
  obtain ⟨v, hv, rfl⟩ := h
  obtain ⟨v', hv', rfl⟩ := h'
  apply Finset.sum_congr rfl
  intro ph hp
  have hp := Finset.mem_range.1 hp
  congr 1
  unfold weightedSum
  apply Finset.sum_congr rfl
  intro k hk
  obtain ⟨s, i, ho, rfl⟩ := M.exists_owner hM.nonempty (k := k) (by rw [← hW]; exact Finset.mem_range.1 hk)
  have hl : ph < ocp.runningCosts.length := by omega
  rw [hv ph hp _ (List.getElem?_eq_getElem hl) s i ho, hv' ph hp _ (List.getElem?_eq_getElem hl) s i ho]

theorem exists_samples (ocp : OCP K) (M : Mesh K) (T : Traj K) : ∃ v : Nat → Nat → K,
    ∀ ph < ocp.nPhases, RunningSamples ocp M T ph (v ph) := by
  classical
  refine ⟨fun ph k => if hk : ∃ s i, M.Owns s i ∧ M.idx s i = k then
    M.halfWidth T ph hk.choose * ocp.runningCosts.getD ph (fun _ => 0)
      (ocp.pArg T ph k (M.time T ph hk.choose (M.node hk.choose hk.choose_spec.choose)))
    else 0, fun ph _ rc hrc s i ho => ?_⟩
  have hk : ∃ s' i', M.Owns s' i' ∧ M.idx s' i' = M.idx s i := ⟨s, i, ho, rfl⟩
  beta_reduce
  rw [dif_pos hk]
  have h1 := hk.choose_spec.choose_spec
  obtain ⟨e1, e2⟩ := M.owner_unique h1.1 ho h1.2
  rw [e2, e1, List.getD_eq_getElem?_getD, hrc]
  rfl

/-- Width vectors and width functions. -/
theorem packWidths_iff {ocp : OCP K} {n : Nat} {T : Traj K} {req : Option (List K)} {sw : List K}
    (hsw : match req with
      | some l => sw = l
      | none => equalWidths n ocp.nPhases = .ok sw) :
    WidthsAre ocp n req T ↔ ocp.packWidths n T = sw := by
  cases req with
  | some l => simp only [WidthsAre] at *; rw [hsw]
  | none =>
    simp only [WidthsAre, equalWidths] at *
    split at hsw
    · cases hsw
    cases hsw
    unfold OCP.packWidths
    rw [List.eq_replicate_iff]
    simp only [List.length_flatMap, List.length_map, List.length_range, List.mem_flatMap, List.mem_map,
      List.mem_range, List.map_const', List.sum_replicate, smul_eq_mul]
    constructor
    · rintro h
      refine ⟨by ring, ?_⟩
      rintro b ⟨ph, hp, s, hs, rfl⟩
      exact h ph hp s hs
    · rintro ⟨-, h⟩ ph hp s hs
      exact h _ ⟨ph, hp, s, hs, rfl⟩

variable {w : Outside K V} {nlpsol : SolverCall K V → Py (List K)} {ocp : OCP K}
    {ptp : List (List Nat)} {n : Nat} {arg : OrdersArg} {scheme : String} {a : SolveArgs K V} {rx rdx : Bool}
    {s : Session K V} {p : Post K} {r : Option (PyDict (ResidVal K))} {M : Mesh K}

/-- Points of the NLP handed to the solver, in terms of trajectories. -/
theorem call_spec {d : Disc K} {c : SolverCall K V} (h : d.OnMesh M) (hv : ValidOCP d.ocp)
    (hs : d.ocp.SettingsOK) (hsc : d.ocp.PosScales) (hn : d.createNlp = .ok c.bounds)
    (hp : c.solver.problem = c.bounds) (z : List K) (hc : c.p.length = d.widthParams.length) :
    (c.IsSolution z ↔ z.length = d.allVars.length ∧ SolvesOCP d.ocp M (physOf d.ocp (d.envOf z c.p))) ∧
      PhysCost d.ocp M d.compW (physOf d.ocp (d.envOf z c.p)) (c.solver.problem.f (c.point z)) := by
  obtain ⟨bs, J, nlp, hn', -, -, -, hx, -, -, hpp, -⟩ := h.createNlp_spec hv hs hsc
  obtain ⟨nlp', hn'', hiff⟩ := C14_feasible_iff h hv hs hsc
  obtain ⟨nlp'', hn''', -, hobj⟩ := C15_objective h hv hs hsc
  rw [hn] at hn' hn'' hn'''
  cases hn'; cases hn''; cases hn'''
  have hpt : c.point z = d.envOf z c.p := by
    unfold SolverCall.point Disc.envOf
    rw [hp, hx, hpp]; rfl
  refine ⟨?_, ?_⟩
  · constructor
    · rintro ⟨h1, h2, h3, h4⟩
      have hz : z.length = d.allVars.length := by rw [h1, hp, hx]; rfl
      refine ⟨hz, (hiff _).1 ⟨?_, ?_⟩⟩
      · rw [hx]
        have := (Disc.envOf_map hz hc).1
        unfold Disc.allVars at this
        rw [this]; exact h3
      · rw [← hpt, ← hp] at *; exact h4
    · rintro ⟨hz, h1⟩
      obtain ⟨h3, h4⟩ := (hiff _).2 h1
      refine ⟨by rw [hz, hp, hx]; rfl, by rw [hc, hp, hpp], ?_, ?_⟩
      · rw [hx] at h3
        have := (Disc.envOf_map hz hc).1
        unfold Disc.allVars at this
        rw [this] at h3; exact h3
      · rw [hpt, hp]; exact h4
  · obtain ⟨v, hvs⟩ := exists_samples d.ocp M (physOf d.ocp (d.envOf z c.p))
    exact ⟨v, hvs, by rw [hpt, hp]; exact hobj _ v hvs⟩

/-- Packing the decoded trajectory gives the vector back. -/
theorem pack_decoded {d : Disc K} (hv : ValidOCP d.ocp) (hsc : d.ocp.PosScales) {z h : List K}
    (hz : z.length = d.allVars.length) (hh : h.length = d.widthParams.length) :
    d.ocp.packVec d.N (physOf d.ocp (d.envOf z h)) = z := by
  rw [packVec_eq]
  conv_rhs => rw [← (Disc.envOf_map hz hh).1]
  apply List.map_congr_left
  intro s hs
  unfold Disc.allVars at hs
  simp only [List.mem_flatMap, Disc.mem_phaseVars] at hs
  obtain ⟨ph, -, ⟨i, -, j, hj, rfl⟩ | ⟨i, -, j, hj, rfl⟩ | rfl | rfl | ⟨k, hk, rfl⟩⟩ := hs
  · exact div_mul_cancel₀ _ (getD_pos hsc.x (by rw [hv.scaleX]; exact hj)).ne'
  · exact div_mul_cancel₀ _ (getD_pos hsc.u (by rw [hv.scaleU]; exact hj)).ne'
  · exact div_mul_cancel₀ _ hsc.t.ne'
  · exact div_mul_cancel₀ _ hsc.t.ne'
  · exact div_mul_cancel₀ _ (getD_pos hsc.a (by rw [hv.scaleA]; exact hk)).ne'

/-- The trajectory a packed vector decodes to. -/
theorem decoded_packed {d : Disc K} (h : d.OnMesh M) (hv : ValidOCP d.ocp) (hsc : d.ocp.PosScales) (T : Traj K)
    {sw : List K} (hw : d.ocp.packWidths d.nSegments T = sw) :
    SameOn d.ocp M.N M.orders.length (physOf d.ocp (d.envOf (d.ocp.packVec M.N T) sw)) T := by
  have hN : d.N = M.N := h.N_eq.symm
  have hseg : d.nSegments = M.orders.length := by rw [← h.segments, h.orders]
  rw [← hN, ← hseg]
  exact traj_packed (e := ⟨d, sw, [], 0, d.ocp.packVec d.N T⟩) hv
    (fun s hs => (hsc.x s hs).ne') (fun s hs => (hsc.u s hs).ne') (fun s hs => (hsc.a s hs).ne')
    hsc.t.ne' T rfl hw.symm

/-- Solutions of a solver call are the packed trajectories that solve the problem; the objective is their cost. -/
theorem call_trajectories {d : Disc K} {c : SolverCall K V} {req : Option (List K)} (h : d.OnMesh M)
    (hv : ValidOCP d.ocp) (hs : d.ocp.SettingsOK) (hsc : d.ocp.PosScales) (hn : d.createNlp = .ok c.bounds)
    (hp : c.solver.problem = c.bounds) (hc : c.p.length = d.widthParams.length)
    (hreq : match req with
        | some l => c.p = l
        | none => equalWidths d.nSegments d.ocp.nPhases = .ok c.p) :
    (∀ z, c.IsSolution z ↔ ∃ T, SolvesOCP d.ocp M T ∧ WidthsAre d.ocp d.nSegments req T ∧
        z = d.ocp.packVec M.N T) ∧
      ∀ T J, WidthsAre d.ocp d.nSegments req T → PhysCost d.ocp M d.compW T J →
        c.solver.problem.f (c.point (d.ocp.packVec M.N T)) = J := by
  have hN : d.N = M.N := h.N_eq.symm
  have hWl : d.compW.length = M.N := by
    obtain ⟨-, -, hl, -⟩ := C15_objective h hv hs hsc
    exact hl
  refine ⟨fun z => ⟨fun hz => ?_, ?_⟩, fun T J hw hJ => ?_⟩
  · obtain ⟨h1, h2⟩ := (call_spec h hv hs hsc hn hp z hc).1.1 hz
    refine ⟨_, h2, ?_, by rw [← hN]; exact (pack_decoded hv hsc h1 hc).symm⟩
    rw [packWidths_iff hreq, packWidths_eq]
    conv_rhs => rw [← (Disc.envOf_map h1 hc).2]
    apply List.map_congr_left
    intro s hs
    obtain ⟨ph, -, i, -, rfl⟩ := Disc.mem_widthParams.1 hs
    rfl
  · rintro ⟨T, hS, hw, rfl⟩
    have hsame := decoded_packed h hv hsc T ((packWidths_iff hreq).1 hw)
    refine (call_spec h hv hs hsc hn hp _ hc).1.2 ⟨?_, hsame.symm.solves hs hS⟩
    rw [← hN, packVec_eq, List.length_map]
  · have hsame := decoded_packed h hv hsc T ((packWidths_iff hreq).1 hw)
    exact PhysCost.unique h.good hWl hv.runningCosts
      (hsame.cost (call_spec h hv hs hsc hn hp _ hc).2) hJ

/-- The pieces of a `solve` that returned, on its mesh. -/
theorem mpSolve_pieces (hrun : mpSolve w nlpsol ocp ptp n arg scheme a rx rdx = .ok (s, p, r))
    (hM : MeshFor w scheme n arg M) :
    ∃ c z, nlpsol c = .ok z ∧ p.solved.disc.OnMesh M ∧ p.solved.disc.ocp = ocp ∧
      p.solved.disc.nSegments = n ∧ p.solved.widths = c.p ∧ p.solved.z = z ∧ p.scaling = false ∧
      p.solved.disc.createNlp = .ok c.bounds ∧ c.solver.problem = c.bounds ∧
      (match a.widths with
        | some l => c.p = l
        | none => equalWidths n ocp.nPhases = .ok c.p) := by
  obtain ⟨orders, d, c, z, h1, h2, h3, h4, h5, h6, h7, h8⟩ := mpSolve_inv hrun
  obtain ⟨g1, g2, g3, g4, g5, g6, g7⟩ := mkDisc_inv h2
  have hord : M.orders = orders := hM.orders.unique h1
  refine ⟨c, z, h5, ?_, ?_, ?_, ?_, ?_, h8, ?_, h4, h6⟩ <;> rw [h7]
  · refine ⟨hM.good, by rw [hord, g4], ?_, ?_, ?_, by rw [g4, g3, g1], g6, g7⟩
    · rw [hM.tau0, g5]
    · rw [hM.tau1, g5]
    · intro q hq
      rw [g5]
      exact hM.nodes q (by rw [hord, ← g4]; exact hq)
  · exact g2
  · exact g3
  · exact h3

/-- A solution of the NLP, shown by the post-processor. -/
theorem shown_of_solution {c : SolverCall K V} {z : List K} (hv : ValidOCP ocp) (hs : ocp.SettingsOK)
    (hsc : ocp.PosScales) (h2 : p.solved.disc.OnMesh M) (h3 : p.solved.disc.ocp = ocp)
    (h4 : p.solved.disc.nSegments = n) (h5 : p.solved.widths = c.p) (h6 : p.solved.z = z)
    (h7 : p.scaling = false) (h8 : p.solved.disc.createNlp = .ok c.bounds) (h9 : c.solver.problem = c.bounds)
    (h10 : match a.widths with
        | some l => c.p = l
        | none => equalWidths n ocp.nPhases = .ok c.p) (hsol : c.IsSolution z) :
    c.p.length = p.solved.disc.widthParams.length ∧ SolvesOCP ocp M p.solved.traj ∧
      WidthsAre ocp n a.widths p.solved.traj ∧ p.Shows ocp M p.solved.traj := by
  subst h3 h6
  obtain ⟨bs, J, nlp, hn', -, -, -, hx, -, -, hpp, -⟩ := h2.createNlp_spec hv hs hsc
  rw [h8] at hn'; cases hn'
  have hc : c.p.length = p.solved.disc.widthParams.length := by rw [hsol.p, h9, hpp]
  have hspec := call_spec h2 hv hs hsc h8 h9 p.solved.z hc
  obtain ⟨hz, hfeas⟩ := hspec.1.1 hsol
  rw [← h5] at hfeas hc
  have hready : p.solved.Ready M := ⟨h2, hv, hz, hc, fun s hs => (hsc.x s hs).ne',
    fun s hs => (hsc.u s hs).ne', fun s hs => (hsc.a s hs).ne'⟩
  refine ⟨by rw [← h5]; exact hc, hfeas, ?_, ?_⟩
  · rw [packWidths_iff h10, ← h4, packWidths_eq, ← h5]
    have e := (Disc.envOf_map hz hc).2
    conv_rhs => rw [← e]
    apply List.map_congr_left
    intro s hs
    obtain ⟨ph, -, i, -, rfl⟩ := Disc.mem_widthParams.1 hs
    rfl
  · intro phases hne hph
    obtain ⟨D, d1, d2, d3, d4, -⟩ := C25_get_data hready phases hne hph
    have hu : ∀ sc : List K, unitOr p.scaling sc = fun _ => 1 := by
      intro sc; funext j; rw [unitOr, h7]; rfl
    rw [hu] at d2 d3
    exact ⟨D, d1, d2, d3, d4⟩

/-- **C52** Whatever trajectory a sound NLP solver leads to: when the module-level `solve` returns, the node values
shown by its post-processor are those of a trajectory that solves the collocated optimal control problem of the user
on the requested mesh, with the requested segment widths. -/
theorem C52_solve_feasible (hrun : mpSolve w nlpsol ocp ptp n arg scheme a rx rdx = .ok (s, p, r))
    (hv : ValidOCP ocp) (hs : ocp.SettingsOK) (hsc : ocp.PosScales) (hM : MeshFor w scheme n arg M)
    (hsound : ∀ c z, nlpsol c = .ok z → c.IsSolution z) :
    ∃ T, SolvesOCP ocp M T ∧ WidthsAre ocp n a.widths T ∧ p.Shows ocp M T := by
  obtain ⟨c, z, h1, h2, h3, h4, h5, h6, h7, h8, h9, h10⟩ := mpSolve_pieces hrun hM
  exact ⟨_, (shown_of_solution hv hs hsc h2 h3 h4 h5 h6 h7 h8 h9 h10 (hsound c z h1)).2⟩

/-- **C53** With a solver that returns a global minimiser of the NLP it is given, the trajectory shown has the least
cost among all trajectories that solve the collocated problem on that mesh with those segment widths. The cost is
taken with the composite quadrature weights of the scheme (see C07 for what they integrate). -/
theorem C53_solve_optimal (hrun : mpSolve w nlpsol ocp ptp n arg scheme a rx rdx = .ok (s, p, r))
    (hv : ValidOCP ocp) (hs : ocp.SettingsOK) (hsc : ocp.PosScales) (hM : MeshFor w scheme n arg M)
    (hopt : ∀ c z, nlpsol c = .ok z → c.IsOptimal z) :
    ∃ T W J, compQuadWeights ⟨w.method, w.tau0, w.tau1, tausFn w.lib w.tau0 w.tau1 scheme⟩ M.orders = .ok W ∧
      SolvesOCP ocp M T ∧ WidthsAre ocp n a.widths T ∧ p.Shows ocp M T ∧ PhysCost ocp M W T J ∧
      ∀ T' J', SolvesOCP ocp M T' → WidthsAre ocp n a.widths T' → PhysCost ocp M W T' J' → J ≤ J' := by
  obtain ⟨orders, d, c0, z0, i1, i2, -, -, -, -, i7, -⟩ := mpSolve_inv hrun
  obtain ⟨c, z, h1, h2, h3, h4, h5, h6, h7, h8, h9, h10⟩ := mpSolve_pieces hrun hM
  have ho := hopt c z h1
  obtain ⟨hc, hS, hw, hsh⟩ := shown_of_solution hv hs hsc h2 h3 h4 h5 h6 h7 h8 h9 h10 ho.sol
  obtain ⟨-, -, -, -, g5, -, -⟩ := mkDisc_inv i2
  have hcol : p.solved.disc.colloc = ⟨w.method, w.tau0, w.tau1, tausFn w.lib w.tau0 w.tau1 scheme⟩ := by
    rw [i7]; exact g5
  subst h3 h6
  have hcost := (call_spec h2 hv hs hsc h8 h9 p.solved.z hc).2
  refine ⟨_, p.solved.disc.compW, c.solver.problem.f (c.point p.solved.z), ?_, hS, hw, hsh, ?_, fun T' J' hS' hw' hJ' => ?_⟩
  · rw [← hcol, h2.orders]; exact h2.compW
  · unfold Solved.traj; rw [h5]; exact hcost
  · obtain ⟨k1, k2⟩ := call_trajectories h2 hv hs hsc h8 h9 hc (req := a.widths) (by rw [h4]; exact h10)
    rw [h4] at k1 k2
    rw [← k2 T' J' hw' hJ']
    exact ho.best _ ((k1 _).2 ⟨T', hS', hw', rfl⟩)

omit [IsStrictOrderedRing K] [LinearOrder K] [Field K] in
theorem mapM_succeeds {α β : Type} {f : α → Py β} {l : List α} (h : ∀ a ∈ l, ∃ b, f a = .ok b) :
    ∃ bs, l.mapM f = .ok bs := by
  induction l with
  | nil => exact ⟨[], rfl⟩
  | cons a l ih =>
    obtain ⟨b, hb⟩ := h a (by simp)
    obtain ⟨bs, hbs⟩ := ih fun x hx => h x (by simp [hx])
    exact ⟨b :: bs, by rw [List.mapM_cons, hb, py_bind_ok, hbs]; rfl⟩

/-- The `fixed` grid has one list per segment. -/
theorem residualGrid_length {e : Solved K} {ph : Nat} {g : List (List K)}
    (h : e.residualGrid ph (some "fixed") = .ok (some g)) : g.length = (e.phaseWidths ph).length := by
  unfold Solved.residualGrid interpTaus at h
  simp only [py_bind_ok, beq_self_eq_true, if_true] at h
  simp only [py_bind_eq_ok, py_pure_eq_ok] at h
  obtain ⟨taus, ⟨_, -, h1⟩, _, -, h2⟩ := h
  cases h2
  split at h1
  · cases h1
  · simp only [py_pure_eq_ok] at h1
    subst h1
    simp

/-- Both residual computations of `process_results` succeed when the widths of every phase are positive and their sum passes the
test of the code, which asks for 1 up to 1e-6. -/
theorem residuals_succeed_near {e : Solved K} (h : e.Ready M) (hlt : M.tau0 < M.tau1)
    (hg : e.gridType = List.replicate e.disc.ocp.nPhases "fixed")
    (hw : ∀ ph < e.disc.ocp.nPhases, (∀ v ∈ e.phaseWidths ph, 0 < v) ∧
      |(e.phaseWidths ph).sum - 1| < 1 / 1000000) :
    (∃ r, e.stateResiduals none false = .ok r) ∧ ∃ r, e.dynResiduals none none false = .ok r := by
  have hgt : ∀ ph < e.disc.ocp.nPhases, e.gridType[ph]? = some "fixed" := by
    intro ph hp; rw [hg, List.getElem?_replicate, if_pos hp]
  have hgrid : ∀ ph, ∃ g F, ph < e.disc.ocp.nPhases → e.residualGrid ph (some "fixed") = .ok (some g) ∧
      g.length = M.orders.length ∧ e.disc.ocp.dynamics[ph]? = some F := by
    intro ph
    by_cases hp : ph < e.disc.ocp.nPhases
    · have hlen : (e.phaseWidths ph).length = M.orders.length := by
        rw [h.mesh.orders, h.mesh.segments]; exact length_phaseSlice h.widths hp
      have hpos := List.length_pos_iff.2 h.mesh.good.nonempty
      obtain ⟨out, o1, o2, -⟩ := C27_partition (linspace M.tau0 M.tau1 e.fixedCount) hlt (hw ph hp).1 (hw ph hp).2
      have h1 := fixed_grid (e := e) ph (out := out) (by rw [← h.mesh.tau0, ← h.mesh.tau1]; exact o1) (by omega)
      refine ⟨_, e.disc.ocp.dynamics[ph]'(by rw [h.valid.dynamics]; exact hp), fun _ => ⟨h1, ?_, ?_⟩⟩
      · rw [residualGrid_length h1, h.mesh.orders, h.mesh.segments]
        exact length_phaseSlice h.widths hp
      · exact List.getElem?_eq_getElem _
    · exact ⟨[], ⟨0, fun _ _ => 0⟩, fun hh => absurd hh hp⟩
  choose g F hgF using hgrid
  constructor
  · refine mapM_succeeds ?_
    intro ph hp
    have hp : ph < e.disc.ocp.nPhases := by simpa using hp
    obtain ⟨g1, g2, g3⟩ := hgF ph hp
    simp only [Solved.stateOne, Solved.stateTarget, pyIdx_eq_ok.2 (hgt ph hp), py_bind_ok, g1]
    rw [h.statePhase_spec hp g2 g3]
    exact ⟨_, rfl⟩
  · rw [C30_uses_phase_zero_type e false "fixed" (hgt 0 h.valid.phases) h.valid.phases]
    refine mapM_succeeds ?_
    intro ph hp
    have hp : ph < e.disc.ocp.nPhases := by simpa using hp
    obtain ⟨g1, g2, g3⟩ := hgF ph hp
    simp only [g1, py_bind_ok, phaseResult]
    rw [h.dynPhase_spec hp g2 g3]
    exact ⟨_, rfl⟩

theorem residuals_succeed {e : Solved K} (h : e.Ready M) (hlt : M.tau0 < M.tau1)
    (hg : e.gridType = List.replicate e.disc.ocp.nPhases "fixed")
    (hw : ∀ ph < e.disc.ocp.nPhases, (∀ v ∈ e.phaseWidths ph, 0 < v) ∧ (e.phaseWidths ph).sum = 1) :
    (∃ r, e.stateResiduals none false = .ok r) ∧ ∃ r, e.dynResiduals none none false = .ok r :=
  residuals_succeed_near h hlt hg fun ph hp => ⟨(hw ph hp).1, near_one (hw ph hp).2⟩

omit [IsStrictOrderedRing K] [LinearOrder K] [Field K] in
theorem warmStart_succeeds {g : V} (sol : Option (PyDict V)) : ∃ i, warmStart (.ok g) sol = .ok i := by
  unfold warmStart
  cases sol with
  | none => exact ⟨[("x0", g)], rfl⟩
  | some d =>
    simp only [show ∀ c : PyDict V, (pure c : Py (PyDict V)) = .ok c from fun _ => rfl, py_bind_ok]
    split <;> exact ⟨_, rfl⟩

/-- Widths `solve` accepts: none, or for every phase positive fractions with sum 1. -/
def GoodWidths (ocp : OCP K) (n : Nat) (req : Option (List K)) : Prop :=
  ∀ l, req = some l → l.length = n * ocp.nPhases ∧ ∀ ph < ocp.nPhases,
    (∀ v ∈ phaseSlice n ph l, 0 < v) ∧ (phaseSlice n ph l).sum = 1

/-- The call of the solver object that `solve` makes, and that it returns when this call does. -/
theorem solve_call (hv : ValidOCP ocp) (hs : ocp.SettingsOK) (hsc : ocp.PosScales)
    (hM : MeshFor w scheme n arg M) (hn : M.orders.length = n) (hlt : w.tau0 < w.tau1)
    (hacc : w.accepts a.plugin (solverOptions w.vals a.plugin a.options) = true)
    (hwid : GoodWidths ocp n a.widths)
    (ht : ∀ ph < ocp.nPhases, entry ocp.t00 ph 0 0 ≠ entry ocp.tf0 ph 0 0) (hptp : ptp ≠ []) :
    ∃ (c : SolverCall K V) (d : Disc K), d.OnMesh M ∧ d.ocp = ocp ∧ d.nSegments = n ∧
      compQuadWeights ⟨w.method, w.tau0, w.tau1, tausFn w.lib w.tau0 w.tau1 scheme⟩ M.orders = .ok d.compW ∧
      d.createNlp = .ok c.bounds ∧ c.solver.problem = c.bounds ∧ c.p.length = d.widthParams.length ∧
      (match a.widths with
        | some l => c.p = l
        | none => equalWidths d.nSegments d.ocp.nPhases = .ok c.p) ∧
      ∀ (nlpsol : SolverCall K V → Py (List K)) (z : List K), nlpsol c = .ok z →
        z.length = c.solver.problem.x.length →
        ∃ out, mpSolve w nlpsol ocp ptp n arg scheme a rx rdx = .ok out := by
  have hn0 : 0 < n := by rw [← hn]; exact List.length_pos_iff.2 hM.good.nonempty
  -- constructor
  have ho : initOrders n arg = .ok (M.orders, M.orders.sum + 1) := by
    have := hM.orders
    unfold initOrders
    cases arg with
    | int q =>
      simp only [OrdersArg.Means] at this
      rw [this]; simp [pyAssert]
    | list l =>
      simp only [OrdersArg.Means] at this
      rw [this] at hn ⊢
      simp [pyAssert, hn]
  -- discretisation and NLP
  have hG : GoodNodes ⟨w.method, w.tau0, w.tau1, tausFn w.lib w.tau0 w.tau1 scheme⟩ M.orders M.nodes :=
    fun q hq => ⟨hM.nodes q hq, hM.good.length q hq, hM.good.nodup q hq⟩
  obtain ⟨D, hD, -⟩ := C06_composite_diff _ M.orders M.nodes hG 1 (Or.inl rfl) (fun _ => 0)
    (fun s hs => by simp) (fun _ => 0) (fun s hs i hi => by simp)
  obtain ⟨W, hW, -⟩ := compQuadWeights_spec _ M.orders hM.good.nonempty M.nodes hG
  set d : Disc K := ⟨ocp, n, M.orders, ⟨w.method, w.tau0, w.tau1, tausFn w.lib w.tau0 w.tau1 scheme⟩, D, W⟩
    with hdd
  have hd : mkDisc w.lib w.method w.tau0 w.tau1 ocp n M.orders scheme = .ok d := by
    have e := mapM_ok (tausFn w.lib w.tau0 w.tau1 scheme) M.nodes M.orders hM.nodes
    unfold mkDisc mkColloc
    rw [show (M.orders.length == n) = true by simpa using hn]
    simp only [pyAssert, if_true, py_bind_ok, e]
    simp only [show ∀ c : Colloc K, (pure c : Py (Colloc K)) = .ok c from fun _ => rfl, py_bind_ok, hD, hW]
    rfl
  have honM : d.OnMesh M := ⟨hM.good, rfl, hM.tau0, hM.tau1, hM.nodes, hn, hD, hW⟩
  obtain ⟨bs, J, nlp, hnlp, -, -, -, hx, -, -, hpp, -⟩ := honM.createNlp_spec hv hs hsc
  -- widths
  obtain ⟨sw, hsw, hswl, hsw2⟩ : ∃ sw, (match a.widths with
      | some l => .ok l
      | none => equalWidths n ocp.nPhases : Py (List K)) = .ok sw ∧ sw.length = n * ocp.nPhases ∧
      ∀ ph < ocp.nPhases, (∀ v ∈ phaseSlice n ph sw, 0 < v) ∧ (phaseSlice n ph sw).sum = 1 := by
    rcases haw : a.widths with _ | l
    · refine ⟨List.replicate (n * ocp.nPhases) (1 / (n : K)), by simp [equalWidths, hn0.ne'], by simp, ?_⟩
      intro ph hp
      have e : phaseSlice n ph (List.replicate (n * ocp.nPhases) (1 / (n : K))) =
          List.replicate n (1 / (n : K)) := by
        unfold phaseSlice
        rw [List.drop_replicate, List.take_replicate]
        congr 1
        have : n * (ph + 1) ≤ n * ocp.nPhases := Nat.mul_le_mul_left _ hp
        rw [Nat.mul_add] at this
        omega
      rw [e]
      have hnK : (0 : K) < n := by exact_mod_cast hn0
      refine ⟨fun v hv => ?_, ?_⟩
      · rw [List.eq_of_mem_replicate hv]; positivity
      · rw [List.sum_replicate, nsmul_eq_mul, mul_one_div_cancel hnK.ne']
    · obtain ⟨h1, h2⟩ := hwid l haw
      exact ⟨l, rfl, h1, h2⟩
  -- guess
  obtain ⟨nlp', zg, -, hguess, -⟩ := C20_guess honM hv hs hsc ht
  obtain ⟨inp, hinp⟩ := warmStart_succeeds (g := w.vec zg) a.initial
  -- first solve
  let s0 : Session K V := ⟨[ocp, ocp], ⟨1, n, M.orders, scheme, M.orders.sum + 1, false, none, none, none⟩⟩
  let sol : NlpSol K V := ⟨nlp, a.plugin, solverOptions w.vals a.plugin a.options⟩
  let s1 : Session K V := ⟨[ocp, ocp],
    ⟨1, n, M.orders, scheme, M.orders.sum + 1, true, some sol, some nlp, some sw⟩⟩
  have hbuild : s0.buildNlp w = .ok nlp := by
    have hd' : mkDisc w.lib w.method w.tau0 w.tau1 ocp M.orders.length M.orders scheme = .ok d := by
      rw [hn]; exact hd
    unfold Session.buildNlp
    show (mkDisc w.lib w.method w.tau0 w.tau1 ocp M.orders.length M.orders scheme >>= _) = _
    rw [hd', py_bind_ok]
    show (if M.orders.sum + 1 ≠ d.N then _ else _) = _
    rw [if_neg (by simp [Disc.N, hdd])]
    exact hnlp
  have hcs : s0.createSolver w a.plugin a.options = (⟨[ocp, ocp],
      ⟨1, n, M.orders, scheme, M.orders.sum + 1, true, some sol, some nlp, none⟩⟩, .ok ()) := by
    unfold Session.createSolver
    simp only [hbuild, hacc, if_true]
    rfl
  have hsolve : s0.solve w a = (s1, .ok ⟨sol, nlp, inp, sw⟩) := by
    unfold Session.solve
    rw [if_pos (Or.inl rfl), hcs]
    simp only
    have hg : s1.guess w = .ok (w.vec zg) := by
      unfold Session.guess
      show (ocp.initialGuess M.N >>= _) = _
      rw [hguess]; rfl
    have hmain : ∀ r : Py (List K), r = .ok sw → (match r with
        | .error e => ((⟨[ocp, ocp], ⟨1, n, M.orders, scheme, M.orders.sum + 1, true, some sol, some nlp, none⟩⟩ : Session K V), (.error e : Py (SolverCall K V)))
        | .ok sw => (⟨[ocp, ocp], ⟨1, n, M.orders, scheme, M.orders.sum + 1, true, some sol, some nlp, some sw⟩⟩,
          warmStart (Session.guess w ⟨[ocp, ocp], ⟨1, n, M.orders, scheme, M.orders.sum + 1, true, some sol, some nlp, some sw⟩⟩) a.initial >>= fun inputs => .ok ⟨sol, nlp, inputs, sw⟩)) =
        (s1, .ok ⟨sol, nlp, inp, sw⟩) := by
      rintro _ rfl
      show (s1, warmStart (s1.guess w) a.initial >>= _) = _
      rw [hg, hinp]; rfl
    rcases haw : a.widths with _ | l
    · rw [haw] at hsw
      exact hmain _ hsw
    · rw [haw] at hsw
      exact hmain _ hsw
  -- results
  have hcl : sw.length = d.widthParams.length := by
    rw [hswl]; unfold Disc.widthParams
    rw [length_flatMap_range]; exact Nat.mul_comm _ _
  have hreq : match a.widths with
      | some l => sw = l
      | none => equalWidths d.nSegments d.ocp.nPhases = .ok sw := by
    rcases haw : a.widths with _ | l
    · rw [haw] at hsw; exact hsw
    · rw [haw] at hsw; cases hsw; rfl
  refine ⟨⟨sol, nlp, inp, sw⟩, d, honM, rfl, rfl, hW, hnlp, rfl, hcl, hreq, fun nlpsol z hz hzl => ?_⟩
  let e : Solved K := ⟨d, sw, List.replicate ocp.nPhases "fixed", 15, z⟩
  have hready : e.Ready M := by
    refine ⟨honM, hv, ?_, ?_, fun s hs => (hsc.x s hs).ne', fun s hs => (hsc.u s hs).ne',
      fun s hs => (hsc.a s hs).ne'⟩
    · rw [show e.z = z from rfl, hzl]
      show nlp.x.length = _
      rw [hx]; rfl
    · exact hcl
  obtain ⟨⟨r1, hr1⟩, r2, hr2⟩ := residuals_succeed hready (by rw [hM.tau0, hM.tau1]; exact hlt) rfl hsw2
  have hsolved : s1.solved w z = .ok e := by
    have hd' : mkDisc w.lib w.method w.tau0 w.tau1 ocp M.orders.length M.orders scheme = .ok d := by
      rw [hn]; exact hd
    unfold Session.solved
    show (mkDisc w.lib w.method w.tau0 w.tau1 ocp M.orders.length M.orders scheme >>= _) = _
    rw [hd']; rfl
  obtain ⟨q, ptp', rfl⟩ := List.exists_cons_of_ne_nil hptp
  have hnew : (newSession ocp n arg scheme : Py (Session K V)) = .ok s0 := by
    unfold newSession; rw [ho]; rfl
  obtain ⟨rv, hrv⟩ : ∃ rv, residValue rx rdx (e.stateResiduals none false) (e.dynResiduals none none false)
      ResidVal.states ResidVal.dynamics = .ok rv := by
    obtain ⟨k1, k2, k3, k4⟩ := C49_stored _ _ ResidVal.states ResidVal.dynamics r1 r2 hr1 hr2
    cases rx <;> cases rdx
    exacts [⟨_, k3⟩, ⟨_, k2⟩, ⟨_, k4⟩, ⟨_, k1⟩]
  have hproc : s1.processResults w z (q :: ptp') false rx rdx = .ok (⟨e, false, q⟩, rv) := by
    unfold Session.processResults
    rw [hsolved, py_bind_ok, hrv, py_bind_ok]; rfl
  refine ⟨(s1, ⟨e, false, q⟩, rv), ?_⟩
  unfold mpSolve
  rw [hnew, py_bind_ok]
  simp only [hsolve, py_bind_ok, hz, hproc]
  rfl

/-- **C52** The module-level `solve` makes one call of the solver object, whose solutions are exactly the packed
trajectories that solve the collocated problem on the mesh with the requested widths, and whose objective is their
cost; and `solve` returns whenever that call returns a vector of the right length. Needed: a well-posed problem,
positive orders of a working scheme, a plugin and options `ca.nlpsol` accepts, sensible widths and a start guess
without division by zero. -/
theorem C52_solve_returns (hv : ValidOCP ocp) (hs : ocp.SettingsOK) (hsc : ocp.PosScales)
    (hM : MeshFor w scheme n arg M) (hn : M.orders.length = n) (hlt : w.tau0 < w.tau1)
    (hacc : w.accepts a.plugin (solverOptions w.vals a.plugin a.options) = true)
    (hwid : GoodWidths ocp n a.widths)
    (ht : ∀ ph < ocp.nPhases, entry ocp.t00 ph 0 0 ≠ entry ocp.tf0 ph 0 0) (hptp : ptp ≠ []) :
    ∃ (c : SolverCall K V) (W : List K),
      compQuadWeights ⟨w.method, w.tau0, w.tau1, tausFn w.lib w.tau0 w.tau1 scheme⟩ M.orders = .ok W ∧
      (∀ z, c.IsSolution z ↔ ∃ T, SolvesOCP ocp M T ∧ WidthsAre ocp n a.widths T ∧ z = ocp.packVec M.N T) ∧
      (∀ T J, WidthsAre ocp n a.widths T → PhysCost ocp M W T J →
        c.solver.problem.f (c.point (ocp.packVec M.N T)) = J) ∧
      ∀ (nlpsol : SolverCall K V → Py (List K)) (z : List K), nlpsol c = .ok z →
        z.length = c.solver.problem.x.length →
        ∃ out, mpSolve w nlpsol ocp ptp n arg scheme a rx rdx = .ok out := by
  obtain ⟨c, d, h1, rfl, rfl, h4, h5, h6, h7, h8, h9⟩ := solve_call (ptp := ptp) (rx := rx) (rdx := rdx) hv hs hsc hM hn hlt
    hacc hwid ht hptp
  obtain ⟨k1, k2⟩ := call_trajectories h1 hv hs hsc h5 h6 h7 h8
  exact ⟨c, d.compW, h4, k1, k2, h9⟩

end

end MPOpt
