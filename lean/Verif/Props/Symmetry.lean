import Verif.Spec.Symmetry
import Verif.Props.UnitChange
import Verif.Props.ConvexLocal
import Verif.Props.Existence

/-! # C115: symmetries of the problem are symmetries of the NLP -/

set_option autoImplicit false
set_option linter.unusedSectionVars false

namespace MPOpt
open Polynomial

section
variable {K V : Type} [Field K] [LinearOrder K] [IsStrictOrderedRing K]
variable {ocp : OCP K} {M : Mesh K} {T : Traj K} {S : Symmetry K} {n : Nat}

/-- Pieces of affine combinations of node values. -/
theorem piece_combination (hM : M.Good) {s : Nat} (hs : s < M.orders.length) (m : Nat) (v : Nat → Nat → K) (a : Nat → K) (b : K) :
    M.piece (fun i => ∑ k ∈ Finset.range m, a k * v i k + b) s =
      ∑ k ∈ Finset.range m, C (a k) * M.piece (fun i => v i k) s + C b := by
  have h := piece_affine hM hs (fun i => ∑ k ∈ Finset.range m, a k * v i k) 1 b
  simp only [one_mul, C_1] at h
  rw [h]
  congr 1
  unfold Mesh.piece
  have e : (fun i => ∑ k ∈ Finset.range m, a k * v (M.idx s i) k) = ∑ k ∈ Finset.range m, a k • fun i => v (M.idx s i) k := by
    funext i; simp [Finset.sum_apply]
  rw [e, map_sum]
  exact Finset.sum_congr rfl fun k _ => by rw [map_smul, smul_eq_C_mul]

theorem pArg_image (ph k : Nat) (t : K) : ocp.pArg (T.image ocp S) ph k t = S.onP ocp (ocp.pArg T ph k t) := by
  unfold OCP.pArg Symmetry.onP Traj.image
  simp only [PArg.mk.injEq, and_true]
  constructor
  · refine List.map_congr_left fun j _ => ?_
    unfold Symmetry.state
    congr 1
    refine Finset.sum_congr rfl fun i hi => ?_
    have := Finset.mem_range.1 hi
    simp [List.getD_eq_getElem?_getD, this]
  · refine List.map_congr_left fun j _ => ?_
    unfold Symmetry.control
    congr 1
    refine Finset.sum_congr rfl fun i hi => ?_
    have := Finset.mem_range.1 hi
    simp [List.getD_eq_getElem?_getD, this]

theorem tArg_image (ph k : Nat) : ocp.tArg (T.image ocp S) ph k = S.onT ocp (ocp.tArg T ph k) := by
  unfold OCP.tArg Symmetry.onT Traj.image
  simp only [TArg.mk.injEq, true_and, and_true]
  constructor <;>
  · refine List.map_congr_left fun j _ => ?_
    unfold Symmetry.state
    congr 1
    refine Finset.sum_congr rfl fun i hi => ?_
    have := Finset.mem_range.1 hi
    simp [List.getD_eq_getElem?_getD, this]

theorem half_image (ph s : Nat) : M.halfWidth (T.image ocp S) ph s = M.halfWidth T ph s := rfl
theorem time_image (ph s : Nat) (tau : K) : M.time (T.image ocp S) ph s tau = M.time T ph s tau := rfl

theorem image_dynamics (hi : ocp.Invariant S) (hM : M.Good) {ph : Nat} (hp : ph < ocp.nPhases) (hT : CollocationOK ocp M T ph) :
    CollocationOK ocp M (T.image ocp S) ph := by
  intro F hF j hj s i ho
  have e : (fun k => (T.image ocp S).x ph k j) = fun i => ∑ k ∈ Finset.range ocp.nx, S.A j k * T.x ph i k + S.b j := rfl
  rw [e, piece_combination hM ho.1, pArg_image, hi.dynamics ph hp F hF _ (pArg_fits ..) j hj, half_image, Finset.mul_sum]
  simp only [derivative_add, derivative_sum, derivative_C, add_zero, derivative_C_mul, eval_finsetSum, eval_mul, eval_C]
  refine Finset.sum_congr rfl fun k hk => ?_
  rw [hT F hF k (Finset.mem_range.1 hk) s i ho, time_image]
  ring

theorem image_bounds (hi : ocp.Invariant S) {ph : Nat} (hp : ph < ocp.nPhases) (hT : BoundsOK ocp M T ph) :
    BoundsOK ocp M (T.image ocp S) ph := by
  refine ⟨?_, fun i hi' hne j hj => hi.x ph hp (T.x ph i) (fun k hk => hT.x i hi' hne k hk) j hj,
    fun i hi' j hj => hi.u ph hp (T.u ph i) (fun k hk => hT.u i hi' k hk) j hj, hT.t0, hT.tf, hT.a⟩
  rintro rfl j hj
  rw [← hi.start j hj]
  show ∑ k ∈ Finset.range ocp.nx, S.A j k * T.x 0 0 k + S.b j = ∑ k ∈ Finset.range ocp.nx, S.A j k * _ + S.b j
  congr 1
  exact Finset.sum_congr rfl fun k hk => by rw [hT.x0 rfl k (Finset.mem_range.1 hk)]

theorem image_path (hi : ocp.Invariant S) {ph : Nat} (hp : ph < ocp.nPhases) (hT : PathOK ocp M T ph) :
    PathOK ocp M (T.image ocp S) ph := by
  intro F hF s i ho c hc
  rw [pArg_image, time_image]
  exact hi.path ph hp F hF _ (pArg_fits ..) (fun c hc => hT F hF s i ho c hc) c hc

theorem image_terminal (hi : ocp.Invariant S) {ph : Nat} (hp : ph < ocp.nPhases) (hT : TerminalOK ocp M T ph) :
    TerminalOK ocp M (T.image ocp S) ph := by
  intro F hF c hc
  rw [tArg_image]
  exact hi.terminal ph hp F hF _ (tArg_fits ..) (fun c hc => hT F hF c hc) c hc

theorem image_mid (hi : ocp.Invariant S) (hM : M.Good) {ph : Nat} (hp : ph < ocp.nPhases) (hT : MidControlOK ocp M T ph) :
    MidControlOK ocp M (T.image ocp S) ph := by
  intro j hj s hs i hii
  have e : (fun k => (T.image ocp S).u ph k j) = fun i => ∑ k ∈ Finset.range ocp.nu, S.B j k * T.u ph i k + S.d j := rfl
  rw [e, piece_combination hM hs]
  simp only [eval_add, eval_finsetSum, eval_mul, eval_C]
  exact hi.u ph hp (fun k => (M.piece (fun i => T.u ph i k) s).eval ((M.node s i + M.node s (i + 1)) / 2))
    (fun k hk => hT k hk s hs i hii) j hj

theorem image_links (hi : ocp.Invariant S) (hT : LinksOK ocp M T) : LinksOK ocp M (T.image ocp S) := by
  obtain ⟨l1, l2, l3⟩ := hT
  refine ⟨fun k p q hk j hj => ?_, fun k p q hk j hj => ?_, l3⟩
  · have := hi.links k (List.getElem?_eq_some_iff.1 hk).1 (fun j => T.x q 0 j - T.x p (M.N - 1) j) (fun j hj => l1 k p q hk j hj) j hj
    convert this using 1
    show (∑ k ∈ Finset.range ocp.nx, S.A j k * T.x q 0 k + S.b j) - (∑ k ∈ Finset.range ocp.nx, S.A j k * T.x p (M.N - 1) k + S.b j) = _
    rw [add_sub_add_right_eq_sub, ← Finset.sum_sub_distrib]
    exact Finset.sum_congr rfl fun k _ => by ring
  · show ∑ k ∈ Finset.range ocp.nu, S.B j k * T.u q 0 k + S.d j = ∑ k ∈ Finset.range ocp.nu, S.B j k * T.u p (M.N - 1) k + S.d j
    congr 1
    exact Finset.sum_congr rfl fun i hi' => by rw [l2 k p q hk i (Finset.mem_range.1 hi')]

/-- **C115** The image of a trajectory that solves the collocated problem solves it too. Limits on control slopes are off: they are
imposed on every scaled control by itself. -/
theorem C115_solves (hi : ocp.Invariant S) (hM : M.Good)
    (hdf : ∀ ph < ocp.nPhases, ocp.diffU.getD ph false = false) (hT : SolvesOCP ocp M T) : SolvesOCP ocp M (T.image ocp S) := by
  obtain ⟨h1, h2, h3, h4, h5, h6, h7⟩ := hT.1
  refine ⟨⟨fun ph hp => image_bounds hi hp (h1 ph hp), fun ph hp => image_dynamics hi hM hp (h2 ph hp),
    fun ph hp => image_path hi hp (h3 ph hp), fun ph hp => image_terminal hi hp (h4 ph hp),
    fun ph hp hm => image_mid hi hM hp (h5 ph hp hm), fun ph hp hd j hj s hs => ?_,
    fun h => image_links hi (h7 h)⟩, fun ph hp hd => ?_⟩
  · have e : (fun k => (T.image ocp S).u ph k j) = fun i => ∑ k ∈ Finset.range ocp.nu, S.B j k * T.u ph i k + S.d j := rfl
    rw [e, piece_combination hM (by omega), piece_combination hM hs]
    simp only [derivative_add, derivative_sum, derivative_C, add_zero, derivative_C_mul, eval_finsetSum, eval_mul, eval_C]
    exact Finset.sum_congr rfl fun k hk => by rw [h6 ph hp hd k (Finset.mem_range.1 hk) s hs]
  · rw [hdf ph hp] at hd; cases hd

theorem terminalCost_image (hi : ocp.Invariant S) {ph : Nat} (hp : ph < ocp.nPhases) :
    TerminalCost ocp M (T.image ocp S) ph = TerminalCost ocp M T ph := by
  unfold TerminalCost
  rw [tArg_image]
  rcases e : ocp.terminalCosts[ph]? with _ | E
  · simp [List.getD_eq_getElem?_getD, e]
  · simp only [List.getD_eq_getElem?_getD, e, Option.getD_some]
    exact hi.cost ph hp E e _ (tArg_fits ..)

theorem samples_image (hi : ocp.Invariant S) {ph : Nat} (hp : ph < ocp.nPhases) {v : Nat → K} :
    RunningSamples ocp M (T.image ocp S) ph v ↔ RunningSamples ocp M T ph v := by
  unfold RunningSamples
  refine forall_congr' fun rc => forall_congr' fun hrc => forall_congr' fun s => forall_congr' fun i => forall_congr' fun ho => ?_
  rw [pArg_image, half_image, time_image, hi.running ph hp rc hrc _ (pArg_fits ..)]

/-- **C115** And at the same cost. -/
theorem C115_cost (hi : ocp.Invariant S) {W : List K} {J : K} : PhysCost ocp M W (T.image ocp S) J ↔ PhysCost ocp M W T J := by
  unfold PhysCost
  refine exists_congr fun v => and_congr (forall_congr' fun ph => forall_congr' fun hp => samples_image hi hp) ?_
  rw [Finset.sum_congr rfl fun ph hp => ?_]
  rw [terminalCost_image hi (Finset.mem_range.1 hp)]

theorem image_widths {req : Option (List K)} (h : WidthsAre ocp n req T) : WidthsAre ocp n req (T.image ocp S) := by
  cases req <;> exact h

/-- What is shown depends on the values of the trajectory at its nodes only. -/
theorem Post.Shows.same {p : Post K} {S T : Traj K} (h : SameOn ocp M.N M.orders.length S T) (hS : p.Shows ocp M S) :
    p.Shows ocp M T := by
  intro phases hne hph
  obtain ⟨D, h1, h2, h3, h4⟩ := hS phases hne hph
  refine ⟨D, h1, h2.trans ?_, h3.trans ?_, h4.trans ?_⟩
  · refine List.flatMap_congr fun ph hp => List.map_congr_left fun i hi => List.map_congr_left fun j hj => ?_
    rw [h.x ph (hph ph hp) i (List.mem_range.1 hi) j (List.mem_range.1 hj)]
  · refine List.flatMap_congr fun ph hp => List.map_congr_left fun i hi => List.map_congr_left fun j hj => ?_
    rw [h.u ph (hph ph hp) i (List.mem_range.1 hi) j (List.mem_range.1 hj)]
  · refine List.flatMap_congr fun ph hp => ?_
    unfold Mesh.nodeTimes
    rw [h.t0 ph (hph ph hp)]
    congr 1
    refine List.flatMap_congr fun s hs => List.map_congr_left fun i hi => ?_
    exact h.time (hph ph hp) (List.mem_range.1 hs) _

variable {w : Outside K V} {ptp : List (List Nat)} {arg : OrdersArg} {scheme : String} {a : SolveArgs K V} {rx rdx : Bool}

/-- A trajectory of least cost among those that solve the collocated problem with the requested widths. -/
structure BestTraj (w : Outside K V) (scheme : String) (ocp : OCP K) (M : Mesh K) (n : Nat) (req : Option (List K)) (T : Traj K) :
    Prop where
  solves : SolvesOCP ocp M T
  widths : WidthsAre ocp n req T
  best : ∀ W J, compQuadWeights ⟨w.method, w.tau0, w.tau1, tausFn w.lib w.tau0 w.tau1 scheme⟩ M.orders = .ok W → PhysCost ocp M W T J →
    ∀ T' J', SolvesOCP ocp M T' → WidthsAre ocp n req T' → PhysCost ocp M W T' J' → J ≤ J'

/-- **C115** Every trajectory of least cost is shown by `solve` with some solver that only returns global minimisers. -/
theorem C115_reached (hv : ValidOCP ocp) (hs : ocp.SettingsOK) (hsc : ocp.PosScales)
    (hM : MeshFor w scheme n arg M) (hn : M.orders.length = n) (hlt : w.tau0 < w.tau1)
    (hacc : w.accepts a.plugin (solverOptions w.vals a.plugin a.options) = true) (hwid : GoodWidths ocp n a.widths)
    (ht : ∀ ph < ocp.nPhases, entry ocp.t00 ph 0 0 ≠ entry ocp.tf0 ph 0 0) (hptp : ptp ≠ [])
    (hT : BestTraj w scheme ocp M n a.widths T) :
    ∃ (nlpsol : SolverCall K V → Py (List K)) (s : Session K V) (p : Post K) (r : Option (PyDict (ResidVal K))),
      (∀ c z, nlpsol c = .ok z → c.IsOptimal z) ∧ mpSolve w nlpsol ocp ptp n arg scheme a rx rdx = .ok (s, p, r) ∧
        p.Shows ocp M T := by
  classical
  obtain ⟨c, W, hWeq, hsol, hobj, hret⟩ := C52_solve_returns (ptp := ptp) (rx := rx) (rdx := rdx) hv hs hsc hM hn hlt
    hacc hwid ht hptp
  have hex : ∀ T, ∃ J, PhysCost ocp M W T J := fun T => by
    obtain ⟨v, hv⟩ := exists_samples ocp M T
    exact ⟨_, v, hv, rfl⟩
  obtain ⟨J, hJ⟩ := hex T
  have hopt : c.IsOptimal (ocp.packVec M.N T) := by
    refine ⟨(hsol _).2 ⟨T, hT.solves, hT.widths, rfl⟩, fun z hz => ?_⟩
    obtain ⟨T', h1, h2, rfl⟩ := (hsol z).1 hz
    obtain ⟨J', hJ'⟩ := hex T'
    rw [hobj T J hT.widths hJ, hobj T' J' h2 hJ']
    exact hT.best W J hWeq hJ T' J' h1 h2 hJ'
  obtain ⟨nlpsol, hsound, hval, hc⟩ : ∃ nlpsol : SolverCall K V → Py (List K), (∀ c z, nlpsol c = .ok z → c.IsOptimal z) ∧
      (∀ c z, nlpsol c = .ok z → z = ocp.packVec M.N T) ∧ nlpsol c = .ok (ocp.packVec M.N T) := by
    refine ⟨fun c => if c.IsOptimal (ocp.packVec M.N T) then .ok (ocp.packVec M.N T) else .error .assertion, fun c z h => ?_,
      fun c z h => ?_, if_pos hopt⟩ <;> dsimp only at h <;> split at h <;> cases h
    · assumption
    · rfl
  obtain ⟨⟨s, p, r⟩, hrun⟩ := hret nlpsol _ hc hopt.sol.x
  refine ⟨nlpsol, s, p, r, hsound, hrun, ?_⟩
  obtain ⟨c, z, h1, h2, h3, h4, h5, h6, h7, h8, h9, h10⟩ := mpSolve_pieces hrun hM
  obtain ⟨-, -, -, hsh⟩ := shown_of_solution hv hs hsc h2 h3 h4 h5 h6 h7 h8 h9 h10 (hsound c z h1).sol
  refine Post.Shows.same ?_ hsh
  have hw := (packWidths_iff h10).1 hT.widths
  subst h3
  have := decoded_packed h2 hv hsc T (sw := p.solved.widths) (by rw [h4, h5]; exact hw)
  rw [← hval c z h1, ← h6] at this
  exact this

/-- **C115** The image of a trajectory of least cost is one of least cost. -/
theorem C115_best (hi : ocp.Invariant S) (hM : M.Good)
    (hdf : ∀ ph < ocp.nPhases, ocp.diffU.getD ph false = false) {req : Option (List K)}
    (hT : BestTraj w scheme ocp M n req T) : BestTraj w scheme ocp M n req (T.image ocp S) := by
  refine ⟨C115_solves hi hM hdf hT.solves, image_widths hT.widths, fun W J hW hJ T' J' h1 h2 h3 => ?_⟩
  exact hT.best W J hW ((C115_cost hi).1 hJ) T' J' h1 h2 h3

/-- **C115** So optimality does not determine what `solve` shows: a trajectory of least cost and its image are both shown, each with a
solver that only returns global minimisers. -/
theorem C115_solve (hi : ocp.Invariant S) (hdf : ∀ ph < ocp.nPhases, ocp.diffU.getD ph false = false)
    (hv : ValidOCP ocp) (hs : ocp.SettingsOK) (hsc : ocp.PosScales)
    (hM : MeshFor w scheme n arg M) (hn : M.orders.length = n) (hlt : w.tau0 < w.tau1)
    (hacc : w.accepts a.plugin (solverOptions w.vals a.plugin a.options) = true) (hwid : GoodWidths ocp n a.widths)
    (ht : ∀ ph < ocp.nPhases, entry ocp.t00 ph 0 0 ≠ entry ocp.tf0 ph 0 0) (hptp : ptp ≠ [])
    (hT : BestTraj w scheme ocp M n a.widths T) :
    ∀ T' ∈ [T, T.image ocp S], ∃ (nlpsol : SolverCall K V → Py (List K)) (s : Session K V) (p : Post K)
      (r : Option (PyDict (ResidVal K))), (∀ c z, nlpsol c = .ok z → c.IsOptimal z) ∧
        mpSolve w nlpsol ocp ptp n arg scheme a rx rdx = .ok (s, p, r) ∧ p.Shows ocp M T' := by
  intro T' hT'
  refine C115_reached hv hs hsc hM hn hlt hacc hwid ht hptp ?_
  simp only [List.mem_cons, List.not_mem_nil, or_false] at hT'
  rcases hT' with rfl | rfl
  · exact hT
  · exact C115_best hi hM.good hdf hT

variable {nlpsol : SolverCall K V → Py (List K)} {s : Session K V} {p : Post K} {r : Option (PyDict (ResidVal K))}

/-- **C115** When the problem is convex, with a running cost that is strict in the controls, what is shown has the symmetry itself: the
controls are their own image at every node with a positive weight. -/
theorem C115_strict (hi : ocp.Invariant S) (hdf : ∀ ph < ocp.nPhases, ocp.diffU.getD ph false = false)
    (hrun : mpSolve w nlpsol ocp ptp n arg scheme a rx rdx = .ok (s, p, r))
    (hc : ocp.Convex) (hst : ocp.StrictInControls) (hft : ocp.FixedTimes)
    (hfwd : ∀ ph < ocp.nPhases, entry ocp.lbt0 ph 0 .nan ≠ entry ocp.lbtf ph 0 .nan)
    (hv : ValidOCP ocp) (hs : ocp.SettingsOK) (hsc : ocp.PosScales) (hM : MeshFor w scheme n arg M) (hlt : w.tau0 < w.tau1)
    (hn : M.orders.length = n)
    (hpos : ∀ W, compQuadWeights ⟨w.method, w.tau0, w.tau1, tausFn w.lib w.tau0 w.tau1 scheme⟩ M.orders = .ok W → ∀ v ∈ W, 0 ≤ v)
    (hwid : ∀ l, a.widths = some l → ∀ v ∈ l, 0 < v) (hopt : ∀ c z, nlpsol c = .ok z → c.IsLocal z) :
    ∃ T W, compQuadWeights ⟨w.method, w.tau0, w.tau1, tausFn w.lib w.tau0 w.tau1 scheme⟩ M.orders = .ok W ∧ p.Shows ocp M T ∧
      SolvesOCP ocp M T ∧ ∀ ph < ocp.nPhases, ∀ k < M.N, 0 < W.getD k 0 → ∀ j < ocp.nu, S.control ocp.nu (T.u ph k) j = T.u ph k j := by
  have hwid0 : ∀ l, a.widths = some l → ∀ v ∈ l, 0 ≤ v := fun l e v hm => (hwid l e v hm).le
  obtain ⟨T, W, J, hW, hT, hwT, hsh, hJ, hbest⟩ := C103_global hrun hc hft hv hs hsc hM hlt hn hpos hwid0 hopt
  have hnn : NonnegCost ocp M W T := ⟨by rw [hM.tau0, hM.tau1]; exact hlt, hM.weights_length hW, hpos W hW,
    fun ph hp => hft.forwards hT hp, fun ph hp s hs => hwT.nonneg hwid0 hp (hn ▸ hs)⟩
  refine ⟨T, W, hW, hsh, hT, fun ph hp k hk hwk =>
    strict_unique hc hst hM.good hv hnn hT (C115_solves hi hM.good hdf hT) ⟨fun _ _ => rfl, fun _ _ => rfl, fun _ _ _ _ => rfl⟩ hJ
      ((C115_cost hi).2 hJ) (fun L hL hLc => hbest _ L hL ?_ hLc) hp hk hwk ?_ fun s hs => ?_⟩
  · cases hreq : a.widths with
    | none => rw [hreq] at hwT; exact hwT
    | some l => rw [hreq] at hwT; exact hwT
  · obtain ⟨b, e, hbe, e1, e2, e3, e4⟩ := hft ph hp
    have hne := hfwd ph hp
    rw [e1, e3] at hne
    obtain ⟨-, -, -, t0, tf, -⟩ := hT.1.bounds ph hp
    rw [e1, e2] at t0
    rw [e3, e4] at tf
    exact (lt_of_le_of_lt t0.2 (lt_of_le_of_ne hbe fun h => hne (by rw [h]))).trans_le tf.1
  · rw [hn] at hs
    have hn0 : (0 : K) < n := by exact_mod_cast (Nat.zero_le s).trans_lt hs
    cases hreq : a.widths with
    | none =>
      rw [hreq] at hwT
      rw [hwT ph hp s hs]; positivity
    | some l =>
      rw [hreq] at hwT
      have hwT : ocp.packWidths n T = l := hwT
      refine hwid l hreq _ ?_
      rw [← hwT]
      unfold OCP.packWidths
      exact List.mem_flatMap.2 ⟨ph, List.mem_range.2 hp, List.mem_map.2 ⟨s, List.mem_range.2 hs, rfl⟩⟩

end
end MPOpt
