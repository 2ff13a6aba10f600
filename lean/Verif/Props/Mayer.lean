import Verif.Spec.Mayer
import Verif.Props.KnownRateEnd

/-!
# C90: states change by the quadrature of their rates; running costs as an additional state

With LGR nodes (orders at least 2) the quadrature weights of the objective applied to the right-hand sides of the dynamics give exactly the
change of the states. So a problem and its Mayer form have the same cost on the same plans. The Mayer form has fewer plans: the cost
state carries the extra equation of the first node of a phase.
-/

set_option autoImplicit false
set_option linter.unusedSectionVars false

namespace MPOpt
open Polynomial

variable {K : Type} [Field K] [LinearOrder K] [IsStrictOrderedRing K] {ocp : OCP K} {M : Mesh K} {T : Traj K}

theorem Mesh.idx_succ_zero {s : Nat} (hs : s < M.orders.length) : M.idx (s + 1) 0 = M.idx s (M.order s) := by
  unfold Mesh.idx
  rw [segStart_succ _ hs, Mesh.order_eq hs, Nat.add_zero]

theorem Mesh.idx_end (hne : M.orders ≠ []) :
    M.idx (M.orders.length - 1) (M.order (M.orders.length - 1)) = M.N - 1 := by
  have hl := List.length_pos_iff.2 hne
  have hs : M.orders.length - 1 < M.orders.length := by omega
  have := segStart_succ M.orders hs
  unfold Mesh.idx Mesh.N
  rw [Mesh.order_eq hs, ← this, Nat.sub_add_cancel hl]
  simp [segStart]

/-- Changes over the segments add up to the change over the phase. -/
theorem Mesh.Good.piece_changes (hM : M.Good) (x : Nat → K) :
    ∑ s ∈ Finset.range M.orders.length, ((M.piece x s).eval M.tau1 - (M.piece x s).eval M.tau0) = x (M.N - 1) - x 0 := by
  have key : ∀ n ≤ M.orders.length, ∑ s ∈ Finset.range n, ((M.piece x s).eval M.tau1 - (M.piece x s).eval M.tau0) =
      x (M.idx n 0) - x 0 := by
    intro n
    induction n with
    | zero => intro _; simp [Mesh.idx, segStart]
    | succ n ih =>
      intro hn
      have hs : n < M.orders.length := by omega
      rw [Finset.sum_range_succ, ih (by omega), Mesh.idx_succ_zero hs, ← hM.node_last hs, ← hM.node_first hs,
        hM.piece_eval_node _ hs le_rfl, hM.piece_eval_node _ hs (Nat.zero_le _)]
      ring
  have hl := List.length_pos_iff.2 hM.nonempty
  rw [key _ le_rfl, ← Mesh.idx_end hM.nonempty, ← Mesh.idx_succ_zero (by omega), Nat.sub_add_cancel hl]

section
variable {V : Type} {w : Outside K V} {n : Nat} {arg : OrdersArg} {scheme : String}

theorem MeshFor.goodNodes (hM : MeshFor w scheme n arg M) :
    GoodNodes ⟨w.method, w.tau0, w.tau1, tausFn w.lib w.tau0 w.tau1 scheme⟩ M.orders M.nodes :=
  fun p hp => ⟨hM.nodes p hp, hM.good.length p hp, hM.good.nodup p hp⟩

/-- **C90** Any scheme: the weights of the objective applied to slopes at the nodes give the change over the phase, less what the weights
dropped at the first nodes of the later segments would contribute. -/
theorem C90_defect (hM : MeshFor w scheme n arg M) (x v : Nat → K)
    (hv : ∀ s i, M.Owns s i → v (M.idx s i) = (derivative (M.piece x s)).eval (M.node s i)) :
    ∃ W, compQuadWeights ⟨w.method, w.tau0, w.tau1, tausFn w.lib w.tau0 w.tau1 scheme⟩ M.orders = .ok W ∧
      weightedSum W v = x (M.N - 1) - x 0 - ∑ s ∈ Finset.Ico 1 M.orders.length,
        (quadWeights w.method (M.nodes (M.order s)) w.tau0 w.tau1).getD 0 0 * (derivative (M.piece x s)).eval M.tau0 := by
  obtain ⟨W, hW, -, e⟩ := C07_composite_quadrature_defect ⟨w.method, w.tau0, w.tau1, tausFn w.lib w.tau0 w.tau1 scheme⟩ M.orders
    hM.good.nonempty M.nodes hM.goodNodes (M.piece x)
    (fun s hs => (natDegree_derivative_le _).trans ((Nat.sub_le _ _).trans (hM.good.piece_degrees x s hs))) (fun _ => 1) v
    (by
      intro s hs i hi ho
      have := hv s i ⟨hs, by rw [Mesh.order_eq hs]; exact hi, ho⟩
      unfold Mesh.node at this
      rw [Mesh.order_eq hs] at this
      rw [one_mul]
      exact this)
  refine ⟨W, hW, ?_⟩
  rw [e]
  have h1 := hM.good.piece_changes x
  rw [hM.tau0, hM.tau1] at h1
  rw [← h1, hM.tau0]
  congr 1
  · exact Finset.sum_congr rfl fun s _ => by rw [one_mul]
  · refine Finset.sum_congr rfl fun s hs => ?_
    have hs' : s < M.orders.length := (Finset.mem_Ico.1 hs).2
    have : ((M.nodes (M.orders.getD s 0)).getD 0 0) = w.tau0 := by
      rw [← hM.tau0, ← hM.good.node_first hs']; rfl
    rw [one_mul, this]
    rfl

/-- **C90** LGR nodes of order at least 2: nothing is lost. -/
theorem C90_lgr (hM : MeshFor w "LGR" n arg M) (hlt : w.tau0 < w.tau1) (hord : ∀ p ∈ M.orders, 2 ≤ p)
    (hj : ∀ p ∈ M.orders, IsJacobiRoots 1 0 (p - 1) (w.lib.jroots (p - 1) 1 0)) {W : List K}
    (hW : compQuadWeights ⟨w.method, w.tau0, w.tau1, tausFn w.lib w.tau0 w.tau1 "LGR"⟩ M.orders = .ok W) : M.SumsRates W := by
  intro x v hv
  obtain ⟨W', hW', e⟩ := C90_defect hM x v hv
  rw [hW] at hW'
  obtain rfl : W = W' := by injection hW'
  rw [e, sub_eq_self]
  refine Finset.sum_eq_zero fun s hs => ?_
  have hs' : s < M.orders.length := (Finset.mem_Ico.1 hs).2
  have hp := hM.good.order_mem hs'
  obtain ⟨r, hr, hz⟩ := C05_lgr_first_weight_zero w.lib w.method w.tau0 w.tau1 hlt (M.order s) (hord _ hp) (hj _ hp)
  rw [hM.nodes _ hp] at hr
  obtain rfl : M.nodes (M.order s) = r := by injection hr
  rw [List.getD_eq_getElem?_getD, ← List.head?_eq_getElem?, hz]
  simp

/-- **C90** One segment, any scheme: nothing is lost. -/
theorem C90_single (hM : MeshFor w scheme n arg M) (h1 : M.orders.length = 1) {W : List K}
    (hW : compQuadWeights ⟨w.method, w.tau0, w.tau1, tausFn w.lib w.tau0 w.tau1 scheme⟩ M.orders = .ok W) : M.SumsRates W := by
  intro x v hv
  obtain ⟨W', hW', e⟩ := C90_defect hM x v hv
  rw [hW] at hW'
  obtain rfl : W = W' := by injection hW'
  rw [e, h1]
  simp

end

/-- **C90** In a solution of the collocated problem every state changes by the quadrature of its rate. -/
theorem C90_change {W : List K} (hW : M.SumsRates W) {ph : Nat} (hC : CollocationOK ocp M T ph) {F : VFun (PArg K) K}
    (hF : ocp.dynamics[ph]? = some F) {j : Nat} (hj : j < ocp.nx) {v : Nat → K}
    (hv : ∀ s i, M.Owns s i → v (M.idx s i) = M.halfWidth T ph s *
      F.f (ocp.pArg T ph (M.idx s i) (M.time T ph s (M.node s i))) j) :
    T.x ph (M.N - 1) j - T.x ph 0 j = weightedSum W v :=
  (hW (fun k => T.x ph k j) v fun s i ho => by rw [hv s i ho, hC F hF j hj s i ho]).symm

/-! ### Mayer form -/

theorem take_range_map {α : Type} (f : Nat → α) (n : Nat) : ((List.range (n + 1)).map f).take n = (List.range n).map f := by
  rw [List.range_succ, List.map_append, List.take_left' (by simp)]

theorem mayer_pArg (ocp : OCP K) (σ : K) (T : Traj K) (ph k : Nat) (t : K) :
    ((ocp.mayer σ).pArg T ph k t).cut ocp.nx = ocp.pArg T ph k t := by
  simp only [PArg.cut, OCP.pArg, OCP.mayer, take_range_map]
  rfl

theorem mayer_tArg (ocp : OCP K) (σ : K) (T : Traj K) (ph n : Nat) :
    ((ocp.mayer σ).tArg T ph n).cut ocp.nx = ocp.tArg T ph n := by
  simp only [TArg.cut, OCP.tArg, OCP.mayer, take_range_map]
  rfl

theorem entry_snoc {α : Type} {arr : List (List α)} {r c : Nat} (h : HasShape arr r c) {i j : Nat} (hj : j < c) (e d : α) :
    entry (arr.map (· ++ [e])) i j d = entry arr i j d := by
  unfold entry
  by_cases hi : i < arr.length
  · rw [List.getD_eq_getElem (l := arr.map _) _ (by simpa using hi), List.getD_eq_getElem (l := arr) _ hi, List.getElem_map]
    have := h.2 _ (List.getElem_mem hi)
    rw [List.getD_eq_getElem _ _ (by simp; omega), List.getD_eq_getElem _ _ (by omega), List.getElem_append_left (by omega)]
  · simp [List.getElem?_eq_none (not_lt.1 hi)]

theorem entry_snoc_last {α : Type} {arr : List (List α)} {r c : Nat} (h : HasShape arr r c) {i : Nat} (hi : i < r) (e d : α) :
    entry (arr.map (· ++ [e])) i c d = e := by
  unfold entry
  have hi : i < arr.length := by rw [h.1]; exact hi
  have := h.2 _ (List.getElem_mem hi)
  rw [List.getD_eq_getElem (l := arr.map _) _ (by simpa using hi), List.getElem_map]
  rw [List.getD_eq_getElem _ _ (by simp; omega), List.getElem_append_right (by omega)]
  simp

theorem hasShape_snoc {α : Type} {arr : List (List α)} {r c : Nat} (h : HasShape arr r c) (e : α) :
    HasShape (arr.map (· ++ [e])) r (c + 1) := by
  refine ⟨by rw [List.length_map, h.1], fun row hrow => ?_⟩
  obtain ⟨l, hl, rfl⟩ := List.mem_map.1 hrow
  simp [h.2 l hl]

theorem rowOrdered_snoc {lo hi : List (List (Ext K))} {r c : Nat} (hlo : HasShape lo r c) (hhi : HasShape hi r c) {ph : Nat}
    (h : RowOrdered lo hi ph) : RowOrdered (lo.map (· ++ [.ninf])) (hi.map (· ++ [.pinf])) ph := by
  intro l u hl hu i a b ha hb
  rw [List.getElem?_map, Option.map_eq_some_iff] at hl hu
  obtain ⟨l, hl, rfl⟩ := hl
  obtain ⟨u, hu, rfl⟩ := hu
  have h1 := hlo.2 l (List.mem_of_getElem? hl)
  have h2 := hhi.2 u (List.mem_of_getElem? hu)
  by_cases hi : i < c
  · rw [List.getElem?_append_left (by omega)] at ha hb
    exact h l u hl hu i a b ha hb
  · rw [List.getElem?_append_right (by omega), h1] at ha
    rw [List.getElem?_append_right (by omega), h2] at hb
    by_cases hc : i = c
    · subst hc
      simp at ha hb
      subst ha hb
      rfl
    · rw [List.getElem?_eq_none (by simp; omega)] at ha
      cases ha

/-- The Mayer form of a valid problem is a valid problem. -/
theorem mayer_ready (hv : ValidOCP ocp) (hs : ocp.SettingsOK) (hsc : ocp.PosScales) {σ : K} (hσ : 0 < σ) :
    ValidOCP (ocp.mayer σ) ∧ (ocp.mayer σ).SettingsOK ∧ (ocp.mayer σ).PosScales := by
  refine ⟨?_, ?_, ?_⟩
  · constructor
    case phases => exact hv.phases
    case dynamics => simp [OCP.mayer, hv.dynamics, hv.runningCosts]
    case runningCosts => simp [OCP.mayer]
    case terminalCosts => simp [OCP.mayer, hv.terminalCosts]
    case pathConstraints => simp [OCP.mayer, hv.pathConstraints]
    case terminalConstraints => simp [OCP.mayer, hv.terminalConstraints]
    case dynLen =>
      intro F hF
      obtain ⟨k, hk, rfl⟩ := List.getElem_of_mem hF
      simp only [OCP.mayer, List.getElem_zipWith]
      rw [hv.dynLen _ (List.getElem_mem _)]
    case pathLen =>
      intro F hF
      obtain ⟨o, ho, e⟩ := List.mem_map.1 hF
      obtain ⟨G, rfl, rfl⟩ := Option.map_eq_some_iff.1 e
      exact hv.pathLen G ho
    case termLen =>
      intro F hF
      obtain ⟨o, ho, e⟩ := List.mem_map.1 hF
      obtain ⟨G, rfl, rfl⟩ := Option.map_eq_some_iff.1 e
      exact hv.termLen G ho
    case scaleX => simp [OCP.mayer, hv.scaleX]
    case scaleU => exact hv.scaleU
    case scaleA => exact hv.scaleA
    case x00 => exact hasShape_snoc hv.x00 _
    case xf0 => exact hasShape_snoc hv.xf0 _
    case u00 => exact hv.u00
    case uf0 => exact hv.uf0
    case a0 => exact hv.a0
    case t00 => exact hv.t00
    case tf0 => exact hv.tf0
    case lbx => exact hasShape_snoc hv.lbx _
    case ubx => exact hasShape_snoc hv.ubx _
    case lbu => exact hv.lbu
    case ubu => exact hv.ubu
    case lba => exact hv.lba
    case uba => exact hv.uba
    case lbt0 => exact hv.lbt0
    case ubt0 => exact hv.ubt0
    case lbtf => exact hv.lbtf
    case ubtf => exact hv.ubtf
    case lbe => exact hasShape_snoc hv.lbe _
    case ube => exact hasShape_snoc hv.ube _
    case ordX => exact fun ph => rowOrdered_snoc hv.lbx hv.ubx (hv.ordX ph)
    case ordU => exact hv.ordU
    case ordA => exact hv.ordA
    case ordT0 => exact hv.ordT0
    case ordTf => exact hv.ordTf
    case ordE => exact fun ph => rowOrdered_snoc hv.lbe hv.ube (hv.ordE ph)
  · exact ⟨Nat.succ_pos _, hs.diffU, hs.midu, hs.duContinuity, hs.lbdu, hs.ubdu, hs.nu, hs.links, hs.linkCount, hs.linkRange⟩
  · refine ⟨fun s hs => ?_, hsc.u, hsc.a, hsc.t⟩
    rcases List.mem_append.1 hs with h | h
    · exact hsc.x s h
    · rw [List.mem_singleton.1 h]; exact hσ

/-- The cost state of phase `ph` meets its collocation equations. -/
def CostStateOK (ocp : OCP K) (M : Mesh K) (T : Traj K) (ph : Nat) : Prop :=
  ∀ rc, ocp.runningCosts[ph]? = some rc → ∀ s i, M.Owns s i →
    (derivative (M.piece (fun k => T.x ph k ocp.nx) s)).eval (M.node s i) =
      M.halfWidth T ph s * rc (ocp.pArg T ph (M.idx s i) (M.time T ph s (M.node s i)))

theorem mayer_dynamics (hv : ValidOCP ocp) (σ : K) {ph : Nat} (hp : ph < ocp.nPhases) :
    ∃ F rc, ocp.dynamics[ph]? = some F ∧ ocp.runningCosts[ph]? = some rc ∧ (ocp.mayer σ).dynamics[ph]? = some
      ⟨F.len + 1, fun p j => if j < ocp.nx then F.f (p.cut ocp.nx) j else rc (p.cut ocp.nx)⟩ := by
  have h1 : ph < ocp.dynamics.length := by rw [hv.dynamics]; exact hp
  have h2 : ph < ocp.runningCosts.length := by rw [hv.runningCosts]; exact hp
  refine ⟨_, _, List.getElem?_eq_getElem h1, List.getElem?_eq_getElem h2, ?_⟩
  have h3 : ph < (ocp.mayer σ).dynamics.length := by simp [OCP.mayer]; omega
  rw [List.getElem?_eq_getElem h3]
  simp only [OCP.mayer, List.getElem_zipWith]

theorem mayer_collocation (hv : ValidOCP ocp) (σ : K) {ph : Nat} (hp : ph < ocp.nPhases) :
    CollocationOK (ocp.mayer σ) M T ph ↔ CollocationOK ocp M T ph ∧ CostStateOK ocp M T ph := by
  obtain ⟨F, rc, e1, e2, e3⟩ := mayer_dynamics hv σ hp
  constructor
  · intro h
    refine ⟨fun F' hF' j hj s i ho => ?_, fun rc' hrc' s i ho => ?_⟩
    · rw [e1] at hF'
      obtain rfl : F = F' := by injection hF'
      have := h _ e3 j (Nat.lt_succ_of_lt hj) s i ho
      simp only [hj, if_true, mayer_pArg] at this
      exact this
    · rw [e2] at hrc'
      obtain rfl : rc = rc' := by injection hrc'
      have := h _ e3 ocp.nx (Nat.lt_succ_self _) s i ho
      simp only [lt_irrefl, if_false, mayer_pArg] at this
      exact this
  · rintro ⟨h1, h2⟩ F' hF' j hj s i ho
    rw [e3] at hF'
    injection hF' with hF'
    rw [← hF']
    have hj : j < ocp.nx + 1 := hj
    by_cases hlt : j < ocp.nx
    · simp only [hlt, if_true, mayer_pArg]
      exact h1 F e1 j hlt s i ho
    · obtain rfl : j = ocp.nx := by omega
      simp only [lt_irrefl, if_false, mayer_pArg]
      exact h2 rc e2 s i ho

/-- A plan of the Mayer form is a plan of the problem with a cost state. -/
theorem mayer_iff (hv : ValidOCP ocp) (hs : ocp.SettingsOK) (σ : K) :
    SolvesOCP (ocp.mayer σ) M T ↔
      SolvesOCP ocp M T ∧ T.x 0 0 ocp.nx = 0 ∧ ∀ ph < ocp.nPhases, CostStateOK ocp M T ph := by
  have hpath : ∀ ph, PathOK (ocp.mayer σ) M T ph ↔ PathOK ocp M T ph := by
    intro ph
    constructor
    · intro h F hF s i ho c hc
      have := h ⟨F.len, fun p => F.f (p.cut ocp.nx)⟩ (by simp [OCP.mayer, hF]) s i ho c hc
      simpa only [mayer_pArg] using this
    · intro h F hF s i ho c hc
      have hF : (ocp.pathConstraints.map (Option.map fun F => (⟨F.len, fun p => F.f (p.cut ocp.nx)⟩ : VFun (PArg K) K)))[ph]? =
        some (some F) := hF
      rw [List.getElem?_map, Option.map_eq_some_iff] at hF
      obtain ⟨o, ho', e⟩ := hF
      obtain ⟨G, rfl, rfl⟩ := Option.map_eq_some_iff.1 e
      have := h G ho' s i ho c hc
      simpa only [mayer_pArg] using this
  have hterm : ∀ ph, TerminalOK (ocp.mayer σ) M T ph ↔ TerminalOK ocp M T ph := by
    intro ph
    constructor
    · intro h F hF c hc
      have := h ⟨F.len, fun t => F.f (t.cut ocp.nx)⟩ (by simp [OCP.mayer, hF]) c hc
      simpa only [mayer_tArg] using this
    · intro h F hF c hc
      have hF : (ocp.terminalConstraints.map (Option.map fun F => (⟨F.len, fun p => F.f (p.cut ocp.nx)⟩ : VFun (TArg K) K)))[ph]? =
        some (some F) := hF
      rw [List.getElem?_map, Option.map_eq_some_iff] at hF
      obtain ⟨o, ho', e⟩ := hF
      obtain ⟨G, rfl, rfl⟩ := Option.map_eq_some_iff.1 e
      have := h G ho' c hc
      simpa only [mayer_tArg] using this
  have hp0 := hv.phases
  constructor
  · rintro ⟨h, hd⟩
    refine ⟨⟨⟨fun ph hp => ?_, fun ph hp => ((mayer_collocation hv σ hp).1 (h.dynamics ph hp)).1, fun ph hp => (hpath ph).1 (h.path ph hp),
      fun ph hp => (hterm ph).1 (h.terminal ph hp), h.mid, h.cont, fun h2 => ?_⟩, hd⟩, ?_,
      fun ph hp => ((mayer_collocation hv σ hp).1 (h.dynamics ph hp)).2⟩
    · have b := h.bounds ph hp
      refine ⟨fun e j hj => ?_, fun i hi hne j hj => ?_, b.u, b.t0, b.tf, b.a⟩
      · have := b.x0 e j (Nat.lt_succ_of_lt hj)
        rwa [show (ocp.mayer σ).x00 = ocp.x00.map (· ++ [0]) from rfl, entry_snoc hv.x00 hj] at this
      · have := b.x i hi hne j (Nat.lt_succ_of_lt hj)
        rwa [show (ocp.mayer σ).lbx = ocp.lbx.map (· ++ [.ninf]) from rfl,
          show (ocp.mayer σ).ubx = ocp.ubx.map (· ++ [.pinf]) from rfl, entry_snoc hv.lbx hj, entry_snoc hv.ubx hj] at this
    · have l := h.links h2
      refine ⟨fun k p q e j hj => ?_, l.u, l.t⟩
      have := l.x k p q e j (Nat.lt_succ_of_lt hj)
      rwa [show (ocp.mayer σ).lbe = ocp.lbe.map (· ++ [.ninf]) from rfl,
          show (ocp.mayer σ).ube = ocp.ube.map (· ++ [.pinf]) from rfl, entry_snoc hv.lbe hj, entry_snoc hv.ube hj] at this
    · have := (h.bounds 0 hp0).x0 rfl ocp.nx (Nat.lt_succ_self _)
      rwa [show (ocp.mayer σ).x00 = ocp.x00.map (· ++ [0]) from rfl, entry_snoc_last hv.x00 hp0] at this
  · rintro ⟨⟨h, hd⟩, h0, hc⟩
    refine ⟨⟨fun ph hp => ?_, fun ph hp => (mayer_collocation hv σ hp).2 ⟨h.dynamics ph hp, hc ph hp⟩,
      fun ph hp => (hpath ph).2 (h.path ph hp), fun ph hp => (hterm ph).2 (h.terminal ph hp), h.mid, h.cont, fun h2 => ?_⟩, hd⟩
    · have b := h.bounds ph hp
      refine ⟨fun e j hj => ?_, fun i hi hne j hj => ?_, b.u, b.t0, b.tf, b.a⟩
      · have hj : j < ocp.nx + 1 := hj
        rw [show (ocp.mayer σ).x00 = ocp.x00.map (· ++ [0]) from rfl]
        by_cases hlt : j < ocp.nx
        · rw [entry_snoc hv.x00 hlt]; exact b.x0 e j hlt
        · obtain rfl : j = ocp.nx := by omega
          rw [entry_snoc_last hv.x00 hp0, h0]
      · have hj : j < ocp.nx + 1 := hj
        rw [show (ocp.mayer σ).lbx = ocp.lbx.map (· ++ [.ninf]) from rfl, show (ocp.mayer σ).ubx = ocp.ubx.map (· ++ [.pinf]) from rfl]
        by_cases hlt : j < ocp.nx
        · rw [entry_snoc hv.lbx hlt, entry_snoc hv.ubx hlt]; exact b.x i hi hne j hlt
        · obtain rfl : j = ocp.nx := by omega
          rw [entry_snoc_last hv.lbx hp, entry_snoc_last hv.ubx hp]
          exact ⟨trivial, trivial⟩
    · have l := h.links h2
      refine ⟨fun k p q e j hj => ?_, l.u, l.t⟩
      have e' : ocp.phaseLinks[k]? = some (p, q) := e
      have hj : j < ocp.nx + 1 := hj
      have hk : k < ocp.nPhases - 1 := by
        have h1 := (List.getElem?_eq_some_iff.1 e').1
        have h3 := hs.linkCount h2
        omega
      rw [show (ocp.mayer σ).lbe = ocp.lbe.map (· ++ [.ninf]) from rfl, show (ocp.mayer σ).ube = ocp.ube.map (· ++ [.pinf]) from rfl]
      by_cases hlt : j < ocp.nx
      · rw [entry_snoc hv.lbe hlt, entry_snoc hv.ube hlt]; exact l.x k p q e' j hlt
      · obtain rfl : j = ocp.nx := by omega
        rw [entry_snoc_last hv.lbe hk, entry_snoc_last hv.ube hk]
        exact ⟨trivial, trivial⟩

theorem mayer_terminal (hv : ValidOCP ocp) (σ : K) {ph : Nat} (hp : ph < ocp.nPhases) :
    TerminalCost (ocp.mayer σ) M T ph = TerminalCost ocp M T ph + (T.x ph (M.N - 1) ocp.nx - T.x ph 0 ocp.nx) := by
  have hl : ph < ocp.terminalCosts.length := by rw [hv.terminalCosts]; exact hp
  have e : (ocp.mayer σ).terminalCosts = ocp.terminalCosts.map fun c t =>
    c (t.cut ocp.nx) + (t.xf.getD ocp.nx 0 - t.x0.getD ocp.nx 0) := rfl
  have e1 : ((ocp.mayer σ).tArg T ph M.N).xf = (List.range (ocp.nx + 1)).map (T.x ph (M.N - 1)) := rfl
  have e2 : ((ocp.mayer σ).tArg T ph M.N).x0 = (List.range (ocp.nx + 1)).map (T.x ph 0) := rfl
  unfold TerminalCost
  rw [e, List.getD_eq_getElem _ _ (by simpa using hl), List.getElem_map, List.getD_eq_getElem _ _ hl, mayer_tArg, e1, e2]
  congr 1
  rw [List.getD_eq_getElem _ _ (by simp), List.getD_eq_getElem _ _ (by simp)]
  simp

/-- **C90** A plan of the Mayer form is a plan of the problem, with the same cost. -/
theorem C90_mayer_cost (hM : M.Good) (hv : ValidOCP ocp) (hs : ocp.SettingsOK) {σ : K} {W : List K} (hW : M.SumsRates W)
    (hlen : W.length = M.N) (hT : SolvesOCP (ocp.mayer σ) M T) (J : K) :
    SolvesOCP ocp M T ∧ (PhysCost (ocp.mayer σ) M W T J ↔ PhysCost ocp M W T J) := by
  obtain ⟨hT', -, hc⟩ := (mayer_iff hv hs σ).1 hT
  refine ⟨hT', ?_⟩
  obtain ⟨v, hsamp⟩ := exists_samples ocp M T
  have h1 : PhysCost ocp M W T (∑ ph ∈ Finset.range ocp.nPhases, (TerminalCost ocp M T ph + weightedSum W (v ph))) :=
    ⟨v, hsamp, rfl⟩
  have h2 : PhysCost (ocp.mayer σ) M W T (∑ ph ∈ Finset.range ocp.nPhases, (TerminalCost ocp M T ph + weightedSum W (v ph))) := by
    refine ⟨fun _ _ => 0, fun ph hp rc hrc s i ho => ?_, Finset.sum_congr rfl fun ph hp => ?_⟩
    · have hrc : (List.replicate ocp.nPhases fun _ : PArg K => (0 : K))[ph]? = some rc := hrc
      have hp : ph < ocp.nPhases := hp
      rw [List.getElem?_replicate, if_pos hp] at hrc
      injection hrc with hrc
      rw [← hrc, mul_zero]
    · have hp := Finset.mem_range.1 hp
      obtain ⟨F, rc, -, e2, -⟩ := mayer_dynamics hv σ hp
      have hch : weightedSum W (v ph) = T.x ph (M.N - 1) ocp.nx - T.x ph 0 ocp.nx :=
        hW (fun k => T.x ph k ocp.nx) (v ph) fun s i ho => by rw [hsamp ph hp rc e2 s i ho, hc ph hp rc e2 s i ho]
      have hz : weightedSum W (fun _ => (0 : K)) = 0 := by simp [weightedSum]
      rw [mayer_terminal hv σ hp, hch, hz, add_zero]
  have hrc' : (ocp.mayer σ).runningCosts.length = (ocp.mayer σ).nPhases := by simp [OCP.mayer]
  exact ⟨fun h => (h2.unique hM hlen hrc' h) ▸ h1, fun h => (h1.unique hM hlen hv.runningCosts h) ▸ h2⟩

/-- Values at owned nodes extend to all nodes. -/
theorem exists_owned (M : Mesh K) (f : Nat → Nat → K) : ∃ y : Nat → K, ∀ s i, M.Owns s i → y (M.idx s i) = f s i := by
  classical
  refine ⟨fun k => if hk : ∃ s i, M.Owns s i ∧ M.idx s i = k then f hk.choose hk.choose_spec.choose else 0, fun s i ho => ?_⟩
  have hk : ∃ s' i', M.Owns s' i' ∧ M.idx s' i' = M.idx s i := ⟨s, i, ho, rfl⟩
  beta_reduce
  rw [dif_pos hk]
  have h1 := hk.choose_spec.choose_spec
  obtain ⟨e1, e2⟩ := M.owner_unique h1.1 ho h1.2
  rw [e2, e1]

/-- Node values with given slopes exist iff the slopes at the nodes of the first segment fit a polynomial of degree below its order. -/
theorem exists_slopes (hM : M.Good) (g : Nat → Nat → K) :
    (∃ y : Nat → K, y 0 = 0 ∧ ∀ s i, M.Owns s i → (derivative (M.piece y s)).eval (M.node s i) = g s i) ↔
      ∃ q : K[X], q.natDegree < M.order 0 ∧ ∀ i ≤ M.order 0, q.eval (M.node 0 i) = g 0 i := by
  have h0 : 0 < M.orders.length := List.length_pos_iff.2 hM.nonempty
  constructor
  · rintro ⟨y, -, hy⟩
    refine ⟨derivative (M.piece y 0), ?_, fun i hi => hy 0 i ⟨h0, hi, Or.inl rfl⟩⟩
    have h1 := natDegree_derivative_le (M.piece y 0)
    have h2 := hM.piece_degrees y 0 h0
    rw [← Mesh.order_eq h0] at h2
    have := hM.order_pos h0
    omega
  · rintro ⟨q, hq, hqe⟩
    -- slopes of degree below the order on every segment
    have hex : ∀ s, ∃ Q : K[X], s < M.orders.length → Q.natDegree ≤ M.order s ∧ Q.eval M.tau0 = 0 ∧
        ∀ i, M.Owns s i → (derivative Q).eval (M.node s i) = g s i := by
      intro s
      by_cases hs : s < M.orders.length
      · have hpos := hM.order_pos hs
        have : ∃ r : K[X], r.natDegree < M.order s ∧ ∀ i, M.Owns s i → r.eval (M.node s i) = g s i := by
          rcases Nat.eq_zero_or_pos s with rfl | hs0
          · exact ⟨q, hq, fun i ho => hqe i ho.2.1⟩
          · have hinj : Set.InjOn (M.node s) (Finset.Icc 1 (M.order s) : Finset Nat) :=
              (hM.node_injOn hs).mono fun i hi => by
                have := Finset.mem_Icc.1 hi
                simpa using (show i < M.order s + 1 by omega)
            refine ⟨Lagrange.interpolate (Finset.Icc 1 (M.order s)) (M.node s) (g s), ?_, fun i ho => ?_⟩
            · have hd := Lagrange.degree_interpolate_lt (s := Finset.Icc 1 (M.order s)) (v := M.node s) (g s) hinj
              rw [Nat.card_Icc, Nat.add_sub_cancel] at hd
              by_cases hz : Lagrange.interpolate (Finset.Icc 1 (M.order s)) (M.node s) (g s) = 0
              · rw [hz, natDegree_zero]; exact hpos
              · exact (natDegree_lt_iff_degree_lt hz).2 hd
            · exact Lagrange.eval_interpolate_at_node (g s) hinj
                (Finset.mem_Icc.2 ⟨by rcases ho.2.2 with h | h <;> omega, ho.2.1⟩)
        obtain ⟨r, hr, hre⟩ := this
        obtain ⟨R, rfl, hR⟩ := exists_antiderivative r
        refine ⟨R - C (R.eval M.tau0), fun _ => ⟨?_, by simp, fun i ho => ?_⟩⟩
        · rw [natDegree_sub_C]; omega
        · rw [derivative_sub, derivative_C, sub_zero]; exact hre i ho
      · exact ⟨0, fun h => absurd h hs⟩
    choose Q hQ using hex
    set base : Nat → K := fun s => ∑ r ∈ Finset.range s, (Q r).eval M.tau1 with hbase
    obtain ⟨y, hy⟩ := exists_owned M fun s i => base s + (Q s).eval (M.node s i)
    have hall : ∀ s, s < M.orders.length → ∀ i ≤ M.order s, y (M.idx s i) = base s + (Q s).eval (M.node s i) := by
      intro s hs i hi
      by_cases ho : s = 0 ∨ 1 ≤ i
      · exact hy s i ⟨hs, hi, ho⟩
      · obtain rfl : i = 0 := by omega
        obtain ⟨s, rfl⟩ : ∃ r, s = r + 1 := ⟨s - 1, by omega⟩
        have hs' : s < M.orders.length := by omega
        rw [Mesh.idx_succ_zero hs', hy s (M.order s) ⟨hs', le_rfl, Or.inr (hM.order_pos hs')⟩, hM.node_last hs', hM.node_first hs,
          (hQ (s + 1) hs).2.1, add_zero, hbase]
        simp only
        rw [Finset.sum_range_succ]
    have hpiece : ∀ s, s < M.orders.length → M.piece y s = C (base s) + Q s := by
      intro s hs
      refine hM.piece_eq hs _ _ ?_ fun i hi => by rw [hall s hs i hi]; simp
      refine degree_le_natDegree.trans_lt ?_
      rw [natDegree_C_add]
      have := (hQ s hs).1
      exact_mod_cast (by omega : (Q s).natDegree < M.order s + 1)
    refine ⟨y, ?_, fun s i ho => ?_⟩
    · have := hall 0 h0 0 (Nat.zero_le _)
      rw [hM.node_first h0, (hQ 0 h0).2.1] at this
      simpa [hbase, Mesh.idx, segStart] using this
    · rw [hpiece s ho.1, derivative_add, derivative_C, zero_add]
      exact (hQ s ho.1).2.2 i ho

/-- **C90** Which plans of a problem the Mayer form keeps: those whose running costs at the nodes of the first segment of every phase
fit a polynomial of degree below its order. -/
theorem C90_mayer_iff (hM : M.Good) (hv : ValidOCP ocp) (hs : ocp.SettingsOK) (σ : K) :
    (∃ T', SameOn ocp M.N M.orders.length T T' ∧ SolvesOCP (ocp.mayer σ) M T') ↔ SolvesOCP ocp M T ∧ FirstCostsFit ocp M T := by
  have h0 : 0 < M.orders.length := List.length_pos_iff.2 hM.nonempty
  constructor
  · rintro ⟨T', hsame, hT'⟩
    obtain ⟨h1, -, h3⟩ := (mayer_iff hv hs σ).1 hT'
    refine ⟨hsame.symm.solves hs h1, fun ph hp rc hrc => ?_⟩
    have hy := (exists_slopes hM fun s i => M.halfWidth T ph s * rc (ocp.pArg T ph (M.idx s i) (M.time T ph s (M.node s i)))).1
      ⟨fun k => T'.x ph k ocp.nx - T'.x ph 0 ocp.nx, sub_self _, fun s i ho => ?_⟩
    · exact hy
    · have hk : M.idx s i < M.N := Mesh.idx_lt ho.1 ho.2.1
      rw [hsame.half hp ho.1, hsame.time hp ho.1, hsame.pArg hp hk, ← h3 ph hp rc hrc s i ho]
      have : M.piece (fun k => T'.x ph k ocp.nx - T'.x ph 0 ocp.nx) s =
          M.piece (fun k => T'.x ph k ocp.nx) s - C (T'.x ph 0 ocp.nx) := by
        refine hM.piece_eq ho.1 _ _ ?_ fun i hi => by rw [eval_sub, eval_C, hM.piece_eval_node _ ho.1 hi]
        refine degree_le_natDegree.trans_lt ?_
        rw [natDegree_sub_C]
        have := hM.piece_degrees (fun k => T'.x ph k ocp.nx) s ho.1
        rw [← Mesh.order_eq ho.1] at this
        exact_mod_cast (by omega : (M.piece (fun k => T'.x ph k ocp.nx) s).natDegree < M.order s + 1)
      rw [this, derivative_sub, derivative_C, sub_zero]
  · rintro ⟨hT, hfit⟩
    have hy : ∀ ph, ∃ y : Nat → K, ph < ocp.nPhases → y 0 = 0 ∧ ∀ rc, ocp.runningCosts[ph]? = some rc → ∀ s i, M.Owns s i →
        (derivative (M.piece y s)).eval (M.node s i) =
          M.halfWidth T ph s * rc (ocp.pArg T ph (M.idx s i) (M.time T ph s (M.node s i))) := by
      intro ph
      by_cases hp : ph < ocp.nPhases
      · obtain ⟨F, rc, -, e2, -⟩ := mayer_dynamics hv σ hp
        obtain ⟨y, y0, hy⟩ := (exists_slopes hM fun s i =>
          M.halfWidth T ph s * rc (ocp.pArg T ph (M.idx s i) (M.time T ph s (M.node s i)))).2 (hfit ph hp rc e2)
        refine ⟨y, fun _ => ⟨y0, fun rc' hrc' => ?_⟩⟩
        rw [e2] at hrc'
        injection hrc' with hrc'
        rw [← hrc']
        exact hy
      · exact ⟨0, fun h => absurd h hp⟩
    choose y hy using hy
    set T' : Traj K := { T with x := fun ph k j => if j = ocp.nx then y ph k else T.x ph k j } with hT'
    have hsame : SameOn ocp M.N M.orders.length T T' :=
      ⟨fun ph _ k _ j hj => by simp [hT', hj.ne], fun _ _ _ _ _ _ => rfl, fun _ _ => rfl, fun _ _ => rfl, fun _ _ _ _ => rfl,
        fun _ _ _ _ => rfl⟩
    refine ⟨T', hsame, (mayer_iff hv hs σ).2 ⟨hsame.solves hs hT, ?_, fun ph hp rc hrc s i ho => ?_⟩⟩
    · simpa [hT'] using (hy 0 hv.phases).1
    · have hk : M.idx s i < M.N := Mesh.idx_lt ho.1 ho.2.1
      rw [← hsame.half hp ho.1, ← hsame.time hp ho.1, ← hsame.pArg hp hk, ← (hy ph hp).2 rc hrc s i ho]
      simp [hT']

end MPOpt
