import Verif.Spec.Euler
import Verif.Props.Compare
import Verif.Props.Mayer

/-! # C100: segments of order one are Euler's method -/

set_option autoImplicit false
set_option linter.unusedSectionVars false

namespace MPOpt
open Polynomial

variable {K V : Type} [Field K] [LinearOrder K] [IsStrictOrderedRing K] {ocp : OCP K} {M : Mesh K} {T : Traj K} {n : Nat}

/-! ### The mesh -/

/-- `n` segments of order one between `lo` and `hi`. -/
def eulerMesh (n : Nat) (lo hi : K) : Mesh K := ⟨List.replicate n 1, fun _ => [lo, hi], lo, hi⟩

section
variable (ho : M.orders = List.replicate n 1)
include ho

theorem one_order {s : Nat} (hs : s < n) : M.order s = 1 := by
  simp [Mesh.order, ho, List.getD_eq_getElem?_getD, hs]

theorem one_idx {s : Nat} (hs : s ≤ n) (i : Nat) : M.idx s i = s + i := by
  simp [Mesh.idx, ho, segStart, List.take_replicate, Nat.min_eq_left hs]

theorem one_N : M.N = n + 1 := by simp [Mesh.N, ho]

theorem one_length : M.orders.length = n := by simp [ho]

/-- Nodes and their segments: the first node, and the end of every segment. -/
theorem one_owns {s i : Nat} : M.Owns s i ↔ s < n ∧ (i = 1 ∨ s = 0 ∧ i = 0) := by
  unfold Mesh.Owns
  rw [one_length ho]
  constructor
  · rintro ⟨h1, h2, h3⟩
    rw [one_order ho h1] at h2
    exact ⟨h1, by omega⟩
  · rintro ⟨h1, h2⟩
    rw [one_order ho h1]
    exact ⟨h1, by omega, by omega⟩

variable (hM : M.Good)
include hM

theorem one_node_zero {s : Nat} (hs : s < n) : M.node s 0 = M.tau0 := hM.node_first (by rw [one_length ho]; exact hs)

theorem one_node_one {s : Nat} (hs : s < n) : M.node s 1 = M.tau1 := by
  rw [← hM.node_last (by rw [one_length ho]; exact hs), one_order ho hs]

theorem one_pos (hs : 0 < n) : M.tau1 - M.tau0 ≠ 0 := by
  rw [← one_node_zero ho hM hs, ← one_node_one ho hM hs]
  intro h
  have hm : (1 : Nat) ∈ M.orders := by rw [ho]; simp; omega
  have hl := hM.length 1 hm
  have := hM.nodup 1 hm
  unfold Mesh.node at h
  rw [one_order ho hs, List.getD_eq_getElem _ _ (by omega), List.getD_eq_getElem _ _ (by omega), sub_eq_zero] at h
  have := (List.Nodup.getElem_inj_iff this).1 h
  omega

/-- The polynomial of a segment is a straight line. -/
theorem one_slope {s : Nat} (hs : s < n) (v : Nat → K) (t : K) :
    (derivative (M.piece v s)).eval t = (v (s + 1) - v s) / (M.tau1 - M.tau0) := by
  have h' : s < M.orders.length := by rw [one_length ho]; exact hs
  have hd := hM.piece_degrees v s h'
  have o1 := one_order ho hs
  have e0 := hM.piece_eval_node v h' (i := 0) (by omega)
  have e1 := hM.piece_eval_node v h' (i := 1) (by omega)
  rw [← Mesh.order_eq (M := M) h', o1] at hd
  rw [one_node_zero ho hM hs, one_idx ho hs.le] at e0
  rw [one_node_one ho hM hs, one_idx ho hs.le] at e1
  have hp := one_pos ho hM (by omega)
  rw [add_zero] at e0
  rw [← e0, ← e1]
  generalize M.piece v s = P at hd
  rw [eq_X_add_C_of_natDegree_le_one hd]
  simp only [derivative_add, derivative_C_mul, derivative_X, derivative_C, add_zero, mul_one, eval_add, eval_mul, eval_C, eval_X]
  rw [eq_div_iff hp]; ring

theorem one_half {s : Nat} (ph : Nat) : M.halfWidth T ph s = T.step ph s / (M.tau1 - M.tau0) := by
  unfold Mesh.halfWidth Traj.step; ring

theorem one_time_zero {s : Nat} (ph : Nat) : M.time T ph s M.tau0 = T.knot ph s := by
  unfold Mesh.time Traj.knot Traj.step
  rw [sub_self, mul_zero, add_zero, Finset.mul_sum]

theorem one_time_one {s : Nat} (hs : s < n) (ph : Nat) : M.time T ph s M.tau1 = T.knot ph (s + 1) := by
  unfold Mesh.time Traj.knot
  rw [one_half ho hM, div_mul_cancel₀ _ (one_pos ho hM (by omega)), Finset.sum_range_succ, Finset.mul_sum, ← add_assoc]
  rfl

/-- **C100** On segments of order one, whatever the scheme, the collocation equations are the steps of the implicit Euler method,
and for the first step the equation of the explicit method too. -/
theorem C100_dynamics (hn : 0 < n) (ph : Nat) : CollocationOK ocp M T ph ↔ EulerOK ocp n T ph := by
  have hp := one_pos ho hM hn
  have key : ∀ (d h f : K), d / (M.tau1 - M.tau0) = h / (M.tau1 - M.tau0) * f ↔ d = h * f := by
    intro d h f
    rw [div_mul_eq_mul_div, div_left_inj' hp]
  constructor
  · intro h
    refine ⟨fun F hF j hj s hs => ?_, fun F hF j hj => ?_⟩
    · have := h F hF j hj s 1 ((one_owns ho).2 ⟨hs, .inl rfl⟩)
      rw [one_slope ho hM hs, one_half ho hM, key, one_idx ho hs.le, one_node_one ho hM hs, one_time_one ho hM hs] at this
      rw [← this]; ring
    · have := h F hF j hj 0 0 ((one_owns ho).2 ⟨hn, .inr ⟨rfl, rfl⟩⟩)
      rw [one_slope ho hM hn, one_half ho hM, key, one_idx ho hn.le, one_node_zero ho hM hn, one_time_zero ho hM] at this
      have e : T.knot ph 0 = T.t0 ph := by simp [Traj.knot]
      rw [e] at this
      rw [← this]; ring
  · rintro ⟨h1, h2⟩ F hF j hj s i hi
    obtain ⟨hs, rfl | ⟨rfl, rfl⟩⟩ := (one_owns ho).1 hi
    · rw [one_slope ho hM hs, one_half ho hM, key, one_idx ho hs.le, one_node_one ho hM hs, one_time_one ho hM hs, h1 F hF j hj s hs]
      ring
    · rw [one_slope ho hM hn, one_half ho hM, key, one_idx ho hn.le, one_node_zero ho hM hn, one_time_zero ho hM, h2 F hF j hj]
      have e : T.knot ph 0 = T.t0 ph := by simp [Traj.knot]
      rw [e]
      ring

/-- **C100** The whole collocated problem on segments of order one, without polynomials. The setting `midu` adds nothing, and
`du_continuity` makes every control change by the same amount in every step, however long the steps are. -/
theorem C100_problem (hn : 0 < n) (hph : 0 < ocp.nPhases) :
    SolvesOCP ocp M T ↔ SolvesEuler ocp n (M.tau1 - M.tau0) T := by
  have hN := one_N ho
  have hN1 : M.N - 1 = n := by omega
  constructor
  · rintro ⟨h, h'⟩
    refine ⟨(h.bounds 0 hph).x0 rfl, fun ph hp i hi => (h.bounds ph hp).x i (by omega),
      fun ph hp i hi => (h.bounds ph hp).u i (by omega), fun ph hp => (h.bounds ph hp).t0, fun ph hp => (h.bounds ph hp).tf,
      fun ph hp => (h.bounds ph hp).a, fun ph hp => (C100_dynamics ho hM hn ph).1 (h.dynamics ph hp), ?_, ?_, ?_, ?_, ?_, ?_, ?_⟩
    · intro ph hp F hF k hk c hc
      obtain rfl | ⟨s, rfl⟩ : k = 0 ∨ ∃ s, k = s + 1 := by cases k <;> simp
      · have := h.path ph hp F hF 0 0 ((one_owns ho).2 ⟨hn, .inr ⟨rfl, rfl⟩⟩) c hc
        rwa [one_idx ho hn.le, one_node_zero ho hM hn, one_time_zero ho hM] at this
      · have := h.path ph hp F hF s 1 ((one_owns ho).2 ⟨hk, .inl rfl⟩) c hc
        rwa [one_idx ho (Nat.le_of_lt hk), one_node_one ho hM hk, one_time_one ho hM hk] at this
    · intro ph hp F hF c hc
      have := h.terminal ph hp F hF c hc
      rwa [hN] at this
    · intro ph hp hd j hj s hs
      have := h.cont ph hp hd j hj s (by rw [one_length ho]; exact hs)
      rwa [one_slope ho hM (by omega), one_slope ho hM hs, div_left_inj' (one_pos ho hM hn)] at this
    · intro ph hp hd j hj s hs
      have := h' ph hp hd j hj s 1 ((one_owns ho).2 ⟨hs, .inl rfl⟩)
      rwa [one_slope ho hM hs] at this
    · intro h2 k p q hk j hj
      have := (h.links h2).x k p q hk j hj
      rwa [hN1] at this
    · intro h2 k p q hk j hj
      have := (h.links h2).u k p q hk j hj
      rwa [hN1] at this
    · intro h2 k p q hk
      exact (h.links h2).t k p q hk
  · intro h
    have hu : ∀ ph < ocp.nPhases, ∀ i < M.N, ∀ j < ocp.nu,
        Within (entry ocp.lbu ph j .nan) (entry ocp.ubu ph j .nan) (T.u ph i j) := fun ph hp i hi => h.u ph hp i (by omega)
    refine ⟨⟨fun ph hp => ⟨fun e => e ▸ h.x0, fun i hi => h.x ph hp i (by omega), hu ph hp, h.t0 ph hp, h.tf ph hp, h.a ph hp⟩,
      fun ph hp => (C100_dynamics ho hM hn ph).2 (h.dynamics ph hp), ?_, ?_, ?_, ?_, fun h2 => ⟨?_, ?_, ?_⟩⟩, ?_⟩
    · intro ph hp F hF s i hi c hc
      obtain ⟨hs, rfl | ⟨rfl, rfl⟩⟩ := (one_owns ho).1 hi
      · rw [one_idx ho hs.le, one_node_one ho hM hs, one_time_one ho hM hs]
        exact h.path ph hp F hF (s + 1) hs c hc
      · rw [one_idx ho hn.le, one_node_zero ho hM hn, one_time_zero ho hM]
        exact h.path ph hp F hF 0 (Nat.zero_le _) c hc
    · intro ph hp F hF c hc
      rw [hN]; exact h.terminal ph hp F hF c hc
    · intro ph hp _ j hj s hs i hi
      have hs' : s < n := by rwa [one_length ho] at hs
      have o1 := one_order ho hs'
      obtain rfl : i = 0 := by omega
      rw [piece_mean hM hs o1, one_idx ho hs'.le, one_idx ho hs'.le]
      exact Within.mean (hu ph hp _ (by omega) j hj) (hu ph hp _ (by omega) j hj)
    · intro ph hp hd j hj s hs
      have hs' : s + 1 < n := by rwa [one_length ho] at hs
      rw [one_slope ho hM (by omega), one_slope ho hM hs', h.cont ph hp hd j hj s hs']
    · intro k p q hk j hj
      rw [hN1]; exact h.linkX h2 k p q hk j hj
    · intro k p q hk j hj
      rw [hN1]; exact h.linkU h2 k p q hk j hj
    · intro k p q hk
      exact h.linkT h2 k p q hk
    · intro ph hp hd j hj s i hi
      obtain ⟨hs, -⟩ := (one_owns ho).1 hi
      rw [one_slope ho hM hs]
      exact h.slope ph hp hd j hj s hs

end


/-! ### Costs -/

/-- The two quadrature weights of a segment of order one are equal. -/
theorem two_weights (m : Method) {r : List K} {lo hi : K} (hr : r = [lo, hi]) (hne : lo ≠ hi) {i : Nat} (hi' : i < 2) :
    (quadWeights m r lo hi).getD i 0 = (hi - lo) / 2 := by
  subst hr
  have hn : [lo, hi].Nodup := by simpa using hne
  have h1 := C05_quadrature_exact m [lo, hi] hn 1 rfl lo hi Polynomial.X (by simp) (fun _ => 1) (fun j hj => by simp)
  have hX : derivative (C (1 / 2 : K) * (Polynomial.X * Polynomial.X)) = Polynomial.X := by
    rw [derivative_C_mul, derivative_mul, derivative_X, one_mul, mul_one, ← two_mul, ← mul_assoc,
      show (2 : K[X]) = C 2 from rfl, ← C_mul]
    norm_num
  have h2 := C05_quadrature_exact m [lo, hi] hn 1 rfl lo hi (C (1 / 2) * (Polynomial.X * Polynomial.X))
    (by rw [hX]; exact natDegree_X_le) (fun j => [lo, hi].getD j 0) (fun j hj => by rw [hX, eval_X, List.getD_eq_getElem _ _ hj])
  simp only [weightedSum, length_quadWeights, List.length_cons, List.length_nil, Finset.sum_range_succ, Finset.sum_range_zero, zero_add,
    List.getD_cons_zero, List.getD_cons_succ, eval_mul, eval_C, eval_X, mul_one] at h1 h2
  have h0 : (quadWeights m [lo, hi] lo hi).getD 1 0 * (hi - lo) = (hi - lo) / 2 * (hi - lo) := by linear_combination h2 - lo * h1
  have hc := mul_right_cancel₀ (sub_ne_zero.2 hne.symm) h0
  obtain rfl | rfl : i = 0 ∨ i = 1 := by omega
  · linear_combination h1 - hc
  · exact hc

section
variable {w : Outside K V} {scheme : String} {arg : OrdersArg}

/-- **C100** All composite weights are equal on segments of order one: half the interval. With the weight of every first node but
one left out, this is half of what the implicit Euler method would add up. -/
theorem C100_weights (hM : MeshFor w scheme n arg M) (ho : M.orders = List.replicate n 1) (hn : 0 < n) {W : List K}
    (hW : compQuadWeights ⟨w.method, w.tau0, w.tau1, tausFn w.lib w.tau0 w.tau1 scheme⟩ M.orders = .ok W) :
    W = List.replicate (n + 1) ((M.tau1 - M.tau0) / 2) := by
  have hne : M.tau0 ≠ M.tau1 := fun h => one_pos ho hM.good hn (by rw [h, sub_self])
  have hm : (1 : Nat) ∈ M.orders := by rw [ho]; simp; omega
  have hr : M.nodes 1 = [M.tau0, M.tau1] := by
    have h0 := hM.good.first 1 hm
    have h1 := hM.good.last 1 hm
    have hl := hM.good.length 1 hm
    apply List.ext_getElem?
    intro i
    rcases i with _ | _ | i
    · exact h0
    · exact h1
    · rw [List.getElem?_eq_none (by omega), List.getElem?_eq_none (by simp)]
  obtain ⟨W', hW', hlen, hw0, hws⟩ := compQuadWeights_spec _ M.orders hM.good.nonempty M.nodes hM.goodNodes
  rw [hW] at hW'
  obtain rfl : W = W' := by injection hW'
  have ho0 : ∀ s < n, M.orders.getD s 0 = 1 := fun s hs => one_order ho hs
  have key : ∀ i < 2, (quadWeights w.method (M.nodes 1) w.tau0 w.tau1).getD i 0 = (M.tau1 - M.tau0) / 2 := by
    intro i hi
    rw [← hM.tau0, ← hM.tau1]
    exact two_weights w.method hr hne hi
  rw [ho0 0 hn] at hw0
  apply List.ext_getElem
  · rw [hlen, ho]; simp
  intro k hk hk'
  rw [List.getElem_replicate, ← List.getD_eq_getElem _ 0 hk]
  rcases k with _ | s
  · rw [hw0]; exact key 0 (by omega)
  · have hs : s < n := by simpa using hk'
    have hsl : s < M.orders.length := by rw [one_length ho]; exact hs
    have e : M.orders[s] = 1 := by
      have := ho0 s hs
      rwa [List.getD_eq_getElem _ _ hsl] at this
    have := hws s hsl 0 (by rw [e]; exact Nat.one_pos)
    rw [e] at this
    have hid : segStart M.orders s = s := by have := one_idx ho hs.le 0; simpa [Mesh.idx] using this
    rw [hid] at this
    rw [← key 1 (by omega), ← this]

/-- **C100** The cost of a trajectory on segments of order one. -/
theorem C100_cost (hM : MeshFor w scheme n arg M) (ho : M.orders = List.replicate n 1) (hn : 0 < n)
    (hrc : ocp.runningCosts.length = ocp.nPhases) {W : List K}
    (hW : compQuadWeights ⟨w.method, w.tau0, w.tau1, tausFn w.lib w.tau0 w.tau1 scheme⟩ M.orders = .ok W) (J : K) :
    PhysCost ocp M W T J ↔ J = ocp.eulerCost n T := by
  have hp := one_pos ho hM.good hn
  have key : ∀ v : Nat → Nat → K, (∀ ph < ocp.nPhases, RunningSamples ocp M T ph (v ph)) →
      ∑ ph ∈ Finset.range ocp.nPhases, (TerminalCost ocp M T ph + weightedSum W (v ph)) = ocp.eulerCost n T := by
    intro v hv
    unfold OCP.eulerCost
    refine Finset.sum_congr rfl fun ph hph => ?_
    have hph := Finset.mem_range.1 hph
    have hget : ocp.runningCosts[ph]? = some (ocp.runningCosts.getD ph fun _ => 0) := by
      rw [List.getD_eq_getElem _ _ (by omega), List.getElem?_eq_getElem (by omega)]
    have hs := hv ph hph _ hget
    have hend : ∀ s < n, v ph (s + 1) = T.step ph s / (M.tau1 - M.tau0) *
        ocp.runningCosts.getD ph (fun _ => 0) (ocp.pArg T ph (s + 1) (T.knot ph (s + 1))) := by
      intro s hs'
      have := hs s 1 ((one_owns ho).2 ⟨hs', .inl rfl⟩)
      rwa [one_idx ho hs'.le, one_node_one ho hM.good hs', one_time_one ho hM.good hs', one_half ho hM.good] at this
    have hfirst : v ph 0 = T.step ph 0 / (M.tau1 - M.tau0) *
        ocp.runningCosts.getD ph (fun _ => 0) (ocp.pArg T ph 0 (T.knot ph 0)) := by
      have := hs 0 0 ((one_owns ho).2 ⟨hn, .inr ⟨rfl, rfl⟩⟩)
      rwa [one_idx ho hn.le, one_node_zero ho hM.good hn, one_time_zero ho hM.good, one_half ho hM.good] at this
    rw [C100_weights hM ho hn hW]
    unfold TerminalCost OCP.stepCost weightedSum
    rw [one_N ho, List.length_replicate, Finset.sum_range_succ', hfirst]
    congr 1
    have e : ∀ k < n + 1, (List.replicate (n + 1) ((M.tau1 - M.tau0) / 2)).getD k 0 = (M.tau1 - M.tau0) / 2 := by
      intro k hk
      rw [List.getD_eq_getElem _ _ (by simpa using hk), List.getElem_replicate]
    rw [e 0 (by omega)]
    have e2 : ∀ s ∈ Finset.range n, (List.replicate (n + 1) ((M.tau1 - M.tau0) / 2)).getD (s + 1) 0 * v ph (s + 1) =
        1 / 2 * (T.step ph s * ocp.runningCosts.getD ph (fun _ => 0) (ocp.pArg T ph (s + 1) (T.knot ph (s + 1)))) := by
      intro s hs'
      have hs' := Finset.mem_range.1 hs'
      rw [e (s + 1) (by omega), hend s hs']
      field_simp
    rw [Finset.sum_congr rfl e2, ← Finset.mul_sum, mul_add, add_comm]
    congr 1
    field_simp
  constructor
  · rintro ⟨v, hv, rfl⟩
    exact key v hv
  · rintro rfl
    obtain ⟨v, hv⟩ := exists_samples ocp M T
    exact ⟨v, hv, (key v hv).symm⟩

theorem eulerMesh_good (hn : 0 < n) {lo hi : K} (h : lo ≠ hi) : (eulerMesh n lo hi).Good := by
  have : ∀ p ∈ (eulerMesh n lo hi).orders, p = 1 := fun p hp => (List.mem_replicate.1 hp).2
  refine ⟨by simp [eulerMesh]; omega, fun p hp => (this p hp).ge, fun p hp => ?_, fun p hp => ?_, fun p hp => ?_, fun p hp => ?_⟩
  all_goals rw [this p hp]
  · rfl
  · simpa [eulerMesh] using h
  · rfl
  · rfl

/-- With order one every scheme but LG, be its name known to the library or not, places its nodes at the two ends. -/
theorem eulerMesh_for (hsch : scheme ≠ "LG") (hcos : scheme = "CGL" → w.lib.cosPi 0 1 = 1 ∧ w.lib.cosPi 1 1 = -1)
    (hn : 0 < n) (h : w.tau0 ≠ w.tau1) : MeshFor w scheme n (.int 1) (eulerMesh n w.tau0 w.tau1) := by
  refine ⟨eulerMesh_good hn h, rfl, rfl, rfl, fun p hp => ?_⟩
  obtain rfl : p = 1 := (List.mem_replicate.1 hp).2
  show tausFn w.lib w.tau0 w.tau1 scheme 1 = .ok [w.tau0, w.tau1]
  unfold tausFn
  rw [if_neg hsch]
  split
  · rfl
  split
  · rfl
  split
  · rename_i hc
    obtain ⟨h0, h1⟩ := hcos hc
    simp [cglRoots, List.range_succ, h0, h1, rescale]
    ring
  · rfl

section
variable {nlpsol nlpsol' : SolverCall K V → Py (List K)} {ptp ptp' : List (List Nat)} {a a' : SolveArgs K V} {rx rdx rx' rdx' : Bool}
  {s s' : Session K V} {p p' : Post K} {r r' : Option (PyDict (ResidVal K))} {scheme' : String}

/-- **C100** With `poly_orders=1` and a solver that returns a global minimiser, `solve` shows the solution of the problem with
Euler's method for which terminal cost plus half the running cost is least. -/
theorem C100_solve (hrun : mpSolve w nlpsol ocp ptp n (.int 1) scheme a rx rdx = .ok (s, p, r))
    (hv : ValidOCP ocp) (hs : ocp.SettingsOK) (hsc : ocp.PosScales) (hsch : scheme ≠ "LG")
    (hcos : scheme = "CGL" → w.lib.cosPi 0 1 = 1 ∧ w.lib.cosPi 1 1 = -1) (hn : 0 < n) (h : w.tau0 ≠ w.tau1)
    (hopt : ∀ c z, nlpsol c = .ok z → c.IsOptimal z) :
    ∃ T, SolvesEuler ocp n (w.tau1 - w.tau0) T ∧ WidthsAre ocp n a.widths T ∧ p.Shows ocp (eulerMesh n w.tau0 w.tau1) T ∧
      ∀ T', SolvesEuler ocp n (w.tau1 - w.tau0) T' → WidthsAre ocp n a.widths T' → ocp.eulerCost n T ≤ ocp.eulerCost n T' := by
  have hM := eulerMesh_for (n := n) hsch hcos hn h
  obtain ⟨T, W, J, hW, h1, h2, h3, h4, h5⟩ := C53_solve_optimal hrun hv hs hsc hM hopt
  rw [C100_cost hM rfl hn hv.runningCosts hW] at h4
  refine ⟨T, (C100_problem rfl hM.good hn hv.phases).1 h1, h2, h3, fun T' h1' h2' => ?_⟩
  rw [← h4]
  exact h5 T' _ ((C100_problem rfl hM.good hn hv.phases).2 h1') h2' ((C100_cost hM rfl hn hv.runningCosts hW _).2 rfl)

/-- **C100** So with order one the choice of the scheme does not matter: runs for the same widths show trajectories of equal cost. -/
theorem C100_schemes (hrun : mpSolve w nlpsol ocp ptp n (.int 1) scheme a rx rdx = .ok (s, p, r))
    (hrun' : mpSolve w nlpsol' ocp ptp' n (.int 1) scheme' a' rx' rdx' = .ok (s', p', r')) (hww : a.widths = a'.widths)
    (hv : ValidOCP ocp) (hs : ocp.SettingsOK) (hsc : ocp.PosScales) (hsch : scheme ≠ "LG") (hsch' : scheme' ≠ "LG")
    (hcos : w.lib.cosPi 0 1 = 1 ∧ w.lib.cosPi 1 1 = -1) (hn : 0 < n) (h : w.tau0 ≠ w.tau1)
    (hopt : ∀ c z, nlpsol c = .ok z → c.IsOptimal z) (hopt' : ∀ c z, nlpsol' c = .ok z → c.IsOptimal z) :
    ∃ T T', SolvesEuler ocp n (w.tau1 - w.tau0) T ∧ SolvesEuler ocp n (w.tau1 - w.tau0) T' ∧
      p.Shows ocp (eulerMesh n w.tau0 w.tau1) T ∧ p'.Shows ocp (eulerMesh n w.tau0 w.tau1) T' ∧
      ocp.eulerCost n T = ocp.eulerCost n T' := by
  obtain ⟨T, a1, a2, a3, a4⟩ := C100_solve hrun hv hs hsc hsch (fun _ => hcos) hn h hopt
  obtain ⟨T', b1, b2, b3, b4⟩ := C100_solve hrun' hv hs hsc hsch' (fun _ => hcos) hn h hopt'
  exact ⟨T, T', a1, b1, a3, b3, le_antisymm (a4 T' b1 (hww ▸ b2)) (b4 T a1 (hww ▸ a2))⟩

end

end

end MPOpt
