import Verif.Lemmas.Order
import Verif.Props.Nodes
import Verif.Props.Validate

/-! # C43: constructing the optimiser establishes a good mesh for every working scheme -/

set_option autoImplicit false
set_option linter.unusedSectionVars false

namespace MPOpt
open Polynomial

variable {K : Type} [Field K] [LinearOrder K] [IsStrictOrderedRing K]

/-- Nodes of every order used span `[lo, hi]`: construction succeeds on that mesh. -/
theorem mkDisc_onMesh (lib : NodeLib K) (m : Method) (lo hi : K) (ocp : OCP K) (n : Nat)
    (orders : List Nat) (scheme : String) (hlen : orders.length = n) (hne : orders ≠ [])
    (hpos : ∀ p ∈ orders, 1 ≤ p)
    (hR : ∀ p ∈ orders, ∃ r, tausFn lib lo hi scheme p = .ok r ∧ NodesSpan lo hi p r) :
    ∃ (d : Disc K) (M : Mesh K), mkDisc lib m lo hi ocp n orders scheme = .ok d ∧ d.OnMesh M ∧
      d.ocp = ocp ∧ d.orders = orders ∧ d.nSegments = n ∧ M.orders = orders ∧ M.tau0 = lo ∧
      M.tau1 = hi ∧ ∀ p ∈ orders, NodesSpan lo hi p (M.nodes p) := by
  have hR' : ∀ p, ∃ r, p ∈ orders → tausFn lib lo hi scheme p = .ok r ∧ NodesSpan lo hi p r := by
    intro p
    by_cases hp : p ∈ orders
    · obtain ⟨r, hr⟩ := hR p hp; exact ⟨r, fun _ => hr⟩
    · exact ⟨[], fun h => absurd h hp⟩
  choose R hR' using hR'
  let c : Colloc K := ⟨m, lo, hi, tausFn lib lo hi scheme⟩
  have hnd : ∀ p ∈ orders, (R p).Nodup := fun p hp =>
    ((hR' p hp).2.sorted).imp fun h => ne_of_lt h
  have hG : GoodNodes c orders R := fun p hp => ⟨(hR' p hp).1, (hR' p hp).2.length, hnd p hp⟩
  obtain ⟨D, hD, -⟩ := C06_composite_diff c orders R hG 1 (Or.inl rfl) (fun _ => 0)
    (fun s hs => by simp) (fun _ => 0) (fun s hs i hi => by simp)
  obtain ⟨W, hW, -⟩ := compQuadWeights_spec c orders hne R hG
  have hmk : mkColloc lib m lo hi orders scheme = .ok c := by
    have e := mapM_ok (tausFn lib lo hi scheme) R orders fun p hp => (hR' p hp).1
    simp only [mkColloc, e, py_bind_ok]
    rfl
  refine ⟨⟨ocp, n, orders, c, D, W⟩, ⟨orders, R, lo, hi⟩, ?_, ?_, rfl, rfl, rfl, rfl, rfl, rfl,
    fun p hp => (hR' p hp).2⟩
  · unfold mkDisc
    simp only [hlen, beq_self_eq_true, pyAssert, if_true, py_bind_ok, hmk, hD, hW]
    rfl
  · refine ⟨⟨hne, hpos, fun p hp => (hR' p hp).2.length, hnd, fun p hp => ?_, fun p hp => ?_⟩, rfl,
      rfl, rfl, fun p hp => (hR' p hp).1, hlen, hD, hW⟩
    · rw [← List.head?_eq_getElem?]; exact (hR' p hp).2.first
    · have h1 := (hR' p hp).2.last
      rw [List.getLast?_eq_getElem?, (hR' p hp).2.length] at h1
      exact h1

/-- **C43** An integer order is used for each segment; a list is accepted iff it has one entry per
segment, and `AssertionError` is raised otherwise; the number of nodes is the sum of orders plus one. -/
theorem C43_orders (n : Nat) :
    (∀ p, initOrders n (.int p) = .ok (List.replicate n p, n * p + 1)) ∧
    (∀ l, l.length = n → initOrders n (.list l) = .ok (l, l.sum + 1)) ∧
    (∀ l, l.length ≠ n → initOrders n (.list l) = .error .assertion) := by
  refine ⟨fun p => ?_, fun l hl => ?_, fun l hl => ?_⟩
  · simp [initOrders, pyAssert]
  · simp [initOrders, pyAssert, hl]
  · have : (l.length == n) = false := by simpa using hl
    simp [initOrders, pyAssert, this]

example : initOrders 2 (.list [3, 4]) = .ok ([3, 4], 8) := rfl
example : initOrders 2 (.list [3]) = .error .assertion := rfl

/-- **C43** A list of the wrong length never yields a discretisation. -/
theorem C43_wrong_length (lib : NodeLib K) (m : Method) (lo hi : K) (ocp : OCP K) (n : Nat)
    (orders : List Nat) (scheme : String) (h : orders.length ≠ n) :
    mkDisc lib m lo hi ocp n orders scheme = .error .assertion := by
  have : (orders.length == n) = false := by simpa using h
  simp only [mkDisc, pyAssert, this, Bool.false_eq_true, if_false]
  rfl

/-- **C46** The advertised number of variables per phase is the length of the variable vector iff there
are no parameters or just one phase. -/
theorem C46_vars_per_phase_iff (d : Disc K) (ph : Nat) :
    d.varsPerPhase = (d.phaseVars ph).length ↔ d.ocp.na = 0 ∨ d.ocp.nPhases = 1 := by
  rw [Disc.length_phaseVars]
  unfold Disc.varsPerPhase
  constructor
  · intro h
    have h : d.ocp.nPhases * d.ocp.na = 1 * d.ocp.na := by omega
    rcases Nat.eq_zero_or_pos d.ocp.na with h0 | h0
    · exact Or.inl h0
    · exact Or.inr (Nat.eq_of_mul_eq_mul_right h0 h)
  · rintro (h | h)
    · simp [h]
    · simp [h]; omega

/-- **C43** LGR: every list of `n ≥ 1` positive orders gives a working discretisation. -/
theorem C43_lgr_setup (lib : NodeLib K) (m : Method) (lo hi : K) (hlt : lo < hi) (ocp : OCP K)
    (orders : List Nat) (hne : orders ≠ []) (hpos : ∀ p ∈ orders, 1 ≤ p)
    (hj : ∀ p ∈ orders, 2 ≤ p → IsJacobiRoots 1 0 (p - 1) (lib.jroots (p - 1) 1 0)) :
    ∃ (d : Disc K) (M : Mesh K), mkDisc lib m lo hi ocp orders.length orders "LGR" = .ok d ∧
      d.OnMesh M ∧ d.ocp = ocp ∧ M.orders = orders ∧ M.tau0 = lo ∧ M.tau1 = hi ∧
      ∀ p ∈ orders, NodesSpan lo hi p (M.nodes p) := by
  obtain ⟨d, M, h1, h2, h3, -, -, h4⟩ := mkDisc_onMesh lib m lo hi ocp _ orders "LGR" rfl hne hpos
    fun p hp => C01_lgr_nodes lib lo hi hlt p (hpos p hp) (hj p hp)
  exact ⟨d, M, h1, h2, h3, h4⟩

/-- **C43** LGL. -/
theorem C43_lgl_setup (lib : NodeLib K) (m : Method) (lo hi : K) (hlt : lo < hi) (ocp : OCP K)
    (orders : List Nat) (hne : orders ≠ []) (hpos : ∀ p ∈ orders, 1 ≤ p)
    (hj : ∀ p ∈ orders, 2 ≤ p → IsJacobiRoots 1 1 (p - 1) (lib.jroots (p - 1) 1 1)) :
    ∃ (d : Disc K) (M : Mesh K), mkDisc lib m lo hi ocp orders.length orders "LGL" = .ok d ∧
      d.OnMesh M ∧ d.ocp = ocp ∧ M.orders = orders ∧ M.tau0 = lo ∧ M.tau1 = hi ∧
      ∀ p ∈ orders, NodesSpan lo hi p (M.nodes p) := by
  obtain ⟨d, M, h1, h2, h3, -, -, h4⟩ := mkDisc_onMesh lib m lo hi ocp _ orders "LGL" rfl hne hpos
    fun p hp => C01_lgl_nodes lib lo hi hlt p (hpos p hp) (hj p hp)
  exact ⟨d, M, h1, h2, h3, h4⟩

/-- **C43** CGL. -/
theorem C43_cgl_setup (lib : NodeLib ℝ) (hc : IsCosine lib) (m : Method) (lo hi : ℝ) (hlt : lo < hi)
    (ocp : OCP ℝ) (orders : List Nat) (hne : orders ≠ []) (hpos : ∀ p ∈ orders, 1 ≤ p) :
    ∃ (d : Disc ℝ) (M : Mesh ℝ), mkDisc lib m lo hi ocp orders.length orders "CGL" = .ok d ∧
      d.OnMesh M ∧ d.ocp = ocp ∧ M.orders = orders ∧ M.tau0 = lo ∧ M.tau1 = hi ∧
      ∀ p ∈ orders, NodesSpan lo hi p (M.nodes p) := by
  obtain ⟨d, M, h1, h2, h3, -, -, h4⟩ := mkDisc_onMesh lib m lo hi ocp _ orders "CGL" rfl hne hpos
    fun p hp => C01_cgl_nodes lib hc lo hi hlt p (hpos p hp)
  exact ⟨d, M, h1, h2, h3, h4⟩

/-- A concrete discretisation: `ocpQ` on two segments of orders 1 and 2, scheme LGR on `[-1, 1]`
(nodes `-1, 1` and `-1, -1/3, 1`). -/
theorem exampleDisc : ∃ (d : Disc ℚ) (M : Mesh ℚ),
    mkDisc libQ .numerical (-1) 1 ocpQ 2 [1, 2] "LGR" = .ok d ∧ d.OnMesh M ∧ d.ocp = ocpQ ∧
      M.orders = [1, 2] := by
  obtain ⟨d, M, h1, h2, h3, h4, -⟩ := C43_lgr_setup libQ .numerical (-1) 1 (by norm_num) ocpQ [1, 2]
    (by simp) (by simp) (by
      intro p hp h2
      simp only [List.mem_cons, List.not_mem_nil, or_false] at hp
      rcases hp with rfl | rfl
      · omega
      · exact libQ_lgr2)
  exact ⟨d, M, h1, h2, h3, h4⟩

/-- `ocpQ` meets the other hypotheses of the transcription theorems. -/
theorem ocpQ_ready : ValidOCP ocpQ ∧ ocpQ.SettingsOK ∧ ocpQ.PosScales := by
  refine ⟨(C40_validate_iff _).1 (by decide +kernel), ⟨by decide, rfl, rfl, rfl, rfl, rfl, by decide,
    by decide, by decide, by decide⟩, ⟨?_, ?_, ?_, by norm_num [ocpQ]⟩⟩ <;> simp [ocpQ]

end MPOpt
