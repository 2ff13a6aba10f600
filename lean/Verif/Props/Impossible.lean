import Verif.Spec.Impossible
import Verif.Props.Backward
import Verif.Props.Mayer

/-! # C108: problems that have no solution have none on any mesh -/

set_option autoImplicit false
set_option linter.unusedSectionVars false

namespace MPOpt
open Polynomial

variable {M : Mesh ℝ} {ocp : OCP ℝ} {T : Traj ℝ}

theorem endsOf_meet (hM : M.Good) (hT : CoreFeasible ocp M T) (hw : ∀ ph < ocp.nPhases, Shares M T ph) :
    ocp.EndsMeet (T.endsOf M.N) := by
  have hlen : 0 < M.orders.length := List.length_pos_iff.2 hM.nonempty
  have hN : 2 ≤ M.N := by
    have h1 := hM.pos _ (hM.order_mem hlen)
    have := Mesh.idx_lt (M := M) hlen (le_refl (M.order 0))
    simp only [Mesh.idx, segStart] at this
    omega
  refine ⟨fun ph hp => ?_, fun ph hp F hF k hk => ?_, fun ph hp F hF k hk => ?_,
    fun ph hp F hF c hc => hT.terminal ph hp F hF c hc, fun h => ?_⟩
  · obtain ⟨b1, b2, b3, b4, b5, b6⟩ := hT.bounds ph hp
    refine ⟨b1, fun i hi h0 j hj => ?_, fun i hi j hj => ?_, b4, b5, b6⟩
    · rcases i with _ | i
      · exact b2 0 (by omega) (by simpa using h0) j hj
      · exact b2 (M.N - 1) (by omega) (by omega) j hj
    · rcases i with _ | i
      · exact b3 0 (by omega) j hj
      · exact b3 (M.N - 1) (by omega) j hj
  · have h := hT.path ph hp F hF 0 0 ⟨hlen, Nat.zero_le _, Or.inl rfl⟩ k hk
    have e1 : M.idx 0 0 = 0 := by simp [Mesh.idx, segStart]
    have e2 : M.time T ph 0 (M.node 0 0) = T.t0 ph := by
      rw [hM.node_first hlen]; simp [Mesh.time]
    rw [e1, e2] at h
    exact h
  · have hl : M.orders.length - 1 < M.orders.length := by omega
    have h := hT.path ph hp F hF _ _ ⟨hl, le_rfl, Or.inr (hM.pos _ (hM.order_mem hl))⟩ k hk
    have e1 : M.idx (M.orders.length - 1) (M.order (M.orders.length - 1)) = M.N - 1 := by
      simp only [Mesh.idx]
      rw [Mesh.order_eq hl, ← segStart_succ M.orders (by omega)]
      simp [Nat.sub_add_cancel hlen, Mesh.N, segStart]
    have e2 : M.time T ph (M.orders.length - 1) (M.node (M.orders.length - 1) (M.order (M.orders.length - 1))) = T.tf ph := by
      rw [hM.node_last hl, (C13_segment_ends hM T ph).2.1, Nat.sub_add_cancel hlen, (hw ph hp).sum]
      ring
    rw [e1, e2] at h
    exact h
  · obtain ⟨l1, l2, l3⟩ := hT.links h
    exact ⟨l1, l2, l3⟩

theorem CTraj.endsOf_meet {C : CTraj} (hC : SolvesContinuously ocp C) : ocp.EndsMeet C.endsOf := by
  obtain ⟨h1, h2, -, h4⟩ := CTraj.endsOf_hold hC
  exact ⟨h1, fun ph hp F hF k hk => (hC.phase ph hp).path F hF k hk _ ⟨le_rfl, (hC.phase ph hp).order.le⟩,
    fun ph hp F hF k hk => (hC.phase ph hp).path F hF k hk _ ⟨(hC.phase ph hp).order.le, le_rfl⟩, h2, h4⟩

/-! ### Contradictory ends -/

/-- **C108** If starts and ends of the phases are asked for what is contradictory, no trajectory meets the constraints that all
solver classes have in common: on no mesh, of any scheme, and for no widths that fill the phases. -/
theorem C108_blocked (hb : ocp.Blocked) (hM : M.Good) (hw : ∀ ph < ocp.nPhases, Shares M T ph) : ¬ CoreFeasible ocp M T :=
  fun hT => hb _ (endsOf_meet hM hT hw)

/-- **C108** Nor is there a solution in continuous time. -/
theorem C108_blocked_continuous (hb : ocp.Blocked) (C : CTraj) : ¬ SolvesContinuously ocp C :=
  fun hC => hb _ (CTraj.endsOf_meet hC)

/-! ### Functions that cannot fall -/

variable {c : Certificate}

/-- What does not fall in continuous time does not fall over a phase of a collocated trajectory, when no quadrature weight is
negative and the weights integrate its rate of change. -/
theorem rises_of_weights {ph : Nat} (hp : ph < ocp.nPhases) (hc : c.Rises ocp ph) (hM : M.Good) (hI : M.Inside) {W : List ℝ}
    {deg : Nat → Nat} (hW : M.Integrates W deg) (hWn : ∀ x ∈ W, 0 ≤ x) (hWl : W.length = M.N) (hv : ValidOCP ocp)
    (hprice : ∀ s < M.orders.length, ∀ j < ocp.nx, (c.price ph j).natDegree + M.order s ≤ deg s + 1)
    (hfree : ∀ s < M.orders.length, (c.free ph).natDegree ≤ deg s + 1)
    (hT : CoreFeasible ocp M T) (hw : Shares M T ph) (ht : T.t0 ph ≤ T.tf ph) :
    c.value ocp.nx ph (T.t0 ph) (T.x ph 0) ≤ c.value ocp.nx ph (T.tf ph) (T.x ph (M.N - 1)) := by
  obtain ⟨F, hF⟩ : ∃ F, ocp.dynamics[ph]? = some F := by
    have hp := hp
    rw [← hv.dynamics] at hp; exact ⟨_, List.getElem?_eq_getElem hp⟩
  obtain ⟨r, hr⟩ := M.exists_owned fun s i => M.halfWidth T ph s *
      c.rate ocp.nx ph (M.time T ph s (M.node s i)) (T.x ph (M.idx s i))
        (F.f (ocp.pArg T ph (M.idx s i) (M.time T ph s (M.node s i))))
  have hsum := rate_quadrature hM hW hw (hT.dynamics ph hp) hF hprice hfree hr
  have hpos : 0 ≤ weightedSum W r := by
    unfold weightedSum
    refine Finset.sum_nonneg fun k hk => ?_
    rw [Finset.mem_range] at hk
    rw [List.getD_eq_getElem _ _ hk]
    refine mul_nonneg (hWn _ (List.getElem_mem hk)) ?_
    obtain ⟨s, i, ho, rfl⟩ := M.exists_owner hM.nonempty (k := k) (by omega)
    rw [hr s i ho]
    refine mul_nonneg (hw.times hM hI ht ho.1).1 ?_
    refine (hc F hF _ (node_admissible hM hI (hT.bounds ph hp) (hT.path ph hp) hw ht ho)).trans (le_of_eq ?_)
    simp only [Certificate.rate]
    congr 1
    refine Finset.sum_congr rfl fun j hj => ?_
    simp only [OCP.pArg, getD_map_range _ _ _ (Finset.mem_range.1 hj)]
  linarith

variable {V : Type} {w : Outside ℝ V} {n : Nat} {arg : OrdersArg}

/-- **C108** A function of time and states that does not fall along solutions of the continuous-time problem does not fall over
a phase of a trajectory collocated at LGR nodes. -/
theorem C108_rises {ph : Nat} (hp : ph < ocp.nPhases) (hc : c.Rises ocp ph) (hv : ValidOCP ocp)
    (hM : MeshFor w "LGR" n arg M) (hlt : w.tau0 < w.tau1) (hord : ∀ q ∈ M.orders, 2 ≤ q)
    (hj : ∀ q ∈ M.orders, IsJacobiRoots 1 0 (q - 1) (w.lib.jroots (q - 1) 1 0)) (hfit : c.Fits ocp M.orders)
    (hT : CoreFeasible ocp M T) (hw : Shares M T ph) (ht : T.t0 ph ≤ T.tf ph) :
    c.value ocp.nx ph (T.t0 ph) (T.x ph 0) ≤ c.value ocp.nx ph (T.tf ph) (T.x ph (M.N - 1)) := by
  obtain ⟨W, hW⟩ : ∃ W, compQuadWeights ⟨w.method, w.tau0, w.tau1, tausFn w.lib w.tau0 w.tau1 "LGR"⟩ M.orders = .ok W := by
    obtain ⟨v, hv⟩ := M.exists_owned fun s i => (derivative (M.piece (fun _ => 0) s)).eval (M.node s i)
    obtain ⟨W, hW, -⟩ := C90_defect hM (fun _ => 0) v hv
    exact ⟨W, hW⟩
  obtain ⟨hI, hint⟩ := C57_lgr_integrates hM hlt hord hj hW
  obtain ⟨ws, rfl, hl, hpw⟩ := C67_lgr_composite w.lib w.method w.tau0 w.tau1 hlt hord hj hW
  have ho : ∀ s < M.orders.length, 2 ≤ M.order s := fun s hs => hord _ (hM.good.order_mem hs)
  refine rises_of_weights hp hc hM.good hI hint ?_ (by rw [List.length_cons, hl]; rfl) hv ?_ ?_ hT hw ht
  · intro x hx
    rcases List.mem_cons.1 hx with rfl | hx
    · exact le_rfl
    · exact (hpw x hx).le
  · intro s hs j hjx
    have h1 := (hfit ph hp _ (hM.good.order_mem hs)).1 j hjx
    have h2 := ho s hs
    omega
  · intro s hs
    have h1 := (hfit ph hp _ (hM.good.order_mem hs)).2
    have h2 := ho s hs
    omega

/-- **C108** So it is for solutions of the continuous-time problem. -/
theorem C108_rises_continuous {ph : Nat} (hp : ph < ocp.nPhases) (hc : c.Rises ocp ph) (hv : ValidOCP ocp) {C : CTraj}
    (hC : PhaseHolds ocp C ph) :
    c.value ocp.nx ph (C.t0 ph) (fun j => C.x ph j (C.t0 ph)) ≤ c.value ocp.nx ph (C.tf ph) (fun j => C.x ph j (C.tf ph)) := by
  obtain ⟨F, hF⟩ : ∃ F, ocp.dynamics[ph]? = some F := by
    rw [← hv.dynamics] at hp; exact ⟨_, List.getElem?_eq_getElem hp⟩
  have key := fall_le_integral hC.order.le (φ := fun _ => 0)
    (g := fun t => c.value ocp.nx ph t fun j => C.x ph j t)
    (g' := fun t => c.rate ocp.nx ph t (fun j => C.x ph j t) (F.f (ocp.cArg C ph t)))
    (by
      unfold Certificate.value
      refine ContinuousOn.add (continuousOn_finsetSum _ fun j hj => ?_) (Polynomial.continuous _).continuousOn
      exact (Polynomial.continuous _).continuousOn.mul (hC.dynamics.continuous j (Finset.mem_range.1 hj)))
    (by
      intro t ht
      unfold Certificate.value Certificate.rate
      refine HasDerivWithinAt.add (HasDerivWithinAt.fun_sum fun j hj => ?_) (Polynomial.hasDerivAt _ _).hasDerivWithinAt
      exact (Polynomial.hasDerivAt _ _).hasDerivWithinAt.mul
        (hC.dynamics.left F hF j (Finset.mem_range.1 hj) t ht.1 ht.2.le))
    intervalIntegrable_const
    (by
      intro t ht
      rw [zero_add]
      refine (hc F hF _ (motion_admissible hC ⟨ht.1.le, ht.2.le⟩)).trans (le_of_eq ?_)
      simp only [Certificate.rate]
      congr 1
      refine Finset.sum_congr rfl fun j hj => ?_
      simp only [OCP.cArg, getD_map_range _ _ _ (Finset.mem_range.1 hj)])
  simp only [intervalIntegral.integral_zero] at key
  linarith

/-- **C108** A refuted problem has no solution in continuous time, -/
theorem C108_refuted_continuous (hc : c.Refutes ocp) (hv : ValidOCP ocp) (C : CTraj) : ¬ SolvesContinuously ocp C := by
  intro hC
  have h1 := hc.ends _ (CTraj.endsOf_meet hC) fun ph hp => (hC.phase ph hp).order.le
  have h2 : ∑ ph ∈ Finset.range ocp.nPhases, c.value ocp.nx ph (C.endsOf.t0 ph) (C.endsOf.x ph 0) ≤
      ∑ ph ∈ Finset.range ocp.nPhases, c.value ocp.nx ph (C.endsOf.tf ph) (C.endsOf.x ph 1) := by
    refine Finset.sum_le_sum fun ph hp => ?_
    replace hp := Finset.mem_range.1 hp
    have := C108_rises_continuous hp (hc.rises ph hp) hv (hC.phase ph hp)
    exact this
  exact absurd h1 (not_lt.2 h2)

/-- **C108** and none of the trajectories collocated at LGR nodes that run forward in time meets the constraints. -/
theorem C108_refuted (hc : c.Refutes ocp) (hv : ValidOCP ocp)
    (hM : MeshFor w "LGR" n arg M) (hlt : w.tau0 < w.tau1) (hord : ∀ q ∈ M.orders, 2 ≤ q)
    (hj : ∀ q ∈ M.orders, IsJacobiRoots 1 0 (q - 1) (w.lib.jroots (q - 1) 1 0)) (hfit : c.Fits ocp M.orders)
    (ht : ocp.TimesOrdered) (hw : ∀ ph < ocp.nPhases, Shares M T ph) : ¬ CoreFeasible ocp M T := by
  intro hT
  have ht := C107_forward ht hT.bounds hT.links
  have h1 := hc.ends _ (endsOf_meet hM.good hT hw) ht
  have h2 : ∑ ph ∈ Finset.range ocp.nPhases, c.value ocp.nx ph ((T.endsOf M.N).t0 ph) ((T.endsOf M.N).x ph 0) ≤
      ∑ ph ∈ Finset.range ocp.nPhases, c.value ocp.nx ph ((T.endsOf M.N).tf ph) ((T.endsOf M.N).x ph 1) := by
    refine Finset.sum_le_sum fun ph hp => ?_
    replace hp := Finset.mem_range.1 hp
    have := C108_rises hp (hc.rises ph hp) hv hM hlt hord hj hfit hT (hw ph hp) (ht ph hp)
    exact this
  exact absurd h1 (not_lt.2 h2)

end MPOpt
