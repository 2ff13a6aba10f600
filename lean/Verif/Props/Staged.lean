import Verif.Spec.Staged
import Verif.Props.KnownRateEnd
import Verif.Props.Certificate
import Verif.Props.Consistency

/-! # C109: quantities with known rates and drops are exact on every mesh -/

set_option autoImplicit false
set_option linter.unusedSectionVars false

namespace MPOpt
open Polynomial

variable {M : Mesh ℝ} {ocp : OCP ℝ} {T : Traj ℝ} {j : Nat} {rate drop : Nat → ℝ}

theorem pick_sum {n j : Nat} (hj : j < n) (f : Nat → ℝ) :
    ∑ i ∈ Finset.range n, (if i = j then (1 : ℝ) else 0) * f i = f j := by
  rw [Finset.sum_eq_single j (fun i _ hi => by simp [hi]) (fun h => absurd (Finset.mem_range.2 hj) h)]
  simp

/-- In one phase. -/
theorem staged_phase (h : ocp.Staged j rate drop) (hM : M.Good) {ph : Nat} (hp : ph < ocp.nPhases)
    (hC : CollocationOK ocp M T ph) :
    (∀ s < M.orders.length, ∀ tau, (M.piece (fun k => T.x ph k j) s).eval tau =
      T.x ph 0 j + rate ph * (M.time T ph s tau - T.t0 ph)) ∧
    ((∑ r ∈ Finset.range M.orders.length, T.w r ph) = 1 →
      T.x ph (M.N - 1) j = T.x ph 0 j + rate ph * (T.tf ph - T.t0 ph)) := by
  obtain ⟨F, hF⟩ : ∃ F, ocp.dynamics[ph]? = some F := ⟨_, List.getElem?_eq_getElem (h.given ph hp)⟩
  have hd : derivative (C (rate ph) * X : ℝ[X]) = C (rate ph) := by simp
  have hr : KnownRate F ocp.nx (fun i => if i = j then 1 else 0) (derivative (C (rate ph) * X)) := by
    intro p _
    rw [hd, eval_C, pick_sum h.state]
    exact h.rates ph F hF p
  have hdeg : ∀ p ∈ M.orders, (derivative (C (rate ph) * X : ℝ[X])).natDegree < p := by
    intro p hq
    rw [hd, natDegree_C]
    exact hM.pos p hq
  refine ⟨fun s hs tau => ?_, fun hw => ?_⟩
  · have := C89_exact hM hC hF hr.along hdeg hs tau
    rw [pick_sum h.state, Traj.mode, pick_sum h.state] at this
    rw [this]
    simp only [eval_mul, eval_C, eval_X]
    ring
  · have := (C89_nodes hM hC hF hr hdeg).2 hw
    rw [Traj.mode, Traj.mode, pick_sum h.state, pick_sum h.state] at this
    rw [this]
    simp only [eval_mul, eval_C, eval_X]
    ring

theorem within_fin {a v : ℝ} {l u : Ext ℝ} (hl : l = .fin a) (hu : u = .fin a) (h : Within l u v) : v = a := by
  rw [hl, hu] at h
  have h : a ≤ v ∧ v ≤ a := by simpa [Within, Ext.Below, Ext.Above] using h
  exact le_antisymm h.2 h.1

/-- **C109** On every good mesh, for any scheme, orders and widths that fill the phases, the quantity is at every node, and
between the nodes, exactly what burning and dropping leave of it; and so at the end of every phase. -/
theorem C109_exact (h : ocp.Staged j rate drop) (hM : M.Good) (hT : CoreFeasible ocp M T)
    (hw : ∀ ph < ocp.nPhases, ∑ r ∈ Finset.range M.orders.length, T.w r ph = 1) (h0 : 0 < ocp.nPhases) :
    ∀ ph < ocp.nPhases,
      T.x ph 0 j = leftAt (entry ocp.x00 0 j 0) rate drop T.t0 T.tf ph ∧
      (∀ s < M.orders.length, ∀ tau, (M.piece (fun k => T.x ph k j) s).eval tau =
        leftAt (entry ocp.x00 0 j 0) rate drop T.t0 T.tf ph + rate ph * (M.time T ph s tau - T.t0 ph)) ∧
      T.x ph (M.N - 1) j = leftAt (entry ocp.x00 0 j 0) rate drop T.t0 T.tf ph + rate ph * (T.tf ph - T.t0 ph) := by
  have start : ∀ ph, ph < ocp.nPhases → T.x ph 0 j = leftAt (entry ocp.x00 0 j 0) rate drop T.t0 T.tf ph := by
    intro ph
    induction ph with
    | zero =>
      intro _
      rw [(hT.bounds 0 h0).x0 rfl j h.state]
      simp [leftAt]
    | succ ph ih =>
      intro hp
      obtain ⟨k, hk, hl, hu⟩ := h.chain ph hp
      have h1 := within_fin hl hu ((hT.links (by omega)).x k ph (ph + 1) hk j h.state)
      have h2 := (staged_phase h hM (by omega : ph < ocp.nPhases) (hT.dynamics ph (by omega))).2 (hw ph (by omega))
      rw [ih (by omega)] at h2
      rw [leftAt, Finset.sum_range_succ, ← add_assoc, ← leftAt]
      linarith
  intro ph hp
  obtain ⟨h1, h2⟩ := staged_phase h hM hp (hT.dynamics ph hp)
  rw [start ph hp] at h1 h2
  exact ⟨start ph hp, h1, h2 (hw ph hp)⟩

/-- **C109** The same holds along every solution of the continuous-time problem: the collocated problem and the problem the
user posed agree about the quantity as a function of the times. -/
theorem C109_continuous (h : ocp.Staged j rate drop) {C : CTraj} (hC : SolvesContinuously ocp C) (h0 : 0 < ocp.nPhases) :
    ∀ ph < ocp.nPhases, ∀ t ∈ Set.Icc (C.t0 ph) (C.tf ph),
      C.x ph j t = leftAt (entry ocp.x00 0 j 0) rate drop C.t0 C.tf ph + rate ph * (t - C.t0 ph) := by
  have phase : ∀ ph < ocp.nPhases, ∀ t ∈ Set.Icc (C.t0 ph) (C.tf ph),
      C.x ph j t = C.x ph j (C.t0 ph) + rate ph * (t - C.t0 ph) := by
    intro ph hp t ht
    obtain ⟨F, hF⟩ : ∃ F, ocp.dynamics[ph]? = some F := ⟨_, List.getElem?_eq_getElem (h.given ph hp)⟩
    have hd := (hC.phase ph hp).dynamics
    have := left_mvt (f := fun r => C.x ph j r - rate ph * r) (f' := fun _ => 0) (c := 0) ht.1
      (((hd.continuous j h.state).mono (Set.Icc_subset_Icc le_rfl ht.2)).sub (by fun_prop)) (fun r h1 h2 => by
        have e1 := hd.left F hF j h.state r h1 (h2.trans ht.2)
        rw [h.rates ph F hF] at e1
        have e2 : HasDerivWithinAt (fun r : ℝ => rate ph * r) (rate ph) (Set.Iic r) r := by
          simpa using ((hasDerivAt_id r).const_mul (rate ph)).hasDerivWithinAt
        have e3 := e1.sub e2
        rw [sub_self] at e3
        exact e3) (fun _ _ _ => by simp)
    have := abs_nonpos_iff.1 (this.trans_eq (zero_mul _))
    linarith
  have start : ∀ ph, ph < ocp.nPhases → C.x ph j (C.t0 ph) = leftAt (entry ocp.x00 0 j 0) rate drop C.t0 C.tf ph := by
    intro ph
    induction ph with
    | zero =>
      intro _
      rw [(hC.phase 0 h0).x0 rfl j h.state]
      simp [leftAt]
    | succ ph ih =>
      intro hp
      obtain ⟨k, hk, hl, hu⟩ := h.chain ph hp
      have h1 := within_fin hl hu (hC.linkX k ph (ph + 1) hk j h.state)
      have h2 := phase ph (by omega) (C.tf ph) ⟨(hC.phase ph (by omega)).order.le, le_rfl⟩
      rw [ih (by omega)] at h2
      rw [leftAt, Finset.sum_range_succ, ← add_assoc, ← leftAt]
      linarith
  intro ph hp t ht
  rw [phase ph hp t ht, start ph hp]

/-- Without running costs the cost is the sum of the terminal costs. -/
theorem cost_of_ends (hM : M.Good) {W : List ℝ} (hW : W.length = M.N) {J : ℝ}
    (hrc : ∀ ph < ocp.nPhases, ∃ rc, ocp.runningCosts[ph]? = some rc ∧ ∀ p, rc p = 0) (hJ : PhysCost ocp M W T J) :
    J = ∑ ph ∈ Finset.range ocp.nPhases, TerminalCost ocp M T ph := by
  obtain ⟨v, hv, rfl⟩ := hJ
  refine Finset.sum_congr rfl fun ph hp => ?_
  have hp := Finset.mem_range.1 hp
  obtain ⟨rc, e1, e2⟩ := hrc ph hp
  have hz : ∀ k < M.N, v ph k = 0 := by
    intro k hk
    obtain ⟨s, i, ho, rfl⟩ := M.exists_owner hM.nonempty hk
    rw [hv ph hp rc e1 s i ho, e2, mul_zero]
  have : weightedSum W (v ph) = 0 := by
    unfold weightedSum
    exact Finset.sum_eq_zero fun k hk => by rw [hz k (by rw [← hW]; exact Finset.mem_range.1 hk), mul_zero]
  rw [this, add_zero]

end MPOpt
