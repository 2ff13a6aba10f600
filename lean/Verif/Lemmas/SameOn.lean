import Verif.Props.PostProcess
import Verif.Spec.Adaptive

/-! # Feasibility and cost only depend on what the discretised problem can see -/

set_option autoImplicit false
set_option linter.unusedSectionVars false

namespace MPOpt
open Polynomial
variable {K : Type} [Field K] [LinearOrder K] {ocp : OCP K} {M : Mesh K} {S T : Traj K}

theorem SameOn.symm {n m : Nat} (h : SameOn ocp n m S T) : SameOn ocp n m T S :=
  ⟨fun a b c d e f => (h.x a b c d e f).symm, fun a b c d e f => (h.u a b c d e f).symm,
    fun a b => (h.t0 a b).symm, fun a b => (h.tf a b).symm, fun a b c d => (h.a a b c d).symm,
    fun a b c d => (h.w a b c d).symm⟩

theorem Mesh.piece_congr {v v' : Nat → K} {s : Nat} (hs : s < M.orders.length)
    (h : ∀ k < M.N, v k = v' k) : M.piece v s = M.piece v' s := by
  unfold Mesh.piece
  apply Lagrange.interpolate_eq_of_values_eq_on
  intro i hi
  exact h _ (Mesh.idx_lt hs (by simp at hi; omega))

variable (h : SameOn ocp M.N M.orders.length S T) {ph : Nat} (hph : ph < ocp.nPhases)
include h hph

theorem SameOn.half {s : Nat} (hs : s < M.orders.length) : M.halfWidth S ph s = M.halfWidth T ph s := by
  unfold Mesh.halfWidth
  rw [h.t0 ph hph, h.tf ph hph, h.w ph hph s hs]

theorem SameOn.time {s : Nat} (hs : s < M.orders.length) (tau : K) :
    M.time S ph s tau = M.time T ph s tau := by
  unfold Mesh.time
  rw [h.half hph hs, h.t0 ph hph, h.tf ph hph]
  have : ∑ r ∈ Finset.range s, S.w r ph = ∑ r ∈ Finset.range s, T.w r ph := by
    apply Finset.sum_congr rfl
    intro r hr
    exact h.w ph hph r (by have := Finset.mem_range.1 hr; omega)
  rw [this]

theorem SameOn.aArg : (if ocp.na = 0 then none else some ((List.range ocp.na).map (S.a ph))) =
    if ocp.na = 0 then none else some ((List.range ocp.na).map (T.a ph)) := by
  rw [List.map_congr_left fun k hk => h.a ph hph k (by simpa using hk)]

theorem SameOn.pArg {k : Nat} (hk : k < M.N) (t : K) : ocp.pArg S ph k t = ocp.pArg T ph k t := by
  unfold OCP.pArg
  rw [h.aArg hph, List.map_congr_left fun j hj => h.x ph hph k hk j (by simpa using hj),
    List.map_congr_left fun j hj => h.u ph hph k hk j (by simpa using hj)]

theorem SameOn.tArg : ocp.tArg S ph M.N = ocp.tArg T ph M.N := by
  have hN : 0 < M.N := by unfold Mesh.N; omega
  unfold OCP.tArg
  rw [h.aArg hph, h.t0 ph hph, h.tf ph hph,
    List.map_congr_left fun j hj => h.x ph hph (M.N - 1) (by omega) j (by simpa using hj),
    List.map_congr_left fun j hj => h.x ph hph 0 hN j (by simpa using hj)]

theorem SameOn.slopeBounded {sc : Nat → K} (hS : SlopeBounded ocp M S sc ph) :
    SlopeBounded ocp M T sc ph := by
  intro j hj s i ho
  rw [← Mesh.piece_congr ho.1 fun k hk => h.u ph hph k hk j hj]
  exact hS j hj s i ho

theorem SameOn.runningSamples {v : Nat → K} (hS : RunningSamples ocp M S ph v) :
    RunningSamples ocp M T ph v := by
  intro rc hrc s i ho
  rw [hS rc hrc s i ho, h.half hph ho.1, h.time hph ho.1, h.pArg hph (Mesh.idx_lt ho.1 ho.2.1)]

theorem SameOn.terminalCost : TerminalCost ocp M S ph = TerminalCost ocp M T ph := by
  unfold TerminalCost
  rw [h.tArg hph]

theorem SameOn.bounds (hS : BoundsOK ocp M S ph) : BoundsOK ocp M T ph := by
  have hN : 0 < M.N := by unfold Mesh.N; omega
  obtain ⟨b1, b2, b3, b4, b5, b6⟩ := hS
  refine ⟨fun h0 j hj => ?_, fun i hi hn j hj => ?_, fun i hi j hj => ?_, ?_, ?_, fun k hk => ?_⟩
  · rw [← h.x 0 (by omega) 0 hN j hj]; exact b1 h0 j hj
  · rw [← h.x ph hph i hi j hj]; exact b2 i hi hn j hj
  · rw [← h.u ph hph i hi j hj]; exact b3 i hi j hj
  · rw [← h.t0 ph hph]; exact b4
  · rw [← h.tf ph hph]; exact b5
  · rw [← h.a ph hph k hk]; exact b6 k hk

theorem SameOn.collocation (hS : CollocationOK ocp M S ph) : CollocationOK ocp M T ph := by
  intro F hF j hj s i ho
  rw [← Mesh.piece_congr ho.1 fun k hk => h.x ph hph k hk j hj, ← h.half hph ho.1, ← h.time hph ho.1,
    ← h.pArg hph (Mesh.idx_lt ho.1 ho.2.1)]
  exact hS F hF j hj s i ho

theorem SameOn.path (hS : PathOK ocp M S ph) : PathOK ocp M T ph := by
  intro F hF s i ho c hc
  rw [← h.time hph ho.1, ← h.pArg hph (Mesh.idx_lt ho.1 ho.2.1)]
  exact hS F hF s i ho c hc

theorem SameOn.terminal (hS : TerminalOK ocp M S ph) : TerminalOK ocp M T ph := by
  intro F hF c hc
  rw [← h.tArg hph]
  exact hS F hF c hc

theorem SameOn.midControl (hS : MidControlOK ocp M S ph) : MidControlOK ocp M T ph := by
  intro j hj s hs i hi
  rw [← Mesh.piece_congr hs fun k hk => h.u ph hph k hk j hj]
  exact hS j hj s hs i hi

theorem SameOn.midState (hS : MidStateOK ocp M S ph) : MidStateOK ocp M T ph := by
  intro j hj s hs i hi
  rw [← Mesh.piece_congr hs fun k hk => h.x ph hph k hk j hj]
  exact hS j hj s hs i hi

theorem SameOn.slopeContinuous (hS : SlopeContinuous ocp M S ph) : SlopeContinuous ocp M T ph := by
  intro j hj s hs
  rw [← Mesh.piece_congr (show s < _ by omega) fun k hk => h.u ph hph k hk j hj,
    ← Mesh.piece_congr hs fun k hk => h.u ph hph k hk j hj]
  exact hS j hj s hs

theorem SameOn.pArgAt {s : Nat} (hs : s < M.orders.length) (tau : K) :
    ocp.pArgAt M S ph s tau = ocp.pArgAt M T ph s tau := by
  have ex : ((List.range ocp.nx).map fun j => (M.piece (fun k => S.x ph k j) s).eval tau) =
      (List.range ocp.nx).map fun j => (M.piece (fun k => T.x ph k j) s).eval tau :=
    List.map_congr_left fun j hj => by
      rw [Mesh.piece_congr hs fun k hk => h.x ph hph k hk j (by simpa using hj)]
  have eu : ((List.range ocp.nu).map fun j => (M.piece (fun k => S.u ph k j) s).eval tau) =
      (List.range ocp.nu).map fun j => (M.piece (fun k => T.u ph k j) s).eval tau :=
    List.map_congr_left fun j hj => by
      rw [Mesh.piece_congr hs fun k hk => h.u ph hph k hk j (by simpa using hj)]
  unfold OCP.pArgAt
  rw [h.aArg hph, h.time hph hs, ex, eu]

theorem SameOn.defect {s : Nat} (hs : s < M.orders.length) (F : VFun (PArg K) K) (tau : K) {j : Nat}
    (hj : j < ocp.nx) : ocp.defect M S F ph s tau j = ocp.defect M T F ph s tau j := by
  unfold OCP.defect
  rw [h.pArgAt hph hs, h.half hph hs, Mesh.piece_congr hs fun k hk => h.x ph hph k hk j hj]

theorem SameOn.midResidual {tol : K} (hS : MidResidualOK ocp M S tol ph) : MidResidualOK ocp M T tol ph := by
  intro F hF j hj s hs i hi
  rw [← h.defect hph hs F _ hj, ← h.w ph hph s hs]
  exact hS F hF j hj s hs i hi

theorem SameOn.widthsOK {lo hi : K} (hS : WidthsOK M S lo hi ph) : WidthsOK M T lo hi ph := by
  refine ⟨?_, fun s hs => ?_, fun s hs => ?_⟩
  · rw [← hS.sum]
    exact Finset.sum_congr rfl fun s hs => (h.w ph hph s (Finset.mem_range.1 hs)).symm
  · rw [← h.w ph hph s hs]; exact hS.lower s hs
  · rw [← h.w ph hph s hs]; exact hS.upper s hs

omit hph in
theorem SameOn.links (hlink : ∀ l ∈ ocp.phaseLinks, l.1 < ocp.nPhases ∧ l.2 < ocp.nPhases)
    (hL : LinksOK ocp M S) : LinksOK ocp M T := by
  have hN : 0 < M.N := by unfold Mesh.N; omega
  have hr : ∀ (k p q : Nat), ocp.phaseLinks[k]? = some (p, q) → p < ocp.nPhases ∧ q < ocp.nPhases :=
    fun k p q e => hlink (p, q) (List.mem_of_getElem? e)
  refine ⟨fun k p q e j hj => ?_, fun k p q e j hj => ?_, fun k p q e => ?_⟩
  · obtain ⟨hp, hq⟩ := hr k p q e
    rw [← h.x q hq 0 hN j hj, ← h.x p hp _ (by omega) j hj]
    exact hL.x k p q e j hj
  · obtain ⟨hp, hq⟩ := hr k p q e
    rw [← h.u q hq 0 hN j hj, ← h.u p hp _ (by omega) j hj]
    exact hL.u k p q e j hj
  · obtain ⟨hp, hq⟩ := hr k p q e
    rw [← h.t0 q hq, ← h.tf p hp]
    exact hL.t k p q e

omit hph in
theorem SameOn.feasible (hlink : ∀ l ∈ ocp.phaseLinks, l.1 < ocp.nPhases ∧ l.2 < ocp.nPhases)
    (hS : PhysFeasible ocp M S) : PhysFeasible ocp M T :=
  ⟨fun ph hp => h.bounds hp (hS.bounds ph hp), fun ph hp => h.collocation hp (hS.dynamics ph hp),
    fun ph hp => h.path hp (hS.path ph hp), fun ph hp => h.terminal hp (hS.terminal ph hp),
    fun ph hp hm => h.midControl hp (hS.mid ph hp hm), fun ph hp hm => h.slopeContinuous hp (hS.cont ph hp hm),
    fun h2 => h.links hlink (hS.links h2)⟩

omit hph in
theorem SameOn.adaptive (hlink : ∀ l ∈ ocp.phaseLinks, l.1 < ocp.nPhases ∧ l.2 < ocp.nPhases)
    {lbh ubh tol : Nat → K} {res : Prop} (hS : AdaptiveFeasible ocp M S lbh ubh tol res) :
    AdaptiveFeasible ocp M T lbh ubh tol res :=
  ⟨fun ph hp => h.bounds hp (hS.bounds ph hp), fun ph hp => h.collocation hp (hS.dynamics ph hp),
    fun ph hp => h.path hp (hS.path ph hp), fun ph hp => h.terminal hp (hS.terminal ph hp),
    fun ph hp => h.widthsOK hp (hS.widths ph hp), fun ph hp => h.midControl hp (hS.midControl ph hp),
    fun ph hp => h.midState hp (hS.midState ph hp), fun hr ph hp => h.midResidual hp (hS.midResidual hr ph hp),
    fun h2 => h.links hlink (hS.links h2)⟩

end MPOpt
