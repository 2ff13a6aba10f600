import Verif.Props.ExactFree
import Mathlib.Topology.Order.Compact
import Mathlib.Topology.Algebra.Polynomial
import Mathlib.Topology.Instances.Real.Lemmas

/-!
# C70: optimal solutions exist

For a problem whose functions are continuous, the discretised problem handed to the solver has a global minimiser as
soon as it has a feasible point and its sublevel sets are bounded (in particular when all bounds are finite). So the
hypothesis "the solver returns a global minimiser" of C53, C55 can be met.
-/

set_option autoImplicit false

namespace MPOpt
open Polynomial

/-! ### Continuous problems -/

/-- A function of `(x, u, t, a)` is continuous. -/
def PCts (ocp : OCP ℝ) (f : PArg ℝ → ℝ) : Prop :=
  Continuous fun v : (Fin ocp.nx → ℝ) × (Fin ocp.nu → ℝ) × ℝ × (Fin ocp.na → ℝ) =>
    f ⟨List.ofFn v.1, List.ofFn v.2.1, v.2.2.1, if ocp.na = 0 then none else some (List.ofFn v.2.2.2)⟩

/-- A function of `(xf, tf, x0, t0, a)` is continuous. -/
def TCts (ocp : OCP ℝ) (f : TArg ℝ → ℝ) : Prop :=
  Continuous fun v : (Fin ocp.nx → ℝ) × ℝ × (Fin ocp.nx → ℝ) × ℝ × (Fin ocp.na → ℝ) =>
    f ⟨List.ofFn v.1, v.2.1, List.ofFn v.2.2.1, v.2.2.2.1,
      if ocp.na = 0 then none else some (List.ofFn v.2.2.2.2)⟩

/-- All functions of the problem are continuous. -/
structure CtsOCP (ocp : OCP ℝ) : Prop where
  dynamics : ∀ F ∈ ocp.dynamics, ∀ j < ocp.nx, PCts ocp (F.f · j)
  path : ∀ F, some F ∈ ocp.pathConstraints → ∀ c < F.len, PCts ocp (F.f · c)
  terminal : ∀ F, some F ∈ ocp.terminalConstraints → ∀ c < F.len, TCts ocp (F.f · c)
  running : ∀ r ∈ ocp.runningCosts, PCts ocp r
  final : ∀ r ∈ ocp.terminalCosts, TCts ocp r

theorem cts_getD (n k : Nat) : Continuous fun v : Fin n → ℝ => (List.ofFn v).getD k 0 := by
  by_cases hk : k < n
  · have : (fun v : Fin n → ℝ => (List.ofFn v).getD k 0) = fun v => v ⟨k, hk⟩ := by
      funext v
      rw [List.getD_eq_getElem _ _ (by simpa using hk), List.getElem_ofFn]
    rw [this]; exact continuous_apply _
  · have : (fun v : Fin n → ℝ => (List.ofFn v).getD k 0) = fun _ => 0 := by
      funext v
      rw [List.getD_eq_default _ _ (by simpa using hk)]
    rw [this]; exact continuous_const

section
variable {ocp : OCP ℝ}

theorem PCts.x (k : Nat) : PCts ocp fun p => p.x.getD k 0 := (cts_getD _ k).comp continuous_fst
theorem PCts.u (k : Nat) : PCts ocp fun p => p.u.getD k 0 := (cts_getD _ k).comp (continuous_fst.comp continuous_snd)
theorem PCts.const (v : ℝ) : PCts ocp fun _ => v := continuous_const
theorem PCts.add {f g : PArg ℝ → ℝ} (hf : PCts ocp f) (hg : PCts ocp g) : PCts ocp fun p => f p + g p :=
  Continuous.add hf hg
theorem PCts.sub {f g : PArg ℝ → ℝ} (hf : PCts ocp f) (hg : PCts ocp g) : PCts ocp fun p => f p - g p :=
  Continuous.sub hf hg
theorem PCts.mul {f g : PArg ℝ → ℝ} (hf : PCts ocp f) (hg : PCts ocp g) : PCts ocp fun p => f p * g p :=
  Continuous.mul hf hg
theorem PCts.neg {f : PArg ℝ → ℝ} (hf : PCts ocp f) : PCts ocp fun p => -f p := Continuous.neg hf
theorem TCts.xf (k : Nat) : TCts ocp fun t => t.xf.getD k 0 := (cts_getD _ k).comp continuous_fst
theorem TCts.const (v : ℝ) : TCts ocp fun _ => v := continuous_const
theorem TCts.add {f g : TArg ℝ → ℝ} (hf : TCts ocp f) (hg : TCts ocp g) : TCts ocp fun p => f p + g p :=
  Continuous.add hf hg
theorem TCts.sub {f g : TArg ℝ → ℝ} (hf : TCts ocp f) (hg : TCts ocp g) : TCts ocp fun p => f p - g p :=
  Continuous.sub hf hg
theorem TCts.mul {f g : TArg ℝ → ℝ} (hf : TCts ocp f) (hg : TCts ocp g) : TCts ocp fun p => f p * g p :=
  Continuous.mul hf hg

end

/-! ### Trajectories as points of a product space -/

/-- The trajectory with the given numbers. -/
def trajOf (σ : Env ℝ) : Traj ℝ :=
  ⟨fun ph i j => σ (.X ph i j), fun ph i j => σ (.U ph i j), fun ph => σ (.T0 ph), fun ph => σ (.Tf ph),
    fun ph k => σ (.A k ph), fun s ph => σ (.H s ph)⟩

/-- The number a trajectory has for a symbol. -/
def Traj.val (T : Traj ℝ) : Env ℝ
  | .X ph i j => T.x ph i j
  | .U ph i j => T.u ph i j
  | .T0 ph => T.t0 ph
  | .Tf ph => T.tf ph
  | .A k ph => T.a ph k
  | .H s ph => T.w s ph

/-- The numbers of a trajectory the problem can see are bounded by `R`. -/
def BoundedBy (ocp : OCP ℝ) (M : Mesh ℝ) (R : Env ℝ) (T : Traj ℝ) : Prop :=
  ∀ s, IsAdaptiveVar ocp M.N M.orders.length s → |T.val s| ≤ R s

open Classical in
/-- The numbers a problem can see; 0 elsewhere. -/
noncomputable def Traj.cut (T : Traj ℝ) (ocp : OCP ℝ) (M : Mesh ℝ) : Env ℝ :=
  fun s => if IsAdaptiveVar ocp M.N M.orders.length s then T.val s else 0

variable {ocp : OCP ℝ} {M : Mesh ℝ}

theorem Traj.cut_same (T : Traj ℝ) : SameOn ocp M.N M.orders.length T (trajOf (T.cut ocp M)) := by
  refine ⟨fun ph hp i hi j hj => ?_, fun ph hp i hi j hj => ?_, fun ph hp => ?_, fun ph hp => ?_, fun ph hp k hk => ?_,
    fun ph hp s hs => ?_⟩ <;> simp only [trajOf, Traj.cut]
  · exact (if_pos (show IsAdaptiveVar ocp M.N M.orders.length (.X ph i j) from ⟨hp, hi, hj⟩)).symm
  · exact (if_pos (show IsAdaptiveVar ocp M.N M.orders.length (.U ph i j) from ⟨hp, hi, hj⟩)).symm
  · exact (if_pos (show IsAdaptiveVar ocp M.N M.orders.length (.T0 ph) from hp)).symm
  · exact (if_pos (show IsAdaptiveVar ocp M.N M.orders.length (.Tf ph) from hp)).symm
  · exact (if_pos (show IsAdaptiveVar ocp M.N M.orders.length (.A k ph) from ⟨hp, hk⟩)).symm
  · exact (if_pos (show IsAdaptiveVar ocp M.N M.orders.length (.H s ph) from ⟨hp, hs⟩)).symm

theorem BoundedBy.cut {R : Env ℝ} {T : Traj ℝ} (h : BoundedBy ocp M R T) (s : Sym) :
    |T.cut ocp M s| ≤ max (R s) 0 := by
  unfold Traj.cut
  split
  · exact (h s ‹_›).trans (le_max_left _ _)
  · simp

/-! ### Continuity -/

theorem cts_half (ph s : Nat) : Continuous fun σ => M.halfWidth (trajOf σ) ph s := by
  unfold Mesh.halfWidth trajOf; fun_prop

theorem cts_time (ph s : Nat) (tau : ℝ) : Continuous fun σ => M.time (trajOf σ) ph s tau := by
  unfold Mesh.time Mesh.halfWidth trajOf; fun_prop

/-- Linear functionals of interpolants depend continuously on the values. -/
theorem cts_piece {v : Env ℝ → Nat → ℝ} (hv : ∀ k, Continuous fun σ => v σ k) (s : Nat) (L : ℝ[X] →ₗ[ℝ] ℝ) :
    Continuous fun σ => L (M.piece (v σ) s) := by
  have : (fun σ => L (M.piece (v σ) s)) = fun σ => ∑ i ∈ Finset.range (M.order s + 1),
      v σ (M.idx s i) * L (Lagrange.basis (Finset.range (M.order s + 1)) (M.node s) i) := by
    funext σ
    unfold Mesh.piece
    rw [Lagrange.interpolate_apply, map_sum]
    refine Finset.sum_congr rfl fun i _ => ?_
    rw [← smul_eq_C_mul, map_smul, smul_eq_mul]
  rw [this]
  exact continuous_finsetSum _ fun i _ => (hv _).mul continuous_const

theorem cts_eval {v : Env ℝ → Nat → ℝ} (hv : ∀ k, Continuous fun σ => v σ k) (s : Nat) (tau : ℝ) :
    Continuous fun σ => (M.piece (v σ) s).eval tau := cts_piece hv s (leval tau)

theorem cts_deriv {v : Env ℝ → Nat → ℝ} (hv : ∀ k, Continuous fun σ => v σ k) (s : Nat) (tau : ℝ) :
    Continuous fun σ => (derivative (M.piece (v σ) s)).eval tau := cts_piece hv s ((leval tau).comp derivative)

theorem range_map_ofFn {α : Type} (n : Nat) (f : Nat → α) : (List.range n).map f = List.ofFn fun i : Fin n => f i := by
  apply List.ext_getElem <;> simp

theorem PCts.comp {f : PArg ℝ → ℝ} (h : PCts ocp f) {x u a : Env ℝ → Nat → ℝ} {t : Env ℝ → ℝ}
    (hx : ∀ j, Continuous fun σ => x σ j) (hu : ∀ j, Continuous fun σ => u σ j) (ht : Continuous t)
    (ha : ∀ j, Continuous fun σ => a σ j) :
    Continuous fun σ => f ⟨(List.range ocp.nx).map (x σ), (List.range ocp.nu).map (u σ), t σ,
      if ocp.na = 0 then none else some ((List.range ocp.na).map (a σ))⟩ := by
  simp only [range_map_ofFn]
  exact Continuous.comp (g := fun v : (Fin ocp.nx → ℝ) × (Fin ocp.nu → ℝ) × ℝ × (Fin ocp.na → ℝ) =>
    f ⟨List.ofFn v.1, List.ofFn v.2.1, v.2.2.1, if ocp.na = 0 then none else some (List.ofFn v.2.2.2)⟩)
    (f := fun σ => (fun i : Fin ocp.nx => x σ i, fun i : Fin ocp.nu => u σ i, t σ, fun i : Fin ocp.na => a σ i)) h
    ((continuous_pi fun i : Fin ocp.nx => hx i).prodMk ((continuous_pi fun i : Fin ocp.nu => hu i).prodMk
      (ht.prodMk (continuous_pi fun i : Fin ocp.na => ha i))))

theorem PCts.at {f : PArg ℝ → ℝ} (h : PCts ocp f) (ph k s : Nat) (tau : ℝ) :
    Continuous fun σ => f (ocp.pArg (trajOf σ) ph k (M.time (trajOf σ) ph s tau)) :=
  h.comp (x := fun σ => (trajOf σ).x ph k) (u := fun σ => (trajOf σ).u ph k) (a := fun σ => (trajOf σ).a ph)
    (fun _ => continuous_apply _) (fun _ => continuous_apply _) (cts_time ph s tau) (fun _ => continuous_apply _)

theorem PCts.between {f : PArg ℝ → ℝ} (h : PCts ocp f) (ph s : Nat) (tau : ℝ) :
    Continuous fun σ => f (ocp.pArgAt M (trajOf σ) ph s tau) :=
  h.comp (x := fun σ j => (M.piece (fun k => (trajOf σ).x ph k j) s).eval tau)
    (u := fun σ j => (M.piece (fun k => (trajOf σ).u ph k j) s).eval tau) (a := fun σ => (trajOf σ).a ph)
    (fun _ => cts_eval (fun _ => continuous_apply _) s tau) (fun _ => cts_eval (fun _ => continuous_apply _) s tau)
    (cts_time ph s tau) (fun _ => continuous_apply _)

theorem TCts.at {f : TArg ℝ → ℝ} (h : TCts ocp f) (ph n : Nat) :
    Continuous fun σ => f (ocp.tArg (trajOf σ) ph n) := by
  simp only [OCP.tArg, range_map_ofFn]
  exact Continuous.comp (g := fun v : (Fin ocp.nx → ℝ) × ℝ × (Fin ocp.nx → ℝ) × ℝ × (Fin ocp.na → ℝ) =>
    f ⟨List.ofFn v.1, v.2.1, List.ofFn v.2.2.1, v.2.2.2.1,
      if ocp.na = 0 then none else some (List.ofFn v.2.2.2.2)⟩)
    (f := fun σ => (fun i : Fin ocp.nx => (trajOf σ).x ph (n - 1) i, (trajOf σ).tf ph, fun i : Fin ocp.nx => (trajOf σ).x ph 0 i,
      (trajOf σ).t0 ph, fun i : Fin ocp.na => (trajOf σ).a ph i)) h
    ((continuous_pi fun i => continuous_apply _).prodMk ((continuous_apply _).prodMk
      ((continuous_pi fun i => continuous_apply _).prodMk ((continuous_apply _).prodMk
        (continuous_pi fun i => continuous_apply _)))))

/-! ### Cost -/

open Classical in
/-- `dt/dtau` times running cost at node `k`. -/
noncomputable def OCP.sample (ocp : OCP ℝ) (M : Mesh ℝ) (T : Traj ℝ) (ph k : Nat) : ℝ :=
  if h : ∃ si : Nat × Nat, M.Owns si.1 si.2 ∧ M.idx si.1 si.2 = k then
    M.halfWidth T ph h.choose.1 * ocp.runningCosts.getD ph (fun _ => 0)
      (ocp.pArg T ph k (M.time T ph h.choose.1 (M.node h.choose.1 h.choose.2)))
  else 0

/-- The cost of a trajectory. -/
noncomputable def OCP.costOf (ocp : OCP ℝ) (M : Mesh ℝ) (W : List ℝ) (T : Traj ℝ) : ℝ :=
  ∑ ph ∈ Finset.range ocp.nPhases, (TerminalCost ocp M T ph + weightedSum W (ocp.sample M T ph))

theorem physCost_costOf (W : List ℝ) (T : Traj ℝ) : PhysCost ocp M W T (ocp.costOf M W T) := by
  refine ⟨fun ph => ocp.sample M T ph, fun ph _ rc hrc s i ho => ?_, rfl⟩
  have h : ∃ si : Nat × Nat, M.Owns si.1 si.2 ∧ M.idx si.1 si.2 = M.idx s i := ⟨(s, i), ho, rfl⟩
  show ocp.sample M T ph (M.idx s i) = _
  unfold OCP.sample
  rw [dif_pos h]
  obtain ⟨h1, h2⟩ := h.choose_spec
  obtain ⟨e1, e2⟩ := Mesh.owner_unique h1 ho h2
  rw [e1, e2, List.getD_eq_getElem?_getD, hrc]; rfl

theorem cts_cost (hc : CtsOCP ocp) (W : List ℝ) : Continuous fun σ => ocp.costOf M W (trajOf σ) := by
  unfold OCP.costOf
  refine continuous_finsetSum _ fun ph _ => Continuous.add ?_ (continuous_finsetSum _ fun k _ => continuous_const.mul ?_)
  · unfold TerminalCost
    rw [List.getD_eq_getElem?_getD]
    cases h : ocp.terminalCosts[ph]? with
    | none => exact continuous_const
    | some r => exact (hc.final r (List.mem_of_getElem? h)).at ph _
  · unfold OCP.sample
    split
    · refine (cts_half _ _).mul ?_
      rw [List.getD_eq_getElem?_getD]
      cases h : ocp.runningCosts[ph]? with
      | none => exact continuous_const
      | some r => exact (hc.running r (List.mem_of_getElem? h)).at ph k _ _
    · exact continuous_const

/-! ### Closed sets -/

theorem isClosed_within (lo hi : Ext ℝ) : IsClosed {v : ℝ | Within lo hi v} := by
  refine IsClosed.inter ?_ ?_
  · cases lo with
    | ninf => exact isClosed_univ
    | fin a => exact isClosed_Ici
    | pinf => exact isClosed_empty
    | nan => exact isClosed_empty
  · cases hi with
    | ninf => exact isClosed_empty
    | fin a => exact isClosed_Iic
    | pinf => exact isClosed_univ
    | nan => exact isClosed_empty

/-- A closed condition on a continuous quantity passes to the closure. -/
theorem closure_cond {S : Set (Env ℝ)} {σ : Env ℝ} (hσ : σ ∈ closure S) {f : Env ℝ → ℝ} (hf : Continuous f)
    {C : Set ℝ} (hC : IsClosed C) (h : ∀ τ ∈ S, f τ ∈ C) : f σ ∈ C :=
  closure_minimal (fun τ hτ => h τ hτ) (hC.preimage hf) hσ

theorem closure_eq {S : Set (Env ℝ)} {σ : Env ℝ} (hσ : σ ∈ closure S) {f g : Env ℝ → ℝ} (hf : Continuous f)
    (hg : Continuous g) (h : ∀ τ ∈ S, f τ = g τ) : f σ = g σ :=
  closure_minimal (fun τ hτ => h τ hτ) (isClosed_eq hf hg) hσ

section
variable {S : Set (Env ℝ)} {σ : Env ℝ} (hσ : σ ∈ closure S) {ph : Nat}
include hσ

theorem closure_bounds (h : ∀ τ ∈ S, BoundsOK ocp M (trajOf τ) ph) : BoundsOK ocp M (trajOf σ) ph :=
  ⟨fun h0 j hj => closure_eq hσ (continuous_apply _) continuous_const fun τ hτ => (h τ hτ).x0 h0 j hj,
    fun i hi hn j hj => closure_cond hσ (continuous_apply _) (isClosed_within _ _) fun τ hτ => (h τ hτ).x i hi hn j hj,
    fun i hi j hj => closure_cond hσ (continuous_apply _) (isClosed_within _ _) fun τ hτ => (h τ hτ).u i hi j hj,
    closure_cond hσ (continuous_apply _) (isClosed_within _ _) fun τ hτ => (h τ hτ).t0,
    closure_cond hσ (continuous_apply _) (isClosed_within _ _) fun τ hτ => (h τ hτ).tf,
    fun k hk => closure_cond hσ (continuous_apply _) (isClosed_within _ _) fun τ hτ => (h τ hτ).a k hk⟩

theorem closure_collocation (hc : CtsOCP ocp) (h : ∀ τ ∈ S, CollocationOK ocp M (trajOf τ) ph) :
    CollocationOK ocp M (trajOf σ) ph := fun F hF j hj s i ho =>
  closure_eq hσ (cts_deriv (fun _ => continuous_apply _) s _)
    ((cts_half ph s).mul ((hc.dynamics F (List.mem_of_getElem? hF) j hj).at ph _ s _)) fun τ hτ => h τ hτ F hF j hj s i ho

theorem closure_path (hc : CtsOCP ocp) (h : ∀ τ ∈ S, PathOK ocp M (trajOf τ) ph) : PathOK ocp M (trajOf σ) ph :=
  fun F hF s i ho c hcl => closure_cond hσ ((hc.path F (List.mem_of_getElem? hF) c hcl).at ph _ s _) isClosed_Iic
    fun τ hτ => h τ hτ F hF s i ho c hcl

theorem closure_terminal (hc : CtsOCP ocp) (h : ∀ τ ∈ S, TerminalOK ocp M (trajOf τ) ph) :
    TerminalOK ocp M (trajOf σ) ph := fun F hF c hcl =>
  closure_eq hσ ((hc.terminal F (List.mem_of_getElem? hF) c hcl).at ph _) continuous_const fun τ hτ => h τ hτ F hF c hcl

theorem closure_midControl (h : ∀ τ ∈ S, MidControlOK ocp M (trajOf τ) ph) : MidControlOK ocp M (trajOf σ) ph :=
  fun j hj s hs i hi => closure_cond hσ (cts_eval (fun _ => continuous_apply _) s _) (isClosed_within _ _)
    fun τ hτ => h τ hτ j hj s hs i hi

theorem closure_midState (h : ∀ τ ∈ S, MidStateOK ocp M (trajOf τ) ph) : MidStateOK ocp M (trajOf σ) ph :=
  fun j hj s hs i hi => closure_cond hσ (cts_eval (fun _ => continuous_apply _) s _) (isClosed_within _ _)
    fun τ hτ => h τ hτ j hj s hs i hi

theorem closure_midResidual (hc : CtsOCP ocp) {tol : ℝ} (h : ∀ τ ∈ S, MidResidualOK ocp M (trajOf τ) tol ph) :
    MidResidualOK ocp M (trajOf σ) tol ph := fun F hF j hj s hs i hi =>
  closure_cond hσ (f := fun σ => (trajOf σ).w s ph * (ocp.scaleX.getD j 0 *
      ocp.defect M (trajOf σ) F ph s ((M.node s i + M.node s (i + 1)) / 2) j))
    ((continuous_apply _).mul (continuous_const.mul ((cts_deriv (fun _ => continuous_apply _) s _).sub
      ((cts_half ph s).mul ((hc.dynamics F (List.mem_of_getElem? hF) j hj).between ph s _)))))
    (isClosed_within _ _) fun τ hτ => h τ hτ F hF j hj s hs i hi

theorem closure_slopeContinuous (h : ∀ τ ∈ S, SlopeContinuous ocp M (trajOf τ) ph) :
    SlopeContinuous ocp M (trajOf σ) ph := fun j hj s hs =>
  closure_eq hσ (cts_deriv (fun _ => continuous_apply _) s _) (cts_deriv (fun _ => continuous_apply _) (s + 1) _)
    fun τ hτ => h τ hτ j hj s hs

theorem closure_slopeBounded {sc : Nat → ℝ} (h : ∀ τ ∈ S, SlopeBounded ocp M (trajOf τ) sc ph) :
    SlopeBounded ocp M (trajOf σ) sc ph := fun j hj s i ho =>
  closure_cond hσ (continuous_const.mul (cts_deriv (fun _ => continuous_apply _) s _)) (isClosed_within _ _)
    fun τ hτ => h τ hτ j hj s i ho

theorem closure_links (h : ∀ τ ∈ S, LinksOK ocp M (trajOf τ)) : LinksOK ocp M (trajOf σ) :=
  ⟨fun k p q e j hj => closure_cond hσ ((continuous_apply _).sub (continuous_apply _)) (isClosed_within _ _)
      fun τ hτ => (h τ hτ).x k p q e j hj,
    fun k p q e j hj => closure_eq hσ (continuous_apply _) (continuous_apply _) fun τ hτ => (h τ hτ).u k p q e j hj,
    fun k p q e => closure_eq hσ (continuous_apply _) (continuous_apply _) fun τ hτ => (h τ hτ).t k p q e⟩

theorem closure_widthsOK {lo hi : ℝ} (h : ∀ τ ∈ S, WidthsOK M (trajOf τ) lo hi ph) : WidthsOK M (trajOf σ) lo hi ph :=
  ⟨closure_eq hσ (continuous_finsetSum _ fun _ _ => continuous_apply _) continuous_const fun τ hτ => (h τ hτ).sum,
    fun s hs => closure_cond hσ (continuous_apply _) isClosed_Ici fun τ hτ => (h τ hτ).lower s hs,
    fun s hs => closure_cond hσ (continuous_apply _) isClosed_Iic fun τ hτ => (h τ hτ).upper s hs⟩

theorem closure_solves (hc : CtsOCP ocp) (h : ∀ τ ∈ S, SolvesOCP ocp M (trajOf τ)) : SolvesOCP ocp M (trajOf σ) :=
  ⟨⟨fun ph hp => closure_bounds hσ fun τ hτ => (h τ hτ).1.bounds ph hp,
    fun ph hp => closure_collocation hσ hc fun τ hτ => (h τ hτ).1.dynamics ph hp,
    fun ph hp => closure_path hσ hc fun τ hτ => (h τ hτ).1.path ph hp,
    fun ph hp => closure_terminal hσ hc fun τ hτ => (h τ hτ).1.terminal ph hp,
    fun ph hp hm => closure_midControl hσ fun τ hτ => (h τ hτ).1.mid ph hp hm,
    fun ph hp hm => closure_slopeContinuous hσ fun τ hτ => (h τ hτ).1.cont ph hp hm,
    fun h2 => closure_links hσ fun τ hτ => (h τ hτ).1.links h2⟩,
    fun ph hp hd => closure_slopeBounded hσ fun τ hτ => (h τ hτ).2 ph hp hd⟩

theorem closure_solvesAdaptive (hc : CtsOCP ocp) {lbh ubh tol : List ℝ} {mid : Bool}
    (h : ∀ τ ∈ S, SolvesAdaptive ocp M (trajOf τ) lbh ubh tol mid) : SolvesAdaptive ocp M (trajOf σ) lbh ubh tol mid :=
  ⟨⟨fun ph hp => closure_bounds hσ fun τ hτ => (h τ hτ).1.bounds ph hp,
    fun ph hp => closure_collocation hσ hc fun τ hτ => (h τ hτ).1.dynamics ph hp,
    fun ph hp => closure_path hσ hc fun τ hτ => (h τ hτ).1.path ph hp,
    fun ph hp => closure_terminal hσ hc fun τ hτ => (h τ hτ).1.terminal ph hp,
    fun ph hp => closure_widthsOK hσ fun τ hτ => (h τ hτ).1.widths ph hp,
    fun ph hp => closure_midControl hσ fun τ hτ => (h τ hτ).1.midControl ph hp,
    fun ph hp => closure_midState hσ fun τ hτ => (h τ hτ).1.midState ph hp,
    fun hr ph hp => closure_midResidual hσ hc fun τ hτ => (h τ hτ).1.midResidual hr ph hp,
    fun h2 => closure_links hσ fun τ hτ => (h τ hτ).1.links h2⟩,
    fun ph hp hd => closure_slopeBounded hσ fun τ hτ => (h τ hτ).2 ph hp hd⟩

end

/-! ### Minimisers -/

/-- A cheapest trajectory among those with a closed property, if its sublevel sets are bounded. -/
theorem exists_cheapest (hM : M.Good) (hc : CtsOCP ocp) {W : List ℝ} (hW : W.length = M.N)
    (hrc : ocp.runningCosts.length = ocp.nPhases) {P : Traj ℝ → Prop}
    (hsame : ∀ {S T}, SameOn ocp M.N M.orders.length S T → P S → P T)
    (hcl : ∀ {S : Set (Env ℝ)} {σ}, σ ∈ closure S → (∀ τ ∈ S, P (trajOf τ)) → P (trajOf σ))
    (hbd : ∀ J₀, ∃ R, ∀ T J, P T → PhysCost ocp M W T J → J ≤ J₀ → BoundedBy ocp M R T) (hne : ∃ T, P T) :
    ∃ T J, P T ∧ PhysCost ocp M W T J ∧ ∀ T' J', P T' → PhysCost ocp M W T' J' → J ≤ J' := by
  obtain ⟨T₀, h₀⟩ := hne
  obtain ⟨R, hR⟩ := hbd (ocp.costOf M W T₀)
  have huniq : ∀ {T J}, PhysCost ocp M W T J → J = ocp.costOf M W T := fun h =>
    PhysCost.unique hM hW hrc h (physCost_costOf W _)
  have hcut : ∀ T, ocp.costOf M W (trajOf (T.cut ocp M)) = ocp.costOf M W T := fun T =>
    (huniq (T.cut_same.cost (physCost_costOf W T))).symm
  set B : Set (Env ℝ) := Set.univ.pi fun s => Set.Icc (-max (R s) 0) (max (R s) 0)
  have hB : IsCompact B := isCompact_univ_pi fun _ => isCompact_Icc
  set S : Set (Env ℝ) := {σ | P (trajOf σ)}
  have hS : IsClosed S := isClosed_of_closure_subset fun σ hσ => hcl hσ fun τ hτ => hτ
  have hmem : ∀ T, P T → ocp.costOf M W T ≤ ocp.costOf M W T₀ → T.cut ocp M ∈ B ∩ S := by
    intro T hT hle
    have hb := hR T _ hT (physCost_costOf W T) hle
    refine ⟨fun s _ => ?_, hsame T.cut_same hT⟩
    exact abs_le.1 (hb.cut s)
  obtain ⟨σ, hσ, hmin⟩ := (hB.inter_right hS).exists_isMinOn ⟨_, hmem T₀ h₀ le_rfl⟩ (cts_cost hc W).continuousOn
  refine ⟨trajOf σ, _, hσ.2, physCost_costOf W _, fun T' J' hT' hJ' => ?_⟩
  rw [huniq hJ']
  have h1 : ocp.costOf M W (trajOf σ) ≤ ocp.costOf M W T₀ := by
    rw [← hcut T₀]; exact hmin (hmem T₀ h₀ le_rfl)
  by_cases hle : ocp.costOf M W T' ≤ ocp.costOf M W T₀
  · rw [← hcut T']; exact hmin (hmem T' hT' hle)
  · exact h1.trans (not_le.1 hle).le

/-! ### Bounded problems -/

/-- Size of a finite bound. -/
def Ext.size : Ext ℝ → ℝ
  | .fin a => |a|
  | _ => 0

/-- Neither infinite nor `nan`. -/
def Ext.IsFinite (e : Ext ℝ) : Prop := ∃ a, e = .fin a

theorem Within.size {lo hi : Ext ℝ} {v : ℝ} (h : Within lo hi v) (hl : lo.IsFinite) (hh : hi.IsFinite) :
    |v| ≤ lo.size + hi.size := by
  obtain ⟨a, rfl⟩ := hl
  obtain ⟨b, rfl⟩ := hh
  have h1 : a ≤ v := h.1
  have h2 : v ≤ b := h.2
  simp only [Ext.size]
  rw [abs_le]
  have := neg_abs_le a; have := le_abs_self b; have := abs_nonneg a; have := abs_nonneg b
  constructor <;> linarith

/-- All bounds on states, controls, times and parameters are finite. -/
structure FiniteBounds (ocp : OCP ℝ) : Prop where
  x : ∀ ph < ocp.nPhases, ∀ j < ocp.nx, (entry ocp.lbx ph j .nan).IsFinite ∧ (entry ocp.ubx ph j .nan).IsFinite
  u : ∀ ph < ocp.nPhases, ∀ j < ocp.nu, (entry ocp.lbu ph j .nan).IsFinite ∧ (entry ocp.ubu ph j .nan).IsFinite
  t0 : ∀ ph < ocp.nPhases, (entry ocp.lbt0 ph 0 .nan).IsFinite ∧ (entry ocp.ubt0 ph 0 .nan).IsFinite
  tf : ∀ ph < ocp.nPhases, (entry ocp.lbtf ph 0 .nan).IsFinite ∧ (entry ocp.ubtf ph 0 .nan).IsFinite
  a : ∀ ph < ocp.nPhases, ∀ k < ocp.na, (entry ocp.lba ph k .nan).IsFinite ∧ (entry ocp.uba ph k .nan).IsFinite

theorem FiniteBounds.bounded (h : FiniteBounds ocp) (ω : Nat → Nat → ℝ) : ∃ R, ∀ T,
    (∀ ph < ocp.nPhases, BoundsOK ocp M T ph) →
    (∀ ph < ocp.nPhases, ∀ s < M.orders.length, |T.w s ph| ≤ ω s ph) → BoundedBy ocp M R T := by
  let R : Env ℝ := fun s => match s with
    | .X ph _ j => |entry ocp.x00 0 j 0| + ((entry ocp.lbx ph j .nan).size + (entry ocp.ubx ph j .nan).size)
    | .U ph _ j => (entry ocp.lbu ph j .nan).size + (entry ocp.ubu ph j .nan).size
    | .T0 ph => (entry ocp.lbt0 ph 0 .nan).size + (entry ocp.ubt0 ph 0 .nan).size
    | .Tf ph => (entry ocp.lbtf ph 0 .nan).size + (entry ocp.ubtf ph 0 .nan).size
    | .A k ph => (entry ocp.lba ph k .nan).size + (entry ocp.uba ph k .nan).size
    | .H s ph => ω s ph
  have hn : ∀ e : Ext ℝ, 0 ≤ e.size := fun e => by cases e <;> simp [Ext.size]
  refine ⟨R, fun T hB hw s hs => ?_⟩
  cases s with
  | X ph i j =>
    obtain ⟨hp, hi, hj⟩ := hs
    show |T.x ph i j| ≤ |_| + _
    by_cases h0 : ph = 0 ∧ i = 0
    · obtain ⟨rfl, rfl⟩ := h0
      rw [(hB 0 hp).x0 rfl j hj]
      exact le_add_of_nonneg_right (add_nonneg (hn _) (hn _))
    · have := ((hB ph hp).x i hi h0 j hj).size (h.x ph hp j hj).1 (h.x ph hp j hj).2
      exact this.trans (le_add_of_nonneg_left (abs_nonneg _))
  | U ph i j => exact ((hB ph hs.1).u i hs.2.1 j hs.2.2).size (h.u ph hs.1 j hs.2.2).1 (h.u ph hs.1 j hs.2.2).2
  | T0 ph => exact (hB ph hs).t0.size (h.t0 ph hs).1 (h.t0 ph hs).2
  | Tf ph => exact (hB ph hs).tf.size (h.tf ph hs).1 (h.tf ph hs).2
  | A k ph => exact ((hB ph hs.1).a k hs.2).size (h.a ph hs.1 k hs.2).1 (h.a ph hs.1 k hs.2).2
  | H s ph => exact hw ph hs.1 s hs.2

/-! ### Widths -/

theorem packWidths_inj {n : Nat} {S T : Traj ℝ} :
    ocp.packWidths n S = ocp.packWidths n T ↔ ∀ ph < ocp.nPhases, ∀ s < n, S.w s ph = T.w s ph := by
  have e : ∀ T : Traj ℝ, ocp.packWidths n T =
      ((List.range ocp.nPhases).flatMap fun ph => (List.range n).map fun s => (s, ph)).map fun q => T.w q.1 q.2 := by
    intro T
    simp only [OCP.packWidths, List.map_flatMap, List.map_map]
    rfl
  rw [e, e, List.map_inj_left]
  simp only [List.mem_flatMap, List.mem_map, List.mem_range]
  exact ⟨fun h ph hp s hs => h (s, ph) ⟨ph, hp, s, hs, rfl⟩, by
    rintro h _ ⟨ph, hp, s, hs, rfl⟩; exact h ph hp s hs⟩

theorem WidthsAre.iff {n : Nat} {req : Option (List ℝ)} {S T : Traj ℝ} (h : WidthsAre ocp n req S) :
    WidthsAre ocp n req T ↔ ∀ ph < ocp.nPhases, ∀ s < n, S.w s ph = T.w s ph := by
  cases req with
  | some l =>
    have h : ocp.packWidths n S = l := h
    rw [← packWidths_inj, h]
    exact ⟨fun h' => h'.symm, fun h' => h'.symm⟩
  | none =>
    have h : ∀ ph < ocp.nPhases, ∀ s < n, S.w s ph = 1 / (n : ℝ) := h
    exact ⟨fun h' ph hp s hs => (h ph hp s hs).trans (h' ph hp s hs).symm,
      fun h' ph hp s hs => (h' ph hp s hs).symm.trans (h ph hp s hs)⟩

theorem closure_widthsAre {n : Nat} {req : Option (List ℝ)} {S : Set (Env ℝ)} {σ : Env ℝ} (hσ : σ ∈ closure S)
    (h : ∀ τ ∈ S, WidthsAre ocp n req (trajOf τ)) : WidthsAre ocp n req (trajOf σ) := by
  obtain ⟨τ₀, h₀⟩ : S.Nonempty := closure_nonempty_iff.1 ⟨σ, hσ⟩
  rw [(h τ₀ h₀).iff]
  exact fun ph hp s hs => closure_eq hσ (f := fun _ => (trajOf τ₀).w s ph) continuous_const (continuous_apply _)
    fun τ hτ => (h τ₀ h₀).iff.1 (h τ hτ) ph hp s hs

/-! ### Perfect solvers -/

variable {V : Type} {w : Outside ℝ V} {nlpsol : SolverCall ℝ V → Py (List ℝ)} {ptp : List (List Nat)} {n : Nat}
  {arg : OrdersArg} {scheme : String} {rx rdx : Bool}

/-- A solver that returns a global minimiser whenever there is one, and raises otherwise. -/
structure Perfect (nlpsol : SolverCall ℝ V → Py (List ℝ)) : Prop where
  sound : ∀ c z, nlpsol c = .ok z → c.IsOptimal z
  complete : ∀ c z, c.IsOptimal z → ∃ z', nlpsol c = .ok z'

theorem exists_perfect : ∃ nlpsol : SolverCall ℝ V → Py (List ℝ), Perfect nlpsol := by
  classical
  refine ⟨fun c => if h : ∃ z, c.IsOptimal z then .ok h.choose else .error .assertion, fun c z h => ?_, fun c z h => ?_⟩
  · by_cases he : ∃ z, c.IsOptimal z
    · rw [dif_pos he] at h; cases h; exact he.choose_spec
    · rw [dif_neg he] at h; cases h
  · exact ⟨_, dif_pos ⟨z, h⟩⟩

theorem weights_length (hM : MeshFor w scheme n arg M) {W : List ℝ}
    (hW : compQuadWeights ⟨w.method, w.tau0, w.tau1, tausFn w.lib w.tau0 w.tau1 scheme⟩ M.orders = .ok W) :
    W.length = M.N := by
  obtain ⟨W', h1, h2, -⟩ := compQuadWeights_spec _ M.orders hM.good.nonempty M.nodes
    (fun p hp => ⟨hM.nodes p hp, hM.good.length p hp, hM.good.nodup p hp⟩ :
      GoodNodes ⟨w.method, w.tau0, w.tau1, tausFn w.lib w.tau0 w.tau1 scheme⟩ M.orders M.nodes)
  rw [hW] at h1
  cases h1
  exact h2

/-- **C70** `solve` with a perfect solver returns, for a continuous problem that has a feasible trajectory with the
requested widths and bounded sublevel sets; what is shown is a cheapest such trajectory. -/
theorem C70_solve (hv : ValidOCP ocp) (hs : ocp.SettingsOK) (hsc : ocp.PosScales)
    (hM : MeshFor w scheme n arg M) (hn : M.orders.length = n) (hlt : w.tau0 < w.tau1) {a : SolveArgs ℝ V}
    (hacc : w.accepts a.plugin (solverOptions w.vals a.plugin a.options) = true)
    (hwid : GoodWidths ocp n a.widths)
    (ht : ∀ ph < ocp.nPhases, entry ocp.t00 ph 0 0 ≠ entry ocp.tf0 ph 0 0) (hptp : ptp ≠ [])
    (hc : CtsOCP ocp) (hne : ∃ T, SolvesOCP ocp M T ∧ WidthsAre ocp n a.widths T)
    (hbd : ∀ W, compQuadWeights ⟨w.method, w.tau0, w.tau1, tausFn w.lib w.tau0 w.tau1 scheme⟩ M.orders = .ok W →
      ∀ J₀, ∃ R, ∀ T J, SolvesOCP ocp M T → WidthsAre ocp n a.widths T → PhysCost ocp M W T J → J ≤ J₀ →
        BoundedBy ocp M R T) (hperf : Perfect nlpsol) :
    ∃ s p r T W J, mpSolve w nlpsol ocp ptp n arg scheme a rx rdx = .ok (s, p, r) ∧
      compQuadWeights ⟨w.method, w.tau0, w.tau1, tausFn w.lib w.tau0 w.tau1 scheme⟩ M.orders = .ok W ∧
      SolvesOCP ocp M T ∧ WidthsAre ocp n a.widths T ∧ p.Shows ocp M T ∧ PhysCost ocp M W T J ∧
      ∀ T' J', SolvesOCP ocp M T' → WidthsAre ocp n a.widths T' → PhysCost ocp M W T' J' → J ≤ J' := by
  obtain ⟨c, W, hWeq, hsol, hobj, hret⟩ := C52_solve_returns (ptp := ptp) (rx := rx) (rdx := rdx) hv hs hsc hM hn hlt
    hacc hwid ht hptp
  obtain ⟨T, J, ⟨k1, k2⟩, k3, k4⟩ := exists_cheapest hM.good hc (weights_length hM hWeq) hv.runningCosts
    (P := fun T => SolvesOCP ocp M T ∧ WidthsAre ocp n a.widths T)
    (fun {S T} h hS => ⟨h.solves hs hS.1, hS.2.iff.2 fun ph hp s hs => h.w ph hp s (by omega)⟩)
    (fun {S σ} hσ h => ⟨closure_solves hσ hc fun τ hτ => (h τ hτ).1, closure_widthsAre hσ fun τ hτ => (h τ hτ).2⟩)
    (fun J₀ => by
      obtain ⟨R, hR⟩ := hbd W hWeq J₀
      exact ⟨R, fun T J hT => hR T J hT.1 hT.2⟩) hne
  have hopt : c.IsOptimal (ocp.packVec M.N T) := by
    refine ⟨(hsol _).2 ⟨T, k1, k2, rfl⟩, fun z hz => ?_⟩
    obtain ⟨T', h1, h2, rfl⟩ := (hsol z).1 hz
    rw [hobj T J k2 k3, hobj T' _ h2 (physCost_costOf W T')]
    exact k4 T' _ ⟨h1, h2⟩ (physCost_costOf W T')
  obtain ⟨z, hz⟩ := hperf.complete c _ hopt
  obtain ⟨⟨s, p, r⟩, hout⟩ := hret nlpsol z hz (hperf.sound c z hz).sol.x
  obtain ⟨T, W, J, h⟩ := C53_solve_optimal hout hv hs hsc hM hperf.sound
  exact ⟨s, p, r, T, W, J, hout, h⟩

/-- **C70** The same with finite bounds on all variables. -/
theorem C70_solve_box (hv : ValidOCP ocp) (hs : ocp.SettingsOK) (hsc : ocp.PosScales)
    (hM : MeshFor w scheme n arg M) (hn : M.orders.length = n) (hlt : w.tau0 < w.tau1) {a : SolveArgs ℝ V}
    (hacc : w.accepts a.plugin (solverOptions w.vals a.plugin a.options) = true)
    (hwid : GoodWidths ocp n a.widths)
    (ht : ∀ ph < ocp.nPhases, entry ocp.t00 ph 0 0 ≠ entry ocp.tf0 ph 0 0) (hptp : ptp ≠ [])
    (hc : CtsOCP ocp) (hb : FiniteBounds ocp) (hne : ∃ T, SolvesOCP ocp M T ∧ WidthsAre ocp n a.widths T)
    (hperf : Perfect nlpsol) :
    ∃ s p r T W J, mpSolve w nlpsol ocp ptp n arg scheme a rx rdx = .ok (s, p, r) ∧
      compQuadWeights ⟨w.method, w.tau0, w.tau1, tausFn w.lib w.tau0 w.tau1 scheme⟩ M.orders = .ok W ∧
      SolvesOCP ocp M T ∧ WidthsAre ocp n a.widths T ∧ p.Shows ocp M T ∧ PhysCost ocp M W T J ∧
      ∀ T' J', SolvesOCP ocp M T' → WidthsAre ocp n a.widths T' → PhysCost ocp M W T' J' → J ≤ J' := by
  refine C70_solve hv hs hsc hM hn hlt hacc hwid ht hptp hc hne (fun W _ J₀ => ?_) hperf
  obtain ⟨T₀, -, h₀⟩ := hne
  obtain ⟨R, hR⟩ := hb.bounded (M := M) fun s ph => |T₀.w s ph|
  refine ⟨R, fun T J hT hw _ _ => hR T hT.1.bounds fun ph hp s hs => ?_⟩
  rw [h₀.iff.1 hw ph hp s (by omega)]

/-- **C70** `mpopt_adaptive.solve` with a perfect solver returns, for a continuous problem with finite bounds that has
an admissible trajectory; what is shown is a cheapest one. -/
theorem C70_adaptive {lbh ubh tol : List ℝ} {mid : Bool} {s : AdaptOpt ℝ V} {a : SolveArgs ℝ V}
    (hf : s.Ready w ocp n arg scheme lbh ubh tol mid)
    (hv : ValidOCP ocp) (hs : ocp.SettingsOK) (hsc : ocp.PosScales) (hlb : lbh.length = ocp.nPhases)
    (hub : ubh.length = ocp.nPhases) (htol : tol.length = ocp.nPhases) (hM : MeshFor w scheme n arg M)
    (hlt : w.tau0 < w.tau1) (hgt : s.gridType = List.replicate ocp.nPhases "fixed")
    (hacc : w.accepts a.plugin (solverOptions w.vals a.plugin a.options) = true)
    (hpos : ∀ v ∈ lbh, 0 < v)
    (ht : ∀ ph < ocp.nPhases, entry ocp.t00 ph 0 0 ≠ entry ocp.tf0 ph 0 0) (hptp : ptp ≠ [])
    (hc : CtsOCP ocp) (hb : FiniteBounds ocp) (hne : ∃ T, SolvesAdaptive ocp M T lbh ubh tol mid)
    (hperf : Perfect nlpsol) :
    ∃ z p r T W J, (s.solve w nlpsol a).2 = .ok z ∧
      (s.solve w nlpsol a).1.processResults w ptp false rx rdx = .ok (p, r) ∧
      compQuadWeights ⟨w.method, w.tau0, w.tau1, tausFn w.lib w.tau0 w.tau1 scheme⟩ M.orders = .ok W ∧
      SolvesAdaptive ocp M T lbh ubh tol mid ∧ p.Shows ocp M T ∧ PhysCost ocp M W T J ∧
      ∀ T' J', SolvesAdaptive ocp M T' lbh ubh tol mid → PhysCost ocp M W T' J' → J ≤ J' := by
  obtain ⟨c, W, hWeq, hsol, hobj, hret⟩ := C54_adaptive_returns (a := a) (ptp := ptp) (rx := rx) (rdx := rdx) hf hv hs hsc
    hlb hub htol hM hlt hgt hacc hpos ht hptp
  obtain ⟨T, J, k1, k3, k4⟩ := exists_cheapest hM.good hc (weights_length hM hWeq) hv.runningCosts
    (P := fun T => SolvesAdaptive ocp M T lbh ubh tol mid)
    (fun {S T} h hS => h.solvesAdaptive hs hS)
    (fun {S σ} hσ h => closure_solvesAdaptive hσ hc h)
    (fun J₀ => by
      obtain ⟨R, hR⟩ := hb.bounded (M := M) fun s ph => |lbh.getD ph 0| + |ubh.getD ph 0|
      refine ⟨R, fun T J hT _ _ => hR T hT.1.bounds fun ph hp s hs => ?_⟩
      have h1 := (hT.1.widths ph hp).lower s hs
      have h2 := (hT.1.widths ph hp).upper s hs
      exact Within.size (lo := .fin _) (hi := .fin _) ⟨h1, h2⟩ ⟨_, rfl⟩ ⟨_, rfl⟩) hne
  obtain ⟨z, hz, hzc⟩ := hobj T J k1 k3
  have hopt : c.IsOptimal z := by
    refine ⟨hz, fun z' hz' => ?_⟩
    obtain ⟨T', h1, h2⟩ := hsol z' hz'
    rw [hzc]
    exact k4 T' _ h1 h2
  obtain ⟨z, hz⟩ := hperf.complete c _ hopt
  obtain ⟨g1, ⟨p, r⟩, g2⟩ := hret nlpsol z hz (hperf.sound c z hz).sol
  obtain ⟨T, W, J, h⟩ := C55_adaptive_optimal hf hv hs hsc hlb hub htol hM hperf.sound [] a (Prod.ext rfl g1) g2
  exact ⟨z, p, r, T, W, J, g1, g2, h⟩

end MPOpt
