import Verif.Lemmas.Grid
import Verif.Lemmas.Vec
import Verif.Lemmas.Rows
import Verif.Props.Composite

/-! # Constraint blocks of a phase in closed form -/

set_option autoImplicit false
set_option linter.unusedSectionVars false

namespace MPOpt
open Polynomial

theorem zipWith_map_range {α β γ : Type} (op : α → β → γ) (n : Nat) (a : Nat → α) (b : Nat → β) :
    List.zipWith op ((List.range n).map a) ((List.range n).map b) =
      (List.range n).map fun i => op (a i) (b i) := by
  apply List.ext_getElem <;> simp

theorem zipWith_flatMap_range {α β γ : Type} (op : α → β → γ) (n m : Nat) (a : Nat → Nat → α)
    (b : Nat → Nat → β) :
    List.zipWith op ((List.range n).flatMap fun j => (List.range m).map (a j))
      ((List.range n).flatMap fun j => (List.range m).map (b j)) =
      (List.range n).flatMap fun j => (List.range m).map fun i => op (a j i) (b j i) := by
  rw [flatMap_range_eq, flatMap_range_eq, flatMap_range_eq, zipWith_map_range]

theorem length_flatMap_range {α : Type} (n m : Nat) (a : Nat → Nat → α) :
    ((List.range n).flatMap fun j => (List.range m).map (a j)).length = n * m := by
  rw [flatMap_range_eq]; simp

theorem getD_map_range {α : Type} (n : Nat) (g : Nat → α) (d : α) {j : Nat} (hj : j < n) :
    ((List.range n).map g).getD j d = g j := by
  simp [hj]

theorem getD_map_of_getElem? {α β : Type} {l : List α} {f : α → β} {i : Nat} {a : α} {d : β}
    (h : l[i]? = some a) : (l.map f).getD i d = f a := by
  simp [h]

variable {K : Type}

variable {W : Ext K → Ext K → K → Prop}

theorem holdsBy_const (g : List K) (lo hi : Ext K) :
    HoldsBy W g (List.replicate g.length lo) (List.replicate g.length hi) ↔
      ∀ v ∈ g, W lo hi v := by
  constructor
  · rintro ⟨-, -, h⟩ v hv
    obtain ⟨i, hi, rfl⟩ := List.mem_iff_getElem.1 hv
    exact h i _ _ _ (List.getElem?_eq_getElem hi) (by simp [hi]) (by simp [hi])
  · intro h
    refine ⟨by simp, by simp, fun i v l u hv hl hu => ?_⟩
    have e1 := List.mem_of_getElem? hl
    have e2 := List.mem_of_getElem? hu
    rw [(List.mem_replicate.1 e1).2, (List.mem_replicate.1 e2).2]
    exact h v (List.mem_of_getElem? hv)

theorem holds_const [LE K] (g : List K) (lo hi : Ext K) :
    Holds g (List.replicate g.length lo) (List.replicate g.length hi) ↔
      ∀ v ∈ g, Within lo hi v := holdsBy_const g lo hi

/-- Length bookkeeping of a block. -/
def Disc.Block.Sized (B : Disc.Block K) : Prop :=
  B.g.length = B.lo.length ∧ B.g.length = B.hi.length

section
variable [Field K]

/-- The rows of a block hold at a point. -/
def Disc.Block.Sat [LE K] (B : Disc.Block K) (σ : Env K) : Prop :=
  Holds (evalAll B.g σ) B.lo B.hi

/-- The rows of a block hold at a point in the sense of `W`. -/
def Disc.Block.SatBy (B : Disc.Block K) (W : Ext K → Ext K → K → Prop) (σ : Env K) : Prop :=
  HoldsBy W (evalAll B.g σ) B.lo B.hi

theorem Disc.Block.sat_iff_by [LE K] (B : Disc.Block K) (σ : Env K) : B.Sat σ ↔ B.SatBy Within σ := Iff.rfl

open Disc (Block NodeArg)

theorem sized_empty : (Block.empty : Block K).Sized := ⟨rfl, rfl⟩

theorem sized_const (g : List (SX K)) (lo hi : Ext K) : (Block.const g lo hi).Sized := by
  constructor <;> simp [Block.const]

theorem sized_append {A B : Block K} (hA : A.Sized) (hB : B.Sized) : (A.append B).Sized := by
  constructor
  · simp [Block.append, hA.1, hB.1]
  · simp [Block.append, hA.2, hB.2]

theorem length_evalAll (l : List (SX K)) (σ : Env K) : (evalAll l σ).length = l.length := by
  simp [evalAll]

theorem satBy_empty (σ : Env K) : (Block.empty : Block K).SatBy W σ := holdsBy_nil

theorem sat_empty [LE K] (σ : Env K) : (Block.empty : Block K).Sat σ := holds_nil

theorem satBy_const (g : List (SX K)) (lo hi : Ext K) (σ : Env K) :
    (Block.const g lo hi).SatBy W σ ↔ ∀ e ∈ g, W lo hi (e σ) := by
  unfold Block.SatBy Block.const
  have : g.length = (evalAll g σ).length := (length_evalAll g σ).symm
  simp only [this]
  rw [holdsBy_const]
  simp [evalAll]

theorem sat_const [LE K] (g : List (SX K)) (lo hi : Ext K) (σ : Env K) :
    (Block.const g lo hi).Sat σ ↔ ∀ e ∈ g, Within lo hi (e σ) := satBy_const g lo hi σ

theorem satBy_append {A B : Block K} (hA : A.Sized) (σ : Env K) :
    (A.append B).SatBy W σ ↔ A.SatBy W σ ∧ B.SatBy W σ := by
  unfold Block.SatBy Block.append evalAll
  rw [List.map_append]
  exact holdsBy_append (by simpa using hA.1) (by simpa using hA.2)

theorem sat_append [LE K] {A B : Block K} (hA : A.Sized) (σ : Env K) :
    (A.append B).Sat σ ↔ A.Sat σ ∧ B.Sat σ := satBy_append hA σ

/-- Argument tuple at a node, evaluated. -/
def Disc.NodeArg.val (n : NodeArg K) (σ : Env K) : PArg K :=
  ⟨evalAll n.x σ, evalAll n.u σ, n.t σ, n.a.map (evalAll · σ)⟩

variable [LinearOrder K] {d : Disc K} {M : Mesh K} 

theorem getD_mem_ne {l : List K} {n : Nat} (hl : l.length = n) {P : K → Prop} (h : ∀ s ∈ l, P s)
    {j : Nat} (hj : j < n) : P (l.getD j 0) := by
  have : j < l.length := by omega
  rw [List.getD_eq_getElem _ _ this]
  exact h _ (List.getElem_mem this)

theorem evalAll_unscale {n : Nat} {sc : List K} {v : Nat → SX K} (σ : Env K) :
    evalAll ((List.range n).map fun j => fun σ => v j σ / sc.getD j 0) σ =
      (List.range n).map fun j => v j σ / sc.getD j 0 := by
  simp [evalAll, Function.comp_def]

/-- Arguments at the nodes are the physical ones. -/
theorem Disc.OnMesh.nodeArgs_spec (h : d.OnMesh M) (hv : ValidOCP d.ocp) {ph : Nat}
    (hph : ph < d.ocp.nPhases) :
    ∃ args, d.nodeArgs ph = .ok args ∧ args.length = M.N ∧
      ∀ (s i : Nat), M.Owns s i → ∃ n, args[M.idx s i]? = some n ∧ ∀ σ,
        n.val σ = d.ocp.pArg (physOf d.ocp σ) ph (M.idx s i)
          (M.time (physOf d.ocp σ) ph s (M.node s i)) ∧
        n.h σ = M.halfWidth (physOf d.ocp σ) ph s := by
  obtain ⟨g, hg, hlen, hspec⟩ := h.nodeGrid_spec hph
  have ha : d.au ph = .ok _ := if_pos hv.scaleA
  have hx : ∀ k, d.xu ph k = .ok _ := fun k => if_pos hv.scaleX
  have hu : ∀ k, d.uu ph k = .ok _ := fun k => if_pos hv.scaleU
  obtain ⟨args, hargs⟩ := mapM_exists (l := g.zipIdx) (f := fun (thi : (SX K × SX K) × Nat) => do
    let x ← d.xu ph thi.2
    let u ← d.uu ph thi.2
    return (⟨x, u, thi.1.1, d.ocp.aArg ((List.range d.ocp.na).map fun j => fun σ =>
      sym (.A j ph) σ / d.ocp.scaleA.getD j 0), thi.1.2⟩ : NodeArg K)) (by
    intro thi _
    simp only [hx, hu, py_bind_ok]
    exact ⟨_, rfl⟩)
  refine ⟨args, ?_, ?_, ?_⟩
  · unfold nodeArgs
    rw [ha, py_bind_ok, hg, py_bind_ok]
    exact hargs
  · rw [mapM_length hargs, List.length_zipIdx, hlen]
  · intro s i ho
    obtain ⟨th, hth, h1, h2⟩ := hspec s i ho
    have hk : M.idx s i < g.length := (List.getElem?_eq_some_iff.1 hth).1
    have hk1 : M.idx s i < g.zipIdx.length := by simpa using hk
    have hk2 : M.idx s i < args.length := by
      rw [mapM_length hargs]; exact hk1
    have e := mapM_getElem hargs _ hk1 hk2
    have hgi : g[M.idx s i] = th := by
      rw [List.getElem?_eq_getElem hk] at hth; exact Option.some.inj hth
    refine ⟨args[M.idx s i], List.getElem?_eq_getElem hk2, fun σ => ?_⟩
    simp only [List.getElem_zipIdx, Nat.zero_add, hx, hu, py_bind_ok, hgi] at e
    rw [py_pure_eq_ok] at e
    rw [← e]
    refine ⟨?_, h2 σ⟩
    simp only [NodeArg.val, OCP.pArg]
    rw [evalAll_unscale, evalAll_unscale, h1]
    congr 1
    unfold OCP.aArg
    by_cases hna : d.ocp.na = 0
    · simp [hna]
    · simp only [hna, if_false, Option.map_some]
      rw [evalAll_unscale]; rfl

/-- The three tables computed by the loop over the nodes. -/
theorem Disc.OnMesh.discretized_spec (h : d.OnMesh M) (hv : ValidOCP d.ocp) {ph : Nat}
    (hph : ph < d.ocp.nPhases) :
    ∃ (args : List (NodeArg K)) (F : VFun (PArg K) K) (pc : Option (VFun (PArg K) K))
        (rc : PArg K → K),
      d.nodeArgs ph = .ok args ∧ d.ocp.dynamics[ph]? = some F ∧
      d.ocp.pathConstraints[ph]? = some pc ∧ d.ocp.runningCosts[ph]? = some rc ∧
      d.discretized ph = .ok
        (args.map fun n => (List.range d.ocp.nx).map fun j => fun σ =>
            n.h σ * (d.ocp.scaleX.getD j 0 * F.f (n.val σ) j),
          match pc with
          | some C => args.map fun n => (List.range C.len).map fun c => fun σ => C.f (n.val σ) c
          | none => [],
          args.map fun n => fun σ => n.h σ * rc (n.val σ)) := by
  obtain ⟨args, hargs, -, -⟩ := h.nodeArgs_spec hv hph
  have h1 : ph < d.ocp.dynamics.length := by rw [hv.dynamics]; exact hph
  have h2 : ph < d.ocp.pathConstraints.length := by rw [hv.pathConstraints]; exact hph
  have h3 : ph < d.ocp.runningCosts.length := by rw [hv.runningCosts]; exact hph
  refine ⟨args, d.ocp.dynamics[ph], d.ocp.pathConstraints[ph], d.ocp.runningCosts[ph], hargs,
    List.getElem?_eq_getElem h1, List.getElem?_eq_getElem h2, List.getElem?_eq_getElem h3, ?_⟩
  have hF : d.ocp.dynamics[ph].len = d.ocp.nx := hv.dynLen _ (List.getElem_mem h1)
  have hrow : ∀ n : NodeArg K, d.dynRow d.ocp.dynamics[ph] n =
      .ok ((List.range d.ocp.nx).map fun j => fun σ =>
            n.h σ * (d.ocp.scaleX.getD j 0 * d.ocp.dynamics[ph].f (n.val σ) j)) := by
    intro n
    unfold dynRow
    simp only []
    rw [if_pos ⟨by simp [VFun.traceP, hF], hv.scaleX⟩]
    congr 1
    apply List.map_congr_left
    intro j hj
    have hj : j < d.ocp.nx := by simpa using hj
    funext σ
    have hl : j < (List.map (fun (i : ℕ) (σ : Env K) => d.ocp.dynamics[ph].f
        ⟨evalAll n.x σ, evalAll n.u σ, n.t σ, n.a.map (evalAll · σ)⟩ i)
        (List.range d.ocp.dynamics[ph].len)).length := by
      simp; omega
    unfold VFun.traceP
    rw [List.getD_eq_getElem _ _ hl]
    simp [NodeArg.val]
  have hm : args.mapM (d.dynRow d.ocp.dynamics[ph]) = .ok (args.map fun n =>
      (List.range d.ocp.nx).map fun j => fun σ =>
            n.h σ * (d.ocp.scaleX.getD j 0 * d.ocp.dynamics[ph].f (n.val σ) j)) := by
    rw [mapM_eq_ok, List.forall₂_map_right_iff, List.forall₂_same]
    intro n _; exact hrow n
  unfold discretized OCP.hasPath
  rw [pyIdx_ok h1, pyIdx_ok h2, pyIdx_ok h3]
  simp only [py_bind_ok, hargs, hm, pure, Except.pure]
  cases hpc : d.ocp.pathConstraints[ph] with
  | none => rfl
  | some C => rfl

/-- Row `i` of the composite differentiation matrix applied to scaled samples. -/
theorem Disc.OnMesh.compD_row (h : d.OnMesh M) (v : Nat → K) {s i : Nat} (ho : M.Owns s i) :
    d.compD.rowDot (M.idx s i) v = (derivative (M.piece v s)).eval (M.node s i) := by
  have hs : s < d.orders.length := by rw [← h.orders]; exact ho.1
  obtain ⟨D, hD, -, -, hrow⟩ := C06_composite_diff d.colloc d.orders M.nodes h.goodNodes 1
    (Or.inl rfl) (M.piece v) (by rw [← h.orders]; exact h.good.piece_degrees v) v
    (by rw [← h.orders]; exact h.good.piece_samples v)
  rw [h.compD] at hD
  cases hD
  have e : M.order s = d.orders[s] := by
    rw [Mesh.order_eq ho.1]; simp only [h.orders]
  have := hrow s hs i (by rw [← e]; exact ho.2.1) ho.2.2
  unfold Mesh.idx Mesh.node
  rw [h.orders, this, e]; rfl

theorem Disc.OnMesh.compD_shape (h : d.OnMesh M) : d.compD.rows = M.N ∧ d.compD.cols = M.N := by
  obtain ⟨D, hD, hr, hc, -⟩ := C06_composite_diff d.colloc d.orders M.nodes h.goodNodes 1
    (Or.inl rfl) (M.piece 0) (by rw [← h.orders]; exact h.good.piece_degrees 0) 0
    (by rw [← h.orders]; exact h.good.piece_samples 0)
  rw [h.compD] at hD
  cases hD
  unfold Mesh.N
  rw [h.orders]
  exact ⟨hr, hc⟩

/-- Scaled sample vectors: derivative rows in terms of physical values. -/
theorem Disc.OnMesh.compD_row_scaled (h : d.OnMesh M) (v p : Nat → K) (c : K) (hc : c ≠ 0)
    (hvp : ∀ k, p k = v k / c) {s i : Nat} (ho : M.Owns s i) :
    d.compD.rowDot (M.idx s i) v = c * (derivative (M.piece p s)).eval (M.node s i) := by
  have : v = fun k => c * p k := by
    funext k; rw [hvp, mul_div_cancel₀ _ hc]
  rw [h.compD_row v ho, this, Mesh.piece_smul, derivative_C_mul, eval_mul, eval_C]

theorem forall_node_iff (M : Mesh K) (hne : M.orders ≠ []) (P : Nat → Prop) :
    (∀ k < M.N, P k) ↔ ∀ s i, M.Owns s i → P (M.idx s i) := by
  constructor
  · intro h s i ho; exact h _ (Mesh.idx_lt ho.1 ho.2.1)
  · intro h k hk
    obtain ⟨s, i, ho, rfl⟩ := M.exists_owner hne hk
    exact h s i ho

/-- Dynamics rows are the scaled defects of the collocation equations. -/
theorem Disc.OnMesh.dynBlock_rows (h : d.OnMesh M) (hv : ValidOCP d.ocp) (hnx : 0 < d.ocp.nx)
    (hsc : ∀ s ∈ d.ocp.scaleX, s ≠ 0) {ph : Nat} (hph : ph < d.ocp.nPhases) :
    ∃ f c q B, d.discretized ph = .ok (f, c, q) ∧ d.dynBlock f ph = .ok B ∧
      B.g.length = d.ocp.nx * M.N ∧ B.Sized ∧
      ∀ (W : Ext K → Ext K → K → Prop) (σ : Env K), B.SatBy W σ ↔
        ∀ F, d.ocp.dynamics[ph]? = some F → ∀ j < d.ocp.nx, ∀ s i, M.Owns s i →
          W (.fin 0) (.fin 0) (d.ocp.scaleX.getD j 0 *
            ((derivative (M.piece (fun k => (physOf d.ocp σ).x ph k j) s)).eval (M.node s i) -
              M.halfWidth (physOf d.ocp σ) ph s * F.f (d.ocp.pArg (physOf d.ocp σ) ph (M.idx s i)
                (M.time (physOf d.ocp σ) ph s (M.node s i))) j)) := by
  obtain ⟨args', hargs', hlen, hspec⟩ := h.nodeArgs_spec hv hph
  obtain ⟨args, F, pc, rc, hargs, hF, -, -, hdisc⟩ := h.discretized_spec hv hph
  rw [hargs'] at hargs; cases hargs
  have hshape := h.compD_shape
  have hl := mtimesCol_blockDiag hnx d.compD (d.matX ph) rfl
    (by rw [hshape.2, h.N_eq]; rfl)
  set f : List (List (SX K)) := args'.map fun n => (List.range d.ocp.nx).map fun j => fun σ =>
            n.h σ * (d.ocp.scaleX.getD j 0 * F.f (n.val σ) j) with hf
  refine ⟨_, _, _, Block.const ((List.range d.ocp.nx).flatMap fun j => (List.range M.N).map fun i =>
      fun σ => (d.compD.rowDot i fun k => σ (.X ph k j)) - ((f.getD i []).getD j 0) σ)
      (.fin 0) (.fin 0), hdisc, ?_, ?_, sized_const _ _ _, ?_⟩
  · unfold dynBlock
    rw [hl, py_bind_ok]
    have hfl : (Mat.ofRows d.ocp.nx f).rows = M.N := by
      show f.length = M.N
      simp [hf, hlen]
    have hvec : (Mat.ofRows d.ocp.nx f).vec = (List.range d.ocp.nx).flatMap fun j =>
        (List.range M.N).map fun i => (f.getD i []).getD j 0 := by
      unfold Mat.vec
      rw [hfl]; rfl
    rw [hvec, hshape.1]
    unfold subCol
    rw [if_pos (by rw [length_flatMap_range, length_flatMap_range]), py_bind_ok,
      zipWith_flatMap_range]
    rfl
  · show List.length (List.flatMap _ _) = _
    rw [length_flatMap_range]
  · intro W σ
    rw [satBy_const]
    simp only [List.mem_flatMap, List.mem_map, List.mem_range]
    rw [hF]
    have conv : ∀ j < d.ocp.nx, ∀ s i, M.Owns s i →
        (d.compD.rowDot (M.idx s i) fun k => σ (.X ph k j)) - ((f.getD (M.idx s i) []).getD j 0) σ =
        d.ocp.scaleX.getD j 0 *
          ((derivative (M.piece (fun k => (physOf d.ocp σ).x ph k j) s)).eval (M.node s i) -
          M.halfWidth (physOf d.ocp σ) ph s * F.f (d.ocp.pArg (physOf d.ocp σ) ph (M.idx s i)
            (M.time (physOf d.ocp σ) ph s (M.node s i))) j) := by
      intro j hj s i ho
      have hne : d.ocp.scaleX.getD j 0 ≠ 0 := getD_mem_ne hv.scaleX hsc hj
      obtain ⟨n, hn, hval⟩ := hspec s i ho
      have hfi : (f.getD (M.idx s i) []).getD j 0 = fun σ =>
          n.h σ * (d.ocp.scaleX.getD j 0 * F.f (n.val σ) j) := by
        rw [hf, getD_map_of_getElem? hn, getD_map_range _ _ _ hj]
      rw [hfi]
      simp only []
      rw [h.compD_row_scaled (fun k => σ (.X ph k j)) (fun k => (physOf d.ocp σ).x ph k j)
        _ hne (fun k => rfl) ho, (hval σ).1, (hval σ).2]
      ring
    constructor
    · intro hh F' hF' j hj s i ho
      cases hF'
      rw [← conv j hj s i ho]
      exact hh _ ⟨j, hj, M.idx s i, Mesh.idx_lt ho.1 ho.2.1, rfl⟩
    · rintro hh e ⟨j, hj, k, hk, rfl⟩
      obtain ⟨s, i, ho, rfl⟩ := M.exists_owner h.good.nonempty hk
      simp only [conv j hj s i ho]
      exact hh F rfl j hj s i ho

/-- Dynamics rows ⇔ collocation equations. -/
theorem Disc.OnMesh.dynBlock_spec (h : d.OnMesh M) (hv : ValidOCP d.ocp) (hnx : 0 < d.ocp.nx)
    (hsc : ∀ s ∈ d.ocp.scaleX, s ≠ 0) {ph : Nat} (hph : ph < d.ocp.nPhases) :
    ∃ f c q B, d.discretized ph = .ok (f, c, q) ∧ d.dynBlock f ph = .ok B ∧
      B.g.length = d.ocp.nx * M.N ∧ B.Sized ∧
      ∀ σ, B.Sat σ ↔ CollocationOK d.ocp M (physOf d.ocp σ) ph := by
  obtain ⟨f, c, q, B, h1, h2, h3, h4, h5⟩ := h.dynBlock_rows hv hnx hsc hph
  refine ⟨f, c, q, B, h1, h2, h3, h4, fun σ => ?_⟩
  rw [B.sat_iff_by, h5]
  unfold CollocationOK
  refine forall₂_congr fun F _ => forall₂_congr fun j hj => forall₂_congr fun s i => forall_congr' fun _ => ?_
  rw [within_zero_zero, mul_eq_zero, or_iff_right (getD_mem_ne hv.scaleX hsc hj), sub_eq_zero]

end
end MPOpt
