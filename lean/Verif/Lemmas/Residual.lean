import Verif.Model.Residual
import Verif.Spec.Defect
import Verif.Lemmas.Nlp

/-! # Trajectories, time grid and interpolation of a solution in closed form -/

set_option autoImplicit false
set_option linter.unusedSectionVars false

namespace MPOpt
open Polynomial

variable {K : Type}

/-- The environment a solution vector and a width vector stand for. -/
def Disc.envOf [Field K] (d : Disc K) (z h : List K) : Env K :=
  bindSyms (d.allVars ++ d.widthParams) (z ++ h)

theorem map_bindSyms [Zero K] {l : List Sym} (hn : l.Nodup) {v : List K} (hv : v.length = l.length) :
    l.map (bindSyms l v) = v := by
  apply List.ext_getElem
  · simp [hv]
  · intro i h1 h2
    have hi : i < l.length := by simpa using h1
    simp only [List.getElem_map, bindSyms]
    rw [hn.idxOf_getElem i hi, List.getD_eq_getElem _ _ h2]

theorem bindSyms_map [Zero K] (l : List Sym) (σ : Env K) {s : Sym} (hs : s ∈ l) :
    bindSyms l (l.map σ) s = σ s := by
  have h := List.idxOf_lt_length_of_mem hs
  unfold bindSyms
  rw [List.getD_eq_getElem _ _ (by simpa using h), List.getElem_map, List.getElem_idxOf]

section
variable [Field K] [LinearOrder K] {d : Disc K} {M : Mesh K}

theorem Disc.nodup_allVars : d.allVars.Nodup := by
  unfold allVars
  rw [List.nodup_flatMap]
  refine ⟨fun ph _ => Disc.nodup_phaseVars ph, ?_⟩
  apply List.nodup_range.imp
  intro p q hne
  simp only [Function.onFun, List.disjoint_left, Disc.mem_phaseVars]
  rintro s hs1 hs2
  apply hne
  rcases hs1 with ⟨i, -, j, -, rfl⟩ | ⟨i, -, j, -, rfl⟩ | rfl | rfl | ⟨k, -, rfl⟩ <;>
    rcases hs2 with ⟨i', -, j', -, e⟩ | ⟨i', -, j', -, e⟩ | e | e | ⟨k', -, e⟩ <;>
    first
      | (cases e; rfl)
      | cases e

theorem Disc.mem_widthParams {s : Sym} : s ∈ d.widthParams ↔
    ∃ ph < d.ocp.nPhases, ∃ i < d.nSegments, s = .H i ph := by
  unfold widthParams
  simp only [List.mem_flatMap, List.mem_range, List.mem_map]
  constructor
  · rintro ⟨ph, h1, i, h2, rfl⟩; exact ⟨ph, h1, i, h2, rfl⟩
  · rintro ⟨ph, h1, i, h2, rfl⟩; exact ⟨ph, h1, i, h2, rfl⟩

theorem Disc.nodup_vars : (d.allVars ++ d.widthParams).Nodup := by
  rw [List.nodup_append]
  refine ⟨Disc.nodup_allVars, nodup_flatMap_range _ fun j i j' i' h => by cases h; exact ⟨rfl, rfl⟩,
    ?_⟩
  rintro a ha b hb rfl
  obtain ⟨ph, -, i, -, rfl⟩ := Disc.mem_widthParams.1 hb
  unfold allVars at ha
  simp only [List.mem_flatMap, Disc.mem_phaseVars] at ha
  obtain ⟨p, -, ⟨i, -, j, -, e⟩ | ⟨i, -, j, -, e⟩ | e | e | ⟨k, -, e⟩⟩ := ha <;> cases e

/-- Solution and width vectors are recovered from the environment. -/
theorem Disc.envOf_map {z h : List K} (hz : z.length = d.allVars.length)
    (hh : h.length = d.widthParams.length) :
    d.allVars.map (d.envOf z h) = z ∧ d.widthParams.map (d.envOf z h) = h := by
  have := map_bindSyms (d.nodup_vars) (v := z ++ h) (by simp [hz, hh])
  rw [List.map_append] at this
  exact List.append_inj this (by simp [hz])

/-- The width of segment `s` in the phase slice. -/
theorem phaseSlice_getElem? {z h : List K} (hz : z.length = d.allVars.length)
    (hh : h.length = d.widthParams.length) {ph s : Nat} (hph : ph < d.ocp.nPhases)
    (hs : s < d.nSegments) :
    (phaseSlice d.nSegments ph h)[s]? = some (d.envOf z h (.H s ph)) := by
  have e := (Disc.envOf_map hz hh).2
  unfold phaseSlice
  rw [List.getElem?_take_of_lt hs, List.getElem?_drop]
  conv_lhs => rw [← e]
  unfold Disc.widthParams
  rw [flatMap_range_eq]
  have hpos : 0 < d.nSegments := by omega
  have hlt : d.nSegments * ph + s < d.ocp.nPhases * d.nSegments := by
    calc d.nSegments * ph + s < d.nSegments * ph + d.nSegments := by omega
      _ = (ph + 1) * d.nSegments := by ring
      _ ≤ d.ocp.nPhases * d.nSegments := Nat.mul_le_mul_right _ hph
  rw [List.getElem?_map, List.getElem?_map, List.getElem?_range hlt]
  simp only [Option.map_some]
  rw [Nat.mul_add_div hpos, Nat.div_eq_of_lt hs, Nat.mul_add_mod, Nat.mod_eq_of_lt hs, Nat.add_zero]

theorem length_phaseSlice {h : List K} (hh : h.length = d.widthParams.length) {ph : Nat}
    (hph : ph < d.ocp.nPhases) : (phaseSlice d.nSegments ph h).length = d.nSegments := by
  unfold phaseSlice
  rw [List.length_take, List.length_drop, hh]
  unfold Disc.widthParams
  rw [length_flatMap_range]
  have : (ph + 1) * d.nSegments ≤ d.ocp.nPhases * d.nSegments := Nat.mul_le_mul_right _ hph
  have e : (ph + 1) * d.nSegments = d.nSegments * ph + d.nSegments := by ring
  omega

/-- Trajectory function of a phase in closed form. -/
theorem Disc.OnMesh.trajectories_spec (h : d.OnMesh M) {z hw : List K}
    (hz : z.length = d.allVars.length) (hh : hw.length = d.widthParams.length) {ph : Nat}
    (hph : ph < d.ocp.nPhases) :
    ∃ tr, d.trajectories ph z hw = .ok tr ∧
      tr.x = ⟨d.N, d.ocp.nx, fun i j => d.envOf z hw (.X ph i j)⟩ ∧
      tr.u = ⟨d.N, d.ocp.nu, fun i j => d.envOf z hw (.U ph i j)⟩ ∧
      tr.t.length = M.N ∧
      (∀ s i, M.Owns s i → tr.t[M.idx s i]? =
        some (M.time (physOf d.ocp (d.envOf z hw)) ph s (M.node s i))) ∧
      tr.t0 = (physOf d.ocp (d.envOf z hw)).t0 ph ∧ tr.tf = (physOf d.ocp (d.envOf z hw)).tf ph ∧
      tr.a = (List.range d.ocp.na).map fun k => d.envOf z hw (.A k ph) := by
  obtain ⟨g, hg, hl, hspec⟩ := h.nodeGrid_spec hph
  have key : d.trajectories ph z hw = .ok
      { x := ⟨d.N, d.ocp.nx, fun i j => d.envOf z hw (.X ph i j)⟩
        u := ⟨d.N, d.ocp.nu, fun i j => d.envOf z hw (.U ph i j)⟩
        t := g.map fun th => th.1 (d.envOf z hw)
        t0 := d.t0u ph (d.envOf z hw)
        tf := d.tfu ph (d.envOf z hw)
        a := (List.range d.ocp.na).map fun k => d.envOf z hw (.A k ph) } := by
    unfold trajectories
    rw [if_neg (by omega), hg]
    simp only [py_bind_ok]
    rw [if_neg (by simp [hz, hh])]
    rfl
  refine ⟨_, key, rfl, rfl, ?_, ?_, rfl, rfl, rfl⟩
  · simpa using hl
  · intro s i ho
    obtain ⟨th, h1, h2, -⟩ := hspec s i ho
    simp only [List.getElem?_map, h1, Option.map_some, h2]

/-- The interpolated times are the times of the taus. -/
theorem timeGridAt_spec (hM : M.Good) (T : Traj K) (ph : Nat) {t : List K}
    (ht : ∀ s i, M.Owns s i → t[M.idx s i]? = some (M.time T ph s (M.node s i)))
    {taus : List (List K)} (hlen : taus.length = M.orders.length) :
    timeGridAt t taus M.orders M.tau0 M.tau1 =
      .ok ((List.range M.orders.length).map fun s => (taus.getD s []).map (M.time T ph s)) := by
  have h0 : 0 < M.orders.length := List.length_pos_iff.2 hM.nonempty
  have hne := hM.tau_ne
  have e0 : t[0]? = some (M.time T ph 0 M.tau0) := by
    have := ht 0 0 ⟨h0, by omega, Or.inl rfl⟩
    rw [hM.node_first h0] at this
    simpa [Mesh.idx, segStart_zero] using this
  have eS : ∀ s, s < M.orders.length →
      pyIdx t (M.orders.take (s + 1)).sum = .ok (M.time T ph s M.tau1) := by
    intro s hs
    have := ht s (M.order s) ⟨hs, le_rfl, Or.inr (hM.order_pos hs)⟩
    rw [hM.node_last hs] at this
    rw [pyIdx_eq_ok, ← this]
    congr 1
    show segStart M.orders (s + 1) = _
    rw [segStart_succ _ hs, ← Mesh.order_eq hs]; rfl
  have endEq : ∀ s, M.time T ph (s + 1) M.tau0 = M.time T ph s M.tau1 := by
    intro s
    simp only [Mesh.time, Mesh.halfWidth, Finset.sum_range_succ]
    field_simp
    ring
  unfold timeGridAt
  have hends := mapM_ok (fun i => pyIdx t (M.orders.take (i + 1)).sum) (fun s => M.time T ph s M.tau1)
    (List.range M.orders.length) (fun s hs => eS s (by simpa using hs))
  rw [show pyIdx t 0 = .ok (M.time T ph 0 M.tau0) from pyIdx_eq_ok.2 e0]
  simp only [py_bind_ok, hends]
  apply mapM_ok
  intro s hs
  have hs : s < M.orders.length := by simpa using hs
  have hcum : ∀ k, k ≤ M.orders.length → pyIdx (M.time T ph 0 M.tau0 ::
      (List.range M.orders.length).map fun s => M.time T ph s M.tau1) k =
      .ok (if k = 0 then M.time T ph 0 M.tau0 else M.time T ph (k - 1) M.tau1) := by
    intro k hk
    rw [pyIdx_eq_ok]
    cases k with
    | zero => rfl
    | succ k => simp [show k < M.orders.length by omega]
  rw [hcum s (by omega), hcum (s + 1) (by omega)]
  have hs' : s < taus.length := by omega
  have hne' : ¬ M.tau1 = M.tau0 := fun e => hne (by rw [e, sub_self])
  simp only [py_bind_ok, if_neg hne', pyIdx_ok hs', Nat.add_sub_cancel, Nat.add_one_ne_zero, if_false]
  rw [List.getD_eq_getElem _ _ hs']
  have hstart : (if s = 0 then M.time T ph 0 M.tau0 else M.time T ph (s - 1) M.tau1) =
      M.time T ph s M.tau0 := by
    cases s with
    | zero => rfl
    | succ s => simp [endEq]
  rw [hstart]
  show Except.ok _ = Except.ok _
  congr 1
  apply List.map_congr_left
  intro x _
  simp only [Mesh.time]
  field_simp
  ring

/-- Row of a product of a numerical matrix with samples. -/
theorem mtimes_row {A B : Mat K} (hs : A.cols = B.rows) :
    A.mtimes B = .ok ⟨A.rows, B.cols, fun i j => A.rowDot i fun k => B.e k j⟩ := by
  unfold Mat.mtimes
  rw [if_pos hs]; rfl

end

/-- Everything the residual functions need: a solved problem on a mesh, with vectors of the right lengths and
non-zero scales. -/
structure Solved.Ready [Field K] [LinearOrder K] (e : Solved K) (M : Mesh K) : Prop where
  mesh : e.disc.OnMesh M
  valid : ValidOCP e.disc.ocp
  z : e.z.length = e.disc.allVars.length
  widths : e.widths.length = e.disc.widthParams.length
  scaleX : ∀ s ∈ e.disc.ocp.scaleX, s ≠ 0
  scaleU : ∀ s ∈ e.disc.ocp.scaleU, s ≠ 0
  scaleA : ∀ s ∈ e.disc.ocp.scaleA, s ≠ 0

/-- The physical trajectory of a solved problem. -/
def Solved.traj [Field K] (e : Solved K) : Traj K :=
  physOf e.disc.ocp (e.disc.envOf e.z e.widths)

section
variable [Field K] [LinearOrder K] {e : Solved K} {M : Mesh K}

/-- The result `r` of an interpolation at `taus`, in terms of the physical trajectory. -/
structure InterpOK (e : Solved K) (M : Mesh K) (ph : Nat) (taus : List (List K)) (r : Solved.Interp K) :
    Prop where
  grid : r.taus = taus
  t : r.t = ((List.range M.orders.length).map fun s =>
    (taus.getD s []).map (M.time e.traj ph s)).flatten
  t0 : r.t0 = e.traj.t0 ph
  tf : r.tf = e.traj.tf ph
  a : r.a = (List.range e.disc.ocp.na).map fun k => e.disc.ocp.scaleA.getD k 0 * e.traj.a ph k
  xcols : r.x.cols = e.disc.ocp.nx
  ucols : r.u.cols = e.disc.ocp.nu
  dxcols : r.dx.cols = e.disc.ocp.nx
  x : ∀ (s : Nat) (hs : s < taus.length) (i : Nat) (hi : i < taus[s].length), ∀ j < e.disc.ocp.nx,
    r.x.e (segStart (taus.map List.length) s + i) j =
      e.disc.ocp.scaleX.getD j 0 * (M.piece (fun k => e.traj.x ph k j) s).eval taus[s][i]
  u : ∀ (s : Nat) (hs : s < taus.length) (i : Nat) (hi : i < taus[s].length), ∀ j < e.disc.ocp.nu,
    r.u.e (segStart (taus.map List.length) s + i) j =
      e.disc.ocp.scaleU.getD j 0 * (M.piece (fun k => e.traj.u ph k j) s).eval taus[s][i]
  dx : ∀ (s : Nat) (hs : s < taus.length) (i : Nat) (hi : i < taus[s].length), ∀ j < e.disc.ocp.nx,
    r.dx.e (segStart (taus.map List.length) s + i) j =
      e.disc.ocp.scaleX.getD j 0 * (derivative (M.piece (fun k => e.traj.x ph k j) s)).eval taus[s][i]
  xrows : r.x.rows = (taus.map List.length).sum
  urows : r.u.rows = (taus.map List.length).sum

namespace Solved.Ready
variable (h : e.Ready M)
include h

theorem scX {j : Nat} (hj : j < e.disc.ocp.nx) : e.disc.ocp.scaleX.getD j 0 ≠ 0 :=
  getD_mem_ne h.valid.scaleX (P := fun s => s ≠ 0) h.scaleX hj

theorem scU {j : Nat} (hj : j < e.disc.ocp.nu) : e.disc.ocp.scaleU.getD j 0 ≠ 0 :=
  getD_mem_ne h.valid.scaleU (P := fun s => s ≠ 0) h.scaleU hj

theorem scA {j : Nat} (hj : j < e.disc.ocp.na) : e.disc.ocp.scaleA.getD j 0 ≠ 0 :=
  getD_mem_ne h.valid.scaleA (P := fun s => s ≠ 0) h.scaleA hj

/-- Scaled state samples are scale times physical ones. -/
theorem piece_x {ph s j : Nat} (hj : j < e.disc.ocp.nx) :
    M.piece (fun k => e.disc.envOf e.z e.widths (.X ph k j)) s =
      C (e.disc.ocp.scaleX.getD j 0) * M.piece (fun k => e.traj.x ph k j) s := by
  rw [← Mesh.piece_smul]
  congr 1
  funext k
  have := h.scX hj
  show _ = _ * (_ / _)
  field_simp

theorem piece_u {ph s j : Nat} (hj : j < e.disc.ocp.nu) :
    M.piece (fun k => e.disc.envOf e.z e.widths (.U ph k j)) s =
      C (e.disc.ocp.scaleU.getD j 0) * M.piece (fun k => e.traj.u ph k j) s := by
  rw [← Mesh.piece_smul]
  congr 1
  funext k
  have := h.scU hj
  show _ = _ * (_ / _)
  field_simp

/-- Interpolation of the solution at given taus in closed form. -/
theorem interpolate_spec {ph : Nat} (hph : ph < e.disc.ocp.nPhases) {taus : List (List K)}
    (hlen : taus.length = M.orders.length) :
    ∃ r, e.interpolate ph (some taus) = .ok r ∧ InterpOK e M ph taus r := by
  obtain ⟨tr, htr, hx, hu, htl, ht, ht0, htf, ha⟩ := h.mesh.trajectories_spec h.z h.widths hph
  have hord := h.mesh.orders
  have hgrid := timeGridAt_spec h.mesh.good e.traj ph ht hlen
  rw [hord, h.mesh.tau0, h.mesh.tau1] at hgrid
  have hlen' : taus.length = e.disc.orders.length := by rw [← hord]; exact hlen
  have hI : ∀ v : Nat → K, _ := fun v => C08_composite_interp e.disc.colloc e.disc.orders M.nodes
    h.mesh.goodNodes taus hlen' (M.piece v) (hord ▸ h.mesh.good.piece_degrees v) v
    (hord ▸ h.mesh.good.piece_samples v)
  have hD : ∀ v : Nat → K, _ := fun v => C08_composite_interp_derivative e.disc.colloc e.disc.orders
    M.nodes h.mesh.goodNodes taus hlen' 1 (Or.inl rfl) (M.piece v)
    (hord ▸ h.mesh.good.piece_degrees v) v (hord ▸ h.mesh.good.piece_samples v)
  obtain ⟨I, hI1, hI2, hI3, -⟩ := hI 0
  obtain ⟨D, hD1, hD2, hD3, -⟩ := hD 0
  have hIv : ∀ (v : Nat → K) (s : Nat) (hs : s < taus.length) (i : Nat) (hi : i < taus[s].length),
      I.rowDot (segStart (taus.map List.length) s + i) v = (M.piece v s).eval taus[s][i] := by
    intro v s hs i hi
    obtain ⟨I', h1, -, -, h4⟩ := hI v
    rw [hI1] at h1; cases h1
    exact h4 s hs i hi
  have hDv : ∀ (v : Nat → K) (s : Nat) (hs : s < taus.length) (i : Nat) (hi : i < taus[s].length),
      D.rowDot (segStart (taus.map List.length) s + i) v =
        (derivative (M.piece v s)).eval taus[s][i] := by
    intro v s hs i hi
    obtain ⟨D', h1, -, -, h4⟩ := hD v
    rw [hD1] at h1; cases h1
    exact h4 s hs i hi
  have sI : ∀ B : Mat K, B.rows = e.disc.N → I.cols = B.rows := by
    intro B hB; rw [hI3, hB]; rfl
  have sD : ∀ B : Mat K, B.rows = e.disc.N → D.cols = B.rows := by
    intro B hB; rw [hD3, hB]; rfl
  have rx : tr.x.rows = e.disc.N := by rw [hx]
  have ru : tr.u.rows = e.disc.N := by rw [hu]
  have key : e.interpolate ph (some taus) = .ok
      { x := ⟨I.rows, tr.x.cols, fun i j => I.rowDot i fun k => tr.x.e k j⟩
        u := ⟨I.rows, tr.u.cols, fun i j => I.rowDot i fun k => tr.u.e k j⟩
        t := ((List.range e.disc.orders.length).map fun s =>
          (taus.getD s []).map (M.time e.traj ph s)).flatten
        a := tr.a
        dx := ⟨D.rows, tr.x.cols, fun i j => D.rowDot i fun k => tr.x.e k j⟩
        du := ⟨D.rows, tr.u.cols, fun i j => D.rowDot i fun k => tr.u.e k j⟩
        taus := taus, t0 := tr.t0, tf := tr.tf } := by
    unfold interpolate
    simp only [htr, py_bind_ok, hgrid, hI1, hD1, mtimes_row (sI _ rx), mtimes_row (sI _ ru),
      mtimes_row (sD _ rx), mtimes_row (sD _ ru)]
    rfl
  refine ⟨_, key, ⟨rfl, ?_, ht0, htf, ?_, ?_, ?_, ?_, ?_, ?_, ?_, hI2, hI2⟩⟩
  · simp only; rw [← hord]
  · simp only [ha]
    apply List.map_congr_left
    intro k hk
    have := h.scA (j := k) (by simpa using hk)
    show _ = _ * (_ / _)
    field_simp
  · simp only [hx]
  · simp only [hu]
  · simp only [hx]
  · intro s hs i hi j hj
    simp only [hx]
    rw [hIv, h.piece_x hj, eval_mul, eval_C]
  · intro s hs i hi j hj
    simp only [hu]
    rw [hIv, h.piece_u hj, eval_mul, eval_C]
  · intro s hs i hi j hj
    simp only [hx]
    rw [hDv, h.piece_x hj, derivative_C_mul, eval_mul, eval_C]

omit h in
/-- Time of interpolated point. -/
theorem _root_.MPOpt.InterpOK.time_eq {ph : Nat} {taus : List (List K)} {r : Solved.Interp K}
    (hr : InterpOK e M ph taus r)
    (hlen : taus.length = M.orders.length) {s : Nat} (hs : s < taus.length) {i : Nat}
    (hi : i < taus[s].length) :
    pyIdx r.t (segStart (taus.map List.length) s + i) = .ok (M.time e.traj ph s taus[s][i]) := by
  have hs' : s < M.orders.length := by omega
  set L := (List.range M.orders.length).map fun s => (taus.getD s []).map (M.time e.traj ph s) with hL
  have hl : L.map List.length = taus.map List.length := by
    apply List.ext_getElem
    · simp [hL, hlen]
    · intro k h1 h2
      have : k < taus.length := by simpa using h2
      simp [hL, this]
  have hLs : L.getD s [] = taus[s].map (M.time e.traj ph s) := by
    rw [hL, getD_map_range _ _ _ hs', List.getD_eq_getElem _ _ hs]
  have hlt : segStart (taus.map List.length) s + i < r.t.length := by
    rw [hr.t, List.length_flatten, ← hL, hl]
    have := segStart_add_le (l := taus.map List.length) (s := s) (t := taus.length) (by simpa using hs)
      hs
    have h2 := segStart_le_sum (taus.map List.length) taus.length
    simp at this
    omega
  rw [pyIdx_ok hlt]
  congr 1
  have := getD_flatten L 0 s i (by rw [hLs]; simpa using hi)
  rw [hl, hLs, hL, ← hr.t] at this
  rw [List.getD_eq_getElem _ _ hlt] at this
  rw [this, List.getD_eq_getElem _ _ (by simpa using hi), List.getElem_map]

/-- The user's dynamics are called with physical values. -/
theorem dynAt_spec {ph : Nat} {taus : List (List K)} {r : Solved.Interp K} (hr : InterpOK e M ph taus r)
    (hlen : taus.length = M.orders.length) {s : Nat} (hs : s < taus.length) {i : Nat}
    (hi : i < taus[s].length) (F : VFun (PArg K) K) :
    e.dynAt F r (segStart (taus.map List.length) s + i) =
      .ok (F.call (e.disc.ocp.pArgAt M e.traj ph s taus[s][i])) := by
  have div : ∀ (n : Nat) (f g : Nat → K) (sc : List K), sc.length = n →
      (∀ j < n, f j = sc.getD j 0 * g j) → (∀ j < n, sc.getD j 0 ≠ 0) →
      divRow ((List.range n).map f) sc = .ok ((List.range n).map g) := by
    intro n f g sc hsc hf hne
    unfold divRow
    rw [if_pos (by simp [hsc])]
    congr 1
    apply List.ext_getElem
    · simp [hsc]
    · intro j h1 h2
      have hj : j < n := by simpa using h2
      have hne := hne j hj
      have hf := hf j hj
      rw [List.getD_eq_getElem _ _ (by omega)] at hne hf
      simp only [List.getElem_zipWith, List.getElem_map, List.getElem_range, hf]
      field_simp
  have e1 := div e.disc.ocp.nx _ (fun j => (M.piece (fun k => e.traj.x ph k j) s).eval taus[s][i])
    e.disc.ocp.scaleX h.valid.scaleX (fun j hj => hr.x s hs i hi j hj) fun j hj => h.scX hj
  have e2 := div e.disc.ocp.nu _ (fun j => (M.piece (fun k => e.traj.u ph k j) s).eval taus[s][i])
    e.disc.ocp.scaleU h.valid.scaleU (fun j hj => hr.u s hs i hi j hj) fun j hj => h.scU hj
  have e3 := div e.disc.ocp.na _ (fun j => e.traj.a ph j)
    e.disc.ocp.scaleA h.valid.scaleA (fun j hj => rfl) fun j hj => h.scA hj
  unfold dynAt Mat.row
  rw [hr.xcols, hr.ucols, hr.a, e1, e2, e3, hr.time_eq hlen hs hi]
  rfl

theorem hSeg_spec {ph : Nat} (hph : ph < e.disc.ocp.nPhases) {taus : List (List K)}
    {r : Solved.Interp K} (hr : InterpOK e M ph taus r) {s : Nat} (hs : s < M.orders.length) :
    e.hSeg ph s r = .ok (M.halfWidth e.traj ph s) := by
  have hs' : s < e.disc.nSegments := by rw [← h.mesh.segments, ← h.mesh.orders]; exact hs
  have hne := h.mesh.good.tau_ne
  rw [h.mesh.tau0, h.mesh.tau1] at hne
  have e1 : pyIdx (e.phaseWidths ph) s = .ok (e.traj.w s ph) :=
    pyIdx_eq_ok.2 (phaseSlice_getElem? h.z h.widths hph hs')
  unfold hSeg
  rw [e1, py_bind_ok, if_neg (fun e => hne (by rw [e, sub_self])), hr.t0, hr.tf, ← h.mesh.tau0,
    ← h.mesh.tau1]
  rfl

omit h in
theorem _root_.MPOpt.mapM_range_idx {α β : Type} (l : List α) (f : Nat → Py β) (g : α → β)
    (h : ∀ (i : Nat) (hi : i < l.length), f i = .ok (g l[i])) :
    (List.range l.length).mapM f = .ok (l.map g) := by
  by_cases hl : l = []
  · subst hl; rfl
  have h0 : 0 < l.length := List.length_pos_iff.2 hl
  rw [mapM_ok f (fun i => if hi : i < l.length then g l[i] else g l[0]) _ (by
    intro i hi
    have hi : i < l.length := by simpa using hi
    rw [h i hi, dif_pos hi])]
  congr 1
  apply List.ext_getElem
  · simp
  · intro i h1 h2
    have : i < l.length := by simpa using h1
    simp [this]

/-- `get_dynamics_residuals_single_phase` in closed form. -/
theorem dynPhase_spec {ph : Nat} (hph : ph < e.disc.ocp.nPhases) {taus : List (List K)}
    (hlen : taus.length = M.orders.length) {F : VFun (PArg K) K}
    (hF : e.disc.ocp.dynamics[ph]? = some F) :
    e.dynPhase ph (some taus) = .ok
      { t := (List.range M.orders.length).map fun s => (taus.getD s []).map (M.time e.traj ph s)
        res := (List.range M.orders.length).map fun s =>
          if (taus.getD s []).length = 0 then none else
            some ((taus.getD s []).map fun tau => (List.range e.disc.ocp.nx).map fun j =>
              e.disc.ocp.scaleX.getD j 0 * e.disc.ocp.defect M e.traj F ph s tau j)
        dyn := (List.range M.orders.length).map fun s =>
          if (taus.getD s []).length = 0 then none else
            some ((taus.getD s []).map fun tau => (List.range e.disc.ocp.nx).map fun j =>
              M.halfWidth e.traj ph s * (F.f (e.disc.ocp.pArgAt M e.traj ph s tau) j *
                e.disc.ocp.scaleX.getD j 0)) } := by
  obtain ⟨r, hr, ok⟩ := h.interpolate_spec hph hlen
  have hns : e.disc.nSegments = M.orders.length := by rw [← h.mesh.segments, h.mesh.orders]
  have hFlen : F.len = e.disc.ocp.nx := h.valid.dynLen F (List.mem_of_getElem? hF)
  unfold dynPhase
  simp only [hr, py_bind_ok, pyIdx_eq_ok.2 hF, hns, ok.grid]
  rw [mapM_ok _ (fun s => ((taus.getD s []).map (M.time e.traj ph s),
    (if (taus.getD s []).length = 0 then none else
            some ((taus.getD s []).map fun tau => (List.range e.disc.ocp.nx).map fun j =>
              e.disc.ocp.scaleX.getD j 0 * e.disc.ocp.defect M e.traj F ph s tau j)),
    (if (taus.getD s []).length = 0 then none else
            some ((taus.getD s []).map fun tau => (List.range e.disc.ocp.nx).map fun j =>
              M.halfWidth e.traj ph s * (F.f (e.disc.ocp.pArgAt M e.traj ph s tau) j *
                e.disc.ocp.scaleX.getD j 0)))))]
  · simp only [py_bind_ok]
    show Except.ok _ = Except.ok _
    simp only [List.map_map, Function.comp_def]
  intro s hs
  have hs : s < M.orders.length := by simpa using hs
  have hs' : s < taus.length := by omega
  rw [pyIdx_ok hs', List.getD_eq_getElem _ _ hs']
  have hst : ((taus.map List.length).take s).sum = segStart (taus.map List.length) s := rfl
  simp only [py_bind_ok, hst]
  rw [mapM_range_idx taus[s] _ (fun tau => F.call (e.disc.ocp.pArgAt M e.traj ph s tau))
    fun i hi => h.dynAt_spec ok hlen hs' hi F]
  simp only [py_bind_ok]
  rw [mapM_range_idx taus[s] _ (fun tau => M.time e.traj ph s tau)
    fun i hi => ok.time_eq hlen hs' hi]
  simp only [py_bind_ok]
  by_cases h0 : taus[s].length = 0
  · simp only [List.length_eq_zero_iff.1 h0]
    rfl
  simp only [h0, if_false, py_bind_ok, h.hSeg_spec hph ok hs]
  have hrow : ∀ row ∈ taus[s].map (fun tau => F.call (e.disc.ocp.pArgAt M e.traj ph s tau)),
      (do return (← mulRow row e.disc.ocp.scaleX).map (M.halfWidth e.traj ph s * ·) : Py (List K)) =
        .ok ((List.range e.disc.ocp.nx).map fun j =>
          M.halfWidth e.traj ph s * (row.getD j 0 * e.disc.ocp.scaleX.getD j 0)) := by
    intro row hrow
    obtain ⟨tau, -, rfl⟩ := List.mem_map.1 hrow
    have hl : (F.call (e.disc.ocp.pArgAt M e.traj ph s tau)).length = e.disc.ocp.nx := by
      simp [VFun.call, hFlen]
    unfold mulRow
    rw [if_pos (by rw [hl, h.valid.scaleX]), py_bind_ok]
    show Except.ok _ = Except.ok _
    congr 1
    apply List.ext_getElem
    · simp [hl, h.valid.scaleX]
    · intro j h1 h2
      have hj : j < e.disc.ocp.nx := by simpa using h2
      simp only [List.getElem_map, List.getElem_zipWith, List.getElem_range]
      rw [List.getD_eq_getElem _ _ (by rw [hl]; exact hj),
        List.getD_eq_getElem _ _ (by rw [h.valid.scaleX]; exact hj)]
  rw [mapM_ok _ _ _ hrow]
  have hcall : ∀ tau, ∀ j < e.disc.ocp.nx,
      (F.call (e.disc.ocp.pArgAt M e.traj ph s tau)).getD j 0 =
        F.f (e.disc.ocp.pArgAt M e.traj ph s tau) j := by
    intro tau j hj
    unfold VFun.call
    rw [getD_map_range _ _ _ (by omega)]
  have hmap : ((taus[s].map fun tau => F.call (e.disc.ocp.pArgAt M e.traj ph s tau)).map fun row =>
      (List.range e.disc.ocp.nx).map fun j =>
        M.halfWidth e.traj ph s * (row.getD j 0 * e.disc.ocp.scaleX.getD j 0)) =
      taus[s].map fun tau => (List.range e.disc.ocp.nx).map fun j =>
        M.halfWidth e.traj ph s * (F.f (e.disc.ocp.pArgAt M e.traj ph s tau) j *
          e.disc.ocp.scaleX.getD j 0) := by
    rw [List.map_map]
    apply List.map_congr_left
    intro tau _
    apply List.map_congr_left
    intro j hj
    simp only
    rw [hcall tau j (by simpa using hj)]
  simp only [py_bind_ok, hmap]
  rw [mapM_range_idx taus[s] _ (fun tau => (List.range e.disc.ocp.nx).map fun j =>
    e.disc.ocp.scaleX.getD j 0 * e.disc.ocp.defect M e.traj F ph s tau j)]
  · rfl
  intro i hi
  rw [pyIdx_ok (by simpa using hi)]
  simp only [py_bind_ok, List.getElem_map]
  rw [if_neg (by simp [ok.dxcols])]
  show Except.ok _ = Except.ok _
  congr 1
  unfold Mat.row
  rw [ok.dxcols, zipWith_map_range]
  apply List.map_congr_left
  intro j hj
  have hdx := ok.dx s hs' i hi j (by simpa using hj)
  show r.dx.e (segStart (taus.map List.length) s + i) j - _ = _
  rw [hdx]
  unfold OCP.defect
  ring

/-- State `j` at `tau` of segment `s` by integrating the dynamics sampled at `pts` from the segment start. -/
noncomputable def _root_.MPOpt.OCP.integrated (ocp : OCP K) (M : Mesh K) (T : Traj K) (F : VFun (PArg K) K) (m : Method)
    (pts : List K) (ph s : Nat) (tau : K) (j : Nat) : K :=
  T.x ph (M.idx s 0) j + M.halfWidth T ph s *
    weightedSum (quadWeights m pts M.tau0 tau) fun k =>
      F.f (ocp.pArgAt M T ph s (pts.getD k 0)) j

/-- `compute_states_from_solution_dynamics` in closed form. -/
theorem statePhase_spec {ph : Nat} (hph : ph < e.disc.ocp.nPhases) {taus : List (List K)}
    (hlen : taus.length = M.orders.length) {F : VFun (PArg K) K}
    (hF : e.disc.ocp.dynamics[ph]? = some F) :
    e.statePhase ph (some taus) = .ok ((List.range M.orders.length).map fun s =>
      let pts := taus.getD s []
      if pts.length = 0 then ⟨none, none, none⟩ else
        { t := some (pts.map (M.time e.traj ph s))
          x := some (pts.map fun tau => (List.range e.disc.ocp.nx).map fun j =>
            e.disc.ocp.scaleX.getD j 0 *
              e.disc.ocp.integrated M e.traj F e.disc.colloc.method pts ph s tau j)
          res := some (pts.map fun tau => (List.range e.disc.ocp.nx).map fun j =>
            e.disc.ocp.scaleX.getD j 0 * ((M.piece (fun k => e.traj.x ph k j) s).eval tau -
              e.disc.ocp.integrated M e.traj F e.disc.colloc.method pts ph s tau j)) }) := by
  obtain ⟨r, hr, ok⟩ := h.interpolate_spec hph hlen
  obtain ⟨tr, htr, hx, -⟩ := h.mesh.trajectories_spec h.z h.widths hph
  have hns : e.disc.nSegments = M.orders.length := by rw [← h.mesh.segments, h.mesh.orders]
  have hFlen : F.len = e.disc.ocp.nx := h.valid.dynLen F (List.mem_of_getElem? hF)
  unfold statePhase
  simp only [htr, hr, py_bind_ok, pyIdx_eq_ok.2 hF, hns, ok.grid]
  apply mapM_ok
  intro s hs
  have hs : s < M.orders.length := by simpa using hs
  have hs' : s < taus.length := by omega
  rw [pyIdx_ok hs', List.getD_eq_getElem _ _ hs']
  have hst : ((taus.map List.length).take s).sum = segStart (taus.map List.length) s := rfl
  simp only [py_bind_ok, hst, h.hSeg_spec hph ok hs]
  rw [mapM_range_idx taus[s] _ (fun tau => (List.range e.disc.ocp.nx).map fun j =>
    F.f (e.disc.ocp.pArgAt M e.traj ph s tau) j * e.disc.ocp.scaleX.getD j 0)]
  rotate_left
  · intro i hi
    rw [h.dynAt_spec ok hlen hs' hi F, py_bind_ok]
    unfold mulRow VFun.call
    rw [if_pos (by simp [hFlen, h.valid.scaleX])]
    congr 1
    apply List.ext_getElem
    · simp [hFlen, h.valid.scaleX]
    · intro j h1 h2
      have hj : j < e.disc.ocp.nx := by simpa using h2
      simp only [List.getElem_map, List.getElem_zipWith, List.getElem_range]
      rw [List.getD_eq_getElem _ _ (by rw [h.valid.scaleX]; exact hj)]
  simp only [py_bind_ok]
  rw [mapM_range_idx taus[s] _ (fun tau => M.time e.traj ph s tau)
    fun i hi => ok.time_eq hlen hs' hi]
  simp only [py_bind_ok]
  have hx0 : ∀ k, tr.x.row k = (List.range e.disc.ocp.nx).map fun j =>
      e.disc.ocp.scaleX.getD j 0 * e.traj.x ph k j := by
    intro k
    rw [hx]
    unfold Mat.row
    apply List.map_congr_left
    intro j hj
    have := h.scX (j := j) (by simpa using hj)
    show _ = _ * (_ / _)
    field_simp
  rw [mapM_ok _ (fun tau => (List.range e.disc.ocp.nx).map fun j =>
    e.disc.ocp.scaleX.getD j 0 *
      e.disc.ocp.integrated M e.traj F e.disc.colloc.method taus[s] ph s tau j)]
  rotate_left
  · intro tau _
    rw [if_neg (by rw [hx0]; simp [h.valid.scaleX])]
    show Except.ok _ = Except.ok _
    congr 1
    rw [hx0, List.length_map, List.length_range]
    apply List.map_congr_left
    intro j hj
    have hj : j < e.disc.ocp.nx := by simpa using hj
    rw [getD_map_range _ _ _ hj]
    unfold OCP.integrated
    rw [mul_add]
    congr 1
    · rw [← h.mesh.orders]; rfl
    · rw [← h.mesh.tau0, mul_left_comm]
      congr 1
      rw [sum_map_range_eq, weightedSum, Finset.mul_sum]
      rw [List.length_zipWith, length_quadWeights, List.length_map, Nat.min_self]
      apply Finset.sum_congr rfl
      intro k hk
      have hk : k < taus[s].length := by simpa using hk
      rw [List.getD_eq_getElem _ _ (by simpa [length_quadWeights] using hk), List.getElem_zipWith,
        List.getElem_map, getD_map_range _ _ _ hj, List.getD_eq_getElem taus[s] _ hk,
        List.getD_eq_getElem (quadWeights _ _ _ _) _ (by simpa [length_quadWeights] using hk)]
      ring
  simp only [py_bind_ok]
  by_cases h0 : taus[s].length = 0
  · simp only [h0, if_true]; rfl
  simp only [h0, if_false]
  show Except.ok _ = Except.ok _
  congr 3
  apply List.ext_getElem
  · simp
  · intro i h1 h2
    have hi : i < taus[s].length := by simpa using h2
    have hrow : r.x.row (segStart (taus.map List.length) s + i) = (List.range e.disc.ocp.nx).map fun j =>
        e.disc.ocp.scaleX.getD j 0 * (M.piece (fun k => e.traj.x ph k j) s).eval taus[s][i] := by
      unfold Mat.row
      rw [ok.xcols]
      apply List.map_congr_left
      intro j hj
      exact ok.x s hs' i hi j (by simpa using hj)
    simp only [List.getElem_zipWith, List.getElem_range, List.getElem_map, hrow, zipWith_map_range,
      mul_sub]

end Solved.Ready
end
/-- A phase's part of a list made of equal parts. -/
theorem phaseSlice_flatMap {L : Type} (n P ph : Nat) (g : Nat → Nat → L) (h : ph < P) :
    phaseSlice n ph ((List.range P).flatMap fun p => (List.range n).map (g p)) = (List.range n).map (g ph) := by
  unfold phaseSlice
  have hlen : ∀ P, ((List.range P).flatMap fun p => (List.range n).map (g p)).length = n * P := by
    intro P
    induction P with
    | zero => simp
    | succ P ih => rw [List.range_succ, List.flatMap_append, List.length_append, ih]; simp; ring
  induction P with
  | zero => omega
  | succ P ih =>
    rw [List.range_succ, List.flatMap_append]
    rcases Nat.lt_or_ge ph P with hlt | hge
    · have h1 : n * ph + n ≤ n * P := by nlinarith
      rw [List.drop_append_of_le_length (by rw [hlen]; omega), List.take_append_of_le_length
        (by rw [List.length_drop, hlen]; omega)]
      exact ih hlt
    · obtain rfl : ph = P := by omega
      rw [List.drop_append, List.drop_of_length_le (by rw [hlen]), hlen]
      simp

end MPOpt
