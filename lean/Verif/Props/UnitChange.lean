import Verif.Spec.UnitChange
import Verif.Props.AdaptiveEnd
import Verif.Props.Guess
import Verif.Props.MayerEnd

/-! # C96: the same problem in other units -/

set_option autoImplicit false
set_option linter.unusedSectionVars false

namespace MPOpt
open Polynomial

section
variable {K : Type} [Field K] [LinearOrder K] [IsStrictOrderedRing K]
variable {ocp : OCP K} {M : Mesh K} {T : Traj K} {U : UnitChange K}

theorem UnitChange.Positive.xn (h : U.Positive) (j : Nat) : U.xa j ≠ 0 := (h.x j).ne'
theorem UnitChange.Positive.un (h : U.Positive) (j : Nat) : U.ua j ≠ 0 := (h.u j).ne'
theorem UnitChange.Positive.an (h : U.Positive) (j : Nat) : U.aa j ≠ 0 := (h.a j).ne'
theorem UnitChange.Positive.tn (h : U.Positive) : U.ta ≠ 0 := h.t.ne'

theorem Traj.inUnits_fromUnits (h : U.Positive) (T : Traj K) : (T.fromUnits U).inUnits U = T := by
  have hx := h.xn; have hu := h.un; have ha := h.an; have ht := h.tn
  simp only [Traj.fromUnits, Traj.inUnits, mul_div_cancel₀ _ (hx _), mul_div_cancel₀ _ (hu _), mul_div_cancel₀ _ (ha _),
    mul_div_cancel₀ _ ht, sub_add_cancel]

theorem mapIdx_range {α : Type} (f : Nat → α → α) (g g' : Nat → α) (n : Nat) (h : ∀ j < n, f j (g' j) = g j) :
    ((List.range n).map g').mapIdx f = (List.range n).map g := by
  apply List.ext_getElem? 
  intro i
  by_cases hi : i < n
  · simp [List.getElem?_mapIdx, List.getElem?_range hi, h i hi]
  · rw [List.getElem?_eq_none (by simpa using hi), List.getElem?_eq_none (by simpa using hi)]

theorem oldP_pArg (h : U.Positive) (ph k : Nat) (t : K) :
    U.oldP ((ocp.inUnits U).pArg (T.inUnits U) ph k (U.ta * t + U.tb)) = ocp.pArg T ph k t := by
  have hx := h.xn; have hu := h.un; have ha := h.an; have ht := h.tn
  unfold UnitChange.oldP OCP.pArg
  have e1 := mapIdx_range (fun j v => (v - U.xb j) / U.xa j) (T.x ph k) ((T.inUnits U).x ph k) ocp.nx fun j _ => by
    simp [Traj.inUnits, hx j]
  have e2 := mapIdx_range (fun j v => (v - U.ub j) / U.ua j) (T.u ph k) ((T.inUnits U).u ph k) ocp.nu fun j _ => by
    simp [Traj.inUnits, hu j]
  have e3 := mapIdx_range (fun j v => (v - U.ab j) / U.aa j) (T.a ph) ((T.inUnits U).a ph) ocp.na fun j _ => by
    simp [Traj.inUnits, ha j]
  have e4 : (U.ta * t + U.tb - U.tb) / U.ta = t := by rw [add_sub_cancel_right, mul_div_cancel_left₀ _ ht]
  by_cases h0 : ocp.na = 0
  · rw [if_pos h0, if_pos (show (ocp.inUnits U).na = 0 from h0), e4, ← e1, ← e2]; rfl
  · rw [if_neg h0, if_neg (show (ocp.inUnits U).na ≠ 0 from h0), e4, ← e1, ← e2, ← e3]; rfl

theorem oldT_tArg (h : U.Positive) (ph n : Nat) :
    U.oldT ((ocp.inUnits U).tArg (T.inUnits U) ph n) = ocp.tArg T ph n := by
  have hx := h.xn; have ha := h.an; have ht := h.tn
  unfold UnitChange.oldT OCP.tArg
  have e1 := fun k => mapIdx_range (fun j v => (v - U.xb j) / U.xa j) (T.x ph k) ((T.inUnits U).x ph k) ocp.nx fun j _ => by
    simp [Traj.inUnits, hx j]
  have e3 := mapIdx_range (fun j v => (v - U.ab j) / U.aa j) (T.a ph) ((T.inUnits U).a ph) ocp.na fun j _ => by
    simp [Traj.inUnits, ha j]
  have e4 : ((T.inUnits U).t0 ph - U.tb) / U.ta = T.t0 ph := by
    simp only [Traj.inUnits]; rw [add_sub_cancel_right, mul_div_cancel_left₀ _ ht]
  have e5 : ((T.inUnits U).tf ph - U.tb) / U.ta = T.tf ph := by
    simp only [Traj.inUnits]; rw [add_sub_cancel_right, mul_div_cancel_left₀ _ ht]
  by_cases h0 : ocp.na = 0
  · rw [if_pos h0, if_pos (show (ocp.inUnits U).na = 0 from h0), e4, e5, ← e1, ← e1]; rfl
  · rw [if_neg h0, if_neg (show (ocp.inUnits U).na ≠ 0 from h0), e4, e5, ← e1, ← e1, ← e3]; rfl

theorem halfWidth_inUnits (ph s : Nat) : M.halfWidth (T.inUnits U) ph s = U.ta * M.halfWidth T ph s := by
  simp only [Mesh.halfWidth, Traj.inUnits]; ring

theorem time_inUnits (ph s : Nat) (tau : K) : M.time (T.inUnits U) ph s tau = U.ta * M.time T ph s tau + U.tb := by
  unfold Mesh.time
  rw [halfWidth_inUnits]
  simp only [Traj.inUnits]; ring

/-- Pieces of affinely changed node values. -/
theorem piece_affine (hM : M.Good) {s : Nat} (hs : s < M.orders.length) (v : Nat → K) (a b : K) :
    M.piece (fun k => a * v k + b) s = C a * M.piece v s + C b := by
  symm
  unfold Mesh.piece
  apply Lagrange.eq_interpolate_of_eval_eq
  · exact hM.node_injOn hs
  · rw [Finset.card_range]
    have h1 : (M.piece v s).degree < ((M.order s + 1 : Nat) : WithBot Nat) := by
      have := Lagrange.degree_interpolate_lt (s := Finset.range (M.order s + 1)) (v := M.node s)
        (fun i => v (M.idx s i)) (hM.node_injOn hs)
      rwa [Finset.card_range] at this
    refine (degree_add_le _ _).trans_lt (max_lt ?_ ?_)
    · by_cases ha : a = 0
      · simp only [ha, C_0, zero_mul, degree_zero]; exact WithBot.bot_lt_coe _
      · rw [degree_C_mul ha]; exact h1
    · exact degree_C_le.trans_lt (by norm_cast; omega)
  · intro i hi
    have hi : i ≤ M.order s := by simpa [Nat.lt_succ_iff] using hi
    simp only [eval_add, eval_mul, eval_C]
    have := hM.piece_eval_node v hs hi
    unfold Mesh.piece at this
    rw [this]

theorem Within_affine {lo hi : Ext K} {v a b : K} (ha : 0 < a) :
    Within (lo.affine a b) (hi.affine a b) (a * v + b) ↔ Within lo hi v := by
  unfold Within
  refine and_congr ?_ ?_
  · cases lo <;> simp [Ext.affine, Ext.Below, ha]
  · cases hi <;> simp [Ext.affine, Ext.Above, ha]

theorem entry_perColumn {α β : Type} (f : Nat → α → β) (arr : List (List α)) (i j : Nat) (d : α) (d' : β) (h : f j d = d') :
    entry (perColumn f arr) i j d' = f j (entry arr i j d) := by
  unfold entry perColumn
  rw [List.getD_eq_getElem?_getD, List.getD_eq_getElem?_getD, List.getD_eq_getElem?_getD (l := arr), List.getElem?_map]
  cases arr[i]? with
  | none => simpa using h.symm
  | some row =>
    simp only [Option.map_some, Option.getD_some, List.getElem?_mapIdx, List.getD_eq_getElem?_getD]
    cases row[j]? with
    | none => simpa using h.symm
    | some v => rfl

theorem entry_affine (f g : Nat → K) (arr : List (List (Ext K))) (i j : Nat) :
    entry (perColumn (fun j => Ext.affine (f j) (g j)) arr) i j .nan = (entry arr i j .nan).affine (f j) (g j) :=
  entry_perColumn _ _ _ _ _ _ rfl

theorem entry_shape {α β : Type} (f : Nat → α → β) {arr : List (List α)} {r c i j : Nat} (hs : HasShape arr r c) (hi : i < r)
    (hj : j < c) (d : α) (d' : β) : entry (perColumn f arr) i j d' = f j (entry arr i j d) := by
  obtain ⟨h1, h2⟩ := hs
  have hi' : i < arr.length := by omega
  have hj' : j < (arr[i]).length := by rw [h2 _ (List.getElem_mem hi')]; exact hj
  unfold entry perColumn
  simp [List.getD_eq_getElem?_getD, hi', hj']

theorem getD_mapIdx_div (l : List K) (f : Nat → K) (j : Nat) : (l.mapIdx fun j s => s / f j).getD j 0 = l.getD j 0 / f j := by
  rw [List.getD_eq_getElem?_getD, List.getD_eq_getElem?_getD, List.getElem?_mapIdx]
  cases l[j]? <;> simp

theorem shape_perColumn {α β : Type} (f : Nat → α → β) {arr : List (List α)} {r c : Nat} (hs : HasShape arr r c) :
    HasShape (perColumn f arr) r c := by
  refine ⟨by simpa [perColumn] using hs.1, fun row hr => ?_⟩
  obtain ⟨row', h1, rfl⟩ := List.mem_map.1 hr
  simpa using hs.2 row' h1

/-! ### Conditions in the new units -/

theorem bounds_inUnits (h : U.Positive) (hv : ValidOCP ocp) {ph : Nat} :
    BoundsOK (ocp.inUnits U) M (T.inUnits U) ph ↔ BoundsOK ocp M T ph := by
  have key : ∀ (f : Nat → K) (g : Nat → K) (lo hi : List (List (Ext K))) (j : Nat) (v : K), 0 < f j →
      (Within (entry (perColumn (fun j => Ext.affine (f j) (g j)) lo) ph j .nan)
        (entry (perColumn (fun j => Ext.affine (f j) (g j)) hi) ph j .nan) (f j * v + g j) ↔
        Within (entry lo ph j .nan) (entry hi ph j .nan) v) := by
    intro f g lo hi j v hf
    rw [entry_affine, entry_affine, Within_affine hf]
  constructor
  · rintro ⟨a1, a2, a3, a4, a5, a6⟩
    refine ⟨fun e j hj => ?_, fun i hi hne j hj => ?_, fun i hi j hj => ?_, ?_, ?_, fun k hk => ?_⟩
    · have := a1 e j hj
      simp only [OCP.inUnits, Traj.inUnits] at this
      rw [entry_shape _ hv.x00 hv.phases hj 0 0] at this
      exact mul_left_cancel₀ (h.xn j) (add_right_cancel this)
    · exact (key U.xa U.xb _ _ j _ (h.x j)).1 (a2 i hi hne j hj)
    · exact (key U.ua U.ub _ _ j _ (h.u j)).1 (a3 i hi j hj)
    · exact (key (fun _ => U.ta) (fun _ => U.tb) _ _ 0 _ h.t).1 a4
    · exact (key (fun _ => U.ta) (fun _ => U.tb) _ _ 0 _ h.t).1 a5
    · exact (key U.aa U.ab _ _ k _ (h.a k)).1 (a6 k hk)
  · rintro ⟨a1, a2, a3, a4, a5, a6⟩
    refine ⟨fun e j hj => ?_, fun i hi hne j hj => ?_, fun i hi j hj => ?_, ?_, ?_, fun k hk => ?_⟩
    · simp only [OCP.inUnits, Traj.inUnits]
      rw [entry_shape _ hv.x00 hv.phases hj 0 0, a1 e j hj]
    · exact (key U.xa U.xb _ _ j _ (h.x j)).2 (a2 i hi hne j hj)
    · exact (key U.ua U.ub _ _ j _ (h.u j)).2 (a3 i hi j hj)
    · exact (key (fun _ => U.ta) (fun _ => U.tb) _ _ 0 _ h.t).2 a4
    · exact (key (fun _ => U.ta) (fun _ => U.tb) _ _ 0 _ h.t).2 a5
    · exact (key U.aa U.ab _ _ k _ (h.a k)).2 (a6 k hk)

theorem slope_inUnits (hM : M.Good) {s : Nat} (hs : s < M.orders.length) (v : Nat → K) (a b : K) (tau : K) :
    (derivative (M.piece (fun k => a * v k + b) s)).eval tau = a * (derivative (M.piece v s)).eval tau := by
  rw [piece_affine hM hs]
  simp

theorem dynamics_inUnits (h : U.Positive) (hM : M.Good) {ph : Nat} :
    CollocationOK (ocp.inUnits U) M (T.inUnits U) ph ↔ CollocationOK ocp M T ph := by
  have key : ∀ (F : VFun (PArg K) K) (j s i : Nat), M.Owns s i →
      ((derivative (M.piece (fun k => (T.inUnits U).x ph k j) s)).eval (M.node s i) =
        M.halfWidth (T.inUnits U) ph s * (U.xa j / U.ta * F.f (U.oldP ((ocp.inUnits U).pArg (T.inUnits U) ph (M.idx s i)
          (M.time (T.inUnits U) ph s (M.node s i)))) j) ↔
      (derivative (M.piece (fun k => T.x ph k j) s)).eval (M.node s i) =
        M.halfWidth T ph s * F.f (ocp.pArg T ph (M.idx s i) (M.time T ph s (M.node s i))) j) := by
    intro F j s i ho
    rw [time_inUnits, oldP_pArg h, halfWidth_inUnits]
    simp only [Traj.inUnits]
    rw [slope_inUnits hM ho.1]
    have hx := h.xn j
    have ht := h.tn
    have e : ∀ y z : K, U.ta * y * (U.xa j / U.ta * z) = U.xa j * (y * z) := by intro y z; field_simp
    rw [e]
    exact ⟨fun e => mul_left_cancel₀ hx e, fun e => by rw [e]⟩
  constructor
  · intro hc F hF j hj s i ho
    exact (key F j s i ho).1 (hc ⟨F.len, fun p j => U.xa j / U.ta * F.f (U.oldP p) j⟩ (by simp [OCP.inUnits, hF]) j hj s i ho)
  · intro hc F' hF' j hj s i ho
    simp only [OCP.inUnits, List.getElem?_map, Option.map_eq_some_iff] at hF'
    obtain ⟨F, hF, rfl⟩ := hF'
    exact (key F j s i ho).2 (hc F hF j hj s i ho)

theorem path_inUnits (h : U.Positive) {ph : Nat} : PathOK (ocp.inUnits U) M (T.inUnits U) ph ↔ PathOK ocp M T ph := by
  constructor
  · intro hc F hF s i ho c hcl
    have := hc ⟨F.len, fun p => F.f (U.oldP p)⟩ (by simp [OCP.inUnits, hF]) s i ho c hcl
    simp only at this
    rwa [time_inUnits, oldP_pArg h] at this
  · intro hc F' hF' s i ho c hcl
    simp only [OCP.inUnits, List.getElem?_map, Option.map_eq_some_iff] at hF'
    obtain ⟨_, hF, F, rfl, rfl⟩ := hF'
    simp only
    rw [time_inUnits, oldP_pArg h]
    exact hc F hF s i ho c hcl

theorem terminal_inUnits (h : U.Positive) {ph : Nat} :
    TerminalOK (ocp.inUnits U) M (T.inUnits U) ph ↔ TerminalOK ocp M T ph := by
  constructor
  · intro hc F hF c hcl
    have := hc ⟨F.len, fun p => F.f (U.oldT p)⟩ (by simp [OCP.inUnits, hF]) c hcl
    simp only at this
    rwa [oldT_tArg h] at this
  · intro hc F' hF' c hcl
    simp only [OCP.inUnits, List.getElem?_map, Option.map_eq_some_iff] at hF'
    obtain ⟨_, hF, F, rfl, rfl⟩ := hF'
    simp only
    rw [oldT_tArg h]
    exact hc F hF c hcl

theorem mid_inUnits (hM : M.Good) {lo hi : List (List (Ext K))} {ph j s : Nat} (hs : s < M.orders.length) {f g : Nat → K}
    (hf : 0 < f j) (v : Nat → K) (tau : K) :
    Within (entry (perColumn (fun j => Ext.affine (f j) (g j)) lo) ph j .nan)
      (entry (perColumn (fun j => Ext.affine (f j) (g j)) hi) ph j .nan) ((M.piece (fun k => f j * v k + g j) s).eval tau) ↔
    Within (entry lo ph j .nan) (entry hi ph j .nan) ((M.piece v s).eval tau) := by
  rw [piece_affine hM hs, entry_affine, entry_affine]
  simp only [eval_add, eval_mul, eval_C]
  exact Within_affine hf

theorem midControl_inUnits (h : U.Positive) (hM : M.Good) {ph : Nat} :
    MidControlOK (ocp.inUnits U) M (T.inUnits U) ph ↔ MidControlOK ocp M T ph :=
  forall₂_congr fun j _ => forall₂_congr fun _ hs => forall₂_congr fun _ _ => mid_inUnits hM hs (h.u j) _ _

theorem midState_inUnits (h : U.Positive) (hM : M.Good) {ph : Nat} :
    MidStateOK (ocp.inUnits U) M (T.inUnits U) ph ↔ MidStateOK ocp M T ph :=
  forall₂_congr fun j _ => forall₂_congr fun _ hs => forall₂_congr fun _ _ => mid_inUnits hM hs (h.x j) _ _

theorem slopeContinuous_inUnits (h : U.Positive) (hM : M.Good) {ph : Nat} :
    SlopeContinuous (ocp.inUnits U) M (T.inUnits U) ph ↔ SlopeContinuous ocp M T ph := by
  refine forall₂_congr fun j _ => forall₂_congr fun s hs => ?_
  simp only [Traj.inUnits]
  rw [slope_inUnits hM (by omega), slope_inUnits hM hs]
  exact mul_right_inj' (h.un j)

theorem slopeBounded_inUnits (h : U.Positive) (hM : M.Good) {ph : Nat} :
    SlopeBounded (ocp.inUnits U) M (T.inUnits U) (fun j => (ocp.inUnits U).scaleU.getD j 0) ph ↔
      SlopeBounded ocp M T (fun j => ocp.scaleU.getD j 0) ph := by
  refine forall₂_congr fun j _ => forall₃_congr fun s i ho => ?_
  simp only [Traj.inUnits]
  rw [slope_inUnits hM ho.1]
  have e : (ocp.inUnits U).scaleU.getD j 0 = ocp.scaleU.getD j 0 / U.ua j := getD_mapIdx_div _ _ _
  rw [e, ← mul_assoc, div_mul_cancel₀ _ (h.un j)]
  rfl

theorem midResidual_inUnits (h : U.Positive) (hM : M.Good) {tol : K} {ph : Nat} :
    MidResidualOK (ocp.inUnits U) M (T.inUnits U) tol ph ↔ MidResidualOK ocp M T tol ph := by
  have key : ∀ (F : VFun (PArg K) K) (j s : Nat) (tau : K), s < M.orders.length →
      (ocp.inUnits U).scaleX.getD j 0 * (ocp.inUnits U).defect M (T.inUnits U)
          ⟨F.len, fun p j => U.xa j / U.ta * F.f (U.oldP p) j⟩ ph s tau j =
        ocp.scaleX.getD j 0 * ocp.defect M T F ph s tau j := by
    intro F j s tau hs
    have e : (ocp.inUnits U).scaleX.getD j 0 = ocp.scaleX.getD j 0 / U.xa j := getD_mapIdx_div _ _ _
    have hp : U.oldP ((ocp.inUnits U).pArgAt M (T.inUnits U) ph s tau) = ocp.pArgAt M T ph s tau := by
      have := oldP_pArg (ocp := ocp) h (T := { T with
        x := fun ph _ j => (M.piece (fun k => T.x ph k j) s).eval tau
        u := fun ph _ j => (M.piece (fun k => T.u ph k j) s).eval tau }) ph 0 (M.time T ph s tau)
      unfold OCP.pArgAt
      rw [time_inUnits]
      simp only [Traj.inUnits, piece_affine hM hs, eval_add, eval_mul, eval_C]
      exact this
    unfold OCP.defect
    simp only
    rw [halfWidth_inUnits, hp, e]
    simp only [Traj.inUnits]
    rw [slope_inUnits hM hs]
    have hx := h.xn j
    have ht := h.tn
    field_simp
  constructor
  · intro hc F hF j hj s hs i hi
    have := hc ⟨F.len, fun p j => U.xa j / U.ta * F.f (U.oldP p) j⟩ (by simp [OCP.inUnits, hF]) j hj s hs i hi
    rwa [key F j s _ hs] at this
  · intro hc F' hF' j hj s hs i hi
    simp only [OCP.inUnits, List.getElem?_map, Option.map_eq_some_iff] at hF'
    obtain ⟨F, hF, rfl⟩ := hF'
    rw [key F j s _ hs]
    exact hc F hF j hj s hs i hi

theorem links_inUnits (h : U.Positive) : LinksOK (ocp.inUnits U) M (T.inUnits U) ↔ LinksOK ocp M T := by
  have key : ∀ k j p q, Within (entry (ocp.inUnits U).lbe k j .nan) (entry (ocp.inUnits U).ube k j .nan)
      ((T.inUnits U).x q 0 j - (T.inUnits U).x p (M.N - 1) j) ↔
      Within (entry ocp.lbe k j .nan) (entry ocp.ube k j .nan) (T.x q 0 j - T.x p (M.N - 1) j) := by
    intro k j p q
    simp only [OCP.inUnits]
    rw [entry_affine U.xa fun _ => 0, entry_affine U.xa fun _ => 0]
    simp only [Traj.inUnits]
    rw [show U.xa j * T.x q 0 j + U.xb j - (U.xa j * T.x p (M.N - 1) j + U.xb j) =
      U.xa j * (T.x q 0 j - T.x p (M.N - 1) j) + 0 by ring]
    exact Within_affine (h.x j)
  constructor
  · rintro ⟨a, b, c⟩
    refine ⟨fun k p q hl j hj => (key k j p q).1 (a k p q hl j hj), fun k p q hl j hj => ?_, fun k p q hl => ?_⟩
    · exact mul_left_cancel₀ (h.un j) (add_right_cancel (b k p q hl j hj))
    · exact mul_left_cancel₀ h.tn (add_right_cancel (c k p q hl))
  · rintro ⟨a, b, c⟩
    refine ⟨fun k p q hl j hj => (key k j p q).2 (a k p q hl j hj), fun k p q hl j hj => ?_, fun k p q hl => ?_⟩
    · simp only [Traj.inUnits]; rw [b k p q hl j hj]
    · simp only [Traj.inUnits]; rw [c k p q hl]

/-- **C96** The collocated problem in other units is solved by the solutions in those units, exactly. -/
theorem C96_solves (h : U.Positive) (hM : M.Good) (hv : ValidOCP ocp) (T : Traj K) :
    SolvesOCP (ocp.inUnits U) M (T.inUnits U) ↔ SolvesOCP ocp M T := by
  constructor
  · rintro ⟨⟨a1, a2, a3, a4, a5, a6, a7⟩, a8⟩
    exact ⟨⟨fun ph hp => (bounds_inUnits h hv).1 (a1 ph hp), fun ph hp => (dynamics_inUnits h hM).1 (a2 ph hp),
      fun ph hp => (path_inUnits h).1 (a3 ph hp), fun ph hp => (terminal_inUnits h).1 (a4 ph hp),
      fun ph hp hm => (midControl_inUnits h hM).1 (a5 ph hp hm), fun ph hp hm => (slopeContinuous_inUnits h hM).1 (a6 ph hp hm),
      fun h2 => (links_inUnits h).1 (a7 h2)⟩, fun ph hp hd => (slopeBounded_inUnits h hM).1 (a8 ph hp hd)⟩
  · rintro ⟨⟨a1, a2, a3, a4, a5, a6, a7⟩, a8⟩
    exact ⟨⟨fun ph hp => (bounds_inUnits h hv).2 (a1 ph hp), fun ph hp => (dynamics_inUnits h hM).2 (a2 ph hp),
      fun ph hp => (path_inUnits h).2 (a3 ph hp), fun ph hp => (terminal_inUnits h).2 (a4 ph hp),
      fun ph hp hm => (midControl_inUnits h hM).2 (a5 ph hp hm), fun ph hp hm => (slopeContinuous_inUnits h hM).2 (a6 ph hp hm),
      fun h2 => (links_inUnits h).2 (a7 h2)⟩, fun ph hp hd => (slopeBounded_inUnits h hM).2 (a8 ph hp hd)⟩

/-- **C96** The same with free widths, also with `mid_residuals`: limits on widths and tolerances have no units. -/
theorem C96_adaptive (h : U.Positive) (hM : M.Good) (hv : ValidOCP ocp) (T : Traj K) {lbh ubh tol : List K} {mid : Bool} :
    SolvesAdaptive (ocp.inUnits U) M (T.inUnits U) lbh ubh tol mid ↔ SolvesAdaptive ocp M T lbh ubh tol mid := by
  constructor
  · rintro ⟨⟨a1, a2, a3, a4, a5, a6, a7, a8, a9⟩, b⟩
    exact ⟨⟨fun ph hp => (bounds_inUnits h hv).1 (a1 ph hp), fun ph hp => (dynamics_inUnits h hM).1 (a2 ph hp),
      fun ph hp => (path_inUnits h).1 (a3 ph hp), fun ph hp => (terminal_inUnits h).1 (a4 ph hp),
      fun ph hp => ⟨(a5 ph hp).sum, (a5 ph hp).lower, (a5 ph hp).upper⟩,
      fun ph hp => (midControl_inUnits h hM).1 (a6 ph hp), fun ph hp => (midState_inUnits h hM).1 (a7 ph hp),
      fun hm ph hp => (midResidual_inUnits h hM).1 (a8 hm ph hp),
      fun h2 => (links_inUnits h).1 (a9 h2)⟩, fun ph hp hd => (slopeBounded_inUnits h hM).1 (b ph hp hd)⟩
  · rintro ⟨⟨a1, a2, a3, a4, a5, a6, a7, a8, a9⟩, b⟩
    exact ⟨⟨fun ph hp => (bounds_inUnits h hv).2 (a1 ph hp), fun ph hp => (dynamics_inUnits h hM).2 (a2 ph hp),
      fun ph hp => (path_inUnits h).2 (a3 ph hp), fun ph hp => (terminal_inUnits h).2 (a4 ph hp),
      fun ph hp => ⟨(a5 ph hp).sum, (a5 ph hp).lower, (a5 ph hp).upper⟩,
      fun ph hp => (midControl_inUnits h hM).2 (a6 ph hp), fun ph hp => (midState_inUnits h hM).2 (a7 ph hp),
      fun hm ph hp => (midResidual_inUnits h hM).2 (a8 hm ph hp),
      fun h2 => (links_inUnits h).2 (a9 h2)⟩, fun ph hp hd => (slopeBounded_inUnits h hM).2 (b ph hp hd)⟩

/-- **C96** Costs are those of the old problem in the new unit of costs. -/
theorem C96_cost (h : U.Positive) (hv : ValidOCP ocp) {W : List K} {J : K} (hJ : PhysCost ocp M W T J) :
    PhysCost (ocp.inUnits U) M W (T.inUnits U) (U.c * J) := by
  obtain ⟨v, hv', rfl⟩ := hJ
  refine ⟨fun ph i => U.c * v ph i, fun ph hp rc' hrc' s i ho => ?_, ?_⟩
  · simp only [OCP.inUnits, List.getElem?_map, Option.map_eq_some_iff] at hrc'
    obtain ⟨rc, hrc, rfl⟩ := hrc'
    simp only
    rw [time_inUnits, oldP_pArg h, halfWidth_inUnits, hv' ph hp rc hrc s i ho]
    have ht := h.tn
    field_simp
  · show _ = ∑ ph ∈ Finset.range ocp.nPhases, _
    rw [Finset.mul_sum]
    refine Finset.sum_congr rfl fun ph hp => ?_
    have hp : ph < ocp.terminalCosts.length := by rw [hv.terminalCosts]; exact Finset.mem_range.1 hp
    rw [mul_add]
    congr 1
    · unfold TerminalCost
      simp only [OCP.inUnits, List.getD_eq_getElem?_getD, List.getElem?_map, List.getElem?_eq_getElem hp, Option.map_some,
        Option.getD_some]
      have := oldT_tArg (ocp := ocp) (T := T) h ph M.N
      simp only [OCP.inUnits] at this
      rw [this]
    · unfold weightedSum
      rw [Finset.mul_sum]
      exact Finset.sum_congr rfl fun j _ => by ring

/-! ### The problem in other units is as good as the old one -/

theorem ordered_inUnits {lo hi : List (List (Ext K))} {ph : Nat} {f g : Nat → K} (hf : ∀ j, 0 < f j)
    (h : RowOrdered lo hi ph) :
    RowOrdered (perColumn (fun j => Ext.affine (f j) (g j)) lo) (perColumn (fun j => Ext.affine (f j) (g j)) hi) ph := by
  intro l u hl hu i a b ha hb
  simp only [perColumn, List.getElem?_map, Option.map_eq_some_iff] at hl hu
  obtain ⟨l, hl, rfl⟩ := hl
  obtain ⟨u, hu, rfl⟩ := hu
  simp only [List.getElem?_mapIdx, Option.map_eq_some_iff] at ha hb
  obtain ⟨a, ha, rfl⟩ := ha
  obtain ⟨b, hb, rfl⟩ := hb
  have := h l u hl hu i a b ha hb
  have hi := hf i
  cases a <;> cases b <;> simp_all [Ext.affine, Ext.le]

/-- **C96** The problem in other units is valid, with the same settings and positive scales. -/
theorem C96_ready (h : U.Positive) (hv : ValidOCP ocp) (hs : ocp.SettingsOK) (hsc : ocp.PosScales) :
    ValidOCP (ocp.inUnits U) ∧ (ocp.inUnits U).SettingsOK ∧ (ocp.inUnits U).PosScales := by
  refine ⟨?_, ⟨hs.nx, hs.diffU, hs.midu, hs.duContinuity, hs.lbdu, hs.ubdu, hs.nu, hs.links, hs.linkCount, hs.linkRange⟩, ?_⟩
  · refine ⟨hv.phases, ?_, ?_, ?_, ?_, ?_, ?_, ?_, ?_, ?_, ?_, ?_, shape_perColumn _ hv.x00, shape_perColumn _ hv.xf0,
      shape_perColumn _ hv.u00, shape_perColumn _ hv.uf0, shape_perColumn _ hv.a0, shape_perColumn _ hv.t00,
      shape_perColumn _ hv.tf0, shape_perColumn _ hv.lbx, shape_perColumn _ hv.ubx, shape_perColumn _ hv.lbu,
      shape_perColumn _ hv.ubu, shape_perColumn _ hv.lba, shape_perColumn _ hv.uba, shape_perColumn _ hv.lbt0,
      shape_perColumn _ hv.ubt0, shape_perColumn _ hv.lbtf, shape_perColumn _ hv.ubtf, shape_perColumn _ hv.lbe,
      shape_perColumn _ hv.ube, fun ph => ordered_inUnits h.x (hv.ordX ph), fun ph => ordered_inUnits h.u (hv.ordU ph),
      fun ph => ordered_inUnits h.a (hv.ordA ph), fun ph => ordered_inUnits (fun _ => h.t) (hv.ordT0 ph),
      fun ph => ordered_inUnits (fun _ => h.t) (hv.ordTf ph), fun ph => ordered_inUnits h.x (hv.ordE ph)⟩
    · simpa [OCP.inUnits] using hv.dynamics
    · simpa [OCP.inUnits] using hv.runningCosts
    · simpa [OCP.inUnits] using hv.terminalCosts
    · simpa [OCP.inUnits] using hv.pathConstraints
    · simpa [OCP.inUnits] using hv.terminalConstraints
    · intro F hF
      simp only [OCP.inUnits, List.mem_map] at hF
      obtain ⟨F, hF, rfl⟩ := hF
      exact hv.dynLen F hF
    · intro F hF
      simp only [OCP.inUnits, List.mem_map, Option.map_eq_some_iff] at hF
      obtain ⟨_, hF, F, rfl, rfl⟩ := hF
      exact hv.pathLen F hF
    · intro F hF
      simp only [OCP.inUnits, List.mem_map, Option.map_eq_some_iff] at hF
      obtain ⟨_, hF, F, rfl, rfl⟩ := hF
      exact hv.termLen F hF
    · simpa [OCP.inUnits] using hv.scaleX
    · simpa [OCP.inUnits] using hv.scaleU
    · simpa [OCP.inUnits] using hv.scaleA
  · have key : ∀ (l : List K) (f : Nat → K), (∀ j, 0 < f j) → (∀ s ∈ l, 0 < s) → ∀ s ∈ l.mapIdx fun j s => s / f j, 0 < s := by
      intro l f hf hl s hs
      obtain ⟨i, hi, rfl⟩ := List.mem_mapIdx.1 hs
      exact div_pos (hl _ (List.getElem_mem _)) (hf i)
    exact ⟨key _ _ h.x hsc.x, key _ _ h.u hsc.u, key _ _ h.a hsc.a, div_pos hsc.t h.t⟩

/-- **C96** The guess a user gives, in the new units: straight lines go to straight lines. -/
theorem C96_guess (h : U.Positive) (hv : ValidOCP ocp) (hsc : ocp.PosScales) {N ph : Nat} (hp : ph < ocp.nPhases) :
    (∀ i, ∀ j < ocp.nx, (physOf (ocp.inUnits U) (guessOf (ocp.inUnits U) N)).x ph i j =
      ((physOf ocp (guessOf ocp N)).inUnits U).x ph i j) ∧
    (∀ i, ∀ j < ocp.nu, (physOf (ocp.inUnits U) (guessOf (ocp.inUnits U) N)).u ph i j =
      ((physOf ocp (guessOf ocp N)).inUnits U).u ph i j) ∧
    (physOf (ocp.inUnits U) (guessOf (ocp.inUnits U) N)).t0 ph = ((physOf ocp (guessOf ocp N)).inUnits U).t0 ph ∧
    (physOf (ocp.inUnits U) (guessOf (ocp.inUnits U) N)).tf ph = ((physOf ocp (guessOf ocp N)).inUnits U).tf ph ∧
    ∀ k < ocp.na, (physOf (ocp.inUnits U) (guessOf (ocp.inUnits U) N)).a ph k =
      ((physOf ocp (guessOf ocp N)).inUnits U).a ph k := by
  have line : ∀ (y z f g : K) (k : Nat), lineValue (f * y + g) (f * z + g) N k = f * lineValue y z N k + g := by
    intro y z f g k
    unfold lineValue
    ring
  have sc : ∀ (l : List K) (f : Nat → K) (j n : Nat), l.length = n → j < n → (∀ s ∈ l, 0 < s) → (∀ j, 0 < f j) → ∀ y : K,
      y * (l.mapIdx fun j s => s / f j).getD j 0 / (l.mapIdx fun j s => s / f j).getD j 0 = y ∧
        y * l.getD j 0 / l.getD j 0 = y := by
    intro l f j n hl hj hpos hf y
    have h0 : l.getD j 0 ≠ 0 := by
      rw [List.getD_eq_getElem _ _ (by omega)]
      exact (hpos _ (List.getElem_mem _)).ne'
    rw [getD_mapIdx_div]
    have hfj := (hf j).ne'
    exact ⟨mul_div_cancel_right₀ _ (div_ne_zero h0 hfj), mul_div_cancel_right₀ _ h0⟩
  have ht := hsc.t.ne'
  have ht' : ocp.scaleT / U.ta ≠ 0 := div_ne_zero ht h.tn
  refine ⟨fun i j hj => ?_, fun i j hj => ?_, ?_, ?_, fun k hk => ?_⟩ <;>
    simp only [physOf, guessOf, Traj.inUnits, OCP.inUnits]
  · rw [(sc _ U.xa j _ hv.scaleX hj hsc.x h.x _).1, (sc _ U.xa j _ hv.scaleX hj hsc.x h.x _).2,
      entry_shape _ hv.x00 hp hj 0 0, entry_shape _ hv.xf0 hp hj 0 0, line]
  · rw [(sc _ U.ua j _ hv.scaleU hj hsc.u h.u _).1, (sc _ U.ua j _ hv.scaleU hj hsc.u h.u _).2,
      entry_shape _ hv.u00 hp hj 0 0, entry_shape _ hv.uf0 hp hj 0 0, line]
  · rw [mul_div_cancel_right₀ _ ht, mul_div_cancel_right₀ _ ht', entry_shape _ hv.t00 hp Nat.one_pos 0 0]
  · rw [mul_div_cancel_right₀ _ ht, mul_div_cancel_right₀ _ ht', entry_shape _ hv.tf0 hp Nat.one_pos 0 0]
  · rw [(sc _ U.aa k _ hv.scaleA hk hsc.a h.a _).1, (sc _ U.aa k _ hv.scaleA hk hsc.a h.a _).2,
      entry_shape _ hv.a0 hp hk 0 0]

end

section
variable {K V : Type} [Field K] [LinearOrder K] [IsStrictOrderedRing K]
variable {ocp : OCP K} {M : Mesh K} {U : UnitChange K} {w : Outside K V} {nlpsol : SolverCall K V → Py (List K)} {n : Nat}
variable {ptp : List (List Nat)} {arg : OrdersArg} {scheme : String} {a : SolveArgs K V} {rx rdx : Bool} {s : Session K V}
variable {p : Post K} {r : Option (PyDict (ResidVal K))}

theorem widthsAre_inUnits {req : Option (List K)} {T : Traj K} :
    WidthsAre (ocp.inUnits U) n req (T.inUnits U) ↔ WidthsAre ocp n req T := by
  cases req <;> rfl

/-- **C96** What `solve` shows for the problem in other units is, in those units, a solution of the collocated problem. -/
theorem C96_feasible (h : U.Positive) (hrun : mpSolve w nlpsol (ocp.inUnits U) ptp n arg scheme a rx rdx = .ok (s, p, r))
    (hv : ValidOCP ocp) (hs : ocp.SettingsOK) (hsc : ocp.PosScales) (hM : MeshFor w scheme n arg M)
    (hsound : ∀ c z, nlpsol c = .ok z → c.IsSolution z) :
    ∃ T, SolvesOCP ocp M T ∧ WidthsAre ocp n a.widths T ∧ p.Shows (ocp.inUnits U) M (T.inUnits U) := by
  obtain ⟨hv', hs', hsc'⟩ := C96_ready h hv hs hsc
  obtain ⟨T', hT', hw, hsh⟩ := C52_solve_feasible hrun hv' hs' hsc' hM hsound
  rw [← Traj.inUnits_fromUnits h T'] at hT' hw hsh
  exact ⟨_, (C96_solves h hM.good hv _).1 hT', widthsAre_inUnits.1 hw, hsh⟩

/-- **C96** And with a solver that returns global minimisers it is one of least cost: in which units a problem is given does
not matter. -/
theorem C96_optimal (h : U.Positive) (hrun : mpSolve w nlpsol (ocp.inUnits U) ptp n arg scheme a rx rdx = .ok (s, p, r))
    (hv : ValidOCP ocp) (hs : ocp.SettingsOK) (hsc : ocp.PosScales) (hM : MeshFor w scheme n arg M)
    (hopt : ∀ c z, nlpsol c = .ok z → c.IsOptimal z) :
    ∃ T W J, compQuadWeights ⟨w.method, w.tau0, w.tau1, tausFn w.lib w.tau0 w.tau1 scheme⟩ M.orders = .ok W ∧
      SolvesOCP ocp M T ∧ WidthsAre ocp n a.widths T ∧ p.Shows (ocp.inUnits U) M (T.inUnits U) ∧ PhysCost ocp M W T J ∧
      PhysCost (ocp.inUnits U) M W (T.inUnits U) (U.c * J) ∧
      ∀ T' J', SolvesOCP ocp M T' → WidthsAre ocp n a.widths T' → PhysCost ocp M W T' J' → J ≤ J' := by
  obtain ⟨hv', hs', hsc'⟩ := C96_ready h hv hs hsc
  obtain ⟨T', W, J', hW, hT', hw, hsh, hJ', hle⟩ := C53_solve_optimal hrun hv' hs' hsc' hM hopt
  rw [← Traj.inUnits_fromUnits h T'] at hT' hw hsh hJ'
  obtain ⟨v, hvs⟩ := exists_samples ocp M (T'.fromUnits U)
  have hJ : PhysCost ocp M W (T'.fromUnits U) _ := ⟨v, hvs, rfl⟩
  have e := (C96_cost h hv hJ).unique hM.good (hM.weights_length hW) hv'.runningCosts hJ'
  refine ⟨_, W, _, hW, (C96_solves h hM.good hv _).1 hT', widthsAre_inUnits.1 hw, hsh, hJ, C96_cost h hv hJ, ?_⟩
  intro T2 J2 h2 hw2 hJ2
  have := hle _ _ ((C96_solves h hM.good hv T2).2 h2) (widthsAre_inUnits.2 hw2) (C96_cost h hv hJ2)
  rw [← e] at this
  exact le_of_mul_le_mul_left this h.c

/-- **C96** The same for `mpopt_adaptive`, which also chooses the widths. -/
theorem C96_adaptive_optimal (h : U.Positive) {s : AdaptOpt K V} {lbh ubh tol : List K} {mid : Bool}
    (hf : s.Ready w (ocp.inUnits U) n arg scheme lbh ubh tol mid) (hv : ValidOCP ocp) (hs : ocp.SettingsOK) (hsc : ocp.PosScales)
    (hlb : lbh.length = ocp.nPhases) (hub : ubh.length = ocp.nPhases) (htol : tol.length = ocp.nPhases)
    (hM : MeshFor w scheme n arg M) (hopt : ∀ c z, nlpsol c = .ok z → c.IsOptimal z) (earlier : List (SolveArgs K V))
    (a : SolveArgs K V) {s' : AdaptOpt K V} {z : List K} (hrun : (s.run w nlpsol earlier).solve w nlpsol a = (s', .ok z))
    (hp : s'.processResults w ptp false rx rdx = .ok (p, r)) :
    ∃ T W J, compQuadWeights ⟨w.method, w.tau0, w.tau1, tausFn w.lib w.tau0 w.tau1 scheme⟩ M.orders = .ok W ∧
      SolvesAdaptive ocp M T lbh ubh tol mid ∧ p.Shows (ocp.inUnits U) M (T.inUnits U) ∧ PhysCost ocp M W T J ∧
      PhysCost (ocp.inUnits U) M W (T.inUnits U) (U.c * J) ∧
      ∀ T' J', SolvesAdaptive ocp M T' lbh ubh tol mid → PhysCost ocp M W T' J' → J ≤ J' := by
  obtain ⟨hv', hs', hsc'⟩ := C96_ready h hv hs hsc
  obtain ⟨T', W, J', hW, hT', hsh, hJ', hle⟩ := C55_adaptive_optimal hf hv' hs' hsc' hlb hub htol hM hopt earlier a hrun hp
  rw [← Traj.inUnits_fromUnits h T'] at hT' hsh hJ'
  obtain ⟨v, hvs⟩ := exists_samples ocp M (T'.fromUnits U)
  have hJ : PhysCost ocp M W (T'.fromUnits U) _ := ⟨v, hvs, rfl⟩
  have e := (C96_cost h hv hJ).unique hM.good (hM.weights_length hW) hv'.runningCosts hJ'
  refine ⟨_, W, _, hW, (C96_adaptive h hM.good hv _).1 hT', hsh, hJ, C96_cost h hv hJ, ?_⟩
  intro T2 J2 h2 hJ2
  have := hle _ _ ((C96_adaptive h hM.good hv T2).2 h2) (C96_cost h hv hJ2)
  rw [← e] at this
  exact le_of_mul_le_mul_left this h.c

end

/-! ### Problems that do not read the clock -/

section
variable {K : Type} [Field K] [LinearOrder K] [IsStrictOrderedRing K] {ocp : OCP K} {M : Mesh K} {T : Traj K}

/-- Only the zero of time is moved. -/
def UnitChange.clock (δ : K) : UnitChange K :=
  ⟨fun _ => 1, fun _ => 0, fun _ => 1, fun _ => 0, fun _ => 1, fun _ => 0, 1, δ, 1⟩

theorem UnitChange.clock_pos (δ : K) : (UnitChange.clock δ).Positive :=
  ⟨fun _ => one_pos, fun _ => one_pos, fun _ => one_pos, one_pos, one_pos⟩

theorem inUnits_clock (δ : K) : T.inUnits (.clock δ) = T.later δ := by
  simp [Traj.inUnits, Traj.later, UnitChange.clock]

theorem mapIdx_same {α : Type} (l : List α) (f : Nat → α → α) (h : ∀ j a, f j a = a) : l.mapIdx f = l := by
  apply List.ext_getElem?
  intro i
  rw [List.getElem?_mapIdx]
  cases l[i]? <;> simp [h]

theorem perColumn_same {α : Type} (l : List (List α)) (f : Nat → α → α) (h : ∀ j a, f j a = a) : perColumn f l = l := by
  unfold perColumn
  conv_rhs => rw [← List.map_id l]
  exact List.map_congr_left fun row _ => mapIdx_same row f h

theorem perColumn_const {α β : Type} (l : List (List α)) (f : α → β) : perColumn (fun _ => f) l = l.map fun row => row.map f := by
  unfold perColumn
  refine List.map_congr_left fun row _ => ?_
  apply List.ext_getElem?
  intro i
  rw [List.getElem?_mapIdx, List.getElem?_map]

theorem oldP_clock (δ : K) (p : PArg K) : (UnitChange.clock δ).oldP p = { p with t := p.t - δ } := by
  have key : ∀ l : List K, (l.mapIdx fun _ v => v) = l := fun l => mapIdx_same l _ fun _ _ => rfl
  cases p with
  | mk x u t a => cases a <;> simp [UnitChange.oldP, UnitChange.clock, key]

theorem oldT_clock (δ : K) (p : TArg K) : (UnitChange.clock δ).oldT p = { p with tf := p.tf - δ, t0 := p.t0 - δ } := by
  have key : ∀ l : List K, (l.mapIdx fun _ v => v) = l := fun l => mapIdx_same l _ fun _ _ => rfl
  cases p with
  | mk x tf x0 t0 a => cases a <;> simp [UnitChange.oldT, UnitChange.clock, key]

/-- **C96** A problem that does not read the clock is, measured from another zero of time, the same problem later. -/
theorem C96_autonomous (h : ocp.Autonomous) (δ : K) : ocp.inUnits (.clock δ) = ocp.later δ := by
  have e1 : (ocp.dynamics.map fun F => (⟨F.len, fun p j => (1 : K) / 1 * F.f ((UnitChange.clock δ).oldP p) j⟩ :
      VFun (PArg K) K)) = ocp.dynamics := by
    conv_rhs => rw [← List.map_id ocp.dynamics]
    refine List.map_congr_left fun F hF => ?_
    have : (fun p j => (1 : K) / 1 * F.f ((UnitChange.clock δ).oldP p) j) = F.f := by
      funext p j; rw [oldP_clock, h.dynamics F hF, div_one, one_mul]
    rw [this]; rfl
  have e2 : (ocp.pathConstraints.map fun F => F.map fun F => (⟨F.len, fun p => F.f ((UnitChange.clock δ).oldP p)⟩ :
      VFun (PArg K) K)) = ocp.pathConstraints := by
    conv_rhs => rw [← List.map_id ocp.pathConstraints]
    refine List.map_congr_left fun F hF => ?_
    cases F with
    | none => rfl
    | some F =>
      have : (fun p => F.f ((UnitChange.clock δ).oldP p)) = F.f := by
        funext p; rw [oldP_clock, h.path F hF]
      simp only [Option.map_some, this]; rfl
  have e3 : (ocp.terminalConstraints.map fun F => F.map fun F => (⟨F.len, fun p => F.f ((UnitChange.clock δ).oldT p)⟩ :
      VFun (TArg K) K)) = ocp.terminalConstraints := by
    conv_rhs => rw [← List.map_id ocp.terminalConstraints]
    refine List.map_congr_left fun F hF => ?_
    cases F with
    | none => rfl
    | some F =>
      have : (fun p => F.f ((UnitChange.clock δ).oldT p)) = F.f := by
        funext p; rw [oldT_clock, h.final F hF]
      simp only [Option.map_some, this]; rfl
  have e4 : (ocp.terminalCosts.map fun E t => (1 : K) * E ((UnitChange.clock δ).oldT t)) = ocp.terminalCosts := by
    conv_rhs => rw [← List.map_id ocp.terminalCosts]
    refine List.map_congr_left fun E hE => ?_
    funext t
    rw [oldT_clock, h.terminal E hE, one_mul]; rfl
  have e5 : (ocp.runningCosts.map fun L p => (1 : K) / 1 * L ((UnitChange.clock δ).oldP p)) = ocp.runningCosts := by
    conv_rhs => rw [← List.map_id ocp.runningCosts]
    refine List.map_congr_left fun E hE => ?_
    funext t
    rw [oldP_clock, h.running E hE, div_one, one_mul]; rfl
  have a1 : ∀ l : List (List K), perColumn (fun _ v => 1 * v + 0) l = l := fun l => perColumn_same l _ fun _ v => by simp
  have a2 : ∀ l : List (List (Ext K)), perColumn (fun _ => Ext.affine 1 0) l = l := fun l => perColumn_same l _ fun _ v => by
    cases v <;> simp [Ext.affine]
  have a3 : ∀ l : List K, (l.mapIdx fun _ s => s / 1) = l := fun l => mapIdx_same l _ fun _ v => by simp
  have a4 : ∀ l : List (List K), perColumn (fun _ v => 1 * v + δ) l = l.map fun row => row.map (· + δ) := fun l => by
    rw [perColumn_const]; simp only [one_mul]
  have a5 : ∀ l : List (List (Ext K)), perColumn (fun _ => Ext.affine 1 δ) l = l.map fun row => row.map (Ext.affine 1 δ) :=
    fun l => perColumn_const l _
  unfold OCP.inUnits OCP.later
  simp only [UnitChange.clock] at *
  simp only [e1, e2, e3, e4, e5, a1, a2, a3, a4, a5, div_one ocp.scaleT]

/-- **C96** Solutions and costs of such a problem move along with the bounds on times. -/
theorem C96_later (h : ocp.Autonomous) (hM : M.Good) (hv : ValidOCP ocp) (δ : K) (T : Traj K) :
    (SolvesOCP (ocp.later δ) M (T.later δ) ↔ SolvesOCP ocp M T) ∧
      ∀ W J, PhysCost ocp M W T J → PhysCost (ocp.later δ) M W (T.later δ) J := by
  rw [← C96_autonomous h, ← inUnits_clock]
  refine ⟨C96_solves (UnitChange.clock_pos δ) hM hv T, fun W J hJ => ?_⟩
  have := C96_cost (UnitChange.clock_pos δ) hv hJ
  simpa [UnitChange.clock] using this

variable {V : Type} {w : Outside K V} {nlpsol : SolverCall K V → Py (List K)} {n : Nat} {ptp : List (List Nat)}
variable {arg : OrdersArg} {scheme : String} {a : SolveArgs K V} {rx rdx : Bool} {s : Session K V} {p : Post K}
variable {r : Option (PyDict (ResidVal K))}

/-- **C96** Such a problem posed `δ` later is solved by an optimal trajectory of the original one, shown `δ` later. -/
theorem C96_later_optimal (h : ocp.Autonomous) (δ : K)
    (hrun : mpSolve w nlpsol (ocp.later δ) ptp n arg scheme a rx rdx = .ok (s, p, r))
    (hv : ValidOCP ocp) (hs : ocp.SettingsOK) (hsc : ocp.PosScales) (hM : MeshFor w scheme n arg M)
    (hopt : ∀ c z, nlpsol c = .ok z → c.IsOptimal z) :
    ∃ T W J, compQuadWeights ⟨w.method, w.tau0, w.tau1, tausFn w.lib w.tau0 w.tau1 scheme⟩ M.orders = .ok W ∧
      SolvesOCP ocp M T ∧ WidthsAre ocp n a.widths T ∧ p.Shows (ocp.later δ) M (T.later δ) ∧ PhysCost ocp M W T J ∧
      ∀ T' J', SolvesOCP ocp M T' → WidthsAre ocp n a.widths T' → PhysCost ocp M W T' J' → J ≤ J' := by
  rw [← C96_autonomous h] at hrun ⊢
  obtain ⟨T, W, J, h1, h2, h3, h4, h5, -, h7⟩ := C96_optimal (UnitChange.clock_pos δ) hrun hv hs hsc hM hopt
  rw [inUnits_clock] at h4
  exact ⟨T, W, J, h1, h2, h3, h4, h5, h7⟩

end

end MPOpt
