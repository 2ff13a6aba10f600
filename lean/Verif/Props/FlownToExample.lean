import Verif.Props.FlownTo
import Verif.Props.FlownExample

/-! # A concrete case for C82: a plan that misses the start, the dynamics and the target -/

set_option autoImplicit false

namespace MPOpt
open Polynomial

/-- The dynamics of `ocpFly` with a headwind. -/
noncomputable def windF : VFun (PArg ℝ) ℝ := ⟨1, fun p _ => p.u.getD 0 0 + p.x.getD 0 0 ^ 2 / 100 - 1 / 100⟩

/-- `ocpFly` with this headwind, the initial state 1/200 and the final state 101/200. -/
noncomputable def ocpWind : OCP ℝ :=
  { ocpFly with dynamics := [windF], x00 := [[1 / 200]], terminalConstraints := [some ⟨1, fun t _ => t.xf.getD 0 0 - 101 / 200⟩] }

noncomputable def sizesWind : Sizes := { sizesFly with tol := 1 / 50 }

theorem ocpWind_ready : ValidOCP ocpWind ∧ ocpWind.SettingsOK ∧ ocpWind.PosScales := by
  refine ⟨?_, ⟨Nat.one_pos, rfl, rfl, rfl, rfl, rfl, Or.inl Nat.one_pos, fun h => absurd h (by simp [ocpWind, ocpFly, ocpBox, ocpR]),
    fun h => absurd h (by simp [ocpWind, ocpFly, ocpBox, ocpR]), by simp [ocpWind, ocpFly, ocpBox, ocpR]⟩,
    ⟨?_, ?_, ?_, by norm_num [ocpWind, ocpFly, ocpBox, ocpR]⟩⟩
  · constructor
    case ordX => exact rowOrdered_single (by simp [Ext.le])
    case ordU => exact rowOrdered_single (by simp [Ext.le])
    case ordA => exact rowOrdered_empty
    case ordT0 => exact rowOrdered_single (by simp [Ext.le])
    case ordTf => exact rowOrdered_single (by simp [Ext.le])
    case ordE => intro ph l u hl; simp [ocpWind, ocpFly, ocpBox, ocpR] at hl
    all_goals simp [ocpWind, ocpFly, ocpBox, ocpR, HasShape, windF]
  all_goals simp [ocpWind, ocpFly, ocpBox, ocpR]

theorem sizesWind_drift : sizesWind.drift ≤ 7 := by
  have hexp : Real.exp (2 / 25) ≤ 2.8 := by
    have h1 : Real.exp (2 / 25) ≤ Real.exp 1 := Real.exp_le_exp.2 (by norm_num)
    linarith [Real.exp_one_lt_d9]
  unfold Sizes.drift Sizes.rate sizesWind sizesFly
  norm_num at hexp ⊢
  nlinarith

theorem trajBox_solvesTo : SolvesTo (1 / 100) (1 / 200) ocpWind meshGrow trajBox := by
  have one : ∀ {P : Nat → Prop}, P 0 → ∀ ph < ocpWind.nPhases, P ph := by
    intro P h ph hp
    obtain rfl : ph = 0 := by simpa [ocpWind, ocpFly, ocpBox, ocpR] using hp
    exact h
  refine ⟨one ⟨?_, ?_, ?_, ?_, ?_, ?_⟩, one ?_, one ?_, one ?_, one ?_, one ?_, one ?_, ?_⟩
  · intro _ j hj
    obtain rfl : j = 0 := by simpa [ocpWind, ocpFly, ocpBox, ocpR] using hj
    norm_num [trajBox, trajStep, ocpWind, ocpFly, ocpBox, ocpR, entry, abs_le]
  · intro i _ _ j hj
    obtain rfl : j = 0 := by simpa [ocpWind, ocpFly, ocpBox, ocpR] using hj
    have := trajBox_node (i := i)
    have e : (1 / 100 : ℝ) / ocpWind.scaleX.getD 0 0 = 1 / 200 := by norm_num [ocpWind, ocpFly, ocpBox, ocpR]
    rw [e]
    show (-5 : ℝ) ≤ trajBox.x 0 i 0 + _ ∧ trajBox.x 0 i 0 - _ ≤ 5
    constructor <;> linarith [this.1, this.2.1]
  · intro i _ j hj
    obtain rfl : j = 0 := by simpa [ocpWind, ocpFly, ocpBox, ocpR] using hj
    have e : (1 / 100 : ℝ) / ocpWind.scaleU.getD 0 0 = 1 / 100 := by norm_num [ocpWind, ocpFly, ocpBox, ocpR]
    rw [e]
    refine ⟨?_, trivial⟩
    show (-1 : ℝ) ≤ _
    linarith [(trajBox_node (i := i)).2.2]
  · norm_num [trajBox, trajStep, ocpWind, ocpFly, ocpBox, ocpR, entry, WithinTo, Ext.Below, Ext.Above]
  · norm_num [trajBox, trajStep, ocpWind, ocpFly, ocpBox, ocpR, entry, WithinTo, Ext.Below, Ext.Above]
  · intro k hk; simp [ocpWind, ocpFly, ocpBox, ocpR] at hk
  · intro F hF j hj s i hi
    obtain rfl : j = 0 := by simpa [ocpWind, ocpFly, ocpBox, ocpR] using hj
    have hF : windF = F := by simpa [ocpWind, ocpFly, ocpBox] using hF
    rw [← hF]
    obtain ⟨h1, h2, h3⟩ := hi
    have h1 : s < 2 := h1
    interval_cases s
    · have h2 : i ≤ 1 := h2
      rw [boxPieces.1]
      interval_cases i <;>
        norm_num [OCP.pArg, ocpWind, ocpFly, ocpBox, ocpR, Mesh.idx, segStart, trajBox, trajStep, meshGrow, Mesh.halfWidth, windF]
    · have h2 : i ≤ 1 := h2
      obtain rfl : i = 1 := by omega
      rw [boxPieces.2.1]
      norm_num [OCP.pArg, ocpWind, ocpFly, ocpBox, ocpR, Mesh.idx, segStart, trajBox, trajStep, meshGrow, Mesh.halfWidth, windF]
  · intro F hF s i _ c _
    have hF : (⟨1, fun p _ => p.x.getD 0 0 - 3⟩ : VFun (PArg ℝ) ℝ) = F := by simpa [ocpWind, ocpFly, ocpBox, ocpR] using hF
    rw [← hF]
    show trajBox.x 0 (meshGrow.idx s i) 0 - 3 ≤ _
    linarith [(trajBox_node (i := meshGrow.idx s i)).2.1]
  · intro F hF c _
    have hF : (⟨1, fun t _ => t.xf.getD 0 0 - 101 / 200⟩ : VFun (TArg ℝ) ℝ) = F := by
      simpa [ocpWind, ocpFly, ocpBox, ocpR] using hF
    rw [← hF]
    norm_num [OCP.tArg, ocpWind, ocpFly, ocpBox, ocpR, meshGrow, Mesh.N, trajBox, trajStep, abs_le]
  · intro h; simp [ocpWind, ocpFly, ocpBox, ocpR] at h
  · intro h; simp [ocpWind, ocpFly, ocpBox, ocpR] at h
  · intro h; simp [ocpWind, ocpFly, ocpBox, ocpR] at h
  · intro h; simp [ocpWind, ocpFly, ocpBox, ocpR] at h

/-- Half of this tolerance would not do. -/
theorem trajBox_misses : ¬ SolvesTo (1 / 100) (1 / 400) ocpWind meshGrow trajBox := by
  intro h
  have := h.terminal 0 (by simp [ocpWind, ocpFly, ocpBox, ocpR]) ⟨1, fun t _ => t.xf.getD 0 0 - 101 / 200⟩ rfl 0 Nat.one_pos
  norm_num [OCP.tArg, ocpWind, ocpFly, ocpBox, ocpR, meshGrow, Mesh.N, trajBox, trajStep, abs_le] at this

theorem trajBox_allows : sizesWind.Allows ocpWind meshGrow trajBox (1 / 200) := by
  intro ph hp s hs
  obtain rfl : ph = 0 := by simpa [ocpWind, ocpFly, ocpBox, ocpR] using hp
  norm_num [Mesh.halfWidth, trajBox, trajStep, meshGrow, sizesWind, sizesFly]

theorem trajBox_sizedWind :
    Sized ocpWind meshGrow trajBox 0 (fun _ => -4) (fun _ => 4) (fun u => |u.getD 0 0| ≤ 1) sizesWind := by
  obtain ⟨-, -, -, hk, -⟩ := C79_example
  have h := trajBox_sized
  have ht := h.tame boxF rfl
  have hsx : ocpWind.scaleX.getD 0 0 = (2 : ℝ) := by simp [ocpWind, ocpFly, ocpBox, ocpR]
  have hx0 : 0 < ocpWind.nx := by simp [ocpWind, ocpFly, ocpBox, ocpR]
  constructor
  case order => exact h.order
  case length => exact h.length
  case tame =>
    intro F hF
    have hF : windF = F := by simpa [ocpWind, ocpFly, ocpBox] using hF
    rw [← hF]
    refine ⟨ht.lebesgue, fun s i hi j hj => ?_, fun p q h1 h2 h3 h4 h5 h6 h7 h7' dx du h8 h9 j hj => ?_, ht.lasts, ht.varies, ht.states,
      ht.controls, ht.B, ht.Lx, ht.Lu, ht.Lt, ht.e⟩
    · obtain rfl : j = 0 := by simpa [ocpWind, ocpFly, ocpBox, ocpR] using hj
      rw [hsx]
      simp only [windF, ocpWind, ocpFly, ocpBox, ocpR, OCP.pArg, trajBox, trajStep, sizesWind, sizesFly]
      simp only [List.range_one, List.map_cons, List.map_nil, List.getD_cons_zero]
      split
      · norm_num [abs_le]
      · split <;> norm_num [abs_le]
    · have := ht.lipschitz p q h1 h2 h3 h4 h5 h6 h7 h7' dx du h8 h9 j hj
      simp only [windF, sub_sub_sub_cancel_right]
      exact this
  case keeps =>
    intro s hs tau htau k hk'
    have h1 := hk s hs tau htau k hk'
    have h2 := sizesWind_drift
    constructor
    · exact le_trans (add_le_add le_rfl h2) h1.1
    · exact h1.2.trans (sub_le_sub_left h2 _)
  case path => exact h.path
  case cost => exact h.cost
  case terminal =>
    intro F hF c _ x y _ _ d hd
    have hF : (⟨1, fun t _ => t.xf.getD 0 0 - 101 / 200⟩ : VFun (TArg ℝ) ℝ) = F := by
      simpa [ocpWind, ocpFly, ocpBox, ocpR] using hF
    have h1 := hd 0 hx0
    rw [← hF]
    rw [hsx, abs_mul, abs_of_pos (by norm_num : (0 : ℝ) < 2)] at h1
    simp only [sizesWind, sizesFly]
    rw [sub_sub_sub_cancel_right]
    linarith
  case endCost => exact h.endCost
  case Qt => exact h.Qt
  case tol => norm_num [sizesWind]

/-- **C82** The hypotheses of `C82_flown` are met by a plan that misses the initial state, the dynamics and the final state. Flown, it
obeys `x' = u + x²/100 - 1/100` exactly, starts where the plan does, and ends within `4` of the final state wanted. -/
theorem C82_example : ∃ C, Flies ocpWind meshGrow trajBox C ∧ NearlySolvesTo ocpWind C (sizesWind.slack (1 / 100) (1 / 200)) ∧
    DynamicsHold ocpWind C 0 ∧ C.x 0 0 0 = 0 ∧ |C.x 0 0 1 - 101 / 200| ≤ 4 := by
  obtain ⟨hv, hs, hsc⟩ := ocpWind_ready
  have h0 : 0 < ocpWind.nPhases := by simp [ocpWind, ocpFly, ocpBox, ocpR]
  have hx0 : 0 < ocpWind.nx := by simp [ocpWind, ocpFly, ocpBox, ocpR]
  have one : ∀ {P : Nat → Prop}, P 0 → ∀ ph < ocpWind.nPhases, P ph := by
    intro P h ph hp
    obtain rfl : ph = 0 := by simpa [ocpWind, ocpFly, ocpBox, ocpR] using hp
    exact h
  obtain ⟨C, h1, h2⟩ := C82_flown (lo := fun _ _ => -4) (hi := fun _ _ => 4) (U := fun _ u => |u.getD 0 0| ≤ 1) hv hs hsc
    meshGrow_good meshGrow_inside trajBox_solvesTo trajBox_allows (one C79_example.2.1) (one trajBox_sizedWind)
  refine ⟨C, h1, h2, (h2.phase 0 h0).dynamics, ?_, ?_⟩
  · have h3 := h1.start 0 h0 0 hx0
    rw [h1.t0] at h3
    simpa [trajBox, trajStep] using h3
  · have h3 := (h2.phase 0 h0).terminal ⟨1, fun t _ => t.xf.getD 0 0 - 101 / 200⟩ rfl 0 Nat.one_pos
    have e : (ocpWind.cEnd C 0).xf.getD 0 0 = C.x 0 0 1 := by
      have : C.tf 0 = 1 := by rw [h1.tf]; rfl
      rw [← this]
      exact getD_range_map (fun j => C.x 0 j (C.tf 0)) hx0
    simp only [e] at h3
    refine h3.trans ?_
    have := sizesWind_drift
    show 1 / 2 * sizesWind.drift + 1 / 200 ≤ 4
    linarith

end MPOpt
