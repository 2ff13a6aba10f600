import Verif.Props.Mine
import Verif.Props.Existence
import Verif.Props.Schwartz
import Verif.Props.ShippedExample
import Mathlib.Topology.Semicontinuity.Basic

/-! # Runs that meet the hypotheses of C106

The running cost of the mine is not continuous where the mine is empty, so C70 does not apply. With `|u|` as value there
it is lower semicontinuous, which suffices for a cheapest trajectory to exist.
-/

set_option autoImplicit false
set_option linter.unusedSectionVars false

namespace MPOpt
open Polynomial Topology

variable {M : Mesh ℝ} {ocp : OCP ℝ}

/-- A cheapest trajectory exists when the cost is lower semicontinuous. -/
theorem exists_cheapest_lower (hM : M.Good) {W : List ℝ} (hW : W.length = M.N)
    (hrc : ocp.runningCosts.length = ocp.nPhases) {P : Traj ℝ → Prop}
    (hc : LowerSemicontinuousOn (fun σ => ocp.costOf M W (trajOf σ)) {σ | P (trajOf σ)})
    (hsame : ∀ {S T}, SameOn ocp M.N M.orders.length S T → P S → P T)
    (hcl : ∀ {S : Set (Env ℝ)} {σ}, σ ∈ closure S → (∀ τ ∈ S, P (trajOf τ)) → P (trajOf σ))
    (hbd : ∃ R, ∀ T, P T → BoundedBy ocp M R T) (hne : ∃ T, P T) :
    ∃ T J, P T ∧ PhysCost ocp M W T J ∧ ∀ T' J', P T' → PhysCost ocp M W T' J' → J ≤ J' := by
  obtain ⟨T₀, h₀⟩ := hne
  obtain ⟨R, hR⟩ := hbd
  have huniq : ∀ {T J}, PhysCost ocp M W T J → J = ocp.costOf M W T := fun h =>
    PhysCost.unique hM hW hrc h (physCost_costOf W _)
  have hcut : ∀ T, ocp.costOf M W (trajOf (T.cut ocp M)) = ocp.costOf M W T := fun T =>
    (huniq (T.cut_same.cost (physCost_costOf W T))).symm
  set B : Set (Env ℝ) := Set.univ.pi fun s => Set.Icc (-max (R s) 0) (max (R s) 0)
  have hB : IsCompact B := isCompact_univ_pi fun _ => isCompact_Icc
  set S : Set (Env ℝ) := {σ | P (trajOf σ)}
  have hS : IsClosed S := isClosed_of_closure_subset fun σ hσ => hcl hσ fun τ hτ => hτ
  have hmem : ∀ T, P T → T.cut ocp M ∈ B ∩ S := fun T hT =>
    ⟨fun s _ => abs_le.1 ((hR T hT).cut s), hsame T.cut_same hT⟩
  obtain ⟨σ, hσ, hmin⟩ := LowerSemicontinuousOn.exists_isMinOn ⟨_, hmem T₀ h₀⟩ (hB.inter_right hS)
    (hc.mono Set.inter_subset_right)
  refine ⟨trajOf σ, _, hσ.2, physCost_costOf W _, fun T' J' hT' hJ' => ?_⟩
  rw [huniq hJ', ← hcut T']
  exact hmin (hmem T' hT')

/-! ### The cost of the mine -/

/-- Cost per time. -/
noncomputable def mineRate (x u : ℝ) : ℝ := if x = 0 then |u| else u * u / x - 1 * u

theorem mineRate_lower {α : Type} [TopologicalSpace α] {S : Set α} {a b : α → ℝ} (ha : Continuous a) (hb : Continuous b)
    (h : ∀ σ ∈ S, 0 ≤ a σ) : LowerSemicontinuousOn (fun σ => mineRate (a σ) (b σ)) S := by
  intro σ hσ y hy
  by_cases h0 : a σ = 0
  · have hy : y < |b σ| := by simpa [mineRate, h0] using hy
    have hge : ∀ x u : ℝ, 0 ≤ x → -|u| ≤ mineRate x u := by
      intro x u hx
      unfold mineRate
      split
      · linarith [abs_nonneg u]
      · have : 0 ≤ u * u / x := div_nonneg (mul_self_nonneg u) hx
        linarith [le_abs_self u]
    by_cases hb0 : b σ = 0
    · rw [hb0, abs_zero] at hy
      have he : ∀ᶠ τ in 𝓝 σ, |b τ| < -y := (hb.abs.tendsto σ).eventually_lt_const (by rw [hb0]; simpa using hy)
      filter_upwards [nhdsWithin_le_nhds he, self_mem_nhdsWithin] with τ h1 h2
      have := hge (a τ) (b τ) (h τ h2)
      linarith
    · have hp : 0 < |b σ| := abs_pos.2 hb0
      have e1 : ∀ᶠ τ in 𝓝 σ, y < |b τ| := (hb.abs.tendsto σ).eventually_const_lt hy
      have e2 : ∀ᶠ τ in 𝓝 σ, |b σ| / 2 < |b τ| := (hb.abs.tendsto σ).eventually_const_lt (by linarith)
      have e3 : ∀ᶠ τ in 𝓝 σ, |b τ| < 2 * |b σ| := (hb.abs.tendsto σ).eventually_lt_const (by linarith)
      have hK : 0 < |y| + 2 * |b σ| + 1 := by positivity
      have e4 : ∀ᶠ τ in 𝓝 σ, a τ < (|b σ| / 2) ^ 2 / (|y| + 2 * |b σ| + 1) :=
        (ha.tendsto σ).eventually_lt_const (by rw [h0]; positivity)
      filter_upwards [nhdsWithin_le_nhds e1, nhdsWithin_le_nhds e2, nhdsWithin_le_nhds e3, nhdsWithin_le_nhds e4,
        self_mem_nhdsWithin] with τ g1 g2 g3 g4 g5
      unfold mineRate
      split
      · exact g1
      · rename_i hne
        have hx : 0 < a τ := lt_of_le_of_ne (h τ g5) (Ne.symm hne)
        rw [lt_div_iff₀ hK] at g4
        have h1 : |y| + 2 * |b σ| + 1 ≤ b τ * b τ / a τ := by
          rw [le_div_iff₀ hx]
          have : (|b σ| / 2) ^ 2 ≤ b τ * b τ := by
            rw [← abs_mul_abs_self (b τ), ← sq]
            exact pow_le_pow_left₀ (by positivity) g2.le 2
          nlinarith
        have h2 := le_abs_self (b τ)
        have h3 := le_abs_self y
        linarith
  · have hc : ContinuousAt (fun τ => b τ * b τ / a τ - 1 * b τ) σ :=
      ((hb.mul hb).continuousAt.div ha.continuousAt h0).sub (continuous_const.mul hb).continuousAt
    have hy : y < b σ * b σ / a σ - 1 * b σ := by simpa only [mineRate, if_neg h0] using hy
    have e1 := hc.tendsto.eventually_const_lt hy
    have e2 : ∀ᶠ τ in 𝓝 σ, a τ ≠ 0 := ha.continuousAt.eventually_ne h0
    filter_upwards [nhdsWithin_le_nhds e1, nhdsWithin_le_nhds e2] with τ g1 g2
    unfold mineRate
    rw [if_neg g2]; exact g1

theorem lower_scaled {α : Type} [TopologicalSpace α] {S : Set α} {f g : α → ℝ} (hg : LowerSemicontinuousOn g S) {c : ℝ}
    (hc : 0 ≤ c) (h : ∀ σ ∈ S, f σ = c * g σ) : LowerSemicontinuousOn f S := by
  intro σ hσ y hy
  rw [h σ hσ] at hy
  rcases hc.eq_or_lt with rfl | hc
  · filter_upwards [self_mem_nhdsWithin] with τ hτ
    rw [h τ hτ]; simpa using hy
  · filter_upwards [hg σ hσ (y / c) (show y / c < g σ by rw [div_lt_iff₀ hc]; linarith), self_mem_nhdsWithin] with τ g1 g2
    rw [h τ g2]
    have g1 : y / c < g τ := g1
    rw [div_lt_iff₀ hc] at g1
    linarith

variable {q : ℝ → ℝ} {n : Nat} {req : Option (List ℝ)}

/-- Trajectories among which `solve` chooses. -/
def MineSet (M : Mesh ℝ) (n : Nat) (req : Option (List ℝ)) (T : Traj ℝ) : Prop :=
  SolvesOCP (ocpMine abs) M T ∧ WidthsAre (ocpMine abs) n req T

theorem mineSet_half {S T : Traj ℝ} (hl : M.orders.length = n) (hS : MineSet M n req S) (hT : MineSet M n req T) {s : Nat}
    (hs : s < M.orders.length) : M.halfWidth T 0 s = M.halfWidth S 0 s := by
  have e : ∀ {T : Traj ℝ}, MineSet M n req T → T.t0 0 = 0 ∧ T.tf 0 = 1 := by
    intro T hT
    have b := hT.1.1.bounds 0 (by simp [ocpMine])
    have h1 : (0 : ℝ) ≤ T.t0 0 ∧ T.t0 0 ≤ 0 := b.t0
    have h2 : (1 : ℝ) ≤ T.tf 0 ∧ T.tf 0 ≤ 1 := b.tf
    exact ⟨le_antisymm h1.2 h1.1, le_antisymm h2.2 h2.1⟩
  unfold Mesh.halfWidth
  rw [(e hS).1, (e hS).2, (e hT).1, (e hT).2, hS.2.iff.1 hT.2 0 (by simp [ocpMine]) s (by omega)]

theorem mineSet_x {T : Traj ℝ} (hT : MineSet M n req T) {k : Nat} (hk : k < M.N) : 0 ≤ T.x 0 k 0 ∧ T.x 0 k 0 ≤ 1 := by
  have b := hT.1.1.bounds 0 (by simp [ocpMine])
  by_cases h0 : k = 0
  · subst h0
    have : T.x 0 0 0 = 1 := by simpa [ocpMine, entry] using b.x0 rfl 0 (by simp [ocpMine])
    rw [this]; norm_num
  · exact b.x k hk (by simp [h0]) 0 (by simp [ocpMine])

/-- The problem with another running cost has the same feasible trajectories. -/
noncomputable def ocpMineFree : OCP ℝ := { ocpMine abs with runningCosts := [fun _ => 0] }

theorem ocpMineFree_cts : CtsOCP ocpMineFree := by
  refine ⟨fun F hF j hj => ?_, fun F hF => ?_, fun F hF => ?_, fun r hr => ?_, fun r hr => ?_⟩
  · obtain rfl := List.mem_singleton.1 hF
    exact (PCts.u 0).neg
  · simp [ocpMineFree, ocpMine] at hF
  · simp [ocpMineFree, ocpMine] at hF
  · obtain rfl := List.mem_singleton.1 hr
    exact PCts.const _
  · obtain rfl := List.mem_singleton.1 hr
    exact TCts.const _

theorem mineFree_solves {T : Traj ℝ} : SolvesOCP ocpMineFree M T ↔ SolvesOCP (ocpMine abs) M T :=
  ⟨fun h => ⟨⟨fun ph hp => let b := h.1.1 ph hp; ⟨b.1, b.2, b.3, b.4, b.5, b.6⟩, h.1.2, h.1.3, h.1.4, h.1.5, h.1.6,
      fun h2 => let b := h.1.7 h2; ⟨b.1, b.2, b.3⟩⟩, h.2⟩,
    fun h => ⟨⟨fun ph hp => let b := h.1.1 ph hp; ⟨b.1, b.2, b.3, b.4, b.5, b.6⟩, h.1.2, h.1.3, h.1.4, h.1.5, h.1.6,
      fun h2 => let b := h.1.7 h2; ⟨b.1, b.2, b.3⟩⟩, h.2⟩⟩

theorem mineSet_same (hl : M.orders.length = n) {S T : Traj ℝ}
    (h : SameOn (ocpMine abs) M.N M.orders.length S T) (hS : MineSet M n req S) : MineSet M n req T :=
  ⟨h.solves ocpMine_ready.2.1 hS.1, hS.2.iff.2 fun ph hp s hs => h.w ph hp s (by omega)⟩

theorem mineSet_closure {S : Set (Env ℝ)} {σ : Env ℝ} (hσ : σ ∈ closure S) (h : ∀ τ ∈ S, MineSet M n req (trajOf τ)) :
    MineSet M n req (trajOf σ) :=
  ⟨mineFree_solves.1 (closure_solves hσ ocpMineFree_cts fun τ hτ => mineFree_solves.2 (h τ hτ).1),
    closure_widthsAre hσ fun τ hτ => (h τ hτ).2⟩

/-- The dynamics determine the control, so the trajectories are bounded. -/
theorem mineSet_bounded (hM : M.Good) (hl : M.orders.length = n) {T₀ : Traj ℝ} (h₀ : MineSet M n req T₀)
    (hh : ∀ s < M.orders.length, 0 < M.halfWidth T₀ 0 s) : ∃ R, ∀ T, MineSet M n req T → BoundedBy (ocpMine abs) M R T := by
  have hu : ∀ k, ∃ B, ∀ T, MineSet M n req T → k < M.N → |T.u 0 k 0| ≤ B := by
    intro k
    by_cases hk : k < M.N
    swap
    · exact ⟨0, fun _ _ h => absurd h hk⟩
    obtain ⟨s, i, ho, rfl⟩ := M.exists_owner hM.nonempty hk
    set C : Set (Env ℝ) := Set.univ.pi fun _ => Set.Icc (-1) 1
    have hC : IsCompact C := isCompact_univ_pi fun _ => isCompact_Icc
    obtain ⟨B, hB⟩ := hC.exists_bound_of_continuousOn
      (cts_deriv (M := M) (v := fun σ k => σ (.X 0 k 0)) (fun _ => continuous_apply _) s (M.node s i)).continuousOn
    refine ⟨B / M.halfWidth T₀ 0 s, fun T hT _ => ?_⟩
    have hcol : ∀ {T : Traj ℝ}, MineSet M n req T → (derivative (M.piece (fun k => T.x 0 k 0) s)).eval (M.node s i) =
        M.halfWidth T 0 s * -T.u 0 (M.idx s i) 0 := fun hT =>
      hT.1.1.dynamics 0 (by simp [ocpMine]) _ rfl 0 (by simp [ocpMine]) s i ho
    have hT' := mineSet_same hl T.cut_same hT
    have hc := hcol hT'
    rw [mineSet_half hl h₀ hT' ho.1] at hc
    have hxu : (trajOf (T.cut (ocpMine abs) M)).u 0 (M.idx s i) 0 = T.u 0 (M.idx s i) 0 :=
      (T.cut_same.u 0 (by simp [ocpMine]) _ hk 0 (by simp [ocpMine])).symm
    rw [hxu] at hc
    have hb := hB (fun s => match s with | .X _ k _ => T.cut (ocpMine abs) M (.X 0 k 0) | _ => 0) (fun s _ => by
      have h01 : (0 : ℝ) ∈ Set.Icc (-1 : ℝ) 1 := ⟨by norm_num, by norm_num⟩
      cases s with
      | X ph k j =>
        show T.cut (ocpMine abs) M (.X 0 k 0) ∈ Set.Icc (-1 : ℝ) 1
        unfold Traj.cut
        split
        · rename_i hv
          have := mineSet_x hT (k := k) hv.2.1
          exact ⟨by simp only [Traj.val]; linarith [this.1], this.2⟩
        · exact h01
      | _ => exact h01)
    have hb' : ‖(derivative (M.piece (fun k => (trajOf (T.cut (ocpMine abs) M)).x 0 k 0) s)).eval (M.node s i)‖ ≤ B := hb
    rw [hc, Real.norm_eq_abs, abs_mul, abs_neg, abs_of_pos (hh s ho.1)] at hb'
    rw [le_div_iff₀ (hh s ho.1)]; linarith
  choose B hB using hu
  refine ⟨fun s => match s with
    | .X _ _ _ => 1 | .U _ k _ => B k | .T0 _ => 0 | .Tf _ => 1 | .A _ _ => 0 | .H s _ => |T₀.w s 0|, fun T hT s hs => ?_⟩
  have b := hT.1.1.bounds 0 (by simp [ocpMine])
  cases s with
  | X ph i j =>
    obtain ⟨hp, hi, hj⟩ := hs
    obtain rfl : ph = 0 := by simpa [ocpMine] using hp
    obtain rfl : j = 0 := by simpa [ocpMine] using hj
    have := mineSet_x hT hi
    exact abs_le.2 ⟨by simp only [Traj.val]; linarith [this.1], this.2⟩
  | U ph i j =>
    obtain ⟨hp, hi, hj⟩ := hs
    obtain rfl : ph = 0 := by simpa [ocpMine] using hp
    obtain rfl : j = 0 := by simpa [ocpMine] using hj
    exact hB i T hT hi
  | T0 ph =>
    obtain rfl : ph = 0 := Nat.lt_one_iff.1 hs
    have h1 : (0 : ℝ) ≤ T.t0 0 ∧ T.t0 0 ≤ 0 := b.t0
    exact abs_le.2 ⟨by simp only [Traj.val]; linarith [h1.1], h1.2⟩
  | Tf ph =>
    obtain rfl : ph = 0 := Nat.lt_one_iff.1 hs
    have h1 : (1 : ℝ) ≤ T.tf 0 ∧ T.tf 0 ≤ 1 := b.tf
    exact abs_le.2 ⟨by simp only [Traj.val]; linarith [h1.1], h1.2⟩
  | A k ph =>
    obtain ⟨-, hk⟩ := hs
    simp [ocpMine] at hk
  | H s ph =>
    obtain ⟨hp, hs⟩ := hs
    obtain rfl : ph = 0 := by simpa [ocpMine] using hp
    have := h₀.2.iff.1 hT.2 0 (by simp [ocpMine]) s (by omega)
    show |T.w s 0| ≤ |T₀.w s 0|
    rw [this]

theorem mineSet_cost (hM : M.Good) (hl : M.orders.length = n) {T₀ : Traj ℝ} (h₀ : MineSet M n req T₀)
    (hh : ∀ s < M.orders.length, 0 < M.halfWidth T₀ 0 s) {W : List ℝ} (hW : W.length = M.N) (hpos : ∀ x ∈ W, 0 ≤ x) :
    LowerSemicontinuousOn (fun σ => (ocpMine abs).costOf M W (trajOf σ)) {σ | MineSet M n req (trajOf σ)} := by
  have e : (fun σ => (ocpMine abs).costOf M W (trajOf σ)) = fun σ => ∑ k ∈ Finset.range W.length,
      W.getD k 0 * (ocpMine abs).sample M (trajOf σ) 0 k := by
    funext σ
    simp only [OCP.costOf, show (ocpMine abs).nPhases = 1 from rfl, Finset.sum_range_one]
    rw [show TerminalCost (ocpMine abs) M (trajOf σ) 0 = 0 from rfl, zero_add]
    rfl
  rw [e]
  refine lowerSemicontinuousOn_sum fun k hk => ?_
  have hk : k < M.N := by rw [← hW]; exact Finset.mem_range.1 hk
  have hw0 : 0 ≤ W.getD k 0 := by
    rw [List.getD_eq_getElem _ _ (by omega)]
    exact hpos _ (List.getElem_mem _)
  obtain ⟨s, i, ho, rfl⟩ := M.exists_owner hM.nonempty hk
  refine lower_scaled (g := fun σ => mineRate (σ (.X 0 (M.idx s i) 0)) (σ (.U 0 (M.idx s i) 0)))
    (c := W.getD (M.idx s i) 0 * M.halfWidth T₀ 0 s)
    (mineRate_lower (continuous_apply _) (continuous_apply _) fun σ hσ => (mineSet_x hσ hk).1)
    (mul_nonneg hw0 (hh s ho.1).le) fun σ hσ => ?_
  have h : ∃ si : Nat × Nat, M.Owns si.1 si.2 ∧ M.idx si.1 si.2 = M.idx s i := ⟨(s, i), ho, rfl⟩
  unfold OCP.sample
  rw [dif_pos h]
  obtain ⟨h1, h2⟩ := h.choose_spec
  obtain ⟨e1, e2⟩ := Mesh.owner_unique h1 ho h2
  rw [e1, e2, mineSet_half hl h₀ hσ ho.1, mul_assoc]
  rfl

variable {V : Type} {w : Outside ℝ V} {nlpsol : SolverCall ℝ V → Py (List ℝ)} {ptp : List (List Nat)}
  {arg : OrdersArg} {rx rdx : Bool}

/-- **C106** On the mine example with `|u|` as running cost at `x = 0`, `solve` with a perfect solver returns: for all LGR
meshes of orders at least 2 and all admissible widths. So the hypotheses of `C106_mine_solve` can be met. -/
theorem C106_mine_returns (hM : MeshFor w "LGR" n arg M) (hn : M.orders.length = n) (hlt : w.tau0 < w.tau1)
    {a : SolveArgs ℝ V} (hacc : w.accepts a.plugin (solverOptions w.vals a.plugin a.options) = true)
    (hwid : GoodWidths (ocpMine abs) n a.widths) (hptp : ptp ≠ []) (hord : ∀ q ∈ M.orders, 2 ≤ q)
    (hj : ∀ q ∈ M.orders, IsJacobiRoots 1 0 (q - 1) (w.lib.jroots (q - 1) 1 0)) (hperf : Perfect nlpsol) :
    ∃ out, mpSolve w nlpsol (ocpMine abs) ptp n arg "LGR" a rx rdx = .ok out := by
  obtain ⟨hv, hs, hsc⟩ := ocpMine_ready (q := abs)
  obtain ⟨c, W, hWeq, hsol, hobj, hret⟩ := C52_solve_returns (ptp := ptp) (rx := rx) (rdx := rdx) hv hs hsc hM hn hlt
    hacc hwid (mine_phase (by simp [ocpMine, entry])) hptp
  obtain ⟨hI, -⟩ := C57_lgr_integrates hM hlt hord hj hWeq
  have hn0 : 0 < n := by rw [← hn]; exact List.length_pos_iff.2 hM.good.nonempty
  have hW : ∀ x ∈ W, 0 ≤ x := by
    obtain ⟨ws, rfl, -, hp⟩ := C67_lgr_composite w.lib w.method w.tau0 w.tau1 hlt hord hj hWeq
    intro x hx
    rcases List.mem_cons.1 hx with rfl | hx
    · exact le_rfl
    · exact (hp x hx).le
  obtain ⟨ω, hω⟩ : ∃ T, WidthsAre (ocpMine abs) n a.widths T := by
    cases hr : a.widths with
    | none => exact ⟨⟨fun _ _ _ => 0, fun _ _ _ => 0, fun _ => 0, fun _ => 0, fun _ _ => 0, fun _ _ => 1 / n⟩, fun _ _ _ _ => rfl⟩
    | some l =>
      refine ⟨⟨fun _ _ _ => 0, fun _ _ _ => 0, fun _ => 0, fun _ => 0, fun _ _ => 0, fun s _ => l.getD s 0⟩, ?_⟩
      have hl : l.length = n := by simpa [ocpMine] using (hwid l hr).1
      show (ocpMine abs).packWidths n _ = l
      simp only [OCP.packWidths, show (ocpMine abs).nPhases = 1 from rfl, List.range_one, List.flatMap_cons,
        List.flatMap_nil, List.append_nil]
      rw [← hl]
      apply List.ext_getElem
      · simp
      · intro i h1 h2
        simp [List.getElem?_eq_getElem h2]
  obtain ⟨T₀, hT, hTw⟩ := exists_samples_of (ocpMine abs) M exactMine ω.w
  have hw' : WidthsAre (ocpMine abs) n a.widths T₀ := hω.iff.2 fun ph _ s _ => by rw [hTw]
  have hf := hw'.full_all hn0 hn hwid
  have ho : ∀ s < M.orders.length, 2 ≤ M.order s := fun s hs => hord _ (hM.good.order_mem hs)
  obtain ⟨p1, p2, -⟩ := exactMine_poly (q := abs) ho (b := exactMine.breakTime T₀.w 0) fun s hs =>
    break_le (hf 0 (by simp [ocpMine])) hs
  have h₀ : MineSet M n a.widths T₀ := ⟨C56_exact_feasible hM.good hI exactMine_solves hs.linkRange hT hf
    (mine_phase (one_entry p1)) (mine_phase fun _ => one_entry p2) (mine_phase rfl) (mine_phase rfl), hw'⟩
  have hh : ∀ s < M.orders.length, 0 < M.halfWidth T₀ 0 s := fun s hs =>
    (time_bounds hM.good hI (by
      have b := h₀.1.1.bounds 0 (by simp [ocpMine])
      have h1 : T₀.t0 0 ≤ 0 := b.t0.2
      have h2 : 1 ≤ T₀.tf 0 := b.tf.1
      linarith) (hf 0 (by simp [ocpMine])) hs).1
  have hWl := weights_length hM hWeq
  obtain ⟨T, J, k1, k3, k4⟩ := exists_cheapest_lower hM.good hWl hv.runningCosts (P := MineSet M n a.widths)
    (mineSet_cost hM.good hn h₀ hh hWl hW) (mineSet_same hn) (fun hσ h => mineSet_closure hσ h)
    (mineSet_bounded hM.good hn h₀ hh) ⟨T₀, h₀⟩
  have hopt : c.IsOptimal ((ocpMine abs).packVec M.N T) := by
    refine ⟨(hsol _).2 ⟨T, k1.1, k1.2, rfl⟩, fun z hz => ?_⟩
    obtain ⟨T', h1, h2, rfl⟩ := (hsol z).1 hz
    rw [hobj T J k1.2 k3, hobj T' _ h2 (physCost_costOf W T')]
    exact k4 T' _ ⟨h1, h2⟩ (physCost_costOf W T')
  obtain ⟨z, hz⟩ := hperf.complete c _ hopt
  exact hret nlpsol z hz (hperf.sound c z hz).sol.x

/-- The shipped call `mp.mpopt(ocp, 1, 30)` with the default solver options: one LGR segment of order 30. The profit
found is the true one up to less than `10⁻¹⁸`. -/
theorem exampleMine : ∃ (nlpsol : SolverCall ℝ Nat → Py (List ℝ)) (M : Mesh ℝ) (s : Session ℝ Nat) (p : Post ℝ)
    (r : Option (PyDict (ResidVal ℝ))), MeshFor outsideR "LGR" 1 (.int 30) M ∧
    mpSolve outsideR nlpsol (ocpMine abs) [[0]] 1 (.int 30) "LGR" argsR false true = .ok (s, p, r) ∧
    ∃ T W J, p.Shows (ocpMine abs) M T ∧ PhysCost (ocpMine abs) M W T J ∧ |J - -1 / 5| < 1 / 10 ^ 18 := by
  obtain ⟨nlpsol, hperf⟩ := exists_perfect (V := Nat)
  obtain ⟨M, hM, hMo⟩ := exists_lgr_int (n := 1) (p := 30) (by norm_num) (by norm_num)
  have hord : ∀ q ∈ M.orders, 2 ≤ q := by rw [hMo]; simp
  have hlt : outsideR.tau0 < outsideR.tau1 := by norm_num [outsideR]
  obtain ⟨⟨s, p, r⟩, hout⟩ := C106_mine_returns (ptp := [[0]]) (rx := false) (rdx := true) (a := argsR) hM (by rw [hMo]; rfl) hlt
    rfl (by simp [GoodWidths, argsR]) (by simp) hord (fun q _ => libR_jacobi 1 0 (q - 1)) hperf
  obtain ⟨T, W, J, -, h1, h2, h3, h4⟩ := C106_mine_solve scriptMine_eq (fun _ => le_rfl) hout hM hlt (k := 15)
    (by norm_num) (by rw [hMo]; simp) (fun q _ => libR_jacobi 1 0 (q - 1)) hperf.sound (by simp [argsR])
  refine ⟨nlpsol, M, s, p, r, hM, hout, T, W, J, h1, h2, ?_⟩
  rw [abs_lt]
  constructor <;> norm_num at h3 h4 ⊢ <;> linarith

end MPOpt
