import Verif.Props.LaunchEnd

/-! # C110: the target orbit of the shipped launch vehicle -/

set_option autoImplicit false

namespace MPOpt

namespace Launch

/-- Position and velocity at perigee of an orbit with semi-major axis, eccentricity and inclination of the target, ascending
node `node` and argument of perigee `argP`; and any mass. -/
noncomputable def perigee (node argP m : ℝ) : List ℝ := aeToRv aReq eReq iReq node argP 0 ++ [m]

/-- Direction of the perigee, of the velocity there, and of the angular momentum. -/
structure Frame (cn sn cp sp ci si : ℝ) : Prop where
  n : cn ^ 2 + sn ^ 2 = 1
  p : cp ^ 2 + sp ^ 2 = 1
  i : ci ^ 2 + si ^ 2 = 1

/-- The state at perigee, at distance `q` with speed `s`. -/
structure AtPerigee (x : Nat → ℝ) (q s cn sn cp sp ci si : ℝ) : Prop where
  x0 : x 0 = (cn * cp - sn * sp * ci) * q
  x1 : x 1 = (sn * cp + cn * sp * ci) * q
  x2 : x 2 = sp * si * q
  x3 : x 3 = (-cn * sp - sn * cp * ci) * s
  x4 : x 4 = (-sn * sp + cn * cp * ci) * s
  x5 : x 5 = cp * si * s

variable {x : Nat → ℝ} {q s cn sn cp sp ci si : ℝ}

theorem AtPerigee.angMom (h : AtPerigee x q s cn sn cp sp ci si) (hf : Frame cn sn cp sp ci si) :
    angMom x 0 = q * s * (sn * si) ∧ angMom x 1 = q * s * (-cn * si) ∧ angMom x 2 = q * s * ci := by
  obtain ⟨h0, h1, h2, h3, h4, h5⟩ := h
  obtain ⟨hn, hp, hi⟩ := hf
  simp only [Launch.angMom, h0, h1, h2, h3, h4, h5]
  refine ⟨?_, ?_, ?_⟩
  · linear_combination (q * s * sn * si) * hp
  · linear_combination (-q * s * cn * si) * hp
  · linear_combination (q * s * ci * (cp ^ 2 + sp ^ 2)) * hn + (q * s * ci) * hp

theorem AtPerigee.radius (h : AtPerigee x q s cn sn cp sp ci si) (hf : Frame cn sn cp sp ci si) (hq : 0 < q) :
    radius x = q := by
  obtain ⟨h0, h1, h2, -, -, -⟩ := h
  obtain ⟨hn, hp, hi⟩ := hf
  have : x 0 * x 0 + x 1 * x 1 + x 2 * x 2 = q ^ 2 := by
    rw [h0, h1, h2]
    linear_combination (q ^ 2 * (cp ^ 2 + sp ^ 2 * ci ^ 2)) * hn + q ^ 2 * sp ^ 2 * hi + q ^ 2 * hp
  rw [Launch.radius, this, Real.sqrt_sq hq.le]

theorem AtPerigee.speed (h : AtPerigee x q s cn sn cp sp ci si) (hf : Frame cn sn cp sp ci si) (hs : 0 < s) :
    Real.sqrt (x 3 * x 3 + x 4 * x 4 + x 5 * x 5) = s := by
  obtain ⟨-, -, -, h3, h4, h5⟩ := h
  obtain ⟨hn, hp, hi⟩ := hf
  have : x 3 * x 3 + x 4 * x 4 + x 5 * x 5 = s ^ 2 := by
    rw [h3, h4, h5]
    linear_combination (s ^ 2 * (sp ^ 2 + cp ^ 2 * ci ^ 2)) * hn + s ^ 2 * cp ^ 2 * hi + s ^ 2 * hp
  rw [this, Real.sqrt_sq hs.le]

theorem AtPerigee.ecc {e : ℝ} (h : AtPerigee x q s cn sn cp sp ci si) (hf : Frame cn sn cp sp ci si) (hq : 0 < q)
    (hqs : q * s ^ 2 = muE * (1 + e)) :
    ecc x 0 = e * (cn * cp - sn * sp * ci) ∧ ecc x 1 = e * (sn * cp + cn * sp * ci) ∧ ecc x 2 = e * (sp * si) := by
  have hmu : muE ≠ 0 := by norm_num [muE]
  obtain ⟨a0, a1, a2⟩ := h.angMom hf
  have hr := h.radius hf hq
  obtain ⟨h0, h1, h2, h3, h4, h5⟩ := h
  obtain ⟨hn, hp, hi⟩ := hf
  have hq' := hq.ne'
  simp only [Launch.ecc, a0, a1, a2, hr, h0, h1, h2, h3, h4, h5]
  have key : ∀ P R : ℝ, P = R * (q * s ^ 2) → 1 / muE * P - R * q / q = e * R := by
    intro P R hP
    rw [hP, hqs]
    field_simp
    ring
  refine ⟨key _ _ ?_, key _ _ ?_, key _ _ ?_⟩
  · linear_combination (q * s ^ 2 * cn * cp) * hi
  · linear_combination (q * s ^ 2 * sn * cp) * hi
  · linear_combination (q * s ^ 2 * sp * si) * hn

/-- Distance and speed at the perigee of the target. -/
noncomputable def qReq : ℝ := aReq * (1 - eReq)
noncomputable def sReq : ℝ := Real.sqrt (muE / (aReq * (1 - eReq * eReq))) * (1 + eReq)

theorem req : 0 < qReq ∧ 0 < sReq ∧ qReq * sReq ^ 2 = muE * (1 + eReq) := by
  have hp : 0 < aReq * (1 - eReq * eReq) := by norm_num [aReq, eReq]
  have hmu : 0 < muE := by norm_num [muE]
  refine ⟨by norm_num [qReq, aReq, eReq], mul_pos (Real.sqrt_pos.2 (div_pos hmu hp)) (by norm_num [eReq]), ?_⟩
  have hsq : Real.sqrt (muE / (aReq * (1 - eReq * eReq))) ^ 2 = muE / (aReq * (1 - eReq * eReq)) :=
    Real.sq_sqrt (div_pos hmu hp).le
  rw [sReq, mul_pow, hsq, qReq]
  rw [show aReq * (1 - eReq * eReq) = aReq * (1 - eReq) * (1 + eReq) by ring] at hp ⊢
  have h1 : (1 + eReq) ≠ 0 := by norm_num [eReq]
  have h2 : aReq * (1 - eReq) ≠ 0 := by norm_num [aReq, eReq]
  field_simp
  exact div_self h2

theorem perigee_at (node argP m : ℝ) : AtPerigee (fun i => (perigee node argP m).getD i 0) qReq sReq (Real.cos node)
    (Real.sin node) (Real.cos argP) (Real.sin argP) (Real.cos iReq) (Real.sin iReq) := by
  have h1 : (1 + eReq) ≠ 0 := by norm_num [eReq]
  have hq : aReq * (1 - eReq * eReq) / (1 + eReq) = qReq := by
    rw [qReq]
    field_simp
    ring
  have hs : Real.sqrt (muE / (aReq * (1 - eReq * eReq))) * (eReq + 1) = sReq := by rw [sReq, add_comm]
  constructor <;> simp [perigee, aeToRv, hq, hs]

/-- What `terminal_constraints3` computes from the state at the perigee. -/
theorem target_perigee (node argP m : ℝ) (t0 tf : ℝ) (x0 : List ℝ) (a : Option (List ℝ)) :
    let v := target.f ⟨perigee node argP m, tf, x0, t0, a⟩
    v 0 = 0 ∧ v 1 = 0 ∧ v 2 = 0 ∧ v 3 = 2 * Real.pi - Real.arccos (Real.cos node) - nodeReq ∧
      v 4 = Real.arccos (Real.cos argP) - argPReq := by
  intro v
  obtain ⟨hq, hs, hqs⟩ := req
  have hf : Frame (Real.cos node) (Real.sin node) (Real.cos argP) (Real.sin argP) (Real.cos iReq) (Real.sin iReq) :=
    ⟨Real.cos_sq_add_sin_sq _, Real.cos_sq_add_sin_sq _, Real.cos_sq_add_sin_sq _⟩
  have h := perigee_at node argP m
  obtain ⟨a0, a1, a2⟩ := h.angMom hf
  obtain ⟨e0, e1, e2⟩ := h.ecc hf hq hqs
  have hr := h.radius hf hq
  have hv := h.speed hf hs
  have hpi := Real.pi_pos
  have hsi : 0 < Real.sin iReq := Real.sin_pos_of_pos_of_lt_pi (by unfold iReq; positivity) (by unfold iReq; linarith)
  have hqs0 : 0 < qReq * sReq := mul_pos hq hs
  have he : 0 < eReq := by norm_num [eReq]
  obtain ⟨hn, hp, hi⟩ := hf
  have eMag : Real.sqrt ((eReq * (Real.cos node * Real.cos argP - Real.sin node * Real.sin argP * Real.cos iReq)) *
      (eReq * (Real.cos node * Real.cos argP - Real.sin node * Real.sin argP * Real.cos iReq)) +
      (eReq * (Real.sin node * Real.cos argP + Real.cos node * Real.sin argP * Real.cos iReq)) *
      (eReq * (Real.sin node * Real.cos argP + Real.cos node * Real.sin argP * Real.cos iReq)) +
      (eReq * (Real.sin argP * Real.sin iReq)) * (eReq * (Real.sin argP * Real.sin iReq))) = eReq := by
    rw [show ∀ A B C : ℝ, A = eReq ^ 2 - B - C → A + B + C = eReq ^ 2 from fun A B C h => by rw [h]; ring]
    · exact Real.sqrt_sq he.le
    · linear_combination (eReq ^ 2 * (Real.cos argP ^ 2 + Real.sin argP ^ 2 * Real.cos iReq ^ 2)) * hn +
        eReq ^ 2 * Real.sin argP ^ 2 * hi + eReq ^ 2 * hp
  have hMag : Real.sqrt (qReq * sReq * (Real.sin node * Real.sin iReq) * (qReq * sReq * (Real.sin node * Real.sin iReq)) +
      qReq * sReq * (-Real.cos node * Real.sin iReq) * (qReq * sReq * (-Real.cos node * Real.sin iReq)) +
      qReq * sReq * Real.cos iReq * (qReq * sReq * Real.cos iReq)) = qReq * sReq := by
    rw [show ∀ A B C : ℝ, A = (qReq * sReq) ^ 2 - B - C → A + B + C = (qReq * sReq) ^ 2 from fun A B C h => by rw [h]; ring]
    · exact Real.sqrt_sq hqs0.le
    · linear_combination ((qReq * sReq) ^ 2 * Real.sin iReq ^ 2) * hn + (qReq * sReq) ^ 2 * hi
  have nMag : Real.sqrt (-(qReq * sReq * (-Real.cos node * Real.sin iReq)) * -(qReq * sReq * (-Real.cos node * Real.sin iReq)) +
      qReq * sReq * (Real.sin node * Real.sin iReq) * (qReq * sReq * (Real.sin node * Real.sin iReq))) =
      qReq * sReq * Real.sin iReq := by
    rw [show ∀ A B : ℝ, A = (qReq * sReq * Real.sin iReq) ^ 2 - B → A + B = (qReq * sReq * Real.sin iReq) ^ 2 from
      fun A B h => by rw [h]; ring]
    · exact Real.sqrt_sq (mul_pos hqs0 hsi).le
    · linear_combination ((qReq * sReq) ^ 2 * Real.sin iReq ^ 2) * hn
  have hmu : muE ≠ 0 := by norm_num [muE]
  refine ⟨?_, ?_, ?_, ?_, ?_⟩
  · have ha : -muE / (sReq * sReq - 2 * muE / qReq) = aReq := by
      have h1 : sReq * sReq - 2 * muE / qReq = -muE / aReq := by
        have haq : aReq ≠ 0 := by norm_num [aReq]
        have hq1 := hq.ne'
        have e3 : qReq = aReq * (1 - eReq) := rfl
        field_simp
        linear_combination aReq * hqs - 2 * 0 * e3 + muE * e3
      rw [h1]
      have haq : aReq ≠ 0 := by norm_num [aReq]
      field_simp
    simp only [v, target, if_true, hv, hr, ha, sub_self, zero_div]
  · simp only [v, target, one_ne_zero, if_false, if_true, e0, e1, e2, eMag, sub_self]
  · have : qReq * sReq * Real.cos iReq / (qReq * sReq) = Real.cos iReq := by
      rw [mul_comm (qReq * sReq), mul_div_assoc, div_self hqs0.ne', mul_one]
    have hacos : Real.arccos (Real.cos iReq) = iReq :=
      Real.arccos_cos (by unfold iReq; positivity) (by unfold iReq; linarith)
    simp only [v, target, OfNat.ofNat_ne_zero, OfNat.ofNat_ne_one, if_false, if_true, a0, a1, a2, hMag, this, hacos, sub_self]
  · have : -(qReq * sReq * (-Real.cos node * Real.sin iReq)) / (qReq * sReq * Real.sin iReq) = Real.cos node := by
      have := hqs0.ne'
      have := hsi.ne'
      field_simp
    simp only [v, target, OfNat.ofNat_ne_zero, OfNat.ofNat_ne_one, one_ne_zero, Nat.reduceEqDiff, if_false, if_true, a0, a1, nMag,
      this]
  · have : (-(qReq * sReq * (-Real.cos node * Real.sin iReq)) *
          (eReq * (Real.cos node * Real.cos argP - Real.sin node * Real.sin argP * Real.cos iReq)) +
        qReq * sReq * (Real.sin node * Real.sin iReq) *
          (eReq * (Real.sin node * Real.cos argP + Real.cos node * Real.sin argP * Real.cos iReq))) /
        (qReq * sReq * Real.sin iReq * eReq) = Real.cos argP := by
      rw [div_eq_iff (by positivity)]
      linear_combination (qReq * sReq * Real.sin iReq * eReq * Real.cos argP) * hn
    simp only [v, target, OfNat.ofNat_ne_zero, OfNat.ofNat_ne_one, one_ne_zero, Nat.reduceEqDiff, if_false, if_true, a0, a1, e0,
      e1, e2, nMag, eMag, this]

end Launch

open Launch

/-- **C110** Every perigee state whose node and argument of perigee have the cosines of the required ones meets the terminal
constraints of the script. -/
theorem C110_cosines {node argP : ℝ} (hn : Real.cos node = Real.cos nodeReq) (hp : Real.cos argP = Real.cos argPReq)
    (m t0 tf : ℝ) (x0 : List ℝ) (a : Option (List ℝ)) :
    ∀ c < target.len, target.f ⟨perigee node argP m, tf, x0, t0, a⟩ c = 0 := by
  obtain ⟨h0, h1, h2, h3, h4⟩ := target_perigee node argP m t0 tf x0 a
  have hpi := Real.pi_pos
  have e3 : Real.arccos (Real.cos nodeReq) = 2 * Real.pi - nodeReq := by
    rw [← Real.cos_two_pi_sub]
    exact Real.arccos_cos (by unfold nodeReq; linarith) (by unfold nodeReq; linarith)
  have e4 : Real.arccos (Real.cos argPReq) = argPReq :=
    Real.arccos_cos (by unfold argPReq; positivity) (by unfold argPReq; linarith)
  rw [hn, e3] at h3
  rw [hp, e4] at h4
  intro c hc
  have hc : c < 5 := hc
  interval_cases c
  · exact h0
  · exact h1
  · exact h2
  · rw [h3]; ring
  · rw [h4]; ring

/-- **C110** The final state the script guesses meets its terminal constraints. -/
theorem C110_guess (t0 tf : ℝ) (x0 : List ℝ) (a : Option (List ℝ)) : ∀ c < target.len, target.f ⟨xf, tf, x0, t0, a⟩ c = 0 :=
  C110_cosines rfl rfl _ t0 tf x0 a

/-- **C110** The terminal constraints do not tell four orbits apart: for either sign of the node and of the argument of perigee
the constraints hold, though the angular momentum points to either side and the perigee is north or south of the equator. -/
theorem C110_four : ∃ k l : ℝ, 0 < k ∧ 0 < l ∧ ∀ σ τ : ℝ, σ = 1 ∨ σ = -1 → τ = 1 ∨ τ = -1 → ∀ m : ℝ,
    let x := perigee (σ * nodeReq) (τ * argPReq) m
    angMom (fun i => x.getD i 0) 0 = -σ * k ∧ ecc (fun i => x.getD i 0) 2 = τ * l ∧
      ∀ (t0 tf : ℝ) (x0 : List ℝ) (a : Option (List ℝ)), ∀ c < target.len, target.f ⟨x, tf, x0, t0, a⟩ c = 0 := by
  obtain ⟨hq, hs, hqs⟩ := req
  have hpi := Real.pi_pos
  have hsi : 0 < Real.sin iReq := Real.sin_pos_of_pos_of_lt_pi (by unfold iReq; positivity) (by unfold iReq; linarith)
  have hsp : 0 < Real.sin argPReq := Real.sin_pos_of_pos_of_lt_pi (by unfold argPReq; positivity) (by unfold argPReq; linarith)
  have hsn : 0 < -Real.sin nodeReq := by
    rw [← Real.sin_neg, ← Real.sin_add_two_pi]
    exact Real.sin_pos_of_pos_of_lt_pi (by unfold nodeReq; linarith) (by unfold nodeReq; linarith)
  have he : 0 < eReq := by norm_num [eReq]
  refine ⟨qReq * sReq * (-Real.sin nodeReq * Real.sin iReq), eReq * (Real.sin argPReq * Real.sin iReq), by positivity,
    by positivity, fun σ τ hσ hτ m => ?_⟩
  have hf : ∀ a b c : ℝ, Frame (Real.cos a) (Real.sin a) (Real.cos b) (Real.sin b) (Real.cos c) (Real.sin c) := fun _ _ _ =>
    ⟨Real.cos_sq_add_sin_sq _, Real.cos_sq_add_sin_sq _, Real.cos_sq_add_sin_sq _⟩
  have h := perigee_at (σ * nodeReq) (τ * argPReq) m
  have s1 : Real.sin (σ * nodeReq) = σ * Real.sin nodeReq := by rcases hσ with rfl | rfl <;> simp
  have s2 : Real.sin (τ * argPReq) = τ * Real.sin argPReq := by rcases hτ with rfl | rfl <;> simp
  refine ⟨?_, ?_, fun t0 tf x0 a => C110_cosines ?_ ?_ m t0 tf x0 a⟩
  · rw [(h.angMom (hf _ _ _)).1, s1]
    ring
  · rw [(h.ecc (hf _ _ _) hq hqs).2.2, s2]
    ring
  · rcases hσ with rfl | rfl <;> simp
  · rcases hτ with rfl | rfl <;> simp

/-- **C110** So the NLP of the script accepts trajectories into each of the four orbits: the constraints of the last phase hold for
every trajectory that ends in one of them. -/
theorem C110_accepted {dyn : Nat → VFun (PArg ℝ) ℝ} {M : Mesh ℝ} {T : Traj ℝ} {σ τ m : ℝ} (hσ : σ = 1 ∨ σ = -1)
    (hτ : τ = 1 ∨ τ = -1) (hT : ∀ j < 7, T.x 3 (M.N - 1) j = (perigee (σ * nodeReq) (τ * argPReq) m).getD j 0) :
    ∀ ph < 4, TerminalOK (ocp dyn (some target)) M T ph := by
  intro ph hp F hF c hc
  obtain ⟨_, _, _, _, h⟩ := C110_four
  have h := (h σ τ hσ hτ m).2.2
  have hp3 : ph = 3 := by
    interval_cases ph <;> simp [ocp] at hF ⊢
  subst hp3
  have hF : F = target := by simpa [ocp] using hF.symm
  subst hF
  have e : ((ocp dyn (some target)).tArg T 3 M.N).xf = perigee (σ * nodeReq) (τ * argPReq) m := by
    have : ((ocp dyn (some target)).tArg T 3 M.N).xf = (List.range 7).map fun j =>
        (perigee (σ * nodeReq) (τ * argPReq) m).getD j 0 :=
      List.map_congr_left fun j hj => hT j (List.mem_range.1 hj)
    rw [this]
    simp [List.range_succ, perigee, aeToRv]
  have := h (T.t0 3) (T.tf 3) ((ocp dyn (some target)).tArg T 3 M.N).x0 ((ocp dyn (some target)).tArg T 3 M.N).a c hc
  rw [← e] at this
  exact this

end MPOpt
