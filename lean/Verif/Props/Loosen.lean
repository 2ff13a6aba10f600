import Verif.Spec.Loosen
import Verif.Props.Compare
import Verif.Props.MayerEnd

/-! # C102: a problem that asks for less is solved at no higher cost -/

set_option autoImplicit false
set_option linter.unusedSectionVars false

namespace MPOpt
open Polynomial

variable {K : Type} [Field K] [LinearOrder K] [IsStrictOrderedRing K] {ocp ocp' : OCP K} {M : Mesh K} {T : Traj K} {n : Nat}

theorem Wider.within {lo hi lo' hi' : Ext K} (h : Wider lo hi lo' hi') {v : K} (hv : Within lo hi v) : Within lo' hi' v := by
  obtain ⟨h1, h2⟩ := h
  obtain ⟨v1, v2⟩ := hv
  refine ⟨?_, ?_⟩
  · cases lo <;> cases lo' <;> simp_all [Ext.le, Ext.Below]
    exact h1.trans v1
  · cases hi <;> cases hi' <;> simp_all [Ext.le, Ext.Above]
    exact v2.trans h2

theorem Wider.refl {lo hi : Ext K} (h1 : lo ≠ .nan) (h2 : hi ≠ .nan) : Wider lo hi lo hi := by
  constructor
  · cases lo <;> simp_all [Ext.le]
  · cases hi <;> simp_all [Ext.le]

namespace OCP.Loosens
variable (h : ocp.Loosens ocp')
include h

theorem pArg (T : Traj K) (ph k : Nat) (t : K) : ocp'.pArg T ph k t = ocp.pArg T ph k t := by
  unfold OCP.pArg; rw [h.nx, h.nu, h.na]

theorem tArg (T : Traj K) (ph m : Nat) : ocp'.tArg T ph m = ocp.tArg T ph m := by
  unfold OCP.tArg; rw [h.nx, h.na]

theorem boundsOK {ph : Nat} (hp : ph < ocp.nPhases) (hB : BoundsOK ocp M T ph) : BoundsOK ocp' M T ph where
  x0 e j hj := by
    rw [h.nx] at hj
    rw [h.start j hj]; exact hB.x0 e j hj
  x i hi hne j hj := by
    rw [h.nx] at hj
    exact (h.x ph hp j hj).within (hB.x i hi hne j hj)
  u i hi j hj := by
    rw [h.nu] at hj
    exact (h.u ph hp j hj).within (hB.u i hi j hj)
  t0 := (h.t0 ph hp 0 (by omega)).within hB.t0
  tf := (h.tf ph hp 0 (by omega)).within hB.tf
  a k hk := by
    rw [h.na] at hk
    exact (h.a ph hp k hk).within (hB.a k hk)

theorem collocationOK {ph : Nat} (hC : CollocationOK ocp M T ph) : CollocationOK ocp' M T ph := by
  intro F hF j hj s i ho
  rw [h.nx] at hj
  rw [h.pArg]
  exact hC F (h.dynamics ▸ hF) j hj s i ho

theorem pathOK {ph : Nat} (hp : ph < ocp.nPhases) (hC : PathOK ocp M T ph) : PathOK ocp' M T ph := by
  intro F hF s i ho c hc
  rw [h.pArg]
  refine h.path ph hp _ (fun G hG c hc => ?_) F ?_ c hc
  · refine hC G ?_ s i ho c hc
    rw [List.getD_eq_getElem?_getD] at hG
    cases e : ocp.pathConstraints[ph]? <;> rw [e] at hG <;> simp_all
  · rw [List.getD_eq_getElem?_getD, hF]; rfl

theorem terminalOK {ph : Nat} (hp : ph < ocp.nPhases) (hC : TerminalOK ocp M T ph) : TerminalOK ocp' M T ph := by
  intro F hF c hc
  rw [h.tArg]
  refine h.terminal ph hp _ (fun G hG c hc => ?_) F ?_ c hc
  · refine hC G ?_ c hc
    rw [List.getD_eq_getElem?_getD] at hG
    cases e : ocp.terminalConstraints[ph]? <;> rw [e] at hG <;> simp_all
  · rw [List.getD_eq_getElem?_getD, hF]; rfl

theorem midControlOK {ph : Nat} (hp : ph < ocp.nPhases) (hC : MidControlOK ocp M T ph) : MidControlOK ocp' M T ph := by
  intro j hj s hs i hi
  rw [h.nu] at hj
  exact (h.u ph hp j hj).within (hC j hj s hs i hi)

theorem midStateOK {ph : Nat} (hp : ph < ocp.nPhases) (hC : MidStateOK ocp M T ph) : MidStateOK ocp' M T ph := by
  intro j hj s hs i hi
  rw [h.nx] at hj
  exact (h.x ph hp j hj).within (hC j hj s hs i hi)

theorem linksOK (hL : LinksOK ocp M T) : LinksOK ocp' M T where
  x k p q hk j hj := by
    rw [h.nx] at hj
    obtain ⟨m, hm, hw⟩ := h.links k p q hk
    exact (hw j hj).within (hL.x m p q hm j hj)
  u k p q hk j hj := by
    rw [h.nu] at hj
    obtain ⟨m, hm, -⟩ := h.links k p q hk
    exact hL.u m p q hm j hj
  t k p q hk := by
    obtain ⟨m, hm, -⟩ := h.links k p q hk
    exact hL.t m p q hm

theorem slopeBounded (hT : ∀ ph < ocp.nPhases, ocp.diffU.getD ph false = true →
      SlopeBounded ocp M T (fun j => ocp.scaleU.getD j 0) ph) {ph : Nat} (hp : ph < ocp.nPhases)
    (hd : ocp'.diffU.getD ph false = true) : SlopeBounded ocp' M T (fun j => ocp'.scaleU.getD j 0) ph := by
  obtain ⟨d, e, w⟩ := h.slope ph hp hd
  intro j hj s i ho
  rw [h.nu] at hj
  rw [e]
  exact w.within (hT ph hp d j hj s i ho)

theorem solves (hT : SolvesOCP ocp M T) : SolvesOCP ocp' M T := by
  obtain ⟨⟨b, d, p, t, m, c, l⟩, s⟩ := hT
  refine ⟨⟨?_, ?_, ?_, ?_, ?_, ?_, ?_⟩, ?_⟩ <;> rw [h.nPhases]
  · exact fun ph hp => h.boundsOK hp (b ph hp)
  · exact fun ph hp => h.collocationOK (d ph hp)
  · exact fun ph hp => h.pathOK hp (p ph hp)
  · exact fun ph hp => h.terminalOK hp (t ph hp)
  · exact fun ph hp e => h.midControlOK hp (m ph hp (h.mid ph hp e))
  · intro ph hp e j hj
    rw [h.nu] at hj
    exact c ph hp (h.cont ph hp e) j hj
  · exact fun hn => h.linksOK (l hn)
  · exact fun ph hp e => h.slopeBounded s hp e

theorem solvesAdaptive {lbh ubh tol : List K} {mid : Bool} (hsc : mid = true → ocp'.scaleX = ocp.scaleX)
    (hT : SolvesAdaptive ocp M T lbh ubh tol mid) : SolvesAdaptive ocp' M T lbh ubh tol mid := by
  obtain ⟨⟨b, d, p, t, w, mc, ms, r, l⟩, s⟩ := hT
  refine ⟨⟨?_, ?_, ?_, ?_, ?_, ?_, ?_, ?_, ?_⟩, ?_⟩ <;> rw [h.nPhases]
  · exact fun ph hp => h.boundsOK hp (b ph hp)
  · exact fun ph hp => h.collocationOK (d ph hp)
  · exact fun ph hp => h.pathOK hp (p ph hp)
  · exact fun ph hp => h.terminalOK hp (t ph hp)
  · exact w
  · exact fun ph hp => h.midControlOK hp (mc ph hp)
  · exact fun ph hp => h.midStateOK hp (ms ph hp)
  · intro hm ph hp F hF j hj s hs i hi
    rw [h.nx] at hj
    have := r hm ph hp F (h.dynamics ▸ hF) j hj s hs i hi
    rw [hsc hm]
    unfold OCP.defect OCP.pArgAt at this ⊢
    rw [h.nx, h.nu, h.na]
    exact this
  · exact fun hn => h.linksOK (l hn)
  · exact fun ph hp e => h.slopeBounded s hp e

theorem widthsAre {req : Option (List K)} : WidthsAre ocp' n req T ↔ WidthsAre ocp n req T := by
  unfold WidthsAre OCP.packWidths
  rw [h.nPhases]

/-- The same cost. -/
theorem physCost (hc : ocp.SameCosts ocp') {W : List K} {J : K} : PhysCost ocp' M W T J ↔ PhysCost ocp M W T J := by
  unfold PhysCost RunningSamples TerminalCost
  simp only [h.nPhases, h.pArg, h.tArg, hc.terminal, hc.running]

/-- Cheaper running costs are cheaper in total when no weight is negative and time runs forwards. -/
theorem cheaper (hc : ocp.Cheapens ocp') (hM : M.Good) (hlt : M.tau0 < M.tau1) (hr : ocp.runningCosts.length = ocp.nPhases)
    (hr' : ocp'.runningCosts.length = ocp'.nPhases) {W : List K} (hW : W.length = M.N) (hpos : ∀ v ∈ W, 0 ≤ v)
    (ht : ∀ ph < ocp.nPhases, T.t0 ph ≤ T.tf ph) (hw : ∀ ph < ocp.nPhases, ∀ s < M.orders.length, 0 ≤ T.w s ph) {J J' : K}
    (hJ : PhysCost ocp M W T J) (hJ' : PhysCost ocp' M W T J') : J' ≤ J := by
  obtain ⟨v, hv, rfl⟩ := hJ
  obtain ⟨v', hv', rfl⟩ := hJ'
  rw [h.nPhases] at hv' hr' ⊢
  apply Finset.sum_le_sum
  intro ph hp
  rw [Finset.mem_range] at hp
  apply add_le_add
  · unfold TerminalCost
    rw [h.tArg]
    exact hc.terminal ph hp _
  · unfold weightedSum
    apply Finset.sum_le_sum
    intro k hk
    rw [Finset.mem_range, hW] at hk
    obtain ⟨s, i, ho, rfl⟩ := M.exists_owner hM.nonempty hk
    have e : W.getD (M.idx s i) 0 ∈ W := by
      rw [List.getD_eq_getElem _ _ (by omega)]; exact List.getElem_mem _
    apply mul_le_mul_of_nonneg_left _ (hpos _ e)
    have a1 := hv ph hp _ (List.getElem?_eq_getElem (by omega)) s i ho
    have a2 := hv' ph hp _ (List.getElem?_eq_getElem (by omega)) s i ho
    rw [a1, a2, h.pArg]
    apply mul_le_mul_of_nonneg_left
    · have := hc.running ph hp (ocp.pArg T ph (M.idx s i) (M.time T ph s (M.node s i)))
      rwa [List.getD_eq_getElem _ _ (by omega), List.getD_eq_getElem _ _ (by omega)] at this
    · unfold Mesh.halfWidth
      exact mul_nonneg (div_nonneg (sub_nonneg.2 (ht ph hp)) (sub_nonneg.2 hlt.le)) (hw ph hp s ho.1)

end OCP.Loosens

/-- **C102** A trajectory that solves a problem solves every looser one on the same mesh; with free widths too, where
`mid_residuals` needs the scales of the states to be the same. -/
theorem C102_solves (h : ocp.Loosens ocp') : (SolvesOCP ocp M T → SolvesOCP ocp' M T) ∧
    ∀ (lbh ubh tol : List K) (mid : Bool), (mid = true → ocp'.scaleX = ocp.scaleX) →
      SolvesAdaptive ocp M T lbh ubh tol mid → SolvesAdaptive ocp' M T lbh ubh tol mid :=
  ⟨h.solves, fun _ _ _ _ hsc hT => h.solvesAdaptive hsc hT⟩

section
variable {V : Type} {w : Outside K V} {nlpsol nlpsol' : SolverCall K V → Py (List K)} {ptp ptp' : List (List Nat)}
variable {arg : OrdersArg} {scheme : String} {a a' : SolveArgs K V} {rx rdx rx' rdx' : Bool}
variable {p p' : Post K} {r r' : Option (PyDict (ResidVal K))}

/-- **C102** With optimal solvers, what `solve` shows for the looser problem costs no more than what it shows for the stricter
one on the same mesh and widths; and both cost the same if the former meets the stricter problem. Plugins, options, starting
points, guesses and most scales may differ. -/
theorem C102_solve (h : ocp.Loosens ocp') (hc : ocp.SameCosts ocp') {S S' : Session K V}
    (hrun : mpSolve w nlpsol ocp ptp n arg scheme a rx rdx = .ok (S, p, r))
    (hrun' : mpSolve w nlpsol' ocp' ptp' n arg scheme a' rx' rdx' = .ok (S', p', r')) (ha : a'.widths = a.widths)
    (hv : ValidOCP ocp) (hs : ocp.SettingsOK) (hsc : ocp.PosScales) (hv' : ValidOCP ocp') (hs' : ocp'.SettingsOK)
    (hsc' : ocp'.PosScales) (hM : MeshFor w scheme n arg M) (hopt : ∀ c z, nlpsol c = .ok z → c.IsOptimal z)
    (hopt' : ∀ c z, nlpsol' c = .ok z → c.IsOptimal z) :
    ∃ T J T' J' W, compQuadWeights ⟨w.method, w.tau0, w.tau1, tausFn w.lib w.tau0 w.tau1 scheme⟩ M.orders = .ok W ∧
      p.Shows ocp M T ∧ PhysCost ocp M W T J ∧ p'.Shows ocp' M T' ∧ PhysCost ocp M W T' J' ∧ J' ≤ J ∧
      (SolvesOCP ocp M T' → J' = J) := by
  obtain ⟨T, W, J, hW, hT, hwid, hsh, hJ, hle⟩ := C53_solve_optimal hrun hv hs hsc hM hopt
  obtain ⟨T', W', J', hW', hT', hwid', hsh', hJ', hle'⟩ := C53_solve_optimal hrun' hv' hs' hsc' hM hopt'
  rw [hW] at hW'; cases hW'
  rw [ha] at hwid' hle'
  rw [h.widthsAre] at hwid'
  rw [h.physCost hc] at hJ'
  have h1 : J' ≤ J := hle' T J (h.solves hT) (h.widthsAre.2 hwid) ((h.physCost hc).2 hJ)
  exact ⟨T, J, T', J', W, hW, hsh, hJ, hsh', hJ', h1, fun hS => le_antisymm h1 (hle T' J' hS hwid' hJ')⟩

/-- **C102** If costs are lowered as well: no negative weight, phases that run forwards and widths that are not negative are
needed, since running costs are multiplied by all three. -/
theorem C102_cheaper (h : ocp.Loosens ocp') (hc : ocp.Cheapens ocp') {S S' : Session K V}
    (hrun : mpSolve w nlpsol ocp ptp n arg scheme a rx rdx = .ok (S, p, r))
    (hrun' : mpSolve w nlpsol' ocp' ptp' n arg scheme a' rx' rdx' = .ok (S', p', r')) (ha : a'.widths = a.widths)
    (hv : ValidOCP ocp) (hs : ocp.SettingsOK) (hsc : ocp.PosScales) (hv' : ValidOCP ocp') (hs' : ocp'.SettingsOK)
    (hsc' : ocp'.PosScales) (hM : MeshFor w scheme n arg M) (hopt : ∀ c z, nlpsol c = .ok z → c.IsOptimal z)
    (hopt' : ∀ c z, nlpsol' c = .ok z → c.IsOptimal z) (hlt : w.tau0 < w.tau1)
    (hpos : ∀ W, compQuadWeights ⟨w.method, w.tau0, w.tau1, tausFn w.lib w.tau0 w.tau1 scheme⟩ M.orders = .ok W → ∀ v ∈ W, 0 ≤ v)
    (hfwd : ∀ T, SolvesOCP ocp M T → WidthsAre ocp n a.widths T →
      ∀ ph < ocp.nPhases, T.t0 ph ≤ T.tf ph ∧ ∀ s < M.orders.length, 0 ≤ T.w s ph) :
    ∃ T J T' J' W, compQuadWeights ⟨w.method, w.tau0, w.tau1, tausFn w.lib w.tau0 w.tau1 scheme⟩ M.orders = .ok W ∧
      p.Shows ocp M T ∧ PhysCost ocp M W T J ∧ p'.Shows ocp' M T' ∧ PhysCost ocp' M W T' J' ∧ J' ≤ J := by
  obtain ⟨T, W, J, hW, hT, hwid, hsh, hJ, hle⟩ := C53_solve_optimal hrun hv hs hsc hM hopt
  obtain ⟨T', W', J', hW', hT', hwid', hsh', hJ', hle'⟩ := C53_solve_optimal hrun' hv' hs' hsc' hM hopt'
  rw [hW] at hW'; cases hW'
  rw [ha] at hwid' hle'
  obtain ⟨v, hvv⟩ := exists_samples ocp' M T
  have hJ2 : PhysCost ocp' M W T _ := ⟨v, hvv, rfl⟩
  refine ⟨T, J, T', J', W, hW, hsh, hJ, hsh', hJ', (hle' T _ (h.solves hT) (h.widthsAre.2 hwid) hJ2).trans ?_⟩
  have hWl : W.length = M.N := hM.weights_length hW
  exact h.cheaper hc hM.good (by rw [hM.tau0, hM.tau1]; exact hlt) hv.runningCosts hv'.runningCosts hWl (hpos W hW)
    (fun ph hp => (hfwd T hT hwid ph hp).1) (fun ph hp => (hfwd T hT hwid ph hp).2) hJ hJ2

/-- **C102** The same for `mpopt_adaptive`, after any earlier calls on both objects. Limits on widths may be widened and tolerances
raised as well. -/
theorem C102_adaptive (h : ocp.Loosens ocp') (hc : ocp.SameCosts ocp') {s s₁ t t₁ : AdaptOpt K V}
    {lbh ubh tol lbh' ubh' tol' : List K} {mid mid' : Bool} (hmid : mid' = true → mid = true ∧ ocp'.scaleX = ocp.scaleX)
    (hlim : ∀ ph < ocp.nPhases, lbh'.getD ph 0 ≤ lbh.getD ph 0 ∧ ubh.getD ph 0 ≤ ubh'.getD ph 0 ∧ tol.getD ph 0 ≤ tol'.getD ph 0)
    (hf : s.Ready w ocp n arg scheme lbh ubh tol mid) (hf' : t.Ready w ocp' n arg scheme lbh' ubh' tol' mid')
    (hv : ValidOCP ocp) (hs : ocp.SettingsOK) (hsc : ocp.PosScales) (hv' : ValidOCP ocp') (hs' : ocp'.SettingsOK)
    (hsc' : ocp'.PosScales) (hlb : lbh.length = ocp.nPhases) (hub : ubh.length = ocp.nPhases) (htol : tol.length = ocp.nPhases)
    (hlb' : lbh'.length = ocp'.nPhases) (hub' : ubh'.length = ocp'.nPhases) (htol' : tol'.length = ocp'.nPhases)
    (hM : MeshFor w scheme n arg M) (hopt : ∀ c z, nlpsol c = .ok z → c.IsOptimal z)
    (hopt' : ∀ c z, nlpsol' c = .ok z → c.IsOptimal z) (earlier earlier' : List (SolveArgs K V)) {z z' : List K}
    (hrun : (s.run w nlpsol earlier).solve w nlpsol a = (s₁, .ok z)) (hp : s₁.processResults w ptp false rx rdx = .ok (p, r))
    (hrun' : (t.run w nlpsol' earlier').solve w nlpsol' a' = (t₁, .ok z'))
    (hp' : t₁.processResults w ptp' false rx' rdx' = .ok (p', r')) :
    ∃ T J T' J' W, compQuadWeights ⟨w.method, w.tau0, w.tau1, tausFn w.lib w.tau0 w.tau1 scheme⟩ M.orders = .ok W ∧
      p.Shows ocp M T ∧ PhysCost ocp M W T J ∧ p'.Shows ocp' M T' ∧ PhysCost ocp M W T' J' ∧ J' ≤ J ∧
      (SolvesAdaptive ocp M T' lbh ubh tol mid → J' = J) := by
  obtain ⟨T, W, J, hW, hT, hsh, hJ, hle⟩ := C55_adaptive_optimal hf hv hs hsc hlb hub htol hM hopt earlier a hrun hp
  obtain ⟨T', W', J', hW', hT', hsh', hJ', hle'⟩ :=
    C55_adaptive_optimal hf' hv' hs' hsc' hlb' hub' htol' hM hopt' earlier' a' hrun' hp'
  rw [hW] at hW'; cases hW'
  rw [h.physCost hc] at hJ'
  have hT2 : SolvesAdaptive ocp M T lbh' ubh' tol' mid' := by
    obtain ⟨⟨b, d, q, e, x, mc, ms, rs, l⟩, sl⟩ := hT
    refine ⟨⟨b, d, q, e, fun ph hp => ?_, mc, ms, fun hm ph hp F hF j hj s hs i hi => ?_, l⟩, sl⟩
    · obtain ⟨l1, l2, -⟩ := hlim ph hp
      exact ⟨(x ph hp).sum, fun s hs => l1.trans ((x ph hp).lower s hs), fun s hs => ((x ph hp).upper s hs).trans l2⟩
    · obtain ⟨-, -, l3⟩ := hlim ph hp
      exact Wider.within ⟨by simp only [Ext.le, decide_eq_true_eq]; exact neg_le_neg l3, by simp only [Ext.le, decide_eq_true_eq]; exact l3⟩ (rs (hmid hm).1 ph hp F hF j hj s hs i hi)
  have h1 : J' ≤ J := hle' T J (h.solvesAdaptive (fun hm => (hmid hm).2) hT2) ((h.physCost hc).2 hJ)
  exact ⟨T, J, T', J', W, hW, hsh, hJ, hsh', hJ', h1, fun hS => le_antisymm h1 (hle T' J' hS hJ')⟩

end

section
variable {V : Type} [FloorRing K] {w : HOutside K V} {nlpsol nlpsol' : Nat → Nat → SolverCall K V → Py (PyDict V)}
variable {ptp ptp' : List (List Nat)} {arg : OrdersArg} {scheme : String} {lbh ubh tol lbh' ubh' tol' : List K}
variable {s s₁ t t₁ : HOpt K V} {p p' : Post K} {r r' : Option (PyDict (ResidVal K))} {rx rdx rx' rdx' : Bool}

/-- **C102** And for `mpopt_h_adaptive`, if both objects stop at the same widths. -/
theorem C102_h (h : ocp.Loosens ocp') (hc : ocp.SameCosts ocp') (hf : s.Ready w ocp n arg scheme lbh ubh tol)
    (hf' : t.Ready w ocp' n arg scheme lbh' ubh' tol') (hv : ValidOCP ocp) (hs : ocp.SettingsOK) (hsc : ocp.PosScales)
    (hv' : ValidOCP ocp') (hs' : ocp'.SettingsOK) (hsc' : ocp'.PosScales) (hM : MeshFor w.toOutside scheme n arg M)
    (hopt : ∀ n k c sol, nlpsol n k c = .ok sol → ∃ z, Returned w sol z ∧ c.IsOptimal z)
    (hopt' : ∀ n k c sol, nlpsol' n k c = .ok sol → ∃ z, Returned w sol z ∧ c.IsOptimal z)
    {calls calls' : List (HStart V × HArgs V)} (ho : OwnStarts calls) (ho' : OwnStarts calls') {sol sol' : PyDict V}
    (hrun : s.run w nlpsol calls 0 none = (s₁, some sol)) (hp : s₁.processResults w sol ptp false rx rdx = .ok (p, r))
    (hrun' : t.run w nlpsol' calls' 0 none = (t₁, some sol')) (hp' : t₁.processResults w sol' ptp' false rx' rdx' = .ok (p', r'))
    (hsame : t₁.widths = s₁.widths) :
    ∃ T J T' J' W, compQuadWeights ⟨w.method, w.tau0, w.tau1, tausFn w.lib w.tau0 w.tau1 scheme⟩ M.orders = .ok W ∧
      p.Shows ocp M T ∧ PhysCost ocp M W T J ∧ p'.Shows ocp' M T' ∧ PhysCost ocp M W T' J' ∧ J' ≤ J ∧
      (SolvesOCP ocp M T' → J' = J) := by
  obtain ⟨T, W, J, hW, hT, hsh, hwid, hJ, hle⟩ := C60_h_optimal hf hv hs hsc hM hopt ho hrun hp
  obtain ⟨T', W', J', hW', hT', hsh', hwid', hJ', hle'⟩ := C60_h_optimal hf' hv' hs' hsc' hM hopt' ho' hrun' hp'
  rw [hW] at hW'; cases hW'
  have e : ∀ T : Traj K, ocp'.packWidths n T = ocp.packWidths n T := fun T => by
    unfold OCP.packWidths; rw [h.nPhases]
  simp only [e, hsame] at hwid' hle'
  rw [h.physCost hc] at hJ'
  have h1 : J' ≤ J := hle' T J (h.solves hT) hwid ((h.physCost hc).2 hJ)
  exact ⟨T, J, T', J', W, hW, hsh, hJ, hsh', hJ', h1, fun hS => le_antisymm h1 (hle T' J' hS hwid' hJ')⟩

end

end MPOpt
