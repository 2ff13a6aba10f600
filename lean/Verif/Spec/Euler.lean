import Verif.Spec.Mesh

/-!
# Specification: Euler's method

What a mesh of segments of order one amounts to, without polynomials: node `k` is the end of step `k - 1`.
-/

set_option autoImplicit false

namespace MPOpt
variable {K : Type} [Field K]

/-- Length of step `s` of a phase. -/
def Traj.step (T : Traj K) (ph s : Nat) : K := (T.tf ph - T.t0 ph) * T.w s ph

/-- Time before step `k`. -/
def Traj.knot (T : Traj K) (ph k : Nat) : K := T.t0 ph + ∑ r ∈ Finset.range k, T.step ph r

/-- `n` steps of the implicit Euler method, of which the first is at the same time a step of the explicit method. -/
structure EulerOK (ocp : OCP K) (n : Nat) (T : Traj K) (ph : Nat) : Prop where
  implicit : ∀ F, ocp.dynamics[ph]? = some F → ∀ j < ocp.nx, ∀ s < n,
    T.x ph (s + 1) j = T.x ph s j + T.step ph s * F.f (ocp.pArg T ph (s + 1) (T.knot ph (s + 1))) j
  explicit : ∀ F, ocp.dynamics[ph]? = some F → ∀ j < ocp.nx,
    T.x ph 1 j = T.x ph 0 j + T.step ph 0 * F.f (ocp.pArg T ph 0 (T.t0 ph)) j

/-- Sum of the running costs: half the length of a step times the cost at its end, and for the first step also at its start. -/
def OCP.stepCost (ocp : OCP K) (n : Nat) (T : Traj K) (ph : Nat) : K :=
  let L := fun k => ocp.runningCosts.getD ph (fun _ => 0) (ocp.pArg T ph k (T.knot ph k))
  1 / 2 * (T.step ph 0 * L 0 + ∑ s ∈ Finset.range n, T.step ph s * L (s + 1))

/-- Terminal costs and running costs of all phases. -/
def OCP.eulerCost (ocp : OCP K) (n : Nat) (T : Traj K) : K :=
  ∑ ph ∈ Finset.range ocp.nPhases,
    (ocp.terminalCosts.getD ph (fun _ => 0) (ocp.tArg T ph (n + 1)) + ocp.stepCost n T ph)

variable [LE K]

/-- The whole problem with Euler's method: `len` is the length of the interval on which the library places its nodes. -/
structure SolvesEuler (ocp : OCP K) (n : Nat) (len : K) (T : Traj K) : Prop where
  x0 : ∀ j < ocp.nx, T.x 0 0 j = entry ocp.x00 0 j 0
  x : ∀ ph < ocp.nPhases, ∀ i ≤ n, ¬ (ph = 0 ∧ i = 0) → ∀ j < ocp.nx,
    Within (entry ocp.lbx ph j .nan) (entry ocp.ubx ph j .nan) (T.x ph i j)
  u : ∀ ph < ocp.nPhases, ∀ i ≤ n, ∀ j < ocp.nu,
    Within (entry ocp.lbu ph j .nan) (entry ocp.ubu ph j .nan) (T.u ph i j)
  t0 : ∀ ph < ocp.nPhases, Within (entry ocp.lbt0 ph 0 .nan) (entry ocp.ubt0 ph 0 .nan) (T.t0 ph)
  tf : ∀ ph < ocp.nPhases, Within (entry ocp.lbtf ph 0 .nan) (entry ocp.ubtf ph 0 .nan) (T.tf ph)
  a : ∀ ph < ocp.nPhases, ∀ k < ocp.na, Within (entry ocp.lba ph k .nan) (entry ocp.uba ph k .nan) (T.a ph k)
  dynamics : ∀ ph < ocp.nPhases, EulerOK ocp n T ph
  path : ∀ ph < ocp.nPhases, ∀ F, ocp.pathConstraints[ph]? = some (some F) → ∀ k ≤ n, ∀ c < F.len,
    F.f (ocp.pArg T ph k (T.knot ph k)) c ≤ 0
  terminal : ∀ ph < ocp.nPhases, ∀ F, ocp.terminalConstraints[ph]? = some (some F) → ∀ c < F.len,
    F.f (ocp.tArg T ph (n + 1)) c = 0
  cont : ∀ ph < ocp.nPhases, ocp.duContinuity.getD ph false = true → ∀ j < ocp.nu, ∀ s, s + 1 < n →
    T.u ph (s + 1) j - T.u ph s j = T.u ph (s + 2) j - T.u ph (s + 1) j
  slope : ∀ ph < ocp.nPhases, ocp.diffU.getD ph false = true → ∀ j < ocp.nu, ∀ s < n,
    Within (ocp.lbdu.getD ph .nan) (ocp.ubdu.getD ph .nan)
      (ocp.scaleU.getD j 0 * ((T.u ph (s + 1) j - T.u ph s j) / len))
  linkX : 2 ≤ ocp.nPhases → ∀ (k p q : Nat), ocp.phaseLinks[k]? = some (p, q) → ∀ j < ocp.nx,
    Within (entry ocp.lbe k j .nan) (entry ocp.ube k j .nan) (T.x q 0 j - T.x p n j)
  linkU : 2 ≤ ocp.nPhases → ∀ (k p q : Nat), ocp.phaseLinks[k]? = some (p, q) → ∀ j < ocp.nu, T.u q 0 j = T.u p n j
  linkT : 2 ≤ ocp.nPhases → ∀ (k p q : Nat), ocp.phaseLinks[k]? = some (p, q) → T.t0 q = T.tf p

end MPOpt
