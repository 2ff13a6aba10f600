import Verif.Spec.FreeMode

/-! # Specification: a linear combination of states driven by the clock -/

set_option autoImplicit false

namespace MPOpt
open Polynomial
variable {K : Type} [Field K]

/-- Along every solution of `x' = F` the combination `y = ∑ c j * x j` of the `nx` states has the rate `R` at time `t`, whatever
the states, the controls and the parameters are. -/
def KnownRate (F : VFun (PArg K) K) (nx : Nat) (c : Nat → K) (R : K[X]) : Prop :=
  ∀ p : PArg K, p.x.length = nx → ∑ j ∈ Finset.range nx, c j * F.f p j = R.eval p.t

/-- Along the trajectory the combination has the rate `R`, at every node of phase `ph`. -/
def RateAlong (ocp : OCP K) (F : VFun (PArg K) K) (M : Mesh K) (T : Traj K) (ph : Nat) (c : Nat → K) (R : K[X]) : Prop :=
  ∀ s i, M.Owns s i → ∑ j ∈ Finset.range ocp.nx,
    c j * F.f (ocp.pArg T ph (M.idx s i) (M.time T ph s (M.node s i))) j = R.eval (M.time T ph s (M.node s i))

/-- Along every solution of `x' = F` the combination obeys `y' = lam * y + R(t)`. -/
def DrivenMode (F : VFun (PArg K) K) (nx : Nat) (c : Nat → K) (lam : K) (R : K[X]) : Prop :=
  ∀ p : PArg K, p.x.length = nx →
    ∑ j ∈ Finset.range nx, c j * F.f p j = lam * (∑ j ∈ Finset.range nx, c j * p.x.getD j 0) + R.eval p.t

/-- Every combination of states whose rate is a polynomial in time of degree below all orders follows its integral: on every
segment at every `tau`, and over the whole phase. -/
def FollowsRates (ocp : OCP K) (M : Mesh K) (T : Traj K) : Prop :=
  ∀ ph < ocp.nPhases, ∀ (F : VFun (PArg K) K) (c : Nat → K) (Q : K[X]), ocp.dynamics[ph]? = some F →
    KnownRate F ocp.nx c (derivative Q) → (∀ p ∈ M.orders, (derivative Q).natDegree < p) →
    (∀ s < M.orders.length, ∀ tau, ∑ j ∈ Finset.range ocp.nx, c j * (M.piece (fun k => T.x ph k j) s).eval tau =
      T.mode ocp.nx c ph 0 + (Q.eval (M.time T ph s tau) - Q.eval (T.t0 ph))) ∧
    T.mode ocp.nx c ph (M.N - 1) = T.mode ocp.nx c ph 0 + (Q.eval (T.tf ph) - Q.eval (T.t0 ph))

/-- In some phase a combination of states has a known rate that is a polynomial in time of degree `p`, and the admissible initial
and final times of that phase are apart. -/
def OCP.ClockDegree [LE K] (ocp : OCP K) (p : Nat) : Prop :=
  ∃ ph F c R, ph < ocp.nPhases ∧ ocp.dynamics[ph]? = some F ∧ KnownRate F ocp.nx c R ∧ R.natDegree = p ∧
    ∀ a b, Within (entry ocp.lbt0 ph 0 .nan) (entry ocp.ubt0 ph 0 .nan) a →
      Within (entry ocp.lbtf ph 0 .nan) (entry ocp.ubtf ph 0 .nan) b → a ≠ b

end MPOpt
