import Verif.Spec.Mesh

/-! # Specification: a linear combination of states no control acts on -/

set_option autoImplicit false

namespace MPOpt
variable {K : Type} [Field K]

/-- Along every solution of `x' = F` the combination `y = ∑ c j * x j` of the `nx` states obeys `y' = lam * y + mu`, whatever
the controls, the time and the parameters are. -/
def FreeMode (F : VFun (PArg K) K) (nx : Nat) (c : Nat → K) (lam mu : K) : Prop :=
  ∀ p : PArg K, p.x.length = nx →
    ∑ j ∈ Finset.range nx, c j * F.f p j = lam * (∑ j ∈ Finset.range nx, c j * p.x.getD j 0) + mu

/-- Value of the combination `c` at node `k` of phase `ph`. -/
def Traj.mode (T : Traj K) (nx : Nat) (c : Nat → K) (ph k : Nat) : K := ∑ j ∈ Finset.range nx, c j * T.x ph k j

/-- The given initial state of the first phase is off the equilibrium of a mode no control acts on, and the admissible initial
and final times of that phase are apart. -/
def OCP.StartsOffMode [LE K] (ocp : OCP K) : Prop :=
  ∃ F c lam mu, ocp.dynamics[0]? = some F ∧ FreeMode F ocp.nx c lam mu ∧ lam ≠ 0 ∧
    ∑ j ∈ Finset.range ocp.nx, c j * entry ocp.x00 0 j 0 ≠ -mu / lam ∧
    ∀ a b, Within (entry ocp.lbt0 0 0 .nan) (entry ocp.ubt0 0 0 .nan) a →
      Within (entry ocp.lbtf 0 0 .nan) (entry ocp.ubtf 0 0 .nan) b → a ≠ b

end MPOpt
