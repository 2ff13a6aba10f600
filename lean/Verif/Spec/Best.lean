import Verif.Spec.Tolerance

/-!
# Specification: the best point within tolerances

A solver with tolerances compares points that are feasible within these tolerances.
-/

set_option autoImplicit false

namespace MPOpt
variable {K V : Type} [Field K] [LinearOrder K]

/-- A solution up to tolerances whose objective exceeds that of no solution up to the same tolerances by more than `η`. -/
structure SolverCall.BestNear (c : SolverCall K V) (εb ε η : K) (z : List K) : Prop where
  sol : c.NearSolution εb ε z
  best : ∀ z', c.NearSolution εb ε z' → c.solver.problem.f (c.point z) ≤ c.solver.problem.f (c.point z') + η

end MPOpt
