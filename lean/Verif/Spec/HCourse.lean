import Verif.Model.HAdaptive

/-! # Specification: the course of the h-adaptive iteration

Solutions, widths and errors one after the other, without the variables of the loop, and when to stop.
-/

set_option autoImplicit false

namespace MPOpt
variable {K Sol W : Type} [Field K] [LinearOrder K]

/-- After `k` solver calls: the solution at hand, the widths proposed for the next call and the largest residual. -/
structure Stage (K Sol W : Type) where
  sol : Option Sol
  w : W
  err : Option K

/-- Widths proposed and error measured, from a solution with widths `w`. -/
def HEnv.measure (E : HEnv K Sol W) (k : Nat) (sol : Option Sol) (w : W) : Py (W × Option K) :=
  match sol with
  | none => .ok (E.dflt, none)
  | some s => if E.nSegments = 1 then .ok (E.dflt, none) else E.refine k s w

/-- The stages, as far as they can be computed. -/
def HEnv.stage (E : HEnv K Sol W) (initial : Option Sol) (w : W) : Nat → Py (Stage K Sol W)
  | 0 => do
    let m ← E.measure 0 initial w
    return ⟨initial, m.1, m.2⟩
  | k + 1 => do
    let g ← E.stage initial w k
    let s ← E.solver k g.sol g.w
    let m ← E.measure (k + 1) (some s) g.w
    return ⟨some s, m.1, m.2⟩

section
variable (E : HEnv K Sol W) (initial : Option Sol) (w : W)

/-- The error of stage `k` is below the tolerance. -/
def HEnv.Small (k : Nat) : Prop :=
  ∃ g e, E.stage initial w k = .ok g ∧ g.err = some e ∧ e < E.tol

/-- The error is not below the tolerance (or there is none). -/
def HEnv.NotSmall (k : Nat) : Prop :=
  ∃ g, E.stage initial w k = .ok g ∧ ∀ e, g.err = some e → E.tol ≤ e

/-- Errors of the stages `k - 3, …, k`, with their mean within five per cent of the last one iff `b`. -/
def HEnv.Flat (k : Nat) (b : Prop) : Prop :=
  ∃ e : Nat → K, (∀ j, k - 3 ≤ j → j ≤ k → ∃ g, E.stage initial w j = .ok g ∧ g.err = some (e j)) ∧
    (|e k - (e (k - 3) + e (k - 2) + e (k - 1) + e k) / 4| < |e k| / 20 ↔ b)

/-- Stage `k` proposes the widths of stage `k - 1` again, up to the tolerance (`b = true`), or others. -/
def HEnv.Same (k : Nat) (b : Bool) : Prop :=
  ∃ g g', E.stage initial w k = .ok g ∧ E.stage initial w (k - 1) = .ok g' ∧ E.unchanged g.w g'.w = .ok b

/-- The iteration does not end with stage `k`. -/
def HEnv.GoesOn (k : Nat) : Prop :=
  E.NotSmall initial w k ∧ (4 < k → E.Flat initial w k False) ∧ (0 < k → E.Same initial w k false)

/-- It ends with stage `k`, when at most `n` solver calls are allowed. -/
def HEnv.Ends (n k : Nat) : Prop :=
  E.Small initial w k ∨
    0 < k ∧ E.NotSmall initial w k ∧
      (k = n ∨ k < n ∧ (4 < k ∧ E.Flat initial w k True ∨ (4 < k → E.Flat initial w k False) ∧ E.Same initial w k true))

end

end MPOpt
