import Verif.Model.Plot

/-! # Specification: the figure of the residuals of one solution after the other -/

set_option autoImplicit false

namespace MPOpt
variable {K : Type}

/-- Markers of the solutions, in turn. -/
def evolutionTic (slopes : Bool) (count : Nat) : String :=
  if slopes then match count % 5 with
    | 0 => "."
    | 1 => "*"
    | 2 => "+"
    | 3 => "d"
    | _ => "^"
  else "-"

/-- The lines for one solution: its sizes `y` at the times `t`, once with a label and three times without. -/
def evolutionCurves (slopes : Bool) (count : Nat) (t y : List K) : List (Curve K) :=
  ⟨t, y, evolutionTic slopes count, some ("Iter " ++ toString count ++ " ")⟩ :: List.replicate 3 ⟨t, y, "-", none⟩

end MPOpt
