import Mathlib.Algebra.Field.Basic
import Mathlib.Algebra.BigOperators.Group.List.Basic

/-!
# Specification: runs of segments that meet, or fail, the tolerance
-/

set_option autoImplicit false

namespace MPOpt

/-- A run of neighbouring segments: whether they meet the tolerance, their widths, and in how many segments
the run is divided afterwards. -/
structure Run (K : Type) where
  good : Bool
  widths : List K
  parts : Nat

/-- `rs` are the maximal runs of equal flags of a mesh with widths `w`. -/
structure MaximalRuns {K : Type} (flags : List Bool) (w : List K) (rs : List (Run K)) : Prop where
  widths : rs.flatMap (·.widths) = w
  flags : rs.flatMap (fun r => List.replicate r.widths.length r.good) = flags
  nonempty : ∀ r ∈ rs, r.widths ≠ []
  maximal : rs.IsChain fun a b => a.good ≠ b.good

/-- The mesh in which every run is divided evenly into its number of parts. -/
def evenSplit {K : Type} [Field K] (rs : List (Run K)) : List K :=
  rs.flatMap fun r => List.replicate r.parts (r.widths.sum / (r.parts : K))

/-- `p` is a breakpoint (or the end) of the mesh with widths `w`, measured from its start. -/
def IsBreak {K : Type} [Field K] (w : List K) (p : K) : Prop := ∃ j, j ≤ w.length ∧ (w.take j).sum = p

end MPOpt
