import Verif.Model.Py
import Mathlib.Algebra.Order.Floor.Defs
import Mathlib.Algebra.Order.Group.Unbundled.Abs
import Mathlib.Algebra.BigOperators.Group.List.Basic

/-!
# `mpopt_h_adaptive`: computing segment widths (mpopt.py:2524-2875)

Residual matrices, slopes and times are inputs here; row norms `np.linalg.norm(·, 2, axis=1)` are computed by
a parameter `norm`. Plotting and printing are left out.
-/

set_option autoImplicit false

namespace MPOpt
variable {K : Type} [Field K] [LinearOrder K]

/-- numpy division of scalars: `none` stands for `nan` or `inf`. -/
def npDiv (a b : K) : Option K := if b = 0 then none else some (a / b)

/-- `max(l)` and `np.array(l).max()`: `ValueError` for an empty sequence. -/
def seqMax : List K → Py K
  | [] => .error .value
  | a :: l => .ok (l.foldl max a)

/-- Residual of one segment: a matrix by rows (one row per node), or `None` when the segment has no node. -/
abbrev SegResidual (K : Type) := Option (List (List K))

/-- `abs(np.array(err)).max() if err is not None else 0` (mpopt.py:2563, 2616). -/
def absMax (err : SegResidual K) : Py K :=
  match err with
  | none => .ok 0
  | some rows => seqMax (rows.flatten.map fun v => |v|)

/-- `max([...])` over the segments of a phase (mpopt.py:2561-2566, 2743-2748). -/
def maxResidual (errs : List (SegResidual K)) : Py K := do seqMax (← errs.mapM absMax)

/-! ## Equal area -/

/-- `areas` of `get_roots_wrt_equal_area` (mpopt.py:2640-2641). -/
def areas (r : List K) : List K :=
  (List.range (r.length - 1)).map fun i => 1 / 2 * (r.getD i 0 + r.getD (i + 1) 0)

/-- `np.append(0, np.cumsum(areas))` (mpopt.py:2642). -/
def cumArea (r : List K) : List K :=
  (List.range (r.length - 1 + 1)).map fun j => ((areas r).take j).sum

/-- `cumulative_area / cumulative_area[-1]` (mpopt.py:2643). -/
def cumFraction (r : List K) : List (Option K) :=
  (cumArea r).map fun a => npDiv a (areas r).sum

/-- `(cumulative_area >= c).argmax()` (mpopt.py:2646): first index that compares true, 0 when none does. -/
def firstAtLeast (l : List (Option K)) (c : K) : Nat :=
  let j := l.findIdx fun o => match o with
    | some v => decide (c ≤ v)
    | none => false
  if j < l.length then j else 0

/-- `seg_widths_cumulative[i]` (mpopt.py:2647-2652). Index `ind_j - 1` is the last one when `ind_j = 0`. -/
def equalAreaCut (r : List K) (n i : Nat) : Option K := do
  let cum := cumFraction r
  let c : K := ((i : K) + 1) / n
  let j := firstAtLeast cum c
  let hi ← cum.getD j none
  let lo ← cum.getD (if j = 0 then cum.length - 1 else j - 1) none
  npDiv ((j : K) - 1 + (← npDiv (c - lo) (hi - lo))) ((r.length : K) - 1)

/-- `get_roots_wrt_equal_area` (mpopt.py:2636-2660). -/
def equalArea (r : List K) (n : Nat) : List (Option K) :=
  let cuts := some 0 :: (List.range n).map (equalAreaCut r n)
  (List.range n).map fun i => do return (← cuts.getD (i + 1) none) - (← cuts.getD i none)

/-! ## Merge and split -/

/-- `itertools.groupby(data, lambda x: x[0] < ERR_TOL)` (mpopt.py:2679-2682): consecutive segments with equal
keys; every entry is `(key, seg)`. -/
def groupSegments (residuals : List K) (tol : K) (ns : Nat) : Py (List (List (Bool × Nat))) := do
  let data ← (List.range ns).mapM fun seg => do
    return (decide ((← pyIdx residuals seg) < tol), seg)
  return data.splitBy fun a b => a.1 == b.1

/-- `g[0][0]`; groups are never empty. -/
def groupKey (g : List (Bool × Nat)) : Bool := (g.head?.map (·.1)).getD false

/-- The loop over the groups (mpopt.py:2694-2706): widths in the order they are stored. -/
def splitLoop (widths : List K) (lens : List Nat) : List (List (Bool × Nat)) → Nat → List K
  | [], _ => []
  | g :: gs, falseId =>
    let h := (g.map fun p => widths.getD p.2 0).sum
    if groupKey g then h :: splitLoop widths lens gs falseId
    else List.replicate (lens.getD falseId 0) (h / (lens.getD falseId 0 : Nat)) ++
      splitLoop widths lens gs (falseId + 1)

/-- `merge_split_segments_based_on_residuals` (mpopt.py:2662-2707). The list `new_sw` has `ns` places: one
width too many is an `IndexError`; places left at `None` make the array useless (`type`). -/
def mergeSplit (residuals widths : List K) (tol : K) : Py (List K) := do
  let ns := widths.length
  let groups ← groupSegments residuals tol ns
  let nFalse := (groups.filter fun g => !groupKey g).length
  if groups.length = ns then return widths
  if nFalse = 0 then return widths
  let nFree := ns - groups.length
  let lens := (List.range nFalse).map fun k =>
    1 + nFree / nFalse + if k = nFalse - 1 then nFree % nFalse else 0
  let out := splitLoop widths lens groups 0
  if ns < out.length then Except.error PyErr.index
  else if out.length < ns then Except.error PyErr.type
  else return out

/-! ## Residual method -/

/-- `refine_segment_widths_based_on_residuals` (mpopt.py:2594-2634). -/
def refineWidths (norm : List K → K) (n : Nat) (residuals : List (SegResidual K)) (widths : List K)
    (tol : K) (method : String) : Py (List (Option K)) := do
  if method == "merge_split" then
    let m ← residuals.mapM absMax
    return (← mergeSplit m widths tol).map some
  else if method == "equal_area" then
    return equalArea (residuals.flatMap fun e => match e with
      | some rows => rows.map norm
      | none => [0]) n
  else return widths.map some

/-- All entries finite. -/
def allFinite (l : List (Option K)) : Py (List K) :=
  l.mapM fun o => match o with
    | some v => .ok v
    | none => .error .nonFinite

/-- Widths of one phase in `compute_seg_width_based_on_residuals` (mpopt.py:2570-2590). -/
def residualPhase (norm : List K → K) (n : Nat) (residuals : List (SegResidual K)) (old : List K)
    (tol maxRes : K) (method : String) : Py (List K) := do
  if maxRes < tol then return old
  let new ← allFinite (← refineWidths norm n residuals old tol method)
  if method == "equal_area" then
    if new.length ≠ old.length then Except.error PyErr.value
    else return List.zipWith (fun a b => 2 / 5 * a + 3 / 5 * b) new old
  else return new

/-- `self._nlp_sw_params[n * phase : n * (phase + 1)]`. -/
def phaseSlice (n ph : Nat) (sw : List K) : List K := (sw.drop (n * ph)).take n

/-- `compute_seg_width_based_on_residuals` (mpopt.py:2524-2592): widths of all phases and largest residual. -/
def residualWidths (norm : List K → K) (n nPhases : Nat) (tol : List K)
    (residuals : List (List (SegResidual K))) (sw : List K) (method : String) : Py (List K × K) := do
  let rows ← (List.range nPhases).mapM fun ph => do
    let res ← pyIdx residuals ph
    let m ← maxResidual res
    let w ← residualPhase norm n res (phaseSlice n ph sw) (← pyIdx tol ph) m method
    return (w, m)
  return ((rows.map (·.1)).flatten, (rows.map (·.2)).foldl (fun e m => if e < m then m else e) 0)

/-! ## Control slope method -/

/-- `l[1:-1]`. -/
def interior {α : Type} (l : List α) : List α := (l.drop 1).dropLast

/-- `compute_time_at_max_values` (mpopt.py:2807-2839); `list.sort` is stable and ascending. -/
def timesAtMax (norm : List K → K) (t : List K) (du : List (List K)) (threshold : K) : List K :=
  let pairs := (List.zip (interior t) (interior (du.map norm))).filter fun p => decide (threshold ≤ p.2)
  (pairs.mergeSort fun a b => decide (a.2 ≤ b.2)).map (·.1)

/-- `times.sort()`. -/
def sortTimes (l : List K) : List K := l.mergeSort fun a b => decide (a ≤ b)

/-- Python `int(x)` of a float: truncation towards zero. -/
def pyInt [FloorRing K] (x : K) : Int := if x < 0 then -⌊-x⌋ else ⌊x⌋

/-- The widths before division by `tf - t0`, in `compute_segment_widths_at_times` (mpopt.py:2842-2871), for at
least one segment. `int(nan)` raises `ValueError`. Times are expected within `[t0, tf]`: the branch that
computes a number of leading segments outside `1 … n_req` is not modelled (`value`). -/
def rawWidthsAtTimes [FloorRing K] (times : List K) (n : Nat) (t0 tf : K) : Py (List K) := do
  if n < times.length + 2 then
    let ts := sortTimes (times.take n)
    let first ← pyIdx ts 0
    if n = 1 then return [tf - ts.getLastD 0]
    let mid ← (List.range (n - 2)).mapM fun k => do
      return (← pyIdx ts (k + 1)) - (← pyIdx ts k)
    return (first - t0) :: mid ++ [tf - (← pyIdx ts (n - 2))]
  else
    let ts := sortTimes times
    let sw0 := (← pyIdx ts 0) - t0
    let swEnd := tf - ts.getLastD 0
    let nReq := n - (times.length - 1)
    let nStart ← (if nReq = 2 then return 1
      else match npDiv sw0 (sw0 + swEnd) with
        | none => Except.error PyErr.value
        | some q => return 1 + pyInt (q * ((nReq : K) - 1)) : Py Int)
    if nStart < 1 ∨ (nReq : Int) < nStart then Except.error PyErr.value
    let nEnd := nReq - nStart.toNat
    let mid := (List.range (times.length - 1)).map fun k => ts.getD (k + 1) 0 - ts.getD k 0
    return List.replicate nStart.toNat (sw0 / nStart.toNat) ++ mid ++
      List.replicate nEnd (swEnd / nEnd)

/-- `compute_segment_widths_at_times` (mpopt.py:2841-2875). -/
def widthsAtTimes [FloorRing K] (times : List K) (n : Nat) (t0 tf : K) : Py (List K) := do
  let w ← rawWidthsAtTimes times n t0 tf
  if tf - t0 = 0 then Except.error PyErr.nonFinite
  else return w.map (· / (tf - t0))

/-- Clamping and normalising (mpopt.py:2792-2801). Both comparisons look at the unclamped width. -/
def clampWidths (lbh ubh : K) (w : List K) : Py (List K) :=
  let c := w.map fun s => if ubh < s then ubh else if s < lbh then lbh else s
  if c.sum = 0 then .error .nonFinite else .ok (c.map (· / c.sum))

/-- What `init_trajectories` gives for one phase: node times, control slopes at the nodes (by rows), phase
start and end. -/
structure SlopeData (K : Type) where
  t : List K
  du : List (List K)
  t0 : K
  tf : K

/-- Widths of one phase in `compute_seg_width_based_on_input_slope` (mpopt.py:2752-2801). `np.abs` of the
slopes is taken before the norm. -/
def slopePhase [FloorRing K] (norm : List K → K) (n : Nat) (d : SlopeData K) (old : List K)
    (tol maxRes threshold lbh ubh : K) : Py (List K) := do
  if maxRes < tol then return old
  let times := timesAtMax norm d.t (d.du.map fun r => r.map fun v => |v|) threshold
  if times.length = 0 then return old
  let w ← widthsAtTimes times n d.t0 d.tf
  clampWidths lbh ubh w

/-- `compute_seg_width_based_on_input_slope` (mpopt.py:2709-2805). -/
def slopeWidths [FloorRing K] (norm : List K → K) (n nPhases : Nat) (tol lbh ubh : List K) (threshold : K)
    (residuals : List (List (SegResidual K))) (slopes : List (SlopeData K)) (sw : List K) :
    Py (List K × K) := do
  let rows ← (List.range nPhases).mapM fun ph => do
    let res ← pyIdx residuals ph
    let m ← maxResidual res
    let d ← pyIdx slopes ph
    let w ← slopePhase norm n d (phaseSlice n ph sw) (← pyIdx tol ph) m threshold (← pyIdx lbh ph)
      (← pyIdx ubh ph)
    return (w, m)
  return ((rows.map (·.1)).flatten, (rows.map (·.2)).foldl (fun e m => if e < m then m else e) 0)

end MPOpt
