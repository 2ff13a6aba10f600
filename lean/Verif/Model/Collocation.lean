import Verif.Model.Poly
import Verif.Model.Roots

/-!
# `Collocation` (mpopt.py:3706-4131)

Model of the basis polynomials and of the differentiation, interpolation and quadrature matrices.
The dictionaries `self.roots`, `self.polys` are a cache of `_taus_fn`/`poly_fn`; the functions below
are the uncached computation (`Props/Cache.lean` models the cache and proves it coherent).
-/

set_option autoImplicit false

namespace MPOpt
variable {K : Type} [Field K]

/-- `Collocation.D_MATRIX_METHOD` (mpopt.py:3717): `"symbolic"`, or anything else (numerical). -/
inductive Method
  | symbolic
  | numerical
  deriving DecidableEq, Repr

/-- A basis polynomial: CasADi expression or `np.poly1d`. -/
inductive Basis (K : Type)
  | sym (e : Expr K)
  | num (c : List K)

namespace Basis

/-- Value of the basis polynomial at `x` (mpopt.py:3899-3903). -/
def eval (p : Basis K) (x : K) : K :=
  match p with
  | sym e => e.eval x
  | num c => polyval c x

/-- `pder` for `order == 1` and `order == 2` (mpopt.py:3831-3845): first / second derivative.
Any other order leaves `pder` unassigned. -/
def derivative (p : Basis K) (order : Nat) : Option (Basis K) :=
  match p with
  | sym e =>
    if order = 1 then some (sym e.gradient)
    else if order = 2 then some (sym e.gradient.gradient)
    else none
  | num c =>
    if order = 1 then some (num (polyder c))
    else if order = 2 then some (num (polyder (polyder c)))
    else none

/-- Integral of the basis polynomial from `a` to `b` (mpopt.py:3869-3882). -/
def integral (p : Basis K) (a b : K) : K :=
  match p with
  | sym e => e.integrate a b
  | num c => polyval (polyint c) b - polyval (polyint c) a

end Basis

/-- `Collocation.get_lagrange_polynomials(roots)` (mpopt.py:3988-4013). Repeated roots divide by zero
(numpy yields inf/nan); theorems assume distinct roots. -/
def lagrangePolys (m : Method) (roots : List K) : List (Basis K) :=
  (List.range roots.length).map fun j =>
    match m with
    | .symbolic => .sym <| (List.range roots.length).foldl (fun p i =>
        if i ≠ j then
          p.mul (.divc (.sub .t (.const (roots.getD i 0))) (roots.getD j 0 - roots.getD i 0))
        else p) (.const 1)
    | .numerical => .num <| (List.range roots.length).foldl (fun p i =>
        if i ≠ j then
          polymul p ([1, -(roots.getD i 0)].map (· / (roots.getD j 0 - roots.getD i 0)))
        else p) [1]

/-- `Collocation.get_diff_matrix` (mpopt.py:3815-3849) for a basis on `roots`, evaluated at `taus`
(the caller passes `roots` itself when `taus is None`). With `order ∉ {1,2}` the local `pder` is
unbound as soon as an entry is computed. -/
def diffMatrix (m : Method) (roots taus : List K) (order : Nat) : Py (Mat K) :=
  let polys := lagrangePolys m roots
  if taus.length = 0 ∨ polys.length = 0 ∨ order = 1 ∨ order = 2 then
    .ok ⟨taus.length, polys.length, fun i j =>
      match (polys.getD j (.num [])).derivative order with
      | some p => p.eval (taus.getD i 0)
      | none => 0⟩
  else .error .unboundLocal

/-- `Collocation.get_interpolation_matrix` (mpopt.py:3884-3905). -/
def interpMatrix (m : Method) (roots taus : List K) : Mat K :=
  let polys := lagrangePolys m roots
  ⟨taus.length, roots.length, fun i j => (polys.getD j (.num [])).eval (taus.getD i 0)⟩

/-- `Collocation.get_quadrature_weights` (mpopt.py:3851-3882). -/
def quadWeights (m : Method) (roots : List K) (a b : K) : List K :=
  (lagrangePolys m roots).map fun p => p.integral a b

/-- A `Collocation` object: matrix method, end points `tau0`, `tau1` and node function
(mpopt.py:3720-3751). -/
structure Colloc (K : Type) where
  method : Method
  tau0 : K
  tau1 : K
  taus : Nat → Py (List K)

/-- `Collocation(poly_orders, scheme)` (mpopt.py:3720-3751). The constructor computes the nodes of
every order, so it raises when one of them cannot be computed. -/
def mkColloc (lib : NodeLib K) (m : Method) (lo hi : K) (orders : List Nat) (scheme : String) :
    Py (Colloc K) := do
  let c : Colloc K := ⟨m, lo, hi, tausFn lib lo hi scheme⟩
  let _ ← orders.mapM c.taus
  return c

/-- `Collocation.get_composite_differentiation_matrix` (mpopt.py:4015-4039). -/
def compDiffMatrix (c : Colloc K) (orders : List Nat) (order : Nat) : Py (Mat K) :=
  let n := orders.sum + 1
  orders.zipIdx.foldlM (fun M (pi : Nat × Nat) => do
    let (p, i) := pi
    let roots ← c.taus p
    let D ← diffMatrix c.method roots roots order
    if i = 0 then M.setBlock 0 (p + 1) 0 (p + 1) D
    else
      let start := (orders.take i).sum
      M.setBlock (start + 1) p start (1 + p) (D.dropRows 1)) (Mat.zeros n n)

/-- `Collocation.get_composite_quadrature_weights` (mpopt.py:4041-4064); `poly_orders[0]` raises on an
empty list. -/
def compQuadWeights (c : Colloc K) (orders : List Nat) : Py (List K) := do
  let w ← orders.mapM fun p => do
    let roots ← c.taus p
    return quadWeights c.method roots c.tau0 c.tau1
  let w0 ← pyIdx w 0
  let first ← pyIdx w0 0
  return first :: (w.map fun wi => wi.drop 1).flatten

/-- Shared body of `get_composite_interpolation_matrix` (mpopt.py:4066-4096) and
`get_composite_interpolation_Dmatrix_at` (mpopt.py:4098-4131): block `blk i p` of segment `i` goes to
the rows of its taus and the columns of its nodes; segments without taus are skipped. -/
def compBlocks (orders : List Nat) (taus : List (List K)) (blk : Nat → Nat → Py (Mat K)) :
    Py (Mat K) :=
  let nTaus := taus.map List.length
  orders.zipIdx.foldlM (fun M (pi : Nat × Nat) => do
    let (p, i) := pi
    let B ← blk i p
    let nt ← pyIdx nTaus i
    if nt = 0 then return M
    else
      M.setBlock ((nTaus.take i).sum) nt ((orders.take i).sum) (1 + p) B)
    (Mat.zeros nTaus.sum (orders.sum + 1))

/-- `Collocation.get_composite_interpolation_matrix` (mpopt.py:4066-4096). -/
def compInterpMatrix (c : Colloc K) (taus : List (List K)) (orders : List Nat) : Py (Mat K) :=
  compBlocks orders taus fun i p => do
    let ti ← pyIdx taus i
    let roots ← c.taus p
    return interpMatrix c.method roots ti

/-- `Collocation.get_composite_interpolation_Dmatrix_at` (mpopt.py:4098-4131). -/
def compInterpDMatrix (c : Colloc K) (taus : List (List K)) (orders : List Nat) (order : Nat) :
    Py (Mat K) :=
  compBlocks orders taus fun i p => do
    let ti ← pyIdx taus i
    let roots ← c.taus p
    diffMatrix c.method roots ti order

end MPOpt
