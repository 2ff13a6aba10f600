import Verif.Model.Collocation

/-!
# The dictionaries `roots` and `polys` of a `Collocation` object (mpopt.py:3743-3746, 3791-4131)

Requests are programs that read and write the two dictionaries and may raise; what was written before an
exception stays. `set(poly_orders)` is enumerated in an order that depends on hashing, so the enumeration
is an argument `ks`. `D_MATRIX_METHOD` does not change during the life of the object.
-/

set_option autoImplicit false

namespace MPOpt
variable {K : Type} [Field K]

/-- Keys of the dictionaries: a polynomial degree, or a name such as `"c0"`. -/
inductive Key
  | deg (n : Nat)
  | lbl (s : String)
  deriving DecidableEq, Repr

/-- `self.roots` and `self.polys` (mpopt.py:3744). -/
structure Cache (K : Type) where
  roots : Key → Option (List K)
  polys : Key → Option (List (Basis K))

/-- `{}, {}` (mpopt.py:3744). -/
def Cache.empty : Cache K := ⟨fun _ => none, fun _ => none⟩

/-- Assignment to both dictionaries under one key. -/
def Cache.put (c : Cache K) (k : Key) (r : List K) (p : List (Basis K)) : Cache K :=
  ⟨Function.update c.roots k (some r), Function.update c.polys k (some p)⟩

/-- A request: reads and writes the dictionaries, may raise. -/
abbrev Req (K : Type) := ExceptT PyErr (StateM (Cache K))

/-- A computation that does not touch the dictionaries. -/
def Req.lift {A : Type} (x : Py A) : Req K A := ExceptT.mk (pure x)

/-- `d[key]`; a missing key is `KeyError` (written `index`). -/
def Req.item {A : Type} (x : Option A) : Req K A :=
  match x with
  | some a => pure a
  | none => Req.lift (.error .index)

/-- Entries of `get_diff_matrix` (mpopt.py:3827-3849) from cached polynomials. -/
def diffFrom (polys : List (Basis K)) (taus : List K) (order : Nat) : Py (Mat K) :=
  if taus.length = 0 ∨ polys.length = 0 ∨ order = 1 ∨ order = 2 then
    .ok ⟨taus.length, polys.length, fun i j =>
      match (polys.getD j (.num [])).derivative order with
      | some p => p.eval (taus.getD i 0)
      | none => 0⟩
  else .error .unboundLocal

/-- Entries of `get_quadrature_weights` (mpopt.py:3865-3882); `n` is the number of cached roots. -/
def quadFrom (polys : List (Basis K)) (n : Nat) (a b : K) : Py (List K) :=
  (List.range n).mapM fun i => do return (← pyIdx polys i).integral a b

/-- Entries of `get_interpolation_matrix` (mpopt.py:3894-3905). -/
def interpFrom (polys : List (Basis K)) (n : Nat) (taus : List K) : Mat K :=
  ⟨taus.length, n, fun i j => (polys.getD j (.num [])).eval (taus.getD i 0)⟩

namespace Colloc
variable (o : Colloc K)

/-- `self._taus_fn(key)`: a name is not a number. -/
def tausKey : Key → Py (List K)
  | .deg n => o.taus n
  | .lbl _ => .error .type

/-- One pass of the loop of `init_polynomials` (mpopt.py:3800-3802). -/
def initOne (k : Key) : Req K Unit := do
  let r ← Req.lift (o.tausKey k)
  modify fun c => c.put k r (lagrangePolys o.method r)

/-- `init_polynomials` (mpopt.py:3794-3802). -/
def initPolynomials (ks : List Key) : Req K Unit := ks.forM o.initOne

/-- `init_polynomials_with_customized_roots` (mpopt.py:3804-3813). -/
def initCustom (d : List (Key × List K)) : Req K Unit :=
  d.forM fun kr => modify fun c => c.put kr.1 kr.2 (lagrangePolys o.method kr.2)

/-- `if (key not in self.roots) or (key not in self.polys)` (mpopt.py:3825-3826, 3857-3858, 3891-3892). -/
def ensure (k : Key) : Req K Unit := do
  let c ← get
  if (c.roots k).isNone || (c.polys k).isNone then o.initPolynomials [k]

/-- `get_diff_matrix` (mpopt.py:3815-3849). -/
def getDiff (k : Key) (taus : Option (List K)) (order : Nat) : Req K (Mat K) := do
  o.ensure k
  let c ← get
  let r ← Req.item (c.roots k)
  let p ← Req.item (c.polys k)
  Req.lift (diffFrom p (taus.getD r) order)

/-- `get_quadrature_weights` (mpopt.py:3851-3882). -/
def getQuad (k : Key) (a b : Option K) : Req K (List K) := do
  o.ensure k
  let c ← get
  let r ← Req.item (c.roots k)
  let p ← Req.item (c.polys k)
  Req.lift (quadFrom p r.length (a.getD o.tau0) (b.getD o.tau1))

/-- `get_interpolation_matrix` (mpopt.py:3884-3905). -/
def getInterp (taus : List K) (k : Key) : Req K (Mat K) := do
  o.ensure k
  let c ← get
  let r ← Req.item (c.roots k)
  let p ← Req.item (c.polys k)
  return interpFrom p r.length taus

/-- `get_diff_matrices` (mpopt.py:3907-3918). -/
def getDiffs (ks : List Nat) (order : Nat) : Req K (List (Nat × Mat K)) :=
  ks.mapM fun p => do return (p, ← o.getDiff (.deg p) none order)

/-- `get_quad_weight_matrices` (mpopt.py:3943-3961). -/
def getQuads (ks : List Nat) (a b : Option K) : Req K (List (Nat × List K)) :=
  ks.mapM fun p => do return (p, ← o.getQuad (.deg p) a b)

/-- `get_interpolation_matrices` (mpopt.py:3963-3984). -/
def getInterps (taus : List (List K)) (orders : List Nat) : Req K (List (Mat K)) :=
  orders.zipIdx.mapM fun pi => do
    let t ← Req.lift (pyIdx taus pi.2)
    o.getInterp t (.deg pi.1)

/-- `get_interpolation_Dmatrices_at` (mpopt.py:3920-3941). -/
def getInterpDs (taus : List (List K)) (orders : List Nat) (order : Nat) : Req K (List (Mat K)) :=
  orders.zipIdx.mapM fun pi => do
    let t ← Req.lift (pyIdx taus pi.2)
    o.getDiff (.deg pi.1) (some t) order

/-- `D[p]` in a dictionary given as a list of pairs. -/
def dictItem {V : Type} (d : List (Nat × V)) (p : Nat) : Py V :=
  match d.find? fun e => e.1 == p with
  | some e => .ok e.2
  | none => .error .index

/-- `get_composite_differentiation_matrix` (mpopt.py:4015-4039); `ks` enumerates `set(orders)`. -/
def getCompDiff (orders ks : List Nat) (order : Nat) : Req K (Mat K) := do
  let D ← o.getDiffs ks order
  let n := orders.sum + 1
  Req.lift <| orders.zipIdx.foldlM (fun M (pi : Nat × Nat) => do
    let Dp ← dictItem D pi.1
    if pi.2 = 0 then M.setBlock 0 (pi.1 + 1) 0 (pi.1 + 1) Dp
    else
      let start := (orders.take pi.2).sum
      M.setBlock (start + 1) pi.1 start (1 + pi.1) (Dp.dropRows 1)) (Mat.zeros n n)

/-- `get_composite_quadrature_weights` (mpopt.py:4041-4064) with the default end points. -/
def getCompQuad (orders ks : List Nat) : Req K (List K) := do
  let Q ← o.getQuads ks none none
  let p0 ← Req.lift (pyIdx orders 0)
  let w0 ← Req.lift (dictItem Q p0)
  let first ← Req.lift (pyIdx w0 0)
  let ws ← Req.lift (orders.mapM fun p => do return (← dictItem Q p).drop 1)
  return first :: ws.flatten

/-- Assembly shared by the two interpolation composites (mpopt.py:4079-4096, 4114-4131). -/
def assemble (taus : List (List K)) (orders : List Nat) (Bs : List (Mat K)) : Py (Mat K) :=
  let nTaus := taus.map List.length
  orders.zipIdx.foldlM (fun M (pi : Nat × Nat) => do
    let nt ← pyIdx nTaus pi.2
    if nt = 0 then return M
    else
      let B ← pyIdx Bs pi.2
      M.setBlock ((nTaus.take pi.2).sum) nt ((orders.take pi.2).sum) (1 + pi.1) B)
    (Mat.zeros nTaus.sum (orders.sum + 1))

/-- `get_composite_interpolation_matrix` (mpopt.py:4066-4096). -/
def getCompInterp (taus : List (List K)) (orders : List Nat) : Req K (Mat K) := do
  let C ← o.getInterps taus orders
  Req.lift (assemble taus orders C)

/-- `get_composite_interpolation_Dmatrix_at` (mpopt.py:4098-4131). -/
def getCompInterpD (taus : List (List K)) (orders : List Nat) (order : Nat) : Req K (Mat K) := do
  let D ← o.getInterpDs taus orders order
  Req.lift (assemble taus orders D)

/-- One public call on the object. -/
inductive Call (K : Type)
  | init (ks : List Key)
  | custom (d : List (Key × List K))
  | diff (k : Key) (taus : Option (List K)) (order : Nat)
  | quad (k : Key) (a b : Option K)
  | interp (taus : List K) (k : Key)
  | compDiff (orders ks : List Nat) (order : Nat)
  | compQuad (orders ks : List Nat)
  | compInterp (taus : List (List K)) (orders : List Nat)
  | compInterpD (taus : List (List K)) (orders : List Nat) (order : Nat)

/-- The dictionaries after a call, whether it returned or raised. -/
def step (c : Cache K) : Call K → Cache K
  | .init ks => ((o.initPolynomials ks).run c).2
  | .custom d => ((o.initCustom d).run c).2
  | .diff k taus order => ((o.getDiff k taus order).run c).2
  | .quad k a b => ((o.getQuad k a b).run c).2
  | .interp taus k => ((o.getInterp taus k).run c).2
  | .compDiff orders ks order => ((o.getCompDiff orders ks order).run c).2
  | .compQuad orders ks => ((o.getCompQuad orders ks).run c).2
  | .compInterp taus orders => ((o.getCompInterp taus orders).run c).2
  | .compInterpD taus orders order => ((o.getCompInterpD taus orders order).run c).2

/-- The dictionaries after a history of calls on a fresh object (mpopt.py:3743-3746). -/
def after (ks : List Nat) (calls : List (Call K)) : Cache K :=
  calls.foldl o.step ((o.initPolynomials (ks.map .deg)).run Cache.empty).2

end Colloc
end MPOpt
