import Verif.Model.Mat

/-!
# Polynomials: `np.poly1d` and CasADi scalar expressions

`Collocation` (mpopt.py:3706-4131) builds its basis either with `np.poly1d`
(`D_MATRIX_METHOD != "symbolic"`) or as a CasADi expression in the symbol `TVAR`.
-/

set_option autoImplicit false

namespace MPOpt
variable {K : Type}

/-! ## `np.poly1d`: coefficient lists, highest power first -/

section Poly1d
variable [Field K]

/-- `poly1d.__call__` (`np.polyval`): Horner's rule. -/
def polyval (p : List K) (x : K) : K := p.foldl (fun y c => y * x + c) 0

/-- `np.polymul` = `np.convolve` of the coefficient lists. -/
def polymul : List K → List K → List K
  | [], _ => []
  | [a], b => b.map (a * ·)
  | a :: a' :: as, b =>
    List.zipWith (· + ·) (b.map (a * ·) ++ List.replicate (as.length + 1) 0)
      (0 :: polymul (a' :: as) b)

/-- `np.polyder(p)`: multiply by the exponents, drop the constant term. -/
def polyder : List K → List K
  | [] => []
  | [_] => []
  | c :: c' :: cs => c * ((cs.length + 1 : Nat) : K) :: polyder (c' :: cs)

/-- `np.polyint(p)`: divide by the exponents plus one, append a zero constant term. -/
def polyint : List K → List K
  | [] => [0]
  | c :: cs => c / ((cs.length + 1 : Nat) : K) :: polyint cs

end Poly1d

/-! ## CasADi scalar expressions in one symbol -/

/-- The CasADi SX expressions that `get_lagrange_polynomials` and `ca.gradient` create from the
symbol `TVAR` (mpopt.py:3718, 3998-4004, 3836-3844). -/
inductive Expr (K : Type)
  | const (c : K)
  | t
  | add (a b : Expr K)
  | sub (a b : Expr K)
  | mul (a b : Expr K)
  | divc (a : Expr K) (c : K)

namespace Expr
variable [Field K]

/-- `ca.Function("p", [TVAR], [e])(x)`. -/
def eval (x : K) : Expr K → K
  | const c => c
  | t => x
  | add a b => eval x a + eval x b
  | sub a b => eval x a - eval x b
  | mul a b => eval x a * eval x b
  | divc a c => eval x a / c

/-- `ca.gradient(e, TVAR)`: symbolic differentiation. -/
def gradient : Expr K → Expr K
  | const _ => const 0
  | t => const 1
  | add a b => add (gradient a) (gradient b)
  | sub a b => sub (gradient a) (gradient b)
  | mul a b => add (mul (gradient a) b) (mul a (gradient b))
  | divc a c => divc (gradient a) c

/-- Sum of coefficient lists, lowest power first. -/
def addL : List K → List K → List K
  | [], b => b
  | a, [] => a
  | a :: as, b :: bs => (a + b) :: addL as bs

/-- Product of coefficient lists, lowest power first. -/
def mulL : List K → List K → List K
  | [], _ => []
  | a :: as, b => addL (b.map (a * ·)) (0 :: mulL as b)

/-- Coefficients (lowest power first) of the polynomial an expression denotes. -/
def coeffs : Expr K → List K
  | const c => [c]
  | t => [0, 1]
  | add a b => addL (coeffs a) (coeffs b)
  | sub a b => addL (coeffs a) ((coeffs b).map (fun c => -c))
  | mul a b => mulL (coeffs a) (coeffs b)
  | divc a c => (coeffs a).map (· / c)

/-- Idealised `ca.integrator("pint", "idas", {"x":…, "t": TVAR, "ode": e}, {"t0": a, "tf": b})(x0=0)["xf"]`
(mpopt.py:3870-3878): the exact value of `∫_a^b e dt`. The IDAS integrator's truncation error is not
modelled. -/
def integrate (e : Expr K) (a b : K) : K :=
  ((coeffs e).zipIdx.map fun ci =>
    ci.1 * (b ^ (ci.2 + 1) - a ^ (ci.2 + 1)) / ((ci.2 + 1 : Nat) : K)).sum

end Expr
end MPOpt
