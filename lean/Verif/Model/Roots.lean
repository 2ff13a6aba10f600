import Verif.Model.Py

/-!
# `CollocationRoots` (mpopt.py:4134-4276)
-/

set_option autoImplicit false

namespace MPOpt
variable {K : Type}

/-- External numerical routines used to place collocation nodes. Their contracts are stated where
they are needed (`Spec/Roots.lean`), nothing is assumed here. -/
structure NodeLib (K : Type) where
  /-- `scipy.special.j_roots(n, alpha, beta)[0]` with integer `alpha`, `beta`. -/
  jroots : Nat → Nat → Nat → List K
  /-- `np.polynomial.legendre.leggauss(n)[0]` for `n >= 1`. -/
  leggauss : Nat → List K
  /-- `np.cos(np.pi * j / deg)`. -/
  cosPi : Nat → Nat → K

variable [Field K]

/-- `tau_min + (tau_max - tau_min) / (2) * (r + 1)` (mpopt.py:4203, 4224, 4250, 4274). -/
def rescale (lo hi : K) (r : K) : K := lo + (hi - lo) / 2 * (r + 1)

/-- `lg_roots` (mpopt.py:4199-4203). `leggauss(0)` raises `ValueError`; for `deg = 0` the argument is
`-1`, also a `ValueError`. -/
def lgRoots (lib : NodeLib K) (lo hi : K) (deg : Nat) : Py (List K) :=
  if deg ≤ 1 then .error .value
  else .ok (((-1) :: lib.leggauss (deg - 1)).map (rescale lo hi))

/-- `lgr_roots` (mpopt.py:4216-4229). -/
def lgrRoots (lib : NodeLib K) (lo hi : K) (deg : Nat) : Py (List K) :=
  if 1 < deg then .ok (((-1) :: lib.jroots (deg - 1) 1 0 ++ [1]).map (rescale lo hi))
  else if deg = 1 then .ok [lo, hi]
  else .ok [0]

/-- `lgl_roots` (mpopt.py:4242-4255). -/
def lglRoots (lib : NodeLib K) (lo hi : K) (deg : Nat) : Py (List K) :=
  if 1 < deg then .ok (((-1) :: lib.jroots (deg - 1) 1 1 ++ [1]).map (rescale lo hi))
  else if deg = 1 then .ok [lo, hi]
  else .ok [0]

/-- `cgl_roots` (mpopt.py:4270-4274): `cos(pi*j/deg)` for `j = 0..deg`, reversed; `deg = 0` divides by
zero. -/
def cglRoots (lib : NodeLib K) (lo hi : K) (deg : Nat) : Py (List K) :=
  if deg = 0 then .error .zeroDivision
  else .ok ((((List.range (deg + 1)).map fun j => lib.cosPi j deg).reverse).map (rescale lo hi))

/-- Fallback of `get_collocation_points` for an unknown scheme (mpopt.py:4181-4188):
`linspace(tau_min, tau_max, n_nodes)` — called with the *degree* as `n_nodes`. -/
def otherRoots (lo hi : K) (deg : Nat) : Py (List K) :=
  if 1 < deg then .ok (linspace lo hi deg) else .ok [lo, hi]

/-- `CollocationRoots.get_collocation_points(scheme)` (mpopt.py:4158-4188) with
`_TAU_MIN = lo`, `_TAU_MAX = hi`. -/
def tausFn (lib : NodeLib K) (lo hi : K) (scheme : String) (deg : Nat) : Py (List K) :=
  if scheme = "LG" then lgRoots lib lo hi deg
  else if scheme = "LGR" then lgrRoots lib lo hi deg
  else if scheme = "LGL" then lglRoots lib lo hi deg
  else if scheme = "CGL" then cglRoots lib lo hi deg
  else otherRoots lo hi deg

end MPOpt
