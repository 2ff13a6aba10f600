import Verif.Model.OCP
import Mathlib.Analysis.SpecialFunctions.Trigonometric.Inverse
import Mathlib.Analysis.SpecialFunctions.Exp

/-!
# The problem of examples/Multi-phase/multistage_launch_vehicle.py

The script is written out line by line, with the functions of real numbers in place of those of CasADi and NumPy. Where these
yield an infinity or nan (a division by zero, the inverse cosine outside [-1, 1]) the model has the value Mathlib assigns. The
statements of C109 and C110 about the mass do not depend on these functions.
-/

set_option autoImplicit false

namespace MPOpt.Launch

/-! ### Constants (multistage_launch_vehicle.py:38-56) -/

noncomputable def Re : ℝ := 6378145
noncomputable def omegaE : ℝ := 7.29211585e-5
noncomputable def rho0 : ℝ := 1.225
noncomputable def rhoH : ℝ := 7200
noncomputable def Sa : ℝ := 4 * Real.pi
noncomputable def Cd : ℝ := 0.5
noncomputable def muE : ℝ := 3.986012e14
noncomputable def lat0 : ℝ := 28.5 * Real.pi / 180
noncomputable def m0 : ℝ := 301454
noncomputable def mf : ℝ := 4164
noncomputable def mdrySrb : ℝ := 19290 - 17010
noncomputable def mdryFirst : ℝ := 104380 - 95550
noncomputable def mdrySecond : ℝ := 19300 - 16820

/-- `x0` (50-57): position on the ground, the velocity of the ground, the mass at launch. -/
noncomputable def x0 : List ℝ :=
  [Re * Real.cos lat0, 0, Re * Real.sin lat0, omegaE * -0, omegaE * (Re * Real.cos lat0), omegaE * 0, m0]

/-- `Thrust` (61). -/
noncomputable def thrust : Nat → ℝ
  | 0 => 6 * 628500 + 1083100
  | 1 => 3 * 628500 + 1083100
  | 2 => 1083100
  | _ => 110094

/-- `mdot` (62-67). -/
noncomputable def mdot : Nat → ℝ
  | 0 => 6 * 17010 / 75.2 + 95550 / 261
  | 1 => 3 * 17010 / 75.2 + 95550 / 261
  | 2 => 95550 / 261
  | _ => 16820 / 700

/-- `dynamics` (70-91) with `T = thrust ph`, `mdot = mdot ph`. -/
noncomputable def dynamics (param : ℝ) (ph : Nat) : VFun (PArg ℝ) ℝ :=
  ⟨7, fun p j =>
    let x := fun i => p.x.getD i 0
    let u := fun i => p.u.getD i 0
    let rMag := Real.sqrt (x 0 * x 0 + x 1 * x 1 + x 2 * x 2)
    let vRel := fun i => if i = 0 then x 3 + x 1 * omegaE else if i = 1 then x 4 - x 0 * omegaE else x 5
    let vRelMag := Real.sqrt (vRel 0 * vRel 0 + vRel 1 * vRel 1 + vRel 2 * vRel 2)
    let h := rMag - Re
    let rho := rho0 * Real.exp (-h / rhoH)
    let D := fun i => -rho / (2 * x 6) * Sa * Cd * vRelMag * vRel i
    let g := fun i => -muE / (rMag * rMag * rMag) * x i
    if j < 3 then x (j + 3)
    else if j < 6 then thrust ph / x 6 * u (j - 3) + param * D (j - 3) + g (j - 3)
    else -mdot ph⟩

/-- `path_constraints0` (114-119). -/
noncomputable def path : VFun (PArg ℝ) ℝ :=
  ⟨3, fun p j =>
    let x := fun i => p.x.getD i 0
    let u := fun i => p.u.getD i 0
    if j = 0 then u 0 * u 0 + u 1 * u 1 + u 2 * u 2 - 1
    else if j = 1 then -u 0 * u 0 - u 1 * u 1 - u 2 * u 2 + 1
    else -Real.sqrt (x 0 * x 0 + x 1 * x 1 + x 2 * x 2) / Re + 1⟩

/-- `terminal_cost3` (125-126); `xf[-1]` is the last of the seven states. -/
noncomputable def cost (t : TArg ℝ) : ℝ := -t.xf.getD 6 0 / m0

noncomputable def aReq : ℝ := 24361140
noncomputable def eReq : ℝ := 0.7308
noncomputable def iReq : ℝ := 28.5 * Real.pi / 180
noncomputable def nodeReq : ℝ := 269.8 * Real.pi / 180
noncomputable def argPReq : ℝ := 130.5 * Real.pi / 180

/-- `h` in `terminal_constraints3` (135-137). -/
noncomputable def angMom (x : Nat → ℝ) : Nat → ℝ
  | 0 => x 1 * x 5 - x 4 * x 2
  | 1 => x 3 * x 2 - x 0 * x 5
  | _ => x 0 * x 4 - x 1 * x 3

/-- `r` (140). -/
noncomputable def radius (x : Nat → ℝ) : ℝ := Real.sqrt (x 0 * x 0 + x 1 * x 1 + x 2 * x 2)

/-- `e` (142-146). -/
noncomputable def ecc (x : Nat → ℝ) : Nat → ℝ
  | 0 => 1 / muE * (x 4 * angMom x 2 - x 5 * angMom x 1) - x 0 / radius x
  | 1 => 1 / muE * (x 5 * angMom x 0 - x 3 * angMom x 2) - x 1 / radius x
  | _ => 1 / muE * (x 3 * angMom x 1 - x 4 * angMom x 0) - x 2 / radius x

/-- `terminal_constraints3` (132-176): semi-major axis, eccentricity, inclination, ascending node and argument of perigee. -/
noncomputable def target : VFun (TArg ℝ) ℝ :=
  ⟨5, fun t c =>
    let x := fun i => t.xf.getD i 0
    let h := angMom x
    let n := fun i => if i = 0 then -h 1 else h 0
    let e := ecc x
    let eMag := Real.sqrt (e 0 * e 0 + e 1 * e 1 + e 2 * e 2)
    let hSq := h 0 * h 0 + h 1 * h 1 + h 2 * h 2
    let vMag := Real.sqrt (x 3 * x 3 + x 4 * x 4 + x 5 * x 5)
    let a := -muE / (vMag * vMag - 2 * muE / radius x)
    let i := Real.arccos (h 2 / Real.sqrt hSq)
    let nMag := Real.sqrt (n 0 * n 0 + n 1 * n 1)
    let nodeAsc := 2 * Real.pi - Real.arccos (n 0 / nMag)
    let argP := Real.arccos ((n 0 * e 0 + n 1 * e 1) / (nMag * eMag))
    if c = 0 then (a - aReq) / Re
    else if c = 1 then eMag - eReq
    else if c = 2 then i - iReq
    else if c = 3 then nodeAsc - nodeReq
    else argP - argPReq⟩

/-- `ae_to_rv` (194-216): position and velocity from orbital elements; `R` times a vector in the plane of the orbit. -/
noncomputable def aeToRv (a e i node argP th : ℝ) : List ℝ :=
  let p := a * (1 - e * e)
  let r := p / (1 + e * Real.cos th)
  let rx := r * Real.cos th
  let ry := r * Real.sin th
  let vx := Real.sqrt (muE / p) * -Real.sin th
  let vy := Real.sqrt (muE / p) * (e + Real.cos th)
  let cn := Real.cos node
  let sn := Real.sin node
  let cp := Real.cos argP
  let sp := Real.sin argP
  let ci := Real.cos i
  let si := Real.sin i
  let r11 := cn * cp - sn * sp * ci
  let r12 := -cn * sp - sn * cp * ci
  let r21 := sn * cp + cn * sp * ci
  let r22 := -sn * sp + cn * cp * ci
  let r31 := sp * si
  let r32 := cp * si
  [r11 * rx + r12 * ry, r21 * rx + r22 * ry, r31 * rx + r32 * ry,
    r11 * vx + r12 * vy, r21 * vx + r22 * vy, r31 * vx + r32 * vy]

/-! ### Timings and guesses (220-256) -/

noncomputable def t1 : ℝ := 75.2
noncomputable def t2 : ℝ := 150.4
noncomputable def t3 : ℝ := 261
noncomputable def t4 : ℝ := 924

/-- `xf` (231). -/
noncomputable def xf : List ℝ := aeToRv aReq eReq iReq nodeReq argPReq 0 ++ [mf + mdrySecond]

/-- `x0 + (xf - x0) / (t4 - t0) * (t - t0)` (232-234). -/
noncomputable def toward (t : ℝ) : List ℝ := List.zipWith (fun a b => a + (b - a) / (t4 - 0) * (t - 0)) x0 xf

/-- The masses written into the last entries (236-247): at the ends of phases 0 to 2 and at the starts of phases 1 to 3. -/
noncomputable def mass0f : ℝ := m0 - (6 * 17010 + 95550 / t3 * t1)
noncomputable def mass1 : ℝ := mass0f - 6 * mdrySrb
noncomputable def mass1f : ℝ := mass1 - (3 * 17010 + 95550 / t3 * (t2 - t1))
noncomputable def mass2 : ℝ := mass1f - 3 * mdrySrb
noncomputable def mass2f : ℝ := mass2 - 95550 / t3 * (t3 - t2)
noncomputable def mass3 : ℝ := mass2f - mdryFirst

/-- `rvmin + [m]` and `rvmax + [m]` (259-270). -/
noncomputable def lower (m : ℝ) : List (Ext ℝ) :=
  [.fin (-2 * Re), .fin (-2 * Re), .fin (-2 * Re), .fin (-10000), .fin (-10000), .fin (-10000), .fin m]
noncomputable def upper (m : ℝ) : List (Ext ℝ) :=
  [.fin (2 * Re), .fin (2 * Re), .fin (2 * Re), .fin 10000, .fin 10000, .fin 10000, .fin m]

/-- `lbe0`, `lbe1`, `lbe2` (287-289). -/
noncomputable def jump (m : ℝ) : List (Ext ℝ) := [.fin 0, .fin 0, .fin 0, .fin 0, .fin 0, .fin 0, .fin m]

/-- multistage_launch_vehicle.py:36-295, with `get_dynamics(param)` (94-108): `param` is 0 in the first run of the script and
1 in the second. -/
noncomputable def script (param : ℝ) : Py (OCP ℝ) := do
  let o ← mkOCP 7 3 4 0
  return { o with
    dynamics := [dynamics param 0, dynamics param 1, dynamics param 2, dynamics param 3]
    pathConstraints := List.replicate 4 (some path)
    terminalCosts := o.terminalCosts.set 3 cost
    terminalConstraints := o.terminalConstraints.set 3 (some target)
    scaleX := [1 / Re, 1 / Re, 1 / Re, 1 / Real.sqrt (muE / Re), 1 / Real.sqrt (muE / Re), 1 / Real.sqrt (muE / Re), 1 / m0]
    scaleT := Real.sqrt (muE / Re) / Re
    x00 := [x0, (toward t1).set 6 mass1, (toward t2).set 6 mass2, (toward t3).set 6 mass3]
    xf0 := [(toward t1).set 6 mass0f, (toward t2).set 6 mass1f, (toward t3).set 6 mass2f, xf]
    u00 := [[1, 0, 0], [1, 0, 0], [0, 1, 0], [0, 1, 0]]
    uf0 := [[0, 1, 0], [0, 1, 0], [0, 1, 0], [0, 1, 0]]
    t00 := [[0], [t1], [t2], [t3]]
    tf0 := [[t1], [t2], [t3], [t4]]
    lbx := [lower mass0f, lower mass1f, lower mass2f, lower (mf + mdrySecond)]
    ubx := [upper m0, upper mass1, upper mass2, upper mass3]
    lbu := List.replicate 4 [.fin (-1), .fin (-1), .fin (-1)]
    ubu := List.replicate 4 [.fin 1, .fin 1, .fin 1]
    lbt0 := [[.fin 0], [.fin t1], [.fin t2], [.fin t3]]
    ubt0 := [[.fin 0], [.fin t1], [.fin t2], [.fin t3]]
    lbtf := [[.fin t1], [.fin t2], [.fin t3], [.fin (t4 - 100)]]
    ubtf := [[.fin t1], [.fin t2], [.fin t3], [.fin (t4 + 100)]]
    lbe := [jump (-6 * mdrySrb), jump (-3 * mdrySrb), jump (-mdryFirst)]
    ube := [jump (-6 * mdrySrb), jump (-3 * mdrySrb), jump (-mdryFirst)] }

end MPOpt.Launch
