import Verif.Spec.Adaptive
import Mathlib.Data.Option.Defs
import Mathlib.Logic.Equiv.Defs

/-! # Specification: the same problem with its variables, phases, links and constraints numbered differently -/

set_option autoImplicit false

namespace MPOpt

/-- New numbers: what is number `j` afterwards was number `ν j` before. -/
structure Numbering where
  x : Equiv.Perm Nat
  u : Equiv.Perm Nat
  a : Equiv.Perm Nat
  phase : Equiv.Perm Nat
  link : Equiv.Perm Nat

/-- Undo the renumbering. -/
def Numbering.back (ν : Numbering) : Numbering := ⟨ν.x.symm, ν.u.symm, ν.a.symm, ν.phase.symm, ν.link.symm⟩

variable {K : Type}

/-- The same trajectory with the new numbers. -/
def Traj.renumber (T : Traj K) (ν : Numbering) : Traj K where
  x ph i j := T.x (ν.phase ph) i (ν.x j)
  u ph i j := T.u (ν.phase ph) i (ν.u j)
  t0 ph := T.t0 (ν.phase ph)
  tf ph := T.tf (ν.phase ph)
  a ph k := T.a (ν.phase ph) (ν.a k)
  w s ph := T.w s (ν.phase ph)

/-- Exactly the numbers below `n` stay below `n`. -/
def Permutes (n : Nat) (π : Equiv.Perm Nat) : Prop := ∀ j, π j < n ↔ j < n

/-- Arguments `(x, u, t, a)` for `nx` states, `nu` controls and `na` parameters. -/
def pointArg (nx nu na : Nat) (X U A : Nat → K) (t : K) : PArg K :=
  ⟨(List.range nx).map X, (List.range nu).map U, t, if na = 0 then none else some ((List.range na).map A)⟩

/-- Arguments `(x(tf), tf, x(t0), t0, a)`. -/
def endArg (nx na : Nat) (Xf X0 A : Nat → K) (tf t0 : K) : TArg K :=
  ⟨(List.range nx).map Xf, tf, (List.range nx).map X0, t0, if na = 0 then none else some ((List.range na).map A)⟩

/-- `F'` has the components of `F` in another order; `args p p'` says which arguments correspond. -/
def Reordered {A : Type} (args : A → A → Prop) (F F' : VFun A K) : Prop :=
  F'.len = F.len ∧ ∃ κ : Equiv.Perm Nat, Permutes F.len κ ∧ ∀ p p', args p p' → ∀ c < F.len, F'.f p' c = F.f p (κ c)

/-- Corresponding arguments `(x, u, t, a)`. -/
def OCP.PointArgs (ocp : OCP K) (ν : Numbering) (p p' : PArg K) : Prop :=
  ∃ X U A t, p = pointArg ocp.nx ocp.nu ocp.na X U A t ∧ p' = pointArg ocp.nx ocp.nu ocp.na (X ∘ ν.x) (U ∘ ν.u) (A ∘ ν.a) t

/-- Corresponding arguments `(x(tf), tf, x(t0), t0, a)`. -/
def OCP.EndArgs (ocp : OCP K) (ν : Numbering) (p p' : TArg K) : Prop :=
  ∃ Xf X0 A tf t0, p = endArg ocp.nx ocp.na Xf X0 A tf t0 ∧
    p' = endArg ocp.nx ocp.na (Xf ∘ ν.x) (X0 ∘ ν.x) (A ∘ ν.a) tf t0

/-- Entries of `lo'`, `hi'` are those of `lo`, `hi`, up to column `n`. -/
def SameBounds (n ph ph' : Nat) (π : Nat → Nat) (lo hi lo' hi' : List (List (Ext K))) : Prop :=
  ∀ j < n, entry lo' ph' j .nan = entry lo ph (π j) .nan ∧ entry hi' ph' j .nan = entry hi ph (π j) .nan

/-- `ocp'` is `ocp` with the numbers of `ν`; path and terminal constraints may be in another order as well. Guesses and
scale factors are not compared, except for scales of controls under slope bounds. -/
structure OCP.Renumbers [Field K] (ν : Numbering) (ocp ocp' : OCP K) : Prop where
  nx : ocp'.nx = ocp.nx
  nu : ocp'.nu = ocp.nu
  na : ocp'.na = ocp.na
  nPhases : ocp'.nPhases = ocp.nPhases
  keepX : Permutes ocp.nx ν.x
  keepU : Permutes ocp.nu ν.u
  keepA : Permutes ocp.na ν.a
  keepPhase : Permutes ocp.nPhases ν.phase
  dynamics : ∀ ph < ocp.nPhases, Option.Rel (fun F F' => ∀ p p', ocp.PointArgs ν p p' → ∀ j < ocp.nx, F'.f p' j = F.f p (ν.x j))
    ocp.dynamics[ν.phase ph]? ocp'.dynamics[ph]?
  running : ∀ ph < ocp.nPhases, Option.Rel (fun F F' => ∀ p p', ocp.PointArgs ν p p' → F' p' = F p)
    ocp.runningCosts[ν.phase ph]? ocp'.runningCosts[ph]?
  ends : ∀ ph < ocp.nPhases, Option.Rel (fun F F' => ∀ p p', ocp.EndArgs ν p p' → F' p' = F p)
    ocp.terminalCosts[ν.phase ph]? ocp'.terminalCosts[ph]?
  path : ∀ ph < ocp.nPhases, Option.Rel (Reordered (ocp.PointArgs ν)) (ocp.pathConstraints.getD (ν.phase ph) none)
    (ocp'.pathConstraints.getD ph none)
  terminal : ∀ ph < ocp.nPhases, Option.Rel (Reordered (ocp.EndArgs ν)) (ocp.terminalConstraints.getD (ν.phase ph) none)
    (ocp'.terminalConstraints.getD ph none)
  start : ∀ ph < ocp.nPhases, ∀ j < ocp.nx, entry ocp'.x00 ph j 0 = entry ocp.x00 (ν.phase ph) (ν.x j) 0
  x : ∀ ph < ocp.nPhases, SameBounds ocp.nx (ν.phase ph) ph ν.x ocp.lbx ocp.ubx ocp'.lbx ocp'.ubx
  u : ∀ ph < ocp.nPhases, SameBounds ocp.nu (ν.phase ph) ph ν.u ocp.lbu ocp.ubu ocp'.lbu ocp'.ubu
  a : ∀ ph < ocp.nPhases, SameBounds ocp.na (ν.phase ph) ph ν.a ocp.lba ocp.uba ocp'.lba ocp'.uba
  t0 : ∀ ph < ocp.nPhases, SameBounds 1 (ν.phase ph) ph id ocp.lbt0 ocp.ubt0 ocp'.lbt0 ocp'.ubt0
  tf : ∀ ph < ocp.nPhases, SameBounds 1 (ν.phase ph) ph id ocp.lbtf ocp.ubtf ocp'.lbtf ocp'.ubtf
  links : ∀ (k p q : Nat), ocp'.phaseLinks[k]? = some (p, q) ↔ ocp.phaseLinks[ν.link k]? = some (ν.phase p, ν.phase q)
  jumps : ∀ k < ocp'.phaseLinks.length, SameBounds ocp.nx (ν.link k) k ν.x ocp.lbe ocp.ube ocp'.lbe ocp'.ube
  mid : ∀ ph < ocp.nPhases, ocp'.midu.getD ph false = ocp.midu.getD (ν.phase ph) false
  cont : ∀ ph < ocp.nPhases, ocp'.duContinuity.getD ph false = ocp.duContinuity.getD (ν.phase ph) false
  slope : ∀ ph < ocp.nPhases, ocp'.diffU.getD ph false = ocp.diffU.getD (ν.phase ph) false
  slopes : ∀ ph < ocp.nPhases, ocp'.diffU.getD ph false = true →
    ocp'.lbdu.getD ph .nan = ocp.lbdu.getD (ν.phase ph) .nan ∧ ocp'.ubdu.getD ph .nan = ocp.ubdu.getD (ν.phase ph) .nan ∧
    ∀ j < ocp.nu, ocp'.scaleU.getD j 0 = ocp.scaleU.getD (ν.u j) 0

/-- Widths asked for correspond: phase by phase the same ones. -/
def SameWidths [Zero K] (ν : Numbering) (phases n : Nat) (req req' : Option (List K)) : Prop :=
  match req, req' with
  | none, none => True
  | some l, some l' => l.length = phases * n ∧ l'.length = phases * n ∧
      ∀ ph < phases, ∀ s < n, l'.getD (ph * n + s) 0 = l.getD (ν.phase ph * n + s) 0
  | _, _ => False

end MPOpt
