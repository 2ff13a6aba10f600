import Verif.Spec.Mesh

/-! # Specification: planning again at the start of a phase -/

set_option autoImplicit false

namespace MPOpt
variable {K : Type}

/-- The row of phase `q` alone. -/
def onlyRow {α : Type} (q : Nat) (l : List α) : List α := (l.drop q).take 1

/-- What is left of a problem when its phase `q` begins in the state `x` at time `t`: one phase, with everything else as it was. -/
def OCP.only (ocp : OCP K) (q : Nat) (x : Nat → K) (t : K) : OCP K :=
  { ocp with
    nPhases := 1
    dynamics := onlyRow q ocp.dynamics, pathConstraints := onlyRow q ocp.pathConstraints
    terminalCosts := onlyRow q ocp.terminalCosts, runningCosts := onlyRow q ocp.runningCosts
    terminalConstraints := onlyRow q ocp.terminalConstraints
    phaseLinks := []
    x00 := [(List.range ocp.nx).map x], xf0 := onlyRow q ocp.xf0, u00 := onlyRow q ocp.u00, uf0 := onlyRow q ocp.uf0
    t00 := onlyRow q ocp.t00, tf0 := onlyRow q ocp.tf0, a0 := onlyRow q ocp.a0
    lbx := onlyRow q ocp.lbx, ubx := onlyRow q ocp.ubx, lbu := onlyRow q ocp.lbu, ubu := onlyRow q ocp.ubu
    lba := onlyRow q ocp.lba, uba := onlyRow q ocp.uba
    lbt0 := [[.fin t]], ubt0 := [[.fin t]], lbtf := onlyRow q ocp.lbtf, ubtf := onlyRow q ocp.ubtf
    lbe := [], ube := []
    diffU := onlyRow q ocp.diffU, lbdu := onlyRow q ocp.lbdu, ubdu := onlyRow q ocp.ubdu, midu := onlyRow q ocp.midu
    duContinuity := onlyRow q ocp.duContinuity }

/-- Phase `q` of a trajectory, as a trajectory of one phase. -/
def Traj.only (T : Traj K) (q : Nat) : Traj K :=
  ⟨fun _ => T.x q, fun _ => T.u q, fun _ => T.t0 q, fun _ => T.tf q, fun _ => T.a q, fun s _ => T.w s q⟩

/-- The trajectory with its phase `q` exchanged for the first phase of `S`. -/
def Traj.put (T : Traj K) (q : Nat) (S : Traj K) : Traj K :=
  ⟨fun p => if p = q then S.x 0 else T.x p, fun p => if p = q then S.u 0 else T.u p, fun p => if p = q then S.t0 0 else T.t0 p,
    fun p => if p = q then S.tf 0 else T.tf p, fun p => if p = q then S.a 0 else T.a p, fun s p => if p = q then S.w s 0 else T.w s p⟩

/-- Phase `q` is the end of its chain: no other phase continues it. -/
def OCP.Final (ocp : OCP K) (q : Nat) : Prop := ∀ l ∈ ocp.phaseLinks, l.1 ≠ q

end MPOpt
