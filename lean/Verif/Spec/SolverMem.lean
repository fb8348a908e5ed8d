import Verif.Model.SolverMem
import Verif.Spec.Shooting

/-!
# Specification: dimensions of the solvers' arrays

With `nx`, `ndx` the dimensions of states and of their tangents, `nu`, `nh`, `ng` those of the controls and
constraints of a node: one matrix per running node, and one for the terminal node where the algorithm needs it.
-/

namespace Verif.SolverMem
open Verif Verif.Shooting

section
variable {K M : Type} (d : Dims M)

/-- One matrix per running node. -/
def running (p : Problem K M) (f : M → Nat × Nat) : List (Nat × Nat) := p.models.map f

/-- One matrix per node, the terminal one included. -/
def all (p : Problem K M) (f : M → Nat × Nat) (l : Nat × Nat) : List (Nat × Nat) := p.models.map f ++ [l]

/-- The sizes that the algorithms need. -/
def need (p : Problem K M) : Arr → List (Nat × Nat)
  -- trajectories: states, controls, gaps, multipliers of the inequality constraints
  | .xs | .xsTry => all p (fun _ => (p.nx, 1)) (p.nx, 1)
  | .us | .usTry => running p fun m => (d.nu m, 1)
  | .fs => all p (fun _ => (p.ndx, 1)) (p.ndx, 1)
  | .gAdj => all p (fun m => (d.ng m, 1)) (d.ngT p.tmodel, 1)
  | .dx => running p fun _ => (p.ndx, 1)
  -- value function, action-value function, policy
  | .Vxx => all p (fun _ => (p.ndx, p.ndx)) (p.ndx, p.ndx)
  | .Vx => all p (fun _ => (p.ndx, 1)) (p.ndx, 1)
  | .Qxx => running p fun _ => (p.ndx, p.ndx)
  | .Qxu => running p fun m => (p.ndx, d.nu m)
  | .Quu => running p fun m => (d.nu m, d.nu m)
  | .Qx => running p fun _ => (p.ndx, 1)
  | .Qu => running p fun m => (d.nu m, 1)
  | .K => running p fun m => (d.nu m, p.ndx)
  | .k => running p fun m => (d.nu m, 1)
  | .FuTVxx => running p fun m => (d.nu m, p.ndx)
  | .Quuk => running p fun m => (d.nu m, 1)
  -- box constraints
  | .QuuInv => running p fun m => (d.nu m, d.nu m)
  | .duLb | .duUb => running p fun m => (d.nu m, 1)
  -- equality constraints
  | .KQuuTmp => running p fun m => (p.ndx, d.nu m)
  | .YZ => running p fun m => (d.nu m, d.nu m)
  | .Hy | .Qzz => running p fun m => (d.nh m, d.nh m)
  | .Qz | .ks => running p fun m => (d.nh m, 1)
  | .Qxz => running p fun m => (p.ndx, d.nh m)
  | .Quz | .QuuinvHuT => running p fun m => (d.nu m, d.nh m)
  | .kz => running p fun m => (d.nu m, 1)
  | .Kz => running p fun m => (d.nu m, p.ndx)
  | .Ks => running p fun m => (d.nh m, p.ndx)
  -- KKT
  | .dxs | .lambdas => all p (fun _ => (p.ndx, 1)) (p.ndx, 1)
  | .dus => running p fun m => (d.nu m, 1)
  | .primal => [((p.T + 1) * p.ndx + (p.models.map d.nu).sum, 1)]

/-- The arrays that a solver has. -/
def arrays : Kind → List Arr
  | .ddp | .fddp => [.xs, .us, .fs, .gAdj, .Vxx, .Vx, .Qxx, .Qxu, .Quu, .Qx, .Qu, .K, .k, .xsTry, .usTry, .dx,
      .FuTVxx, .Quuk]
  | .boxDdp | .boxFddp => [.xs, .us, .fs, .gAdj, .Vxx, .Vx, .Qxx, .Qxu, .Quu, .Qx, .Qu, .K, .k, .xsTry, .usTry, .dx,
      .FuTVxx, .Quuk, .QuuInv, .duLb, .duUb]
  | .intro => [.xs, .us, .fs, .gAdj, .Vxx, .Vx, .Qxx, .Qxu, .Quu, .Qx, .Qu, .K, .k, .xsTry, .usTry, .dx,
      .FuTVxx, .Quuk, .KQuuTmp, .YZ, .Hy, .Qz, .Qzz, .Qxz, .Quz, .kz, .Kz, .ks, .Ks, .QuuinvHuT]
  | .kkt => [.xs, .us, .fs, .gAdj, .xsTry, .usTry, .dxs, .dus, .lambdas, .primal]

/-- The sizes of the elements of an array. -/
def sizes (l : List Shape) : List (Nat × Nat) := l.map fun s => (s.rows, s.cols)

/-- Every array of the solver has the dimensions of the problem. -/
def Fits (kind : Kind) (p : Problem K M) (mem : Mem) : Prop :=
  ∀ a ∈ arrays kind, sizes (mem a) = need d p a

/-- The client neither calls `set_runningModels` nor asks the problem whether it was updated, and changes no
dimension of a model. -/
def Act.plain : Act K M → Prop
  | .prob op => op.notSetRunning ∧ op.isQuery = false
  | .solve _ => True
  | .reconfigure _ => False

/-- Calls of `solve` with an accepted guess. -/
def Act.solves : Act K M → Bool
  | .solve valid => valid
  | _ => false

end
end Verif.SolverMem
