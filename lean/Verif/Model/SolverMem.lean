import Verif.Model.Shooting
import Verif.Model.Solve

/-!
# Model of the memory of the solvers

Files modelled: `/repo/src/core/solver-base.cpp` L46-89 (allocation and `resizeData`), `solvers/ddp.cpp` L46-48,
L172-196, L414-469, `solvers/fddp.cpp` L28-30, `solvers/box-ddp.cpp` L13-65, `solvers/box-fddp.cpp` L13-65,
`solvers/intro.cpp` L22-65, L75-77, L198-224, `solvers/kkt.cpp` L36-41, L270-322, `solvers/box-qp.cpp` L70-95.

Only dimensions are modelled: an array is the list, over the nodes, of the sizes of its matrices (vectors have
one column), with a flag that tells whether all coefficients were written. Objects of Eigen that adapt their size
when they are used (factorisations) and scalars (`Hu_rank_`) are left out. The iterations assign to each array
matrices of the size it should have, so they change no size of a solver whose arrays fit.
-/

namespace Verif.SolverMem
open Verif Verif.Shooting

/-- Dimensions of action models that solvers read, besides those of `Shooting.Env`. -/
structure Dims (M : Type) where
  nu : M → Nat
  nh : M → Nat
  ng : M → Nat
  ngT : M → Nat
  limits : M → Bool

/-- Size of a matrix; `init`: all its coefficients were written. -/
structure Shape where
  rows : Nat
  cols : Nat
  init : Bool
deriving DecidableEq, Repr

/-- A matrix of zeros. -/
def zeros (r c : Nat) : Shape := ⟨r, c, true⟩

/-- `conservativeResize(r, c)`: old coefficients are kept, new ones are not written. -/
def Shape.conservative (r c : Nat) (s : Shape) : Shape := ⟨r, c, s.init && decide (r ≤ s.rows ∧ c ≤ s.cols)⟩

/-- The arrays of the solvers. -/
inductive Arr where
  -- SolverAbstract
  | xs | us | fs | gAdj
  -- SolverDDP
  | Vxx | Vx | Qxx | Qxu | Quu | Qx | Qu | K | k | xsTry | usTry | dx | FuTVxx | Quuk
  -- SolverBoxDDP, SolverBoxFDDP
  | QuuInv | duLb | duUb
  -- SolverIntro
  | KQuuTmp | YZ | Hy | Qz | Qzz | Qxz | Quz | kz | Kz | ks | Ks | QuuinvHuT
  -- SolverKKT
  | dxs | dus | lambdas | primal
deriving DecidableEq, Repr

/-- The solvers. -/
inductive Kind where
  | ddp | fddp | boxDdp | boxFddp | intro | kkt
deriving DecidableEq, Repr

abbrev Mem := Arr → List Shape

section
variable {K M : Type} (e : Env M) (d : Dims M)

/-- Fill an array of nodes, `A_[t] = Zero(...)`. -/
def perNode (p : Problem K M) (f : M → Shape) : List Shape := p.models.map f

/-- Fill an array of nodes with a last element for the terminal node. -/
def withLast (p : Problem K M) (f : M → Shape) (l : Shape) : List Shape := p.models.map f ++ [l]

/-- Constructor of `SolverAbstract`, solver-base.cpp L46-67. -/
def allocBase (p : Problem K M) (mem : Mem) : Mem
  | .xs => withLast p (fun m => zeros (e.nx m) 1) (zeros (e.nx p.tmodel) 1)
  | .us => perNode p fun m => zeros (d.nu m) 1
  | .fs => withLast p (fun _ => zeros p.ndx 1) (zeros p.ndx 1)
  | .gAdj => withLast p (fun m => zeros (d.ng m) 1) (zeros (d.ngT p.tmodel) 1)
  | a => mem a

/-- `SolverDDP::allocateData`, ddp.cpp L414-469. `Quuk_` is not initialised (L460). `xs_try_[0]` is `x0` (L451). -/
def allocDdp (p : Problem K M) (mem : Mem) : Mem
  | .Vxx => withLast p (fun _ => zeros p.ndx p.ndx) (zeros p.ndx p.ndx)
  | .Vx => withLast p (fun _ => zeros p.ndx 1) (zeros p.ndx 1)
  | .Qxx => perNode p fun _ => zeros p.ndx p.ndx
  | .Qxu => perNode p fun m => zeros p.ndx (d.nu m)
  | .Quu => perNode p fun m => zeros (d.nu m) (d.nu m)
  | .Qx => perNode p fun _ => zeros p.ndx 1
  | .Qu => perNode p fun m => zeros (d.nu m) 1
  | .K => perNode p fun m => zeros (d.nu m) p.ndx
  | .k => perNode p fun m => zeros (d.nu m) 1
  | .xsTry => (withLast p (fun m => zeros (e.nx m) 1) (zeros (e.nx p.tmodel) 1)).set 0 (zeros p.x0.length 1)
  | .usTry => perNode p fun m => zeros (d.nu m) 1
  | .dx => perNode p fun _ => zeros p.ndx 1
  | .FuTVxx => perNode p fun m => zeros (d.nu m) p.ndx
  | .Quuk => perNode p fun m => ⟨d.nu m, 1, false⟩
  | a => mem a

/-- `SolverBoxDDP::allocateData` and `SolverBoxFDDP::allocateData` after the base's, box-ddp.cpp L49-65. -/
def allocBox (p : Problem K M) (mem : Mem) : Mem
  | .QuuInv => perNode p fun m => zeros (d.nu m) (d.nu m)
  | .duLb => perNode p fun m => zeros (d.nu m) 1
  | .duUb => perNode p fun m => zeros (d.nu m) 1
  | a => mem a

/-- Constructor of `SolverIntro`, intro.cpp L22-65. -/
def allocIntro (p : Problem K M) (mem : Mem) : Mem
  | .KQuuTmp => perNode p fun m => zeros p.ndx (d.nu m)
  | .YZ => perNode p fun m => zeros (d.nu m) (d.nu m)
  | .Hy => perNode p fun m => zeros (d.nh m) (d.nh m)
  | .Qz => perNode p fun m => zeros (d.nh m) 1
  | .Qzz => perNode p fun m => zeros (d.nh m) (d.nh m)
  | .Qxz => perNode p fun m => zeros p.ndx (d.nh m)
  | .Quz => perNode p fun m => zeros (d.nu m) (d.nh m)
  | .kz => perNode p fun m => zeros (d.nu m) 1
  | .Kz => perNode p fun m => zeros (d.nu m) p.ndx
  | .ks => perNode p fun m => zeros (d.nh m) 1
  | .Ks => perNode p fun m => zeros (d.nh m) p.ndx
  | .QuuinvHuT => perNode p fun m => zeros (d.nu m) (d.nh m)
  | a => mem a

/-- `SolverKKT::allocateData`, kkt.cpp L270-322; `primal_` (L314) has the entries of all states and controls. -/
def allocKkt (p : Problem K M) (mem : Mem) : Mem
  | .xsTry => (withLast p (fun _ => zeros p.nx 1) (zeros (e.nx p.tmodel) 1)).set 0 (zeros p.x0.length 1)
  | .usTry => perNode p fun m => zeros (d.nu m) 1
  | .dxs => withLast p (fun _ => zeros p.ndx 1) (zeros p.ndx 1)
  | .dus => perNode p fun m => zeros (d.nu m) 1
  | .lambdas => withLast p (fun _ => zeros p.ndx 1) (zeros p.ndx 1)
  | .primal => [zeros ((p.T + 1) * p.ndx + (p.models.map d.nu).sum) 1]
  | a => mem a

/-- The constructors: base classes first. -/
def construct (kind : Kind) (p : Problem K M) : Mem :=
  let base := allocBase e d p (fun _ => [])
  match kind with
  | .ddp | .fddp => allocDdp e d p base
  | .boxDdp | .boxFddp => allocBox d p (allocDdp e d p base)
  | .intro => allocIntro d p (allocDdp e d p base)
  | .kkt => allocKkt e d p base

/-- `for t < T: A_[t].conservativeResize(...)`. An array with fewer elements than nodes is read out of range:
`none`. -/
def resizeArr (f : M → Nat × Nat) : List M → List Shape → Option (List Shape)
  | [], l => some l
  | _ :: _, [] => none
  | m :: ms, s :: l => (resizeArr f ms l).map (s.conservative (f m).1 (f m).2 :: ·)

/-- `A_.back().conservativeResize(r)`. -/
def resizeBack (r c : Nat) (l : List Shape) : Option (List Shape) :=
  if l = [] then none else l.getLast?.map fun s => l.dropLast ++ [s.conservative r c]

/-- Apply a resizing function to one array. -/
def on (a : Arr) (f : List Shape → Option (List Shape)) (mem : Mem) : Option Mem :=
  (f (mem a)).map fun l b => if b = a then l else mem b

/-- Resize the arrays of a table, at all nodes. The code runs over the nodes and resizes the arrays one after the
other at each of them, which gives the same sizes. -/
def resizeTable (tbl : List (Arr × (M → Nat × Nat))) (ms : List M) (mem : Mem) : Option Mem :=
  tbl.foldlM (fun mem r => on r.1 (resizeArr r.2 ms) mem) mem

/-- `SolverAbstract::resizeData`, solver-base.cpp L82-83. -/
def baseTable : List (Arr × (M → Nat × Nat)) :=
  [(.us, fun m => (d.nu m, 1)), (.gAdj, fun m => (d.ng m, 1))]

/-- `SolverAbstract::resizeData`, solver-base.cpp L72-89. -/
def resizeBase (p : Problem K M) (mem : Mem) : Option Mem :=
  (resizeTable (baseTable d) p.models mem).bind (on .gAdj (resizeBack (d.ngT p.tmodel) 1))

/-- `SolverDDP::resizeData`, ddp.cpp L183-190. -/
def ddpTable (ndx : Nat) : List (Arr × (M → Nat × Nat)) :=
  [(.Qxu, fun m => (ndx, d.nu m)), (.Quu, fun m => (d.nu m, d.nu m)), (.Qu, fun m => (d.nu m, 1)),
   (.K, fun m => (d.nu m, ndx)), (.k, fun m => (d.nu m, 1)), (.usTry, fun m => (d.nu m, 1)),
   (.FuTVxx, fun m => (d.nu m, ndx)), (.Quuk, fun m => (d.nu m, 1))]

/-- `FuTVxx_p_[t].setZero()` if the node has controls, ddp.cpp L191-193. -/
def clear (l : List Shape) : Option (List Shape) :=
  some (l.map fun s => if s.rows ≠ 0 then { s with init := true } else s)

/-- `SolverDDP::resizeData`, ddp.cpp L172-196. -/
def resizeDdp (p : Problem K M) (mem : Mem) : Option Mem :=
  ((resizeBase d p mem).bind (resizeTable (ddpTable d p.ndx) p.models)).bind (on .FuTVxx clear)

/-- `SolverBoxDDP::resizeData`, box-ddp.cpp L42-44, and `SolverBoxFDDP::resizeData`, box-fddp.cpp L42-44. -/
def boxTable : List (Arr × (M → Nat × Nat)) :=
  [(.QuuInv, fun m => (d.nu m, d.nu m)), (.duLb, fun m => (d.nu m, 1)), (.duUb, fun m => (d.nu m, 1))]

/-- `SolverIntro::resizeData`, intro.cpp L210-221. -/
def introTable (ndx : Nat) : List (Arr × (M → Nat × Nat)) :=
  [(.KQuuTmp, fun m => (ndx, d.nu m)), (.YZ, fun m => (d.nu m, d.nu m)), (.Hy, fun m => (d.nh m, d.nh m)),
   (.Qz, fun m => (d.nh m, 1)), (.Qzz, fun m => (d.nh m, d.nh m)), (.Qxz, fun m => (ndx, d.nh m)),
   (.Quz, fun m => (d.nu m, d.nh m)), (.kz, fun m => (d.nu m, 1)), (.Kz, fun m => (d.nu m, ndx)),
   (.ks, fun m => (d.nh m, 1)), (.Ks, fun m => (d.nh m, ndx)), (.QuuinvHuT, fun m => (d.nu m, d.nh m))]

/-- `resizeData()` is virtual: that of the solver's class. `SolverFDDP` has none of its own, the quadratic-program
solver `qp_` of the box solvers is not resized. -/
def resize (kind : Kind) (p : Problem K M) (mem : Mem) : Option Mem :=
  match kind with
  | .ddp | .fddp => resizeDdp d p mem
  | .boxDdp | .boxFddp => (resizeDdp d p mem).bind (resizeTable (boxTable d) p.models)
  | .intro => (resizeDdp d p mem).bind (resizeTable (introTable d p.ndx) p.models)
  | .kkt => resizeBase d p mem

/-- `if (problem_->is_updated()) resizeData();`, ddp.cpp L46-48, fddp.cpp L28-30, intro.cpp L75-77.
`SolverKKT::solve` (kkt.cpp L36-41) does not ask. -/
def refresh (kind : Kind) (p : Problem K M) (mem : Mem) : Option (Problem K M × Mem) :=
  if kind = .kkt then some (p, mem)
  else if p.updated then (resize d kind p mem).map fun mem => ({ p with updated := false }, mem)
  else some (p, mem)

/-- `xs_try_[0] = problem_->get_x0()` (ddp.cpp L49-50; not in kkt.cpp) and `setCandidate` (solver-base.cpp L212-282)
with a guess that it accepts: states and controls of the dimensions of the nodes. -/
def candidate (kind : Kind) (p : Problem K M) (mem : Mem) : Mem
  | .xs => withLast p (fun m => zeros (e.nx m) 1) (zeros (e.nx p.tmodel) 1)
  | .us => perNode p fun m => zeros (d.nu m) 1
  | .xsTry => if kind = .kkt then mem .xsTry else (mem .xsTry).set 0 (zeros p.x0.length 1)
  | a => mem a

/-- What a client does: calls of the problem's methods; `solve` of this solver, with a guess that `setCandidate`
accepts or rejects by an exception; changes of the dimensions of models that the problem has (`addConstraint`,
`changeConstraintStatus` and the like, constraint-manager.hxx L38-127), of which the problem is not told. -/
inductive Act (K M : Type) where
  | prob (op : Op K M)
  | solve (valid : Bool)
  | reconfigure (d : Dims M)

/-- Beginning of the iterations of a `solve`: the dimensions of the models, the problem and the memory. -/
structure Start (K M : Type) where
  dims : Dims M
  prob : Problem K M
  mem : Mem

/-- A client program; the result lists the beginnings of the iterations of every `solve`. `none`: undefined
behaviour. -/
def run (kind : Kind) (hw : Nat) (en : Bool) :
    List (Act K M) → Dims M → Problem K M → Mem → Option (List (Start K M))
  | [], _, _, _ => some []
  | .prob op :: as, d, p, mem =>
    match op.run e hw en p with
    | .ok _ p' => run kind hw en as d p' mem
    | .throw p' => run kind hw en as d p' mem
    | .ub => none
  | .solve valid :: as, d, p, mem =>
    match refresh d kind p mem with
    | none => none
    | some (p', mem') =>
      if valid then
        (run kind hw en as d p' (candidate e d kind p' mem')).map (⟨d, p', candidate e d kind p' mem'⟩ :: ·)
      else run kind hw en as d p' mem'
  | .reconfigure d' :: as, _, p, mem => run kind hw en as d' p mem

/-- `SolverBoxDDP::computeGains(t)` (box-ddp.cpp L67-84) and `SolverBoxFDDP::computeGains(t)` (box-fddp.cpp L66-81):
the quadratic program of a node with controls and limits, at a feasible candidate, is given to `qp_`, which throws
if the dimension is not its own (box-qp.cpp L70-95). -/
def gainsThrow (qp : Nat) (feas : Bool) (m : M) : Bool :=
  decide (d.nu m > 0) && d.limits m && feas && decide (d.nu m ≠ qp)

end
end Verif.SolverMem
