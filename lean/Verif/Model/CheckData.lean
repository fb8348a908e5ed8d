import Mathlib.Data.List.Basic

/-!
# Model of `checkData`

A data object is known by its class, its sizes, and the data it owns. `dynamic_pointer_cast` succeeds exactly for
objects of the class (no class of data in the library derives from another one that is tested here; classes that
users derive in C++ are not modelled). Calling a member of a null object is undefined.
-/

namespace Verif.CheckData

/-- Number of states and controls. -/
structure Size where
  nx : Nat
  nu : Nat
deriving DecidableEq

/-- Differential models with a data class of their own. -/
inductive DCls where
  | lqr | freeFwd | freeInv | contactFwd | contactInv
deriving DecidableEq

/-- Action models with a data class of their own. -/
inductive ACls where
  | lqr | unicycle | impulse
deriving DecidableEq

/-- Differential models: the classes above, numerical differentiation, and classes derived in Python. -/
inductive DModel where
  | own (c : DCls) (s : Size)
  | numdiff (m : DModel)
  | python (s : Size)
deriving DecidableEq

inductive DData where
  | null
  | own (c : DCls) (s : Size)
  | numdiff (d : DData)
  | base (s : Size)
deriving DecidableEq

/-- The Runge-Kutta schemes. -/
inductive RK where
  | two | three | four
deriving DecidableEq

/-- The number of stages (rk.hxx L409-430). -/
def RK.ni : RK → Nat
  | .two => 2
  | .three => 3
  | .four => 4

/-- Action models. -/
inductive AModel where
  | own (c : ACls) (s : Size)
  | euler (m : DModel)
  | rk (k : RK) (m : DModel)
  | numdiff (m : AModel)
  | codegen (m : AModel)
  | python (s : Size)
deriving DecidableEq

inductive AData where
  | null
  | own (c : ACls) (s : Size)
  | euler (d : DData)
  | rk (ds : List DData)
  | numdiff (d : AData)
  | codegen
  | base (s : Size)

/-- `createData` of the differential models (diff-lqr.hxx, free-fwddyn.hxx, ...: the data class of the model;
numdiff/diff-action.hxx L313-316 with the data of the wrapped model; diff-action-base.hxx for Python, whose override
is not modelled). -/
def DModel.createData : DModel → DData
  | .own c s => .own c s
  | .numdiff m => .numdiff m.createData
  | .python s => .base s

/-- `createData` of the action models (euler.hpp L215-225, rk.hpp L237-290: one data per stage,
numdiff/action.hxx L321-324, codegen/action.hxx L520-526). -/
def AModel.createData : AModel → AData
  | .own c s => .own c s
  | .euler m => .euler m.createData
  | .rk k m => .rk (List.replicate k.ni m.createData)
  | .numdiff m => .numdiff m.createData
  | .codegen _ => .codegen
  | .python s => .base s

/-- Outcome of `checkData`. -/
inductive Chk where
  | yes | no | ub
deriving DecidableEq

def Chk.ofBool : Bool → Chk
  | true => .yes
  | false => .no

/-- `checkData` of the differential models: the class is tested (diff-lqr.hxx L244-252, free-fwddyn.hxx L211-219,
free-invdyn.hxx L227-235, contact-fwddyn.hxx L344-352, contact-invdyn.hxx L386-394); the base class answers `false`
(diff-action-base.hxx L99-102) and is not overridden by numdiff/diff-action.hxx nor by the bindings. -/
def DModel.checkData : DModel → DData → Chk
  | .own c _, .own c' _ => .ofBool (decide (c = c'))
  | .own _ _, _ => .no
  | .numdiff _, _ => .no
  | .python _, _ => .no

/-- The loop over the stages (rk.hxx L361-366): `ds[i]` beyond the end is undefined. -/
def checkStages (m : DModel) : Nat → List DData → Chk
  | 0, _ => .yes
  | _ + 1, [] => .ub
  | n + 1, d :: ds =>
    match m.checkData d with
    | .yes => checkStages m n ds
    | r => r

/-- `checkData` of the action models: own classes (lqr.hxx L234-242, unicycle.hxx L122-130, impulse-fwddyn.hxx
L174-182); Euler (euler.hxx L177-185) and Runge-Kutta (rk.hxx L357-370) test `data` where `d`, the result of the
cast, is then used; code generation asks the wrapped model (codegen/action.hxx L529-532); the base class answers
`false` (action-base.hxx L120-123). -/
def AModel.checkData : AModel → AData → Chk
  | .own c _, .own c' _ => .ofBool (decide (c = c'))
  | .own _ _, _ => .no
  | .euler _, .null => .no
  | .euler m, .euler d => m.checkData d
  | .euler _, _ => .ub
  | .rk _ _, .null => .no
  | .rk k m, .rk ds => checkStages m k.ni ds
  | .rk _ _, _ => .ub
  | .numdiff _, _ => .no
  | .codegen m, d => m.checkData d
  | .python _, _ => .no

/-- The checks of the constructor of shooting problems that takes models and data (shooting.hxx L94-117): node by
node and then the terminal one, up to the first that is not accepted. `no` is the exception. -/
def checkProblem : List (AModel × AData) → Chk
  | [] => .yes
  | p :: ps =>
    match p.1.checkData p.2 with
    | .yes => checkProblem ps
    | r => r

end Verif.CheckData
