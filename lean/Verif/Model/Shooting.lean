import Verif.Cpp

/-!
# Model of `ShootingProblemTpl` (bookkeeping part)

File modelled: `/repo/include/crocoddyl/core/optctrl/shooting.hxx`.
Action models and action datas are opaque shared pointers; the virtual calls made on them
(`get_state()->get_nx()`, `get_ndx()`, `checkData`) are the parameter `Env`.
-/

namespace Verif.Shooting
open Verif

/-- A data pointer: its address and the model whose `createData()` produced it.
(`std::shared_ptr<ActionDataAbstract>`; the provenance is a ghost field used by
specifications only.) -/
structure Data (M : Type) where
  addr : Nat
  maker : M
deriving Repr, DecidableEq

/-- Virtual functions of action models used by the shooting problem
(`action-base.hpp`: `get_state()->get_nx()/get_ndx()`, `checkData`). -/
structure Env (M : Type) where
  nx : M → Nat
  ndx : M → Nat
  checkData : M → Data M → Bool

/-- Object state of `ShootingProblemTpl` (shooting.hpp, protected members).
`fresh` is the memory allocator: the next unused address. Simplification: `cost_` is not
stored here (see `Model/ShootingEval.lean`). -/
structure Problem (K M : Type) where
  T : Nat
  nx : Nat
  ndx : Nat
  x0 : List K
  models : List M
  datas : List (Data M)
  tmodel : M
  tdata : Data M
  nthreads : Nat
  updated : Bool
  fresh : Nat
deriving Repr, DecidableEq

variable {K M : Type}

/-- `std::make_shared<Data>` inside `model->createData()`: a fresh address. -/
def createData (m : M) : Cpp (Problem K M) (Data M) := fun s =>
  .ok ⟨s.fresh, m⟩ { s with fresh := s.fresh + 1 }

/-- `allocateData()`, shooting.hxx L415-423, on a list of models starting at address `a`. -/
def allocDatas (a : Nat) : List M → List (Data M)
  | [] => []
  | m :: ms => ⟨a, m⟩ :: allocDatas (a + 1) ms

/-- Result of a constructor call. -/
inductive Built (α : Type) where
  | ok : α → Built α
  | throw : Built α
  | ub : Built α
deriving Repr, DecidableEq

/-- Constructor from models, shooting.hxx L14-63. Reading `running_models[0]` of an empty
vector (L24-25) is undefined behaviour. `fresh0` is the allocator state. -/
def ctor (e : Env M) (fresh0 : Nat) (x0 : List K) (ms : List M) (tm : M) :
    Built (Problem K M) :=
  match ms with
  | [] => .ub
  | m0 :: rest =>
    let nx := e.nx m0
    let ndx := e.ndx m0
    if x0.length ≠ nx then .throw
    else if rest.any (fun m => e.nx m != nx || e.ndx m != ndx) then .throw
    else if e.nx tm ≠ nx then .throw
    else if e.ndx tm ≠ ndx then .throw
    else .ok
      { T := ms.length, nx := nx, ndx := ndx, x0 := x0, models := ms,
        datas := allocDatas fresh0 ms, tmodel := tm,
        tdata := ⟨fresh0 + ms.length, tm⟩, nthreads := 1, updated := false,
        fresh := fresh0 + ms.length + 1 }

/-- Constructor from models and datas, shooting.hxx L65-124. The terminal model's `nx`, `ndx`
are not checked; `is_updated_` is not initialised by the code, so its value is the
parameter `garbage`. -/
def ctorDatas (e : Env M) (fresh0 : Nat) (garbage : Bool) (x0 : List K) (ms : List M) (tm : M)
    (ds : List (Data M)) (td : Data M) : Built (Problem K M) :=
  match ms with
  | [] => .ub
  | m0 :: _ =>
    let nx := e.nx m0
    let ndx := e.ndx m0
    if x0.length ≠ nx then .throw
    else if ds.length ≠ ms.length then .throw
    else if (ms.zip ds).any
        (fun md => e.nx md.1 != nx || e.ndx md.1 != ndx || !e.checkData md.1 md.2) then .throw
    else if !e.checkData tm td then .throw
    else .ok
      { T := ms.length, nx := nx, ndx := ndx, x0 := x0, models := ms, datas := ds,
        tmodel := tm, tdata := td, nthreads := 1, updated := garbage, fresh := fresh0 }

/-- Loop body of `circularAppend`, shooting.hxx L306-309: `v[i] = v[i+1]` for both vectors. -/
def shiftNode (i : Nat) : Cpp (Problem K M) Unit := do
  let s ← Cpp.get
  let m ← Cpp.ofOption s.models[i + 1]?
  let d ← Cpp.ofOption s.datas[i + 1]?
  if i < s.models.length ∧ i < s.datas.length then
    Cpp.modify fun s => { s with models := s.models.set i m, datas := s.datas.set i d }
  else Cpp.ub

/-- `running_models_.back() = model; running_datas_.back() = data;` L310-311.
`back()` on an empty vector is undefined behaviour. -/
def setBack (m : M) (d : Data M) : Cpp (Problem K M) Unit := do
  let s ← Cpp.get
  if s.models = [] ∨ s.datas = [] then Cpp.ub
  else Cpp.modify fun s =>
    { s with models := s.models.set (s.models.length - 1) m,
             datas := s.datas.set (s.datas.length - 1) d }

/-- `circularAppend(model, data)`, shooting.hxx L289-312. For `T_ = 0` the bound `T_ - 1`
wraps around and the first iteration reads out of bounds: undefined behaviour. -/
def circularAppendData (e : Env M) (m : M) (d : Data M) : Cpp (Problem K M) Unit := do
  let s ← Cpp.get
  Cpp.throwIf (!e.checkData m d)
  Cpp.throwIf (e.nx m != s.nx)
  Cpp.throwIf (e.ndx m != s.ndx)
  Cpp.modify fun s => { s with updated := true }
  if s.T = 0 then Cpp.ub else
  Cpp.forLoop 0 (s.T - 1) shiftNode
  setBack m d

/-- `circularAppend(model)`, shooting.hxx L314-332. -/
def circularAppend (e : Env M) (m : M) : Cpp (Problem K M) Unit := do
  let s ← Cpp.get
  Cpp.throwIf (e.nx m != s.nx)
  Cpp.throwIf (e.ndx m != s.ndx)
  Cpp.modify fun s => { s with updated := true }
  if s.T = 0 then Cpp.ub else
  Cpp.forLoop 0 (s.T - 1) shiftNode
  let d ← createData m
  setBack m d

/-- `running_models_[i] = model; running_datas_[i] = data;` (L361-362, L388-389). -/
def setNode (i : Nat) (m : M) (d : Data M) : Cpp (Problem K M) Unit := do
  let s ← Cpp.get
  if i < s.models.length ∧ i < s.datas.length then
    Cpp.modify fun s => { s with models := s.models.set i m, datas := s.datas.set i d }
  else Cpp.ub

/-- `updateNode(i, model, data)`, shooting.hxx L334-364. -/
def updateNode (e : Env M) (i : Nat) (m : M) (d : Data M) : Cpp (Problem K M) Unit := do
  let s ← Cpp.get
  Cpp.throwIf (decide (i ≥ s.T + 1))
  Cpp.throwIf (!e.checkData m d)
  Cpp.throwIf (e.nx m != s.nx)
  Cpp.throwIf (e.ndx m != s.ndx)
  Cpp.modify fun s => { s with updated := true }
  if i = s.T then
    Cpp.modify fun s => { s with tmodel := m, tdata := d }
  else setNode i m d

/-- `updateModel(i, model)`, shooting.hxx L366-391. -/
def updateModel (e : Env M) (i : Nat) (m : M) : Cpp (Problem K M) Unit := do
  let s ← Cpp.get
  Cpp.throwIf (decide (i ≥ s.T + 1))
  Cpp.throwIf (e.nx m != s.nx)
  Cpp.throwIf (e.ndx m != s.ndx)
  Cpp.modify fun s => { s with updated := true }
  let d ← createData m
  if i = s.T then
    Cpp.modify fun s => { s with tmodel := m, tdata := d }
  else setNode i m d

/-- `set_x0`, shooting.hxx L449-457. -/
def setX0 (x : List K) : Cpp (Problem K M) Unit := do
  let s ← Cpp.get
  Cpp.throwIf (x.length != s.x0.length)
  Cpp.modify fun s => { s with x0 := x }

/-- Loop body of the validation loop of `set_runningModels`, shooting.hxx L462-474:
`models[i]` is read for every `i < T_` of the *old* horizon. -/
def checkNewModel (e : Env M) (ms : List M) (i : Nat) : Cpp (Problem K M) Unit := do
  let s ← Cpp.get
  let m ← Cpp.ofOption ms[i]?
  Cpp.throwIf (e.nx m != s.nx)
  Cpp.throwIf (e.ndx m != s.ndx)

/-- Loop body of the replacement loop, shooting.hxx L479-483: it reads
`running_models_[i]` – the vector cleared just before – instead of `models[i]`. -/
def pushOwnModel (i : Nat) : Cpp (Problem K M) Unit := do
  let s ← Cpp.get
  let m ← Cpp.ofOption s.models[i]?
  Cpp.modify fun s => { s with models := s.models ++ [m] }
  let d ← createData m
  Cpp.modify fun s => { s with datas := s.datas ++ [d] }

/-- `set_runningModels`, shooting.hxx L459-484. -/
def setRunningModels (e : Env M) (ms : List M) : Cpp (Problem K M) Unit := do
  let s ← Cpp.get
  Cpp.forLoop 0 s.T (checkNewModel e ms)
  Cpp.modify fun s => { s with updated := true, T := ms.length, models := [], datas := [] }
  Cpp.forLoop 0 ms.length pushOwnModel

/-- `set_terminalModel`, shooting.hxx L486-500. -/
def setTerminalModel (e : Env M) (m : M) : Cpp (Problem K M) Unit := do
  let s ← Cpp.get
  Cpp.throwIf (e.nx m != s.nx)
  Cpp.throwIf (e.ndx m != s.ndx)
  Cpp.modify fun s => { s with updated := true }
  let d ← createData m
  Cpp.modify fun s => { s with tmodel := m, tdata := d }

/-- `set_nthreads`, shooting.hxx L502-524, for a build with multithreading and a hardware
concurrency `hw` (`CROCODDYL_WITH_NTHREADS`); `enabled` is `enableMultithreading()`. -/
def setNthreads (hw : Nat) (enabled : Bool) (n : Int) : Cpp (Problem K M) Unit :=
  Cpp.modify fun s =>
    { s with nthreads := if enabled then (if n < 1 then hw else n.toNat) else 1 }

/-- `is_updated()`, shooting.hxx L547-552: read and clear. -/
def isUpdated : Cpp (Problem K M) Bool := do
  let s ← Cpp.get
  Cpp.modify fun s => { s with updated := false }
  pure s.updated

/-- Public mutators of the shooting problem. -/
inductive Op (K M : Type) where
  | circularAppendData (m : M) (d : Data M)
  | circularAppend (m : M)
  | updateNode (i : Nat) (m : M) (d : Data M)
  | updateModel (i : Nat) (m : M)
  | setX0 (x : List K)
  | setTerminalModel (m : M)
  | setNthreads (n : Int)
  | isUpdated
  | setRunningModels (ms : List M)

/-- Run one public mutator (return value dropped). `hw`, `enabled`: see `setNthreads`. -/
def Op.run (e : Env M) (hw : Nat) (enabled : Bool) : Op K M → Cpp (Problem K M) Unit
  | .circularAppendData m d => Shooting.circularAppendData e m d
  | .circularAppend m => Shooting.circularAppend e m
  | .updateNode i m d => Shooting.updateNode e i m d
  | .updateModel i m => Shooting.updateModel e i m
  | .setX0 x => Shooting.setX0 x
  | .setTerminalModel m => Shooting.setTerminalModel e m
  | .setNthreads n => Shooting.setNthreads hw enabled n
  | .isUpdated => do let _ ← Shooting.isUpdated; pure ()
  | .setRunningModels ms => Shooting.setRunningModels e ms

/-- A client program: a sequence of calls; exceptions are caught by the client, which then
continues with the object as it is; `none` once undefined behaviour occurred. -/
def runOps (e : Env M) (hw : Nat) (enabled : Bool) :
    List (Op K M) → Problem K M → Option (Problem K M)
  | [], s => some s
  | op :: ops, s =>
    match op.run e hw enabled s with
    | .ok _ s' => runOps e hw enabled ops s'
    | .throw s' => runOps e hw enabled ops s'
    | .ub => none

end Verif.Shooting
