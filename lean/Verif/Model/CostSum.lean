import Verif.Cpp
import Verif.OrdMap
import Mathlib.Data.Finset.Erase
import Mathlib.Data.Finset.Insert
import Mathlib.Data.Finset.Basic
import Mathlib.LinearAlgebra.Matrix.Defs

/-!
# Model of `CostModelSumTpl` and `CostDataSumTpl`

Files modelled: `/repo/include/crocoddyl/core/costs/cost-sum.hxx`, `cost-sum.hpp`.

Cost models are opaque; the virtual calls on them are the parameter `Env`. `std::size_t` counters
are `UInt64` (they wrap around like the C++ ones on the supported platforms). The `std::set`s of
names are `Finset`s; `std::map` is `OrdMap`. Simplification: `CostItem` objects are not shared with
the caller, i.e. a client does not write `item->active` behind the manager's back.
-/

namespace Verif.CostSum
open Verif

/-- The numbers a cost data exposes (cost-base.hpp / cost-sum.hpp: `cost`, `Lx`, `Lu`, `Lxx`,
`Lxu`, `Luu`). -/
structure Derivs (K : Type) (ndx nu : Nat) where
  cost : K
  Lx : Fin ndx → K
  Lu : Fin nu → K
  Lxx : Matrix (Fin ndx) (Fin ndx) K
  Lxu : Matrix (Fin ndx) (Fin nu) K
  Luu : Matrix (Fin nu) (Fin nu) K

/-- Virtual functions of the cost models (`CostModelAbstractTpl`): dimensions, data creation and
evaluation. `D` is the whole content of a cost data object. -/
structure Env (K M D : Type) (nx ndx nu : Nat) where
  nuOf : M → Nat
  nrOf : M → Nat
  create : M → D
  calcXU : M → List K → List K → D → D
  calcX : M → List K → D → D
  diffXU : M → List K → List K → D → D
  diffX : M → List K → D → D
  view : D → Derivs K ndx nu

/-- `CostItemTpl` (cost-sum.hpp L24-62): cost model, weight, status. -/
structure Item (K M : Type) where
  cost : M
  weight : K
  active : Bool

/-- Object state of `CostModelSumTpl` (cost-sum.hpp, private members). -/
structure Sum (N K M : Type) where
  costs : List (N × Item K M)
  nr : UInt64
  nrTotal : UInt64
  active : Finset N
  inactive : Finset N

variable {N K M D : Type} [LinearOrder N] {nx ndx nu : Nat}

/-- Constructor, cost-sum.hxx L11-22. -/
def empty : Sum N K M := ⟨[], 0, 0, ∅, ∅⟩

/-- `addCost(name, cost, weight, active)`, cost-sum.hxx L24-48. -/
def addCost (e : Env K M D nx ndx nu) (name : N) (cost : M) (weight : K) (active : Bool) :
    Cpp (Sum N K M) Unit := do
  Cpp.throwIf (e.nuOf cost != nu)
  let s ← Cpp.get
  let ret := OrdMap.insert name ⟨cost, weight, active⟩ s.costs
  Cpp.set { s with costs := ret.1 }
  if ret.2 = false then pure ()
  else if active then
    Cpp.modify fun s =>
      { s with nr := s.nr + UInt64.ofNat (e.nrOf cost)
               nrTotal := s.nrTotal + UInt64.ofNat (e.nrOf cost)
               active := Insert.insert name s.active }
  else
    Cpp.modify fun s =>
      { s with nrTotal := s.nrTotal + UInt64.ofNat (e.nrOf cost)
               inactive := Insert.insert name s.inactive }

/-- `addCost(item)`, cost-sum.hxx L50-68: the result of the insertion is not looked at. -/
def addCostItem (e : Env K M D nx ndx nu) (name : N) (item : Item K M) :
    Cpp (Sum N K M) Unit := do
  Cpp.throwIf (e.nuOf item.cost != nu)
  let s ← Cpp.get
  Cpp.set { s with costs := (OrdMap.insert name item s.costs).1 }
  if item.active then
    Cpp.modify fun s =>
      { s with nr := s.nr + UInt64.ofNat (e.nrOf item.cost)
               nrTotal := s.nrTotal + UInt64.ofNat (e.nrOf item.cost)
               active := Insert.insert name s.active }
  else
    Cpp.modify fun s =>
      { s with nrTotal := s.nrTotal + UInt64.ofNat (e.nrOf item.cost)
               inactive := Insert.insert name s.inactive }

/-- `removeCost`, cost-sum.hxx L70-83: `nr_` is decreased whatever the status of the item. -/
def removeCost (e : Env K M D nx ndx nu) (name : N) : Cpp (Sum N K M) Unit := do
  let s ← Cpp.get
  match OrdMap.find name s.costs with
  | some it =>
    Cpp.set
      { costs := OrdMap.erase name s.costs
        nr := s.nr - UInt64.ofNat (e.nrOf it.cost)
        nrTotal := s.nrTotal - UInt64.ofNat (e.nrOf it.cost)
        active := s.active.erase name
        inactive := s.inactive.erase name }
  | none => pure ()

/-- `changeCostStatus`, cost-sum.hxx L85-105. -/
def changeCostStatus (e : Env K M D nx ndx nu) (name : N) (active : Bool) :
    Cpp (Sum N K M) Unit := do
  let s ← Cpp.get
  match OrdMap.find name s.costs with
  | some it =>
    if active && !it.active then
      Cpp.set
        { s with nr := s.nr + UInt64.ofNat (e.nrOf it.cost)
                 active := Insert.insert name s.active
                 inactive := s.inactive.erase name
                 costs := OrdMap.adjust name (fun i => { i with active := active }) s.costs }
    else if !active && it.active then
      Cpp.set
        { s with nr := s.nr - UInt64.ofNat (e.nrOf it.cost)
                 active := s.active.erase name
                 inactive := Insert.insert name s.inactive
                 costs := OrdMap.adjust name (fun i => { i with active := active }) s.costs }
    else pure ()
  | none => pure ()

/-- `getCostStatus`, cost-sum.hxx L316-326. -/
def getCostStatus (s : Sum N K M) (name : N) : Bool :=
  match OrdMap.find name s.costs with
  | some it => it.active
  | none => false

/-- Public mutators. -/
inductive Op (N K M : Type) where
  | addCost (name : N) (cost : M) (weight : K) (active : Bool)
  | addCostItem (name : N) (item : Item K M)
  | removeCost (name : N)
  | changeCostStatus (name : N) (active : Bool)

/-- Run one mutator. -/
def Op.run (e : Env K M D nx ndx nu) : Op N K M → Cpp (Sum N K M) Unit
  | .addCost n c w a => CostSum.addCost e n c w a
  | .addCostItem n i => CostSum.addCostItem e n i
  | .removeCost n => CostSum.removeCost e n
  | .changeCostStatus n a => CostSum.changeCostStatus e n a

/-- State after one call, exceptions being caught by the client. (No mutator has undefined
behaviour; in that case the object would be unchanged here.) -/
def Op.next (e : Env K M D nx ndx nu) (op : Op N K M) (s : Sum N K M) : Sum N K M :=
  match op.run e s with
  | .ok _ s' => s'
  | .throw s' => s'
  | .ub => s

/-- State after a sequence of calls. -/
def runOps (e : Env K M D nx ndx nu) (ops : List (Op N K M)) (s : Sum N K M) : Sum N K M :=
  ops.foldl (fun s op => op.next e s) s

/-! ### Data and evaluation -/

/-- One entry of `CostDataSumTpl::costs`: the data object and (ghost) the model that created it. -/
structure DataItem (M D : Type) where
  maker : M
  content : D

/-- `CostDataSumTpl` (cost-sum.hpp L309-388). -/
structure Data (N K M D : Type) (ndx nu : Nat) where
  costs : List (N × DataItem M D)
  acc : Derivs K ndx nu

/-- `createData` (cost-sum.hxx L258-262) and the constructor of `CostDataSumTpl` (cost-sum.hpp
L320-348). -/
def createData [Zero K] (e : Env K M D nx ndx nu) (s : Sum N K M) : Data N K M D ndx nu where
  costs := s.costs.map fun kv => (kv.1, ⟨kv.2.cost, e.create kv.2.cost⟩)
  acc := ⟨0, 0, 0, 0, 0, 0⟩

/-- Loop of `calc`/`calcDiff` (L131-142, L164-174, L205-220, L242-254): iterate models and datas
side by side (the name test is an assertion, compiled out in release builds); `f` is the call made
on the item, `acc` the `+=` updates. -/
def evalLoop (f : M → D → D) (upd : K → D → Derivs K ndx nu → Derivs K ndx nu) :
    List (N × Item K M) → List (N × DataItem M D) → Derivs K ndx nu →
    List (N × DataItem M D) × Derivs K ndx nu
  | (_, it) :: ms, (n, d) :: ds, acc =>
    if it.active then
      let c := f it.cost d.content
      let r := evalLoop f upd ms ds (upd it.weight c acc)
      ((n, { d with content := c }) :: r.1, r.2)
    else
      let r := evalLoop f upd ms ds acc
      ((n, d) :: r.1, r.2)
  | _, ds, acc => (ds, acc)

/-- `calc(data, x, u)`, cost-sum.hxx L107-143. `none` is a throw (data unchanged). -/
def calcXU [Ring K] (e : Env K M D nx ndx nu) (s : Sum N K M) (d : Data N K M D ndx nu)
    (x u : List K) : Option (Data N K M D ndx nu) :=
  if x.length ≠ nx then none
  else if u.length ≠ nu then none
  else if d.costs.length ≠ s.costs.length then none
  else
    let r := evalLoop (fun m c => e.calcXU m x u c)
      (fun w c acc => { acc with cost := acc.cost + w * (e.view c).cost })
      s.costs d.costs { d.acc with cost := 0 }
    some ⟨r.1, r.2⟩

/-- `calc(data, x)`, cost-sum.hxx L145-175. -/
def calcX [Ring K] (e : Env K M D nx ndx nu) (s : Sum N K M) (d : Data N K M D ndx nu)
    (x : List K) : Option (Data N K M D ndx nu) :=
  if x.length ≠ nx then none
  else if d.costs.length ≠ s.costs.length then none
  else
    let r := evalLoop (fun m c => e.calcX m x c)
      (fun w c acc => { acc with cost := acc.cost + w * (e.view c).cost })
      s.costs d.costs { d.acc with cost := 0 }
    some ⟨r.1, r.2⟩

/-- `calcDiff(data, x, u)`, cost-sum.hxx L177-221. -/
def diffXU [Ring K] (e : Env K M D nx ndx nu) (s : Sum N K M) (d : Data N K M D ndx nu)
    (x u : List K) : Option (Data N K M D ndx nu) :=
  if x.length ≠ nx then none
  else if u.length ≠ nu then none
  else if d.costs.length ≠ s.costs.length then none
  else
    let r := evalLoop (fun m c => e.diffXU m x u c)
      (fun w c acc =>
        { acc with
          Lx := acc.Lx + w • (e.view c).Lx
          Lu := acc.Lu + w • (e.view c).Lu
          Lxx := acc.Lxx + w • (e.view c).Lxx
          Lxu := acc.Lxu + w • (e.view c).Lxu
          Luu := acc.Luu + w • (e.view c).Luu })
      s.costs d.costs { d.acc with Lx := 0, Lu := 0, Lxx := 0, Lxu := 0, Luu := 0 }
    some ⟨r.1, r.2⟩

/-- `calcDiff(data, x)`, cost-sum.hxx L223-255. -/
def diffX [Ring K] (e : Env K M D nx ndx nu) (s : Sum N K M) (d : Data N K M D ndx nu)
    (x : List K) : Option (Data N K M D ndx nu) :=
  if x.length ≠ nx then none
  else if d.costs.length ≠ s.costs.length then none
  else
    let r := evalLoop (fun m c => e.diffX m x c)
      (fun w c acc =>
        { acc with
          Lx := acc.Lx + w • (e.view c).Lx
          Lxx := acc.Lxx + w • (e.view c).Lxx })
      s.costs d.costs { d.acc with Lx := 0, Lxx := 0 }
    some ⟨r.1, r.2⟩

end Verif.CostSum
