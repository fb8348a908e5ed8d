import Mathlib.Logic.Function.Basic

/-!
# Model of the memory of action data, and of their copies

Files modelled: `/repo/include/crocoddyl/multibody/actions/free-fwddyn.hpp` L236-294 (the data),
`multibody/actions/free-fwddyn.hxx` L61-80, L134-156 (`calc`, `calcDiff`), `core/costs/cost-sum.hpp` L310-367 (data and
`shareMemory`), `core/costs/cost-sum.hxx` L107-221, `core/integrator/euler.hpp` L200-247 and `euler.hxx` L43-56, L106-126
(integrated action data), `bindings/python/crocoddyl/utils/copyable.hpp` L22-35 (`copy`, `__copy__`, `__deepcopy__`),
`core/optctrl/shooting.hxx` L126-137 (copies of problems).

A data object holds some members by value (`pinocchio`, the collector `multibody`, `xout`, `Fx`, `cost`, `Lx`, …) and some
by `shared_ptr` (`costs`, and `actuation`, `joint` inside the collector). The collector has the address of the
`pinocchio` member; the cost data have the address of the collector, and their maps point to the matrices `Lx`, … of the data
they were made for. The implicit copy constructor copies members by value and pointers as they are.

The numerical functions are parameters. All terms of the cost sum are taken together, constraints are left out (they are
built in the same way), and the branch with an armature is left out. Objects behind a `shared_ptr` live as long as an owner; they are never
freed in the model.
-/

namespace Verif.DataCopy

/-- The numerical functions of a model: actuation and joint data, kinematics kept in the Pinocchio data, acceleration, their
derivatives; residuals and activations of the costs (from the Pinocchio and joint data), the cost and its
derivatives. -/
structure Fns (X U Pin Jt R A F G C : Type) where
  jt : X → U → Jt
  kin : X → U → Pin
  acc : X → U → A
  djt : X → U → Jt → Jt
  dkin : X → U → Pin → Pin
  fx : X → U → Jt → F
  res : Pin → Jt → X → U → R
  val : R → C
  dres : R → Pin → Jt → X → U → R
  grad : R → G
  -- values of new objects
  pin0 : Pin
  jt0 : Jt
  r0 : R
  xout0 : A
  fx0 : F
  l0 : G
  cost0 : C

section
variable {X U Pin Jt R A F G C : Type}

/-- `DifferentialActionDataFreeFwdDynamics`: `pin`, `xout`, `fx`, `cost`, `l` by value; `pinPtr` is the address in the
collector `multibody` (of the data whose `pinocchio` it is); `joint`, `costs` are shared pointers. -/
structure Data (Pin A F G C : Type) where
  pin : Pin
  pinPtr : Nat
  joint : Nat
  costs : Nat
  xout : A
  fx : F
  l : G
  cost : C

/-- `CostDataSum` with the data of its terms: `shared` is the address of the collector (of the data that has it), `map` that of the
data whose `Lx`, … the maps point to; `r` are the residuals and activations. -/
structure CostData (R C : Type) where
  shared : Nat
  map : Nat
  r : R
  cost : C

/-- The memory. `none`: not allocated, or freed. -/
structure World (Pin Jt R A F G C : Type) where
  datas : Nat → Option (Data Pin A F G C)
  joints : Nat → Option Jt
  costs : Nat → Option (CostData R C)
  fresh : Nat

/-- Write an entry. -/
def put {α : Type} (h : Nat → Option α) (a : Nat) (v : α) : Nat → Option α := fun b => if b = a then some v else h b

variable (f : Fns X U Pin Jt R A F G C)

/-- `createData()`, free-fwddyn.hpp L249-272: the collector has the address of this object's `pinocchio`, the cost data that of
its collector, and share the memory of its matrices. (The same number is used for the three objects, which live in
different heaps.) -/
def create (w : World Pin Jt R A F G C) : World Pin Jt R A F G C :=
  let a := w.fresh
  { datas := put w.datas a ⟨f.pin0, a, a, a, f.xout0, f.fx0, f.l0, f.cost0⟩
    joints := put w.joints a f.jt0
    costs := put w.costs a ⟨a, a, f.r0, f.cost0⟩
    fresh := a + 1 }

/-- The copy constructor, called by `copy`, `__copy__` and `__deepcopy__` (copyable.hpp L33-34). -/
def copy (a : Nat) (w : World Pin Jt R A F G C) : Option (World Pin Jt R A F G C) :=
  (w.datas a).map fun d => { w with datas := put w.datas w.fresh d, fresh := w.fresh + 1 }

/-- The destructor: the members by value are gone. -/
def destroy (a : Nat) (w : World Pin Jt R A F G C) : World Pin Jt R A F G C :=
  { w with datas := fun b => if b = a then none else w.datas b }

/-- What a cost term finds through its collector: the collector is a member of the data at `c.shared`, its Pinocchio data is
where it points, its joint data are shared. -/
def collect (w : World Pin Jt R A F G C) (c : CostData R C) : Option (Pin × Jt) := do
  let s ← w.datas c.shared
  let p ← w.datas s.pinPtr
  let j ← w.joints s.joint
  pure (p.pin, j)

/-- `calc(data, x, u)`, free-fwddyn.hxx L61-80, with `CostModelSum::calc`. -/
def calcData (a : Nat) (x : X) (u : U) (w : World Pin Jt R A F G C) : Option (World Pin Jt R A F G C) := do
  let d ← w.datas a
  let w := { w with joints := put w.joints d.joint (f.jt x u) }
  let d := { d with pin := f.kin x u, xout := f.acc x u }
  let w := { w with datas := put w.datas a d }
  let c ← w.costs d.costs
  let (p, j) ← collect w c
  let c := { c with r := f.res p j x u, cost := f.val (f.res p j x u) }
  let w := { w with costs := put w.costs d.costs c }
  pure { w with datas := put w.datas a { d with cost := c.cost } }

/-- `calcDiff(data, x, u)`, free-fwddyn.hxx L134-156, with `CostModelSum::calcDiff`, which writes through the maps. -/
def calcDiffData (a : Nat) (x : X) (u : U) (w : World Pin Jt R A F G C) : Option (World Pin Jt R A F G C) := do
  let d ← w.datas a
  let j ← w.joints d.joint
  let d := { d with pin := f.dkin x u d.pin, fx := f.fx x u j }
  let w := { w with datas := put w.datas a d, joints := put w.joints d.joint (f.djt x u j) }
  let c ← w.costs d.costs
  let (p, j) ← collect w c
  let c := { c with r := f.dres c.r p j x u }
  let w := { w with costs := put w.costs d.costs c }
  let t ← w.datas c.map
  pure { w with datas := put w.datas c.map { t with l := f.grad c.r } }

/-- Operations of a client. -/
inductive Op (X U : Type) where
  | create
  | copy (a : Nat)
  | destroy (a : Nat)
  | calc (a : Nat) (x : X) (u : U)
  | calcDiff (a : Nat) (x : X) (u : U)

def step (op : Op X U) (w : World Pin Jt R A F G C) : Option (World Pin Jt R A F G C) :=
  match op with
  | .create => some (create f w)
  | .copy a => copy a w
  | .destroy a => if (w.datas a).isSome then some (destroy a w) else none
  | .calc a x u => calcData f a x u w
  | .calcDiff a x u => calcDiffData f a x u w

/-- A client program; `none`: memory that is not (or no longer) allocated was accessed. -/
def run : List (Op X U) → World Pin Jt R A F G C → Option (World Pin Jt R A F G C)
  | [], w => some w
  | op :: ops, w => (step f op w).bind (run ops)

/-- No object yet. -/
def World.empty : World Pin Jt R A F G C := ⟨fun _ => none, fun _ => none, fun _ => none, 0⟩

/-! ### Integrated action data (euler.hpp L200-247): own outputs by value, the data of the differential model by `shared_ptr` -/

/-- `IntegratedActionDataEuler`. -/
structure IData (A F G C : Type) where
  differential : Nat
  xout : A
  fx : F
  l : G
  cost : C

structure IWorld (Pin Jt R A F G C : Type) where
  base : World Pin Jt R A F G C
  idatas : Nat → Option (IData A F G C)
  fresh : Nat

/-- `createData()`, euler.hpp L215-225. -/
def icreate (w : IWorld Pin Jt R A F G C) : IWorld Pin Jt R A F G C :=
  { base := create f w.base
    idatas := put w.idatas w.fresh ⟨w.base.fresh, f.xout0, f.fx0, f.l0, f.cost0⟩
    fresh := w.fresh + 1 }

/-- The copy constructor. -/
def icopy (a : Nat) (w : IWorld Pin Jt R A F G C) : Option (IWorld Pin Jt R A F G C) :=
  (w.idatas a).map fun d => { w with idatas := put w.idatas w.fresh d, fresh := w.fresh + 1 }

/-- `calc`, euler.hxx L43-56: the outputs are functions of those of the differential data; the function (integration step) is taken
as the identity. -/
def icalc (a : Nat) (x : X) (u : U) (w : IWorld Pin Jt R A F G C) : Option (IWorld Pin Jt R A F G C) := do
  let d ← w.idatas a
  let b ← calcData f d.differential x u w.base
  let v ← b.datas d.differential
  pure { w with base := b, idatas := put w.idatas a { d with xout := v.xout, cost := v.cost } }

/-- `calcDiff`, euler.hxx L106-126, likewise. -/
def icalcDiff (a : Nat) (x : X) (u : U) (w : IWorld Pin Jt R A F G C) : Option (IWorld Pin Jt R A F G C) := do
  let d ← w.idatas a
  let b ← calcDiffData f d.differential x u w.base
  let v ← b.datas d.differential
  pure { w with base := b, idatas := put w.idatas a { d with fx := v.fx, l := v.l } }

/-- `destroy`: the differential data live as long as a copy. -/
def idestroy (a : Nat) (w : IWorld Pin Jt R A F G C) : IWorld Pin Jt R A F G C :=
  { w with idatas := fun b => if b = a then none else w.idatas b }

def istep (op : Op X U) (w : IWorld Pin Jt R A F G C) : Option (IWorld Pin Jt R A F G C) :=
  match op with
  | .create => some (icreate f w)
  | .copy a => icopy a w
  | .destroy a => if (w.idatas a).isSome then some (idestroy a w) else none
  | .calc a x u => icalc f a x u w
  | .calcDiff a x u => icalcDiff f a x u w

def irun : List (Op X U) → IWorld Pin Jt R A F G C → Option (IWorld Pin Jt R A F G C)
  | [], w => some w
  | op :: ops, w => (istep f op w).bind (irun ops)

def IWorld.empty : IWorld Pin Jt R A F G C := ⟨World.empty, fun _ => none, 0⟩

end
end Verif.DataCopy
