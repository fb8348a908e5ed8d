import Verif.Model.DataCopy

/-!
# Specification: data as values

Every data object is a value of its own: evaluating it changes no other, a copy starts with the same value.
-/

namespace Verif.DataCopy

/-- A data object as a value. -/
structure Val (Pin Jt R A F G C : Type) where
  pin : Pin
  jt : Jt
  r : R
  xout : A
  fx : F
  l : G
  cost : C

/-- What a user reads from a data object: acceleration (or next state), its Jacobians, the derivatives of the cost, the cost. -/
structure Out (A F G C : Type) where
  xout : A
  fx : F
  l : G
  cost : C
deriving DecidableEq

section
variable {X U Pin Jt R A F G C : Type}

def Val.out (v : Val Pin Jt R A F G C) : Out A F G C := ⟨v.xout, v.fx, v.l, v.cost⟩
def Data.out (d : Data Pin A F G C) : Out A F G C := ⟨d.xout, d.fx, d.l, d.cost⟩
def IData.out (d : IData A F G C) : Out A F G C := ⟨d.xout, d.fx, d.l, d.cost⟩

variable (f : Fns X U Pin Jt R A F G C)

def Val.new : Val Pin Jt R A F G C := ⟨f.pin0, f.jt0, f.r0, f.xout0, f.fx0, f.l0, f.cost0⟩

/-- Evaluation at `x`, `u`. -/
def Val.calc (x : X) (u : U) (v : Val Pin Jt R A F G C) : Val Pin Jt R A F G C :=
  { v with
    pin := f.kin x u
    jt := f.jt x u
    xout := f.acc x u
    r := f.res (f.kin x u) (f.jt x u) x u
    cost := f.val (f.res (f.kin x u) (f.jt x u) x u) }

/-- Derivatives at `x`, `u`, after an evaluation. -/
def Val.calcDiff (x : X) (u : U) (v : Val Pin Jt R A F G C) : Val Pin Jt R A F G C :=
  let pin := f.dkin x u v.pin
  let jt := f.djt x u v.jt
  let r := f.dres v.r pin jt x u
  { v with pin := pin, jt := jt, fx := f.fx x u v.jt, r := r, l := f.grad r }

/-- The objects: the flag tells whether the object was made by `createData` (and not by copying). -/
structure Vals (Pin Jt R A F G C : Type) where
  vals : Nat → Option (Bool × Val Pin Jt R A F G C)
  fresh : Nat

def Vals.empty : Vals Pin Jt R A F G C := ⟨fun _ => none, 0⟩

/-- One operation, on values. -/
def Vals.step (op : Op X U) (s : Vals Pin Jt R A F G C) : Vals Pin Jt R A F G C :=
  match op with
  | .create => ⟨put s.vals s.fresh (true, Val.new f), s.fresh + 1⟩
  | .copy a => ⟨fun b => if b = s.fresh then (s.vals a).map fun v => (false, v.2) else s.vals b, s.fresh + 1⟩
  | .destroy a => ⟨fun b => if b = a then none else s.vals b, s.fresh⟩
  | .calc a x u => ⟨fun b => if b = a then (s.vals a).map fun v => (v.1, v.2.calc f x u) else s.vals b, s.fresh⟩
  | .calcDiff a x u =>
    ⟨fun b => if b = a then (s.vals a).map fun v => (v.1, v.2.calcDiff f x u) else s.vals b, s.fresh⟩

/-- The object that an operation uses. -/
def Op.target : Op X U → Option Nat
  | .create => none
  | .copy a | .destroy a | .calc a _ _ | .calcDiff a _ _ => some a

/-- The operation evaluates. -/
def Op.evaluates : Op X U → Bool
  | .calc .. | .calcDiff .. => true
  | _ => false

/-- Operations only use objects that exist. -/
def Live : List (Op X U) → Vals Pin Jt R A F G C → Prop
  | [], _ => True
  | op :: ops, s => (∀ a ∈ op.target, (s.vals a).isSome) ∧ Live ops (s.step f op)

/-- Copies are not evaluated. -/
def CopiesRead : List (Op X U) → Vals Pin Jt R A F G C → Prop
  | [], _ => True
  | op :: ops, s => (op.evaluates = true → ∀ a ∈ op.target, ∀ v ∈ s.vals a, v.1 = true) ∧ CopiesRead ops (s.step f op)

/-- All operations, on values. -/
def Vals.run : List (Op X U) → Vals Pin Jt R A F G C → Vals Pin Jt R A F G C
  | [], s => s
  | op :: ops, s => Vals.run ops (s.step f op)

end
end Verif.DataCopy

namespace Verif.DataCopy
variable {X U : Type}

/-- Which object each object was made from by copying (once or several times), and which object of each such family was
evaluated last. -/
structure Families where
  origin : Nat → Nat
  last : Nat → Nat
  fresh : Nat

def Families.empty : Families := ⟨fun a => a, fun a => a, 0⟩

/-- A new object begins a family, a copy joins that of the object copied. -/
def Families.step (op : Op X U) (m : Families) : Families :=
  match op with
  | .create => ⟨Function.update m.origin m.fresh m.fresh, Function.update m.last m.fresh m.fresh, m.fresh + 1⟩
  | .copy a => ⟨Function.update m.origin m.fresh (m.origin a), m.last, m.fresh + 1⟩
  | .destroy _ => m
  | .calc a _ _ => { m with last := Function.update m.last (m.origin a) a }
  | .calcDiff _ _ _ => m

/-- Objects of the same family are used in turns: derivatives are only asked from the one that was evaluated last. -/
def Turns : List (Op X U) → Families → Prop
  | [], _ => True
  | op :: ops, m => (∀ a x u, op = .calcDiff a x u → m.last (m.origin a) = a) ∧ Turns ops (m.step op)

end Verif.DataCopy
