import Verif.Cpp
import Verif.OrdMap
import Verif.Seg
import Verif.Flt
import Mathlib.Data.Finset.Erase
import Mathlib.Data.Finset.Insert
import Mathlib.Data.Finset.Basic
import Mathlib.Algebra.Group.Defs
import Mathlib.Algebra.Ring.Defs

/-!
# Model of `ConstraintModelAbstractTpl` (bounds) and `ConstraintModelManagerTpl`

Files modelled: `/repo/include/crocoddyl/core/constraint-base.hxx`,
`/repo/include/crocoddyl/core/constraints/constraint-manager.hxx`, `constraint-manager.hpp`.

Constraint objects are shared (`std::shared_ptr`): they live in a heap `Nat → Con K`, and the
manager's items hold addresses. `std::size_t` counters are `UInt64`. Uninitialised vector entries
are `none`. Allocation failures are not modelled.
-/

namespace Verif.Constraints
open Verif

/-- `upper - lower <= 0` (constraint-base.hxx L117), IEEE rules for infinities and NaN: the
difference of equal infinities is NaN, and comparisons with NaN are false. -/
def _root_.Verif.Flt.subLeZero {K : Type} [Sub K] [Zero K] [LE K] [DecidableLE K] : Flt K → Flt K → Bool
  | .fin u, .fin l => decide (u - l ≤ 0)
  | .pinf, .fin _ => false
  | .ninf, .fin _ => true
  | .fin _, .pinf => true
  | .fin _, .ninf => false
  | .pinf, .pinf => false
  | .ninf, .ninf => false
  | .pinf, .ninf => false
  | .ninf, .pinf => true
  | .nan, _ => false
  | _, .nan => false

/-- `ConstraintType`, constraint-base.hpp. -/
inductive CType where
  | inequality | equality | both
deriving DecidableEq, Repr

/-- State of a constraint model (constraint-base.hpp, protected members). -/
structure Con (K : Type) where
  nu : Nat
  ngInt : Nat
  nhInt : Nat
  ng : Nat
  nh : Nat
  lb : List (Flt K)
  ub : List (Flt K)
  tcon : Bool
  type : CType

variable {N K D : Type}

/-- `update_bounds`, constraint-base.hxx L109-142. `maxv` is `numeric_limits::max()`. Note that the
infinity tests (L121-132) look at the *stored* `lb_`, `ub_`, not at the arguments. -/
def updateBounds [Sub K] [Zero K] [LE K] [DecidableLE K] [DecidableEq K] (maxv : K)
    (lower upper : List (Flt K)) : Cpp (Con K) Unit := do
  let c ← Cpp.get
  Cpp.throwIf (upper.length != c.ngInt || lower.length != c.ngInt)
  Cpp.throwIf ((upper.zip lower).any fun p => p.1.subLeZero p.2)
  Cpp.throwIf (c.lb.any (fun v => v == .pinf) || c.lb.any (fun v => v == .fin maxv))
  Cpp.throwIf (c.ub.any (fun v => v == .ninf) || c.ub.any (fun v => v == .ninf))
  Cpp.set
    { c with ng := c.ngInt, nh := c.nhInt, lb := lower, ub := upper
             type := if c.nhInt = 0 then .inequality else .both }

/-- `remove_bounds`, constraint-base.hxx L145-151. -/
def removeBounds : Cpp (Con K) Unit :=
  Cpp.modify fun c =>
    { c with ng := 0, nh := c.nhInt + c.ngInt
             lb := c.lb.map fun _ => .ninf, ub := c.ub.map fun _ => .pinf
             type := .equality }

/-- `ConstraintItemTpl`, constraint-manager.hpp L24-57. -/
structure Item where
  con : Nat
  active : Bool
deriving DecidableEq, Repr

/-- Object state of `ConstraintModelManagerTpl` (constraint-manager.hpp L281-293). -/
structure Mgr (N K : Type) where
  items : List (N × Item)
  ng : UInt64
  nh : UInt64
  ngT : UInt64
  nhT : UInt64
  lb : List (Option (Flt K))
  ub : List (Option (Flt K))
  active : Finset N
  inactive : Finset N

/-- The heap of constraint objects and one manager. -/
structure World (N K : Type) where
  heap : Nat → Con K
  mgr : Mgr N K

/-- Constructor, constraint-manager.hxx L11-34. -/
def Mgr.empty : Mgr N K := ⟨[], 0, 0, 0, 0, [], [], ∅, ∅⟩

/-- `v.resize(n)` of an Eigen vector: same size keeps the content, otherwise all entries are
uninitialised. -/
def resizeVec {α : Type} (n : Nat) (v : List (Option α)) : List (Option α) :=
  if v.length = n then v else List.replicate n none

/-- `lb_.resize(ng_); ub_.resize(ng_);` -/
def Mgr.resizeBounds (m : Mgr N K) : Mgr N K :=
  { m with lb := resizeVec m.ng.toNat m.lb, ub := resizeVec m.ng.toNat m.ub }

/-- The counter updates made when a constraint becomes active (L53-58, L98-103). -/
def Mgr.countUp (m : Mgr N K) (c : Con K) : Mgr N K :=
  { m with ng := m.ng + UInt64.ofNat c.ng
           nh := m.nh + UInt64.ofNat c.nh
           ngT := if c.tcon then m.ngT + UInt64.ofNat c.ng else m.ngT
           nhT := if c.tcon then m.nhT + UInt64.ofNat c.nh else m.nhT }

/-- The counter updates made when a constraint stops being active (L73-78, L110-115). -/
def Mgr.countDown (m : Mgr N K) (c : Con K) : Mgr N K :=
  { m with ng := m.ng - UInt64.ofNat c.ng
           nh := m.nh - UInt64.ofNat c.nh
           ngT := if c.tcon then m.ngT - UInt64.ofNat c.ng else m.ngT
           nhT := if c.tcon then m.nhT - UInt64.ofNat c.nh else m.nhT }

section
variable [LinearOrder N]

/-- `addConstraint`, constraint-manager.hxx L38-66. -/
def addConstraint (nu : Nat) (name : N) (con : Nat) (active : Bool) : Cpp (World N K) Unit := do
  let w ← Cpp.get
  Cpp.throwIf ((w.heap con).nu != nu)
  let ret := OrdMap.insert name ⟨con, active⟩ w.mgr.items
  let m := { w.mgr with items := ret.1 }
  if ret.2 = false then Cpp.set { w with mgr := m }
  else if active then
    let m := m.countUp (w.heap con)
    let m := { m with active := insert name m.active }
    Cpp.set { w with mgr := m.resizeBounds }
  else Cpp.set { w with mgr := { m with inactive := insert name m.inactive } }

/-- `removeConstraint`, constraint-manager.hxx L68-91. -/
def removeConstraint (name : N) : Cpp (World N K) Unit := do
  let w ← Cpp.get
  match OrdMap.find name w.mgr.items with
  | some it =>
    if it.active then
      let m := (w.mgr.countDown (w.heap it.con)).resizeBounds
      Cpp.set { w with mgr := { m with active := m.active.erase name
                                       items := OrdMap.erase name m.items } }
    else
      Cpp.set { w with mgr := { w.mgr with inactive := w.mgr.inactive.erase name
                                           items := OrdMap.erase name w.mgr.items } }
  | none => pure ()

/-- `changeConstraintStatus`, constraint-manager.hxx L93-127. -/
def changeConstraintStatus (name : N) (active : Bool) : Cpp (World N K) Unit := do
  let w ← Cpp.get
  match OrdMap.find name w.mgr.items with
  | some it =>
    if active && !it.active then
      let m := w.mgr.countUp (w.heap it.con)
      let m := { m with active := insert name m.active, inactive := m.inactive.erase name
                        items := OrdMap.adjust name (fun i => { i with active := active }) m.items }
      Cpp.set { w with mgr := m.resizeBounds }
    else if !active && it.active then
      let m := w.mgr.countDown (w.heap it.con)
      let m := { m with active := m.active.erase name, inactive := insert name m.inactive
                        items := OrdMap.adjust name (fun i => { i with active := active }) m.items }
      Cpp.set { w with mgr := m.resizeBounds }
    else pure ()
  | none => pure ()

/-- Run a member function of the constraint object at address `a`. -/
def onCon (a : Nat) (f : Cpp (Con K) Unit) : Cpp (World N K) Unit := fun w =>
  let put (c : Con K) : World N K := { w with heap := fun b => if b = a then c else w.heap b }
  match f (w.heap a) with
  | .ok _ c => .ok () (put c)
  | .throw c => .throw (put c)
  | .ub => .ub

/-- Public mutators of the manager and of the constraint objects. -/
inductive Op (N K : Type) where
  | add (name : N) (con : Nat) (active : Bool)
  | remove (name : N)
  | status (name : N) (active : Bool)
  | updateBounds (con : Nat) (lower upper : List (Flt K))
  | removeBounds (con : Nat)

/-- Run one call. -/
def Op.run [Sub K] [Zero K] [LE K] [DecidableLE K] [DecidableEq K] (nu : Nat) (maxv : K) :
    Op N K → Cpp (World N K) Unit
  | .add n c a => addConstraint nu n c a
  | .remove n => removeConstraint n
  | .status n a => changeConstraintStatus n a
  | .updateBounds c l u => onCon c (Constraints.updateBounds maxv l u)
  | .removeBounds c => onCon c Constraints.removeBounds

/-- World after one call (exceptions caught by the client; no call has undefined behaviour). -/
def Op.next [Sub K] [Zero K] [LE K] [DecidableLE K] [DecidableEq K] (nu : Nat) (maxv : K)
    (op : Op N K) (w : World N K) : World N K :=
  match op.run nu maxv w with
  | .ok _ w' => w'
  | .throw w' => w'
  | .ub => w

/-- World after a sequence of calls. -/
def runOps [Sub K] [Zero K] [LE K] [DecidableLE K] [DecidableEq K] (nu : Nat) (maxv : K)
    (ops : List (Op N K)) (w : World N K) : World N K :=
  ops.foldl (fun w op => op.next nu maxv w) w

end

/-! ### Data and evaluation -/

/-- Virtual functions of constraint models and the fields of their datas (`ConstraintDataAbstractTpl`,
constraint-base.hpp L269-310); matrices are lists of rows. -/
structure Env (K D : Type) where
  create : Con K → D
  calcXU : Con K → List K → List K → D → D
  calcX : Con K → List K → D → D
  diffXU : Con K → List K → List K → D → D
  diffX : Con K → List K → D → D
  g : D → List K
  h : D → List K
  Gx : D → List (List K)
  Gu : D → List (List K)
  Hx : D → List (List K)
  Hu : D → List (List K)

/-- `ConstraintDataManagerTpl` (constraint-manager.hpp L295-436). -/
structure Data (N K D : Type) where
  items : List (N × D)
  g : List (Option K)
  h : List (Option K)
  Gx : List (Option (List K))
  Gu : List (Option (List K))
  Hx : List (Option (List K))
  Hu : List (Option (List K))

/-- Constructor of `ConstraintDataManagerTpl`, constraint-manager.hpp L306-336. -/
def createData [Zero K] (e : Env K D) (ndx nu : Nat) (w : World N K) : Data N K D where
  items := w.mgr.items.map fun kv => (kv.1, e.create (w.heap kv.2.con))
  g := List.replicate w.mgr.ng.toNat (some 0)
  h := List.replicate w.mgr.nh.toNat (some 0)
  Gx := List.replicate w.mgr.ng.toNat (some (List.replicate ndx 0))
  Gu := List.replicate w.mgr.ng.toNat (some (List.replicate nu 0))
  Hx := List.replicate w.mgr.nh.toNat (some (List.replicate ndx 0))
  Hu := List.replicate w.mgr.nh.toNat (some (List.replicate nu 0))

/-- `conservativeResize` of the rows: keep the old rows, new rows uninitialised. -/
def consResize {α : Type} (n : Nat) (v : List (Option α)) : List (Option α) :=
  v.take n ++ List.replicate (n - v.length) none

/-- `resize(model, data, running_node)` for datas sharing memory with an action data,
constraint-manager.hpp L374-393. -/
def resizeData (w : World N K) (running : Bool) (d : Data N K D) : Data N K D :=
  let ng := (if running then w.mgr.ng else w.mgr.ngT).toNat
  let nh := (if running then w.mgr.nh else w.mgr.nhT).toNat
  { d with g := consResize ng d.g, h := consResize nh d.h, Gx := consResize ng d.Gx
           Gu := consResize ng d.Gu, Hx := consResize nh d.Hx, Hu := consResize nh d.Hu }

/-- Buffers written by the evaluation loop of `calc`. -/
structure CalcBufs (K : Type) where
  g : List (Option K)
  h : List (Option K)
  lb : List (Option (Flt K))
  ub : List (Option (Flt K))

/-- Loop of `calc` (constraint-manager.hxx L156-178 with `sel` = active; L205-225 with `sel` = active
and terminal): `ngi`, `nhi` are the running row offsets; `f` the call on the item. -/
def calcLoop (e : Env K D) (heap : Nat → Con K) (sel : Item → Bool) (f : Con K → D → D) :
    List (N × Item) → List (N × D) → Nat → Nat → CalcBufs K →
    Option (List (N × D) × CalcBufs K)
  | (_, it) :: ms, (n, d) :: ds, ngi, nhi, b =>
    if sel it then do
      let c := heap it.con
      let d' := f c d
      let g ← writeSeg b.g ngi c.ng (e.g d')
      let h ← writeSeg b.h nhi c.nh (e.h d')
      let lb ← writeSeg b.lb ngi c.ng c.lb
      let ub ← writeSeg b.ub ngi c.ng c.ub
      let r ← calcLoop e heap sel f ms ds (ngi + c.ng) (nhi + c.nh) ⟨g, h, lb, ub⟩
      some ((n, d') :: r.1, r.2)
    else do
      let r ← calcLoop e heap sel f ms ds ngi nhi b
      some ((n, d) :: r.1, r.2)
  | _, ds, _, _, b => some (ds, b)

/-- Result of an evaluation: a throw, undefined behaviour, or the new manager and data. -/
inductive Eval (N K D : Type) where
  | throw
  | ub
  | ok (m : Mgr N K) (d : Data N K D)

/-- `calc(data, x, u)`, constraint-manager.hxx L129-179; `calc` also writes the manager's own bound
vectors. -/
def calcXU (e : Env K D) (nx nu : Nat) (w : World N K) (d : Data N K D) (x u : List K) :
    Eval N K D :=
  if x.length ≠ nx then .throw
  else if u.length ≠ nu then .throw
  else if d.items.length ≠ w.mgr.items.length then .throw
  else
    match calcLoop e w.heap (fun it => it.active) (fun c d => e.calcXU c x u d) w.mgr.items d.items 0 0
        ⟨d.g, d.h, w.mgr.lb, w.mgr.ub⟩ with
    | none => .ub
    | some (ds, b) => .ok { w.mgr with lb := b.lb, ub := b.ub } { d with items := ds, g := b.g, h := b.h }

/-- `calc(data, x)`, constraint-manager.hxx L181-226: only active terminal constraints. -/
def calcX (e : Env K D) (nx : Nat) (w : World N K) (d : Data N K D) (x : List K) :
    Eval N K D :=
  if x.length ≠ nx then .throw
  else if d.items.length ≠ w.mgr.items.length then .throw
  else
    match calcLoop e w.heap (fun it => it.active && (w.heap it.con).tcon) (fun c d => e.calcX c x d)
        w.mgr.items d.items 0 0 ⟨d.g, d.h, w.mgr.lb, w.mgr.ub⟩ with
    | none => .ub
    | some (ds, b) => .ok { w.mgr with lb := b.lb, ub := b.ub } { d with items := ds, g := b.g, h := b.h }

/-- Buffers written by the loop of `calcDiff`. -/
structure DiffBufs (K : Type) where
  Gx : List (Option (List K))
  Gu : List (Option (List K))
  Hx : List (Option (List K))
  Hu : List (Option (List K))

/-- Loop of `calcDiff` (L260-281); with `term` (L310-329) only the `x` blocks are written. -/
def diffLoop (e : Env K D) (heap : Nat → Con K) (sel : Item → Bool) (f : Con K → D → D) (term : Bool) :
    List (N × Item) → List (N × D) → Nat → Nat → DiffBufs K →
    Option (List (N × D) × DiffBufs K)
  | (_, it) :: ms, (n, d) :: ds, ngi, nhi, b =>
    if sel it then do
      let c := heap it.con
      let d' := f c d
      let Gx ← writeSeg b.Gx ngi c.ng (e.Gx d')
      let Gu ← if term then some b.Gu else writeSeg b.Gu ngi c.ng (e.Gu d')
      let Hx ← writeSeg b.Hx nhi c.nh (e.Hx d')
      let Hu ← if term then some b.Hu else writeSeg b.Hu nhi c.nh (e.Hu d')
      let r ← diffLoop e heap sel f term ms ds (ngi + c.ng) (nhi + c.nh) ⟨Gx, Gu, Hx, Hu⟩
      some ((n, d') :: r.1, r.2)
    else do
      let r ← diffLoop e heap sel f term ms ds ngi nhi b
      some ((n, d) :: r.1, r.2)
  | _, ds, _, _, b => some (ds, b)

/-- `calcDiff(data, x, u)`, constraint-manager.hxx L228-282. -/
def diffXU (e : Env K D) (nx nu : Nat) (w : World N K) (d : Data N K D) (x u : List K) :
    Eval N K D :=
  if x.length ≠ nx then .throw
  else if u.length ≠ nu then .throw
  else if d.items.length ≠ w.mgr.items.length then .throw
  else
    match diffLoop e w.heap (fun it => it.active) (fun c d => e.diffXU c x u d) false w.mgr.items
        d.items 0 0 ⟨d.Gx, d.Gu, d.Hx, d.Hu⟩ with
    | none => .ub
    | some (ds, b) => .ok w.mgr { d with items := ds, Gx := b.Gx, Gu := b.Gu, Hx := b.Hx, Hu := b.Hu }

/-- `calcDiff(data, x)`, constraint-manager.hxx L284-330. -/
def diffX (e : Env K D) (nx : Nat) (w : World N K) (d : Data N K D) (x : List K) : Eval N K D :=
  if x.length ≠ nx then .throw
  else if d.items.length ≠ w.mgr.items.length then .throw
  else
    match diffLoop e w.heap (fun it => it.active && (w.heap it.con).tcon) (fun c d => e.diffX c x d)
        true w.mgr.items d.items 0 0 ⟨d.Gx, d.Gu, d.Hx, d.Hu⟩ with
    | none => .ub
    | some (ds, b) => .ok w.mgr { d with items := ds, Gx := b.Gx, Gu := b.Gu, Hx := b.Hx, Hu := b.Hu }

end Verif.Constraints
