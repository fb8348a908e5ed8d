import Verif.Cpp
import Verif.OrdMap
import Verif.Seg
import Mathlib.Data.Finset.Erase
import Mathlib.Data.Finset.Insert
import Mathlib.Data.Finset.Basic

/-!
# Model of `ContactModelMultipleTpl` and `ImpulseModelMultipleTpl`

Files modelled: `/repo/include/crocoddyl/multibody/contacts/multiple-contacts.hxx` (`.hpp`) and
`/repo/include/crocoddyl/multibody/impulses/multiple-impulses.hxx` (`.hpp`).

The two classes have the same members and the same code up to names, except that (1) `addImpulse` has
no control-dimension check, (2) impulses have no `compute_all_…` mode (modelled by `all = false`) and
(3) impulses stack only `Jc` (no `a0`) and call the derivative matrix `dv0_dq` where contacts have
`da0_dx`. One definition models both where the code is the same; line numbers of both files are given
as `MC` (multiple-contacts.hxx) and `MI` (multiple-impulses.hxx). `std::size_t` counters are `UInt64`.
Pinocchio and the concrete contact models are parameters (`Env`). Item objects are not shared between
managers.
-/

namespace Verif.Contacts
open Verif
variable {N K M D F : Type}

/-- Virtual functions of contact/impulse models and fields of their datas.
`joint d` is `state_->get_pinocchio()->frames[d_i->frame].parentJoint`. -/
structure Env (K M D F : Type) where
  nuOf : M → Nat
  ncOf : M → Nat
  create : M → D
  calcF : M → List K → D → D
  diffF : M → List K → D → D
  updateForce : M → List K → D → D
  updateForceDiff : M → List (List K) → List (List K) → D → D
  setZeroForce : M → D → D
  setZeroForceDiff : M → D → D
  a0 : D → List K
  Jc : D → List (List K)
  da0 : D → List (List K)
  fext : D → F
  joint : D → Nat

/-- `ContactItemTpl` (multiple-contacts.hpp L24-50) / `ImpulseItemTpl`. -/
structure Item (M : Type) where
  contact : M
  active : Bool
deriving DecidableEq, Repr

/-- Members of `ContactModelMultipleTpl` (multiple-contacts.hpp L285-295) /
`ImpulseModelMultipleTpl`. -/
structure Multi (N M : Type) where
  items : List (N × Item M)
  nc : UInt64
  ncTotal : UInt64
  active : Finset N
  inactive : Finset N
  all : Bool

/-- Constructors, MC L12-28, MI L12-15. -/
def empty : Multi N M := ⟨[], 0, 0, ∅, ∅, false⟩

section
variable [LinearOrder N]

/-- Body shared by `addContact` (MC L43-56) and `addImpulse` (MI L21-38). -/
def insertItem (e : Env K M D F) (name : N) (c : M) (active : Bool) : Cpp (Multi N M) Unit := do
  let s ← Cpp.get
  let ret := OrdMap.insert name ⟨c, active⟩ s.items
  let s := { s with items := ret.1 }
  if ret.2 = false then Cpp.set s
  else if active then
    Cpp.set { s with nc := s.nc + UInt64.ofNat (e.ncOf c)
                     ncTotal := s.ncTotal + UInt64.ofNat (e.ncOf c)
                     active := insert name s.active }
  else
    Cpp.set { s with ncTotal := s.ncTotal + UInt64.ofNat (e.ncOf c)
                     inactive := insert name s.inactive }

/-- `addContact`, MC L34-57. -/
def addContact (e : Env K M D F) (nu : Nat) (name : N) (c : M) (active : Bool) :
    Cpp (Multi N M) Unit := do
  Cpp.throwIf (e.nuOf c != nu)
  insertItem e name c active

/-- `addImpulse`, MI L20-38. -/
def addImpulse (e : Env K M D F) (name : N) (c : M) (active : Bool) : Cpp (Multi N M) Unit :=
  insertItem e name c active

/-- `removeContact`, MC L60-72; `removeImpulse`, MI L40-53. -/
def removeItem (e : Env K M D F) (name : N) : Cpp (Multi N M) Unit := do
  let s ← Cpp.get
  match OrdMap.find name s.items with
  | some it =>
    let s := { s with nc := s.nc - UInt64.ofNat (e.ncOf it.contact)
                      ncTotal := s.ncTotal - UInt64.ofNat (e.ncOf it.contact) }
    let s := { s with items := OrdMap.erase name s.items }
    Cpp.set { s with active := s.active.erase name, inactive := s.inactive.erase name }
  | none => pure ()

/-- `changeContactStatus`, MC L75-94; `changeImpulseStatus`, MI L55-74. -/
def changeStatus (e : Env K M D F) (name : N) (active : Bool) : Cpp (Multi N M) Unit := do
  let s ← Cpp.get
  match OrdMap.find name s.items with
  | some it =>
    let s :=
      if active && !it.active then
        { s with nc := s.nc + UInt64.ofNat (e.ncOf it.contact)
                 active := insert name s.active, inactive := s.inactive.erase name }
      else if !active && it.active then
        { s with nc := s.nc - UInt64.ofNat (e.ncOf it.contact)
                 inactive := insert name s.inactive, active := s.active.erase name }
      else s
    Cpp.set { s with items := OrdMap.adjust name (fun i => { i with active := active }) s.items }
  | none => pure ()

/-- `setComputeAllContacts` (MC, end of file; contacts only). -/
def setComputeAll (b : Bool) : Cpp (Multi N M) Unit := Cpp.modify fun s => { s with all := b }

/-- Public mutators. -/
inductive Op (N M : Type) where
  | addContact (name : N) (c : M) (active : Bool)
  | addImpulse (name : N) (c : M) (active : Bool)
  | remove (name : N)
  | status (name : N) (active : Bool)
  | computeAll (b : Bool)

/-- Run one call. -/
def Op.run (e : Env K M D F) (nu : Nat) : Op N M → Cpp (Multi N M) Unit
  | .addContact n c a => Contacts.addContact e nu n c a
  | .addImpulse n c a => Contacts.addImpulse e n c a
  | .remove n => removeItem e n
  | .status n a => changeStatus e n a
  | .computeAll b => setComputeAll b

/-- State after one call, exceptions caught by the client. -/
def Op.next (e : Env K M D F) (nu : Nat) (op : Op N M) (s : Multi N M) : Multi N M :=
  match op.run e nu s with
  | .ok _ s' => s'
  | .throw s' => s'
  | .ub => s

/-- State after a sequence of calls. -/
def runOps (e : Env K M D F) (nu : Nat) (ops : List (Op N M)) (s : Multi N M) : Multi N M :=
  ops.foldl (fun s op => op.next e nu s) s

/-- `cast`, MC L414-429 / MI L283-300: a fresh manager to which the cast items are added in name
order. `castM` casts a contact model; the target scalar's environment is `e'`. A throw of
`addContact` is impossible to catch here: it propagates (`none`). -/
def castContacts {K' M' D' F' : Type} (e' : Env K' M' D' F') (nu : Nat) (castM : M → M')
    (s : Multi N M) : Option (Multi N M') :=
  s.items.foldl (fun r kv => r.bind fun r =>
    match addContact e' nu kv.1 (castM kv.2.contact) kv.2.active r with
    | .ok _ r' => some r'
    | _ => none) (some empty)

/-- `cast` of the multi-impulse model, MI L283-300. -/
def castImpulses {K' M' D' F' : Type} (e' : Env K' M' D' F') (castM : M → M')
    (s : Multi N M) : Option (Multi N M') :=
  s.items.foldl (fun r kv => r.bind fun r =>
    match addImpulse e' kv.1 (castM kv.2.contact) kv.2.active r with
    | .ok _ r' => some r'
    | _ => none) (some empty)

end

/-! ### Data and evaluation -/

/-- `ContactDataMultipleTpl` (multiple-contacts.hpp L308-372) / `ImpulseDataMultipleTpl`. -/
structure Data (N K D F : Type) where
  items : List (N × D)
  a0 : List (Option K)
  Jc : List (Option (List K))
  da0 : List (Option (List K))
  fext : List F

/-- Data constructor, multiple-contacts.hpp L324-346: buffers of `get_nc_total()` zero rows. -/
def createData [Zero K] [Zero F] (e : Env K M D F) (nv ndx njoints : Nat) (s : Multi N M) :
    Data N K D F where
  items := s.items.map fun kv => (kv.1, e.create kv.2.contact)
  a0 := List.replicate s.ncTotal.toNat (some 0)
  Jc := List.replicate s.ncTotal.toNat (some (List.replicate nv 0))
  da0 := List.replicate s.ncTotal.toNat (some (List.replicate ndx 0))
  fext := List.replicate njoints 0

/-- Outcome of an evaluation. -/
inductive Eval (α : Type) where
  | throw
  | ub
  | ok (d : α)

/-- The two loops of `calc` (MC L112-131 with `all`, L132-149 without; MI L87-103): `nc` is the running
row offset. -/
def calcLoop [Zero K] (e : Env K M D F) (nv : Nat) (all : Bool) (x : List K) :
    List (N × Item M) → List (N × D) → Nat → List (Option K) → List (Option (List K)) →
    Option (List (N × D) × List (Option K) × List (Option (List K)))
  | (_, it) :: ms, (n, d) :: ds, nc, a0, Jc =>
    if it.active then do
      let d' := e.calcF it.contact x d
      let nci := e.ncOf it.contact
      let a0 ← writeSeg a0 nc nci (e.a0 d')
      let Jc ← writeSeg Jc nc nci (e.Jc d')
      let r ← calcLoop e nv all x ms ds (nc + nci) a0 Jc
      some ((n, d') :: r.1, r.2)
    else if all then do
      let nci := e.ncOf it.contact
      let a0 ← writeSeg a0 nc nci (List.replicate nci 0)
      let Jc ← writeSeg Jc nc nci (List.replicate nci (List.replicate nv 0))
      let r ← calcLoop e nv all x ms ds (nc + nci) a0 Jc
      some ((n, d) :: r.1, r.2)
    else do
      let r ← calcLoop e nv all x ms ds nc a0 Jc
      some ((n, d) :: r.1, r.2)
  | _, ds, _, a0, Jc => some (ds, a0, Jc)

/-- `calc(data, x)`, MC L97-150 / MI L76-105. -/
def calcAll [Zero K] (e : Env K M D F) (nv : Nat) (s : Multi N M) (d : Data N K D F) (x : List K) :
    Eval (Data N K D F) :=
  if d.items.length ≠ s.items.length then .throw
  else match calcLoop e nv s.all x s.items d.items 0 d.a0 d.Jc with
    | none => .ub
    | some (ds, a0, Jc) => .ok { d with items := ds, a0 := a0, Jc := Jc }

/-- The two loops of `calcDiff`, MC L166-204 / MI L117-135. -/
def diffLoop [Zero K] (e : Env K M D F) (ndx : Nat) (all : Bool) (x : List K) :
    List (N × Item M) → List (N × D) → Nat → List (Option (List K)) →
    Option (List (N × D) × List (Option (List K)))
  | (_, it) :: ms, (n, d) :: ds, nc, da0 =>
    if it.active then do
      let d' := e.diffF it.contact x d
      let nci := e.ncOf it.contact
      let da0 ← writeSeg da0 nc nci (e.da0 d')
      let r ← diffLoop e ndx all x ms ds (nc + nci) da0
      some ((n, d') :: r.1, r.2)
    else if all then do
      let nci := e.ncOf it.contact
      let da0 ← writeSeg da0 nc nci (List.replicate nci (List.replicate ndx 0))
      let r ← diffLoop e ndx all x ms ds (nc + nci) da0
      some ((n, d) :: r.1, r.2)
    else do
      let r ← diffLoop e ndx all x ms ds nc da0
      some ((n, d) :: r.1, r.2)
  | _, ds, _, da0 => some (ds, da0)

/-- `calcDiff(data, x)`, MC L153-205 / MI L107-136. -/
def diffAll [Zero K] (e : Env K M D F) (ndx : Nat) (s : Multi N M) (d : Data N K D F) (x : List K) :
    Eval (Data N K D F) :=
  if d.items.length ≠ s.items.length then .throw
  else match diffLoop e ndx s.all x s.items d.items 0 d.da0 with
    | none => .ub
    | some (ds, da0) => .ok { d with items := ds, da0 := da0 }

/-- `v.segment(off, len)` read; `none` is an out-of-range access. -/
def readSeg {α : Type} (v : List α) (off len : Nat) : Option (List α) :=
  if off + len ≤ v.length then some ((v.drop off).take len) else none

/-- The two loops of `updateForce`, MC L242-281 / MI L168-189. `fext[joint] = d_i->fext` is an
assignment. -/
def forceLoop (e : Env K M D F) (all : Bool) (force : List K) :
    List (N × Item M) → List (N × D) → Nat → List F → Option (List (N × D) × List F)
  | (_, it) :: ms, (n, d) :: ds, nc, fext =>
    let nci := e.ncOf it.contact
    if it.active then do
      let fi ← readSeg force nc nci
      let d' := e.updateForce it.contact fi d
      if e.joint d' < fext.length then
        let r ← forceLoop e all force ms ds (nc + nci) (fext.set (e.joint d') (e.fext d'))
        some ((n, d') :: r.1, r.2)
      else none
    else do
      let r ← forceLoop e all force ms ds (if all then nc + nci else nc) fext
      some ((n, e.setZeroForce it.contact d) :: r.1, r.2)
  | _, ds, _, fext => some (ds, fext)

/-- `updateForce(data, force)`, MC L219-283 / MI L150-190. -/
def updateForceAll [Zero F] (e : Env K M D F) (s : Multi N M) (d : Data N K D F) (force : List K) :
    Eval (Data N K D F) :=
  if force.length ≠ (if s.all then s.ncTotal else s.nc).toNat then .throw
  else if d.items.length ≠ s.items.length then .throw
  else match forceLoop e s.all force s.items d.items 0 (d.fext.map fun _ => 0) with
    | none => .ub
    | some (ds, fext) => .ok { d with items := ds, fext := fext }

/-- The two loops of `updateForceDiff`, MC L325-371 (MI L220-241 with `df_du` empty). -/
def forceDiffLoop (e : Env K M D F) (all : Bool) (dfdx dfdu : List (List K)) :
    List (N × Item M) → List (N × D) → Nat → Option (List (N × D))
  | (_, it) :: ms, (n, d) :: ds, nc =>
    let nci := e.ncOf it.contact
    if it.active then do
      let fx ← readSeg dfdx nc nci
      let fu ← readSeg dfdu nc nci
      let r ← forceDiffLoop e all dfdx dfdu ms ds (nc + nci)
      some ((n, e.updateForceDiff it.contact fx fu d) :: r)
    else do
      let r ← forceDiffLoop e all dfdx dfdu ms ds (if all then nc + nci else nc)
      some ((n, e.setZeroForceDiff it.contact d) :: r)
  | _, ds, _ => some ds

/-- `updateForceDiff(data, df_dx, df_du)`, MC L300-371. -/
def updateForceDiffAll (e : Env K M D F) (ndx nu : Nat) (s : Multi N M) (d : Data N K D F)
    (dfdx dfdu : List (List K)) : Eval (Data N K D F) :=
  let n := (if s.all then s.ncTotal else s.nc).toNat
  if dfdx.length ≠ n ∨ ∃ r ∈ dfdx, r.length ≠ ndx then .throw
  else if dfdu.length ≠ n ∨ ∃ r ∈ dfdu, r.length ≠ nu then .throw
  else if d.items.length ≠ s.items.length then .throw
  else match forceDiffLoop e s.all dfdx dfdu s.items d.items 0 with
    | none => .ub
    | some ds => .ok { d with items := ds }

end Verif.Contacts
