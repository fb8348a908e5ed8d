import Verif.Model.ContactFrame

/-!
# Residuals of a contact force

`include/crocoddyl/multibody/residuals/contact-{force,friction-cone,wrench-cone,cop-position}.hxx`: the force of a contact (or
impulse) relative to a reference, and its products with the matrix of a friction cone, a wrench cone and a centre-of-pressure
support.

A model object is shared by many data objects (one per node, or per thread). What the action model stores in the contact data,
`updateForce` (the force) and `updateForceDiff` (its derivatives), are calls of the history; the forces themselves are inputs.

Simplifications: all data of a model belong to contacts of one kind; the reference keeps its number of rows; the size `nc` given
to the force residual is that of the contact. Calls on data that were never created do nothing. Scalars are real numbers.
-/

namespace Verif.Frc

open Matrix Verif.Con

noncomputable section

/-- Kind of contact (`ContactType`). -/
inductive Kind
  | one
  | two
  | three
  | six

/-- Number of force components (`nc`). -/
abbrev Kind.nc : Kind → ℕ
  | .one => 1
  | .two => 2
  | .three => 3
  | .six => 6

/-- `toVector`. -/
def vec (f : Six) : Fin 6 → ℝ := ![f.lin 0, f.lin 1, f.lin 2, f.ang 0, f.ang 1, f.ang 2]

/-- `ForceTpl(vector)`. -/
def ofVec (w : Fin 6 → ℝ) : Six := ⟨![w 0, w 1, w 2], ![w 3, w 4, w 5]⟩

/-- The spatial force `f` that `updateForce` stores: contact-1d.hxx L185-187, contact-2d.hxx L137-138, contact-3d.hxx L178-179,
contact-6d.hxx L161 (impulse-3d.hxx L83-84, impulse-6d.hxx L86); `R` is the rotation of the contact frame in its joint. -/
def stored (R : M3) : (k : Kind) → (Fin k.nc → ℝ) → Six
  | .one, l => ⟨![0, 0, l 0], 0⟩
  | .two, l => ⟨l 0 • R.col 0 + l 1 • R.col 2, 0⟩
  | .three, l => ⟨l, 0⟩
  | .six, l => ofVec l

/-- `ForceDataAbstractTpl`, as the residuals see it: force and derivatives. -/
structure CD (k : Kind) (ndx nu : ℕ) where
  f : Six
  dfx : Matrix (Fin k.nc) (Fin ndx) ℝ
  dfu : Matrix (Fin k.nc) (Fin nu) ℝ

/-- `r`, `Rx` and `Ru` of a residual data. -/
structure RD (nr ndx nu : ℕ) where
  r : Fin nr → ℝ
  Rx : Matrix (Fin nr) (Fin ndx) ℝ
  Ru : Matrix (Fin nr) (Fin nu) ℝ

/-- A residual of the contact force: `throws` if its data cannot be created for the kind of contact; the value that `calc` stores
(`value`) and the product that `updateJacobians` stores (`jac`), for a reference `ρ`. -/
structure Code (k : Kind) (ρ : Type) (nr : ℕ) where
  throws : Bool
  value : ρ → Six → Fin nr → ℝ
  jac : {n : ℕ} → ρ → Matrix (Fin k.nc) (Fin n) ℝ → Matrix (Fin nr) (Fin n) ℝ

/-- Force residual: `calc`, contact-force.hxx L59-79; `updateJacobians`, L116-140; data constructor, contact-force.hpp L247-365
(a contact of two dimensions is refused). -/
def force : (k : Kind) → Code k Six k.nc
  | .one => { throws := false, value := fun ref f => ![f.lin 2 - ref.lin 2], jac := fun _ df => df }
  | .two => { throws := true, value := fun _ _ => 0, jac := fun _ _ => 0 }
  | .three => { throws := false, value := fun ref f => f.lin - ref.lin, jac := fun _ df => df }
  | .six => { throws := false, value := fun ref f => vec ⟨f.lin - ref.lin, f.ang - ref.ang⟩, jac := fun _ df => df }

/-- Rows `0` to `2` (`topRows<3>`). -/
def top3 {n : ℕ} (df : Matrix (Fin 6) (Fin n) ℝ) : Matrix (Fin 3) (Fin n) ℝ := Matrix.of fun i j => df (Fin.castLE (by decide) i) j

/-- Friction cone residual, `A` being the matrix of the cone: `calc`, contact-friction-cone.hxx L52-61; `updateJacobians`,
L98-125; data constructor, contact-friction-cone.hpp L234-350 (a contact of one dimension is refused). -/
def friction (nr : ℕ) : (k : Kind) → Code k (Mat nr 3) nr
  | .one => { throws := true, value := fun A f => A *ᵥ f.lin, jac := fun _ _ => 0 }
  | .two => { throws := false, value := fun A f => A *ᵥ f.lin,
              jac := fun A df => Matrix.of fun i j => A i 0 * df 0 j + A i 2 * df 1 j }
  | .three => { throws := false, value := fun A f => A *ᵥ f.lin, jac := fun A df => A * df }
  | .six => { throws := false, value := fun A f => A *ᵥ f.lin, jac := fun A df => A * top3 df }

/-- Wrench cone residual, `A` being the matrix of the cone: `calc`, contact-wrench-cone.hxx L48-57; `updateJacobians`, L94-105;
data constructor, contact-wrench-cone.hpp L242-350 (only six dimensions). The centre-of-pressure residual has the same code
(contact-cop-position.hxx L32-40, L77-88, contact-cop-position.hpp L258-366), its matrix having four rows. -/
def wrench (nr : ℕ) : (k : Kind) → Code k (Mat nr 6) nr
  | .six => { throws := false, value := fun A f => A *ᵥ vec f, jac := fun A df => A * df }
  | _ => { throws := true, value := fun A f => A *ᵥ vec f, jac := fun _ _ => 0 }

/-- A model and its data. `fwd` is `fwddyn_`, `flag` is `update_jacobians_`. -/
structure World (k : Kind) (ρ : Type) (nr ndx nu : ℕ) where
  fwd : Bool
  flag : Bool
  ref : ρ
  data : ℕ → Option (RD nr ndx nu)
  con : ℕ → CD k ndx nu

variable {k : Kind} {ρ : Type} {nr ndx nu : ℕ}

/-- The model after its constructor (contact-force.hxx L14-57 and the like): the flag is set. -/
def init (fwd : Bool) (ref : ρ) (con : ℕ → CD k ndx nu) : World k ρ nr ndx nu := ⟨fwd, true, ref, fun _ => none, con⟩

/-- Replace data `i`. -/
def World.put (w : World k ρ nr ndx nu) (i : ℕ) (d : RD nr ndx nu) : World k ρ nr ndx nu :=
  { w with data := Function.update w.data i (some d) }

/-- `updateJacobians`, contact-force.hxx L116-140 and the like: the flag is cleared. -/
def Code.update (c : Code k ρ nr) (w : World k ρ nr ndx nu) (i : ℕ) (d : RD nr ndx nu) : World k ρ nr ndx nu :=
  { w.put i { d with Rx := c.jac w.ref (w.con i).dfx, Ru := c.jac w.ref (w.con i).dfu } with flag := false }

/-- The calls. -/
inductive Op (k : Kind) (ρ : Type) (ndx nu : ℕ)
  | create (i : ℕ)
  | force (i : ℕ) (R : M3) (l : Fin k.nc → ℝ)
  | zeroForce (i : ℕ)
  | forceDiff (i : ℕ) (dfx : Matrix (Fin k.nc) (Fin ndx) ℝ) (dfu : Matrix (Fin k.nc) (Fin nu) ℝ)
  | eval (i : ℕ)
  | evalT (i : ℕ)
  | diff (i : ℕ)
  | diffT (i : ℕ)
  | setRef (a : ρ)

/-- Replace the contact data `i`. -/
def World.putCon (w : World k ρ nr ndx nu) (i : ℕ) (c : CD k ndx nu) : World k ρ nr ndx nu :=
  { w with con := Function.update w.con i c }

/-- One call: `createData` (contact-force.hxx L104-114; it throws for a kind that is not supported), `updateForce`,
`setZeroForce` (contact-base.hxx L67-72), `updateForceDiff` (contact-base.hxx L51-65), `calc` (with control L59-79, without
L81-86), `calcDiff` (with control L88-95, without L97-102) and `set_reference` (L187-192). -/
def Code.step (c : Code k ρ nr) (w : World k ρ nr ndx nu) : Op k ρ ndx nu → World k ρ nr ndx nu
  | .create i =>
    if c.throws then w
    else if w.fwd then w.put i ⟨0, 0, 0⟩
    else c.update w i ⟨0, 0, 0⟩
  | .force i R l => w.putCon i { w.con i with f := stored R k l }
  | .zeroForce i => w.putCon i { w.con i with f := ⟨0, 0⟩ }
  | .forceDiff i dfx dfu => w.putCon i { w.con i with dfx := dfx, dfu := dfu }
  | .eval i => match w.data i with
    | none => w
    | some d => w.put i { d with r := c.value w.ref (w.con i).f }
  | .evalT i => match w.data i with
    | none => w
    | some d => w.put i { d with r := 0 }
  | .diff i => match w.data i with
    | none => w
    | some d => if w.fwd || w.flag then c.update w i d else w
  | .diffT i => match w.data i with
    | none => w
    | some d => w.put i { d with Rx := 0 }
  | .setRef a => { w with ref := a, flag := true }

/-- A list of calls. -/
def Code.run (c : Code k ρ nr) (w : World k ρ nr ndx nu) (ops : List (Op k ρ ndx nu)) : World k ρ nr ndx nu :=
  ops.foldl c.step w

end

end Verif.Frc
