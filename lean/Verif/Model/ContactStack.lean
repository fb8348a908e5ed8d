import Verif.Model.ContactFrame
import Verif.Model.FwdDyn
import Mathlib.Algebra.BigOperators.Fin

/-!
# The contacts of a node, stacked

`include/crocoddyl/multibody/contacts/multiple-contacts.hxx`, filled with the contact models of `Model/ContactFrame`: the quantities that
the forward dynamics with contacts (`Model/FwdDyn`) takes as parameters, computed from what Pinocchio holds of the joints.

Simplifications: the active contacts only (an inactive one is skipped, multiple-contacts.hxx L135, L190, L269), in the order of the
container; which data the contacts are handed is a parameter (`old`).
-/

namespace Verif.Con

open Matrix

noncomputable section

/-- A contact model of the container: `ContactModel1D`, `2D`, `3D` or `6D`. -/
inductive Any where
  | one (m : C1)
  | two (m : C2)
  | three (m : C3)
  | six (m : C6)

/-- `get_nc`: the number handed to the base by the constructors, contact-1d.hxx L17, contact-2d.hxx L16, contact-3d.hxx L17,
contact-6d.hxx L18. -/
def Any.dim : Any → ℕ
  | .one _ => 1
  | .two _ => 2
  | .three _ => 3
  | .six _ => 6

/-- `get_type`: contact-2d.hxx L16 hands the base `LOCAL`. -/
def Any.type : Any → Ref
  | .one m => m.type
  | .two _ => .loc
  | .three m => m.type
  | .six m => m.type

/-- The data of a contact. -/
def Any.Data (nv : ℕ) : Any → Type
  | .one _ => D1 nv
  | .two _ => D2 nv
  | .three _ => D3 nv
  | .six _ => D6 nv

variable {nv : ℕ}

/-- Two blocks of three rows, one below the other. -/
def below {β : Type} (f g : Fin 3 → β) : Fin 6 → β := Fin.append (m := 3) (n := 3) f g

/-- A vector of six entries as a `pinocchio::Force`. -/
def Six.ofVec (f : Fin 6 → ℝ) : Six := ⟨fun i => f (Fin.castAdd 3 i), fun i => f (Fin.natAdd 3 i)⟩

/-- `calc` of the contact, by its class. -/
def Any.calc (L : Log) : (c : Any) → Kin nv → c.Data nv → c.Data nv
  | .one m, k, d => C1.calc m k d
  | .two m, k, d => C2.calc m k d
  | .three m, k, d => C3.calc m k d
  | .six m, k, d => C6.calc L m k d

/-- `calcDiff` of the contact, by its class. -/
def Any.diff (L : Log) : (c : Any) → Kin nv → c.Data nv → c.Data nv
  | .one m, k, d => C1.diff m k d
  | .two m, k, d => C2.diff m k d
  | .three m, k, d => C3.diff m k d
  | .six m, k, d => C6.diff L m k d

/-- `updateForce` of the contact, by its class. -/
def Any.force : (c : Any) → (Fin c.dim → ℝ) → c.Data nv → c.Data nv
  | .one m, f, d => C1.force m (f (0 : Fin 1)) d
  | .two m, f, d => C2.force m f d
  | .three m, f, d => C3.force m f d
  | .six m, f, d => C6.force m (Six.ofVec f) d

/-- `d_i->Jc`. -/
def Any.Jc : (c : Any) → c.Data nv → Matrix (Fin c.dim) (Fin nv) ℝ
  | .one _, d => of fun _ => D1.Jc d
  | .two _, d => D2.Jc d
  | .three _, d => D3.Jc d
  | .six _, d => of (below (D6.Jc d).lin (D6.Jc d).ang)

/-- `d_i->a0`. -/
def Any.a0 : (c : Any) → c.Data nv → Fin c.dim → ℝ
  | .one _, d => fun _ => D1.a0 d
  | .two _, d => D2.a0 d
  | .three _, d => D3.a0 d
  | .six _, d => below (D6.a0 d).lin (D6.a0 d).ang

/-- `d_i->da0_dx`. -/
def Any.da0 : (c : Any) → c.Data nv → Matrix (Fin c.dim) (Tan nv) ℝ
  | .one _, d => of fun _ => D1.da0 d
  | .two _, d => D2.da0 d
  | .three _, d => D3.da0 d
  | .six _, d => of (below (D6.da0 d).1 (D6.da0 d).2)

/-- `d_i->fext`. -/
def Any.fext : (c : Any) → c.Data nv → Six
  | .one _, d => D1.fext d
  | .two _, d => D2.fext d
  | .three _, d => D3.fext d
  | .six _, d => D6.fext d

/-- `d_i->dtau_dq`. -/
def Any.dtau : (c : Any) → c.Data nv → Mat nv nv
  | .one _, d => D1.dtau d
  | .two _, d => D2.dtau d
  | .three _, d => D3.dtau d
  | .six _, d => D6.dtau d

/-- What `updateRneaDiff` adds to `dtau_dq` for a contact, multiple-contacts.hxx L392-399: nothing for one of type `LOCAL`. -/
def Any.added (c : Any) (d : c.Data nv) : Mat nv nv := match c.type with
  | .loc => 0
  | _ => c.dtau d

/-- What Pinocchio computes of a robot with `nj` joints: the kinematics of each joint at a state with a joint acceleration, and
`computeRNEADerivatives` at a state with a joint acceleration and external forces on the joints. -/
structure Robot (X : Type) (nv nj : ℕ) where
  kin : X → (Fin nv → ℝ) → Fin nj → Kin nv
  rneaDx : X → (Fin nv → ℝ) → (Fin nj → Six) → Matrix (Fin nv) (Tan nv) ℝ

/-- The active contacts of a node, in the order of the container, and the joints that carry them
(`frames[frame].parentJoint`, multiple-contacts.hxx L274-275). -/
structure Scene (nj : ℕ) where
  n : ℕ
  c : Fin n → Any
  joint : Fin n → Fin nj

variable {nj : ℕ} {X : Type}

/-- `get_nc` of the container: the sum. -/
def Scene.rows (S : Scene nj) : ℕ := ∑ i, (S.c i).dim

/-- The contact a row belongs to, and which of its rows it is: the counter `nc` of multiple-contacts.hxx L131-148. -/
def Scene.row (S : Scene nj) (r : Fin S.rows) : (i : Fin S.n) × Fin (S.c i).dim := finSigmaFinEquiv.symm r

/-- `force.segment(nc, nc_i)`, multiple-contacts.hxx L270-272. -/
def Scene.part (S : Scene nj) (l : Fin S.rows → ℝ) (i : Fin S.n) : Fin (S.c i).dim → ℝ := fun j => l (finSigmaFinEquiv ⟨i, j⟩)

/-- The data of the contacts after `calc`, multiple-contacts.hxx L131-148: at the state, the joint acceleration being zero. -/
def Scene.calc (L : Log) (R : Robot X nv nj) (S : Scene nj) (old : X → ∀ i, (S.c i).Data nv) (x : X) (i : Fin S.n) : (S.c i).Data nv :=
  (S.c i).calc L (R.kin x 0 (S.joint i)) (old x i)

/-- The external forces after `updateForce`, multiple-contacts.hxx L233-282: zero, then one assignment for each contact. -/
def Scene.fext (L : Log) (R : Robot X nv nj) (S : Scene nj) (old : X → ∀ i, (S.c i).Data nv) (x : X) (l : Fin S.rows → ℝ) : Fin nj → Six :=
  (List.finRange S.n).foldl
    (fun F i => Function.update F (S.joint i) ((S.c i).fext ((S.c i).force (S.part l i) (S.calc L R old x i)))) fun _ => ⟨0, 0⟩

/-- The stacked quantities: `Jc` and `a0` of `calc` (multiple-contacts.hxx L131-148), `da0_dx` of `calcDiff` (L186-202) with the joint
acceleration of the node, `computeRNEADerivatives` with the external forces of `updateForce` (L233-282), and what
`updateRneaDiff` adds to it (L384-401). How the contact problem is solved stays a parameter. -/
def Scene.contacts (L : Log) (R : Robot X nv nj) (S : Scene nj) (old : X → ∀ i, (S.c i).Data nv)
    (fwd : Mat nv nv → (Fin nv → ℝ) → Mat S.rows nv → (Fin S.rows → ℝ) → ℝ → (Fin nv → ℝ) × (Fin S.rows → ℝ))
    (kinv : Mat nv nv → Mat S.rows nv → ℝ → Matrix (Fin nv ⊕ Fin S.rows) (Fin nv ⊕ Fin S.rows) ℝ) : Fwd.Contacts X nv S.rows where
  J x := of fun r => (S.c (S.row r).1).Jc (S.calc L R old x (S.row r).1) (S.row r).2
  a0 x := fun r => (S.c (S.row r).1).a0 (S.calc L R old x (S.row r).1) (S.row r).2
  da0 x a := of fun r => (S.c (S.row r).1).da0
    ((S.c (S.row r).1).diff L (R.kin x a (S.joint (S.row r).1)) (S.calc L R old x (S.row r).1)) (S.row r).2
  rneaDx x a l := R.rneaDx x a (S.fext L R old x l)
  dtau x l := ∑ i, (S.c i).added ((S.c i).force (S.part l i) (S.calc L R old x i))
  lay := ⟨fun r => (S.row r).1, fun r => S.joint (S.row r).1⟩
  fwd := fwd
  kinv := kinv

/-! ### Impulses -/

/-- `updateForce`, impulse-3d.hxx L76-102: `fext` and `dtau_dq`. -/
def Imp.force3 (m : Imp) (f : V3) (d : DI3 nv) : Six × Mat nv nv := match m.type with
  | .loc => (m.jMf.actF ⟨f, 0⟩, 0)
  | _ =>
    let fl : Six := ⟨d.oMf.rotᵀ *ᵥ f, 0⟩
    (m.jMf.actF fl, -(d.fJf.linᵀ * (skew fl.lin * d.fJf.ang)))

/-- `updateForce`, impulse-6d.hxx L79-105: `fext` and `dtau_dq`. -/
def Imp.force6 (m : Imp) (f : Six) (d : DI6 nv) : Six × Mat nv nv := match m.type with
  | .loc => (m.jMf.actF f, 0)
  | _ =>
    let fl := d.lwaMl.actInvF f
    (m.jMf.actF fl, -(d.fJf.linᵀ * (skew fl.lin * d.fJf.ang) + d.fJf.angᵀ * (skew fl.ang * d.fJf.ang)))

/-- An impulse model of the container: `ImpulseModel3D` or `6D`. -/
inductive Hit where
  | three (m : Imp)
  | six (m : Imp)

/-- `get_nc`: the number handed to the base by the constructors, impulse-3d.hxx L16, impulse-6d.hxx L19. -/
def Hit.dim : Hit → ℕ
  | .three _ => 3
  | .six _ => 6

/-- `get_type`. -/
def Hit.type : Hit → Ref
  | .three m => m.type
  | .six m => m.type

/-- The data of an impulse. -/
def Hit.Data (nv : ℕ) : Hit → Type
  | .three _ => DI3 nv
  | .six _ => DI6 nv

/-- `calc` of the impulse, by its class. -/
def Hit.calc : (c : Hit) → Kin nv → c.Data nv → c.Data nv
  | .three m, k, d => Imp.calc3 m k d
  | .six m, k, d => Imp.calc6 m k d

/-- `calcDiff` of the impulse, by its class. -/
def Hit.diff : (c : Hit) → Kin nv → c.Data nv → c.Data nv
  | .three m, k, d => Imp.diff3 m k d
  | .six m, k, d => Imp.diff6 m k d

/-- `updateForce` of the impulse, by its class. -/
def Hit.force : (c : Hit) → (Fin c.dim → ℝ) → c.Data nv → Six × Mat nv nv
  | .three m, f, d => Imp.force3 m f d
  | .six m, f, d => Imp.force6 m (Six.ofVec f) d

/-- `d_i->Jc`. -/
def Hit.Jc : (c : Hit) → c.Data nv → Matrix (Fin c.dim) (Fin nv) ℝ
  | .three _, d => DI3.Jc d
  | .six _, d => of (below (DI6.Jc d).lin (DI6.Jc d).ang)

/-- `d_i->dv0_dq`. -/
def Hit.dv0 : (c : Hit) → c.Data nv → Matrix (Fin c.dim) (Fin nv) ℝ
  | .three _, d => DI3.dv0 d
  | .six _, d => of (below (DI6.dv0 d).lin (DI6.dv0 d).ang)

/-- What `updateRneaDiff` adds to `dtau_dq` for an impulse, multiple-impulses.hxx L262-271: nothing for one of type `LOCAL`. -/
def Hit.added (c : Hit) (r : Six × Mat nv nv) : Mat nv nv := match c.type with
  | .loc => 0
  | _ => r.2

/-- What Pinocchio computes of a robot at a configuration: mass matrix, the kinematics of each joint with a joint velocity,
`computeRNEADerivatives` at zero velocity with a joint acceleration and external forces, `computeGeneralizedGravityDerivatives`. -/
structure Body (Q : Type) (nv nj : ℕ) where
  M : Q → Mat nv nv
  kin : Q → (Fin nv → ℝ) → Fin nj → Kin nv
  rneaDq : Q → (Fin nv → ℝ) → (Fin nj → Six) → Mat nv nv
  gravDq : Q → Mat nv nv

/-- The active impulses of a node, in the order of the container, and the joints that carry them (multiple-impulses.hxx L182-183). -/
structure Blow (nj : ℕ) where
  n : ℕ
  c : Fin n → Hit
  joint : Fin n → Fin nj

variable {Q : Type}

/-- `get_nc` of the container. -/
def Blow.rows (S : Blow nj) : ℕ := ∑ i, (S.c i).dim

/-- The impulse a row belongs to, and which of its rows it is, multiple-impulses.hxx L99-102. -/
def Blow.row (S : Blow nj) (r : Fin S.rows) : (i : Fin S.n) × Fin (S.c i).dim := finSigmaFinEquiv.symm r

/-- `force.segment(nc, nc_i)`, multiple-impulses.hxx L179-180. -/
def Blow.part (S : Blow nj) (l : Fin S.rows → ℝ) (i : Fin S.n) : Fin (S.c i).dim → ℝ := fun j => l (finSigmaFinEquiv ⟨i, j⟩)

/-- The data of the impulses after `calc`, multiple-impulses.hxx L99. The code has the velocity before the impact in Pinocchio's data; `calc` of
the impulses reads only the placement and the Jacobian, so that the model uses zero velocity. -/
def Blow.calc (R : Body Q nv nj) (S : Blow nj) (old : Q → ∀ i, (S.c i).Data nv) (q : Q) (i : Fin S.n) : (S.c i).Data nv :=
  (S.c i).calc (R.kin q 0 (S.joint i)) (old q i)

/-- `updateForce` of one impulse after `calc`. -/
def Blow.reply (R : Body Q nv nj) (S : Blow nj) (old : Q → ∀ i, (S.c i).Data nv) (q : Q) (l : Fin S.rows → ℝ) (i : Fin S.n) : Six × Mat nv nv :=
  (S.c i).force (S.part l i) (S.calc R old q i)

/-- The external forces after `updateForce`, multiple-impulses.hxx L163-189: zero, then one assignment for each impulse. -/
def Blow.fext (R : Body Q nv nj) (S : Blow nj) (old : Q → ∀ i, (S.c i).Data nv) (q : Q) (l : Fin S.rows → ℝ) : Fin nj → Six :=
  (List.finRange S.n).foldl (fun F i => Function.update F (S.joint i) (S.reply R old q l i).1) fun _ => ⟨0, 0⟩

/-- The stacked quantities: `Jc` of `calc` (multiple-impulses.hxx L91-104), `dv0_dq` of `calcDiff` (L120-135) after
`computeForwardKinematicsDerivatives` with the velocity after the impact (impulse-fwddyn.hxx L268-270), the derivatives of RNEA with the external
forces (L259-261) and of gravity (L262-263), and what `updateRneaDiff` adds (L271). How the impact problem is solved stays a parameter. -/
def Blow.impacts (R : Body Q nv nj) (S : Blow nj) (old : Q → ∀ i, (S.c i).Data nv)
    (imp : Mat nv nv → (Fin nv → ℝ) → Mat S.rows nv → ℝ → ℝ → (Fin nv → ℝ) × (Fin S.rows → ℝ))
    (kinv : Mat nv nv → Mat S.rows nv → ℝ → Matrix (Fin nv ⊕ Fin S.rows) (Fin nv ⊕ Fin S.rows) ℝ) : Fwd.Impacts Q nv S.rows where
  M := R.M
  J q := of fun r => (S.c (S.row r).1).Jc (S.calc R old q (S.row r).1) (S.row r).2
  rneaDq q a l := R.rneaDq q a (S.fext R old q l)
  dtau q l := ∑ i, (S.c i).added (S.reply R old q l i)
  lay := ⟨fun r => (S.row r).1, fun r => S.joint (S.row r).1⟩
  gravDq := R.gravDq
  dv0 q v := of fun r => (S.c (S.row r).1).dv0
    ((S.c (S.row r).1).diff (R.kin q v (S.joint (S.row r).1)) (S.calc R old q (S.row r).1)) (S.row r).2
  imp := imp
  kinv := kinv

end

end Verif.Con
