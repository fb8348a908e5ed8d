/-!
# Which state the quantities that costs read were computed at

`include/crocoddyl/multibody/actions/{free-fwddyn,contact-fwddyn,impulse-fwddyn,free-invdyn,contact-invdyn}.hxx`: the sequence of
Pinocchio calls that each action model makes before it calls its costs.

Each quantity of Pinocchio's data carries the configuration and velocity it was last computed at. Which quantities an algorithm
writes is a table, of which only bounds are assumed. Left out: the quantities of the dynamics (accelerations,
torques, forces), the algorithms that only write those (`forwardDynamics`, `impulseDynamics`, `getKKTContactDynamicMatrixInverse`,
`cholesky`, `computeGeneralizedGravityDerivatives`), contacts and actuations, dimension checks.
-/

namespace Verif.Fsh

variable {Q V : Type}

/-- Quantities of Pinocchio's data: placements of the joints in their parents and in the world, velocities, Jacobians of the
joints, centre of mass, its Jacobian, momentum, and the terms from which the derivatives of velocities and of the momentum are
read. -/
inductive Qty
  | loc | place | vel | jac | com | jcom | hg | velD | hgD
  deriving DecidableEq, Repr

/-- Pinocchio's algorithms that take a configuration and a velocity. -/
inductive Kind
  | allTerms | fk | rnea | aba | com | rneaD | abaD | fkD
  deriving DecidableEq, Repr

/-- Calls of Pinocchio. -/
inductive Alg (Q V : Type)
  | run (k : Kind) (q : Q) (v : V)
  /-- `computeJointJacobians(model, data)` -/
  | jacobians
  /-- `updateGlobalPlacements(model, data)` -/
  | global
  /-- `jacobianCenterOfMass(model, data, false)` -/
  | jcom
  /-- `computeCentroidalMomentum(model, data)` -/
  | momentum

/-- Which quantities an algorithm writes. -/
abbrev Table := Kind → Qty → Bool

/-- The state each quantity was last computed at. -/
abbrev Stamps (Q V : Type) := Qty → Q × V

/-- One call of Pinocchio. -/
def Alg.apply (T : Table) (s : Stamps Q V) : Alg Q V → Stamps Q V
  | .run k q v => fun y => if T k y then (q, v) else s y
  | .jacobians => fun y => if y = .jac then s .place else s y
  | .global => fun y => if y = .place then s .loc else s y
  | .jcom => fun y => if y = .jcom then s .place else s y
  | .momentum => fun y => if y = .hg then ((s .place).1, (s .vel).2) else s y

/-- The action models. -/
inductive Act
  | freeFwd (armature : Bool) | contactFwd | impulse | freeInv | contactInv
  deriving DecidableEq, Repr

/-- Calls of an action model: with the state; the velocity after the impulse for impulse models (ignored by the others). The zero
velocity is `z`. -/
inductive Op (Q V : Type)
  | calc (q : Q) (v : V)
  | calcT (q : Q) (v : V)
  | diff (q : Q) (v next : V)
  | diffT (q : Q) (v next : V)
  | quasiStatic (q : Q)

/-- What contact inverse dynamics call before their contacts, in `calc` (contact-invdyn.hxx L147-148). -/
def invHead (q : Q) (v : V) : List (Alg Q V) := [.run .fk q v, .jacobians]

/-- What is called before the costs. Free forward dynamics: free-fwddyn.hxx L64-79, L103, L139-146, L163-177, L248. Contact forward
dynamics: contact-fwddyn.hxx L105-106, L157-158, L196, L244-257, L325-329. Impulses: impulse-fwddyn.hxx L210-211 (both kinds of
`calc`), L259-269 (both kinds of `calcDiff`), L185-189. Free inverse dynamics: free-invdyn.hxx L101-102, L129, L158, L178-191,
L238-243. Contact inverse dynamics: contact-invdyn.hxx L147-154, L189-190, L221-227, L255-268, L302-306.
`computeJointJacobians(model, data, q)` of `quasiStatic` is written as placements and Jacobians. -/
def Act.calls (z : V) : Act → Op Q V → List (Alg Q V)
  | .freeFwd false, .calc q v => [.run .aba q v, .global]
  | .freeFwd true, .calc q v => [.run .allTerms q v]
  | .freeFwd _, .calcT q v => [.run .allTerms q v]
  | .freeFwd false, .diff q v _ => [.run .abaD q v]
  | .freeFwd true, .diff q v _ => [.run .rneaD q v]
  | .freeFwd _, .diffT _ _ _ => []
  | .freeFwd _, .quasiStatic q => [.run .rnea q z]
  | .contactFwd, .calc q v => [.run .allTerms q v, .momentum]
  | .contactFwd, .calcT q v => [.run .allTerms q v, .momentum]
  | .contactFwd, .diff q v _ => [.run .rneaD q v]
  | .contactFwd, .diffT _ _ _ => []
  | .contactFwd, .quasiStatic q => [.run .allTerms q z, .run .fk q z, .jacobians, .run .rnea q z]
  | .impulse, .calc q v => [.run .allTerms q v, .momentum]
  | .impulse, .calcT q v => [.run .allTerms q v, .momentum]
  | .impulse, .diff q _ next => [.run .rneaD q z, .run .fkD q next]
  | .impulse, .diffT q _ next => [.run .rneaD q z, .run .fkD q next]
  | .impulse, .quasiStatic _ => []
  | .freeInv, .calc q v => [.run .rnea q v, .global]
  | .freeInv, .calcT q v => [.run .allTerms q v]
  | .freeInv, .diff q v _ => [.run .rneaD q v]
  | .freeInv, .diffT _ _ _ => []
  | .freeInv, .quasiStatic _ => []
  | .contactInv, .calc q v => invHead q v ++ [.run .rnea q v, .global, .run .com q v]
  | .contactInv, .calcT q v => [.run .allTerms q v, .momentum]
  | .contactInv, .diff q v _ => [.run .rneaD q v, .jcom]
  | .contactInv, .diffT _ _ _ => []
  | .contactInv, .quasiStatic q => [.run .allTerms q z, .run .fk q z, .jacobians, .run .rnea q z]

/-- What is called before the contacts or impulses, in the calls that evaluate them: contact-fwddyn.hxx L112, L204, L332,
contact-invdyn.hxx L149, L240, L312, impulse-fwddyn.hxx L216, L270 (both kinds of `calc` and `calcDiff`). -/
def Act.toContacts (z : V) : Act → Op Q V → Option (List (Alg Q V))
  | .contactInv, .calc q v => some (invHead q v)
  | .contactFwd, .calcT _ _ | .contactFwd, .diffT _ _ _ | .contactInv, .calcT _ _ | .contactInv, .diffT _ _ _ => none
  | .impulse, .quasiStatic _ | .freeFwd _, _ | .freeInv, _ => none
  | A, o => some (A.calls z o)

/-- One call of an action model, up to the evaluation of its costs. -/
def Act.step (T : Table) (z : V) (A : Act) (s : Stamps Q V) (o : Op Q V) : Stamps Q V :=
  (A.calls z o).foldl (Alg.apply T) s

/-- A list of calls. -/
def Act.run (T : Table) (z : V) (A : Act) (s : Stamps Q V) (ops : List (Op Q V)) : Stamps Q V :=
  ops.foldl (A.step T z) s

end Verif.Fsh
