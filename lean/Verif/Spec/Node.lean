import Verif.Model.Node
import Verif.Spec.ContactStack
import Verif.Spec.IntegratorsManifold
import Verif.Spec.ResidualCost
import Verif.Spec.Activations

/-!
# What is assumed of the parts of a node

At one state and control: what the node takes from Pinocchio, from the actuation and from the residuals is differentiable and comes with its
derivatives. Nothing is said about the node itself.
-/

namespace Verif.Node

open Matrix Filter Topology
open Verif.Mb (Pin)
open Verif.Im (X VecJac)
open Verif.Integrators (Ix)

variable {P : Pin} {nw nj nc : ℕ}

/-- The states `x ⊕ c s` for a curve `c` of increments with tangent `δ` at zero. -/
structure Through (c : ℝ → Ix P.nv → ℝ) (δ : Ix P.nv → ℝ) : Prop where
  zero : c 0 = 0
  tangent : HasDerivAt c δ 0

/-- A robot in contact around a state: along every curve Pinocchio's quantities have the derivatives it computes and the contacts are
covered; the actuation comes with its derivatives; the contact problem is regular around the state. -/
structure GroundOk (B : Fwd.Rigid (X P) P.nv) (R : Con.Robot (X P) P.nv nj) (L : Con.Log) (S : Con.Scene nj) (C : Fwd.Contacts (X P) P.nv nc)
    (A : Fwd.Act (X P) P.nv nw) (m : Fwd.CMod P.nv) (x : X P) (w : Fin nw → ℝ) : Prop where
  robot : ∀ c δ, Through c δ → Con.RobotAlong B R (fun s => Im.int x (c s)) δ
  fits : ∀ i c δ, Through c δ → (S.c i).Fits L (fun s => R.kin (Im.int x (c s)) 0 (S.joint i)) δ
  act : VecJac A.tau (A.dx x w) (A.du x w) x w
  regular : ∀ᶠ e in 𝓝 0, Fwd.Regular (B.M (Im.int x e) + diagonal (Fwd.inertia m.arm)) (C.J (Im.int x e)) m.damping

/-- A robot without contacts around a state. -/
structure AirOk (B : Fwd.Rigid (X P) P.nv) (A : Fwd.Act (X P) P.nv nw) (m : Fwd.Arm P.nv) (x : X P) (w : Fin nw → ℝ) : Prop where
  robot : ∀ c δ, Through c δ → Fwd.RigidAlong B (fun s => Im.int x (c s)) δ
  act : VecJac A.tau (A.dx x w) (A.du x w) x w
  spd : ∀ᶠ e in 𝓝 0, Fwd.Spd (B.M (Im.int x e))
  spdArm : ∀ᶠ e in 𝓝 0, Fwd.Spd (B.M (Im.int x e) + diagonal (Fwd.inertia m))

/-- A cost around a state and control: the residual comes with its derivatives and declares what it depends on; the parameters of the
activation are accepted and it is smooth at the residual. -/
structure TermOk (t : Term P nw) (x : X P) (w : Fin nw → ℝ) : Prop where
  res : VecJac t.res.res ((t.res.diff x w).1.submatrix id finSumFinEquiv) (t.res.diff x w).2 x w
  declared : ResidualCost.Spec.Consistent t.res (t.res.diff x w).1 (t.res.diff x w).2
  params : Activations.Params t.act.act
  smooth : Activations.SmoothAt t.act.act (t.res.res x w)

/-- The same at a terminal node, for a residual that depends on the state. -/
structure TermOkT (t : Term P nw) (x : X P) : Prop where
  res : t.res.q = true ∨ t.res.v = true →
    Deriv.HasJac1 (fun e => t.res.resT (Im.int x e)) ((t.res.diffT x).1.submatrix id finSumFinEquiv) 0
  declared : ResidualCost.Spec.Consistent t.res (t.res.diffT x).1 (t.res.diffT x).2
  params : Activations.Params t.act.act
  smooth : t.res.q = true ∨ t.res.v = true → Activations.SmoothAt t.act.act (t.res.resT x)

/-- What the costs should be: the weighted sum of the activations of the residuals, over the active costs. -/
noncomputable def total (ts : List (Term P nw)) (x : X P) (w : Fin nw → ℝ) : ℝ :=
  (ts.map fun t => if t.active then t.weight * Activations.value t.act.act (t.res.res x w) else 0).sum

/-- The same at a terminal node: the costs that depend on the state. -/
noncomputable def totalT (ts : List (Term P nw)) (x : X P) : ℝ :=
  (ts.map fun t => if t.active = true ∧ (t.res.q = true ∨ t.res.v = true) then t.weight * Activations.value t.act.act (t.res.resT x)
    else 0).sum

end Verif.Node
