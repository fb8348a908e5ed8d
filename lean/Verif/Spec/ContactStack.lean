import Verif.Model.ContactStack
import Verif.Spec.ContactFrame
import Verif.Spec.FwdDyn

/-!
# What is assumed of a robot in contact

Pinocchio's kinematics and derivatives of the inverse dynamics are those of one robot (assumed, not checked against Pinocchio, which is not in
the repository), and which contacts are covered.
-/

namespace Verif.Con

open Matrix

variable {nv nj : ℕ} {X : Type}

/-- A curve of states with tangent `δ` at `0`: the joints move as their Jacobians say, the partial derivatives of velocities and accelerations
are those computed, and `computeRNEADerivatives` differentiates the torque `M a + h - Σ Jᵀ φ` that a joint acceleration and external forces
`φ`, held in the frames of the joints, ask for. -/
structure RobotAlong (P : Fwd.Rigid X nv) (R : Robot X nv nj) (x : ℝ → X) (δ : Tan nv → ℝ) : Prop where
  M : ContinuousAt (fun s => P.M (x s)) 0
  acc : ∀ s a j, Accelerated (R.kin (x s) 0 j) (R.kin (x s) a j) a
  along : ∀ a j, Along (fun s => R.kin (x s) a j) δ
  lin : ∀ j p q, ContinuousAt (fun s => (R.kin (x s) 0 j).J.lin p q) 0
  ang : ∀ j p q, ContinuousAt (fun s => (R.kin (x s) 0 j).J.ang p q) 0
  rnea : ∀ a φ, HasDerivAt (fun s => P.M (x s) *ᵥ a + P.nle (x s) - ∑ j, (R.kin (x s) 0 j).J.tmul (φ j)) (R.rneaDx (x 0) a φ *ᵥ δ) 0

/-- Placement of the contact frame in the frame of the joint. -/
def Any.jMf : Any → Pose
  | .one m => m.jMf
  | .two m => m.jMf
  | .three m => m.jMf
  | .six m => m.jMf

/-- The contacts covered by the derivatives: the placements they are given are placements, the logarithm of the error of a contact of six
dimensions is differentiable where it is used, and a contact of two dimensions has no gain on the position, or stays upright. -/
def Any.Fits (L : Log) (k : ℝ → Kin nv) (δ : Tan nv → ℝ) : Any → Prop
  | .one m => Rot m.jMf.rot ∧ Rot m.axis
  | .two m => Rot m.jMf.rot ∧ (m.g.kp = 0 ∨ (orient (k 0) m.jMf 0 1 = 0 ∧ orient (k 0) m.jMf 2 1 = 0))
  | .three m => Rot m.jMf.rot
  | .six m => Rot m.jMf.rot ∧ Rot m.pref.rot
      ∧ (m.g.kp ≠ 0 → LogAlong L (fun s => m.pref.inv.mul ((k s).oMf m.jMf)) (m.jMf.actInv ((k 0).J.mulVec (δ ∘ Sum.inl))) 0)

/-- No two contacts are on the same joint. -/
def Scene.Distinct (S : Scene nj) : Prop := Function.Injective S.joint

variable {Q : Type}

/-- The kinematics at a configuration: placements and Jacobians do not depend on the velocity, the velocities of the joints are the products. -/
structure Velocities (B : Body Q nv nj) (q : Q) : Prop where
  rot : ∀ j, Rot (B.kin q 0 j).oMi.rot
  oMi : ∀ v j, (B.kin q v j).oMi = (B.kin q 0 j).oMi
  J : ∀ v j, (B.kin q v j).J = (B.kin q 0 j).J
  vel : ∀ v j, (B.kin q v j).v = (B.kin q 0 j).J.mulVec v

/-- The same for a robot hit at a configuration: a curve of configurations with tangent `δ` at `0`. -/
structure BodyAlong (R : Body Q nv nj) (grav : Q → Fin nv → ℝ) (q : ℝ → Q) (δ : Fin nv → ℝ) : Prop where
  M : ContinuousAt (fun s => R.M (q s)) 0
  kin : ∀ s, Velocities R (q s)
  along : ∀ v j, Along (fun s => R.kin (q s) v j) (Sum.elim δ 0)
  lin : ∀ j p r, ContinuousAt (fun s => (R.kin (q s) 0 j).J.lin p r) 0
  ang : ∀ j p r, ContinuousAt (fun s => (R.kin (q s) 0 j).J.ang p r) 0
  rnea : ∀ a φ, HasDerivAt (fun s => R.M (q s) *ᵥ a + grav (q s) - ∑ j, (R.kin (q s) 0 j).J.tmul (φ j)) (R.rneaDq (q 0) a φ *ᵥ δ) 0
  grav : HasDerivAt (fun s => grav (q s)) (R.gravDq (q 0) *ᵥ δ) 0

/-- Placement of the frame of the impulse in the frame of the joint. -/
def Hit.jMf : Hit → Pose
  | .three m => m.jMf
  | .six m => m.jMf

/-- No two impulses are on the same joint. -/
def Blow.Distinct (S : Blow nj) : Prop := Function.Injective S.joint

end Verif.Con
