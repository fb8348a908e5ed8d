import Verif.Model.ContactFrame
import Mathlib.Analysis.Calculus.Deriv.Basic
import Mathlib.Analysis.Calculus.FDeriv.Pi
import Mathlib.Topology.Instances.Matrix

/-!
# Kinematics of a joint: what is assumed of Pinocchio

A placement moves with a body velocity; Pinocchio's velocities, accelerations and partial derivatives are those of the placement.
-/

namespace Verif.Con

open Matrix

variable {nv : ℕ}

/-- A rotation. -/
structure Rot (R : M3) : Prop where
  orth : Rᵀ * R = 1
  det : R.det = 1

/-- The placement `M` is one of a rigid body, and moves at time `t` with the velocity `m`, expressed in the body. -/
structure Moves (M : ℝ → Pose) (m : Six) (t : ℝ) : Prop where
  rot : ∀ s, Rot (M s).rot
  drot : ∀ i j, HasDerivAt (fun s => (M s).rot i j) (((M t).rot * skew m.ang) i j) t
  dtrans : HasDerivAt (fun s => (M s).trans) ((M t).rot *ᵥ m.lin) t

/-- Derivative of a spatial vector. -/
structure HasSix (f : ℝ → Six) (f' : Six) (t : ℝ) : Prop where
  lin : HasDerivAt (fun s => (f s).lin) f'.lin t
  ang : HasDerivAt (fun s => (f s).ang) f'.ang t

/-- Product of a matrix with six rows and a vector. -/
def Jac.mulVec (X : Jac nv) (u : Fin nv → ℝ) : Six := ⟨X.lin *ᵥ u, X.ang *ᵥ u⟩

/-- Product of the transpose and a spatial vector. -/
def Jac.tmul (X : Jac nv) (f : Six) : Fin nv → ℝ := X.linᵀ *ᵥ f.lin + X.angᵀ *ᵥ f.ang

/-- Sum of spatial vectors. -/
def Six.add (m n : Six) : Six := ⟨m.lin + n.lin, m.ang + n.ang⟩

/-- A motion of the system in time: velocity and acceleration are those of the joint. -/
structure Trajectory (k : ℝ → Kin nv) : Prop where
  vel : ∀ t, Moves (fun s => (k s).oMi) (k t).v t
  acc : ∀ t, HasSix (fun s => (k s).v) (k t).a t

/-- A curve of states with tangent `δ` at `0`, the joint acceleration being held: the joint moves as its Jacobian says, and
the results of `getJointAccelerationDerivatives` are the derivatives of velocity and acceleration. -/
structure Along (k : ℝ → Kin nv) (δ : Tan nv → ℝ) : Prop where
  pose : Moves (fun s => (k s).oMi) ((k 0).J.mulVec (δ ∘ Sum.inl)) 0
  vel : HasSix (fun s => (k s).v) (((k 0).vq.mulVec (δ ∘ Sum.inl)).add ((k 0).J.mulVec (δ ∘ Sum.inr))) 0
  acc : HasSix (fun s => (k s).a) (((k 0).aq.mulVec (δ ∘ Sum.inl)).add ((k 0).av.mulVec (δ ∘ Sum.inr))) 0

/-- The same state with another joint acceleration: only the acceleration and its derivatives differ. -/
structure SameState (k k' : Kin nv) : Prop where
  oMi : k.oMi = k'.oMi
  v : k.v = k'.v
  J : k.J = k'.J
  vq : k.vq = k'.vq

/-- Position of the contact frame in the world. -/
def position (k : Kin nv) (jMf : Pose) : V3 := (k.oMf jMf).trans

/-- Orientation of the contact frame in the world. -/
def orient (k : Kin nv) (jMf : Pose) : M3 := (k.oMf jMf).rot

/-- Coordinates of a vector of the world in the directions a contact of the given type refers to: those of the contact frame,
or those of the world. -/
def Ref.express (r : Ref) (R : M3) (w : V3) : V3 := match r with
  | .loc => Rᵀ *ᵥ w
  | _ => w

/-- The direction a contact of one dimension constrains: the last row of its rotation. -/
def C1.direction (m : C1) : V3 := m.axis 2

/-- The direction a contact of one dimension announces (`print`, contact-1d.hxx L229-232) and measures its reference along
(L84-85): the last column of its rotation. -/
def C1.announced (m : C1) : V3 := m.axis *ᵥ unitZ

/-- The components `x` and `z` of a vector. -/
def xz (w : V3) : Fin 2 → ℝ := ![w 0, w 2]

/-- The same state `k` and `k'`, the second with the joint acceleration increased by `α`. -/
structure Accelerated (k k' : Kin nv) (α : Fin nv → ℝ) : Prop where
  same : SameState k k'
  a : k'.a = k.a.add (k.J.mulVec α)

/-- The combination `e'' + kd e' + kp e` that a stabilised contact sets to zero. -/
noncomputable def oscillator (g : Gains) (e : ℝ → V3) (t : ℝ) : V3 := deriv (deriv e) t + g.kd • deriv e t + g.kp • e t

/-- Energy of the error: `|e'|² + kp |e|²`. -/
noncomputable def energy (g : Gains) (e : ℝ → V3) (t : ℝ) : ℝ := deriv e t ⬝ᵥ deriv e t + g.kp * (e t ⬝ᵥ e t)

/-- `log6` and `Jlog6` along a placement that moves with velocity `m` at time `t`: the logarithm has the derivative `Jlog6 m`.
(It holds away from the rotations by half a turn.) -/
def LogAlong (L : Log) (M : ℝ → Pose) (m : Six) (t : ℝ) : Prop :=
  HasSix (fun s => L.log (M s))
    ⟨(L.jlog (M t)).ll *ᵥ m.lin + (L.jlog (M t)).la *ᵥ m.ang, (L.jlog (M t)).al *ᵥ m.lin + (L.jlog (M t)).aa *ᵥ m.ang⟩ t

end Verif.Con
