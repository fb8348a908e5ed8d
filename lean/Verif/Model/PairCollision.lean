import Verif.Model.ContactFrame

/-!
# Model: the pair-collision residual

`include/crocoddyl/multibody/residuals/pair-collision.hxx` and `pair-collision.hpp` (compiled only with
`CROCODDYL_WITH_PAIR_COLLISION` and hpp-fcl; the header says it is disabled at this commit, `hpp` L199-203).

The nearest points hpp-fcl finds are an argument of `calc`. The joint Jacobian of Pinocchio in the frame
`LOCAL_WORLD_ALIGNED` is modelled by the usual formula: the Jacobian of the joint turned into the directions of
the world; only the columns of the joints that move the body are written (not checked against Pinocchio, which is not
in the repository). Real numbers.
-/

namespace Verif.Pc
open Matrix Verif.Con

noncomputable section
variable {nv : ℕ}

/-- `ResidualDataPairCollisionTpl`, pair-collision.hpp L180-187: the nearest points in `geometry`, `r`, `d`, `J`, and
the two halves of `Rx` (configuration, velocity). -/
structure Data (nv : ℕ) where
  near : V3 × V3
  r : V3
  d : V3
  J : Jac nv
  left : Mat 3 nv
  right : Mat 3 nv

/-- New data, pair-collision.hpp L160-177 (`Base` sets `r` and `Rx` to zero). -/
def Data.new (near : V3 × V3) : Data nv := ⟨near, 0, 0, ⟨0, 0⟩, 0, 0⟩

/-- `pinocchio::getJointJacobian(…, LOCAL_WORLD_ALIGNED, J)` for the joint with kinematics `k`: the columns in
`supp` are written, the others kept. -/
def jointJacobian (supp : Fin nv → Bool) (k : Kin nv) (J : Jac nv) : Jac nv where
  lin := fun i j => if supp j then (k.oMi.rot * k.J.lin) i j else J.lin i j
  ang := fun i j => if supp j then (k.oMi.rot * k.J.ang) i j else J.ang i j

/-- `calc`, pair-collision.hxx L38-55. -/
def Data.calc (D : Data nv) (near : V3 × V3) : Data nv := { D with near := near, r := near.1 - near.2 }

/-- `calcDiff`, pair-collision.hxx L57-78. -/
def Data.calcDiff (D : Data nv) (supp : Fin nv → Bool) (k : Kin nv) : Data nv :=
  let d := D.near.1 - k.oMi.trans
  let J := jointJacobian supp k D.J
  let J : Jac nv := { J with lin := J.lin + (skew d)ᵀ * J.ang }
  { D with d := d, J := J, left := J.lin }

/-- `Rx`. -/
def Data.Rx (D : Data nv) : Matrix (Fin 3) (Tan nv) ℝ := fromCols D.left D.right

/-- Calls on one data. -/
inductive Op (nv : ℕ) where
  | calc (near : V3 × V3)
  | calcDiff (k : Kin nv)

/-- One call. -/
def Data.step (supp : Fin nv → Bool) (D : Data nv) : Op nv → Data nv
  | .calc near => D.calc near
  | .calcDiff k => D.calcDiff supp k

/-- A history of calls. -/
def Data.run (supp : Fin nv → Bool) (ops : List (Op nv)) (D : Data nv) : Data nv := ops.foldl (Data.step supp) D

end
end Verif.Pc
