import Verif.Model.Actuation
import Verif.Spec.Deriv

/-!
# Specification: actuation maps
-/

namespace Verif.Act.Spec

open Matrix

variable {K : Type*}

/-- The selection matrix of a robot with `nfb` unactuated coordinates followed by `m` actuated ones:
control `i` is the torque of coordinate `nfb + i`. -/
def select [Zero K] [One K] (nv nfb : ℕ) : Matrix (Fin nv) (Fin (nv - nfb)) K :=
  Matrix.of fun j i => if j.val = nfb + i.val then 1 else 0

/-- Saturation of `s` at `lb` and `ub`. -/
def clamp (lb ub s : ℝ) : ℝ := max lb (min ub s)

variable [Field K]

/-- The thrust direction: the third axis of the thruster's frame. -/
def axis (p : Thruster K) : Fin 3 → K := fun i => p.rot i 2

/-- Wrench of a unit thrust at the base: the force is along the thrust axis, the moment is the lever
arm times the force, plus the drag torque, positive along the axis for a clockwise propeller and
negative for a counter-clockwise one. -/
def wrench (p : Thruster K) (r : ℕ) : K :=
  if h : r < 3 then axis p ⟨r, h⟩
  else if h : r - 3 < 3 then
    crossProduct p.trans (axis p) ⟨r - 3, h⟩
      + (if p.cw then p.ctorque else -p.ctorque) * axis p ⟨r - 3, h⟩
  else 0

/-- The columns of the thrusters: column `c` is the wrench of thruster `c`. -/
def thrustPart {nj nt : ℕ} (ts : List (Thruster K)) : Matrix (Fin (6 + nj)) (Fin (nj + nt)) K :=
  Matrix.of fun r c => match ts[c.val]? with
    | some p => wrench p r.val
    | none => 0

/-- The columns of the joints: control `nt + k` is the torque of joint `k`, coordinate `6 + k`. -/
def jointPart {nj nt : ℕ} : Matrix (Fin (6 + nj)) (Fin (nj + nt)) K :=
  Matrix.of fun r c => if ∃ k : Fin nj, r.val = 6 + k.val ∧ c.val = nt + k.val then 1 else 0

/-- The map from thrusts and joint torques to generalised torques. -/
def thrustMap {nj nt : ℕ} (ts : List (Thruster K)) : Matrix (Fin (6 + nj)) (Fin (nj + nt)) K :=
  thrustPart ts + jointPart

end Verif.Act.Spec
