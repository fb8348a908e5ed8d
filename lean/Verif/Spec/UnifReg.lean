import Verif.Spec.Ends

/-!
# Bounded derivative data (C145)
-/

namespace Verif.Nl
open Verif Verif.Solve Verif.Lq Matrix

variable {n m : Nat}

/-- Every entry of the derivatives of a node is at most `B` in absolute value. -/
structure BoundedD (B : ℝ) (d : Derivs ℝ n m) : Prop where
  Fx : ∀ i j, |d.Fx i j| ≤ B
  Fu : ∀ i j, |d.Fu i j| ≤ B
  Lx : ∀ i, |d.Lx i| ≤ B
  Lu : ∀ i, |d.Lu i| ≤ B
  Lxx : ∀ i j, |d.Lxx i j| ≤ B
  Lxu : ∀ i j, |d.Lxu i j| ≤ B
  Luu : ∀ i j, |d.Luu i j| ≤ B

/-- Every entry of the derivatives along a horizon of `T` nodes is at most `B` in absolute value. -/
structure Bounded (T : Nat) (B : ℝ) (L : Lin ℝ n m) : Prop where
  node : ∀ t < T, BoundedD B (L.d t)
  LxT : ∀ i, |L.LxT i| ≤ B
  LxxT : ∀ i j, |L.LxxT i j| ≤ B

/-- The parameters `c` with another `reg_max`. -/
def withMax (c : Cfg ℝ) (mx : ℝ) : Cfg ℝ := { c with reg := { c.reg with max := mx } }

end Verif.Nl
