import Verif.Spec.Nl

/-!
# What success means on nonlinear problems (C143)
-/

namespace Verif.Nl
open Verif Verif.Solve Verif.Lq Matrix

variable {n m : Nat}

/-- First-order effect on the states of a change `v` of the controls. -/
def response (L : Lin ℝ n m) (v : Nat → Fin m → ℝ) : Nat → Fin n → ℝ
  | 0 => 0
  | t + 1 => (L.d t).Fx *ᵥ response L v t + (L.d t).Fu *ᵥ v t

/-- The size of a change `v` of the controls, as a solver with the Hessians of `L` and the regularisation `rho` sees it: the
second-order term of the costs along the linearised dynamics, plus `rho` times the squared norms of the changes of the
controls and of the states. -/
noncomputable def size (L : Lin ℝ n m) (rho : ℝ) (T : Nat) (v : Nat → Fin m → ℝ) : ℝ :=
  let y := response L v
  (∑ t ∈ Finset.range T, (y t ⬝ᵥ ((L.d t).Lxx *ᵥ y t) + 2 * (y t ⬝ᵥ ((L.d t).Lxu *ᵥ v t)) + v t ⬝ᵥ ((L.d t).Luu *ᵥ v t)
      + rho * (v t ⬝ᵥ v t + y t ⬝ᵥ y t)))
    + (y T ⬝ᵥ (L.LxxT *ᵥ y T) + rho * (y T ⬝ᵥ y T))

end Verif.Nl
