import Verif.Spec.Lq

/-! # Specification vocabulary for regularised steps -/

namespace Verif.Lq
open Verif Matrix

variable {K : Type} [Field K] {n : Nat} {nu : Nat → Nat}

/-- The squared distance between the candidate `xs, us` and the trajectory driven by the controls `vs` from the initial
state: the squares of all differences of controls and states. -/
def moved (P : LqProb K n nu) (xs : Nat → Fin n → K) (us vs : ∀ t, Fin (nu t) → K) : K :=
  (∑ t ∈ Finset.range P.T, (vs t - us t) ⬝ᵥ (vs t - us t)) +
    ∑ t ∈ Finset.range (P.T + 1), (traj P vs 0 P.x0 t - xs t) ⬝ᵥ (traj P vs 0 P.x0 t - xs t)

end Verif.Lq
