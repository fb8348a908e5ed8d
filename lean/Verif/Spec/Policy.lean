import Verif.Model.LqSolve

/-! # Specification: the feedback policy stored by a solver -/

namespace Verif.Lq
open Verif Matrix

variable {K : Type} [Field K] {n m : Nat}

/-- `ys`, `vs`: what the policy `u = us[j] - K[j] (x - xs[j])`, applied from state `x` at node `t`, produces. -/
structure FromPolicy (P : LqProb K n (fun _ => m)) (xs : Nat → Fin n → K) (us : Nat → Fin m → K)
    (gain : Nat → (Fin n → K) → Fin m → K) (t : Nat) (x : Fin n → K) (ys : Nat → Fin n → K) (vs : Nat → Fin m → K) :
    Prop where
  init : ys t = x
  control : ∀ j, t ≤ j → j < P.T → vs j = us j - gain j (ys j - xs j)
  step : ∀ j, t ≤ j → j < P.T → ys (j + 1) = (P.node j).next (ys j) (vs j)

/-- The policy is optimal from every state at every node. -/
def PolicyOptimal [LE K] (P : LqProb K n (fun _ => m)) (xs : Nat → Fin n → K) (us : Nat → Fin m → K)
    (gain : Nat → (Fin n → K) → Fin m → K) : Prop :=
  ∀ t ≤ P.T, ∀ x ys vs, FromPolicy P xs us gain t x ys vs → ∀ ws : Nat → Fin m → K,
    costToGo P vs t x ≤ costToGo P ws t x

end Verif.Lq
