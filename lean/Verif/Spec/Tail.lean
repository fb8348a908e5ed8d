import Verif.Spec.Policy

/-! # Specification: solving again the rest of a problem -/

namespace Verif.Lq
open Verif Verif.Solve Matrix

variable {K : Type} [Field K] {n : Nat} {nu : Nat → Nat}

/-- The rest of the problem `P` from node `k` on, started in state `x`: the shooting problem a user builds from
`x`, the running models `k, …, T-1` and the terminal model. -/
def tail (P : LqProb K n nu) (k : Nat) (x : Fin n → K) : LqProb K n (fun t => nu (k + t)) where
  T := P.T - k
  node := fun t => P.node (k + t)
  term := P.term
  x0 := x

/-- `xs`, `us` are the last part, from node `k` on, of `ys`, `vs`; `N` is the number of nodes left. -/
def IsRest {m : Nat} (N k : Nat) (xs ys : Nat → Fin n → K) (us vs : Nat → Fin m → K) : Prop :=
  (∀ t ≤ N, xs t = ys (k + t)) ∧ ∀ t < N, us t = vs (k + t)

end Verif.Lq
