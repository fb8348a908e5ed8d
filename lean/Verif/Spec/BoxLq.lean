import Verif.Model.BoxLq

/-! # Specification vocabulary: linear-quadratic problems with control limits -/

namespace Verif.Lq
open Verif

variable {K : Type} [Field K] [LinearOrder K] {n m : Nat}

/-- The controls of the nodes below `T` are within their limits. -/
def CtrlLimits.Within (lim : CtrlLimits K m) (T : Nat) (us : Nat → Fin m → K) : Prop :=
  ∀ t < T, lim.has t = true → ∀ i, lim.lb t i ≤ us t i ∧ us t i ≤ lim.ub t i

/-- `us` is within the limits and no control sequence within the limits costs less. -/
def OptimalWithin (P : LqProb K n (fun _ => m)) (lim : CtrlLimits K m) (us : Nat → Fin m → K) : Prop :=
  lim.Within P.T us ∧ ∀ vs, lim.Within P.T vs → total P us ≤ total P vs

end Verif.Lq
