import Verif.Flt
import Mathlib.Algebra.Field.Defs
import Mathlib.Algebra.Order.Ring.Defs

/-!
# The bounds of the barrier activations (`ActivationBoundsTpl`)

File modelled: `/repo/include/crocoddyl/core/activations/quadratic-barrier.hpp` L19-112. `maxv` is
`std::numeric_limits<Scalar>::max()`; arithmetic on finite values is exact.
-/

namespace Verif.Bounds
open Verif

/-- The members `lb`, `ub`, `beta`; after construction all entries are finite. -/
structure Bounds (K : Type) where
  lb : List K
  ub : List K
  beta : K
deriving DecidableEq

variable {K : Type} [Field K] [LinearOrder K]

/-- The test of L42-48: both finite and `lb - ub > 0`. -/
def badPair : Flt K × Flt K → Bool
  | (.fin l, .fin u) => decide (0 < l - u)
  | _ => false

/-- L50-52: a lower bound that is not finite becomes `-max`. -/
def finLb (maxv : K) : Flt K → K
  | .fin l => l
  | _ => -maxv

/-- L53-55: an upper bound that is not finite becomes `max`. -/
def finUb (maxv : K) : Flt K → K
  | .fin u => u
  | _ => maxv

/-- Shrinking one pair by `beta`, L61-67. -/
def shrink (maxv b : K) (p : K × K) : K × K :=
  if p.1 ≠ -maxv ∧ p.2 ≠ maxv then
    let m := 1 / 2 * (p.1 + p.2)
    let d := 1 / 2 * (p.2 - p.1)
    (m - b * d, m + b * d)
  else p

/-- The constructor, L27-72; `none` is an exception (the object does not exist). A `beta` that is NaN passes
the test of L37 and is replaced by 1. -/
def make (maxv : K) (lower upper : List (Flt K)) (beta : Flt K) : Option (Bounds K) :=
  if lower.length ≠ upper.length then none
  else if beta.ltb (.fin 0) || (Flt.fin 1).ltb beta then none
  else if (lower.zip upper).any badPair then none
  else
    let ps := (lower.map (finLb maxv)).zip (upper.map (finUb maxv))
    match beta with
    | .fin b =>
      let ps := ps.map (shrink maxv b)
      some ⟨ps.map Prod.fst, ps.map Prod.snd, b⟩
    | _ => some ⟨ps.map Prod.fst, ps.map Prod.snd, 1⟩

/-- Copy constructor and assignment, L73-74, L85-92. -/
def copy (b : Bounds K) : Bounds K := ⟨b.lb, b.ub, b.beta⟩

/-- `cast<NewScalar>()`, L77-83, for a scalar conversion that changes no value (for example from `double` to
`double`): the constructor is applied to the stored bounds and `beta`. -/
def castB (maxv : K) (b : Bounds K) : Option (Bounds K) :=
  make maxv (b.lb.map .fin) (b.ub.map .fin) (.fin b.beta)

end Verif.Bounds
