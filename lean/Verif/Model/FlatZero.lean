import Verif.Flt
import Mathlib.Analysis.SpecialFunctions.Log.Basic

/-!
# The two flat activations with the special values of floating-point numbers

`core/activations/quadratic-flat-exp.hpp` and `quadratic-flat-log.hpp`, with infinities and NaN. `Model/Activations` has the same functions
over the real numbers, where a division by zero has a value; here it has the one of IEEE 754.

Simplifications: finite values are exact; a zero has a positive sign.
-/

namespace Verif.Activations

noncomputable section

/-- Floating-point values. -/
abbrev F := Flt ℝ

/-- `-a`. -/
def F.neg : F → F
  | .fin a => .fin (-a)
  | .pinf => .ninf
  | .ninf => .pinf
  | .nan => .nan

/-- `a + b`, IEEE 754. -/
def F.add : F → F → F
  | .fin a, .fin b => .fin (a + b)
  | .nan, _ => .nan
  | _, .nan => .nan
  | .pinf, .ninf => .nan
  | .ninf, .pinf => .nan
  | .pinf, _ => .pinf
  | _, .pinf => .pinf
  | .ninf, _ => .ninf
  | _, .ninf => .ninf

/-- A finite value times `+inf`. -/
def F.scale (a : ℝ) : F := if a = 0 then .nan else if a < 0 then .ninf else .pinf

/-- `a * b`, IEEE 754. -/
def F.mul : F → F → F
  | .fin a, .fin b => .fin (a * b)
  | .nan, _ => .nan
  | _, .nan => .nan
  | .fin a, .pinf => F.scale a
  | .pinf, .fin a => F.scale a
  | .fin a, .ninf => (F.scale a).neg
  | .ninf, .fin a => (F.scale a).neg
  | .pinf, .pinf => .pinf
  | .ninf, .ninf => .pinf
  | .pinf, .ninf => .ninf
  | .ninf, .pinf => .ninf

/-- `a / b`, IEEE 754. -/
def F.div : F → F → F
  | .fin a, .fin b => if b = 0 then F.scale a else .fin (a / b)
  | .nan, _ => .nan
  | _, .nan => .nan
  | .fin _, _ => .fin 0
  | .pinf, .fin b => if b < 0 then .ninf else .pinf
  | .ninf, .fin b => if b < 0 then .pinf else .ninf
  | _, _ => .nan

/-- `exp`, C11 F.10.3.1. -/
def F.exp : F → F
  | .fin a => .fin (Real.exp a)
  | .pinf => .pinf
  | .ninf => .fin 0
  | .nan => .nan

/-- `log`, C11 F.10.3.7. -/
def F.log : F → F
  | .fin a => if a = 0 then .ninf else if a < 0 then .nan else .fin (Real.log a)
  | .pinf => .pinf
  | _ => .nan

/-- The constructors, quadratic-flat-exp.hpp L57-63, quadratic-flat-log.hpp L56-62: a negative `alpha` is refused. -/
def flatAccepts (alpha : F) : Bool := !alpha.ltb (.fin 0)

variable {n : ℕ}

/-- `r.squaredNorm()`. -/
def sqNorm (r : Fin n → ℝ) : F := .fin (∑ i, r i * r i)

/-- `calc`, quadratic-flat-exp.hpp L81-82: `a0` and `a_value`. -/
def flatExpCalc (alpha : F) (r : Fin n → ℝ) : F × F :=
  let a0 := F.exp (F.div (F.neg (sqNorm r)) alpha)
  (a0, F.add (.fin 1) (F.neg a0))

/-- `calcDiff`, quadratic-flat-exp.hpp L100-101: `Ar`. -/
def flatExpDiff (alpha a0 : F) (r : Fin n → ℝ) : Fin n → F :=
  let a1 := F.mul (F.div (.fin 2) alpha) a0
  fun i => F.mul a1 (.fin (r i))

/-- `calc`, quadratic-flat-log.hpp L79-80. -/
def flatLogCalc (alpha : F) (r : Fin n → ℝ) : F × F :=
  let a0 := F.div (sqNorm r) alpha
  (a0, F.log (F.add (.fin 1) a0))

/-- `calcDiff`, quadratic-flat-log.hpp L98-99. -/
def flatLogDiff (alpha a0 : F) (r : Fin n → ℝ) : Fin n → F :=
  let a1 := F.div (.fin 2) (F.add alpha (F.mul alpha a0))
  fun i => F.mul a1 (.fin (r i))

end

end Verif.Activations
