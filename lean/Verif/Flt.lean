import Mathlib.Order.Defs.LinearOrder

/-!
# Floating-point values with infinities and NaN

Modelling language: the finite values form an exact ordered type `K` (rounding is not modelled), the
special values and comparisons follow IEEE 754. No file of /repo is modelled here.
-/

namespace Verif

/-- A finite value, an infinity or NaN. -/
inductive Flt (K : Type) where
  | fin : K → Flt K
  | pinf
  | ninf
  | nan
deriving DecidableEq, Repr

namespace Flt
variable {K : Type}

/-- `a < b` in C++. -/
def ltb [LT K] [DecidableLT K] : Flt K → Flt K → Bool
  | .fin a, .fin b => decide (a < b)
  | .fin _, .pinf => true
  | .ninf, .fin _ => true
  | .ninf, .pinf => true
  | _, _ => false

/-- `a <= b` in C++. -/
def leb [LE K] [DecidableLE K] : Flt K → Flt K → Bool
  | .fin a, .fin b => decide (a ≤ b)
  | .fin _, .pinf => true
  | .ninf, .fin _ => true
  | .ninf, .pinf => true
  | .pinf, .pinf => true
  | .ninf, .ninf => true
  | _, _ => false

theorem leb_eq_not_ltb [LinearOrder K] {a b : Flt K} (ha : a ≠ .nan) (hb : b ≠ .nan) :
    leb a b = !ltb b a := by
  cases a <;> cases b <;> simp_all [leb, ltb]
  rw [← decide_not]; simp only [not_lt]

theorem ltb_trans [LinearOrder K] {a b c : Flt K} (h1 : ltb a b = true) (h2 : ltb b c = true) :
    ltb a c = true := by
  cases a <;> cases b <;> cases c <;> simp_all [ltb]
  exact lt_trans h1 h2

end Flt
end Verif
