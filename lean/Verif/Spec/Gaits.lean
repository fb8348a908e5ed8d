import Verif.Model.Gaits

/-!
# Specification: a walking cycle
-/

namespace Verif.Gaits.Spec

variable {K : Type*}

/-- The feet on the ground during a node. -/
def support : Node K → List Foot
  | .swing _ s _ _ => s
  | .switch s _ => s

/-- A node without impact. -/
def isSwing : Node K → Bool
  | .swing _ _ _ _ => true
  | .switch _ _ => false

/-- The references of the feet in the air. -/
def tasks : Node K → List (Foot × V3 K)
  | .swing _ _ _ t => t
  | .switch _ t => t

/-- The centre-of-mass reference. -/
def com : Node K → Option (V3 K)
  | .swing _ _ c _ => c
  | .switch _ _ => none

def allFeet : List Foot := [.lf, .rf, .lh, .rh]

/-- All feet but one. -/
def others (f : Foot) : List Foot := allFeet.filter fun g => decide (g ≠ f)

/-- The documented order: a stance, the two right legs, a stance, the two left legs. The entry says
which feet are on the ground. -/
def schedule (stepKnots supportKnots : ℕ) : List (List Foot) :=
  List.replicate supportKnots allFeet
  ++ List.replicate (stepKnots + 1) (others .rh) ++ List.replicate (stepKnots + 1) (others .rf)
  ++ List.replicate supportKnots allFeet
  ++ List.replicate (stepKnots + 1) (others .lh) ++ List.replicate (stepKnots + 1) (others .lf)

/-- The number of the first node of the phase in which a foot swings. -/
def phaseStart (stepKnots supportKnots : ℕ) : Foot → ℕ
  | .rh => supportKnots
  | .rf => supportKnots + (stepKnots + 1)
  | .lh => 2 * supportKnots + 2 * (stepKnots + 1)
  | .lf => 2 * supportKnots + 3 * (stepKnots + 1)

/-- The length of the step of a foot: the very first steps, of the right legs, have half the length. -/
def stepLen [Field K] (first : Bool) (len : K) : Foot → K
  | .rh => if first then len / 2 else len
  | .rf => if first then len / 2 else len
  | .lh => len
  | .lf => len

end Verif.Gaits.Spec
