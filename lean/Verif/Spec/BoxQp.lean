import Verif.Model.BoxQp

/-! # Specification vocabulary for box-constrained quadratic programs -/

namespace Verif.BoxQp
open Verif Matrix

variable {K : Type} [Field K] [LinearOrder K] {n : Nat}

/-- The box `lb ≤ x ≤ ub`. -/
def InBox (lb ub x : Fin n → K) : Prop := ∀ i, lb i ≤ x i ∧ x i ≤ ub i

/-- The objective `½ xᵀHx + qᵀx`, written with sums. -/
def cost (H : Matrix (Fin n) (Fin n) K) (q x : Fin n → K) : K :=
  (∑ i, ∑ j, x i * H i j * x j) / 2 + ∑ i, q i * x i

/-- Positive definite. -/
def PosDef {m : Nat} (M : Matrix (Fin m) (Fin m) K) : Prop := ∀ v, v ≠ 0 → 0 < v ⬝ᵥ (M *ᵥ v)

/-- Positive semidefinite. -/
def PosSemidef {m : Nat} (M : Matrix (Fin m) (Fin m) K) : Prop := ∀ v, 0 ≤ v ⬝ᵥ (M *ᵥ v)

/-- The factorisation only succeeds on positive definite matrices and then solves exactly. -/
def FacSound (fac : Fac K) : Prop :=
  ∀ m (M : Matrix (Fin m) (Fin m) K) sol, Mᵀ = M → fac m M = some sol →
    PosDef M ∧ ∀ b, M *ᵥ sol b = b

/-- First-order optimality (Karush-Kuhn-Tucker) of `x` for the box QP: inside the box, and each partial
derivative vanishes unless the coordinate is at a bound that blocks the descent. -/
def Kkt (H : Matrix (Fin n) (Fin n) K) (q lb ub x : Fin n → K) : Prop :=
  InBox lb ub x ∧ ∀ i, (q i + ∑ j, H i j * x j = 0) ∨ (x i = lb i ∧ 0 ≤ q i + ∑ j, H i j * x j) ∨
    (x i = ub i ∧ q i + ∑ j, H i j * x j ≤ 0)

/-- `x` minimises the objective over the box. -/
def Minimises (H : Matrix (Fin n) (Fin n) K) (q lb ub x : Fin n → K) : Prop :=
  InBox lb ub x ∧ ∀ y, InBox lb ub y → cost H q x ≤ cost H q y

end Verif.BoxQp
