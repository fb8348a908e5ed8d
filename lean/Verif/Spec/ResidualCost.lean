import Verif.Model.ResidualCost

/-!
# Specification of residual costs: the Gauss-Newton derivatives
-/

namespace Verif.ResidualCost.Spec

open Matrix

variable {X K : Type} [Field K] {ndx nu nr : ℕ}

/-- `Lx = Rxᵀ Ar`. -/
def gnLx (Rx : Matrix (Fin nr) (Fin ndx) K) (Ar : Fin nr → K) : Fin ndx → K := Rxᵀ *ᵥ Ar

/-- `Rᵀ diag(Arr) S`. -/
def gn {a b : ℕ} (R : Matrix (Fin nr) (Fin a) K) (Arr : Fin nr → K) (S : Matrix (Fin nr) (Fin b) K) :
    Matrix (Fin a) (Fin b) K := Rᵀ * Matrix.diagonal Arr * S

/-- The declared dependencies are respected: a residual that does not depend on the velocity (configuration) has
zero columns outside the first (last) `nv` ones, one that depends on neither has `Rx = 0`, one that does not
depend on the control has `Ru = 0`. -/
def Consistent (R : Residual X K ndx nu nr) (Rx : Matrix (Fin nr) (Fin ndx) K) (Ru : Matrix (Fin nr) (Fin nu) K) :
    Prop :=
  (R.q = true → R.v = false → ∀ k (i : Fin ndx), R.nv ≤ i.val → Rx k i = 0) ∧
  (R.q = false → R.v = true → ∀ k (i : Fin ndx), i.val < ndx - R.nv → Rx k i = 0) ∧
  (R.q = false → R.v = false → Rx = 0) ∧
  (R.u = false → Ru = 0)

end Verif.ResidualCost.Spec
