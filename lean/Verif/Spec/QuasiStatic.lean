import Verif.Model.QuasiStatic

/-!
# Specification of pseudo-inverses and of quasi-static controls
-/

namespace Verif.Qs

open Matrix

/-- `s` is a thin singular value decomposition of `A`, with the singular values in decreasing order:
what is assumed of `Eigen::JacobiSVD`. -/
structure Svd.Of {a b : ℕ} (s : Svd a b) (A : Mat a b) : Prop where
  eq : A = s.U * diagonal s.S * s.Vᵀ
  U : s.Uᵀ * s.U = 1
  V : s.Vᵀ * s.V = 1
  nonneg : ∀ i, 0 ≤ s.S i
  sorted : ∀ i j, i ≤ j → s.S j ≤ s.S i

/-- `P` is the Moore-Penrose inverse of `A`. -/
structure Penrose {a b : ℕ} (A : Mat a b) (P : Mat b a) : Prop where
  apa : A * P * A = A
  pap : P * A * P = P
  ap : (A * P)ᵀ = A * P
  pa : (P * A)ᵀ = P * A

/-- `c` bounds the amplification of `A`. -/
def Bounds {a b : ℕ} (A : Mat a b) (c : ℝ) : Prop := ∀ v, nrm (A *ᵥ v) ≤ c * nrm v

/-- The control `u` holds the state `x`: the next state is `x`, up to the state's `diff`. -/
def Action.Holds {nx ndx nu : ℕ} (A : Action nx ndx nu) (x : Vec nx) (u : Vec nu) : Prop :=
  A.diff x (A.next x u) = 0

/-- How far the state moves under the control `u`. -/
noncomputable def Action.drift {nx ndx nu : ℕ} (A : Action nx ndx nu) (x : Vec nx) (u : Vec nu) : ℝ :=
  nrm (A.diff x (A.next x u))

/-- At the state `x` the displacement is an affine function of the control, and `Fu` is its matrix. -/
def Action.Affine {nx ndx nu : ℕ} (A : Action nx ndx nu) (x : Vec nx) (B : Mat ndx nu) : Prop :=
  (∀ u, A.fu x u = B) ∧ ∀ u v, A.diff x (A.next x v) - A.diff x (A.next x u) = B *ᵥ (v - u)

/-- At the state `x` the acceleration is an affine function of the control, and `Fu` is its matrix. -/
def Diff.Affine {nx nv nu : ℕ} (D : Diff nx nv nu) (x : Vec nx) (B : Mat nv nu) : Prop :=
  (∀ u, D.fu x u = B) ∧ ∀ u v, D.xout x v - D.xout x u = B *ᵥ (v - u)

/-- `f` is differentiable with Jacobian `F`, and the error of the linear approximation is at most
`L ‖v - u‖²`. -/
def Smooth {n nu : ℕ} (f : Vec nu → Vec n) (F : Vec nu → Mat n nu) (L : ℝ) : Prop :=
  ∀ u v, nrm (f v - f u - F u *ᵥ (v - u)) ≤ L * nrm (v - u) ^ 2

end Verif.Qs
