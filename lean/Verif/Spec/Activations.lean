import Verif.Model.Activations
import Mathlib.Analysis.InnerProductSpace.PiL2
import Mathlib.Topology.MetricSpace.HausdorffDistance

/-!
# Specification of the activations

The documented function of each class, and the points at which it is smooth.
-/

namespace Verif.Activations

noncomputable section
variable {n : ℕ}

/-- The Euclidean norm. -/
def norm2 (r : Fin n → ℝ) : ℝ := ‖WithLp.toLp 2 r‖

/-- Distance of `x` from the interval `[l, u]`, for `l ≤ u`. -/
def distTo (l u x : ℝ) : ℝ := max (max (l - x) (x - u)) 0

/-- The documented activation functions. -/
def value : Act n → (Fin n → ℝ) → ℝ
  | .quad, r => 1 / 2 * norm2 r ^ 2
  | .weighted w, r => 1 / 2 * ∑ i, w i * r i ^ 2
  | .barrier lb ub, r => 1 / 2 * ∑ i, distTo (lb i) (ub i) (r i) ^ 2
  | .weightedBarrier lb ub w, r => 1 / 2 * ∑ i, (w i * distTo (lb i) (ub i) (r i)) ^ 2
  | .smooth1 eps, r => ∑ i, √(eps + |r i| ^ 2)
  | .smooth2 eps, r => √(eps + norm2 r ^ 2)
  | .normBarrier alpha _, r => if norm2 r < alpha then 1 / 2 * (norm2 r - alpha) ^ 2 else 0
  | .flatExp alpha, r => 1 - Real.exp (-(norm2 r ^ 2 / alpha))
  | .flatLog alpha, r => Real.log (1 + norm2 r ^ 2 / alpha)

/-- The bounds are ordered (guaranteed by `ActivationBounds`, C48). -/
def Ordered : Act n → Prop
  | .barrier lb ub => ∀ i, lb i ≤ ub i
  | .weightedBarrier lb ub _ => ∀ i, lb i ≤ ub i
  | _ => True

/-- The parameters accepted by the constructors, except `alpha = 0` of the two flat activations (there the
code divides by zero). -/
def Params : Act n → Prop
  | .smooth1 eps => 0 ≤ eps
  | .smooth2 eps => 0 ≤ eps
  | .normBarrier alpha _ => 0 ≤ alpha
  | .flatExp alpha => 0 < alpha
  | .flatLog alpha => 0 < alpha
  | _ => True

/-- Points where the activation is differentiable. -/
def SmoothAt : Act n → (Fin n → ℝ) → Prop
  | .smooth1 eps, r => eps = 0 → ∀ i, r i ≠ 0
  | .smooth2 eps, r => eps = 0 → r ≠ 0 ∨ n = 0
  | .normBarrier alpha _, r => alpha = 0 ∨ r ≠ 0 ∨ n = 0
  | _, _ => True

end
end Verif.Activations
