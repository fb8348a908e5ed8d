import Mathlib.Analysis.Calculus.FDeriv.Basic
import Mathlib.Analysis.Normed.Operator.NormedSpace

/-! # Twice differentiable functions -/

namespace Verif.SecondDiff

variable {E : Type} [NormedAddCommGroup E] [NormedSpace ℝ E]

/-- `F` is differentiable everywhere with derivative `F'`, and `F'` is differentiable at `x` with derivative `F''`. -/
def Twice (F : E → ℝ) (F' : E → E →L[ℝ] ℝ) (F'' : E →L[ℝ] E →L[ℝ] ℝ) (x : E) : Prop :=
  (∀ y, HasFDerivAt F (F' y) y) ∧ HasFDerivAt F' F'' x

end Verif.SecondDiff
