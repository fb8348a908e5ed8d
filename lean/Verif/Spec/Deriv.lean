import Mathlib.Analysis.Calculus.FDeriv.Prod
import Mathlib.Analysis.Calculus.FDeriv.Pi
import Mathlib.Analysis.Calculus.FDeriv.Linear
import Mathlib.Analysis.Calculus.FDeriv.Comp
import Mathlib.Analysis.Calculus.FDeriv.Add
import Mathlib.Analysis.Calculus.FDeriv.Mul
import Mathlib.Data.Matrix.Mul

/-!
# Specification: gradients and Jacobians of functions of one or two real vectors

Fréchet derivatives (Mathlib's `HasFDerivAt`) written with gradient vectors and Jacobian matrices.
-/

namespace Verif.Deriv

open Matrix

variable {ι κ σ : Type*} [Fintype ι] [Fintype κ] [Fintype σ]

/-- The linear form `h ↦ ∑ i, v i * h i`. -/
noncomputable def form (v : ι → ℝ) : (ι → ℝ) →L[ℝ] ℝ :=
  ∑ i, v i • ContinuousLinearMap.proj (R := ℝ) (φ := fun _ : ι => ℝ) i

/-- `g` is the gradient of `f` at `x`. -/
def HasGrad1 (f : (ι → ℝ) → ℝ) (g : ι → ℝ) (x : ι → ℝ) : Prop :=
  HasFDerivAt f (form g) x

/-- `J` is the Jacobian of `f` at `x` (row `a` is the gradient of component `a`). -/
def HasJac1 (f : (ι → ℝ) → σ → ℝ) (J : Matrix σ ι ℝ) (x : ι → ℝ) : Prop :=
  ∀ a, HasGrad1 (fun y => f y a) (J a) x

/-- `gx` and `gu` are the gradients of `f` with respect to its two arguments at `(x, u)`, as a
function of both. -/
def HasGrad (f : (ι → ℝ) → (κ → ℝ) → ℝ) (gx : ι → ℝ) (gu : κ → ℝ) (x : ι → ℝ) (u : κ → ℝ) : Prop :=
  HasFDerivAt (fun p : (ι → ℝ) × (κ → ℝ) => f p.1 p.2)
    ((form gx).comp (ContinuousLinearMap.fst ℝ (ι → ℝ) (κ → ℝ))
      + (form gu).comp (ContinuousLinearMap.snd ℝ (ι → ℝ) (κ → ℝ))) (x, u)

/-- `Jx` and `Ju` are the Jacobians of `f` with respect to its two arguments at `(x, u)`. -/
def HasJac (f : (ι → ℝ) → (κ → ℝ) → σ → ℝ) (Jx : Matrix σ ι ℝ) (Ju : Matrix σ κ ℝ) (x : ι → ℝ)
    (u : κ → ℝ) : Prop :=
  ∀ a, HasGrad (fun y v => f y v a) (Jx a) (Ju a) x u

end Verif.Deriv
