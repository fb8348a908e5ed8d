import Verif.Model.FlatZero
import Verif.Props.Activations

/-!
# C45: the flat activations with a width of zero

The constructors accept `alpha = 0`, for which the derivatives are NaN at every residual.
-/

namespace Verif.Activations

variable {n : ℕ}

@[simp] theorem F.mul_nan (a : F) : F.mul a .nan = .nan := by cases a <;> rfl

@[simp] theorem F.nan_mul (a : F) : F.mul .nan a = .nan := by cases a <;> rfl

@[simp] theorem F.pinf_mul_zero : F.mul .pinf (.fin 0) = .nan := by simp [F.mul, F.scale]

@[simp] theorem F.zero_mul_pinf : F.mul (.fin 0) .pinf = .nan := by simp [F.mul, F.scale]

@[simp] theorem F.two_div_zero : F.div (.fin 2) (.fin 0) = .pinf := by
  have : ¬ (2 : ℝ) < 0 := by norm_num
  simp [F.div, F.scale, this]

@[simp] theorem F.zero_div_zero : F.div (.fin 0) (.fin 0) = .nan := by simp [F.div, F.scale]

@[simp] theorem F.fin_div_nan (a : ℝ) : F.div (.fin a) .nan = .nan := rfl

@[simp] theorem F.fin_add_nan (a : ℝ) : F.add (.fin a) .nan = .nan := rfl

/-- **C45 (special values).** With a positive width nothing special happens: value and gradient are the finite ones of the two activations over
the real numbers, to which `C45_value` and `C45_gradient_partial` apply. -/
theorem C45_flat_finite (alpha : ℝ) (ha : 0 < alpha) (d : Data n) (r : Fin n → ℝ) :
    flatAccepts (.fin alpha) = true
    ∧ (∀ m : Model n, m.act = .flatExp alpha →
      (flatExpCalc (.fin alpha) r).2 = .fin (calcA m d r).a_value
      ∧ ∀ i, flatExpDiff (.fin alpha) (flatExpCalc (.fin alpha) r).1 r i = .fin ((calcDiffA m (calcA m d r) r).2.Ar i))
    ∧ (∀ m : Model n, m.act = .flatLog alpha →
      (flatLogCalc (.fin alpha) r).2 = .fin (calcA m d r).a_value
      ∧ ∀ i, flatLogDiff (.fin alpha) (flatLogCalc (.fin alpha) r).1 r i = .fin ((calcDiffA m (calcA m d r) r).2.Ar i)) := by
  have hs : ∑ i, r i * r i = sq r := rfl
  have h0 : 0 ≤ sq r := by
    rw [← hs]; exact Finset.sum_nonneg fun i _ => mul_self_nonneg _
  have h1 : 0 < 1 + sq r / alpha := by positivity
  have h2 : alpha + alpha * (sq r / alpha) ≠ 0 := by
    have : 0 < alpha + alpha * (sq r / alpha) := by positivity
    exact this.ne'
  refine ⟨by simp [flatAccepts, Flt.ltb, ha.le], fun m hm => ⟨?_, fun i => ?_⟩, fun m hm => ⟨?_, fun i => ?_⟩⟩
  · simp [flatExpCalc, sqNorm, hs, F.neg, F.div, ha.ne', F.exp, F.add, calcA, hm, sub_eq_add_neg]
  · simp [flatExpCalc, flatExpDiff, sqNorm, hs, F.neg, F.div, ha.ne', F.exp, F.mul, calcA, calcDiffA, hm]
  · simp [flatLogCalc, sqNorm, hs, F.div, ha.ne', F.log, F.add, calcA, hm, h1.ne', not_lt.2 h1.le]
  · simp [flatLogCalc, flatLogDiff, sqNorm, hs, F.div, ha.ne', F.mul, F.add, calcA, calcDiffA, hm, h2]

/-- **C45 (a width of zero).** The constructors accept `alpha = 0`, and then every entry of the gradient is NaN, at every residual; the value is NaN
at zero. -/
theorem C45_flat_zero_counterexample :
    flatAccepts (.fin 0) = true
    ∧ (∀ (r : Fin n → ℝ) i, flatExpDiff (.fin 0) (flatExpCalc (.fin 0) r).1 r i = .nan
      ∧ flatLogDiff (.fin 0) (flatLogCalc (.fin 0) r).1 r i = .nan)
    ∧ (flatExpCalc (.fin 0) (0 : Fin n → ℝ)).2 = .nan ∧ (flatLogCalc (.fin 0) (0 : Fin n → ℝ)).2 = .nan := by
  refine ⟨by simp [flatAccepts, Flt.ltb], fun r i => ?_, ?_, ?_⟩
  · have h0 : 0 ≤ ∑ i, r i * r i := Finset.sum_nonneg fun i _ => mul_self_nonneg _
    rcases h0.eq_or_lt with h | h
    · simp [flatExpDiff, flatExpCalc, flatLogDiff, flatLogCalc, sqNorm, ← h, F.neg, F.exp]
    · have h1 : F.div (.fin (-∑ i, r i * r i)) (.fin 0) = .ninf := by simp [F.div, F.scale, h.ne', h]
      have h2 : F.div (.fin (∑ i, r i * r i)) (.fin 0) = .pinf := by simp [F.div, F.scale, h.ne', not_lt.2 h.le]
      simp [flatExpDiff, flatExpCalc, flatLogDiff, flatLogCalc, sqNorm, F.neg, h1, h2, F.exp]
  · simp [flatExpCalc, sqNorm, F.neg, F.div, F.scale, F.exp, F.add]
  · simp [flatLogCalc, sqNorm, F.div, F.scale, F.log, F.add]

/-- With a width of one the value at the residual one is `1 - exp (-1)`. -/
example : (flatExpCalc (.fin 1) (fun _ : Fin 1 => 1)).2 = .fin (1 - Real.exp (-1)) := by
  simp [flatExpCalc, sqNorm, F.neg, F.div, F.exp, F.add, sub_eq_add_neg]

end Verif.Activations
