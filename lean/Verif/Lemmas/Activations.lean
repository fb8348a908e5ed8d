import Verif.Model.Activations
import Verif.Spec.Deriv
import Verif.Lemmas.Deriv
import Mathlib.Analysis.Calculus.Deriv.Inv
import Mathlib.Analysis.Calculus.Deriv.Pow
import Mathlib.Analysis.Calculus.Deriv.Slope
import Mathlib.Analysis.Calculus.Deriv.Abs
import Mathlib.Analysis.SpecialFunctions.ExpDeriv
import Mathlib.Analysis.SpecialFunctions.Log.Deriv
import Mathlib.Tactic.Linarith
import Mathlib.Tactic.Ring
import Mathlib.Tactic.FieldSimp
import Mathlib.Tactic.Positivity

namespace Verif.Activations
open Verif.Deriv

variable {n : ℕ}

theorem hasDerivAt_min_sq (x : ℝ) : HasDerivAt (fun t => 1 / 2 * (min t 0 * min t 0)) (min x 0) x := by
  rcases lt_trichotomy x 0 with h | h | h
  · have h1 : HasDerivAt (fun t : ℝ => 1 / 2 * (t * t)) x x := by
      have := ((hasDerivAt_id x).mul (hasDerivAt_id x)).const_mul (1 / 2)
      simp only [id] at this
      exact this.congr_deriv (by ring)
    rw [min_eq_left h.le]
    refine h1.congr_of_eventuallyEq ?_
    filter_upwards [Iio_mem_nhds h] with t ht
    rw [min_eq_left (le_of_lt ht)]
  · subst h
    rw [min_self, hasDerivAt_iff_tendsto_slope]
    have hs : ∀ t : ℝ, slope (fun t => 1 / 2 * (min t 0 * min t 0)) 0 t = 1 / 2 * min t 0 := by
      intro t
      rw [slope_def_field]
      rcases le_total t 0 with h | h
      · rcases eq_or_lt_of_le h with h0 | h0
        · simp [h0]
        · rw [min_eq_left h]; simp; field_simp
      · simp [min_eq_right h]
    simp only [funext hs]
    have : ContinuousAt (fun t : ℝ => 1 / 2 * min t 0) 0 := by fun_prop
    have := this.tendsto
    simp only [min_self, mul_zero] at this
    exact this.mono_left nhdsWithin_le_nhds
  · rw [min_eq_right h.le]
    refine (hasDerivAt_const x (0 : ℝ)).congr_of_eventuallyEq ?_
    filter_upwards [Ioi_mem_nhds h] with t ht
    rw [min_eq_right (le_of_lt ht)]; simp

theorem hasDerivAt_max_sq (x : ℝ) : HasDerivAt (fun t => 1 / 2 * (max t 0 * max t 0)) (max x 0) x := by
  have h := (hasDerivAt_min_sq (-x)).comp x (hasDerivAt_neg x)
  have e : ∀ t : ℝ, max t 0 = -min (-t) 0 := fun t => by
    rcases le_total t 0 with h | h
    · rw [max_eq_right h, min_eq_right (by linarith)]; simp
    · rw [max_eq_left h, min_eq_left (by linarith)]; simp
  have e' : (fun t : ℝ => 1 / 2 * (max t 0 * max t 0)) =
      (fun t => 1 / 2 * (min t 0 * min t 0)) ∘ Neg.neg := by
    funext t; simp only [Function.comp]; rw [e t]; ring
  rw [e']
  exact h.congr_deriv (by rw [e x]; ring)

/-- A sum of functions of one coordinate each. -/
theorem hasGrad1_sum {φ : Fin n → ℝ → ℝ} {g r : Fin n → ℝ} (h : ∀ i, HasDerivAt (φ i) (g i) (r i)) :
    HasGrad1 (fun y => ∑ i, φ i (y i)) g r := by
  have h1 : ∀ i ∈ Finset.univ, HasFDerivAt (fun y : Fin n → ℝ => φ i (y i))
      (g i • ContinuousLinearMap.proj (R := ℝ) (φ := fun _ : Fin n => ℝ) i) r := fun i _ =>
    (h i).comp_hasFDerivAt r (hasFDerivAt_apply i r)
  exact HasFDerivAt.fun_sum h1

/-- A function of one scalar function of the vector. -/
theorem hasGrad1_comp {φ : ℝ → ℝ} {f : (Fin n → ℝ) → ℝ} {g r : Fin n → ℝ} {c : ℝ}
    (hφ : HasDerivAt φ c (f r)) (hf : HasGrad1 f g r) :
    HasGrad1 (fun y => φ (f y)) (fun i => c * g i) r := by
  have := hφ.comp_hasFDerivAt r hf
  refine HasFDerivAt.congr_fderiv this ?_
  ext y
  simp [form_apply, Finset.mul_sum, mul_assoc]

theorem hasGrad1_sq (r : Fin n → ℝ) : HasGrad1 sq (fun i => 2 * r i) r := by
  refine hasGrad1_sum (φ := fun _ t => t * t) fun i => ?_
  have := (hasDerivAt_id (r i)).mul (hasDerivAt_id (r i))
  exact this.congr_deriv (by simp; ring)

theorem sq_nonneg' (r : Fin n → ℝ) : 0 ≤ sq r := Finset.sum_nonneg fun i _ => mul_self_nonneg _

theorem sq_eq_zero {r : Fin n → ℝ} : sq r = 0 ↔ r = 0 := by
  rw [sq, Finset.sum_eq_zero_iff_of_nonneg fun i _ => mul_self_nonneg _]
  constructor
  · intro h; funext i; exact mul_self_eq_zero.mp (h i (Finset.mem_univ i))
  · rintro rfl; simp

theorem sq_pos {r : Fin n → ℝ} (h : r ≠ 0) : 0 < sq r :=
  lt_of_le_of_ne (sq_nonneg' r) fun e => h (sq_eq_zero.mp e.symm)

/-- A function that is differentiable at a point is differentiable along a coordinate. -/
theorem differentiable_line {f : (Fin n → ℝ) → ℝ} {r : Fin n → ℝ} (h : DifferentiableAt ℝ f r) (i : Fin n) :
    DifferentiableAt ℝ (fun t => f (Function.update r i t)) (r i) := by
  have h1 : DifferentiableAt ℝ (fun t : ℝ => Function.update r i t) (r i) := by
    rw [differentiableAt_pi]
    intro j
    by_cases hj : j = i
    · subst hj; simpa using differentiableAt_id
    · simp [Function.update_of_ne hj]
  refine DifferentiableAt.comp (r i) ?_ h1
  simpa using h

theorem sq_update (r : Fin n → ℝ) (i : Fin n) (t : ℝ) :
    sq (Function.update r i t) = sq r - r i * r i + t * t := by
  have : ∀ v : Fin n → ℝ, sq v = v i * v i + ∑ j ∈ Finset.univ.erase i, v j * v j := fun v =>
    (Finset.add_sum_erase _ _ (Finset.mem_univ i)).symm
  rw [this, this r, Function.update_self]
  have e : ∑ j ∈ Finset.univ.erase i, Function.update r i t j * Function.update r i t j =
      ∑ j ∈ Finset.univ.erase i, r j * r j :=
    Finset.sum_congr rfl fun j hj => by rw [Function.update_of_ne (Finset.ne_of_mem_erase hj)]
  rw [e]; ring

end Verif.Activations
