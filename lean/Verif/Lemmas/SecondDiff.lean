import Verif.Spec.NumDiff
import Verif.Spec.SecondDiff
import Mathlib.Analysis.Calculus.FDeriv.Symmetric
import Mathlib.Analysis.Calculus.ContDiff.Basic
import Mathlib.Analysis.Calculus.ContDiff.Operations
import Mathlib.Tactic.FieldSimp
import Mathlib.Tactic.Ring
import Mathlib.Tactic.Linarith

/-! # Limits of second difference quotients -/

set_option linter.unusedSectionVars false

namespace Verif.SecondDiff

open Filter Topology Asymptotics

variable {E : Type} [NormedAddCommGroup E] [NormedSpace ℝ E] {F : E → ℝ} {F' : E → E →L[ℝ] ℝ}
  {F'' : E →L[ℝ] E →L[ℝ] ℝ} {x : E}

theorem seg (hF : Twice F F' F'' x) (v w : E) :
    (fun h : ℝ => F (x + h • v + h • w) - F (x + h • v) - h * F' x w - h ^ 2 * F'' v w - (h ^ 2 / 2) * F'' w w)
      =o[𝓝[>] 0] fun h => h ^ 2 := by
  have := Convex.taylor_approx_two_segment (s := Set.univ) convex_univ (fun y _ => hF.1 y) (Set.mem_univ x)
    (by rw [interior_univ, hasFDerivWithinAt_univ]; exact hF.2) (v := v) (w := w) (by simp) (by simp)
  simpa only [smul_eq_mul] using this

theorem lim_of_littleO {G : ℝ → ℝ} {a : ℝ} (h : (fun h : ℝ => G h - h ^ 2 * a) =o[𝓝[>] 0] fun h => h ^ 2) :
    Tendsto (fun h : ℝ => G h / h ^ 2) (𝓝[>] 0) (𝓝 a) := by
  have h1 := (h.tendsto_div_nhds_zero).add_const a
  rw [zero_add] at h1
  refine h1.congr' ?_
  filter_upwards [self_mem_nhdsWithin] with t ht
  have : t ≠ 0 := (Set.mem_Ioi.mp ht).ne'
  field_simp
  ring

/-- Forward mixed quotient. -/
theorem tendsto_mixed (hF : Twice F F' F'' x) (v w : E) :
    Tendsto (fun h : ℝ => (F (x + h • v + h • w) - F (x + h • v) - F (x + h • w) + F x) / h ^ 2) (𝓝[>] 0)
      (𝓝 (F'' v w)) := by
  refine lim_of_littleO ?_
  refine ((seg hF v w).sub (seg hF 0 w)).congr_left fun h => ?_
  simp only [smul_zero, add_zero, map_zero, ContinuousLinearMap.zero_apply]
  ring

/-- Central second quotient. -/
theorem tendsto_second (hF : Twice F F' F'' x) (w : E) :
    Tendsto (fun h : ℝ => (F (x + h • w) - 2 * F x + F (x - h • w)) / h ^ 2) (𝓝[>] 0) (𝓝 (F'' w w)) := by
  refine lim_of_littleO ?_
  refine ((seg hF 0 w).add (seg hF 0 (-w))).congr_left fun h => ?_
  simp only [smul_zero, add_zero, map_zero, ContinuousLinearMap.zero_apply, map_neg, smul_neg, ← sub_eq_add_neg,
    ContinuousLinearMap.neg_apply]
  ring

/-- Central mixed quotient. -/
theorem tendsto_cross (hF : Twice F F' F'' x) (v w : E) :
    Tendsto (fun h : ℝ => (F (x + h • v + h • w) - F (x + h • v - h • w) - F (x - h • v + h • w)
      + F (x - h • v - h • w)) / h ^ 2) (𝓝[>] 0) (𝓝 (4 * F'' v w)) := by
  refine lim_of_littleO ?_
  refine (((seg hF v w).sub (seg hF v (-w))).sub ((seg hF (-v) w).sub (seg hF (-v) (-w)))).congr_left fun h => ?_
  simp only [map_neg, smul_neg, ← sub_eq_add_neg, ContinuousLinearMap.neg_apply]
  ring

/-- Second derivatives are symmetric. -/
theorem symm (hF : Twice F F' F'' x) (v w : E) : F'' v w = F'' w v :=
  second_derivative_symmetric hF.1 hF.2 v w

/-- The step used for the Hessian goes to zero with the disturbance. -/
theorem tendsto_step (M : ℝ) (hM : 0 < M) : Tendsto (fun e : ℝ => √(2 * e) * M) (𝓝[>] 0) (𝓝[>] 0) := by
  refine tendsto_nhdsWithin_iff.mpr ⟨?_, ?_⟩
  · have : Tendsto (fun e : ℝ => √(2 * e) * M) (𝓝 0) (𝓝 (√(2 * 0) * M)) :=
      ((Real.continuous_sqrt.comp (continuous_const.mul continuous_id)).mul continuous_const).tendsto 0
    simp only [mul_zero, Real.sqrt_zero, zero_mul] at this
    exact this.mono_left nhdsWithin_le_nhds
  · filter_upwards [self_mem_nhdsWithin] with e he
    exact mul_pos (Real.sqrt_pos.mpr (by have := Set.mem_Ioi.mp he; linarith)) hM

/-- The entries of the approximated Hessian along an embedding `b` of the coordinate directions. -/
theorem tendsto_hessEntry {k : ℕ} (hF : Twice F F' F'' x) (b : (Fin k → ℝ) →ₗ[ℝ] E) (i j : Fin k) (M : ℝ) (hM : 0 < M) :
    Tendsto (fun e : ℝ => NumDiff.hessEntry (fun dx => F (x + b dx)) (fun dx => F (x - b dx)) (F x) (√(2 * e) * M)
      (i, j)) (𝓝[>] 0) (𝓝 (F'' (b (Pi.single i 1)) (b (Pi.single j 1)))) := by
  have hb : ∀ (a : Fin k) (h : ℝ), b (Pi.single a h) = h • b (Pi.single a 1) := by
    intro a h; rw [← map_smul, ← Pi.single_smul, smul_eq_mul, mul_one]
  have mix : ∀ a c : Fin k, Tendsto (fun e : ℝ => NumDiff.mixed (fun dx => F (x + b dx)) (F x) (√(2 * e) * M) a c)
      (𝓝[>] 0) (𝓝 (F'' (b (Pi.single a 1)) (b (Pi.single c 1)))) := by
    intro a c
    refine ((tendsto_mixed hF (b (Pi.single a 1)) (b (Pi.single c 1))).comp (tendsto_step M hM)).congr fun e => ?_
    simp only [Function.comp, NumDiff.mixed, map_add]
    rw [hb a (√(2 * e) * M), hb c (√(2 * e) * M), pow_two, add_assoc]
    ring
  rcases lt_trichotomy i j with h | h | h
  · refine (mix i j).congr fun e => ?_
    rw [NumDiff.hessEntry, if_neg (ne_of_lt h), if_pos h]
  · subst h
    refine ((tendsto_second hF (b (Pi.single i 1))).comp (tendsto_step M hM)).congr fun e => ?_
    rw [NumDiff.hessEntry, if_pos rfl]
    simp only [Function.comp, NumDiff.second]
    rw [hb i (√(2 * e) * M), pow_two]
  · rw [symm hF]
    refine (mix j i).congr fun e => ?_
    rw [NumDiff.hessEntry, if_neg (ne_of_gt h), if_neg (not_lt.mpr h.le)]

/-- The mixed entries. -/
theorem tendsto_crossEntry (hF : Twice F F' F'' x) (v w : E) (M N : ℝ) (hM : 0 < M) (hN : 0 < N) :
    Tendsto (fun e : ℝ => (F (x + (√(2 * e) * M) • v + (√(2 * e) * N) • w)
      - F (x + (√(2 * e) * M) • v - (√(2 * e) * N) • w) - F (x - (√(2 * e) * M) • v + (√(2 * e) * N) • w)
      + F (x - (√(2 * e) * M) • v - (√(2 * e) * N) • w)) / (4 * (√(2 * e) * M) * (√(2 * e) * N))) (𝓝[>] 0)
      (𝓝 (F'' v w)) := by
  have h1 := ((tendsto_cross hF (M • v) (N • w)).comp (tendsto_step 1 one_pos)).div_const (4 * M * N)
  have h2 : 4 * F'' (M • v) (N • w) / (4 * M * N) = F'' v w := by
    simp only [map_smul, smul_apply, smul_eq_mul]
    field_simp
  rw [h2] at h1
  refine h1.congr' ?_
  filter_upwards [self_mem_nhdsWithin] with e he
  have : √(2 * e) ≠ 0 := (Real.sqrt_pos.mpr (by have := Set.mem_Ioi.mp he; linarith)).ne'
  simp only [Function.comp, mul_one, smul_smul]
  rw [div_div]
  congr 1
  ring

/-- Every twice continuously differentiable function qualifies. -/
theorem twice_of_contDiff (hF : ContDiff ℝ 2 F) (x : E) : Twice F (fderiv ℝ F) (fderiv ℝ (fderiv ℝ F) x) x :=
  ⟨fun y => ((hF.differentiable (by norm_num)) y).hasFDerivAt,
    (((hF.fderiv_right (m := 1) (by norm_num)).differentiable (by norm_num)) x).hasFDerivAt⟩

end Verif.SecondDiff
