import Verif.Lemmas.Converge
import Verif.Props.Integrators
import Mathlib.Analysis.ODE.Gronwall
import Mathlib.Analysis.Calculus.Deriv.Pow
import Mathlib.LinearAlgebra.Matrix.ToLin

/-! Lemmas for C139: global order of the Runge-Kutta schemes on linear models. -/

set_option linter.unusedSectionVars false

namespace Verif.Integrators

open Matrix Set
open Verif.Controls (RKType)

variable {n nw nu : ℕ}

/-- Remainder of the Taylor polynomial. -/
theorem taylor_remainder (p : ℕ) : ∀ (f : ℕ → ℝ → ℝ) (K h : ℝ), 0 ≤ h →
    (∀ j t, HasDerivAt (f j) (f (j + 1) t) t) → (∀ t ∈ Icc 0 h, |f (p + 1) t| ≤ K) →
    |f 0 h - ∑ j ∈ Finset.range (p + 1), f j 0 * h ^ j / (j.factorial : ℝ)| ≤ K * h ^ (p + 1) := by
  induction p with
  | zero =>
    intro f K h hh hf hb
    have := norm_image_sub_le_of_norm_deriv_le_segment' (a := 0) (b := h) (f := f 0) (f' := f 1)
      (C := K) (fun t _ => (hf 0 t).hasDerivWithinAt) (fun t ht => hb t ⟨ht.1, ht.2.le⟩) h
      ⟨hh, le_rfl⟩
    simpa using this
  | succ p ih =>
    intro f K h hh hf hb
    let r : ℝ → ℝ := fun t =>
      f 0 t - ∑ j ∈ Finset.range (p + 1 + 1), f j 0 * t ^ j / (j.factorial : ℝ)
    let r' : ℝ → ℝ := fun t =>
      f 1 t - ∑ j ∈ Finset.range (p + 1), f (j + 1) 0 * t ^ j / (j.factorial : ℝ)
    have hr : ∀ t, HasDerivAt r (r' t) t := by
      intro t
      refine (hf 0 t).sub ?_
      have hs : ∀ s : ℝ, ∑ j ∈ Finset.range (p + 1 + 1), f j 0 * s ^ j / (j.factorial : ℝ)
          = (∑ j ∈ Finset.range (p + 1), f (j + 1) 0 * s ^ (j + 1) / ((j + 1).factorial : ℝ))
            + f 0 0 := by
        intro s
        rw [Finset.sum_range_succ']; simp
      refine HasDerivAt.congr_of_eventuallyEq ?_ (Filter.Eventually.of_forall hs)
      refine HasDerivAt.add_const _ (HasDerivAt.fun_sum fun j _ => ?_)
      have := ((hasDerivAt_pow (j + 1) t).const_mul (f (j + 1) 0)).div_const
        ((j + 1).factorial : ℝ)
      refine this.congr_deriv ?_
      have h1 : ((j : ℝ) + 1) ≠ 0 := by positivity
      have h2 : (j.factorial : ℝ) ≠ 0 := by positivity
      rw [Nat.factorial_succ]
      push_cast
      field_simp
    have hbound : ∀ t ∈ Ico 0 h, ‖r' t‖ ≤ K * h ^ (p + 1) := by
      intro t ht
      have h1 := ih (fun j => f (j + 1)) K t ht.1 (fun j s => hf (j + 1) s)
        (fun s hs => hb s ⟨hs.1, hs.2.trans ht.2.le⟩)
      have hK : 0 ≤ K := (abs_nonneg _).trans (hb 0 ⟨le_rfl, hh⟩)
      exact h1.trans (mul_le_mul_of_nonneg_left (pow_le_pow_left₀ ht.1 ht.2.le _) hK)
    have := norm_image_sub_le_of_norm_deriv_le_segment' (a := 0) (b := h) (f := r) (f' := r')
      (C := K * h ^ (p + 1)) (fun t _ => (hr t).hasDerivWithinAt) hbound h ⟨hh, le_rfl⟩
    have h0 : r 0 = 0 := by
      simp only [r]
      rw [Finset.sum_range_succ']; simp
    rw [h0, sub_zero, sub_zero, Real.norm_eq_abs, mul_assoc, ← pow_succ] at this
    exact this

theorem mulVec_bound {m k : Type*} [Fintype m] [Fintype k] (A : Matrix m k ℝ) :
    ∃ a, 0 ≤ a ∧ ∀ y, ‖A *ᵥ y‖ ≤ a * ‖y‖ := by
  classical
  let f := (Matrix.toLin' A).toContinuousLinearMap
  exact ⟨‖f‖, norm_nonneg _, fun y => by simpa [f] using f.le_opNorm y⟩

/-- The linear part of the right-hand side. -/
def linPart (A : Matrix (Fin n) (Ix n) ℝ) (y : X ℝ n) : X ℝ n := join (tail y) (A *ᵥ y)

theorem linPart_sub (A : Matrix (Fin n) (Ix n) ℝ) (y z : X ℝ n) :
    linPart A y - linPart A z = linPart A (y - z) := by
  funext j
  cases j with
  | inl j => rfl
  | inr j => simp [linPart, join, Matrix.mulVec_sub]

theorem linPart_bound (A : Matrix (Fin n) (Ix n) ℝ) :
    ∃ a, 1 ≤ a ∧ ∀ y, ‖linPart A y‖ ≤ a * ‖y‖ := by
  obtain ⟨a, ha, hA⟩ := mulVec_bound A
  refine ⟨max 1 a, le_max_left _ _, fun y => ?_⟩
  refine (pi_norm_le_iff_of_nonneg (by positivity)).2 fun j => ?_
  cases j with
  | inl j =>
    refine (norm_le_pi_norm y (Sum.inr j)).trans ?_
    nlinarith [le_max_left 1 a, norm_nonneg y]
  | inr j =>
    refine ((norm_le_pi_norm (A *ᵥ y) j).trans (hA y)).trans ?_
    exact mul_le_mul_of_nonneg_right (le_max_right _ _) (norm_nonneg _)

theorem lin_field (D : DiffModel ℝ n nw) (A : Matrix (Fin n) (Ix n) ℝ)
    (B : Matrix (Fin n) (Fin nw) ℝ) (hD : ∀ x w, D.xout x w = A *ᵥ x + B *ᵥ w) (x : X ℝ n)
    (w : Fin nw → ℝ) : join (tail x) (D.xout x w) = linPart A x + join 0 (B *ᵥ w) := by
  funext j
  cases j with
  | inl j => simp [linPart, join]
  | inr j => simp [linPart, join, hD]

/-- The derivatives of a trajectory of a linear model. -/
theorem lin_derivs (D : DiffModel ℝ n nw) (A : Matrix (Fin n) (Ix n) ℝ)
    (B : Matrix (Fin n) (Fin nw) ℝ) (hD : ∀ x w, D.xout x w = A *ᵥ x + B *ᵥ w) (w : Fin nw → ℝ)
    (φ : ℝ → X ℝ n) (hφ : IsTrajectory (fun x => D.xout x w) φ) (i : Ix n) :
    ∃ v : ℕ → ℝ → X ℝ n, v 0 = φ ∧ (∀ j t, v (j + 1) t
        = (linPart A)^[j] (linPart A (φ t) + join 0 (B *ᵥ w))) ∧
      (∀ j t, HasDerivAt (fun s => v j s i) (v (j + 1) t i) t) ∧
      ∀ j, iteratedDeriv j (fun t => φ t i) = fun t => v j t i := by
  let v : ℕ → ℝ → X ℝ n := fun j t => match j with
    | 0 => φ t
    | j + 1 => (linPart A)^[j] (linPart A (φ t) + join 0 (B *ᵥ w))
  have d1 : ∀ t j, HasDerivAt (fun s => φ s j) ((linPart A (φ t) + join 0 (B *ᵥ w)) j) t := by
    intro t j
    rw [← lin_field D A B hD]
    cases j with
    | inl j => exact (hφ t j).1
    | inr j => exact (hφ t j).2
  have dG : ∀ (ψ ψ' : ℝ → X ℝ n), (∀ t j, HasDerivAt (fun s => ψ s j) (ψ' t j) t) →
      ∀ t j, HasDerivAt (fun s => linPart A (ψ s) j) (linPart A (ψ' t) j) t := by
    intro ψ ψ' h t j
    cases j with
    | inl j => exact h t (Sum.inr j)
    | inr j =>
      simp only [linPart, join, Sum.elim_inr, Matrix.mulVec, dotProduct]
      exact HasDerivAt.fun_sum fun k _ => (h t k).const_mul _
  have dv : ∀ k t j, HasDerivAt (fun s => v k s j) (v (k + 1) t j) t := by
    intro k
    induction k with
    | zero => exact d1
    | succ k ih =>
      cases k with
      | zero =>
        intro t j
        exact (dG φ (fun t => linPart A (φ t) + join 0 (B *ᵥ w)) d1 t j).add_const _
      | succ k =>
        intro t j
        have := dG (v (k + 1)) (v (k + 2)) ih t j
        have e1 : ∀ s, v (k + 2) s = linPart A (v (k + 1) s) := fun s =>
          Function.iterate_succ_apply' _ _ _
        have e2 : v (k + 3) t = linPart A (v (k + 2) t) := Function.iterate_succ_apply' _ _ _
        simp only [← e1, ← e2] at this
        exact this
  refine ⟨v, rfl, fun _ _ => rfl, fun j t => dv j t i, fun j => ?_⟩
  induction j with
  | zero => rw [iteratedDeriv_zero]
  | succ j ih => rw [iteratedDeriv_succ, ih]; funext t; exact (dv j t i).deriv

/-- Growth of a trajectory of a linear model. -/
theorem lin_growth (D : DiffModel ℝ n nw) (A : Matrix (Fin n) (Ix n) ℝ)
    (B : Matrix (Fin n) (Fin nw) ℝ) (hD : ∀ x w, D.xout x w = A *ᵥ x + B *ᵥ w) (w : Fin nw → ℝ)
    (φ : ℝ → X ℝ n) (hφ : IsTrajectory (fun x => D.xout x w) φ) (L : ℝ) (hL : 1 ≤ L)
    (hA : ∀ y, ‖linPart A y‖ ≤ L * ‖y‖) (hB : ‖(join 0 (B *ᵥ w) : X ℝ n)‖ ≤ L) (t : ℝ)
    (ht : 0 ≤ t) : ‖φ t‖ + 1 ≤ (‖φ 0‖ + 1) * Real.exp (L * t) := by
  have hd : ∀ s, HasDerivAt φ (linPart A (φ s) + join 0 (B *ᵥ w)) s := by
    intro s
    refine hasDerivAt_pi.2 fun j => ?_
    rw [← lin_field D A B hD]
    cases j with
    | inl j => exact (hφ s j).1
    | inr j => exact (hφ s j).2
  have := norm_le_gronwallBound_of_norm_deriv_right_le (f := φ)
    (f' := fun s => linPart A (φ s) + join 0 (B *ᵥ w)) (δ := ‖φ 0‖) (K := L) (ε := L) (a := 0)
    (b := t) (fun s _ => (hd s).continuousAt.continuousWithinAt)
    (fun s _ => (hd s).hasDerivWithinAt) le_rfl
    (fun s _ => (norm_add_le _ _).trans (add_le_add (hA _) hB)) t ⟨ht, le_rfl⟩
  have hL0 : L ≠ 0 := by positivity
  rw [gronwallBound_of_K_ne_0 hL0, div_self hL0, sub_zero] at this
  linarith

/-- One step of the scheme from two states. -/
theorem rk_stable (ty : RKType) (D : DiffModel ℝ n nw) (A : Matrix (Fin n) (Ix n) ℝ)
    (B : Matrix (Fin n) (Fin nw) ℝ) (hD : ∀ x w, D.xout x w = A *ᵥ x + B *ᵥ w) (C : Ctl ℝ nw nu)
    (L : ℝ) (hL : 1 ≤ L) (hA : ∀ y, ‖linPart A y‖ ≤ L * ‖y‖) (h : ℝ) (hh : 0 < h) (hh1 : h ≤ 1)
    (u : Fin nu → ℝ) (x y : X ℝ n) :
    ‖rkNext D C ty h x u - rkNext D C ty h y u‖ ≤ (1 + h * (L * (1 + L) ^ 3)) * ‖x - y‖ := by
  have hk : ∀ i, ‖(rkStage D C ty h x u i).k - (rkStage D C ty h y u i).k‖
      ≤ L * (1 + L) ^ i * ‖x - y‖ := by
    intro i
    induction i with
    | zero =>
      have e : (rkStage D C ty h x u 0).k - (rkStage D C ty h y u 0).k = linPart A (x - y) := by
        simp only [rkStage]
        rw [lin_field D A B hD, lin_field D A B hD, add_sub_add_right_eq_sub, linPart_sub]
      rw [e]; simpa using hA (x - y)
    | succ i ih =>
      have e : (rkStage D C ty h x u (i + 1)).k - (rkStage D C ty h y u (i + 1)).k
          = linPart A ((x - y) + (h * rkC ty (i + 1)) •
            ((rkStage D C ty h x u i).k - (rkStage D C ty h y u i).k)) := by
        simp only [rkStage]
        rw [lin_field D A B hD, lin_field D A B hD, add_sub_add_right_eq_sub, linPart_sub]
        congr 1
        funext j
        simp only [Pi.sub_apply, Pi.add_apply, Pi.smul_apply, smul_eq_mul]
        ring
      rw [e]
      refine (hA _).trans ?_
      have hc := rkC_range ty (i + 1)
      have hhc : h * rkC ty (i + 1) ≤ 1 := by nlinarith [hc.1, hc.2]
      have hhc0 : 0 ≤ h * rkC ty (i + 1) := mul_nonneg hh.le hc.1
      have n1 : ‖(x - y) + (h * rkC ty (i + 1)) •
            ((rkStage D C ty h x u i).k - (rkStage D C ty h y u i).k)‖
          ≤ ‖x - y‖ + L * (1 + L) ^ i * ‖x - y‖ := by
        refine (norm_add_le _ _).trans (add_le_add le_rfl ?_)
        rw [norm_smul, Real.norm_of_nonneg hhc0]
        refine le_trans ?_ ih
        nlinarith [norm_nonneg ((rkStage D C ty h x u i).k - (rkStage D C ty h y u i).k)]
      have n2 : ‖x - y‖ + L * (1 + L) ^ i * ‖x - y‖ ≤ (1 + L) ^ (i + 1) * ‖x - y‖ := by
        have : (1 : ℝ) ≤ (1 + L) ^ i := one_le_pow₀ (by linarith)
        rw [pow_succ]
        nlinarith [norm_nonneg (x - y), mul_le_mul_of_nonneg_right this (norm_nonneg (x - y))]
      calc L * _ ≤ L * ((1 + L) ^ (i + 1) * ‖x - y‖) :=
            mul_le_mul_of_nonneg_left (n1.trans n2) (by linarith)
        _ = _ := by ring
  have hk3 : ∀ i < rkN ty, ∀ j, |(rkStage D C ty h x u i).k j - (rkStage D C ty h y u i).k j|
      ≤ L * (1 + L) ^ 3 * ‖x - y‖ := by
    intro i hi j
    have hi3 : i ≤ 3 := by cases ty <;> simp [rkN] at hi <;> omega
    refine ((norm_le_pi_norm ((rkStage D C ty h x u i).k - (rkStage D C ty h y u i).k) j).trans
      (hk i)).trans ?_
    refine mul_le_mul_of_nonneg_right (mul_le_mul_of_nonneg_left ?_ (by linarith))
      (norm_nonneg _)
    exact pow_le_pow_right₀ (by linarith) hi3
  refine (pi_norm_le_iff_of_nonneg (by positivity)).2 fun j => ?_
  have e : (rkNext D C ty h x u - rkNext D C ty h y u) j = (x j - y j)
      + (rkSum ty h (fun i => (rkStage D C ty h x u i).k j - (rkStage D C ty h y u i).k j)
        - h * 0) := by
    cases ty <;> simp [rkNext, rkSum] <;> ring
  rw [e, Real.norm_eq_abs]
  refine (abs_add_le _ _).trans ?_
  have h1 : |x j - y j| ≤ ‖x - y‖ := norm_le_pi_norm (x - y) j
  have h2 := rkSum_close ty h hh.le
    (fun i => (rkStage D C ty h x u i).k j - (rkStage D C ty h y u i).k j) 0 _
    (fun i hi => by simpa using hk3 i hi j)
  calc _ ≤ ‖x - y‖ + h * (L * (1 + L) ^ 3 * ‖x - y‖) := add_le_add h1 h2
    _ = _ := by ring

/-- One step of the scheme and the trajectory. -/
theorem rk_local (ty : RKType) (D : DiffModel ℝ n nw) (A : Matrix (Fin n) (Ix n) ℝ)
    (B : Matrix (Fin n) (Fin nw) ℝ) (hD : ∀ x w, D.xout x w = A *ᵥ x + B *ᵥ w) (C : Ctl ℝ nw nu)
    (L : ℝ) (hL : 1 ≤ L) (hA : ∀ y, ‖linPart A y‖ ≤ L * ‖y‖) (h : ℝ) (hh : 0 < h)
    (u : Fin nu → ℝ) (w : Fin nw → ℝ) (hB : ‖(join 0 (B *ᵥ w) : X ℝ n)‖ ≤ L)
    (hC : ∀ i < rkN ty, C (rkC ty i) *ᵥ u = w) (φ : ℝ → X ℝ n)
    (hφ : IsTrajectory (fun x => D.xout x w) φ) :
    ‖φ h - rkNext D C ty h (φ 0) u‖
      ≤ L ^ (order ty + 1) * ((‖φ 0‖ + 1) * Real.exp (L * h)) * h ^ (order ty + 1) := by
  refine (pi_norm_le_iff_of_nonneg (by positivity)).2 fun i => ?_
  obtain ⟨v, v0, vs, dv, iv⟩ := lin_derivs D A B hD w φ hφ i
  rw [Pi.sub_apply, C39_order ty D A B hD C u w hC h φ hφ i, Real.norm_eq_abs, taylor]
  simp only [iv]
  have hb : ∀ j, ∀ t ∈ Icc 0 h, ‖v (j + 1) t‖
      ≤ L ^ (j + 1) * ((‖φ 0‖ + 1) * Real.exp (L * h)) := by
    intro j t ht
    induction j with
    | zero =>
      rw [vs]
      have hg := lin_growth D A B hD w φ hφ L hL hA hB t ht.1
      have he : Real.exp (L * t) ≤ Real.exp (L * h) :=
        Real.exp_le_exp.2 (mul_le_mul_of_nonneg_left ht.2 (by linarith))
      have h1 : ‖φ t‖ + 1 ≤ (‖φ 0‖ + 1) * Real.exp (L * h) :=
        hg.trans (mul_le_mul_of_nonneg_left he (by positivity))
      refine (norm_add_le _ _).trans ((add_le_add (hA _) hB).trans ?_)
      have := mul_le_mul_of_nonneg_left h1 (by linarith : 0 ≤ L)
      simp only [zero_add, pow_one]
      linarith
    | succ j ih =>
      have e : v (j + 1 + 1) t = linPart A (v (j + 1) t) := by
        rw [vs, vs]; exact Function.iterate_succ_apply' _ _ _
      rw [e]
      refine (hA _).trans ((mul_le_mul_of_nonneg_left ih (by linarith)).trans (le_of_eq ?_))
      ring
  have := taylor_remainder (order ty) (fun j t => v j t i)
    (L ^ (order ty + 1) * ((‖φ 0‖ + 1) * Real.exp (L * h))) h hh.le dv
    (fun t ht => (norm_le_pi_norm (v (order ty + 1) t) i).trans (hb _ t ht))
  simpa only [v0] using this

end Verif.Integrators
