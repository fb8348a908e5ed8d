import Verif.Spec.LqrAction
import Verif.Lemmas.Deriv
import Mathlib.Tactic.Ring
import Mathlib.Tactic.Linarith
import Mathlib.Algebra.BigOperators.Ring.Finset

/-! # Derivatives of quadratic functions -/

set_option linter.unusedSectionVars false

namespace Verif.Deriv
open Matrix
variable {ι κ σ : Type*} [Fintype ι] [Fintype κ] [Fintype σ]

theorem HasGrad.mul {f g : (ι → ℝ) → (κ → ℝ) → ℝ} {fx gx : ι → ℝ} {fu gu : κ → ℝ}
    {x : ι → ℝ} {u : κ → ℝ} (hf : HasGrad f fx fu x u) (hg : HasGrad g gx gu x u) :
    HasGrad (fun x u => f x u * g x u) (f x u • gx + g x u • fx) (f x u • gu + g x u • fu) x u := by
  have := HasFDerivAt.mul hf hg
  refine this.congr_fderiv ?_
  ext p <;> simp [form_apply, add_mul, Finset.sum_add_distrib, Finset.mul_sum, mul_assoc]

theorem HasGrad.sum {s : Type*} [Fintype s] {f : s → (ι → ℝ) → (κ → ℝ) → ℝ} {fx : s → ι → ℝ} {fu : s → κ → ℝ}
    {x : ι → ℝ} {u : κ → ℝ} (h : ∀ i, HasGrad (f i) (fx i) (fu i) x u) :
    HasGrad (fun x u => ∑ i, f i x u) (∑ i, fx i) (∑ i, fu i) x u := by
  have := HasFDerivAt.fun_sum (u := Finset.univ) (fun i _ => h i)
  refine this.congr_fderiv ?_
  ext p <;> simp [form_apply, Finset.sum_mul, ContinuousLinearMap.sum_apply] <;> rw [Finset.sum_comm]

theorem hasGrad_snd [DecidableEq κ] (i : κ) (x : ι → ℝ) (u : κ → ℝ) :
    HasGrad (fun (_ : ι → ℝ) w => w i) 0 (fun j => if i = j then 1 else 0) x u := by
  have h : HasFDerivAt (fun p : (ι → ℝ) × (κ → ℝ) => p.2 i)
      ((ContinuousLinearMap.proj (R := ℝ) (φ := fun _ : κ => ℝ) i).comp
        (ContinuousLinearMap.snd ℝ (ι → ℝ) (κ → ℝ))) (x, u) :=
    ((ContinuousLinearMap.proj (R := ℝ) (φ := fun _ : κ => ℝ) i).comp
        (ContinuousLinearMap.snd ℝ (ι → ℝ) (κ → ℝ))).hasFDerivAt
  refine h.congr_fderiv ?_
  ext p <;> simp [form_apply]

/-- An affine function has its coefficients as gradient. -/
theorem hasGrad_affine (a : ι → ℝ) (b : κ → ℝ) (c : ℝ) (x : ι → ℝ) (u : κ → ℝ) :
    HasGrad (fun x u => ∑ i, a i * x i + ∑ i, b i * u i + c) a b x u := by
  classical
  have h1 := HasGrad.sum (x := x) (u := u) (fun i : ι => (hasGrad_fst i x u).const_mul (a i))
  have h2 := HasGrad.sum (x := x) (u := u) (fun i : κ => (hasGrad_snd i x u).const_mul (b i))
  refine ((h1.add h2).add (hasGrad_const c x u)).congr_grad ?_ ?_ <;> funext k <;>
    simp [Finset.sum_apply]

theorem hasGrad_quad_xx (Q : Matrix ι ι ℝ) (x : ι → ℝ) (u : κ → ℝ) :
    HasGrad (fun x (_ : κ → ℝ) => ∑ i, ∑ j, x i * Q i j * x j) (Q *ᵥ x + Qᵀ *ᵥ x) 0 x u := by
  classical
  have h := HasGrad.sum (x := x) (u := u) (fun i : ι => HasGrad.sum (x := x) (u := u)
    (fun j : ι => ((hasGrad_fst (κ := κ) i x u).mul_const (Q i j)).mul (hasGrad_fst (κ := κ) j x u)))
  refine h.congr_grad ?_ ?_
  · funext k
    simp only [Finset.sum_apply, Pi.add_apply, Pi.smul_apply, smul_eq_mul, Finset.sum_add_distrib,
      mul_ite, mul_one, mul_zero, Finset.sum_ite_eq', Finset.mem_univ, if_true, mulVec, dotProduct, transpose_apply]
    rw [add_comm]
    refine congrArg₂ _ ?_ ?_
    · rw [Finset.sum_comm]
      refine Finset.sum_congr rfl fun j _ => ?_
      simp; ring
    · refine Finset.sum_congr rfl fun j _ => ?_
      ring
  · funext k; simp [Finset.sum_apply]

theorem hasGrad_quad_uu (R : Matrix κ κ ℝ) (x : ι → ℝ) (u : κ → ℝ) :
    HasGrad (fun (_ : ι → ℝ) u => ∑ i, ∑ j, u i * R i j * u j) 0 (R *ᵥ u + Rᵀ *ᵥ u) x u := by
  classical
  have h := HasGrad.sum (x := x) (u := u) (fun i : κ => HasGrad.sum (x := x) (u := u)
    (fun j : κ => ((hasGrad_snd (ι := ι) i x u).mul_const (R i j)).mul (hasGrad_snd (ι := ι) j x u)))
  refine h.congr_grad ?_ ?_
  · funext k; simp [Finset.sum_apply]
  · funext k
    simp only [Finset.sum_apply, Pi.add_apply, Pi.smul_apply, smul_eq_mul, Finset.sum_add_distrib,
      mul_ite, mul_one, mul_zero, Finset.sum_ite_eq', Finset.mem_univ, if_true, mulVec, dotProduct, transpose_apply]
    rw [add_comm]
    refine congrArg₂ _ ?_ ?_
    · rw [Finset.sum_comm]
      refine Finset.sum_congr rfl fun j _ => ?_
      simp; ring
    · refine Finset.sum_congr rfl fun j _ => ?_
      ring

theorem hasGrad_quad_xu (N : Matrix ι κ ℝ) (x : ι → ℝ) (u : κ → ℝ) :
    HasGrad (fun x u => ∑ i, ∑ j, x i * N i j * u j) (N *ᵥ u) (Nᵀ *ᵥ x) x u := by
  classical
  have h := HasGrad.sum (x := x) (u := u) (fun i : ι => HasGrad.sum (x := x) (u := u)
    (fun j : κ => ((hasGrad_fst (κ := κ) i x u).mul_const (N i j)).mul (hasGrad_snd (ι := ι) j x u)))
  refine h.congr_grad ?_ ?_
  · funext k
    simp only [Finset.sum_apply, Pi.add_apply, Pi.smul_apply, smul_eq_mul, Finset.sum_add_distrib,
      mulVec, dotProduct]
    rw [Finset.sum_comm]
    simp
    exact Finset.sum_congr rfl fun j _ => by ring
  · funext k
    simp only [Finset.sum_apply, Pi.add_apply, Pi.smul_apply, smul_eq_mul, Finset.sum_add_distrib,
      mulVec, dotProduct, transpose_apply]
    simp
    exact Finset.sum_congr rfl fun j _ => by ring

end Verif.Deriv

namespace Verif.Lqr
open Matrix Deriv
variable {o ι κ γ η : Type} [Fintype ι] [Fintype κ]

theorem hasGrad_cost (p : Par o ι κ γ η ℝ) (x : ι → ℝ) (u : κ → ℝ) :
    HasGrad (Spec.cost p) ((1 / 2 : ℝ) • (p.Q *ᵥ x + p.Qᵀ *ᵥ x) + p.N *ᵥ u + p.q)
      ((1 / 2 : ℝ) • (p.R *ᵥ u + p.Rᵀ *ᵥ u) + p.Nᵀ *ᵥ x + p.r) x u := by
  have h := (((hasGrad_quad_xx (κ := κ) p.Q x u).add ((hasGrad_quad_xu p.N x u).const_mul 2)).add
    (hasGrad_quad_uu (ι := ι) p.R x u)).const_mul (1 / 2)
  have h2 := h.add (hasGrad_affine p.q p.r 0 x u)
  have e2 : Spec.cost p = fun x u => 1 / 2 * (∑ i, ∑ j, x i * p.Q i j * x j
        + 2 * ∑ i, ∑ j, x i * p.N i j * u j + ∑ i, ∑ j, u i * p.R i j * u j)
        + (∑ i, p.q i * x i + ∑ i, p.r i * u i + 0) := by
      funext x u; simp only [Spec.cost]; ring
  rw [e2]
  refine h2.congr_grad ?_ ?_ <;> funext k <;> simp <;> ring

end Verif.Lqr
