import Verif.Spec.FwdDyn
import Mathlib.Analysis.Calculus.Deriv.Add
import Mathlib.Analysis.Calculus.Deriv.Mul
import Mathlib.Analysis.Calculus.Deriv.Slope
import Mathlib.Analysis.Calculus.Deriv.Prod
import Mathlib.LinearAlgebra.Matrix.ToLinearEquiv
import Mathlib.LinearAlgebra.Matrix.DotProduct
import Mathlib.LinearAlgebra.Matrix.NonsingularInverse
import Mathlib.Tactic.Linarith
import Mathlib.Tactic.Ring
import Mathlib.Tactic.LinearCombination
import Mathlib.Tactic.Module

/-! # Lemmas on forward dynamics: invertibility of the contact problem, derivative of the solution of a linear system -/

namespace Verif.Fwd

open Matrix Filter Topology

variable {X Q : Type} {nv nc nu : ℕ}

theorem unit_of_inj {ι : Type*} [Fintype ι] [DecidableEq ι] (A : Matrix ι ι ℝ) (h : ∀ v, A *ᵥ v = 0 → v = 0) :
    IsUnit A.det := by
  rw [isUnit_iff_ne_zero]
  intro h0
  obtain ⟨v, hv, hA⟩ := exists_mulVec_eq_zero_iff.2 h0
  exact hv (h v hA)

theorem Spd.unit {M : Mat nv nv} (h : Spd M) : IsUnit M.det := by
  refine unit_of_inj M fun v hv => ?_
  by_contra hne
  have := h.2 v hne
  rw [hv, dotProduct_zero] at this
  exact lt_irrefl _ this

theorem mulVec_sum (A : Mat nv nv) (B : Matrix (Fin nv) (Fin nc) ℝ) (C : Mat nc nv) (D : Mat nc nc) (a : Vec nv) (b : Vec nc) :
    fromBlocks A B C D *ᵥ Sum.elim a b = Sum.elim (A *ᵥ a + B *ᵥ b) (C *ᵥ a + D *ᵥ b) := by
  rw [fromBlocks_mulVec]
  rfl

theorem kkt_mul (M : Mat nv nv) (J : Mat nc nv) (μ : ℝ) (a : Vec nv) (l : Vec nc) :
    kkt M J μ *ᵥ Sum.elim a (-l) = Sum.elim (M *ᵥ a - Jᵀ *ᵥ l) (J *ᵥ a + μ • l) := by
  unfold kkt
  rw [mulVec_sum]
  congr 1
  · rw [mulVec_neg, sub_eq_add_neg]
  · rw [neg_mulVec, mulVec_neg, neg_neg, smul_mulVec, one_mulVec]

theorem Regular.unit {M : Mat nv nv} {J : Mat nc nv} {μ : ℝ} (h : Regular M J μ) : IsUnit (kkt M J μ).det := by
  obtain ⟨hM, hμ, hJ⟩ := h
  refine unit_of_inj _ fun z hz => ?_
  obtain ⟨p, q, rfl⟩ : ∃ p q, z = Sum.elim p (-q) := ⟨fun i => z (Sum.inl i), fun i => -z (Sum.inr i), by
    ext i; cases i <;> simp⟩
  rw [kkt_mul] at hz
  have h1 : M *ᵥ p - Jᵀ *ᵥ q = 0 := by
    ext i; exact congrFun hz (Sum.inl i)
  have h2 : J *ᵥ p + μ • q = 0 := by
    ext i; exact congrFun hz (Sum.inr i)
  have h3 : p ⬝ᵥ M *ᵥ p + μ * (q ⬝ᵥ q) = 0 := by
    have e1 : p ⬝ᵥ M *ᵥ p = p ⬝ᵥ Jᵀ *ᵥ q := by rw [sub_eq_zero.1 h1]
    have e2 : p ⬝ᵥ Jᵀ *ᵥ q = (J *ᵥ p) ⬝ᵥ q := by
      rw [dotProduct_mulVec, vecMul_transpose]
    have e3 : J *ᵥ p = -(μ • q) := eq_neg_of_add_eq_zero_left h2
    rw [e1, e2, e3, neg_dotProduct, smul_dotProduct, smul_eq_mul]
    ring
  have hq : 0 ≤ q ⬝ᵥ q := Finset.sum_nonneg fun i _ => mul_self_nonneg _
  have hp0 : p = 0 := by
    by_contra hne
    have := hM.2 p hne
    nlinarith [mul_nonneg hμ hq]
  subst hp0
  have hq0 : q = 0 := by
    rcases hJ with hμ | hJ
    · have : μ * (q ⬝ᵥ q) = 0 := by simpa using h3
      rcases mul_eq_zero.1 this with h | h
      · exact absurd h hμ.ne'
      · exact dotProduct_self_eq_zero.1 h
    · refine hJ q ?_
      simpa using h1
  subst hq0
  ext i
  cases i <;> simp

theorem cancel {ι : Type*} [Fintype ι] [DecidableEq ι] {A : Matrix ι ι ℝ} (h : IsUnit A.det) {v w : ι → ℝ}
    (e : A *ᵥ v = A *ᵥ w) : v = w := by
  have := congrArg (fun z => A⁻¹ *ᵥ z) e
  simpa [mulVec_mulVec, nonsing_inv_mul A h] using this

theorem tendsto_mulVec {α ι : Type*} [Fintype ι] {l : Filter α} {B : α → Matrix ι ι ℝ} {y : α → ι → ℝ} {B0 : Matrix ι ι ℝ}
    {y0 : ι → ℝ} (hB : Tendsto B l (𝓝 B0)) (hy : Tendsto y l (𝓝 y0)) :
    Tendsto (fun s => B s *ᵥ y s) l (𝓝 (B0 *ᵥ y0)) := by
  rw [tendsto_pi_nhds] at hy ⊢
  intro i
  simp only [mulVec, dotProduct]
  refine tendsto_finset_sum _ fun j _ => Tendsto.mul ?_ (hy j)
  exact (tendsto_pi_nhds.1 (tendsto_pi_nhds.1 hB i)) j

/-- **Implicit differentiation of a linear system.** If `A(s) z(s) = b(s)`, `A` is continuous and invertible at `0`, and the
residual `b(s) - A(s) z(0)` of the frozen solution has derivative `c'`, then `z` has derivative `A(0)⁻¹ c'`. -/
theorem implicit {ι : Type*} [Fintype ι] [DecidableEq ι] {A : ℝ → Matrix ι ι ℝ} {b z : ℝ → ι → ℝ} {c' : ι → ℝ}
    (hA : ContinuousAt A 0) (hdet : IsUnit (A 0).det) (hz : ∀ᶠ s in 𝓝 0, A s *ᵥ z s = b s)
    (hc : HasDerivAt (fun s => b s - A s *ᵥ z 0) c' 0) : HasDerivAt z ((A 0)⁻¹ *ᵥ c') 0 := by
  have hdetc : ContinuousAt (fun s => (A s).det) 0 := (Continuous.matrix_det continuous_id).continuousAt.comp hA
  have hinv : ContinuousAt (fun s => (A s)⁻¹) 0 := by
    have : (fun s => (A s)⁻¹) = fun s => ((A s).det)⁻¹ • (A s).adjugate := by
      funext s
      rw [Matrix.inv_def, Ring.inverse_eq_inv']
    rw [this]
    exact (hdetc.inv₀ hdet.ne_zero).smul ((Continuous.matrix_adjugate continuous_id).continuousAt.comp hA)
  have hne : ∀ᶠ s in 𝓝 (0 : ℝ), (A s).det ≠ 0 := hdetc.eventually_ne hdet.ne_zero
  have h0 : b 0 - A 0 *ᵥ z 0 = 0 := by rw [hz.self_of_nhds, sub_self]
  rw [hasDerivAt_iff_tendsto_slope] at hc ⊢
  have hlim : Tendsto (fun s => (A s)⁻¹ *ᵥ slope (fun s => b s - A s *ᵥ z 0) 0 s) (𝓝[≠] 0) (𝓝 ((A 0)⁻¹ *ᵥ c')) := by
    have hi : Tendsto (fun s => (A s)⁻¹) (𝓝[≠] 0) (𝓝 (A 0)⁻¹) := hinv.mono_left nhdsWithin_le_nhds
    exact tendsto_mulVec hi hc
  refine hlim.congr' ?_
  filter_upwards [nhdsWithin_le_nhds hz, nhdsWithin_le_nhds hne] with s h1 h2
  simp only [slope, vsub_eq_sub, sub_zero, h0]
  rw [mulVec_smul, ← h1, ← mulVec_sub, mulVec_mulVec, nonsing_inv_mul _ (isUnit_iff_ne_zero.2 h2), one_mulVec]

/-- The mass matrix with armature is continuous. -/
theorem mass_continuousAt {a : Arm nv} {M : ℝ → Mat nv nv} (h : ContinuousAt M 0) :
    ContinuousAt (fun s => a.mass (M s)) 0 := by
  unfold Arm.mass
  split
  · exact h
  · exact h.add continuousAt_const

theorem mass_eq (a : Arm nv) (M : Mat nv nv) : a.mass M = M + diagonal (inertia a) := by
  unfold Arm.mass inertia
  split <;> simp

theorem mass_mulVec (a : Arm nv) (M : Mat nv nv) (v : Vec nv) : a.mass M *ᵥ v = M *ᵥ v + inertia a * v := by
  rw [mass_eq, add_mulVec]
  congr 1
  ext i
  rw [mulVec_diagonal, Pi.mul_apply]

theorem kkt_continuousAt {M : ℝ → Mat nv nv} {J : ℝ → Mat nc nv} (hM : ContinuousAt M 0) (hJ : ContinuousAt J 0) (μ : ℝ) :
    ContinuousAt (fun s => kkt (M s) (J s) μ) 0 := by
  have h : Continuous fun p : Mat nv nv × Mat nc nv => kkt p.1 p.2 μ :=
    Continuous.matrix_fromBlocks continuous_fst (Continuous.matrix_transpose continuous_snd) continuous_snd continuous_const
  exact h.continuousAt.comp (hM.prodMk hJ)

/-- The derivative of stacked vectors. -/
theorem hasDerivAt_elim {f : ℝ → Vec nv} {g : ℝ → Vec nc} {f' : Vec nv} {g' : Vec nc} (hf : HasDerivAt f f' 0)
    (hg : HasDerivAt g g' 0) : HasDerivAt (fun s => Sum.elim (f s) (g s)) (Sum.elim f' g') 0 := by
  rw [hasDerivAt_pi]
  rintro (i | i)
  · exact (hasDerivAt_pi.1 hf) i
  · exact (hasDerivAt_pi.1 hg) i

theorem inv_eq {ι : Type*} [Fintype ι] [DecidableEq ι] {A B : Matrix ι ι ℝ} (h : B * A = 1) : A⁻¹ = B :=
  Matrix.inv_eq_left_inv h

/-- The derivative of a product with a factor that vanishes: the matrix need only be continuous. -/
theorem hasDerivAt_mulVec_zero {A : ℝ → Mat nv nv} {y : ℝ → Vec nv} {y' : Vec nv} (hA : ContinuousAt A 0) (h0 : y 0 = 0)
    (hy : HasDerivAt y y' 0) : HasDerivAt (fun s => A s *ᵥ y s) (A 0 *ᵥ y') 0 := by
  rw [hasDerivAt_iff_tendsto_slope] at hy ⊢
  have hA' : Tendsto A (𝓝[≠] 0) (𝓝 (A 0)) := hA.mono_left nhdsWithin_le_nhds
  refine (tendsto_mulVec hA' hy).congr fun s => ?_
  simp only [slope, vsub_eq_sub, sub_zero, h0, mulVec_zero, mulVec_smul]

theorem blocks_mulVec (K : Matrix (Fin nv ⊕ Fin nc) (Fin nv ⊕ Fin nc) ℝ) (p : Vec nv) (q : Vec nc) :
    K *ᵥ Sum.elim p q
      = Sum.elim (K.toBlocks₁₁ *ᵥ p + K.toBlocks₁₂ *ᵥ q) (K.toBlocks₂₁ *ᵥ p + K.toBlocks₂₂ *ᵥ q) := by
  conv_lhs => rw [← fromBlocks_toBlocks K]
  exact mulVec_sum _ _ _ _ _ _

/-- The parts of a differentiable stacked vector. -/
theorem hasDerivAt_parts {f : ℝ → Vec nv} {g : ℝ → Vec nc} {f' : Vec nv} {g' : Vec nc}
    (h : HasDerivAt (fun s => Sum.elim (f s) (g s)) (Sum.elim f' g') 0) : HasDerivAt f f' 0 ∧ HasDerivAt g g' 0 := by
  rw [hasDerivAt_pi] at h
  exact ⟨hasDerivAt_pi.2 fun i => h (Sum.inl i), hasDerivAt_pi.2 fun i => h (Sum.inr i)⟩

theorem hasDerivAt_congr {f : ℝ → Vec nv} {a b : Vec nv} (h : HasDerivAt f a 0) (e : b = a) : HasDerivAt f b 0 := e ▸ h

theorem elim_ext {a b : Vec nv} {c d : Vec nc} (h : Sum.elim a c = Sum.elim b d) : a = b ∧ c = d :=
  ⟨funext fun i => congrFun h (Sum.inl i), funext fun i => congrFun h (Sum.inr i)⟩

theorem seen_eq {L : Layout nc} (h : L.Distinct) (l : Vec nc) : L.seen (fun _ => true) l = l := by
  funext i
  simp only [Layout.seen, true_and]
  rw [if_pos]
  intro k _ hk
  exact (h k i hk).le

end Verif.Fwd
