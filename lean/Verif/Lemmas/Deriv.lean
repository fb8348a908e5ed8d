import Verif.Spec.Deriv

/-! Calculus with `HasGrad` and `HasJac`. -/

namespace Verif.Deriv

open Matrix

variable {ι κ σ τ : Type*} [Fintype ι] [Fintype κ] [Fintype σ] [Fintype τ]

theorem form_apply (v h : ι → ℝ) : form v h = ∑ i, v i * h i := by
  simp [form]

theorem HasGrad.congr_grad {f : (ι → ℝ) → (κ → ℝ) → ℝ} {gx gx' : ι → ℝ} {gu gu' : κ → ℝ}
    {x : ι → ℝ} {u : κ → ℝ} (h : HasGrad f gx gu x u) (e : gx = gx') (e' : gu = gu') :
    HasGrad f gx' gu' x u := e ▸ e' ▸ h

theorem HasGrad.add {f g : (ι → ℝ) → (κ → ℝ) → ℝ} {fx gx : ι → ℝ} {fu gu : κ → ℝ}
    {x : ι → ℝ} {u : κ → ℝ} (hf : HasGrad f fx fu x u) (hg : HasGrad g gx gu x u) :
    HasGrad (fun x u => f x u + g x u) (fx + gx) (fu + gu) x u := by
  have := HasFDerivAt.add hf hg
  refine this.congr_fderiv ?_
  ext p <;> simp [form_apply, add_mul, Finset.sum_add_distrib]

theorem HasGrad.const_mul {f : (ι → ℝ) → (κ → ℝ) → ℝ} {fx : ι → ℝ} {fu : κ → ℝ}
    {x : ι → ℝ} {u : κ → ℝ} (c : ℝ) (hf : HasGrad f fx fu x u) :
    HasGrad (fun x u => c * f x u) (c • fx) (c • fu) x u := by
  have := HasFDerivAt.const_mul hf c
  refine this.congr_fderiv ?_
  ext p <;> simp [form_apply, mul_assoc, Finset.mul_sum]

theorem HasGrad.mul_const {f : (ι → ℝ) → (κ → ℝ) → ℝ} {fx : ι → ℝ} {fu : κ → ℝ}
    {x : ι → ℝ} {u : κ → ℝ} (c : ℝ) (hf : HasGrad f fx fu x u) :
    HasGrad (fun x u => f x u * c) (c • fx) (c • fu) x u := by
  have := hf.const_mul c
  simpa only [mul_comm c] using this

theorem HasGrad.div_const {f : (ι → ℝ) → (κ → ℝ) → ℝ} {fx : ι → ℝ} {fu : κ → ℝ}
    {x : ι → ℝ} {u : κ → ℝ} (c : ℝ) (hf : HasGrad f fx fu x u) :
    HasGrad (fun x u => f x u / c) (c⁻¹ • fx) (c⁻¹ • fu) x u := by
  have := hf.mul_const c⁻¹
  simpa only [div_eq_mul_inv] using this

theorem hasGrad_const (c : ℝ) (x : ι → ℝ) (u : κ → ℝ) :
    HasGrad (fun _ _ => c) 0 0 x u := by
  refine (hasFDerivAt_const c (x, u)).congr_fderiv ?_
  ext p <;> simp [form_apply]

theorem hasGrad_fst [DecidableEq ι] (i : ι) (x : ι → ℝ) (u : κ → ℝ) :
    HasGrad (fun y _ => y i) (fun j => if i = j then 1 else 0) 0 x u := by
  have h : HasFDerivAt (fun p : (ι → ℝ) × (κ → ℝ) => p.1 i)
      ((ContinuousLinearMap.proj (R := ℝ) (φ := fun _ : ι => ℝ) i).comp
        (ContinuousLinearMap.fst ℝ (ι → ℝ) (κ → ℝ))) (x, u) :=
    ((ContinuousLinearMap.proj (R := ℝ) (φ := fun _ : ι => ℝ) i).comp
        (ContinuousLinearMap.fst ℝ (ι → ℝ) (κ → ℝ))).hasFDerivAt
  refine h.congr_fderiv ?_
  ext p <;> simp [form_apply]

theorem hasGrad_snd_form (v : κ → ℝ) (x : ι → ℝ) (u : κ → ℝ) :
    HasGrad (fun (_ : ι → ℝ) w => v ⬝ᵥ w) 0 v x u := by
  have h : HasFDerivAt (fun p : (ι → ℝ) × (κ → ℝ) => form v p.2)
      ((form v).comp (ContinuousLinearMap.snd ℝ (ι → ℝ) (κ → ℝ))) (x, u) :=
    ((form v).comp (ContinuousLinearMap.snd ℝ (ι → ℝ) (κ → ℝ))).hasFDerivAt
  have e : (fun p : (ι → ℝ) × (κ → ℝ) => form v p.2) = fun p => v ⬝ᵥ p.2 := by
    funext p; rw [form_apply]; rfl
  rw [e] at h
  refine HasFDerivAt.congr_fderiv h ?_
  ext p <;> simp [form_apply]

theorem hasJac_mulVec_snd (M : Matrix σ κ ℝ) (x : ι → ℝ) (u : κ → ℝ) :
    HasJac (fun (_ : ι → ℝ) w => M *ᵥ w) 0 M x u := fun a =>
  hasGrad_snd_form (M a) x u

theorem hasJac_fst [DecidableEq ι] (x : ι → ℝ) (u : κ → ℝ) :
    HasJac (fun y (_ : κ → ℝ) => y) (1 : Matrix ι ι ℝ) 0 x u := fun a =>
  (hasGrad_fst a x u).congr_grad (by funext j; simp [Matrix.one_apply]) rfl

theorem HasGrad.comp {f : (σ → ℝ) → (τ → ℝ) → ℝ} {fy : σ → ℝ} {fw : τ → ℝ}
    {Y : (ι → ℝ) → (κ → ℝ) → σ → ℝ} {W : (ι → ℝ) → (κ → ℝ) → τ → ℝ}
    {Yx : Matrix σ ι ℝ} {Yu : Matrix σ κ ℝ} {Wx : Matrix τ ι ℝ} {Wu : Matrix τ κ ℝ}
    {x : ι → ℝ} {u : κ → ℝ}
    (hf : HasGrad f fy fw (Y x u) (W x u)) (hY : HasJac Y Yx Yu x u) (hW : HasJac W Wx Wu x u) :
    HasGrad (fun x u => f (Y x u) (W x u)) (fy ᵥ* Yx + fw ᵥ* Wx) (fy ᵥ* Yu + fw ᵥ* Wu) x u := by
  have hY' : HasFDerivAt (fun p : (ι → ℝ) × (κ → ℝ) => Y p.1 p.2)
      (ContinuousLinearMap.pi fun a =>
        (form (Yx a)).comp (ContinuousLinearMap.fst ℝ (ι → ℝ) (κ → ℝ))
          + (form (Yu a)).comp (ContinuousLinearMap.snd ℝ (ι → ℝ) (κ → ℝ))) (x, u) :=
    hasFDerivAt_pi.mpr hY
  have hW' : HasFDerivAt (fun p : (ι → ℝ) × (κ → ℝ) => W p.1 p.2)
      (ContinuousLinearMap.pi fun a =>
        (form (Wx a)).comp (ContinuousLinearMap.fst ℝ (ι → ℝ) (κ → ℝ))
          + (form (Wu a)).comp (ContinuousLinearMap.snd ℝ (ι → ℝ) (κ → ℝ))) (x, u) :=
    hasFDerivAt_pi.mpr hW
  have h := HasFDerivAt.comp (x, u)
    (show HasFDerivAt (fun p : (σ → ℝ) × (τ → ℝ) => f p.1 p.2) _ (Y x u, W x u) from hf)
    (hY'.prodMk hW')
  refine HasFDerivAt.congr_fderiv h ?_
  ext p
  · simp [form_apply, Matrix.vecMul, dotProduct, add_mul, Finset.sum_add_distrib, Finset.mul_sum,
      Finset.sum_mul, mul_assoc]
    rw [Finset.sum_comm (s := Finset.univ (α := ι))]
    rw [Finset.sum_comm (s := Finset.univ (α := ι))]
  · simp [form_apply, Matrix.vecMul, dotProduct, add_mul, Finset.sum_add_distrib, Finset.mul_sum,
      Finset.sum_mul, mul_assoc]
    rw [Finset.sum_comm (s := Finset.univ (α := κ))]
    rw [Finset.sum_comm (s := Finset.univ (α := κ))]

theorem HasJac.comp {f : (σ → ℝ) → (τ → ℝ) → ι → ℝ} {Fy : Matrix ι σ ℝ} {Fw : Matrix ι τ ℝ}
    {α : Type*} [Fintype α]
    {Y : (α → ℝ) → (κ → ℝ) → σ → ℝ} {W : (α → ℝ) → (κ → ℝ) → τ → ℝ}
    {Yx : Matrix σ α ℝ} {Yu : Matrix σ κ ℝ} {Wx : Matrix τ α ℝ} {Wu : Matrix τ κ ℝ}
    {x : α → ℝ} {u : κ → ℝ}
    (hf : HasJac f Fy Fw (Y x u) (W x u)) (hY : HasJac Y Yx Yu x u) (hW : HasJac W Wx Wu x u) :
    HasJac (fun x u => f (Y x u) (W x u)) (Fy * Yx + Fw * Wx) (Fy * Yu + Fw * Wu) x u := fun a =>
  ((hf a).comp hY hW).congr_grad (by funext j; simp [Matrix.vecMul, Matrix.mul_apply, dotProduct])
    (by funext j; simp [Matrix.vecMul, Matrix.mul_apply, dotProduct])

/-- Gradients are unique. -/
theorem HasGrad.unique {f : (ι → ℝ) → (κ → ℝ) → ℝ} {gx gx' : ι → ℝ} {gu gu' : κ → ℝ}
    {x : ι → ℝ} {u : κ → ℝ} (h : HasGrad f gx gu x u) (h' : HasGrad f gx' gu' x u) :
    gx = gx' ∧ gu = gu' := by
  classical
  have e := HasFDerivAt.unique h h'
  constructor
  · funext i
    have := congrArg (fun L => L (Pi.single i 1, 0)) e
    simpa [form_apply, Pi.single_apply] using this
  · funext i
    have := congrArg (fun L => L (0, Pi.single i 1)) e
    simpa [form_apply, Pi.single_apply] using this

theorem HasJac.unique {f : (ι → ℝ) → (κ → ℝ) → σ → ℝ} {Jx Jx' : Matrix σ ι ℝ} {Ju Ju' : Matrix σ κ ℝ}
    {x : ι → ℝ} {u : κ → ℝ} (h : HasJac f Jx Ju x u) (h' : HasJac f Jx' Ju' x u) :
    Jx = Jx' ∧ Ju = Ju' :=
  ⟨funext fun a => ((h a).unique (h' a)).1, funext fun a => ((h a).unique (h' a)).2⟩

end Verif.Deriv
