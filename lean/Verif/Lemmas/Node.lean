import Verif.Lemmas.Deriv
import Verif.Spec.Node
import Mathlib.Analysis.Calculus.Deriv.Prod
import Mathlib.Analysis.Calculus.Deriv.Slope
import Mathlib.Analysis.Calculus.Deriv.Comp
import Mathlib.Analysis.Normed.Module.FiniteDimension

/-!
# Derivatives along curves are derivatives

Hadamard's criterion: in finite dimension a function that has a derivative along every curve with a tangent, given by one linear map, has
that map as its derivative.
-/

namespace Verif.Node

open Filter Topology Matrix Verif.Deriv

set_option linter.unusedSectionVars false

section
variable {E F : Type*} [NormedAddCommGroup E] [NormedSpace ℝ E] [ProperSpace E] [NormedAddCommGroup F] [NormedSpace ℝ F]

/-- Hadamard's criterion. -/
theorem hasFDerivAt_of_curves {f : E → F} {L : E →L[ℝ] F} {p : E}
    (h : ∀ (c : ℝ → E) (d : E), c 0 = p → HasDerivAt c d 0 → HasDerivAt (fun s => f (c s)) (L d) 0) : HasFDerivAt f L p := by
  by_contra hn
  rw [hasFDerivAt_iff_isLittleO_nhds_zero, Asymptotics.isLittleO_iff] at hn
  push Not at hn
  obtain ⟨ε, hε, hf⟩ := hn
  have hf' : ∃ᶠ y in 𝓝 (0 : E), ε * ‖y‖ < ‖f (p + y) - f p - L y‖ := hf
  obtain ⟨y, hy, hbad⟩ := exists_seq_forall_of_frequently hf'
  have hpos : ∀ n, 0 < ‖y n‖ := by
    intro n
    rw [norm_pos_iff]
    intro h0
    have := hbad n
    simp [h0] at this
  have hmem : ∀ n, ‖y n‖⁻¹ • y n ∈ Metric.sphere (0 : E) 1 := by
    intro n
    rw [mem_sphere_zero_iff_norm, norm_smul, norm_inv, norm_norm, inv_mul_cancel₀ (hpos n).ne']
  obtain ⟨d, -, φ, hφ, hd⟩ := (isCompact_sphere (0 : E) 1).tendsto_subseq hmem
  classical
  set z : ℕ → E := fun n => y (φ n) with hz
  have hz0 : Tendsto (fun n => ‖z n‖) atTop (𝓝 0) := by
    have := (hy.comp hφ.tendsto_atTop).norm
    simpa using this
  let g : ℝ → E := fun s => if h : ∃ n, ‖z n‖ = s then z h.choose else s • d
  have g0 : g 0 = 0 := by
    have : ¬ ∃ n, ‖z n‖ = 0 := fun ⟨n, hn⟩ => (hpos (φ n)).ne' hn
    simp only [g, dif_neg this, zero_smul]
  have gd : HasDerivAt g d 0 := by
    rw [hasDerivAt_iff_isLittleO_nhds_zero, Asymptotics.isLittleO_iff]
    intro η hη
    have hdd : ∀ᶠ n in atTop, ‖‖z n‖⁻¹ • z n - d‖ ≤ η := by
      have := (tendsto_iff_norm_sub_tendsto_zero.1 hd).eventually (ge_mem_nhds hη)
      simpa [z] using this
    obtain ⟨N, hN⟩ := eventually_atTop.1 hdd
    have hsmall : ∀ᶠ s : ℝ in 𝓝 0, ∀ n ∈ Finset.range N, s ≠ ‖z n‖ := by
      rw [eventually_all_finset]
      intro n _
      exact isOpen_ne.mem_nhds (hpos (φ n)).ne
    filter_upwards [hsmall] with s hs
    rw [zero_add, g0, sub_zero]
    by_cases hex : ∃ n, ‖z n‖ = s
    · have hch := hex.choose_spec
      have hge : N ≤ hex.choose := by
        by_contra hlt
        exact hs _ (Finset.mem_range.2 (not_le.1 hlt)) hch.symm
      have hgs : g s = z hex.choose := by simp only [g, hex, dif_pos]
      have hs0 : 0 < s := hch ▸ hpos (φ hex.choose)
      have hb := hN _ hge
      rw [hch] at hb
      rw [hgs]
      have : z hex.choose - s • d = s • (s⁻¹ • z hex.choose - d) := by
        rw [smul_sub, smul_smul, mul_inv_cancel₀ hs0.ne', one_smul]
      rw [this, norm_smul, mul_comm]
      exact mul_le_mul_of_nonneg_right hb (norm_nonneg s)
    · have hgs : g s = s • d := by simp only [g, hex, dif_neg, not_false_eq_true]
      rw [hgs, sub_self, norm_zero]
      positivity
  have hc := h (fun s => p + g s) d (by simp [g0]) (gd.const_add p)
  have hL : HasDerivAt (fun s => L (g s)) (L d) 0 := L.hasFDerivAt.comp_hasDerivAt 0 gd
  have hdif := hc.sub hL
  rw [sub_self, hasDerivAt_iff_isLittleO_nhds_zero, Asymptotics.isLittleO_iff] at hdif
  have hev := hz0.eventually (hdif hε)
  obtain ⟨n, hn⟩ := hev.exists
  have hex : ∃ m, ‖z m‖ = ‖z n‖ := ⟨n, rfl⟩
  have hgs : g ‖z n‖ = z hex.choose := by simp only [g, hex, dif_pos]
  have hb := hbad (φ hex.choose)
  simp only [Pi.sub_apply, zero_add, smul_zero, sub_zero, g0, add_zero, map_zero, hgs, norm_norm] at hn
  have hb' : ε * ‖z hex.choose‖ < ‖f (p + z hex.choose) - f p - L (z hex.choose)‖ := hb
  rw [hex.choose_spec] at hb'
  rw [sub_right_comm] at hn
  exact absurd hn (not_le.2 hb')

end

/-- The same for the Jacobians of a vector that depends on two vectors. -/
theorem hasJac_of_curves {ι κ : Type*} {n : ℕ} [Fintype ι] [Fintype κ] {f : (ι → ℝ) → (κ → ℝ) → Fin n → ℝ} {A : Matrix (Fin n) ι ℝ}
    {B : Matrix (Fin n) κ ℝ} {x : ι → ℝ} {u : κ → ℝ}
    (h : ∀ (c : ℝ → ι → ℝ) (v : ℝ → κ → ℝ) (δ : ι → ℝ) (w : κ → ℝ), c 0 = x → v 0 = u → HasDerivAt c δ 0 → HasDerivAt v w 0 →
      HasDerivAt (fun s => f (c s) (v s)) (A *ᵥ δ + B *ᵥ w) 0) : HasJac f A B x u := by
  intro a
  refine hasFDerivAt_of_curves fun c d hc hd => ?_
  have h1 : HasDerivAt (fun s => (c s).1) d.1 0 := hd.fst
  have h2 : HasDerivAt (fun s => (c s).2) d.2 0 := hd.snd
  have := hasDerivAt_pi.1 (h (fun s => (c s).1) (fun s => (c s).2) d.1 d.2 (by rw [hc]) (by rw [hc]) h1 h2) a
  refine this.congr_deriv ?_
  simp [form_apply, Matrix.mulVec, dotProduct]

/-- Jacobians give the derivatives along curves. -/
theorem hasJac_along {ι κ : Type*} {n : ℕ} [Fintype ι] [Fintype κ] {f : (ι → ℝ) → (κ → ℝ) → Fin n → ℝ} {A : Matrix (Fin n) ι ℝ}
    {B : Matrix (Fin n) κ ℝ} {x : ι → ℝ} {u : κ → ℝ} (h : HasJac f A B x u) {c : ℝ → ι → ℝ} {v : ℝ → κ → ℝ} {δ : ι → ℝ} {w : κ → ℝ}
    (hc0 : c 0 = x) (hv0 : v 0 = u) (hc : HasDerivAt c δ 0) (hv : HasDerivAt v w 0) :
    HasDerivAt (fun s => f (c s) (v s)) (A *ᵥ δ + B *ᵥ w) 0 := by
  rw [hasDerivAt_pi]
  intro a
  have ha := h a
  rw [HasGrad, ← hc0, ← hv0] at ha
  have := HasFDerivAt.comp_hasDerivAt (0 : ℝ) (f := fun s => (c s, v s)) ha (hc.prodMk hv)
  refine this.congr_deriv ?_
  simp [form_apply, Matrix.mulVec, dotProduct]

end Verif.Node
