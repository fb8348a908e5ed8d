import Verif.Spec.Converge
import Mathlib.Analysis.Calculus.MeanValue
import Mathlib.Analysis.Calculus.Deriv.Prod
import Mathlib.Analysis.Calculus.Deriv.Pi
import Mathlib.Analysis.Calculus.ContDiff.Operations
import Mathlib.Analysis.SpecialFunctions.Exp
import Mathlib.Analysis.Normed.Module.FiniteDimension
import Mathlib.Tactic.Ring
import Mathlib.Tactic.Linarith
import Mathlib.Tactic.Positivity

/-! Lemmas for C139: convergence of one-step methods. -/

set_option linter.unusedSectionVars false

namespace Verif.Integrators

open Matrix Set
open Verif.Controls (RKType)

variable {n nw nu : ℕ}

/-- A continuously differentiable function is bounded and Lipschitz on balls. -/
theorem ball_bounds {P E : Type*} [NormedAddCommGroup P] [NormedSpace ℝ P] [FiniteDimensional ℝ P]
    [NormedAddCommGroup E] [NormedSpace ℝ E] (F : P → E) (hF : ContDiff ℝ 1 F) (R : ℝ) :
    ∃ M, 0 ≤ M ∧ (∀ p, ‖p‖ ≤ R → ‖F p‖ ≤ M) ∧
      ∀ p p', ‖p‖ ≤ R → ‖p'‖ ≤ R → ‖F p - F p'‖ ≤ M * ‖p - p'‖ := by
  haveI : ProperSpace P := FiniteDimensional.proper ℝ P
  have hc := isCompact_closedBall (0 : P) R
  obtain ⟨M1, h1⟩ := hc.exists_bound_of_continuousOn hF.continuous.continuousOn
  obtain ⟨M2, h2⟩ := hc.exists_bound_of_continuousOn
    (hF.continuous_fderiv (by norm_num)).continuousOn
  refine ⟨max 0 (max M1 M2), le_max_left _ _, fun p hp => ?_, fun p p' hp hp' => ?_⟩
  · exact (h1 p (by simpa using hp)).trans ((le_max_left _ _).trans (le_max_right _ _))
  · refine (convex_closedBall (0 : P) R).norm_image_sub_le_of_norm_fderiv_le (𝕜 := ℝ)
      (fun x _ => (hF.differentiable (by norm_num)) x)
      (fun x hx => (h2 x hx).trans ((le_max_right _ _).trans (le_max_right _ _)))
      (by simpa using hp') (by simpa using hp)

/-- Discrete Grönwall inequality. -/
theorem gronwall (e : ℕ → ℝ) (N : ℕ) (h T L c : ℝ) (hh : 0 < h) (hL : 0 ≤ L) (hc : 0 ≤ c)
    (hT : N * h ≤ T) (h0 : e 0 = 0) (hsmall : T * c * Real.exp (L * T) * h ≤ 1)
    (hstep : ∀ k < N, e k ≤ 1 → e (k + 1) ≤ (1 + h * L) * e k + c * h ^ 2) :
    ∀ k ≤ N, e k ≤ T * c * Real.exp (L * T) * h := by
  have hT0 : 0 ≤ T := le_trans (by positivity) hT
  have key : ∀ k ≤ N, e k ≤ k * h ^ 2 * c * Real.exp (L * (k * h)) ∧
      k * h ^ 2 * c * Real.exp (L * (k * h)) ≤ T * c * Real.exp (L * T) * h := by
    have up : ∀ k ≤ N, (k : ℝ) * h ^ 2 * c * Real.exp (L * (k * h))
        ≤ T * c * Real.exp (L * T) * h := by
      intro k hk
      have hkN : (k : ℝ) ≤ N := by exact_mod_cast hk
      have hkT : (k : ℝ) * h ≤ T := le_trans (mul_le_mul_of_nonneg_right hkN hh.le) hT
      have h1 : Real.exp (L * (k * h)) ≤ Real.exp (L * T) :=
        Real.exp_le_exp.2 (mul_le_mul_of_nonneg_left hkT hL)
      calc (k : ℝ) * h ^ 2 * c * Real.exp (L * (k * h))
          = (k * h) * (h * c) * Real.exp (L * (k * h)) := by ring
        _ ≤ T * (h * c) * Real.exp (L * T) := by
            refine mul_le_mul (mul_le_mul_of_nonneg_right hkT (by positivity)) h1
              (Real.exp_pos _).le (by positivity)
        _ = _ := by ring
    intro k
    induction k with
    | zero => intro hk; refine ⟨by simp [h0], up 0 hk⟩
    | succ k ih =>
      intro hk
      obtain ⟨i1, i2⟩ := ih (by omega)
      refine ⟨?_, up (k + 1) hk⟩
      have hs := hstep k (by omega) ((i1.trans i2).trans hsmall)
      have he : Real.exp (L * (((k + 1 : ℕ) : ℝ) * h))
          = Real.exp (L * (k * h)) * Real.exp (h * L) := by
        rw [← Real.exp_add]; congr 1; push_cast; ring
      have hg : 1 + h * L ≤ Real.exp (h * L) := by
        have := Real.add_one_le_exp (h * L); linarith
      have hp : 0 ≤ (k : ℝ) * h ^ 2 * c * Real.exp (L * (k * h)) := by positivity
      have hone : 1 ≤ Real.exp (L * (((k + 1 : ℕ) : ℝ) * h)) := Real.one_le_exp (by positivity)
      calc e (k + 1) ≤ (1 + h * L) * e k + c * h ^ 2 := hs
        _ ≤ (1 + h * L) * (k * h ^ 2 * c * Real.exp (L * (k * h))) + c * h ^ 2 * 1 := by
            have : 0 ≤ 1 + h * L := by positivity
            nlinarith [mul_le_mul_of_nonneg_left i1 this]
        _ ≤ Real.exp (h * L) * (k * h ^ 2 * c * Real.exp (L * (k * h)))
            + c * h ^ 2 * Real.exp (L * (((k + 1 : ℕ) : ℝ) * h)) :=
            add_le_add (mul_le_mul_of_nonneg_right hg hp)
              (mul_le_mul_of_nonneg_left hone (by positivity))
        _ = _ := by rw [he]; push_cast; ring
  intro k hk
  exact (key k hk).1.trans (key k hk).2

/-- The error of the first-order expansion of a curve whose derivative is Lipschitz. -/
theorem expand {E : Type*} [NormedAddCommGroup E] [NormedSpace ℝ E] (z g : ℝ → E) (T G : ℝ)
    (hz : ∀ t ∈ Icc 0 T, HasDerivWithinAt z (g t) (Icc 0 T) t)
    (hG : ∀ s ∈ Icc 0 T, ∀ t ∈ Icc 0 T, ‖g s - g t‖ ≤ G * |s - t|) (hG0 : 0 ≤ G) (t h : ℝ)
    (ht : 0 ≤ t) (hh : 0 ≤ h) (hT : t + h ≤ T) :
    ‖z (t + h) - z t - h • g t‖ ≤ G * h ^ 2 := by
  have hsub : Icc t (t + h) ⊆ Icc 0 T := Icc_subset_Icc ht hT
  have ht' : t ∈ Icc 0 T := hsub ⟨le_refl _, by linarith⟩
  have := norm_image_sub_le_of_norm_deriv_le_segment' (a := t) (b := t + h)
    (f := fun s => z s - s • g t) (f' := fun s => g s - (1 : ℝ) • g t) (C := G * h)
    (fun s hs => ((hz s (hsub hs)).mono hsub).sub
      (((hasDerivAt_id s).smul_const (g t)).hasDerivWithinAt))
    (fun s hs => by
      have hs' : s ∈ Icc t (t + h) := ⟨hs.1, hs.2.le⟩
      refine (by simpa using hG s (hsub hs') t ht' : ‖g s - (1 : ℝ) • g t‖ ≤ G * |s - t|).trans ?_
      refine mul_le_mul_of_nonneg_left ?_ hG0
      rw [abs_of_nonneg (by linarith [hs.1])]; linarith [hs.2])
    (t + h) ⟨by linarith, le_refl _⟩
  calc ‖z (t + h) - z t - h • g t‖ = ‖z (t + h) - (t + h) • g t - (z t - t • g t)‖ := by
        congr 1; rw [add_smul]; abel
    _ ≤ G * h * (t + h - t) := this
    _ = _ := by ring

/-- The right-hand side of the differential equation of the state and of the accumulated cost. -/
def field (D : DiffModel ℝ n nw) (p : X ℝ n × (Fin nw → ℝ)) : X ℝ n × ℝ :=
  (join (tail p.1) (D.xout p.1 p.2), D.cost p.1 p.2)

theorem field_smooth (D : DiffModel ℝ n nw) (hD : Smooth D) : ContDiff ℝ 1 (field D) := by
  refine ContDiff.prodMk ?_ hD.cost
  refine contDiff_pi.2 fun i => ?_
  cases i with
  | inl i =>
    exact (contDiff_apply ℝ ℝ (Sum.inr i : Ix n)).comp contDiff_fst
  | inr i =>
    exact contDiff_pi.1 hD.xout i

/-- What the increments of a one-step method have to satisfy: on every ball they agree with `h`
times the right-hand side up to second order in the step. -/
def Consistent (D : DiffModel ℝ n nw) (C : Ctl ℝ nw nu) (c : ℕ → ℝ) (N : ℕ)
    (incr : ℝ → X ℝ n → (Fin nu → ℝ) → X ℝ n × ℝ) : Prop :=
  ∀ R κ, 0 ≤ κ → ∃ b h₀, 0 ≤ b ∧ 0 < h₀ ∧ ∀ h, 0 < h → h ≤ h₀ → ∀ x u w, ‖x‖ ≤ R → ‖w‖ ≤ R →
    (∀ i < N, ‖C (c i) *ᵥ u - w‖ ≤ κ * h) → ‖incr h x u - h • field D (x, w)‖ ≤ b * h ^ 2

theorem converge (D : DiffModel ℝ n nw) (hD : Smooth D) (C : Ctl ℝ nw nu) (c : ℕ → ℝ) (ns : ℕ)
    (incr : ℝ → X ℝ n → (Fin nu → ℝ) → X ℝ n × ℝ) (hcons : Consistent D C c ns incr) (T κ : ℝ)
    (hκ : 0 ≤ κ) (ω : ℝ → Fin nw → ℝ) (φ : ℝ → X ℝ n) (l : ℝ → ℝ) (hω : Varies T κ ω)
    (hm : Motion D T ω φ l) :
    ∃ b h₀, 0 < h₀ ∧ ∀ h, 0 < h → h ≤ h₀ → ∀ N : ℕ, N * h ≤ T → ∀ (us : ℕ → Fin nu → ℝ)
      (xs : ℕ → X ℝ n), xs 0 = φ 0 →
      (∀ k < N, xs (k + 1) = xs k + (incr h (xs k) (us k)).1) →
      (∀ k < N, Samples C c ns κ h (k * h) ω (us k)) →
      (∀ k ≤ N, ∀ i, |xs k i - φ (k * h) i| ≤ b * h) ∧
      |(∑ k ∈ Finset.range N, (incr h (xs k) (us k)).2 + D.costT (xs N))
        - (l (N * h) + D.costT (φ (N * h)))| ≤ b * h := by
  rcases lt_or_ge T 0 with hT | hT0
  · refine ⟨0, 1, one_pos, fun h hh _ N hN => ?_⟩
    exact absurd (le_trans (by positivity) hN) (not_le.2 hT)
  -- the curve
  let z : ℝ → X ℝ n × ℝ := fun t => (φ t, l t)
  let g : ℝ → X ℝ n × ℝ := fun t => field D (φ t, ω t)
  have hφ' : ∀ t ∈ Icc 0 T, HasDerivWithinAt φ (g t).1 (Icc 0 T) t := by
    intro t ht
    refine hasDerivWithinAt_pi.2 fun i => ?_
    cases i with
    | inl i => exact hm.pos t ht i
    | inr i => exact hm.vel t ht i
  have hz : ∀ t ∈ Icc 0 T, HasDerivWithinAt z (g t) (Icc 0 T) t := fun t ht =>
    (hφ' t ht).prodMk (hm.cost t ht)
  -- bounds
  obtain ⟨R1, hR1⟩ := isCompact_Icc.exists_bound_of_continuousOn
    (fun t ht => (hφ' t ht).continuousWithinAt : ContinuousOn φ (Icc 0 T))
  have hωc : ∀ s ∈ Icc 0 T, ∀ t ∈ Icc 0 T, ‖ω s - ω t‖ ≤ κ * |s - t| := by
    intro s hs t ht
    exact (pi_norm_le_iff_of_nonneg (by positivity)).2 fun j => by
      simpa [Real.norm_eq_abs] using hω s hs t ht j
  have hR2 : ∀ t ∈ Icc 0 T, ‖ω t‖ ≤ ‖ω 0‖ + κ * T := by
    intro t ht
    have := hωc t ht 0 ⟨le_refl _, hT0⟩
    have h2 : κ * |t - 0| ≤ κ * T := by
      refine mul_le_mul_of_nonneg_left ?_ hκ
      rw [sub_zero, abs_of_nonneg ht.1]; exact ht.2
    have h3 := norm_le_norm_add_norm_sub' (ω t) (ω 0)
    linarith
  set R := max (R1 + 1) (‖ω 0‖ + κ * T) with hR
  obtain ⟨M, hM0, hMb, hML⟩ := ball_bounds (field D) (field_smooth D hD) R
  obtain ⟨MT, hMT0, -, hMTL⟩ := ball_bounds D.costT hD.costT R
  have hφR : ∀ t ∈ Icc 0 T, ‖φ t‖ + 1 ≤ R := fun t ht =>
    le_trans (by linarith [hR1 t ht]) (le_max_left _ _)
  have hωR : ∀ t ∈ Icc 0 T, ‖ω t‖ ≤ R := fun t ht => (hR2 t ht).trans (le_max_right _ _)
  have hgM : ∀ t ∈ Icc 0 T, ‖g t‖ ≤ M := fun t ht =>
    hMb _ (max_le (by linarith [hφR t ht]) (hωR t ht))
  have hφL : ∀ s ∈ Icc 0 T, ∀ t ∈ Icc 0 T, ‖φ s - φ t‖ ≤ M * |s - t| := by
    intro s hs t ht
    exact (convex_Icc 0 T).norm_image_sub_le_of_norm_hasDerivWithin_le hφ'
      (fun r hr => (norm_fst_le _).trans (hgM r hr)) ht hs
  set G := M * (M + κ) with hGdef
  have hG0 : 0 ≤ G := by positivity
  have hG : ∀ s ∈ Icc 0 T, ∀ t ∈ Icc 0 T, ‖g s - g t‖ ≤ G * |s - t| := by
    intro s hs t ht
    refine (hML _ _ (max_le (by linarith [hφR s hs]) (hωR s hs))
      (max_le (by linarith [hφR t ht]) (hωR t ht))).trans ?_
    rw [hGdef, mul_assoc]
    refine mul_le_mul_of_nonneg_left ?_ hM0
    refine max_le ((hφL s hs t ht).trans ?_) ((hωc s hs t ht).trans ?_)
    · exact mul_le_mul_of_nonneg_right (by linarith) (abs_nonneg _)
    · exact mul_le_mul_of_nonneg_right (by linarith) (abs_nonneg _)
  obtain ⟨b, h₁, hb0, hh1, hinc⟩ := hcons R κ hκ
  set B := T * (b + G) * Real.exp (M * T) with hB
  have hB0 : 0 ≤ B := by positivity
  refine ⟨B + MT * B, min h₁ (1 / (B + 1)), lt_min hh1 (by positivity), ?_⟩
  intro h hh hh0 N hN us xs hx0 hxs hsam
  have hBh : B * h ≤ 1 := by
    have h2 : h ≤ 1 / (B + 1) := hh0.trans (min_le_right _ _)
    rw [le_div_iff₀ (by positivity)] at h2
    nlinarith
  have htime : ∀ k ≤ N, (k : ℝ) * h ∈ Icc 0 T := fun k hk =>
    ⟨by positivity, le_trans (mul_le_mul_of_nonneg_right (by exact_mod_cast hk) hh.le) hN⟩
  -- the numerical curve
  let y : ℕ → X ℝ n × ℝ := fun k =>
    (xs k, ∑ i ∈ Finset.range k, (incr h (xs i) (us i)).2)
  have hy : ∀ k < N, y (k + 1) = y k + incr h (xs k) (us k) := by
    intro k hk
    refine Prod.ext (hxs k hk) ?_
    simp [y, Finset.sum_range_succ]
  have hstep : ∀ k < N, ‖y k - z (k * h)‖ ≤ 1 → ‖y (k + 1) - z ((k + 1 : ℕ) * h)‖
      ≤ (1 + h * M) * ‖y k - z (k * h)‖ + (b + G) * h ^ 2 := by
    intro k hk he
    have ht := htime k hk.le
    have ht1 := htime (k + 1) hk
    have hxk : ‖xs k - φ (k * h)‖ ≤ ‖y k - z (k * h)‖ := norm_fst_le (y k - z (k * h))
    have hxR : ‖xs k‖ ≤ R := by
      have := norm_le_norm_add_norm_sub' (xs k) (φ (k * h))
      linarith [hφR _ ht]
    have e1 : ‖incr h (xs k) (us k) - h • field D (xs k, ω (k * h))‖ ≤ b * h ^ 2 := by
      refine hinc h hh (hh0.trans (min_le_left _ _)) _ _ _ hxR (hωR _ ht) fun i hi => ?_
      exact (pi_norm_le_iff_of_nonneg (by positivity)).2 fun j => by
        simpa [Real.norm_eq_abs] using hsam k hk i hi j
    have e2 : ‖field D (xs k, ω (k * h)) - g (k * h)‖ ≤ M * ‖y k - z (k * h)‖ := by
      refine (hML _ _ (max_le hxR (hωR _ ht))
        (max_le (by linarith [hφR _ ht]) (hωR _ ht))).trans ?_
      refine mul_le_mul_of_nonneg_left (max_le hxk ?_) hM0
      simp
    have e3 : ‖z ((k + 1 : ℕ) * h) - z (k * h) - h • g (k * h)‖ ≤ G * h ^ 2 := by
      have hc : ((k + 1 : ℕ) : ℝ) * h = k * h + h := by push_cast; ring
      rw [hc]
      rw [hc] at ht1
      exact expand z g T G hz hG hG0 _ h ht.1 hh.le ht1.2
    have dec : y (k + 1) - z ((k + 1 : ℕ) * h)
        = (y k - z (k * h)) + h • (field D (xs k, ω (k * h)) - g (k * h))
          + (incr h (xs k) (us k) - h • field D (xs k, ω (k * h)))
          - (z ((k + 1 : ℕ) * h) - z (k * h) - h • g (k * h)) := by
      rw [hy k hk, smul_sub]; abel
    rw [dec]
    refine (norm_sub_le _ _).trans ((add_le_add ((norm_add_le _ _).trans
      (add_le_add (norm_add_le _ _) (le_refl _))) (le_refl _)).trans ?_)
    rw [norm_smul, Real.norm_of_nonneg hh.le]
    nlinarith [mul_le_mul_of_nonneg_left e2 hh.le]
  have hg := gronwall (fun k => ‖y k - z (k * h)‖) N h T M (b + G) hh hM0 (by positivity) hN
    (by simp [y, z, hx0, hm.start]) hBh hstep
  have hst : ∀ k ≤ N, ‖xs k - φ (k * h)‖ ≤ B * h := fun k hk =>
    (norm_fst_le (y k - z (k * h))).trans (hg k hk)
  refine ⟨fun k hk i => ?_, ?_⟩
  · have h1 := (norm_le_pi_norm (xs k - φ (k * h)) i).trans (hst k hk)
    rw [Real.norm_eq_abs, Pi.sub_apply] at h1
    have : 0 ≤ MT * B * h := by positivity
    linarith
  · have h1 : ‖(∑ i ∈ Finset.range N, (incr h (xs i) (us i)).2) - l (N * h)‖ ≤ B * h :=
      (norm_snd_le (y N - z (N * h))).trans (hg N le_rfl)
    have ht := htime N le_rfl
    have h2 : ‖D.costT (xs N) - D.costT (φ (N * h))‖ ≤ MT * (B * h) := by
      refine (hMTL _ _ ?_ (by linarith [hφR _ ht])).trans
        (mul_le_mul_of_nonneg_left (hst N le_rfl) hMT0)
      have := norm_le_norm_add_norm_sub' (xs N) (φ (N * h))
      linarith [hφR _ ht, hst N le_rfl]
    rw [Real.norm_eq_abs] at h1 h2
    have h3 := abs_add_le ((∑ i ∈ Finset.range N, (incr h (xs i) (us i)).2) - l (N * h))
      (D.costT (xs N) - D.costT (φ (N * h)))
    rw [add_sub_add_comm]
    linarith

/-! ## The library's schemes are consistent -/

theorem euler_consistent (D : DiffModel ℝ n nw) (hD : Smooth D) (C : Ctl ℝ nw nu)
    (d : Data ℝ n nu) :
    Consistent D C (fun _ => 0) 1
      (fun h x u => ((eulerCalc D C (Step.init h) d x u).dx, (eulerCalc D C (Step.init h) d x u).cost)) := by
  intro R κ hκ
  obtain ⟨M, hM0, hMb, hML⟩ := ball_bounds (field D) (field_smooth D hD) (R + κ)
  refine ⟨M * κ + M, 1, by positivity, one_pos, fun h hh hh1 x u w hx hw hC => ?_⟩
  have hw' := hC 0 one_pos
  simp only at hw'
  have hκh : κ * h ≤ κ := by nlinarith
  have hwR : ‖C 0 *ᵥ u‖ ≤ R + κ := by
    have := norm_le_norm_add_norm_sub' (C 0 *ᵥ u) w
    linarith
  have hp : ‖(x, C 0 *ᵥ u)‖ ≤ R + κ := max_le (by linarith) hwR
  have hq : ‖(x, w)‖ ≤ R + κ := max_le (by linarith) (by linarith)
  have e1 : ‖field D (x, C 0 *ᵥ u) - field D (x, w)‖ ≤ M * (κ * h) := by
    refine (hML _ _ hp hq).trans (mul_le_mul_of_nonneg_left (max_le ?_ hw') hM0)
    simpa using by positivity
  have e0 := hMb _ hp
  have s : Step.init h = ⟨h, h * h⟩ := by simp [Step.init, not_lt.2 hh.le]
  have ea : ∀ i, |D.xout x (C 0 *ᵥ u) i| ≤ M := fun i =>
    ((norm_le_pi_norm (field D (x, C 0 *ᵥ u)).1 (Sum.inr i)).trans (norm_fst_le _)).trans e0
  have ed : ∀ i, |D.xout x (C 0 *ᵥ u) i - D.xout x w i| ≤ M * (κ * h) := fun i =>
    ((norm_le_pi_norm (field D (x, C 0 *ᵥ u) - field D (x, w)).1 (Sum.inr i)).trans
      (norm_fst_le _)).trans e1
  have ec : |D.cost x (C 0 *ᵥ u) - D.cost x w| ≤ M * (κ * h) :=
    (norm_snd_le (field D (x, C 0 *ᵥ u) - field D (x, w))).trans e1
  have hb : 0 ≤ (M * κ + M) * h ^ 2 := by positivity
  refine max_le ((pi_norm_le_iff_of_nonneg hb).2 fun i => ?_) ?_
  · rw [Real.norm_eq_abs]
    cases i with
    | inl i =>
      have : (eulerCalc D C (Step.init h) d x u).dx (Sum.inl i)
          - h * (field D (x, w)).1 (Sum.inl i) = D.xout x (C 0 *ᵥ u) i * (h * h) := by
        simp [eulerCalc, s, join, field, tail]; ring
      refine (congrArg abs this).le.trans ?_
      rw [abs_mul, abs_of_nonneg (by positivity : 0 ≤ h * h)]
      have := mul_le_mul_of_nonneg_right (ea i) (by positivity : 0 ≤ h * h)
      have h3 : 0 ≤ M * κ * h ^ 2 := by positivity
      nlinarith
    | inr i =>
      have : (eulerCalc D C (Step.init h) d x u).dx (Sum.inr i)
          - h * (field D (x, w)).1 (Sum.inr i)
          = (D.xout x (C 0 *ᵥ u) i - D.xout x w i) * h := by
        simp [eulerCalc, s, join, field]; ring
      refine (congrArg abs this).le.trans ?_
      rw [abs_mul, abs_of_nonneg hh.le]
      have := mul_le_mul_of_nonneg_right (ed i) hh.le
      have h3 : 0 ≤ M * h ^ 2 := by positivity
      nlinarith
  · rw [Real.norm_eq_abs]
    have : (eulerCalc D C (Step.init h) d x u).cost - h * (field D (x, w)).2
        = (D.cost x (C 0 *ᵥ u) - D.cost x w) * h := by
      simp [eulerCalc, s, field]; ring
    refine (congrArg abs this).le.trans ?_
    rw [abs_mul, abs_of_nonneg hh.le]
    have := mul_le_mul_of_nonneg_right ec hh.le
    have h3 : 0 ≤ M * h ^ 2 := by positivity
    nlinarith

theorem rkC_range (ty : RKType) (i : ℕ) : 0 ≤ (rkC ty i : ℝ) ∧ (rkC ty i : ℝ) ≤ 1 := by
  cases ty <;> simp only [rkC] <;> (repeat' split) <;> norm_num

theorem rkSum_close (ty : RKType) (h : ℝ) (hh : 0 ≤ h) (k : ℕ → ℝ) (f e : ℝ)
    (hk : ∀ i < rkN ty, |k i - f| ≤ e) : |rkSum ty h k - h * f| ≤ h * e := by
  have hk' : ∀ i < rkN ty, -e ≤ k i - f ∧ k i - f ≤ e := fun i hi => abs_le.1 (hk i hi)
  rw [abs_le]
  cases ty with
  | two =>
    have h1 := hk' 1 (by decide)
    simp only [rkSum]
    constructor <;> nlinarith [mul_le_mul_of_nonneg_left h1.1 hh, mul_le_mul_of_nonneg_left h1.2 hh]
  | three =>
    have h0 := hk' 0 (by decide)
    have h2 := hk' 2 (by decide)
    simp only [rkSum]
    constructor <;> nlinarith [mul_le_mul_of_nonneg_left h0.1 hh, mul_le_mul_of_nonneg_left h0.2 hh,
      mul_le_mul_of_nonneg_left h2.1 hh, mul_le_mul_of_nonneg_left h2.2 hh]
  | four =>
    have h0 := hk' 0 (by decide)
    have h1 := hk' 1 (by decide)
    have h2 := hk' 2 (by decide)
    have h3 := hk' 3 (by decide)
    simp only [rkSum]
    constructor <;> nlinarith [mul_le_mul_of_nonneg_left h0.1 hh, mul_le_mul_of_nonneg_left h0.2 hh,
      mul_le_mul_of_nonneg_left h1.1 hh, mul_le_mul_of_nonneg_left h1.2 hh,
      mul_le_mul_of_nonneg_left h2.1 hh, mul_le_mul_of_nonneg_left h2.2 hh,
      mul_le_mul_of_nonneg_left h3.1 hh, mul_le_mul_of_nonneg_left h3.2 hh]

theorem rk_consistent (ty : RKType) (D : DiffModel ℝ n nw) (hD : Smooth D) (C : Ctl ℝ nw nu) :
    Consistent D C (rkC ty) (rkN ty)
      (fun h x u => (rkNext D C ty h x u - x, rkCost D C ty h x u)) := by
  intro R κ hκ
  obtain ⟨M, hM0, hMb, hML⟩ := ball_bounds (field D) (field_smooth D hD) (R + κ + 1)
  refine ⟨M * (M + κ), min 1 (1 / (M + 1)), by positivity, by positivity,
    fun h hh hh0 x u w hx hw hC => ?_⟩
  have hh1 : h ≤ 1 := hh0.trans (min_le_left _ _)
  have hhM : h * M ≤ 1 := by
    have h2 : h ≤ 1 / (M + 1) := hh0.trans (min_le_right _ _)
    rw [le_div_iff₀ (by positivity)] at h2
    nlinarith
  have hκh : κ * h ≤ κ := by nlinarith
  have hstage : ∀ i < rkN ty,
      ((rkStage D C ty h x u i).k, (rkStage D C ty h x u i).l)
        = field D ((rkStage D C ty h x u i).y, (rkStage D C ty h x u i).w) ∧
      ‖(rkStage D C ty h x u i).y - x‖ ≤ h * M ∧ ‖(rkStage D C ty h x u i).w - w‖ ≤ κ * h ∧
      ‖(rkStage D C ty h x u i).k‖ ≤ M := by
    have ball : ∀ (y : X ℝ n) (v : Fin nw → ℝ), ‖y - x‖ ≤ h * M → ‖v - w‖ ≤ κ * h →
        ‖(y, v)‖ ≤ R + κ + 1 := by
      intro y v hy hv
      have h1 := norm_le_norm_add_norm_sub' y x
      have h2 := norm_le_norm_add_norm_sub' v w
      exact max_le (by linarith) (by linarith)
    intro i
    induction i with
    | zero =>
      intro hi
      have hv : ‖C (rkC ty 0) *ᵥ u - w‖ ≤ κ * h := hC 0 hi
      have hy : ‖x - x‖ ≤ h * M := by simpa using by positivity
      exact ⟨rfl, hy, hv, (norm_fst_le (field D (x, C (rkC ty 0) *ᵥ u))).trans
        (hMb _ (ball _ _ hy hv))⟩
    | succ i ih =>
      intro hi
      obtain ⟨-, -, -, hk⟩ := ih (by omega)
      have hv : ‖C (rkC ty (i + 1)) *ᵥ u - w‖ ≤ κ * h := hC (i + 1) hi
      have hy : ‖(rkStage D C ty h x u (i + 1)).y - x‖ ≤ h * M := by
        have : (rkStage D C ty h x u (i + 1)).y - x
            = (h * rkC ty (i + 1)) • (rkStage D C ty h x u i).k := by
          funext j; simp [rkStage]
        rw [this, norm_smul, Real.norm_of_nonneg (mul_nonneg hh.le (rkC_range ty _).1)]
        refine mul_le_mul ?_ hk (norm_nonneg _) hh.le
        nlinarith [(rkC_range ty (i + 1)).2]
      exact ⟨rfl, hy, hv, (norm_fst_le (field D ((rkStage D C ty h x u (i + 1)).y,
        C (rkC ty (i + 1)) *ᵥ u))).trans (hMb _ (ball _ _ hy hv))⟩
  have hclose : ∀ i < rkN ty, ‖((rkStage D C ty h x u i).k, (rkStage D C ty h x u i).l)
      - field D (x, w)‖ ≤ M * ((M + κ) * h) := by
    intro i hi
    obtain ⟨e, hy, hv, -⟩ := hstage i hi
    rw [e]
    have h1 := norm_le_norm_add_norm_sub' (rkStage D C ty h x u i).y x
    have h2 := norm_le_norm_add_norm_sub' (rkStage D C ty h x u i).w w
    refine (hML _ _ (max_le (by linarith) (by linarith))
      (max_le (by linarith) (by linarith))).trans ?_
    refine mul_le_mul_of_nonneg_left (max_le (hy.trans ?_) (hv.trans ?_)) hM0
    · nlinarith
    · nlinarith
  have hb : 0 ≤ M * (M + κ) * h ^ 2 := by positivity
  have hfin : h * (M * ((M + κ) * h)) = M * (M + κ) * h ^ 2 := by ring
  refine max_le ((pi_norm_le_iff_of_nonneg hb).2 fun j => ?_) ?_
  · rw [Real.norm_eq_abs, ← hfin]
    have e : (rkNext D C ty h x u - x) j
        = rkSum ty h (fun i => (rkStage D C ty h x u i).k j) := by
      simp [rkNext]
    change |(rkNext D C ty h x u - x) j - h * (field D (x, w)).1 j| ≤ _
    rw [e]
    refine rkSum_close ty h hh.le _ _ _ fun i hi => ?_
    exact ((norm_le_pi_norm (((rkStage D C ty h x u i).k, (rkStage D C ty h x u i).l)
      - field D (x, w)).1 j).trans (norm_fst_le _)).trans (hclose i hi)
  · rw [Real.norm_eq_abs, ← hfin]
    change |rkCost D C ty h x u - h * (field D (x, w)).2| ≤ _
    rw [rkCost]
    refine rkSum_close ty h hh.le _ _ _ fun i hi => ?_
    exact (norm_snd_le (((rkStage D C ty h x u i).k, (rkStage D C ty h x u i).l)
      - field D (x, w))).trans (hclose i hi)

end Verif.Integrators
