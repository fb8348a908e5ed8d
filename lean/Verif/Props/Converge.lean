import Verif.Lemmas.ConvergeOrder
import Mathlib.Analysis.SpecialFunctions.Trigonometric.Deriv
import Mathlib.Analysis.Calculus.Deriv.Add

/-!
# C139: the discretised problems converge to the continuous one
-/

set_option linter.unusedSectionVars false

namespace Verif.Integrators

open Matrix Set
open Verif.Controls (RKType)

variable {n nw nu : ℕ}

/-- C139, Euler.  Let `φ` be a motion of a continuously differentiable differential model on
`[0, T]` under a Lipschitz control signal.  There are a constant `b` and a step `h₀` such that, for
every step `h ≤ h₀` and every number of nodes `N` with `N h ≤ T`, the states that Euler nodes of
step `h` (whatever their datas contained) compute one after the other from the initial state, with
controls that sample the signal, stay within `b h` of the motion, and the sum of the node costs and
of the terminal cost is within `b h` of the accumulated cost of the motion. -/
theorem C139_euler (D : DiffModel ℝ n nw) (hD : Smooth D) (C : Ctl ℝ nw nu) (T κ : ℝ) (hκ : 0 ≤ κ)
    (ω : ℝ → Fin nw → ℝ) (φ : ℝ → X ℝ n) (l : ℝ → ℝ) (hω : Varies T κ ω) (hm : Motion D T ω φ l) :
    ∃ b h₀, 0 < h₀ ∧ ∀ h, 0 < h → h ≤ h₀ → ∀ N : ℕ, N * h ≤ T →
      ∀ (us : ℕ → Fin nu → ℝ) (xs : ℕ → X ℝ n) (ds : ℕ → Data ℝ n nu) (dT : Data ℝ n nu),
      xs 0 = φ 0 →
      (∀ k < N, xs (k + 1) = (eulerCalc D C (Step.init h) (ds k) (xs k) (us k)).xnext) →
      (∀ k < N, ∀ j, |(C 0 *ᵥ us k) j - ω (k * h) j| ≤ κ * h) →
      (∀ k ≤ N, ∀ i, |xs k i - φ (k * h) i| ≤ b * h) ∧
      |(∑ k ∈ Finset.range N, (eulerCalc D C (Step.init h) (ds k) (xs k) (us k)).cost
          + (eulerCalcT D dT (xs N)).cost)
        - (l (N * h) + D.costT (φ (N * h)))| ≤ b * h := by
  obtain ⟨b, h₀, hh0, hmain⟩ := converge D hD C (fun _ => 0) 1 _
    (euler_consistent D hD C Data.init) T κ hκ ω φ l hω hm
  refine ⟨b, h₀, hh0, fun h hh hhle N hN us xs ds dT hx0 hxs hsam => ?_⟩
  exact hmain h hh hhle N hN us xs hx0 hxs (fun k hk i _ j => hsam k hk j)

/-- C139, Runge-Kutta: the same for nodes integrated with RK2, RK3 and RK4; the control of a node
has to be close to the signal at each of the times where the scheme evaluates it. -/
theorem C139_rk (ty : RKType) (D : DiffModel ℝ n nw) (hD : Smooth D) (C : Ctl ℝ nw nu) (T κ : ℝ)
    (hκ : 0 ≤ κ) (ω : ℝ → Fin nw → ℝ) (φ : ℝ → X ℝ n) (l : ℝ → ℝ) (hω : Varies T κ ω)
    (hm : Motion D T ω φ l) :
    ∃ b h₀, 0 < h₀ ∧ ∀ h, 0 < h → h ≤ h₀ → ∀ N : ℕ, N * h ≤ T →
      ∀ (us : ℕ → Fin nu → ℝ) (xs : ℕ → X ℝ n), xs 0 = φ 0 →
      (∀ k < N, xs (k + 1) = rkNext D C ty h (xs k) (us k)) →
      (∀ k < N, Samples C (rkC ty) (rkN ty) κ h (k * h) ω (us k)) →
      (∀ k ≤ N, ∀ i, |xs k i - φ (k * h) i| ≤ b * h) ∧
      |(∑ k ∈ Finset.range N, rkCost D C ty h (xs k) (us k) + D.costT (xs N))
        - (l (N * h) + D.costT (φ (N * h)))| ≤ b * h := by
  obtain ⟨b, h₀, hh0, hmain⟩ := converge D hD C (rkC ty) (rkN ty) _
    (rk_consistent ty D hD C) T κ hκ ω φ l hω hm
  refine ⟨b, h₀, hh0, fun h hh hhle N hN us xs hx0 hxs hsam => ?_⟩
  exact hmain h hh hhle N hN us xs hx0 (fun k hk => by rw [hxs k hk]; simp) hsam

/-- C139, order of the Runge-Kutta schemes.  On linear models with a control that is constant over
each node and bounded, the states computed with RK2, RK3 and RK4 stay within `b h²`, `b h³` and
`b h⁴` of the motion: `z k` is the state of the motion at node `k`, `ψ k` its trajectory between the
nodes `k` and `k + 1`.  The constants depend on the model, on the horizon and on the bounds `U` of
the controls and `R` of the initial state only. -/
theorem C139_rk_order (ty : RKType) (D : DiffModel ℝ n nw) (A : Matrix (Fin n) (Ix n) ℝ)
    (B : Matrix (Fin n) (Fin nw) ℝ) (hD : ∀ x w, D.xout x w = A *ᵥ x + B *ᵥ w) (C : Ctl ℝ nw nu)
    (T U R : ℝ) (hU : 0 ≤ U) (hR : 0 ≤ R) :
    ∃ b h₀, 0 < h₀ ∧ ∀ h, 0 < h → h ≤ h₀ → ∀ N : ℕ, N * h ≤ T →
      ∀ (ws : ℕ → Fin nw → ℝ) (us : ℕ → Fin nu → ℝ) (z xs : ℕ → X ℝ n) (ψ : ℕ → ℝ → X ℝ n),
      (∀ k < N, ∀ i < rkN ty, C (rkC ty i) *ᵥ us k = ws k) →
      (∀ k < N, ∀ j, |ws k j| ≤ U) → (∀ i, |z 0 i| ≤ R) →
      (∀ k < N, IsTrajectory (fun x => D.xout x (ws k)) (ψ k) ∧ ψ k 0 = z k ∧ ψ k h = z (k + 1)) →
      xs 0 = z 0 → (∀ k < N, xs (k + 1) = rkNext D C ty h (xs k) (us k)) →
      ∀ k ≤ N, ∀ i, |xs k i - z k i| ≤ b * h ^ order ty := by
  rcases lt_or_ge T 0 with hT | hT0
  · refine ⟨0, 1, one_pos, fun h hh _ N hN => ?_⟩
    exact absurd (le_trans (by positivity) hN) (not_le.2 hT)
  obtain ⟨a, ha1, hA⟩ := linPart_bound A
  obtain ⟨β, hβ0, hB⟩ := mulVec_bound B
  set L := max a (β * U) with hLdef
  have hL : 1 ≤ L := ha1.trans (le_max_left _ _)
  have hAL : ∀ y, ‖linPart A y‖ ≤ L * ‖y‖ := fun y =>
    (hA y).trans (mul_le_mul_of_nonneg_right (le_max_left _ _) (norm_nonneg _))
  have hBL : ∀ w : Fin nw → ℝ, (∀ j, |w j| ≤ U) → ‖(join 0 (B *ᵥ w) : X ℝ n)‖ ≤ L := by
    intro w hw
    have hwn : ‖w‖ ≤ U := (pi_norm_le_iff_of_nonneg hU).2 hw
    refine (pi_norm_le_iff_of_nonneg (by linarith)).2 fun j => ?_
    cases j with
    | inl j => simp only [join, Sum.elim_inl, Pi.zero_apply, norm_zero]; linarith
    | inr j =>
      refine ((norm_le_pi_norm (B *ᵥ w) j).trans (hB w)).trans
        ((mul_le_mul_of_nonneg_left hwn hβ0).trans (le_max_right _ _))
  set p := order ty with hp
  set L' := L * (1 + L) ^ 3 with hL'
  set K := L ^ (p + 1) * ((R + 1) * Real.exp (L * T)) with hK
  have hK0 : 0 ≤ K := by positivity
  set b := T * K * Real.exp (L' * T) with hb
  have hb0 : 0 ≤ b := by positivity
  have hp1 : 1 ≤ p := by rw [hp]; cases ty <;> decide
  refine ⟨b, min 1 (1 / (b + 1)), by positivity, ?_⟩
  intro h hh hh0 N hN ws us z xs ψ hC hw hz0 hψ hx0 hxs
  have hh1 : h ≤ 1 := hh0.trans (min_le_left _ _)
  have hsmall : b * h ^ p ≤ 1 := by
    have h2 : h ≤ 1 / (b + 1) := hh0.trans (min_le_right _ _)
    rw [le_div_iff₀ (by positivity)] at h2
    have h3 : h ^ p ≤ h := by
      simpa using pow_le_pow_of_le_one hh.le hh1 hp1
    nlinarith
  have htime : ∀ k ≤ N, (k : ℝ) * h ≤ T := fun k hk =>
    le_trans (mul_le_mul_of_nonneg_right (by exact_mod_cast hk) hh.le) hN
  -- growth of the motion
  have hgrow : ∀ k ≤ N, ‖z k‖ + 1 ≤ (R + 1) * Real.exp (L * (k * h)) := by
    intro k
    induction k with
    | zero =>
      intro _
      have : ‖z 0‖ ≤ R := (pi_norm_le_iff_of_nonneg hR).2 hz0
      simpa using this
    | succ k ih =>
      intro hk
      obtain ⟨ht, h0, h1⟩ := hψ k hk
      have hg := lin_growth D A B hD (ws k) (ψ k) ht L hL hAL (hBL _ (hw k hk)) h hh.le
      rw [h0, h1] at hg
      refine hg.trans ((mul_le_mul_of_nonneg_right (ih (by omega)) (Real.exp_pos _).le).trans ?_)
      rw [mul_assoc, ← Real.exp_add]
      refine le_of_eq ?_
      push_cast
      ring_nf
  have hlocal : ∀ k < N, ‖z (k + 1) - rkNext D C ty h (z k) (us k)‖ ≤ K * h ^ (p + 1) := by
    intro k hk
    obtain ⟨ht, h0, h1⟩ := hψ k hk
    have hl := rk_local ty D A B hD C L hL hAL h hh (us k) (ws k) (hBL _ (hw k hk)) (hC k hk)
      (ψ k) ht
    rw [h0, h1] at hl
    refine hl.trans (mul_le_mul_of_nonneg_right (mul_le_mul_of_nonneg_left ?_ (by positivity))
      (by positivity))
    refine (mul_le_mul_of_nonneg_right (hgrow k hk.le) (Real.exp_pos _).le).trans ?_
    rw [mul_assoc, ← Real.exp_add]
    refine mul_le_mul_of_nonneg_left (Real.exp_le_exp.2 ?_) (by positivity)
    have h3 := htime (k + 1) hk
    push_cast at h3
    nlinarith
  have hpow : ∀ m : ℝ, m * h ^ (p - 1) * h = m * h ^ p := by
    intro m
    rw [mul_assoc, ← pow_succ, Nat.sub_add_cancel hp1]
  have hsc : T * (K * h ^ (p - 1)) * Real.exp (L' * T) * h = b * h ^ p := by
    rw [← hpow b, hb]; ring
  have hstep : ∀ k < N, ‖xs k - z k‖ ≤ 1 → ‖xs (k + 1) - z (k + 1)‖
      ≤ (1 + h * L') * ‖xs k - z k‖ + K * h ^ (p - 1) * h ^ 2 := by
    intro k hk _
    have h1 := rk_stable ty D A B hD C L hL hAL h hh hh1 (us k) (xs k) (z k)
    have h2 := hlocal k hk
    have e : xs (k + 1) - z (k + 1) = (rkNext D C ty h (xs k) (us k)
        - rkNext D C ty h (z k) (us k)) - (z (k + 1) - rkNext D C ty h (z k) (us k)) := by
      rw [hxs k hk]; abel
    rw [e]
    refine (norm_sub_le _ _).trans (add_le_add h1 (h2.trans (le_of_eq ?_)))
    rw [pow_succ, ← mul_assoc, ← hpow K]; ring
  have hg := gronwall (fun k => ‖xs k - z k‖) N h T L' (K * h ^ (p - 1)) hh (by positivity)
    (by positivity) hN (by simp [hx0]) (by rw [hsc]; exact hsmall) hstep
  intro k hk i
  have := (norm_le_pi_norm (xs k - z k) i).trans (hg k hk)
  rwa [hsc, Real.norm_eq_abs, Pi.sub_apply] at this

/-- Controls that take the values of the signal at the evaluation times sample it. -/
theorem C139_samples (ty : RKType) (C : Ctl ℝ nw nu) (T κ : ℝ) (hκ : 0 ≤ κ) (ω : ℝ → Fin nw → ℝ)
    (hω : Varies T κ ω) (h : ℝ) (hh : 0 < h) (N : ℕ) (hN : N * h ≤ T) (us : ℕ → Fin nu → ℝ)
    (hu : ∀ k < N, ∀ i < rkN ty, C (rkC ty i) *ᵥ us k = ω (k * h + rkC ty i * h)) :
    ∀ k < N, Samples C (rkC ty) (rkN ty) κ h (k * h) ω (us k) := by
  intro k hk i hi j
  rw [hu k hk i hi]
  obtain ⟨c0, c1⟩ := rkC_range ty i
  have hk1 : ((k : ℝ) + 1) * h ≤ T :=
    le_trans (mul_le_mul_of_nonneg_right (by exact_mod_cast hk) hh.le) hN
  have hch : (rkC ty i : ℝ) * h ≤ h := by nlinarith
  have hc0 : 0 ≤ (rkC ty i : ℝ) * h := mul_nonneg c0 hh.le
  have hk0 : 0 ≤ (k : ℝ) * h := by positivity
  refine (hω _ ⟨by linarith, by linarith⟩ _ ⟨hk0, by linarith⟩ j).trans ?_
  rw [add_sub_cancel_left, abs_of_nonneg hc0]
  exact mul_le_mul_of_nonneg_left hch hκ

/-! ### The hypotheses are met

A driven spring `q'' = w - q` with cost `v`, the signal `w(t) = t` and the motion
`q(t) = t + cos t`. -/

/-- The driven spring. -/
def spring : DiffModel ℝ 1 1 where
  xout x w := fun _ => w 0 - x (Sum.inl 0)
  cost x _ := x (Sum.inr 0)
  costT x := x (Sum.inl 0)
  Fx _ _ := 0
  Fu _ _ := 0
  Lx _ _ := 0
  Lu _ _ := 0
  Lxx _ _ := 0
  Lxu _ _ := 0
  Luu _ _ := 0
  LxT _ := 0
  LxxT _ := 0

theorem spring_smooth : Smooth spring where
  xout := contDiff_pi.2 fun _ =>
    ((contDiff_apply ℝ ℝ (0 : Fin 1)).comp contDiff_snd).sub
      ((contDiff_apply ℝ ℝ (Sum.inl 0 : Ix 1)).comp contDiff_fst)
  cost := (contDiff_apply ℝ ℝ (Sum.inr 0 : Ix 1)).comp contDiff_fst
  costT := contDiff_apply ℝ ℝ (Sum.inl 0 : Ix 1)

theorem spring_motion (T : ℝ) : Motion spring T (fun t _ => t)
    (fun t => Sum.elim (fun _ => t + Real.cos t) (fun _ => 1 - Real.sin t))
    (fun t => t + Real.cos t - 1) where
  pos t _ i := by
    have := ((hasDerivAt_id t).add (Real.hasDerivAt_cos t)).hasDerivWithinAt (s := Icc 0 T)
    exact this.congr_deriv (by simp [sub_eq_add_neg])
  vel t _ i := by
    have := ((hasDerivAt_const t (1 : ℝ)).sub (Real.hasDerivAt_sin t)).hasDerivWithinAt
      (s := Icc 0 T)
    exact this.congr_deriv (by simp [spring])
  cost t _ := by
    have := (((hasDerivAt_id t).add (Real.hasDerivAt_cos t)).sub_const 1).hasDerivWithinAt
      (s := Icc 0 T)
    exact this.congr_deriv (by simp [spring, sub_eq_add_neg])
  start := by simp

example (T : ℝ) : Varies T 1 (fun t (_ : Fin 1) => t) := by
  intro s _ t _ j; simp

/-- Piecewise-constant controls sample this signal for Euler and for the three schemes. -/
example (ty : RKType) (h : ℝ) (hh : 0 < h) (k : ℕ) :
    Samples (fun _ => (1 : Matrix (Fin 1) (Fin 1) ℝ)) (rkC ty) (rkN ty) 1 h (k * h)
      (fun t _ => t) (fun _ => k * h) := by
  intro i _ j
  simpa using hh.le

/-- The hypotheses of `C139_rk_order` on the model and on the motion are met by the free spring
(`w = 0`) that moves along `q(t) = cos t`, restarted at every node. -/
example (h : ℝ) (k : ℕ) :
    IsTrajectory (fun x => spring.xout x 0) (fun t => Sum.elim (fun _ => Real.cos (k * h + t))
      (fun _ => - Real.sin (k * h + t))) := by
  intro t i
  have ha : HasDerivAt (fun s : ℝ => k * h + s) 1 t := (hasDerivAt_id t).const_add _
  refine ⟨(ha.cos).congr_deriv (by simp), (ha.sin.neg).congr_deriv (by simp [spring])⟩

example (x : X ℝ 1) (w : Fin 1 → ℝ) : spring.xout x w
    = (fun _ j => if j = Sum.inl 0 then -1 else 0 : Matrix (Fin 1) (Ix 1) ℝ) *ᵥ x
      + (1 : Matrix (Fin 1) (Fin 1) ℝ) *ᵥ w := by
  funext i
  have hi : i = 0 := Subsingleton.elim _ _
  subst hi
  simp [spring, Matrix.mulVec, dotProduct]
  ring

end Verif.Integrators
