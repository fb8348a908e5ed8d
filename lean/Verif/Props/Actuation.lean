import Verif.Spec.Actuation
import Verif.Lemmas.Deriv
import Mathlib.Analysis.SpecialFunctions.Sqrt
import Mathlib.Analysis.Calculus.Deriv.Pow
import Mathlib.Analysis.Calculus.Deriv.Add
import Mathlib.Analysis.Calculus.Deriv.Mul
import Mathlib.Analysis.Calculus.Deriv.Abs
import Mathlib.Tactic.Ring
import Mathlib.Tactic.Linarith
import Mathlib.Tactic.LinearCombination
import Mathlib.Tactic.Positivity
import Mathlib.Tactic.FieldSimp
import Mathlib.Tactic.FinCases
import Mathlib.Tactic.NormNum.Inv
import Mathlib.Tactic.NormNum.Ineq
import Mathlib.Tactic.NormNum.Pow

/-!
# C56, C57: squashing and actuation
-/

set_option linter.unusedSectionVars false
set_option linter.unusedSimpArgs false

namespace Verif.Act

open Matrix Spec Deriv

/-! ### C56: smooth saturation -/

variable {n : ℕ}

/-- A squashing model after construction and a history of `set_smooth` calls (those with a negative
argument throw) and unchecked changes of the bounds on `s`. -/
noncomputable def SmoothSat.run (lb ub : Fin n → ℝ) (ops : List (ℝ ⊕ (Fin n → ℝ) × (Fin n → ℝ))) : SmoothSat n :=
  ops.foldl (fun m o => match o with
    | .inl s => (m.setSmooth s).1
    | .inr b => m.setSBounds b.1 b.2) (SmoothSat.make lb ub)

theorem SmoothSat.run_inv (lb ub : Fin n → ℝ) (ops : List (ℝ ⊕ (Fin n → ℝ) × (Fin n → ℝ))) :
    let m := SmoothSat.run lb ub ops
    m.uLb = lb ∧ m.uUb = ub ∧ 0 ≤ m.smooth ∧ (∀ i, m.a i = ((ub i - lb i) * m.smooth) ^ 2) := by
  unfold SmoothSat.run
  induction ops using List.reverseRecOn with
  | nil => refine ⟨rfl, rfl, by simp [SmoothSat.make], fun i => by simp only [List.foldl_nil, SmoothSat.make]; ring⟩
  | append_singleton ops o ih =>
    simp only [List.foldl_append, List.foldl_cons, List.foldl_nil]
    set m := ops.foldl _ _ with hm
    obtain ⟨h1, h2, h3, h4⟩ := ih
    cases o with
    | inl s =>
      simp only [SmoothSat.setSmooth]
      split
      · exact ⟨h1, h2, h3, h4⟩
      · rename_i hs
        exact ⟨h1, h2, not_lt.1 hs, fun i => by simp only [h1, h2]; ring⟩
    | inr b => exact ⟨h1, h2, h3, h4⟩

theorem sqrt_lip (x y a : ℝ) (ha : 0 ≤ a) : Real.sqrt (x ^ 2 + a) - Real.sqrt (y ^ 2 + a) ≤ |x - y| := by
  have hx := Real.sq_sqrt (show 0 ≤ x ^ 2 + a by positivity)
  have hy := Real.sq_sqrt (show 0 ≤ y ^ 2 + a by positivity)
  have px := Real.sqrt_nonneg (x ^ 2 + a)
  have py := Real.sqrt_nonneg (y ^ 2 + a)
  have hyy : |y| ≤ Real.sqrt (y ^ 2 + a) := by
    rw [← Real.sqrt_sq_eq_abs]; exact Real.sqrt_le_sqrt (by linarith)
  have key : Real.sqrt (x ^ 2 + a) ≤ Real.sqrt (y ^ 2 + a) + |x - y| := by
    apply Real.sqrt_le_iff.2 ⟨by positivity, ?_⟩
    have h1 : x * y - y ^ 2 ≤ Real.sqrt (y ^ 2 + a) * |x - y| := by
      calc x * y - y ^ 2 = y * (x - y) := by ring
        _ ≤ |y| * |x - y| := by rw [← abs_mul]; exact le_abs_self _
        _ ≤ _ := mul_le_mul_of_nonneg_right hyy (abs_nonneg _)
    nlinarith [sq_abs (x - y)]
  linarith

/-- **C56 (range).** After any history, for every input, the squashed control lies within the
bounds. -/
theorem C56_range (lb ub : Fin n → ℝ) (hb : ∀ i, lb i ≤ ub i) (ops : List (ℝ ⊕ (Fin n → ℝ) × (Fin n → ℝ)))
    (d : SqData n) (s : Fin n → ℝ) (i : Fin n) :
    lb i ≤ ((SmoothSat.run lb ub ops).calc d s).u i ∧ ((SmoothSat.run lb ub ops).calc d s).u i ≤ ub i := by
  obtain ⟨h1, h2, _, h4⟩ := SmoothSat.run_inv lb ub ops
  have ha : 0 ≤ (SmoothSat.run lb ub ops).a i := by rw [h4]; positivity
  have e1 := sqrt_lip (s i - lb i) (s i - ub i) _ ha
  have e2 := sqrt_lip (s i - ub i) (s i - lb i) _ ha
  rw [show s i - lb i - (s i - ub i) = ub i - lb i by ring, abs_of_nonneg (by linarith [hb i])] at e1
  rw [show s i - ub i - (s i - lb i) = -(ub i - lb i) by ring, abs_neg, abs_of_nonneg (by linarith [hb i])] at e2
  simp only [SmoothSat.calc, h1, h2]
  constructor <;> linarith

/-- The reported derivative of one component. -/
theorem SmoothSat.diff_diag (m : SmoothSat n) (d : SqData n) (s : Fin n → ℝ) (i : Fin n) :
    (m.calcDiff d s).duDs i i = 1 / 2 * ((s i - m.uLb i) / Real.sqrt ((s i - m.uLb i) ^ 2 + m.a i)
      - (s i - m.uUb i) / Real.sqrt ((s i - m.uUb i) ^ 2 + m.a i)) ∨ m.a i < 0 := by
  by_cases ha : m.a i < 0
  · exact Or.inr ha
  left
  have ha := not_lt.1 ha
  simp only [SmoothSat.calcDiff, if_true]
  have key : ∀ z : ℝ, (m.a i + z ^ 2) ^ (-(1 / 2 : ℝ)) * z = z / Real.sqrt (z ^ 2 + m.a i) := by
    intro z
    rw [Real.rpow_neg (by positivity), ← Real.sqrt_eq_rpow, add_comm]
    rw [div_eq_mul_inv, mul_comm]
  rw [key, key]

theorem hasDerivAt_smoothAbs (c a s : ℝ) (ha : 0 < a) :
    HasDerivAt (fun t => Real.sqrt ((t - c) ^ 2 + a)) ((s - c) / Real.sqrt ((s - c) ^ 2 + a)) s := by
  have hpos : 0 < (s - c) ^ 2 + a := by positivity
  have h := (((hasDerivAt_id s).sub_const c).pow 2).add_const a
  have h := h.sqrt (by simpa using hpos.ne')
  refine HasDerivAt.congr_deriv (f := _) (by simpa using h) ?_
  have := Real.sqrt_pos.2 hpos
  field_simp

/-- **C56 (derivative).** After any history that leaves a positive smoothing parameter, and whatever
was stored before, each component depends on its own input only, and the reported derivative of each
component is the derivative of the squashing function at every input. -/
theorem C56_derivative (lb ub : Fin n → ℝ) (ops : List (ℝ ⊕ (Fin n → ℝ) × (Fin n → ℝ)))
    (hs : (SmoothSat.run lb ub ops).smooth ≠ 0) (d : SqData n) (s : Fin n → ℝ) (i : Fin n) (hi : lb i ≠ ub i) :
    HasDerivAt (fun t => ((SmoothSat.run lb ub ops).calc d (Function.update s i t)).u i)
      (((SmoothSat.run lb ub ops).calcDiff d s).duDs i i) (s i)
    ∧ ∀ s', s' i = s i → ((SmoothSat.run lb ub ops).calc d s').u i = ((SmoothSat.run lb ub ops).calc d s).u i := by
  obtain ⟨h1, h2, _, h4⟩ := SmoothSat.run_inv lb ub ops
  set m := SmoothSat.run lb ub ops
  have ha : 0 < m.a i := by
    rw [h4]
    have : ub i - lb i ≠ 0 := sub_ne_zero.2 (Ne.symm hi)
    positivity
  refine ⟨?_, fun s' h => by simp only [SmoothSat.calc, h]⟩
  have hd := (m.diff_diag d s i).resolve_right (not_lt.2 ha.le)
  rw [hd]
  have hA := hasDerivAt_smoothAbs (m.uLb i) (m.a i) (s i) ha
  have hB := hasDerivAt_smoothAbs (m.uUb i) (m.a i) (s i) ha
  have hC := ((((hA.sub hB).add_const (m.uLb i)).add_const (m.uUb i)).const_mul (1 / 2))
  refine hC.congr_of_eventuallyEq (Filter.Eventually.of_forall fun t => ?_)
  simp [SmoothSat.calc]

/-- **C56 (Jacobian).** On a data object that only this model wrote (off-diagonal entries zero), the
reported matrix is the Jacobian of the squashing function. -/
theorem C56_jacobian (lb ub : Fin n → ℝ) (hb : ∀ i, lb i ≠ ub i) (ops : List (ℝ ⊕ (Fin n → ℝ) × (Fin n → ℝ)))
    (hs : (SmoothSat.run lb ub ops).smooth ≠ 0) (d : SqData n) (hd : ∀ i j, i ≠ j → d.duDs i j = 0)
    (s : Fin n → ℝ) :
    HasJac1 (fun t => ((SmoothSat.run lb ub ops).calc d t).u) ((SmoothSat.run lb ub ops).calcDiff d s).duDs s := by
  intro i
  obtain ⟨h, _⟩ := C56_derivative lb ub ops hs d s i (hb i)
  have h2 : HasFDerivAt (fun t : Fin n → ℝ => t i) (ContinuousLinearMap.proj (R := ℝ) (φ := fun _ : Fin n => ℝ) i) s :=
    (ContinuousLinearMap.proj (R := ℝ) (φ := fun _ : Fin n => ℝ) i).hasFDerivAt
  have h3 := h.comp_hasFDerivAt s h2
  have h4 : ((fun t => ((SmoothSat.run lb ub ops).calc d (Function.update s i t)).u i) ∘ fun t : Fin n → ℝ => t i)
      = fun t => ((SmoothSat.run lb ub ops).calc d t).u i := by
    funext t
    simp [SmoothSat.calc]
  rw [h4] at h3
  refine h3.congr_fderiv ?_
  ext w
  rw [form_apply]
  rw [Finset.sum_eq_single i (fun j _ hj => by
    simp only [SmoothSat.calcDiff, if_neg (Ne.symm hj), hd i j (Ne.symm hj), zero_mul]) (by simp)]
  simp

/-- **C56 (monotone).** The squashing function is monotone in every component. -/
theorem C56_monotone (lb ub : Fin n → ℝ) (hb : ∀ i, lb i ≤ ub i) (ops : List (ℝ ⊕ (Fin n → ℝ) × (Fin n → ℝ)))
    (d : SqData n) (s t : Fin n → ℝ) (i : Fin n) (h : s i ≤ t i) :
    ((SmoothSat.run lb ub ops).calc d s).u i ≤ ((SmoothSat.run lb ub ops).calc d t).u i := by
  obtain ⟨h1, h2, _, h4⟩ := SmoothSat.run_inv lb ub ops
  set m := SmoothSat.run lb ub ops
  have ha : 0 ≤ m.a i := by rw [h4]; positivity
  simp only [SmoothSat.calc, h1, h2]
  have hbi := hb i
  generalize m.a i = a at ha ⊢
  generalize lb i = l at hbi ⊢
  generalize ub i = v at hbi ⊢
  -- the difference quotient of the smooth absolute value is monotone
  have key : Real.sqrt ((s i - l) ^ 2 + a) + Real.sqrt ((t i - v) ^ 2 + a)
      ≤ Real.sqrt ((t i - l) ^ 2 + a) + Real.sqrt ((s i - v) ^ 2 + a) := by
    generalize s i = x at h ⊢
    generalize t i = y at h ⊢
    -- both sides positive: use convexity
    set w := (y - x) + (v - l) with hw
    rcases eq_or_lt_of_le (show 0 ≤ w by linarith) with hz | hz
    · have : y = x := by linarith
      subst this
      have : v = l := by linarith
      subst this; exact le_rfl
    have conv : ∀ p q θ : ℝ, 0 ≤ θ → θ ≤ 1 → Real.sqrt ((θ * p + (1 - θ) * q) ^ 2 + a)
        ≤ θ * Real.sqrt (p ^ 2 + a) + (1 - θ) * Real.sqrt (q ^ 2 + a) := by
      intro p q θ h0 h1
      have hp := Real.sq_sqrt (show 0 ≤ p ^ 2 + a by positivity)
      have hq := Real.sq_sqrt (show 0 ≤ q ^ 2 + a by positivity)
      have pp := Real.sqrt_nonneg (p ^ 2 + a)
      have pq := Real.sqrt_nonneg (q ^ 2 + a)
      have h1' : 0 ≤ 1 - θ := by linarith
      apply Real.sqrt_le_iff.2 ⟨by positivity, ?_⟩
      have hpq : p * q + a ≤ Real.sqrt (p ^ 2 + a) * Real.sqrt (q ^ 2 + a) := by
        rw [← Real.sqrt_mul (by positivity)]
        apply Real.le_sqrt_of_sq_le
        nlinarith [mul_nonneg ha (sq_nonneg (p - q))]
      have := mul_le_mul_of_nonneg_left hpq (mul_nonneg h0 h1')
      have e : (θ * Real.sqrt (p ^ 2 + a) + (1 - θ) * Real.sqrt (q ^ 2 + a)) ^ 2
          = θ ^ 2 * (p ^ 2 + a) + 2 * (θ * (1 - θ) * (Real.sqrt (p ^ 2 + a) * Real.sqrt (q ^ 2 + a)))
            + (1 - θ) ^ 2 * (q ^ 2 + a) := by
        linear_combination θ ^ 2 * hp + (1 - θ) ^ 2 * hq
      rw [e]
      linarith
    -- x - l and y - v both lie between x - v and y - l
    have hθ : 0 ≤ (v - l) / w ∧ (v - l) / w ≤ 1 := ⟨by apply div_nonneg <;> linarith, by rw [div_le_one hz]; linarith⟩
    have c1 := conv (y - l) (x - v) ((v - l) / w) hθ.1 hθ.2
    have c2 := conv (x - v) (y - l) ((v - l) / w) hθ.1 hθ.2
    have e1 : (v - l) / w * (y - l) + (1 - (v - l) / w) * (x - v) = x - l := by
      field_simp; rw [hw]; ring
    have e2 : (v - l) / w * (x - v) + (1 - (v - l) / w) * (y - l) = y - v := by
      field_simp; rw [hw]; ring
    rw [e1] at c1
    rw [e2] at c2
    linarith
  linarith

/-- **C56 (accuracy).** The squashed control differs from the saturated input by at most half the
smoothing width `smooth * (ub - lb)`. -/
theorem C56_close (lb ub : Fin n → ℝ) (hb : ∀ i, lb i ≤ ub i) (ops : List (ℝ ⊕ (Fin n → ℝ) × (Fin n → ℝ)))
    (d : SqData n) (s : Fin n → ℝ) (i : Fin n) :
    |((SmoothSat.run lb ub ops).calc d s).u i - clamp (lb i) (ub i) (s i)|
      ≤ (SmoothSat.run lb ub ops).smooth * (ub i - lb i) / 2 := by
  obtain ⟨h1, h2, h3, h4⟩ := SmoothSat.run_inv lb ub ops
  set m := SmoothSat.run lb ub ops
  have hw : 0 ≤ (ub i - lb i) * m.smooth := mul_nonneg (by linarith [hb i]) h3
  have near : ∀ z : ℝ, |z| ≤ Real.sqrt (z ^ 2 + m.a i) ∧ Real.sqrt (z ^ 2 + m.a i) ≤ |z| + (ub i - lb i) * m.smooth := by
    intro z
    constructor
    · rw [← Real.sqrt_sq_eq_abs]; exact Real.sqrt_le_sqrt (by rw [h4]; nlinarith)
    · apply Real.sqrt_le_iff.2 ⟨by positivity, ?_⟩
      rw [h4]
      nlinarith [sq_abs z, abs_nonneg z, mul_nonneg (abs_nonneg z) hw]
  obtain ⟨a1, a2⟩ := near (s i - lb i)
  obtain ⟨b1, b2⟩ := near (s i - ub i)
  have hc : clamp (lb i) (ub i) (s i) = 1 / 2 * (|s i - lb i| - |s i - ub i| + lb i + ub i) := by
    have := hb i
    unfold clamp
    rcases le_total (s i) (lb i) with h | h
    · rw [abs_of_nonpos (by linarith), abs_of_nonpos (by linarith), min_eq_right (by linarith), max_eq_left h]; ring
    · rcases le_total (s i) (ub i) with h' | h'
      · rw [abs_of_nonneg (by linarith), abs_of_nonpos (by linarith), min_eq_right h', max_eq_right h]; ring
      · rw [abs_of_nonneg (by linarith), abs_of_nonneg (by linarith), min_eq_left h', max_eq_right this]; ring
  rw [hc]
  simp only [SmoothSat.calc, h1, h2]
  rw [abs_le]
  constructor <;> linarith

/-- A history with a positive smoothing parameter, proper bounds, and a rejected call. -/
example : (∀ i, (fun _ : Fin 2 => (-1 : ℝ)) i ≤ (fun _ => 1) i) ∧
    (SmoothSat.run (n := 2) (fun _ => -1) (fun _ => 1) [.inl 3, .inl (-1)]).smooth ≠ 0 := by
  refine ⟨fun _ => by norm_num, ?_⟩
  simp [SmoothSat.run, SmoothSat.setSmooth, SmoothSat.make]
  norm_num

/-- **C56: the bounds are not compared.** With the lower bound above the upper one the model is
accepted, and outputs violate the lower bound. -/
theorem C56_unchecked_counterexample :
    ¬ ∀ (lb ub : Fin 1 → ℝ) (s : Fin 1 → ℝ), lb 0 ≤ ((SmoothSat.make lb ub).calc SqData.zero s).u 0 := by
  intro h
  have h0 := h (fun _ => 1) (fun _ => -1) (fun _ => 0)
  have e : ∀ x : ℝ, ((0 : ℝ) - 1) ^ 2 + x = ((0 : ℝ) - -1) ^ 2 + x := fun x => by ring
  simp only [SmoothSat.calc, SmoothSat.make] at h0
  rw [e] at h0
  linarith

/-- **C56: no derivative without smoothing.** `set_smooth(0)` is accepted, and then the squashing
function has no derivative at the bounds, so no reported value can be right there. -/
theorem C56_zero_counterexample (lb ub : Fin 1 → ℝ) (hb : lb 0 < ub 0) :
    ((SmoothSat.make lb ub).setSmooth 0).2 = false ∧
    ¬ ∃ g, HasDerivAt (fun t => (((SmoothSat.make lb ub).setSmooth 0).1.calc SqData.zero (fun _ => t)).u 0) g (ub 0) := by
  refine ⟨by simp [SmoothSat.setSmooth], ?_⟩
  rintro ⟨g, hg⟩
  have e : (fun t => (((SmoothSat.make lb ub).setSmooth 0).1.calc SqData.zero (fun _ => t)).u 0)
      = fun t => 1 / 2 * (|t - lb 0| - |t - ub 0| + lb 0 + ub 0) := by
    funext t
    simp [SmoothSat.setSmooth, SmoothSat.make, SmoothSat.calc, Real.sqrt_sq_eq_abs]
  rw [e] at hg
  -- the other terms are differentiable at `ub`, so the absolute value would be
  have h1 : HasDerivAt (fun t => |t - lb 0|) 1 (ub 0) := by
    have : (fun t => |t - lb 0|) =ᶠ[nhds (ub 0)] fun t => t - lb 0 := by
      filter_upwards [lt_mem_nhds hb] with t ht
      exact abs_of_pos (by linarith)
    exact ((hasDerivAt_id (ub 0)).sub_const (lb 0)).congr_of_eventuallyEq this
  have h2 := (h1.sub (hg.const_mul 2)).add_const (lb 0 + ub 0)
  have e2 : (fun t => |t - ub 0|)
      = fun t => ((fun t => |t - lb 0|) - fun t => 2 * (1 / 2 * (|t - lb 0| - |t - ub 0| + lb 0 + ub 0))) t
          + (lb 0 + ub 0) := by
    funext t; simp only [Pi.sub_apply]; ring
  rw [← e2] at h2
  have h3 : DifferentiableAt ℝ (fun t => |t - ub 0|) (0 + ub 0) := by rw [zero_add]; exact h2.differentiableAt
  have h4 : DifferentiableAt ℝ (fun t : ℝ => |t|) 0 := by
    have h5 : DifferentiableAt ℝ (fun t : ℝ => t + ub 0) 0 := (differentiableAt_id).add_const _
    have := DifferentiableAt.comp (g := fun t => |t - ub 0|) (f := fun t : ℝ => t + ub 0) (0 : ℝ) h3 h5
    refine this.congr_of_eventuallyEq (Filter.Eventually.of_forall fun t => ?_)
    simp
  exact not_differentiableAt_abs_zero h4

/-- **C70 for this class.** `cast` forgets the smoothing parameter: the converted model computes a
different control. -/
theorem C70_smooth_sat_cast_counterexample :
    ¬ ∀ (lb ub : Fin 1 → ℝ) (ops : List (ℝ ⊕ (Fin 1 → ℝ) × (Fin 1 → ℝ))),
      (SmoothSat.run lb ub ops).cast.smooth = (SmoothSat.run lb ub ops).smooth := by
  intro h
  have h0 := h (fun _ => -1) (fun _ => 1) [.inl 3]
  simp [SmoothSat.run, SmoothSat.setSmooth, SmoothSat.make, SmoothSat.cast] at h0
  norm_num at h0

/-! ### C57: full and floating-base actuation -/

variable {K X : Type*} {nv nu ndx : ℕ}

section Exact
variable [Field K]

theorem setTail_apply {a k : ℕ} (v : Fin a → K) (w : Fin k → K) (j : Fin a) (i : Fin k) (h : j.val = a - k + i.val) :
    setTail v w j = w i := by
  have h2 : a - k ≤ j.val := by omega
  simp only [setTail, h2, dif_pos]
  congr 1
  apply Fin.ext
  simp only [h]
  omega

theorem setTail_lt {a k : ℕ} (v : Fin a → K) (w : Fin k → K) (j : Fin a) (h : j.val < a - k) :
    setTail v w j = v j := by
  simp only [setTail]
  rw [dif_neg (by omega)]

theorem getTail_apply {a k : ℕ} (v : Fin a → K) (i : Fin k) (j : Fin a) (h : j.val = a - k + i.val) :
    getTail k v i = v j := by
  have h2 : a - k + i.val < a := by omega
  simp only [getTail, h2, dif_pos]
  congr 1
  exact Fin.ext h.symm

theorem select_mulVec {nfb : ℕ} (h : nfb ≤ nv) (u : Fin (nv - nfb) → K) (j : Fin nv) :
    (select nv nfb *ᵥ u) j = if h : nfb ≤ j.val then u ⟨j.val - nfb, by omega⟩ else 0 := by
  simp only [select, mulVec, dotProduct, of_apply]
  split
  · rename_i h
    rw [Finset.sum_eq_single ⟨j.val - nfb, by omega⟩]
    · simp only [Nat.add_sub_cancel' h, if_true, one_mul]
    · intro b _ hb
      rw [if_neg (fun e => hb (Fin.ext (by simp only [e]; omega))), zero_mul]
    · simp
  · rename_i h
    refine Finset.sum_eq_zero fun b _ => ?_
    rw [if_neg (by omega), zero_mul]

/-- The facts kept by every call on a floating-base data object. -/
theorem floating_inv {nfb : ℕ} (h : nfb ≤ nv) (ops : List (Op K X nv (nv - nfb))) :
    let d := (floating nv nfb : Model K X nv (nv - nfb) ndx).run ops
    (∀ j, j.val < nfb → d.tau j = 0) ∧ d.dtauDx = 0 ∧ d.dtauDu = select nv nfb ∧ d.mtau = (select nv nfb)ᵀ
      ∧ ∀ j, d.tauSet j = decide (nfb ≤ j.val) := by
  unfold Model.run
  induction ops using List.reverseRecOn with
  | nil =>
    refine ⟨fun j _ => rfl, rfl, ?_, ?_, ?_⟩
    · funext r c; simp [floating, select, add_comm]
    · funext r c; simp [floating, select, add_comm]
    · intro j
      by_cases hj : j.val < nfb
      · simp [floating, hj]
      · simp [floating, hj, not_lt.1 hj]
  | append_singleton ops o ih =>
    simp only [List.foldl_append, List.foldl_cons, List.foldl_nil]
    set d := ops.foldl _ _ with hd
    obtain ⟨h1, h2, h3, h4, h5⟩ := ih
    cases o with
    | eval x u =>
      refine ⟨fun j hj => ?_, h2, h3, h4, h5⟩
      have e := setTail_lt d.tau u j (by omega)
      exact e.trans (h1 j hj)
    | calcDiff x u => exact ⟨h1, h2, h3, h4, h5⟩
    | calcX x => exact ⟨h1, h2, h3, h4, h5⟩
    | diffX x => exact ⟨h1, h2, h3, h4, h5⟩
    | commands x tau => exact ⟨h1, h2, h3, h4, h5⟩
    | torque x u => exact ⟨h1, h2, h3, h4, h5⟩

/-- **C57 (floating base).** After any history of calls on a data object: the torques of the root joint
are zero; `calc` is the linear map with the selection matrix, which is the reported `dtau_du`, while
the reported `dtau_dx` is zero; `commands` recovers `u` from the torques of `calc`, and `calc` recovers the torques
from `commands` when the root torques are zero; the reported transform `Mtau` is a left inverse of
`dtau_du` and is what `commands` applies; exactly the joint torques are flagged as actuated. -/
theorem C57_floating {nfb : ℕ} (h : nfb ≤ nv) (ops : List (Op K X nv (nv - nfb))) (x : X)
    (u : Fin (nv - nfb) → K) (tau : Fin nv → K) :
    let M : Model K X nv (nv - nfb) ndx := floating nv nfb
    let d := M.run ops
    (∀ j, j.val < nfb → d.tau j = 0)
    ∧ (M.eval d x u).tau = select nv nfb *ᵥ u
    ∧ d.dtauDu = select nv nfb ∧ d.dtauDx = 0
    ∧ (M.commands (M.eval d x u) x (M.eval d x u).tau).u = u
    ∧ ((∀ j, j.val < nfb → tau j = 0) → (M.eval (M.commands d x tau) x (M.commands d x tau).u).tau = tau)
    ∧ d.mtau * d.dtauDu = 1 ∧ (M.commands d x tau).u = d.mtau *ᵥ tau
    ∧ ∀ j, d.tauSet j = true ↔ nfb ≤ j.val := by
  intro M d
  obtain ⟨h1, h2, h3, h4, h5⟩ := floating_inv (ndx := ndx) h ops
  have hcalc : ∀ d' : Data K nv (nv - nfb) ndx, (∀ j, j.val < nfb → d'.tau j = 0) → ∀ w,
      (M.eval d' x w).tau = select nv nfb *ᵥ w := by
    intro d' hd' w
    funext j
    rw [select_mulVec h]
    show setTail d'.tau w j = _
    split
    · rename_i hj
      exact setTail_apply _ _ j ⟨j.val - nfb, by omega⟩ (by simp only; omega)
    · rename_i hj
      rw [setTail_lt _ _ _ (by omega), hd' j (by omega)]
  have htail : ∀ t : Fin nv → K, ∀ i : Fin (nv - nfb), getTail (nv - nfb) t i = t ⟨nfb + i.val, by omega⟩ := fun t i =>
    getTail_apply t i _ (by simp only; omega)
  have hcmd : ∀ t : Fin nv → K, (select nv nfb : Matrix (Fin nv) (Fin (nv - nfb)) K)ᵀ *ᵥ t = getTail (nv - nfb) t := by
    intro t
    funext i
    rw [htail]
    simp only [select, mulVec, dotProduct, transpose_apply, of_apply]
    rw [Finset.sum_eq_single ⟨nfb + i.val, by omega⟩]
    · simp
    · intro b _ hb
      rw [if_neg (fun e => hb (Fin.ext e)), zero_mul]
    · simp
  refine ⟨h1, hcalc d h1 u, h3, h2, ?_, ?_, ?_, ?_, ?_⟩
  · show getTail (nv - nfb) (M.eval d x u).tau = u
    rw [hcalc d h1 u]
    funext i
    rw [htail, select_mulVec h, dif_pos (by simp)]
    congr 1
    apply Fin.ext
    simp
  · intro ht
    rw [hcalc (M.commands d x tau) h1]
    funext j
    rw [select_mulVec h]
    show (if hj : nfb ≤ j.val then getTail (nv - nfb) tau ⟨j.val - nfb, by omega⟩ else 0) = tau j
    split
    · rename_i hj
      rw [htail]
      congr 1
      apply Fin.ext
      simp only
      omega
    · rename_i hj
      exact (ht j (by omega)).symm
  · show d.mtau * d.dtauDu = 1
    rw [h3, h4]
    ext a b
    rw [Matrix.mul_apply']
    have := congrFun (hcmd (fun r => select nv nfb r b)) a
    simp only [mulVec, dotProduct] at this ⊢
    rw [this, htail]
    simp only [select, of_apply, Matrix.one_apply]
    by_cases hab : a = b
    · subst hab; simp
    · rw [if_neg hab, if_neg]
      intro e
      exact hab (Fin.ext (by omega))
  · show getTail (nv - nfb) tau = _
    rw [h4, hcmd]
  · intro j
    have e := h5 j
    exact ⟨fun hj => by rw [hj] at e; simpa using e.symm, fun hj => by rw [e]; simpa using hj⟩

/-- **C57 (full).** The same for the full actuation. -/
theorem C57_full (ops : List (Op K X nv nv)) (x : X) (u tau : Fin nv → K) :
    let M : Model K X nv nv ndx := full
    let d := M.run ops
    (M.eval d x u).tau = u ∧ (M.eval d x u).tau = d.dtauDu *ᵥ u ∧ d.dtauDu = 1 ∧ d.dtauDx = 0
    ∧ (M.commands (M.eval d x u) x (M.eval d x u).tau).u = u
    ∧ (M.eval (M.commands d x tau) x (M.commands d x tau).u).tau = tau
    ∧ d.mtau = 1 ∧ (M.commands d x tau).u = d.mtau *ᵥ tau ∧ ∀ j, d.tauSet j = true := by
  intro M d
  have inv : d.dtauDu = 1 ∧ d.dtauDx = 0 ∧ d.mtau = 1 ∧ ∀ j, d.tauSet j = true := by
    show (M.run ops).dtauDu = 1 ∧ (M.run ops).dtauDx = 0 ∧ (M.run ops).mtau = 1 ∧ ∀ j, (M.run ops).tauSet j = true
    unfold Model.run
    induction ops using List.reverseRecOn with
    | nil =>
      refine ⟨?_, rfl, ?_, fun j => rfl⟩ <;>
      · funext r c
        simp [M, full, Matrix.one_apply, Fin.ext_iff]
    | append_singleton ops o ih =>
      simp only [List.foldl_append, List.foldl_cons, List.foldl_nil]
      have ih := ih
      cases o <;> exact ih
  obtain ⟨h1, h2, h3, h4⟩ := inv
  refine ⟨rfl, ?_, h1, h2, rfl, rfl, h3, ?_, h4⟩
  · rw [h1, one_mulVec]; rfl
  · rw [h3, one_mulVec]; rfl

end Exact

/-- **C57 (derivatives).** For real states and controls the reported matrices are the derivatives of
the torques, after any history. -/
theorem C57_floating_derivatives {nfb : ℕ} (h : nfb ≤ nv) (ops : List (Op ℝ (Fin ndx → ℝ) nv (nv - nfb)))
    (x : Fin ndx → ℝ) (u : Fin (nv - nfb) → ℝ) :
    let M : Model ℝ (Fin ndx → ℝ) nv (nv - nfb) ndx := floating nv nfb
    let d := M.run ops
    HasJac (fun y w => (M.eval d y w).tau) (M.calcDiff d x u).dtauDx (M.calcDiff d x u).dtauDu x u := by
  intro M d
  have e : (fun y w => (M.eval d y w).tau) = fun (_ : Fin ndx → ℝ) w => select nv nfb *ᵥ w := by
    funext y w
    exact (C57_floating (ndx := ndx) h ops y w 0).2.1
  obtain ⟨_, _, h3, h4, _⟩ := C57_floating (ndx := ndx) h ops x u 0
  have h3' : (M.calcDiff d x u).dtauDu = select nv nfb := h3
  have h4' : (M.calcDiff d x u).dtauDx = 0 := h4
  rw [e, h3', h4']
  exact hasJac_mulVec_snd _ _ _

/-- A free-flyer robot with two joints: the fourth torque is the second joint's. -/
example : ((floating 8 6 : Model ℚ Unit 8 (8 - 6) 0).eval ((floating 8 6 : Model ℚ Unit 8 (8 - 6) 0).run
    [.eval () ![5, 6], .commands () (fun _ => 1)]) () ![2, 3]).tau = ![0, 0, 0, 0, 0, 0, 2, 3] := by
  decide +kernel

/-! ### C57: squashed actuation -/

variable (pinv : Matrix (Fin nv) (Fin nu) ℝ → Matrix (Fin nu) (Fin nv) ℝ)

theorem sq_offdiag (A : Model ℝ X nv nu ndx) (m : SmoothSat nu) (ops : List (SqOp X nv nu)) :
    ∀ i j, i ≠ j → (sqRun pinv A m ops).sq.duDs i j = 0 := by
  have hc : ∀ d : SqActData nv nu ndx, (∀ i j, i ≠ j → d.sq.duDs i j = 0) → ∀ x s,
      ∀ i j, i ≠ j → (sqCalcDiff A m d x s).sq.duDs i j = 0 := by
    intro d hd x s i j hij
    show (if i = j then _ else d.sq.duDs i j) = 0
    rw [if_neg hij]
    exact hd i j hij
  unfold sqRun
  induction ops using List.reverseRecOn with
  | nil => intro i j _; rfl
  | append_singleton ops o ih =>
    simp only [List.foldl_append, List.foldl_cons, List.foldl_nil]
    set d := ops.foldl _ _ with hd
    cases o with
    | eval x s => exact ih
    | calcDiff x s => exact hc d ih x s
    | torque x s =>
      exact hc (sqCalc A m d x s) ih x s
    | commands x tau =>
      intro i j hij
      simp only [sqStep, sqCommands]
      split
      · rename_i h
        exact hc (sqCalc A m d x (fun i => tau (Fin.cast h.symm i))) ih x _ i j hij
      · exact ih i j hij

/-- What a squashed data object keeps about its inner data, when the inner model maintains an
invariant. -/
theorem sq_inner (A : Model ℝ X nv nu ndx) (m : SmoothSat nu) (P : Data ℝ nv nu ndx → Prop) (h0 : P A.create)
    (h1 : ∀ d x u, P d → P (A.eval d x u)) (h2 : ∀ d x u, P d → P (A.calcDiff d x u)) (ops : List (SqOp X nv nu)) :
    P (sqRun pinv A m ops).act := by
  unfold sqRun
  induction ops using List.reverseRecOn with
  | nil => exact h0
  | append_singleton ops o ih =>
    simp only [List.foldl_append, List.foldl_cons, List.foldl_nil]
    set d := ops.foldl _ _ with hd
    cases o with
    | eval x s => exact h1 _ _ _ ih
    | calcDiff x s => exact h2 _ _ _ ih
    | torque x s => exact h2 _ _ _ (h1 _ _ _ ih)
    | commands x tau =>
      simp only [sqStep, sqCommands]
      split
      · exact h2 _ _ _ (h1 _ _ _ ih)
      · exact ih

/-- The squashing function of a model. -/
noncomputable def SmoothSat.fn (m : SmoothSat nu) (s : Fin nu → ℝ) : Fin nu → ℝ := (m.calc SqData.zero s).u

theorem sq_base (A : Model ℝ X nv nu ndx) (m : SmoothSat nu) (ops : List (SqOp X nv nu)) :
    (sqRun pinv A m ops).base.dtauDx = 0 := by
  unfold sqRun
  induction ops using List.reverseRecOn with
  | nil => rfl
  | append_singleton ops o ih =>
    simp only [List.foldl_append, List.foldl_cons, List.foldl_nil]
    set d := ops.foldl _ _ with hd
    cases o with
    | eval x s => exact ih
    | calcDiff x s => exact ih
    | torque x s => exact ih
    | commands x tau =>
      simp only [sqStep, sqCommands]
      split
      · exact ih
      · exact ih

/-- **C57 (squashed floating base, partial).** After any history on the data object, `calc(s)` gives
the torques of the squashed control, every joint torque is within the bounds and the root torques are
zero, and `calcDiff` reports the exact derivatives. Missing, and false: `commands` inverts `calc`
(`C57_squashing_commands_counterexample`, `C57_squashing_inverse_counterexample`), and exactness of `dtau_dx` for a
state-dependent inner actuation (`C57_squashing_dx_counterexample`). -/
theorem C57_squashing_partial {nfb : ℕ} (h : nfb ≤ nv)
    (pinv : Matrix (Fin nv) (Fin (nv - nfb)) ℝ → Matrix (Fin (nv - nfb)) (Fin nv) ℝ)
    (lb ub : Fin (nv - nfb) → ℝ) (hb : ∀ i, lb i < ub i)
    (mops : List (ℝ ⊕ (Fin (nv - nfb) → ℝ) × (Fin (nv - nfb) → ℝ)))
    (hs : (SmoothSat.run lb ub mops).smooth ≠ 0)
    (ops : List (SqOp (Fin ndx → ℝ) nv (nv - nfb))) (x : Fin ndx → ℝ) (s : Fin (nv - nfb) → ℝ) :
    let A : Model ℝ (Fin ndx → ℝ) nv (nv - nfb) ndx := floating nv nfb
    let m := SmoothSat.run lb ub mops
    let d := sqRun pinv A m ops
    (sqCalc A m d x s).base.tau = select nv nfb *ᵥ m.fn s
    ∧ (∀ j (hj : nfb ≤ j.val), lb ⟨j.val - nfb, by omega⟩ ≤ (sqCalc A m d x s).base.tau j
        ∧ (sqCalc A m d x s).base.tau j ≤ ub ⟨j.val - nfb, by omega⟩)
    ∧ (∀ j, j.val < nfb → (sqCalc A m d x s).base.tau j = 0)
    ∧ HasJac (fun y t => (sqCalc A m d y t).base.tau) (sqCalcDiff A m d x s).base.dtauDx
        (sqCalcDiff A m d x s).base.dtauDu x s := by
  intro A m d
  have hin : (∀ j, j.val < nfb → d.act.tau j = 0) ∧ d.act.dtauDu = select nv nfb := by
    refine sq_inner pinv A m (fun d => (∀ j, j.val < nfb → d.tau j = 0) ∧ d.dtauDu = select nv nfb) ?_ ?_ ?_ ops
    · obtain ⟨h1, _, h3, _⟩ := floating_inv (K := ℝ) (X := Fin ndx → ℝ) (ndx := ndx) h []
      exact ⟨h1, h3⟩
    · rintro e y u ⟨e1, e2⟩
      refine ⟨fun j hj => ?_, e2⟩
      have := setTail_lt e.tau u j (by omega)
      exact this.trans (e1 j hj)
    · rintro e y u he
      exact he
  have htau : ∀ y t, (sqCalc A m d y t).base.tau = select nv nfb *ᵥ m.fn t := by
    intro y t
    funext j
    rw [select_mulVec h]
    show setTail d.act.tau (m.fn t) j = _
    split
    · rename_i hj
      exact setTail_apply _ _ j ⟨j.val - nfb, by omega⟩ (by simp only; omega)
    · rename_i hj
      rw [setTail_lt _ _ _ (by omega), hin.1 j (by omega)]
  refine ⟨htau x s, ?_, ?_, ?_⟩
  · intro j hj
    rw [htau, select_mulVec h, dif_pos hj]
    exact C56_range lb ub (fun i => (hb i).le) mops SqData.zero s _
  · intro j hj
    rw [htau, select_mulVec h, dif_neg (by omega)]
  · have e : (fun y t => (sqCalc A m d y t).base.tau) = fun (_ : Fin ndx → ℝ) t => select nv nfb *ᵥ m.fn t := by
      funext y t; exact htau y t
    have hdx : (sqCalcDiff A m d x s).base.dtauDx = 0 := sq_base pinv A m ops
    have hdu : (sqCalcDiff A m d x s).base.dtauDu = select nv nfb * (m.calcDiff d.sq s).duDs := by
      show d.act.dtauDu * _ = _
      rw [hin.2]
    rw [e, hdx, hdu]
    have hj1 := C56_jacobian lb ub (fun i => (hb i).ne) mops hs d.sq (sq_offdiag pinv A m ops) s
    have hj2 : HasJac (fun (_ : Fin ndx → ℝ) t => m.fn t) 0 (m.calcDiff d.sq s).duDs x s := by
      intro a
      have h1 : HasFDerivAt (fun t => m.fn t a) (form ((m.calcDiff d.sq s).duDs a)) s := hj1 a
      have h2 : HasFDerivAt (fun p : (Fin ndx → ℝ) × (Fin (nv - nfb) → ℝ) => p.2)
          (ContinuousLinearMap.snd ℝ (Fin ndx → ℝ) (Fin (nv - nfb) → ℝ)) (x, s) :=
        (ContinuousLinearMap.snd ℝ (Fin ndx → ℝ) (Fin (nv - nfb) → ℝ)).hasFDerivAt
      have h3 := HasFDerivAt.comp (g := fun t => m.fn t a) (x, s) h1 h2
      refine h3.congr_fderiv ?_
      ext w <;> simp [form_apply]
    have := (hasJac_mulVec_snd (select nv nfb : Matrix (Fin nv) (Fin (nv - nfb)) ℝ) x (m.fn s)).comp
      (hasJac_fst (κ := Fin (nv - nfb)) x s) hj2
    simpa using this

/-- The hypotheses of the previous theorem hold for the default smoothing. -/
example : (∀ i, (fun _ : Fin (8 - 6) => (-1 : ℝ)) i < (fun _ => 1) i) ∧
    (SmoothSat.run (n := 8 - 6) (fun _ => -1) (fun _ => 1) []).smooth ≠ 0 := by
  refine ⟨fun _ => by norm_num, by simp [SmoothSat.run, SmoothSat.make]⟩

/-- **C57: `commands` of a squashed floating-base model always throws.** It passes the generalised
torques to a function that wants a control, so it rejects every call when the root joint has degrees of
freedom. -/
theorem C57_squashing_commands_counterexample {nfb : ℕ} (h0 : 0 < nfb) (h : nfb ≤ nv)
    (pinv : Matrix (Fin nv) (Fin (nv - nfb)) ℝ → Matrix (Fin (nv - nfb)) (Fin nv) ℝ) (m : SmoothSat (nv - nfb))
    (ops : List (SqOp X nv (nv - nfb))) (x : X) (tau : Fin nv → ℝ) :
    let A : Model ℝ X nv (nv - nfb) ndx := floating nv nfb
    sqCommands pinv A m (sqRun pinv A m ops) x tau = none := by
  intro A
  exact dif_neg (by omega)

theorem sqrt25 : Real.sqrt ((3 : ℝ) ^ 2 + 16) = 5 := by
  rw [show (3 : ℝ) ^ 2 + 16 = 5 ^ 2 by norm_num, Real.sqrt_sq (by norm_num)]

theorem sqrt16 : Real.sqrt ((0 : ℝ) ^ 2 + 16) = 4 := by
  rw [show (0 : ℝ) ^ 2 + 16 = 4 ^ 2 by norm_num, Real.sqrt_sq (by norm_num)]

theorem slope_bounds : 0 < 1 / 2 * (2 / Real.sqrt (2 ^ 2 + 16) + 1 / Real.sqrt ((-1) ^ 2 + 16)) ∧
    1 / 2 * (2 / Real.sqrt (2 ^ 2 + 16) + 1 / Real.sqrt ((-1) ^ 2 + 16)) ≤ 3 / 8 := by
  have s1 : (4 : ℝ) ≤ Real.sqrt (2 ^ 2 + 16) := Real.le_sqrt_of_sq_le (by norm_num)
  have s2 : (4 : ℝ) ≤ Real.sqrt ((-1) ^ 2 + 16) := Real.le_sqrt_of_sq_le (by norm_num)
  generalize Real.sqrt (2 ^ 2 + 16) = p at s1 ⊢
  generalize Real.sqrt ((-1) ^ 2 + 16) = q at s2 ⊢
  have hp : 0 < p := by linarith
  have hq : 0 < q := by linarith
  have b1 : 2 / p ≤ 1 / 2 := by rw [div_le_iff₀ hp]; linarith
  have b2 : 1 / q ≤ 1 / 4 := by rw [div_le_iff₀ hq]; linarith
  have p1 : 0 < 2 / p := by positivity
  have p2 : 0 < 1 / q := by positivity
  constructor <;> linarith

/-- **C57: `commands` of a squashed model does not invert `calc`.** One fully actuated joint, bounds
0 and 3, smoothing 4/3: the control 3 is squashed to the torque 2, but the command reported for the
torque 2 is not 3, for every pseudo-inverse that inverts nonzero 1x1 matrices. -/
theorem C57_squashing_inverse_counterexample (pinv : Matrix (Fin 1) (Fin 1) ℝ → Matrix (Fin 1) (Fin 1) ℝ)
    (hp : ∀ M, M 0 0 ≠ 0 → pinv M 0 0 = (M 0 0)⁻¹) :
    let A : Model ℝ Unit 1 1 0 := full
    let m := SmoothSat.run (fun _ => 0) (fun _ => 3) [.inl (4 / 3)]
    let d := sqCalc A m (sqCreate A) () (fun _ => 3)
    d.base.tau = (fun _ => 2) ∧
    ∀ d', sqCommands pinv A m d () d.base.tau = some d' → d'.base.u ≠ fun _ => 3 := by
  intro A m d
  have ha : ∀ i, m.a i = 16 := by
    intro i
    obtain ⟨_, _, _, h4⟩ := SmoothSat.run_inv (fun _ : Fin 1 => 0) (fun _ => 3) [.inl (4 / 3)]
    have hsm : m.smooth = 4 / 3 := by
      simp only [m, SmoothSat.run, List.foldl_cons, List.foldl_nil, SmoothSat.setSmooth]
      rw [if_neg (by norm_num)]
    have := h4 i
    rw [show (SmoothSat.run (fun _ : Fin 1 => 0) (fun _ => 3) [.inl (4 / 3)]).smooth = 4 / 3 from hsm] at this
    rw [show m.a i = _ from this]
    norm_num
  obtain ⟨hl, hu, _, _⟩ := SmoothSat.run_inv (fun _ : Fin 1 => 0) (fun _ => 3) [.inl (4 / 3)]
  have hl : m.uLb = fun _ => 0 := hl
  have hu : m.uUb = fun _ => 3 := hu
  have ht : d.base.tau = fun _ => 2 := by
    show (m.calc SqData.zero (fun _ => 3)).u = _
    funext i
    simp only [SmoothSat.calc, ha, hl, hu, sub_zero, sub_self, sqrt25, sqrt16]
    norm_num
  refine ⟨ht, ?_⟩
  intro d' hd'
  have hcmd : sqCommands pinv A m d () d.base.tau = some d' := hd'
  unfold sqCommands at hcmd
  rw [dif_pos rfl] at hcmd
  simp only [Option.some.injEq] at hcmd
  rw [← hcmd]
  intro hfun
  have h0 := congrFun hfun 0
  simp only [ht, mulVec, dotProduct, Fin.sum_univ_one] at h0
  set e := sqTorque pinv A m d () (fun i => (fun _ : Fin 1 => (2 : ℝ)) (Fin.cast rfl i)) with he
  have hM : e.base.mtau = pinv e.base.dtauDu := rfl
  have hD : e.base.dtauDu 0 0 = 1 / 2 * (2 / Real.sqrt (2 ^ 2 + 16) + 1 / Real.sqrt ((-1) ^ 2 + 16)) := by
    have hE : e.base.dtauDu = (show Matrix (Fin 1) (Fin 1) ℝ from fun r c => if r.val = c.val then (1 : ℝ) else 0)
        * (m.calcDiff (m.calc d.sq (fun _ => 2)) (fun _ => 2)).duDs := rfl
    rw [hE, Matrix.mul_apply, Fin.sum_univ_one]
    have := (m.diff_diag (m.calc d.sq (fun _ => 2)) (fun _ => 2) 0).resolve_right (by rw [ha]; norm_num)
    rw [this]
    simp only [ha, hl, hu, sub_zero, if_true, one_mul]
    rw [show (2 : ℝ) - 3 = -1 by norm_num]
    ring
  obtain ⟨b1, b2⟩ := slope_bounds
  rw [← hD] at b1 b2
  have hne : e.base.dtauDu 0 0 ≠ 0 := b1.ne'
  rw [hM, hp _ hne] at h0
  have : e.base.dtauDu 0 0 * 3 = 2 := by
    field_simp at h0
    linarith
  linarith

/-- An actuation whose torque is the state times the control, with exact derivatives (a user-defined
model). -/
def gain : Model ℝ (Fin 1 → ℝ) 1 1 1 :=
  { create := Data.zero
    eval := fun d x u => { d with tau := fun i => x i * u i }
    calcDiff := fun d x u => { d with dtauDx := fun i _ => u i, dtauDu := fun i _ => x i }
    commands := fun d _ _ => d
    torque := fun d _ _ => d }

/-- **C57: a squashed state-dependent actuation reports a wrong `dtau_dx`.** The inner model's
derivative with respect to the state is nonzero; the squashed one's stays zero, and the torque does
depend on the state. -/
theorem C57_squashing_dx_counterexample (pinv : Matrix (Fin 1) (Fin 1) ℝ → Matrix (Fin 1) (Fin 1) ℝ) :
    let m := SmoothSat.run (fun _ : Fin 1 => 0) (fun _ => 3) [.inl (4 / 3)]
    ¬ ∀ (ops : List (SqOp (Fin 1 → ℝ) 1 1)) (x s : Fin 1 → ℝ),
      let d := sqCalc gain m (sqRun pinv gain m ops) x s
      HasDerivAt (fun t => (sqCalc gain m d (fun _ => t) s).base.tau 0) ((sqCalcDiff gain m d x s).base.dtauDx 0 0) (x 0) := by
  intro m h
  have h1 := h [] (fun _ => 1) (fun _ => 3)
  have e1 : (sqCalcDiff gain m (sqCalc gain m (sqRun pinv gain m []) (fun _ => 1) (fun _ => 3)) (fun _ => 1)
      (fun _ => 3)).base.dtauDx 0 0 = 0 := rfl
  simp only [e1] at h1
  have e2 : (fun t : ℝ => (sqCalc gain m (sqCalc gain m (sqRun pinv gain m []) (fun _ => 1) (fun _ => 3)) (fun _ => t)
      (fun _ => 3)).base.tau 0) = fun t => t * (m.fn (fun _ => 3)) 0 := rfl
  rw [e2] at h1
  have h2 : HasDerivAt (fun t : ℝ => t * (m.fn (fun _ => 3)) 0) (1 * (m.fn (fun _ => 3)) 0) 1 :=
    (hasDerivAt_id (1 : ℝ)).mul_const _
  have h3 := h1.unique h2
  have h4 : (m.fn (fun _ => 3)) 0 = 2 := by
    have ha : m.a 0 = 16 := by
      obtain ⟨_, _, _, h4⟩ := SmoothSat.run_inv (fun _ : Fin 1 => 0) (fun _ => 3) [.inl (4 / 3)]
      have hsm : m.smooth = 4 / 3 := by
        simp only [m, SmoothSat.run, List.foldl_cons, List.foldl_nil, SmoothSat.setSmooth]
        rw [if_neg (by norm_num)]
      have := h4 0
      rw [show (SmoothSat.run (fun _ : Fin 1 => 0) (fun _ => 3) [.inl (4 / 3)]).smooth = 4 / 3 from hsm] at this
      rw [show m.a 0 = _ from this]
      norm_num
    obtain ⟨hl, hu, _, _⟩ := SmoothSat.run_inv (fun _ : Fin 1 => 0) (fun _ => 3) [.inl (4 / 3)]
    have hl : m.uLb = fun _ => 0 := hl
    have hu : m.uUb = fun _ => 3 := hu
    simp only [SmoothSat.fn, SmoothSat.calc, ha, hl, hu, sub_zero, sub_self, sqrt25, sqrt16]
    norm_num
  rw [h4] at h3
  norm_num at h3

end Verif.Act
