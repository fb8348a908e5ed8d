import Verif.Spec.Activations
import Verif.Lemmas.Activations

/-!
# C45, C46, C47: the activation models
-/

namespace Verif.Activations
open Verif.Deriv

variable {n : ℕ}

theorem norm2_sq (r : Fin n → ℝ) : norm2 r ^ 2 = sq r := by
  rw [norm2, EuclideanSpace.norm_sq_eq]
  simp [sq, pow_two]

theorem norm2_eq (r : Fin n → ℝ) : norm2 r = √(sq r) := by
  rw [← norm2_sq, Real.sqrt_sq (show 0 ≤ norm2 r from norm_nonneg _)]

theorem dist_sq {l u x : ℝ} (h : l ≤ u) :
    min (x - l) 0 * min (x - l) 0 + max (x - u) 0 * max (x - u) 0 = distTo l u x ^ 2 := by
  unfold distTo
  rcases le_total x l with h1 | h1
  · rw [min_eq_left (by linarith), max_eq_right (by linarith : x - u ≤ 0),
      max_eq_left (by linarith : x - u ≤ l - x), max_eq_left (by linarith : (0:ℝ) ≤ l - x)]; ring
  · rw [min_eq_right (by linarith)]
    rcases le_total x u with h2 | h2
    · rw [max_eq_right (by linarith : x - u ≤ 0), max_eq_right]
      · ring
      · exact max_le (by linarith) (by linarith)
    · rw [max_eq_left (by linarith : 0 ≤ x - u), max_eq_right (by linarith : l - x ≤ x - u),
        max_eq_left (by linarith : 0 ≤ x - u)]; ring

/-- C45 (the function): `calc` returns the documented activation function of the residual, whatever was in the
data object before. -/
theorem C45_value (m : Model n) (ho : Ordered m.act) (d : Data n) (r : Fin n → ℝ) :
    (calcA m d r).a_value = value m.act r := by
  obtain ⟨a, f⟩ := m
  cases a with
  | quad => simp only [calcA, value, norm2_sq]
  | weighted w =>
    simp only [calcA, value]; congr 1; exact Finset.sum_congr rfl fun i _ => by ring
  | barrier lb ub =>
    simp only [calcA, value, sq]
    rw [← mul_add, ← Finset.sum_add_distrib]
    congr 1; exact Finset.sum_congr rfl fun i _ => dist_sq (ho i)
  | weightedBarrier lb ub w =>
    simp only [calcA, value, sq]
    rw [← mul_add, ← Finset.sum_add_distrib]
    congr 1; refine Finset.sum_congr rfl fun i _ => ?_
    rw [mul_pow, ← dist_sq (ho i)]; ring
  | smooth1 eps =>
    simp only [calcA, value]
    exact Finset.sum_congr rfl fun i _ => by rw [sq_abs, add_comm]
  | smooth2 eps => simp only [calcA, value, norm2_sq, add_comm]
  | normBarrier alpha th => simp only [calcA, value, norm2_eq]; split_ifs <;> ring
  | flatExp alpha => simp only [calcA, value, norm2_sq, neg_div]
  | flatLog alpha => simp only [calcA, value, norm2_sq]

/-- `Ar` after `calc` and `calcDiff` at `y`. -/
noncomputable def gradAt (m : Model n) (d : Data n) (y : Fin n → ℝ) : Fin n → ℝ :=
  (calcDiffA m (calcA m d y) y).2.Ar

/-- `Arr` after `calc` and `calcDiff` at `y`. -/
noncomputable def hessAt (m : Model n) (d : Data n) (y : Fin n → ℝ) : Fin n → ℝ :=
  (calcDiffA m (calcA m d y) y).2.Arr

theorem gradAt_weighted (w : Fin n → ℝ) (f : Bool) (d : Data n) (y : Fin n → ℝ) :
    gradAt ⟨.weighted w, f⟩ d y = fun i => w i * y i := by
  cases f <;> rfl

theorem hessAt_weighted (w : Fin n → ℝ) (f : Bool) (d : Data n) (h : d.Arr = w) (y : Fin n → ℝ) :
    hessAt ⟨.weighted w, f⟩ d y = w := by
  cases f
  · exact h
  · rfl

theorem gradAt_norm (alpha : ℝ) (th f : Bool) (d : Data n) (y : Fin n → ℝ) :
    gradAt ⟨.normBarrier alpha th, f⟩ d y =
      if √(sq y) < alpha then fun i => (√(sq y) - alpha) / √(sq y) * y i else 0 := by
  show (ite (√(sq y) < alpha) _ _ : Model n × Data n).2.Ar = _
  split_ifs <;> rfl

theorem hessAt_norm (alpha : ℝ) (th f : Bool) (d : Data n) (y : Fin n → ℝ) :
    hessAt ⟨.normBarrier alpha th, f⟩ d y =
      if √(sq y) < alpha then
        if th then fun i => alpha * y i ^ 2 / √(sq y) ^ 3 + (√(sq y) - alpha) / √(sq y)
          else fun i => y i ^ 2 / √(sq y) ^ 2
      else 0 := by
  show (ite (√(sq y) < alpha) _ _ : Model n × Data n).2.Arr = _
  split_ifs <;> rfl

theorem hasGrad1_congr {f : (Fin n → ℝ) → ℝ} {g g' r : Fin n → ℝ} (h : HasGrad1 f g r) (e : g = g') :
    HasGrad1 f g' r := e ▸ h

theorem hasDerivAt_barrier (l u x : ℝ) : HasDerivAt
    (fun t => 1 / 2 * (min (t - l) 0 * min (t - l) 0) + 1 / 2 * (max (t - u) 0 * max (t - u) 0))
    (min (x - l) 0 + max (x - u) 0) x := by
  have h1 := (hasDerivAt_min_sq (x - l)).comp x ((hasDerivAt_id x).sub_const l)
  have h2 := (hasDerivAt_max_sq (x - u)).comp x ((hasDerivAt_id x).sub_const u)
  exact (h1.fun_add h2).congr_deriv (by simp)

theorem hasDerivAt_sqrt_add {eps x : ℝ} (h : 0 < x ^ 2 + eps) :
    HasDerivAt (fun t => √(t ^ 2 + eps)) (x * (√(x ^ 2 + eps))⁻¹) x := by
  have h1 : HasDerivAt (fun t : ℝ => t ^ 2 + eps) (2 * x) x := by
    have := ((hasDerivAt_id x).pow 2).add_const eps
    simpa using this
  refine (h1.sqrt h.ne').congr_deriv ?_
  have : √(x ^ 2 + eps) ≠ 0 := (Real.sqrt_pos.mpr h).ne'
  field_simp

/-- The gradient at the smooth points. -/
theorem gradient_smooth (m : Model n) (hp : Params m.act) (d : Data n) (r : Fin n → ℝ)
    (hs : SmoothAt m.act r) :
    HasGrad1 (fun y => (calcA m d y).a_value) (calcDiffA m (calcA m d r) r).2.Ar r := by
  obtain ⟨a, f⟩ := m
  cases a with
  | quad =>
    have := hasGrad1_comp (φ := fun t => 1 / 2 * t) ((hasDerivAt_id (sq r)).const_mul (1 / 2 : ℝ))
      (hasGrad1_sq r)
    refine hasGrad1_congr this ?_
    funext i; simp [calcDiffA]
  | weighted w =>
    have e : (fun y => (calcA ⟨.weighted w, f⟩ d y).a_value) =
        fun y => ∑ i, 1 / 2 * (y i * (w i * y i)) := by
      funext y; simp only [calcA, Finset.mul_sum]
    rw [e]
    have h := hasGrad1_sum (r := r) (φ := fun i t => 1 / 2 * (t * (w i * t)))
      (g := fun i => w i * r i) fun i => by
        have := ((hasDerivAt_id (r i)).mul ((hasDerivAt_id (r i)).const_mul (w i))).const_mul (1 / 2 : ℝ)
        simp only [id] at this
        exact this.congr_deriv (by ring)
    refine hasGrad1_congr h ?_
    cases f <;> simp [calcDiffA, calcA]
  | barrier lb ub =>
    have e : (fun y => (calcA ⟨.barrier lb ub, f⟩ d y).a_value) =
        fun y => ∑ i, (1 / 2 * (min (y i - lb i) 0 * min (y i - lb i) 0) +
          1 / 2 * (max (y i - ub i) 0 * max (y i - ub i) 0)) := by
      funext y; simp only [calcA, sq, Finset.mul_sum, Finset.sum_add_distrib]
    rw [e]
    exact hasGrad1_sum (φ := fun i t => (1 / 2 * (min (t - lb i) 0 * min (t - lb i) 0) +
          1 / 2 * (max (t - ub i) 0 * max (t - ub i) 0))) fun i => hasDerivAt_barrier _ _ _
  | weightedBarrier lb ub w =>
    have e : (fun y => (calcA ⟨.weightedBarrier lb ub w, f⟩ d y).a_value) =
        fun y => ∑ i, w i * w i * (1 / 2 * (min (y i - lb i) 0 * min (y i - lb i) 0) +
          1 / 2 * (max (y i - ub i) 0 * max (y i - ub i) 0)) := by
      funext y; simp only [calcA, sq, Finset.mul_sum, ← Finset.sum_add_distrib]
      exact Finset.sum_congr rfl fun i _ => by ring
    rw [e]
    refine hasGrad1_congr (hasGrad1_sum
      (φ := fun i t => w i * w i * (1 / 2 * (min (t - lb i) 0 * min (t - lb i) 0) +
          1 / 2 * (max (t - ub i) 0 * max (t - ub i) 0)))
      fun i => (hasDerivAt_barrier (lb i) (ub i) (r i)).const_mul _) ?_
    funext i; simp only [calcDiffA, calcA]; ring
  | smooth1 eps =>
    refine hasGrad1_sum (φ := fun _ t => √(t ^ 2 + eps)) fun i => hasDerivAt_sqrt_add ?_
    rcases (show (0:ℝ) ≤ eps from hp).eq_or_lt with h | h
    · have := hs h.symm i; rw [← h]; positivity
    · positivity
  | smooth2 eps =>
    rcases Nat.eq_zero_or_pos n with h0 | h0
    · subst h0; exact (hasFDerivAt_of_subsingleton _ _).congr_fderiv (by ext y; simp [form_apply])
    have hpos : 0 < sq r + eps := by
      rcases (show (0:ℝ) ≤ eps from hp).eq_or_lt with h | h
      · rw [← h, add_zero]; exact sq_pos ((hs h.symm).resolve_right h0.ne')
      · exact add_pos_of_nonneg_of_pos (sq_nonneg' r) h
    have h1 : HasDerivAt (fun t : ℝ => √(t + eps)) (1 / (2 * √(sq r + eps))) (sq r) :=
      ((hasDerivAt_id (sq r)).add_const eps).sqrt hpos.ne'
    refine hasGrad1_congr (hasGrad1_comp (f := sq) h1 (hasGrad1_sq r)) ?_
    funext i
    simp only [calcDiffA, calcA]
    have : √(sq r + eps) ≠ 0 := (Real.sqrt_pos.mpr hpos).ne'
    field_simp
  | normBarrier alpha th =>
    rcases Nat.eq_zero_or_pos n with h0 | h0
    · subst h0; exact (hasFDerivAt_of_subsingleton _ _).congr_fderiv (by ext y; simp [form_apply])
    have e : (fun y => (calcA ⟨.normBarrier alpha th, f⟩ d y).a_value) =
        fun y => 1 / 2 * (min (√(sq y) - alpha) 0 * min (√(sq y) - alpha) 0) := by
      funext y; simp only [calcA]
      split_ifs with h
      · rw [min_eq_left (by linarith)]; ring
      · rw [min_eq_right (by linarith)]; ring
    rw [e]
    by_cases ha : alpha = 0
    · have hz : ∀ y : Fin n → ℝ, min (√(sq y) - alpha) 0 = 0 := fun y =>
        min_eq_right (by rw [ha, sub_zero]; exact Real.sqrt_nonneg _)
      have hz' : ¬ √(sq r) < alpha := by rw [ha]; exact not_lt.mpr (Real.sqrt_nonneg _)
      have hg : (calcDiffA ⟨.normBarrier alpha th, f⟩ (calcA ⟨.normBarrier alpha th, f⟩ d r) r).2.Ar = 0 := by
        exact (gradAt_norm alpha th f d r).trans (if_neg hz')
      simp only [hz, hg]
      refine HasFDerivAt.congr_fderiv (hasFDerivAt_const _ _) ?_
      ext y; simp [form_apply]
    have hr : r ≠ 0 := ((hs.resolve_left ha).resolve_right h0.ne')
    have hpos := sq_pos hr
    have h1 : HasDerivAt (fun t : ℝ => √t - alpha) (1 / (2 * √(sq r))) (sq r) :=
      ((hasDerivAt_id (sq r)).sqrt hpos.ne').sub_const alpha
    have h2 := (hasDerivAt_min_sq (√(sq r) - alpha)).comp (sq r) h1
    refine hasGrad1_congr (hasGrad1_comp (f := sq) h2 (hasGrad1_sq r)) ?_
    have : √(sq r) ≠ 0 := (Real.sqrt_pos.mpr hpos).ne'
    funext i
    refine Eq.trans ?_ (congrFun (gradAt_norm alpha th f d r) i).symm
    split_ifs with h
    · rw [min_eq_left (by linarith)]; field_simp
    · rw [min_eq_right (by linarith)]; simp
  | flatExp alpha =>
    have ha : alpha ≠ 0 := (show (0:ℝ) < alpha from hp).ne'
    have h1 : HasDerivAt (fun t : ℝ => 1 - Real.exp (-t / alpha)) (Real.exp (-sq r / alpha) / alpha)
        (sq r) := by
      have := (((hasDerivAt_id (sq r)).neg.div_const alpha).exp).const_sub 1
      refine this.congr_deriv ?_
      simp; ring
    refine hasGrad1_congr (hasGrad1_comp (f := sq) h1 (hasGrad1_sq r)) ?_
    funext i; simp only [calcDiffA, calcA]; field_simp
  | flatLog alpha =>
    have ha : (0:ℝ) < alpha := hp
    have hpos : 0 < 1 + sq r / alpha := by have := sq_nonneg' r; positivity
    have h1 : HasDerivAt (fun t : ℝ => Real.log (1 + t / alpha)) (1 / alpha / (1 + sq r / alpha))
        (sq r) := (((hasDerivAt_id (sq r)).div_const alpha).const_add 1).log hpos.ne'
    refine hasGrad1_congr (hasGrad1_comp (f := sq) h1 (hasGrad1_sq r)) ?_
    funext i; simp only [calcDiffA, calcA]
    have : alpha + alpha * (sq r / alpha) ≠ 0 := by
      have : alpha + alpha * (sq r / alpha) = alpha * (1 + sq r / alpha) := by ring
      rw [this]; positivity
    field_simp

theorem not_diff_abs {f : ℝ → ℝ} {g : ℝ → ℝ} {c : ℝ} (hc : c ≠ 0) (hg : DifferentiableAt ℝ g 0)
    (hf : f =ᶠ[nhds 0] fun t => g t + c * |t|) : ¬ DifferentiableAt ℝ f 0 := by
  intro h
  have h1 : DifferentiableAt ℝ (fun t => g t + c * |t|) 0 := h.congr_of_eventuallyEq hf.symm
  have h2 := (h1.sub hg).const_mul c⁻¹
  refine not_differentiableAt_abs_zero (h2.congr_of_eventuallyEq (Filter.Eventually.of_forall fun t => ?_))
  simp only [Pi.sub_apply]; field_simp; ring

/-- Outside the smooth points the activation is not differentiable. -/
theorem not_smooth (m : Model n) (hp : Params m.act) (d : Data n) (r : Fin n → ℝ)
    (hs : ¬ SmoothAt m.act r) : ¬ DifferentiableAt ℝ (fun y => (calcA m d y).a_value) r := by
  obtain ⟨a, f⟩ := m
  cases a with
  | quad => exact absurd trivial hs
  | weighted w => exact absurd trivial hs
  | barrier lb ub => exact absurd trivial hs
  | weightedBarrier lb ub w => exact absurd trivial hs
  | flatExp alpha => exact absurd trivial hs
  | flatLog alpha => exact absurd trivial hs
  | smooth1 eps =>
    simp only [SmoothAt, not_forall, ne_eq, not_not] at hs
    obtain ⟨rfl, i, hi⟩ := hs
    intro h
    have h1 := differentiable_line h i
    rw [hi] at h1
    refine not_diff_abs (g := fun _ => ∑ j ∈ Finset.univ.erase i, √(r j ^ 2 + 0)) one_ne_zero
      (by fun_prop) (Filter.Eventually.of_forall fun t => ?_) h1
    simp only [calcA]
    rw [← Finset.add_sum_erase _ _ (Finset.mem_univ i), Function.update_self, add_zero,
      Real.sqrt_sq_eq_abs, one_mul, add_comm]
    congr 1
    exact Finset.sum_congr rfl fun j hj => by rw [Function.update_of_ne (Finset.ne_of_mem_erase hj)]
  | smooth2 eps =>
    simp only [SmoothAt, not_forall, not_or, ne_eq, not_not] at hs
    obtain ⟨rfl, rfl, hn⟩ := hs
    intro h
    have h1 := differentiable_line h ⟨0, Nat.pos_of_ne_zero hn⟩
    refine not_diff_abs (g := fun _ => 0) one_ne_zero (by fun_prop)
      (Filter.Eventually.of_forall fun t => ?_) h1
    simp only [calcA, sq_update, add_zero]
    simp [sq, ← pow_two, Real.sqrt_sq_eq_abs]
  | normBarrier alpha th =>
    simp only [SmoothAt, not_or, ne_eq, not_not] at hs
    obtain ⟨ha, rfl, hn⟩ := hs
    intro h
    have ha' : 0 < alpha := lt_of_le_of_ne hp (Ne.symm ha)
    have h1 := differentiable_line h ⟨0, Nat.pos_of_ne_zero hn⟩
    refine not_diff_abs (g := fun t => 1 / 2 * t ^ 2 + 1 / 2 * alpha ^ 2) (neg_ne_zero.mpr ha)
      (by fun_prop) ?_ h1
    filter_upwards [Metric.ball_mem_nhds (0:ℝ) ha'] with t ht
    have ht' : |t| < alpha := by simpa using ht
    have e : √(sq (Function.update (0 : Fin n → ℝ) ⟨0, Nat.pos_of_ne_zero hn⟩ t)) = |t| := by
      rw [sq_update]; simp [sq, ← pow_two, Real.sqrt_sq_eq_abs]
    simp only [calcA, e, if_pos ht']
    have := sq_abs t
    nlinarith

/-- C45 (partial: the parameter `alpha = 0`, which the constructors of the two flat activations accept and
which makes the code divide by zero, is missing). For every activation class, all parameters, every data
object and every residual at which the activation has a derivative at all, after `calc` and `calcDiff` the
vector `Ar` is its gradient. -/
theorem C45_gradient_partial (m : Model n) (hp : Params m.act) (d : Data n) (r : Fin n → ℝ)
    (hd : DifferentiableAt ℝ (fun y => (calcA m d y).a_value) r) :
    HasGrad1 (fun y => (calcA m d y).a_value) (calcDiffA m (calcA m d r) r).2.Ar r :=
  gradient_smooth m hp d r (by_contra fun hs => not_smooth m hp d r hs hd)

/-- C45: where the activations have a derivative: everywhere, except the smooth norms without smoothing
(`eps = 0`) at a zero (component of the) residual and the 2-norm barrier (`alpha > 0`) at the zero residual. -/
theorem C45_differentiable (m : Model n) (hp : Params m.act) (d : Data n) (r : Fin n → ℝ) :
    DifferentiableAt ℝ (fun y => (calcA m d y).a_value) r ↔ SmoothAt m.act r :=
  ⟨fun h => by_contra fun hs => not_smooth m hp d r hs h,
    fun h => (gradient_smooth m hp d r h).differentiableAt⟩

/-- The 2-norm barrier with its default parameter at a non-zero residual. -/
example (d : Data 2) : Params (Act.normBarrier (n := 2) (1 / 10) false) ∧
    DifferentiableAt ℝ (fun y => (calcA (Model.ofAct (.normBarrier (1 / 10) false)) d y).a_value)
      ![1 / 20, 0] := by
  have hp : Params (Act.normBarrier (n := 2) (1 / 10) false) := by simp only [Params]; norm_num
  refine ⟨hp, (C45_differentiable _ hp d _).mpr (Or.inr (Or.inl ?_))⟩
  intro h
  have := congrFun h 0
  norm_num at this

/-! ### C46 -/

/-- Derivative of the sawtooth `min (x-l) 0 + max (x-u) 0` away from its kinks. -/
theorem hasDerivAt_saw {l u x : ℝ} (h : l ≤ u) (h1 : x ≠ l ∨ l = u) (h2 : x ≠ u ∨ l = u) :
    HasDerivAt (fun t => min (t - l) 0 + max (t - u) 0) (outside l u x) x := by
  have lin : ∀ c : ℝ, HasDerivAt (fun t : ℝ => t - c) 1 x := fun c => (hasDerivAt_id x).sub_const c
  by_cases he : l = u
  · subst he
    have e : (fun t : ℝ => min (t - l) 0 + max (t - l) 0) = fun t => t - l := by
      funext t; rw [min_add_max, add_zero]
    have o : outside l l x = 1 := by
      unfold outside; split_ifs <;> first | rfl | (exfalso; linarith)
    rw [e, o]; exact lin l
  have hx1 := h1.resolve_right he
  have hx2 := h2.resolve_right he
  rcases lt_or_gt_of_ne hx1 with h3 | h3
  · rw [outside, if_pos (by linarith)]
    refine (lin l).congr_of_eventuallyEq ?_
    filter_upwards [Iio_mem_nhds h3] with t ht
    have ht' : t < l := ht
    rw [min_eq_left (by linarith), max_eq_right (by linarith), add_zero]
  rcases lt_or_gt_of_ne hx2 with h4 | h4
  · rw [outside, if_neg (by linarith), if_neg (by linarith)]
    refine (hasDerivAt_const x (0:ℝ)).congr_of_eventuallyEq ?_
    filter_upwards [Ioi_mem_nhds h3, Iio_mem_nhds h4] with t ht ht2
    have ht' : l < t := ht
    have ht2' : t < u := ht2
    rw [min_eq_right (by linarith), max_eq_right (by linarith), add_zero]
  · rw [outside, if_neg (by linarith), if_pos (by linarith)]
    refine (lin u).congr_of_eventuallyEq ?_
    filter_upwards [Ioi_mem_nhds h4] with t ht
    have ht' : u < t := ht
    rw [min_eq_right (by linarith), max_eq_left (by linarith), zero_add]

/-- Points where `Ar` is differentiable: those of `SmoothAt`, without the kinks of the barriers. -/
def Smooth2At : Act n → (Fin n → ℝ) → Prop
  | .barrier lb ub, r => ∀ i, (r i ≠ lb i ∧ r i ≠ ub i) ∨ lb i = ub i
  | .weightedBarrier lb ub _, r => ∀ i, (r i ≠ lb i ∧ r i ≠ ub i) ∨ lb i = ub i
  | .smooth1 eps, r => eps = 0 → ∀ i, r i ≠ 0
  | .smooth2 eps, r => eps = 0 → r ≠ 0
  | .normBarrier alpha _, r => r ≠ 0 ∧ norm2 r ≠ alpha
  | _, _ => True

/-- The data's Hessian is the constant set at its creation (for a weighted model with the same weights; C47
tells when that is so). -/
def FreshArr : Act n → Data n → Prop
  | .quad, d => d.Arr = fun _ => 1
  | .weighted w, d => d.Arr = w
  | _, _ => True

/-- The factor by which the stored diagonal of four of the classes differs from the true one. -/
noncomputable def factor : Act n → (Fin n → ℝ) → Fin n → ℝ
  | .weightedBarrier _ _ w, _, i => w i
  | .smooth1 eps, _, _ => eps
  | .smooth2 eps, r, i => eps + ∑ j ∈ Finset.univ.erase i, r j ^ 2
  | _, _, _ => 1

theorem hasDerivAt_ratio {c x : ℝ} (h : 0 < x ^ 2 + c) :
    HasDerivAt (fun t => t * (√(t ^ 2 + c))⁻¹) (c * (√(x ^ 2 + c) * √(x ^ 2 + c) * √(x ^ 2 + c))⁻¹) x := by
  have hp : 0 < √(x ^ 2 + c) := Real.sqrt_pos.mpr h
  have h1 := (hasDerivAt_id x).mul ((hasDerivAt_sqrt_add h).inv hp.ne')
  refine h1.congr_deriv ?_
  have e : √(x ^ 2 + c) * √(x ^ 2 + c) = x ^ 2 + c := Real.mul_self_sqrt h.le
  simp only [id, one_mul, Pi.inv_apply]
  field_simp
  rw [pow_two √(x ^ 2 + c), e]; ring

/-- C46: the exact relation between the stored `Arr` and the derivative of `Ar`, at every point where `Ar` is
differentiable. For the quadratic, weighted quadratic, quadratic barrier, 2-norm barrier with true Hessian
and the two flat classes `Arr` is the diagonal of the derivative (`factor = 1`). For the weighted barrier the
true value is `w_i * Arr_i`, for the smooth 1-norm `eps * Arr_i`, for the smooth 2-norm
`(eps + ∑_{j≠i} r_j²) * Arr_i`. -/
theorem C46_relation (m : Model n) (ho : Ordered m.act) (hp : Params m.act) (d : Data n)
    (hf : FreshArr m.act d) (r : Fin n → ℝ) (hs : Smooth2At m.act r)
    (hth : ∀ al, m.act ≠ .normBarrier al false) (i : Fin n) :
    HasDerivAt (fun t => (calcDiffA m (calcA m d (Function.update r i t)) (Function.update r i t)).2.Ar i)
      (factor m.act r i * (calcDiffA m (calcA m d r) r).2.Arr i) (r i) := by
  show HasDerivAt (fun t => gradAt m d (Function.update r i t) i) (factor m.act r i * hessAt m d r i) (r i)
  obtain ⟨a, f⟩ := m
  have hsq : ∀ t, sq (Function.update r i t) = t ^ 2 + (sq r - r i ^ 2) := fun t => by
    rw [sq_update]; ring
  have hself : r i ^ 2 + (sq r - r i ^ 2) = sq r := by ring
  have hsqd : HasDerivAt (fun t : ℝ => t ^ 2 + (sq r - r i ^ 2)) (2 * r i) (r i) := by
    have := ((hasDerivAt_id (r i)).pow 2).add_const (sq r - r i ^ 2)
    simpa using this
  cases a with
  | quad =>
    have e : hessAt ⟨.quad, f⟩ d r i = 1 := congrFun hf i
    simp only [e, factor, one_mul]
    simp only [gradAt, calcDiffA, Function.update_self]
    exact hasDerivAt_id _
  | weighted w =>
    simp only [hessAt_weighted w f d hf, factor, one_mul]
    simp only [gradAt_weighted, Function.update_self]
    exact ((hasDerivAt_id (r i)).const_mul (w i)).congr_deriv (by simp)
  | barrier lb ub =>
    have h := hs i
    have := hasDerivAt_saw (ho i) (x := r i) (by tauto) (by tauto)
    simp only [factor, one_mul]
    simpa only [gradAt, hessAt, calcDiffA, calcA, Function.update_self] using this
  | weightedBarrier lb ub w =>
    have h := hs i
    have := ((hasDerivAt_saw (ho i) (x := r i) (by tauto) (by tauto)).mul_const (w i)).mul_const (w i)
    have e : (fun t => gradAt ⟨.weightedBarrier lb ub w, f⟩ d (Function.update r i t) i) =
        fun t => (min (t - lb i) 0 + max (t - ub i) 0) * w i * w i := by
      funext t; simp only [gradAt, calcDiffA, calcA, Function.update_self]; ring
    rw [e]
    refine this.congr_deriv ?_
    simp only [factor, hessAt, calcDiffA, calcA]; ring
  | smooth1 eps =>
    have hpos : 0 < r i ^ 2 + eps := by
      rcases (show (0:ℝ) ≤ eps from hp).eq_or_lt with h | h
      · have := hs h.symm i; rw [← h]; positivity
      · positivity
    have := hasDerivAt_ratio hpos
    simpa only [factor, gradAt, hessAt, calcDiffA, calcA, Function.update_self] using this
  | smooth2 eps =>
    have hpos : 0 < sq r + eps := by
      rcases (show (0:ℝ) ≤ eps from hp).eq_or_lt with h | h
      · rw [← h, add_zero]; exact sq_pos (hs h.symm)
      · exact add_pos_of_nonneg_of_pos (sq_nonneg' r) h
    have hc : sq r = r i ^ 2 + ∑ j ∈ Finset.univ.erase i, r j ^ 2 := by
      rw [sq, ← Finset.add_sum_erase _ _ (Finset.mem_univ i)]
      simp only [pow_two]
    set c := ∑ j ∈ Finset.univ.erase i, r j ^ 2 with hcd
    have hpos' : 0 < r i ^ 2 + (c + eps) := by rw [← add_assoc, ← hc]; exact hpos
    have := hasDerivAt_ratio hpos'
    have e : (fun t => gradAt ⟨.smooth2 eps, f⟩ d (Function.update r i t) i) =
        fun t => t * (√(t ^ 2 + (c + eps)))⁻¹ := by
      funext t
      simp only [gradAt, calcDiffA, calcA, Function.update_self, hsq, hc]
      rw [div_eq_mul_inv]; congr 3; ring
    rw [e]
    refine this.congr_deriv ?_
    simp only [factor, hessAt, calcDiffA, calcA, hc, add_assoc, ← hcd]
    rw [add_comm c eps, one_div]; congr 2; ring
  | normBarrier alpha th =>
    have hth' : th = true := by
      cases th with
      | false => exact absurd rfl (hth alpha)
      | true => rfl
    subst hth'
    obtain ⟨hr, hne⟩ := hs
    rw [norm2_eq] at hne
    have hpos := sq_pos hr
    have hD : 0 < √(sq r) := Real.sqrt_pos.mpr hpos
    have hsqrt : HasDerivAt (fun t => √(t ^ 2 + (sq r - r i ^ 2))) (2 * r i / (2 * √(sq r))) (r i) := by
      have := hsqd.sqrt (by rw [hself]; exact hpos.ne')
      rwa [hself] at this
    have hcont : ContinuousAt (fun t => √(t ^ 2 + (sq r - r i ^ 2))) (r i) := hsqrt.continuousAt
    simp only [factor, one_mul]
    rcases lt_or_gt_of_ne hne with h | h
    · have hev : ∀ᶠ t in nhds (r i), √(t ^ 2 + (sq r - r i ^ 2)) < alpha :=
        hcont.eventually_lt continuousAt_const (by rw [hself]; exact h)
      rw [hessAt_norm, if_pos h, if_pos rfl]
      have h1 := (((hsqrt.sub_const alpha).div hsqrt (by rw [hself]; exact hD.ne')).mul (hasDerivAt_id (r i)))
      refine (h1.congr_of_eventuallyEq ?_).congr_deriv ?_
      · filter_upwards [hev] with t ht
        rw [gradAt_norm, hsq, if_pos ht, Function.update_self]; rfl
      · simp only [Pi.div_apply, id, hself]
        have e : √(sq r) * √(sq r) = sq r := Real.mul_self_sqrt hpos.le
        field_simp
        ring
    · have hev : ∀ᶠ t in nhds (r i), alpha < √(t ^ 2 + (sq r - r i ^ 2)) :=
        continuousAt_const.eventually_lt hcont (by rw [hself]; exact h)
      rw [hessAt_norm, if_neg (not_lt.mpr h.le)]
      refine (hasDerivAt_const (r i) (0:ℝ)).congr_of_eventuallyEq ?_
      filter_upwards [hev] with t ht
      rw [gradAt_norm, hsq, if_neg (not_lt.mpr ht.le)]; rfl
  | flatExp alpha =>
    have ha : alpha ≠ 0 := (show (0:ℝ) < alpha from hp).ne'
    simp only [factor, one_mul]
    have h1 := ((((hsqd.neg.div_const alpha).exp).const_mul (2 / alpha)).mul (hasDerivAt_id (r i)))
    have e : (fun t => gradAt ⟨.flatExp alpha, f⟩ d (Function.update r i t) i) =
        fun t => 2 / alpha * Real.exp (-(t ^ 2 + (sq r - r i ^ 2)) / alpha) * t := by
      funext t; simp only [gradAt, calcDiffA, calcA, Function.update_self, hsq]
    rw [e]
    refine h1.congr_deriv ?_
    simp only [Pi.neg_apply, id, hself, hessAt, calcDiffA, calcA]
    field_simp
  | flatLog alpha =>
    have ha : (0:ℝ) < alpha := hp
    simp only [factor, one_mul]
    have hden : ∀ t : ℝ, alpha + alpha * ((t ^ 2 + (sq r - r i ^ 2)) / alpha) =
        alpha + (t ^ 2 + (sq r - r i ^ 2)) := fun t => by field_simp
    have hpos : 0 < alpha + sq r := add_pos_of_pos_of_nonneg ha (sq_nonneg' r)
    have h1 := (((hsqd.const_add alpha).inv (by rw [hself]; exact hpos.ne')).const_mul (2:ℝ)).mul
      (hasDerivAt_id (r i))
    have e : (fun t => gradAt ⟨.flatLog alpha, f⟩ d (Function.update r i t) i) =
        fun t => 2 * (alpha + (t ^ 2 + (sq r - r i ^ 2)))⁻¹ * t := by
      funext t
      simp only [gradAt, calcDiffA, calcA, Function.update_self, hsq]
      rw [hden, div_eq_mul_inv]
    rw [e]
    refine h1.congr_deriv ?_
    have hd' : alpha + alpha * (sq r / alpha) = alpha + sq r := by field_simp
    simp only [Pi.inv_apply, id, hself, hessAt, calcDiffA, calcA, hd']
    field_simp

/-- C46 (partial: missing are the weighted barrier with weights other than 1, the smooth norms with other
factors, for which the claim is false: `C46_weightedBarrier_counterexample`, `C46_smooth1_counterexample`,
`C46_smooth2_counterexample`, and `alpha = 0` of the flat activations). At every point where `Ar` is
differentiable, the stored `Arr` is the diagonal of the derivative of `Ar`. -/
theorem C46_diagonal_partial (m : Model n) (ho : Ordered m.act) (hp : Params m.act) (d : Data n)
    (hf : FreshArr m.act d) (r : Fin n → ℝ) (hs : Smooth2At m.act r)
    (hth : ∀ al, m.act ≠ .normBarrier al false) (i : Fin n) (h1 : factor m.act r i = 1) :
    HasDerivAt (fun t => (calcDiffA m (calcA m d (Function.update r i t)) (Function.update r i t)).2.Ar i)
      ((calcDiffA m (calcA m d r) r).2.Arr i) (r i) :=
  (C46_relation m ho hp d hf r hs hth i).congr_deriv (by rw [h1, one_mul])

/-- All hypotheses hold together: a quadratic barrier outside, a flat activation, a weighted quadratic. -/
example : Smooth2At (Act.barrier (n := 2) ![0, 0] ![1, 1]) ![2, 1 / 2] ∧
    Ordered (Act.barrier (n := 2) ![0, 0] ![1, 1]) ∧
    FreshArr (Act.weighted ![2, 3]) (createData (Model.ofAct (Act.weighted ![2, 3]))) ∧
    Params (Act.flatExp (n := 2) 1) := by
  refine ⟨?_, ?_, rfl, by simp only [Params]; norm_num⟩
  · intro i; fin_cases i <;> left <;> norm_num
  · intro i; fin_cases i <;> norm_num

/-- C46: the separable classes (quadratic, weighted, both barriers, smooth 1-norm) have no mixed second
derivatives: the component `Ar_i` depends on `r_i` only, so a diagonal `Arr` loses nothing. -/
theorem C46_separable (m : Model n) (d : Data n)
    (hm : match m.act with
      | .quad => True | .weighted _ => True | .barrier _ _ => True | .weightedBarrier _ _ _ => True
      | .smooth1 _ => True | _ => False) (r r' : Fin n → ℝ) (i : Fin n) (h : r i = r' i) :
    (calcDiffA m (calcA m d r) r).2.Ar i = (calcDiffA m (calcA m d r') r').2.Ar i := by
  obtain ⟨a, f⟩ := m
  cases a with
  | weighted w => cases f <;> simp [calcDiffA, calcA, h]
  | quad => simp [calcDiffA, h]
  | barrier lb ub => simp [calcDiffA, calcA, h]
  | weightedBarrier lb ub w => simp [calcDiffA, calcA, h]
  | smooth1 eps => simp [calcDiffA, calcA, h]
  | smooth2 eps => exact hm.elim
  | normBarrier a t => exact hm.elim
  | flatExp a => exact hm.elim
  | flatLog a => exact hm.elim

/-- C46: the 2-norm barrier without the true-Hessian option stores, inside the threshold, the diagonal of the
documented Gauss-Newton Hessian `∇‖r‖ ∇‖r‖ᵀ`; outside it stores zero, which is the true Hessian. -/
theorem C46_gauss_newton (alpha : ℝ) (f : Bool) (d : Data n) (r : Fin n → ℝ) (hr : r ≠ 0) :
    ∃ g : Fin n → ℝ, HasGrad1 norm2 g r ∧
      ∀ i, (calcDiffA ⟨.normBarrier alpha false, f⟩ (calcA ⟨.normBarrier alpha false, f⟩ d r) r).2.Arr i =
        if norm2 r < alpha then g i * g i else 0 := by
  have hpos := sq_pos hr
  have hD : √(sq r) ≠ 0 := (Real.sqrt_pos.mpr hpos).ne'
  have h1 : HasDerivAt (fun t : ℝ => √t) (1 / (2 * √(sq r))) (sq r) :=
    (hasDerivAt_id (sq r)).sqrt hpos.ne'
  refine ⟨fun i => r i / √(sq r), ?_, fun i => ?_⟩
  · have := hasGrad1_congr (hasGrad1_comp (f := sq) h1 (hasGrad1_sq r))
      (g' := fun i => r i / √(sq r)) (by funext i; field_simp)
    rwa [show norm2 = fun y : Fin n → ℝ => √(sq y) from funext norm2_eq]
  · rw [norm2_eq]
    refine (congrFun (hessAt_norm alpha false f d r) i).trans ?_
    split_ifs with h
    · exact False.elim (by first | assumption | simp_all)
    · field_simp
    · rfl

/-- C46 fails for the weighted barrier: weight 2 on the interval `[0, 1]` at `r = 3`; the derivative of `Ar` is
4, the stored value 2. -/
theorem C46_weightedBarrier_counterexample (d : Data 1) :
    let m : Model 1 := Model.ofAct (.weightedBarrier ![0] ![1] ![2])
    (calcDiffA m (calcA m d ![3]) ![3]).2.Arr 0 = 2 ∧
    HasDerivAt (fun t => (calcDiffA m (calcA m d (Function.update ![3] 0 t))
      (Function.update ![3] 0 t)).2.Ar 0) 4 3 := by
  have h2 : (calcDiffA (Model.ofAct (.weightedBarrier ![0] ![1] ![2]))
      (calcA (Model.ofAct (.weightedBarrier ![0] ![1] ![2])) d ![3]) ![3]).2.Arr 0 = 2 := by
    simp [calcDiffA, calcA, Model.ofAct, outside]
  refine ⟨h2, ?_⟩
  have h := C46_relation (Model.ofAct (.weightedBarrier ![0] ![1] ![2])) (fun i => by fin_cases i; simp)
    trivial d trivial ![3] (fun i => by fin_cases i; left; norm_num)
    (fun al => by simp [Model.ofAct]) 0
  refine h.congr_deriv ?_
  rw [h2]; simp [factor, Model.ofAct]; norm_num

/-- C46 fails for the smooth 1-norm when `eps ≠ 1`: `eps = 4` at `r = 0`; the derivative of `Ar` is `1/2`, the
stored value `1/8`. -/
theorem C46_smooth1_counterexample (d : Data 1) :
    let m : Model 1 := Model.ofAct (.smooth1 4)
    (calcDiffA m (calcA m d ![0]) ![0]).2.Arr 0 = 1 / 8 ∧
    HasDerivAt (fun t => (calcDiffA m (calcA m d (Function.update ![0] 0 t))
      (Function.update ![0] 0 t)).2.Ar 0) (1 / 2) 0 := by
  have h4 : √(4:ℝ) = 2 := by rw [show (4:ℝ) = 2 ^ 2 by norm_num]; exact Real.sqrt_sq (by norm_num)
  have h2 : (calcDiffA (Model.ofAct (.smooth1 4)) (calcA (Model.ofAct (.smooth1 4)) d ![0]) ![0]).2.Arr 0
      = 1 / 8 := by
    simp [calcDiffA, calcA, Model.ofAct, h4]; norm_num
  refine ⟨h2, ?_⟩
  have h := C46_relation (Model.ofAct (.smooth1 4)) trivial (by simp [Params, Model.ofAct])
    d trivial ![0] (fun h => by norm_num at h) (fun al => by simp [Model.ofAct]) 0
  refine h.congr_deriv ?_
  rw [h2]; simp [factor, Model.ofAct]; norm_num

/-- C46 fails for the smooth 2-norm with its default `eps = 1` as soon as there are two components:
`r = (0, √3)`; the derivative of `Ar_0` is `1/2`, the stored value `1/8`. -/
theorem C46_smooth2_counterexample (d : Data 2) :
    let m : Model 2 := Model.ofAct (.smooth2 1)
    (calcDiffA m (calcA m d ![0, √3]) ![0, √3]).2.Arr 0 = 1 / 8 ∧
    HasDerivAt (fun t => (calcDiffA m (calcA m d (Function.update ![0, √3] 0 t))
      (Function.update ![0, √3] 0 t)).2.Ar 0) (1 / 2) 0 := by
  have h4 : √(4:ℝ) = 2 := by rw [show (4:ℝ) = 2 ^ 2 by norm_num]; exact Real.sqrt_sq (by norm_num)
  have h3 : √(3:ℝ) * √3 = 3 := Real.mul_self_sqrt (by norm_num)
  have h2 : (calcDiffA (Model.ofAct (.smooth2 1)) (calcA (Model.ofAct (.smooth2 1)) d ![0, √3]) ![0, √3]).2.Arr 0
      = 1 / 8 := by
    simp [calcDiffA, calcA, Model.ofAct, sq]
    rw [show (3:ℝ) + 1 = 4 by norm_num, h4]; norm_num
  refine ⟨h2, ?_⟩
  have h := C46_relation (Model.ofAct (.smooth2 1)) trivial (by simp [Params, Model.ofAct])
    d trivial ![0, √3] (fun h => by norm_num at h) (fun al => by simp [Model.ofAct]) 0
  refine h.congr_deriv ?_
  rw [h2]
  have : (Finset.univ.erase (0 : Fin 2)) = {1} := by decide
  simp [factor, Model.ofAct, this]; norm_num

/-! ### C47 -/

/-- Everything a single data object needs: its Hessian is the current weights, or the flag is set. -/
def Single (s : World n) : Prop :=
  ∃ w, s.model.act = .weighted w ∧ s.datas.length ≤ 1 ∧
    ∀ d ∈ s.datas, d.Arr = w ∨ s.model.newWeights = true

/-- The history creates at most one data object. -/
def AtMostOneData (ops : List (Op n)) : Prop :=
  (ops.countP fun op => match op with | .create => true | _ => false) ≤ 1

theorem single_step (s : World n) (hs : Single s) (op : Op n)
    (h : op = .create → s.datas = []) : Single (step s op) := by
  obtain ⟨w, hw, hl, hd⟩ := hs
  cases op with
  | setWeights v => exact ⟨v, by simp [step, Model.setWeights, hw], hl, fun d _ => Or.inr (by
      simp [step, Model.setWeights, hw])⟩
  | create =>
    refine ⟨w, hw, by simp [step, h rfl], fun d hd' => ?_⟩
    simp only [step, h rfl, List.nil_append, List.mem_singleton] at hd'
    subst hd'; left; simp [createData, hw]
  | eval i r =>
    dsimp only [step]
    cases hi : s.datas[i]? with
    | some d =>
      refine ⟨w, hw, by simpa using hl, fun d' hd' => ?_⟩
      have hmem : d ∈ s.datas := List.mem_of_getElem? hi
      rcases List.mem_or_eq_of_mem_set hd' with h1 | h1
      · exact hd d' h1
      · subst h1
        have : (calcA s.model d r).Arr = d.Arr := by simp [calcA, hw]
        rw [this]; exact hd d hmem
    | none => exact ⟨w, hw, hl, hd⟩
  | diff i r =>
    dsimp only [step]
    cases hi : s.datas[i]? with
    | some d =>
      have hmem : d ∈ s.datas := List.mem_of_getElem? hi
      by_cases hn : s.model.newWeights = true
      · refine ⟨w, by simp [calcDiffA, hw, hn], by simpa using hl, fun d' hd' => ?_⟩
        left
        simp only [calcDiffA, hw, hn, if_true] at hd'
        match hm : s.datas, hl with
        | [e], _ =>
          have hi0 : i = 0 := by
            have := (List.getElem?_eq_some_iff.mp hi).1; rw [hm] at this; simpa using this
          subst hi0
          rw [hm] at hd'
          simp only [List.set_cons_zero, List.mem_singleton] at hd'
          rw [hd']
        | [], _ => rw [hm] at hmem; simp at hmem
      · refine ⟨w, by simp [calcDiffA, hw, hn], by simpa using hl, fun d' hd' => ?_⟩
        left
        simp only [calcDiffA, hw, hn] at hd'
        rcases List.mem_or_eq_of_mem_set hd' with h1 | h1
        · exact (hd d' h1).resolve_right hn
        · rw [h1]; exact (hd d hmem).resolve_right hn
    | none => exact ⟨w, hw, hl, hd⟩

/-- Number of data objects created so far. -/
def created (ops : List (Op n)) : ℕ := ops.countP fun op => match op with | .create => true | _ => false

/-- The weights in force after a history. -/
def currentWeights (w : Fin n → ℝ) (ops : List (Op n)) : Fin n → ℝ :=
  ops.foldl (fun w op => match op with | .setWeights v => v | _ => w) w

theorem datas_length (s : World n) (ops : List (Op n)) :
    (ops.foldl step s).datas.length = s.datas.length + created ops := by
  induction ops generalizing s with
  | nil => simp [created]
  | cons op ops ih =>
    rw [List.foldl_cons, ih]
    have : (step s op).datas.length = s.datas.length + created [op] := by
      cases op <;> simp only [step, created] <;> (try split) <;> simp
    rw [this]; simp only [created, List.countP_cons, List.countP_nil]; omega

theorem single_run (s : World n) (hs : Single s) (ops : List (Op n))
    (h : s.datas.length + created ops ≤ 1) : Single (ops.foldl step s) := by
  induction ops generalizing s with
  | nil => exact hs
  | cons op ops ih =>
    rw [List.foldl_cons]
    refine ih _ (single_step s hs op ?_) ?_
    · rintro rfl
      simp only [created, List.countP_cons] at h
      exact List.length_eq_zero_iff.mp (by simp at h; omega)
    · have := datas_length s [op]
      simp only [List.foldl_cons, List.foldl_nil] at this
      rw [this]; simp only [created, List.countP_cons, List.countP_nil] at h ⊢; omega

theorem weights_run (s : World n) (w : Fin n → ℝ) (h : s.model.act = .weighted w) (ops : List (Op n)) :
    (ops.foldl step s).model.act = .weighted (currentWeights w ops) := by
  induction ops generalizing s w with
  | nil => exact h
  | cons op ops ih =>
    rw [List.foldl_cons, currentWeights, List.foldl_cons]
    cases op with
    | setWeights v => exact ih _ v (by simp [step, Model.setWeights, h])
    | create => exact ih _ w h
    | eval i r =>
      refine ih _ w ?_
      dsimp only [step]; cases s.datas[i]? <;> exact h
    | diff i r =>
      refine ih _ w ?_
      dsimp only [step]; cases s.datas[i]? with
      | none => exact h
      | some d => simp only [calcDiffA, h]; split_ifs <;> first | exact h | rfl

/-- C47 (partial: histories with one data object; with two the claim is false,
`C47_stale_counterexample`). However weight changes, value and derivative calls are interleaved, the Hessian
stored after `calcDiff` is the diagonal of the weights in force. -/
theorem C47_hessian_partial (w : Fin n → ℝ) (ops : List (Op n)) (r : Fin n → ℝ) (h : created ops = 1) :
    ∃ d, (run (.weighted w) (ops ++ [.diff 0 r])).datas = [d] ∧ d.Arr = currentWeights w ops := by
  have hs : Single (⟨Model.ofAct (.weighted w), []⟩ : World n) := ⟨w, rfl, by simp, by simp⟩
  have hcr : created (ops ++ [Op.diff 0 r]) = 1 := by
    simp only [created, List.countP_append, List.countP_cons, List.countP_nil] at h ⊢; simpa using h
  have hlen := datas_length (⟨Model.ofAct (.weighted w), []⟩ : World n) ops
  have hS := single_run _ hs ops (by simp [h])
  have hw := weights_run (⟨Model.ofAct (.weighted w), []⟩ : World n) w rfl ops
  simp only [run, List.foldl_append, List.foldl_cons, List.foldl_nil]
  generalize ops.foldl step (⟨Model.ofAct (.weighted w), []⟩ : World n) = s at *
  obtain ⟨w', hw', hl, hd⟩ := hS
  have hww : w' = currentWeights w ops := by rw [hw'] at hw; exact Act.weighted.inj hw
  subst hww
  match hm : s.datas, hlen with
  | [e], _ =>
    dsimp only [step]
    rw [hm]
    simp only [List.getElem?_cons_zero, List.set_cons_zero]
    refine ⟨_, rfl, ?_⟩
    have he := hd e (by rw [hm]; simp)
    by_cases hn : s.model.newWeights = true
    · simp [calcDiffA, hw', hn]
    · simp only [calcDiffA, hw', hn]; exact he.resolve_right hn
  | [], hlen => simp [h] at hlen
  | _ :: _ :: _, hlen => simp [h] at hlen

/-- The hypothesis is met by a history that changes the weights twice. -/
example : created (n := 2) [.create, .setWeights ![1, 2], .diff 0 ![1, 1], .setWeights ![3, 4]] = 1 ∧
    currentWeights (n := 2) ![0, 0] [.create, .setWeights ![1, 2], .diff 0 ![1, 1], .setWeights ![3, 4]] =
      ![3, 4] := ⟨rfl, rfl⟩

/-- C47: value and gradient are never stale, for any number of data objects and any history: after
`calc` and `calcDiff` at `r` they are `½ Σ wᵢ rᵢ²` and `wᵢ rᵢ` for the weights in force. -/
theorem C47_value_gradient (w : Fin n → ℝ) (ops : List (Op n)) (i : ℕ) (r : Fin n → ℝ)
    (h : i < created ops) :
    ∃ d, (run (.weighted w) (ops ++ [.eval i r, .diff i r])).datas[i]? = some d ∧
      d.a_value = 1 / 2 * ∑ k, currentWeights w ops k * r k ^ 2 ∧
      ∀ k, d.Ar k = currentWeights w ops k * r k := by
  have hlen := datas_length (⟨Model.ofAct (.weighted w), []⟩ : World n) ops
  have hw := weights_run (⟨Model.ofAct (.weighted w), []⟩ : World n) w rfl ops
  simp only [run, List.foldl_append, List.foldl_cons, List.foldl_nil]
  generalize ops.foldl step (⟨Model.ofAct (.weighted w), []⟩ : World n) = s at *
  have hi : i < s.datas.length := by simp at hlen; omega
  have h1 : s.datas[i]? = some s.datas[i] := List.getElem?_eq_getElem hi
  dsimp only [step]
  rw [h1]
  simp only [List.getElem?_set_self hi]
  refine ⟨_, by simp only [List.set_set]; exact List.getElem?_set_self hi, ?_, fun k => ?_⟩
  · have : ∀ d' : Data n, (calcDiffA s.model d' r).2.a_value = d'.a_value := by
      intro d'; simp only [calcDiffA, hw]; split_ifs <;> rfl
    rw [this]
    simp only [calcA, hw]
    congr 1; refine Finset.sum_congr rfl fun k _ => by ring
  · have : ∀ d' : Data n, (calcDiffA s.model d' r).2.Ar = d'.v1 := by
      intro d'; simp only [calcDiffA, hw]; split_ifs <;> rfl
    rw [this]
    simp only [calcA, hw]

/-- C47 is false with two data objects (for example two nodes that share the activation): the first
`calcDiff` after a weight change clears the flag of the model, and the second data keeps the old Hessian. -/
theorem C47_stale_counterexample :
    ∃ d, (run (n := 1) (.weighted ![1])
        [.create, .create, .diff 0 ![1], .diff 1 ![1], .setWeights ![5], .diff 0 ![1], .diff 1 ![1]]).datas[1]?
        = some d ∧ d.Arr = ![1] :=
  ⟨_, rfl, by simp [run, step, calcDiffA, Model.ofAct, Model.setWeights, createData]⟩

/-- C47 for the weighted barrier: its Hessian is recomputed at each `calcDiff`, so it cannot be stale: it only
depends on the weights in force and on the last `calc`. -/
theorem C47_weightedBarrier (lb ub w v : Fin n → ℝ) (f : Bool) (d d' : Data n) (r : Fin n → ℝ) :
    let m := Model.setWeights ⟨.weightedBarrier lb ub w, f⟩ v
    (calcDiffA m (calcA m d r) r).2.Ar = (calcDiffA m (calcA m d' r) r).2.Ar ∧
    (∀ i, (calcDiffA m (calcA m d r) r).2.Arr i =
      if lb i < r i ∧ r i < ub i then 0 else v i) := by
  refine ⟨by simp [calcDiffA, calcA, Model.setWeights], fun i => ?_⟩
  simp only [calcDiffA, calcA, Model.setWeights, outside]
  by_cases h1 : lb i < r i
  · rw [if_neg (by linarith)]
    by_cases h2 : r i < ub i
    · rw [if_neg (by linarith), if_pos ⟨h1, h2⟩]; ring
    · rw [if_pos (by linarith), if_neg (fun h => h2 h.2)]; ring
  · rw [if_pos (by linarith), if_neg (fun h => h1 h.1)]; ring

/-- C46 for the quadratic activation, after any history of calls on any number of data: every data object
holds the constant Hessian, so the hypothesis `FreshArr` of `C46_relation` holds in every reachable state. -/
theorem C46_quadratic_history (ops : List (Op n)) :
    (run (.quad : Act n) ops).model.act = .quad ∧ ∀ d ∈ (run (.quad : Act n) ops).datas, d.Arr = fun _ => 1 := by
  unfold run
  induction ops using List.reverseRecOn with
  | nil => exact ⟨rfl, by simp⟩
  | append_singleton ops op ih =>
    rw [List.foldl_append, List.foldl_cons, List.foldl_nil]
    generalize ops.foldl step ⟨Model.ofAct (.quad : Act n), []⟩ = s at ih ⊢
    obtain ⟨h1, h2⟩ := ih
    cases op with
    | setWeights w => exact ⟨by simp only [step, Model.setWeights, h1], h2⟩
    | create =>
      refine ⟨h1, fun d hd => ?_⟩
      simp only [step, List.mem_append, List.mem_singleton] at hd
      rcases hd with hd | rfl
      · exact h2 d hd
      · simp [createData, h1]
    | eval i r =>
      dsimp only [step]
      cases hi : s.datas[i]? with
      | none => exact ⟨h1, h2⟩
      | some e =>
        refine ⟨h1, fun d hd => ?_⟩
        rcases List.mem_or_eq_of_mem_set hd with h | h
        · exact h2 d h
        · rw [h]; simp only [calcA, h1]; exact h2 e (List.mem_of_getElem? hi)
    | diff i r =>
      dsimp only [step]
      cases hi : s.datas[i]? with
      | none => exact ⟨h1, h2⟩
      | some e =>
        refine ⟨by simp only [calcDiffA, h1], fun d hd => ?_⟩
        rcases List.mem_or_eq_of_mem_set hd with h | h
        · exact h2 d h
        · rw [h]; simp only [calcDiffA, h1]; exact h2 e (List.mem_of_getElem? hi)

/-- A history with a data object. -/
example : ((run (.quad : Act 2) [.create, .eval 0 ![1, 2], .diff 0 ![1, 2]]).datas).length = 1 := rfl

end Verif.Activations
