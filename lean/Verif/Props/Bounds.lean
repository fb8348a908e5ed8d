import Verif.Model.Bounds
import Verif.Props.Activations
import Mathlib.Tactic.Ring
import Mathlib.Tactic.Linarith
import Mathlib.Tactic.FieldSimp
import Mathlib.Tactic.NormNum.Basic
import Mathlib.Tactic.NormNum.Ineq
import Mathlib.Algebra.Order.Field.Rat

/-!
# Property C48: barrier activations and their bounds

`Bounds.make` is the constructor of `ActivationBounds`; `none` is an exception.
-/

set_option linter.unusedSectionVars false

namespace Verif.Activations
variable {n : ℕ}

theorem half_sum_sq_zero (f : Fin n → ℝ) : 1 / 2 * ∑ i, f i ^ 2 = 0 ↔ ∀ i, f i = 0 := by
  constructor
  · intro h i
    have h0 : ∑ i, f i ^ 2 = 0 := by linarith
    have := (Finset.sum_eq_zero_iff_of_nonneg (fun i _ => sq_nonneg (f i))).mp h0 i (Finset.mem_univ i)
    exact pow_eq_zero_iff (two_ne_zero) |>.mp this
  · intro h; simp [h]

theorem distTo_zero (l u x : ℝ) : distTo l u x = 0 ↔ l ≤ x ∧ x ≤ u := by
  unfold distTo
  constructor
  · intro h
    have h1 : l - x ≤ 0 := by rw [← h]; exact le_max_of_le_left (le_max_left _ _)
    have h2 : x - u ≤ 0 := by rw [← h]; exact le_max_of_le_left (le_max_right _ _)
    exact ⟨by linarith, by linarith⟩
  · rintro ⟨h1, h2⟩
    exact max_eq_right (max_le (by linarith) (by linarith))

/-- C48: the barrier value is never negative and is zero exactly inside the bounds. -/
theorem C48_barrier_zero (lb ub : Fin n → ℝ) (hb : ∀ i, lb i ≤ ub i) (f : Bool) (d : Data n) (r : Fin n → ℝ) :
    0 ≤ (calcA ⟨.barrier lb ub, f⟩ d r).a_value ∧
    ((calcA ⟨.barrier lb ub, f⟩ d r).a_value = 0 ↔ ∀ i, lb i ≤ r i ∧ r i ≤ ub i) := by
  rw [C45_value ⟨.barrier lb ub, f⟩ hb d r]
  refine ⟨?_, ?_⟩
  · exact mul_nonneg (by norm_num) (Finset.sum_nonneg fun i _ => sq_nonneg _)
  · exact (half_sum_sq_zero _).trans (forall_congr' fun i => distTo_zero _ _ _)

/-- C48: the weighted barrier is never negative and is zero exactly when every component of nonzero weight is
inside its bounds. -/
theorem C48_weightedBarrier_zero (lb ub w : Fin n → ℝ) (hb : ∀ i, lb i ≤ ub i) (f : Bool) (d : Data n)
    (r : Fin n → ℝ) :
    0 ≤ (calcA ⟨.weightedBarrier lb ub w, f⟩ d r).a_value ∧
    ((calcA ⟨.weightedBarrier lb ub w, f⟩ d r).a_value = 0 ↔
      ∀ i, w i ≠ 0 → lb i ≤ r i ∧ r i ≤ ub i) := by
  rw [C45_value ⟨.weightedBarrier lb ub w, f⟩ hb d r]
  refine ⟨?_, ?_⟩
  · exact mul_nonneg (by norm_num) (Finset.sum_nonneg fun i _ => sq_nonneg _)
  · refine (half_sum_sq_zero _).trans (forall_congr' fun i => ?_)
    rw [mul_eq_zero, distTo_zero]; tauto

/-- The interval `[0, 1]²`: `(1, 0)` costs nothing, `(2, 0)` costs `1/2`. -/
example (d : Data 2) : (calcA (Model.ofAct (.barrier ![0, 0] ![1, 1])) d ![1, 0]).a_value = 0 ∧
    (calcA (Model.ofAct (.barrier ![0, 0] ![1, 1])) d ![2, 0]).a_value = 1 / 2 := by
  simp [calcA, Model.ofAct, sq, Fin.sum_univ_two]; norm_num

/-- C48: gradient of the barrier: zero at every point inside, pointing outward outside. -/
theorem C48_gradient_sign (lb ub : Fin n → ℝ) (hb : ∀ i, lb i ≤ ub i) (f : Bool) (d : Data n)
    (r : Fin n → ℝ) (i : Fin n) :
    let g := (calcDiffA ⟨.barrier lb ub, f⟩ (calcA ⟨.barrier lb ub, f⟩ d r) r).2.Ar i
    (lb i ≤ r i → r i ≤ ub i → g = 0) ∧ (r i < lb i → g = r i - lb i ∧ g < 0) ∧
      (ub i < r i → g = r i - ub i ∧ 0 < g) := by
  have hi := hb i
  simp only [calcDiffA, calcA]
  refine ⟨fun h1 h2 => ?_, fun h => ?_, fun h => ?_⟩
  · rw [min_eq_right (by linarith), max_eq_right (by linarith)]; ring
  · rw [min_eq_left (by linarith), max_eq_right (by linarith)]
    exact ⟨by ring, by linarith⟩
  · rw [min_eq_right (by linarith), max_eq_left (by linarith)]
    exact ⟨by ring, by linarith⟩

end Verif.Activations

namespace Verif.Bounds
open Verif
variable {K : Type} [Field K] [LinearOrder K] [IsStrictOrderedRing K]

/-- A finite lower bound exceeds a finite upper bound. -/
def Crossed (lower upper : List (Flt K)) : Prop :=
  ∃ (i : ℕ) (l u : K), lower[i]? = some (.fin l) ∧ upper[i]? = some (.fin u) ∧ u < l

theorem any_bad (lower upper : List (Flt K)) :
    (lower.zip upper).any badPair = true ↔ Crossed lower upper := by
  constructor
  · intro h
    obtain ⟨p, hp, hb⟩ := List.any_eq_true.mp h
    obtain ⟨i, hi⟩ := List.mem_iff_getElem?.mp hp
    rw [List.getElem?_zip_eq_some] at hi
    obtain ⟨x, y⟩ := p
    cases x <;> cases y <;> simp [badPair] at hb
    exact ⟨i, _, _, hi.1, hi.2, by linarith⟩
  · rintro ⟨i, l, u, h1, h2, h3⟩
    refine List.any_eq_true.mpr ⟨(.fin l, .fin u), ?_, by simp [badPair]; linarith⟩
    exact List.mem_iff_getElem?.mpr ⟨i, List.getElem?_zip_eq_some.mpr ⟨h1, h2⟩⟩

/-- C48: the constructor accepts exactly vectors of the same size, a `beta` that is not outside `[0, 1]`, and
no finite lower bound above the finite upper bound of its component. -/
theorem C48_accepts_iff (maxv : K) (lower upper : List (Flt K)) (beta : Flt K) :
    (make maxv lower upper beta).isSome ↔
      lower.length = upper.length ∧ (beta = .nan ∨ ∃ b, beta = .fin b ∧ 0 ≤ b ∧ b ≤ 1) ∧
        ¬ Crossed lower upper := by
  have hb : (beta.ltb (.fin 0) || (Flt.fin 1).ltb beta) = false ↔
      (beta = .nan ∨ ∃ b, beta = .fin b ∧ 0 ≤ b ∧ b ≤ 1) := by
    cases beta <;> simp [Flt.ltb]
  rw [← hb, ← any_bad]
  unfold make
  by_cases h1 : lower.length = upper.length
  · rw [if_neg (by simpa using h1)]
    by_cases h2 : (beta.ltb (.fin 0) || (Flt.fin 1).ltb beta) = true
    · rw [if_pos h2]; simp only [h2]; simp
    · rw [if_neg h2]
      by_cases h3 : (lower.zip upper).any badPair = true
      · rw [if_pos h3]; simp [h3]
      · rw [if_neg h3]
        simp only [Bool.not_eq_true] at h2
        cases beta <;> simp [h1, h2, h3]
  · rw [if_pos (by simpa using h1)]; simp [h1]

/-- The bounds of component `i` before shrinking: `±max` replaces a bound that is not finite. -/
def given (maxv : K) (lower upper : List (Flt K)) (i : ℕ) (l u : K) : Prop :=
  ∃ x y, lower[i]? = some x ∧ upper[i]? = some y ∧ l = finLb maxv x ∧ u = finUb maxv y

theorem make_some {maxv : K} {lower upper : List (Flt K)} {b : K} {B : Bounds K}
    (h : make maxv lower upper (.fin b) = some B) :
    lower.length = upper.length ∧ 0 ≤ b ∧ b ≤ 1 ∧ ¬ Crossed lower upper ∧
    B = ⟨(((lower.map (finLb maxv)).zip (upper.map (finUb maxv))).map (shrink maxv b)).map Prod.fst,
      (((lower.map (finLb maxv)).zip (upper.map (finUb maxv))).map (shrink maxv b)).map Prod.snd, b⟩ := by
  have ha := (C48_accepts_iff maxv lower upper (.fin b)).mp (by rw [h]; rfl)
  obtain ⟨h1, h2, h3⟩ := ha
  have hb : 0 ≤ b ∧ b ≤ 1 := by simpa using h2
  refine ⟨h1, hb.1, hb.2, h3, ?_⟩
  unfold make at h
  rw [if_neg (by simpa using h1), if_neg (by simp [Flt.ltb, hb.1, hb.2]),
    if_neg (by rw [any_bad]; exact h3)] at h
  simpa using h.symm

/-- C48: what the accepted bounds are. Sizes are those given; a component with two finite given bounds is
shrunk about its midpoint to `beta` times its width (so it stays ordered and inside the given interval); a
component with an infinite bound keeps its given bounds (infinite replaced by `±max`). -/
theorem C48_bounds (maxv : K) (lower upper : List (Flt K)) (b : K) (B : Bounds K)
    (h : make maxv lower upper (.fin b) = some B) :
    B.lb.length = lower.length ∧ B.ub.length = upper.length ∧ B.beta = b ∧
    ∀ (i : ℕ) x y, lower[i]? = some x → upper[i]? = some y →
      ∃ l' u', B.lb[i]? = some l' ∧ B.ub[i]? = some u' ∧
        (∀ l u, x = .fin l → y = .fin u → l ≠ -maxv → u ≠ maxv →
          l' + u' = l + u ∧ u' - l' = b * (u - l) ∧ l ≤ l' ∧ l' ≤ u' ∧ u' ≤ u) ∧
        ((∀ l, x ≠ .fin l) → l' = -maxv ∧ u' = finUb maxv y) ∧
        ((∀ u, y ≠ .fin u) → u' = maxv ∧ l' = finLb maxv x) := by
  obtain ⟨h1, hb0, hb1, h3, rfl⟩ := make_some h
  refine ⟨by simp [h1], by simp [h1], rfl, fun i x y hx hy => ?_⟩
  refine ⟨(shrink maxv b (finLb maxv x, finUb maxv y)).1, (shrink maxv b (finLb maxv x, finUb maxv y)).2,
    ?_, ?_, ?_, ?_, ?_⟩
  · simp only [List.getElem?_map, List.getElem?_zip_eq_some, Option.map_eq_some_iff]
    exact ⟨_, ⟨(finLb maxv x, finUb maxv y), ⟨⟨x, hx, rfl⟩, ⟨y, hy, rfl⟩⟩, rfl⟩, rfl⟩
  · simp only [List.getElem?_map, List.getElem?_zip_eq_some, Option.map_eq_some_iff]
    exact ⟨_, ⟨(finLb maxv x, finUb maxv y), ⟨⟨x, hx, rfl⟩, ⟨y, hy, rfl⟩⟩, rfl⟩, rfl⟩
  · rintro l u rfl rfl hl hu
    have hlu : l ≤ u := not_lt.mp fun hc => h3 ⟨i, l, u, hx, hy, hc⟩
    simp only [finLb, finUb, shrink, ne_eq, hl, hu, not_false_eq_true, and_self, if_true]
    have : 0 ≤ b * (u - l) := mul_nonneg hb0 (by linarith)
    have h5 : b * (u - l) ≤ 1 * (u - l) := mul_le_mul_of_nonneg_right hb1 (by linarith)
    have e : b * (1 / 2 * (u - l)) = 1 / 2 * (b * (u - l)) := by ring
    refine ⟨by ring, by rw [e]; ring, ?_, ?_, ?_⟩ <;> rw [e] <;> linarith
  · intro hx'
    cases x <;> simp_all [finLb, shrink]
  · intro hy'
    cases y <;> simp_all [finUb, shrink]

/-- C48: with `beta = 1` (the default) finite bounds are kept as given. -/
theorem C48_beta_one (maxv : K) (lower upper : List K) (B : Bounds K)
    (h : make maxv (lower.map .fin) (upper.map .fin) (.fin 1) = some B) :
    B.lb = lower ∧ B.ub = upper := by
  obtain ⟨h1, -, -, -, rfl⟩ := make_some h
  have hl : lower.length = upper.length := by simpa using h1
  have hs : shrink maxv (1 : K) = id := by
    funext ⟨p, q⟩
    simp only [shrink]; split_ifs
    · refine Prod.ext ?_ ?_ <;> simp only [id] <;> ring
    · rfl
  have hf : (fun x => finLb maxv (Flt.fin x)) = (id : K → K) := rfl
  have hg : (fun x => finUb maxv (Flt.fin x)) = (id : K → K) := rfl
  simp only [hs, List.map_id, List.map_map, Function.comp_def, hf, hg]
  constructor
  · exact List.map_fst_zip (by rw [hl])
  · exact List.map_snd_zip (by rw [hl])

/-- C48: copying keeps bounds and `beta`. -/
theorem C48_copy (b : Bounds K) : (copy b).lb = b.lb ∧ (copy b).ub = b.ub ∧ (copy b).beta = b.beta :=
  ⟨rfl, rfl, rfl⟩

/-- C48 (partial: missing is `beta < 1` with a component that is bounded on both sides, for which the claim is
false, `C48_cast_counterexample`). Casting an object built with `beta = 1` to a scalar type with the same values
yields the same bounds. -/
theorem C48_cast_partial (maxv : K) (lower upper : List K) (B : Bounds K)
    (h : make maxv (lower.map .fin) (upper.map .fin) (.fin 1) = some B) : castB maxv B = some B := by
  obtain ⟨hl, hu⟩ := C48_beta_one maxv lower upper B h
  have hb : B.beta = 1 := (C48_bounds maxv _ _ _ B h).2.2.1
  unfold castB
  rw [hl, hu, hb, h]

/-- C48: a cast bound is always accepted, whatever `beta` was, and is nested in the bounds it is made from. -/
theorem C48_cast_nested (maxv : K) (B : Bounds K) (h0 : 0 ≤ B.beta) (h1 : B.beta ≤ 1)
    (hlen : B.lb.length = B.ub.length)
    (ho : ∀ (i : ℕ) (l u : K), B.lb[i]? = some l → B.ub[i]? = some u → l ≤ u) :
    ∃ B', castB maxv B = some B' ∧
      ∀ (i : ℕ) (l u : K), B.lb[i]? = some l → B.ub[i]? = some u →
        ∃ l' u', B'.lb[i]? = some l' ∧ B'.ub[i]? = some u' ∧ l ≤ l' ∧ l' ≤ u' ∧ u' ≤ u := by
  have hs : (castB maxv B).isSome := by
    refine (C48_accepts_iff _ _ _ _).mpr ⟨by simpa using hlen, Or.inr ⟨_, rfl, h0, h1⟩, ?_⟩
    rintro ⟨i, l, u, hl, hu, hlt⟩
    simp only [List.getElem?_map, Option.map_eq_some_iff] at hl hu
    obtain ⟨a, ha, ea⟩ := hl
    obtain ⟨c, hc, ec⟩ := hu
    injection ea with ea; injection ec with ec
    subst ea; subst ec
    exact absurd hlt (not_lt.mpr (ho i _ _ ha hc))
  obtain ⟨B', hB'⟩ := Option.isSome_iff_exists.mp hs
  refine ⟨B', hB', fun i l u hl hu => ?_⟩
  obtain ⟨_, _, _, hi⟩ := C48_bounds maxv _ _ _ B' hB'
  obtain ⟨-, -, -, -, hE⟩ := make_some hB'
  have hlu := ho i l u hl hu
  by_cases hm : l ≠ -maxv ∧ u ≠ maxv
  · obtain ⟨l', u', e1, e2, h3, -, -⟩ := hi i (.fin l) (.fin u) (by simp [hl]) (by simp [hu])
    have := h3 l u rfl rfl hm.1 hm.2
    exact ⟨l', u', e1, e2, this.2.2.1, this.2.2.2.1, this.2.2.2.2⟩
  · refine ⟨l, u, ?_, ?_, le_refl _, hlu, le_refl _⟩
    · rw [hE]
      simp only [List.getElem?_map, Option.map_eq_some_iff]
      refine ⟨(l, u), ⟨(l, u), List.getElem?_zip_eq_some.mpr ⟨by simp [hl, finLb], by simp [hu, finUb]⟩, ?_⟩, rfl⟩
      simp only [shrink]; rw [if_neg hm]
    · rw [hE]
      simp only [List.getElem?_map, Option.map_eq_some_iff]
      refine ⟨(l, u), ⟨(l, u), List.getElem?_zip_eq_some.mpr ⟨by simp [hl, finLb], by simp [hu, finUb]⟩, ?_⟩, rfl⟩
      simp only [shrink]; rw [if_neg hm]

/-- C48: casting is not the identity in general: `[-1, 1]` with `beta = 1/2` stores `[-1/2, 1/2]`; after the cast
the bounds are `[-1/4, 1/4]`. -/
theorem C48_cast_counterexample :
    make (K := ℚ) 1000 [.fin (-1)] [.fin 1] (.fin (1 / 2)) = some ⟨[-1 / 2], [1 / 2], 1 / 2⟩ ∧
    castB (K := ℚ) 1000 ⟨[-1 / 2], [1 / 2], 1 / 2⟩ = some ⟨[-1 / 4], [1 / 4], 1 / 2⟩ := by
  decide +kernel

/-- C48: a lower bound `+∞` is silently turned into "no bound": the accepted interval is not the one given. -/
theorem C48_infinite_counterexample :
    make (K := ℚ) 1000 [.pinf] [.fin 1] (.fin 1) = some ⟨[-1000], [1], 1⟩ := by decide +kernel

/-- The constructor accepts the two-component case with one free side. -/
example : make (K := ℚ) 1000 [.fin (-1), .ninf] [.fin 3, .fin 2] (.fin (1 / 2)) =
    some ⟨[0, -1000], [2, 2], 1 / 2⟩ := by decide +kernel

end Verif.Bounds
