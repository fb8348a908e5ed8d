import Verif.Spec.ResidualCost
import Verif.Spec.Deriv
import Verif.Lemmas.Deriv
import Mathlib.Algebra.Order.BigOperators.Group.Finset
import Mathlib.Algebra.Order.Ring.Defs
import Mathlib.LinearAlgebra.Matrix.Notation
import Mathlib.Tactic.Ring
import Mathlib.Tactic.Linarith
import Mathlib.Tactic.Positivity
import Mathlib.Tactic.FinCases

/-!
# C52: residual costs have the Gauss-Newton derivatives
-/

set_option linter.unusedSectionVars false
set_option linter.unusedSimpArgs false

namespace Verif.ResidualCost

open Matrix Spec

variable {X K : Type} [Field K] {ndx nu nr : ℕ}

theorem gnLx_apply (Rx : Matrix (Fin nr) (Fin ndx) K) (Ar : Fin nr → K) (i : Fin ndx) :
    gnLx Rx Ar i = ∑ k, Rx k i * Ar k := rfl

theorem gn_apply {a b : ℕ} (R : Matrix (Fin nr) (Fin a) K) (Arr : Fin nr → K) (S : Matrix (Fin nr) (Fin b) K)
    (i : Fin a) (j : Fin b) : gn R Arr S i j = ∑ k, R k i * (Arr k * S k j) := by
  rw [gn, Matrix.mul_apply]
  simp only [Matrix.mul_diagonal, Matrix.transpose_apply, mul_assoc]

/-- Selected entries: those the branches of `calcCostDiff` write. -/
def sel (R : Residual X K ndx nu nr) (i : Fin ndx) : Bool :=
  if R.q && R.v then true else if R.q then inLeft R.nv i else if R.v then inRight R.nv i else false

/-- What every reachable data satisfies: entries never written are zero. -/
structure Inv (R : Residual X K ndx nu nr) (d : Data K ndx nu nr) : Prop where
  lx : ∀ i, sel R i = false → d.Lx i = 0
  lxx : ∀ i j, (sel R i && sel R j) = false → d.Lxx i j = 0
  lxu : ∀ i j, (sel R i && R.u) = false → d.Lxu i j = 0
  lu : R.u = false → d.Lu = 0
  luu : R.u = false → d.Luu = 0

theorem costDiff_eq (R : Residual X K ndx nu nr) (up : Bool) (d : Data K ndx nu nr) :
    let isRu := R.u && decide (nu ≠ 0) && up
    let e := costDiff R up d
    (∀ i, e.Lx i = if sel R i then ∑ k, d.Rx k i * d.Ar k else d.Lx i) ∧
    (∀ i j, e.Lxx i j = if sel R i && sel R j then ∑ k, d.Rx k i * (d.Arr k * d.Rx k j) else d.Lxx i j) ∧
    (∀ i j, e.Lxu i j = if isRu && sel R i then ∑ k, d.Rx k i * (d.Arr k * d.Ru k j) else d.Lxu i j) ∧
    (∀ j, e.Lu j = if isRu then ∑ k, d.Ru k j * d.Ar k else d.Lu j) ∧
    (∀ i j, e.Luu i j = if isRu then ∑ k, d.Ru k i * (d.Arr k * d.Ru k j) else d.Luu i j) := by
  intro isRu e
  have hw : ∀ (s : Fin ndx → Bool) (b : Bool) (d : Data K ndx nu nr) (i j : Fin ndx),
      (writeX s b d).Lxx i j = if s i && s j then ∑ k, d.Rx k i * (d.Arr k * d.Rx k j) else d.Lxx i j := by
    intro s b d i j
    simp only [writeX]
    by_cases h : (s i && s j) = true
    · rw [if_pos h, if_pos h]
      simp only [Bool.and_eq_true] at h
      simp only [h.2, if_true]
    · rw [if_neg h, if_neg h]
  cases hru : isRu <;> cases hq : R.q <;> cases hv : R.v <;>
    simp only [e, isRu, costDiff, sel, hru, hq, hv, hw, Bool.and_true, Bool.and_false, Bool.true_and,
      Bool.false_and, Bool.false_eq_true, if_true, if_false] <;>
    refine ⟨fun i => ?_, fun i j => ?_, fun i j => ?_, fun j => ?_, fun i j => ?_⟩ <;>
    simp only [isRu] at hru <;> simp [writeX, hru]

theorem inv_create (R : Residual X K ndx nu nr) : Inv R (create : Data K ndx nu nr) :=
  ⟨fun _ _ => rfl, fun _ _ _ => rfl, fun _ _ _ => rfl, fun _ => rfl, fun _ => rfl⟩

theorem inv_costDiff (R : Residual X K ndx nu nr) (up : Bool) (d : Data K ndx nu nr) (h : Inv R d) :
    Inv R (costDiff R up d) := by
  obtain ⟨e1, e2, e3, e4, e5⟩ := costDiff_eq R up d
  refine ⟨fun i hi => ?_, fun i j hij => ?_, fun i j hij => ?_, fun hu => ?_, fun hu => ?_⟩
  · rw [e1, hi]; simpa using h.lx i hi
  · rw [e2, hij]; simpa using h.lxx i j hij
  · rw [e3, if_neg, h.lxu i j hij]
    intro hc
    simp only [Bool.and_eq_true, Bool.and_eq_false_iff] at hc hij
    rcases hij with hij | hij
    · rw [hij] at hc; exact absurd hc.2 (by simp)
    · rw [hij] at hc; exact absurd hc.1.1.1 (by simp)
  · funext j; rw [e4]; simp [hu, h.lu hu]
  · ext i j; rw [e5]; simp [hu, h.luu hu]

theorem inv_step (R : Residual X K ndx nu nr) (A : Activation K nr) (d : Data K ndx nu nr) (op : Op X K nu)
    (h : Inv R d) : Inv R (step R A (costDiff R) d op) := by
  cases op with
  | calcXU x u => exact ⟨h.lx, h.lxx, h.lxu, h.lu, h.luu⟩
  | calcX x =>
    simp only [step, calcX]
    split_ifs
    · exact ⟨h.lx, h.lxx, h.lxu, h.lu, h.luu⟩
    · exact ⟨h.lx, h.lxx, h.lxu, h.lu, h.luu⟩
  | diffXU x u => exact inv_costDiff R true _ ⟨h.lx, h.lxx, h.lxu, h.lu, h.luu⟩
  | diffX x =>
    simp only [step, diffX]
    split_ifs
    · exact ⟨fun _ _ => rfl, fun _ _ _ => rfl, h.lxu, h.lu, h.luu⟩
    · exact inv_costDiff R false _ ⟨h.lx, h.lxx, h.lxu, h.lu, h.luu⟩

theorem inv_foldl (R : Residual X K ndx nu nr) (A : Activation K nr) (ops : List (Op X K nu)) (d : Data K ndx nu nr)
    (h : Inv R d) : Inv R (ops.foldl (step R A (costDiff R)) d) := by
  induction ops generalizing d with
  | nil => exact h
  | cons op ops ih => exact ih _ (inv_step R A d op h)

theorem not_sel_col (R : Residual X K ndx nu nr) (Rx : Matrix (Fin nr) (Fin ndx) K) (Ru : Matrix (Fin nr) (Fin nu) K)
    (hc : Consistent R Rx Ru) (i : Fin ndx) (hi : sel R i = false) (k : Fin nr) : Rx k i = 0 := by
  obtain ⟨h1, h2, h3, -⟩ := hc
  cases hq : R.q <;> cases hv : R.v <;> simp [sel, hq, hv] at hi
  · rw [h3 hq hv]; rfl
  · simp only [inRight, decide_eq_false_iff_not, not_le] at hi
    exact h2 hq hv k i hi
  · simp only [inLeft, decide_eq_false_iff_not, not_lt] at hi
    exact h1 hq hv k i hi

/-- **C52.** After any history of calls on a cost made of a residual and an activation, `calcDiff(data, x, u)`
leaves the Gauss-Newton derivatives: `Lx = Rxᵀ Ar`, `Lu = Ruᵀ Ar`, `Lxx = Rxᵀ Arr Rx`, `Lxu = Rxᵀ Arr Ru`,
`Luu = Ruᵀ Arr Ru`, with the Jacobians of the residual at `(x, u)` and the activation derivatives at the stored
residual. For all dimensions and all declared dependencies that the Jacobians respect. -/
theorem C52_gauss_newton (R : Residual X K ndx nu nr) (A : Activation K nr) (ops : List (Op X K nu))
    (x : X) (u : Fin nu → K) (hc : Consistent R (R.diff x u).1 (R.diff x u).2) :
    let d := run R A (costDiff R) ops
    let e := run R A (costDiff R) (ops ++ [.diffXU x u])
    e.Lx = gnLx (R.diff x u).1 (A.grad d.r) ∧ e.Lu = gnLx (R.diff x u).2 (A.grad d.r) ∧
    e.Lxx = gn (R.diff x u).1 (A.hess d.r) (R.diff x u).1 ∧
    e.Lxu = gn (R.diff x u).1 (A.hess d.r) (R.diff x u).2 ∧
    e.Luu = gn (R.diff x u).2 (A.hess d.r) (R.diff x u).2 := by
  intro d e
  have hinv : Inv R d := inv_foldl R A ops _ (inv_create R)
  have he : e = costDiff R true
      { d with Rx := (R.diff x u).1, Ru := (R.diff x u).2, Ar := A.grad d.r, Arr := A.hess d.r } := by
    simp only [e, d, run, List.foldl_append]; rfl
  obtain ⟨e1, e2, e3, e4, e5⟩ := costDiff_eq R true
      { d with Rx := (R.diff x u).1, Ru := (R.diff x u).2, Ar := A.grad d.r, Arr := A.hess d.r }
  rw [← he] at e1 e2 e3 e4 e5
  simp only at e1 e2 e3 e4 e5
  have hcol := not_sel_col R _ _ hc
  have hu0 : ∀ (hn : (R.u && decide (nu ≠ 0) && true) = false) k j, (R.diff x u).2 k j = 0 := by
    intro hn k j
    simp only [Bool.and_true, Bool.and_eq_false_iff, decide_eq_false_iff_not, not_not] at hn
    rcases hn with hn | hn
    · rw [hc.2.2.2 hn]; rfl
    · subst hn; exact j.elim0
  have huz : ∀ (hn : (R.u && decide (nu ≠ 0) && true) = false), R.u = false ∨ nu = 0 := by
    intro hn
    simpa only [Bool.and_true, Bool.and_eq_false_iff, decide_eq_false_iff_not, not_not] using hn
  refine ⟨?_, ?_, ?_, ?_, ?_⟩
  · funext i; rw [e1, gnLx_apply]
    by_cases hs : sel R i = true
    · rw [if_pos hs]
    · rw [if_neg hs, hinv.lx i (by simpa using hs)]
      exact (Finset.sum_eq_zero fun k _ => by rw [hcol i (by simpa using hs) k, zero_mul]).symm
  · funext j; rw [e4, gnLx_apply]
    by_cases hs : (R.u && decide (nu ≠ 0) && true) = true
    · rw [if_pos hs]
    · have hs' : (R.u && decide (nu ≠ 0) && true) = false := by simpa using hs
      rw [if_neg hs]
      rw [Finset.sum_eq_zero fun k _ => by rw [hu0 hs' k j, zero_mul]]
      rcases huz hs' with h | h
      · rw [hinv.lu h]; rfl
      · subst h; exact j.elim0
  · ext i j; rw [e2, gn_apply]
    by_cases hs : (sel R i && sel R j) = true
    · rw [if_pos hs]
    · have hs' : (sel R i && sel R j) = false := by simpa using hs
      rw [if_neg hs, hinv.lxx i j hs']
      refine (Finset.sum_eq_zero fun k _ => ?_).symm
      rcases Bool.and_eq_false_iff.mp hs' with h | h
      · rw [hcol i h k, zero_mul]
      · rw [hcol j h k, mul_zero, mul_zero]
  · ext i j; rw [e3, gn_apply]
    by_cases hs : (R.u && decide (nu ≠ 0) && true && sel R i) = true
    · rw [if_pos hs]
    · have hs' : (R.u && decide (nu ≠ 0) && true && sel R i) = false := by simpa using hs
      rw [if_neg hs]
      rcases Bool.and_eq_false_iff.mp hs' with h | h
      · rw [Finset.sum_eq_zero fun k _ => by rw [hu0 h k j, mul_zero, mul_zero]]
        rcases huz h with h | h
        · exact hinv.lxu i j (by simp [h])
        · subst h; exact j.elim0
      · rw [hinv.lxu i j (by simp [h])]
        exact (Finset.sum_eq_zero fun k _ => by rw [hcol i h k, zero_mul]).symm
  · ext i j; rw [e5, gn_apply]
    by_cases hs : (R.u && decide (nu ≠ 0) && true) = true
    · rw [if_pos hs]
    · have hs' : (R.u && decide (nu ≠ 0) && true) = false := by simpa using hs
      rw [if_neg hs]
      rw [Finset.sum_eq_zero fun k _ => by rw [hu0 hs' k i, zero_mul]]
      rcases huz hs' with h | h
      · rw [hinv.luu h]; rfl
      · subst h; exact j.elim0

/-- **C52**, terminal node: `calcDiff(data, x)` leaves `Lx = Rxᵀ Ar` and `Lxx = Rxᵀ Arr Rx`. -/
theorem C52_gauss_newton_terminal (R : Residual X K ndx nu nr) (A : Activation K nr) (ops : List (Op X K nu))
    (x : X) (hc : Consistent R (R.diffT x).1 (R.diffT x).2) :
    let d := run R A (costDiff R) ops
    let e := run R A (costDiff R) (ops ++ [.diffX x])
    e.Lx = gnLx (R.diffT x).1 (A.grad d.r) ∧ e.Lxx = gn (R.diffT x).1 (A.hess d.r) (R.diffT x).1 := by
  intro d e
  have hinv : Inv R d := inv_foldl R A ops _ (inv_create R)
  have hcol := not_sel_col R _ _ hc
  have he : e = diffX R A (costDiff R) d x := by
    simp only [e, d, run, List.foldl_append]; rfl
  by_cases hqv : (!R.q && !R.v) = true
  · rw [diffX, if_pos hqv] at he
    simp only [Bool.and_eq_true, Bool.not_eq_true'] at hqv
    have hz := hc.2.2.1 hqv.1 hqv.2
    constructor
    · rw [he]; funext i; rw [gnLx_apply, hz]; simp
    · rw [he]; ext i j; rw [gn_apply, hz]; simp
  · rw [diffX, if_neg hqv] at he
    obtain ⟨e1, e2, -, -, -⟩ := costDiff_eq R false
      { d with Rx := (R.diffT x).1, Ru := (R.diffT x).2, Ar := A.grad d.r, Arr := A.hess d.r }
    rw [← he] at e1 e2
    simp only at e1 e2
    constructor
    · funext i; rw [e1, gnLx_apply]
      by_cases hs : sel R i = true
      · rw [if_pos hs]
      · rw [if_neg hs, hinv.lx i (by simpa using hs)]
        exact (Finset.sum_eq_zero fun k _ => by rw [hcol i (by simpa using hs) k, zero_mul]).symm
    · ext i j; rw [e2, gn_apply]
      by_cases hs : (sel R i && sel R j) = true
      · rw [if_pos hs]
      · have hs' : (sel R i && sel R j) = false := by simpa using hs
        rw [if_neg hs, hinv.lxx i j hs']
        refine (Finset.sum_eq_zero fun k _ => ?_).symm
        rcases Bool.and_eq_false_iff.mp hs' with h | h
        · rw [hcol i h k, zero_mul]
        · rw [hcol j h k, mul_zero, mul_zero]

/-- The value: after `calc(data, x, u)` the cost is the activation of the residual, whatever happened before. -/
theorem C52_value (R : Residual X K ndx nu nr) (A : Activation K nr)
    (cd : Bool → Data K ndx nu nr → Data K ndx nu nr) (ops : List (Op X K nu)) (x : X) (u : Fin nu → K) :
    (run R A cd (ops ++ [.calcXU x u])).cost = A.val (R.res x u) := by
  simp [run, step, calcXU]

/-- The terminal value: after `calc(data, x)` the cost is the activation of the terminal residual when the
residual depends on the state, and zero otherwise, whatever happened before. -/
theorem C52_value_terminal (R : Residual X K ndx nu nr) (A : Activation K nr)
    (cd : Bool → Data K ndx nu nr → Data K ndx nu nr) (ops : List (Op X K nu)) (x : X) :
    (run R A cd (ops ++ [.calcX x])).cost = if R.q = true ∨ R.v = true then A.val (R.resT x) else 0 := by
  cases hq : R.q <;> cases hv : R.v <;> simp [run, step, calcX, hq, hv]

/-- The gradients are the derivatives of the cost: for a differentiable residual and activation over the reals,
`calc` then `calcDiff` at `(x, u)`, after any history, gives the gradient of `(x, u) ↦ a(r(x, u))`. -/
theorem C52_gradient (R : Residual (Fin ndx → ℝ) ℝ ndx nu nr) (A : Activation ℝ nr)
    (ops : List (Op (Fin ndx → ℝ) ℝ nu)) (x : Fin ndx → ℝ) (u : Fin nu → ℝ)
    (hc : Consistent R (R.diff x u).1 (R.diff x u).2)
    (hR : Deriv.HasJac R.res (R.diff x u).1 (R.diff x u).2 x u)
    (hA : Deriv.HasGrad1 A.val (A.grad (R.res x u)) (R.res x u)) :
    let e := run R A (costDiff R) (ops ++ [.calcXU x u, .diffXU x u])
    e.cost = A.val (R.res x u) ∧
    Deriv.HasGrad (fun y v => A.val (R.res y v)) e.Lx e.Lu x u := by
  intro e
  have H := C52_gauss_newton R A (ops ++ [.calcXU x u]) x u hc
  have hr : (run R A (costDiff R) (ops ++ [.calcXU x u])).r = R.res x u := by simp [run, step, calcXU]
  have hl : ops ++ [Op.calcXU x u] ++ [.diffXU x u] = ops ++ [.calcXU x u, .diffXU x u] := by simp
  simp only [hr, hl] at H
  obtain ⟨h1, h2, -⟩ := H
  constructor
  · show e.cost = _
    have : e = diffXU R A (costDiff R) (calcXU R A (ops.foldl (step R A (costDiff R)) create) x u) x u := by
      simp only [e, run, List.foldl_append]; rfl
    rw [this]
    have hcost : ∀ up (d : Data ℝ ndx nu nr), (costDiff R up d).cost = d.cost := by
      intro up d
      simp only [costDiff, writeX]
      split_ifs <;> rfl
    rw [diffXU, hcost]; rfl
  · rw [h1, h2]
    have hj : HasFDerivAt (fun p : (Fin ndx → ℝ) × (Fin nu → ℝ) => R.res p.1 p.2)
        (ContinuousLinearMap.pi fun k =>
          (Deriv.form ((R.diff x u).1 k)).comp (ContinuousLinearMap.fst ℝ (Fin ndx → ℝ) (Fin nu → ℝ))
          + (Deriv.form ((R.diff x u).2 k)).comp (ContinuousLinearMap.snd ℝ (Fin ndx → ℝ) (Fin nu → ℝ))) (x, u) :=
      hasFDerivAt_pi.mpr fun k => hR k
    have := HasFDerivAt.comp (x, u) (show HasFDerivAt A.val _ (R.res (x, u).1 (x, u).2) from hA) hj
    refine HasFDerivAt.congr_fderiv this ?_
    have swap : ∀ {k : ℕ} (M : Matrix (Fin nr) (Fin k) ℝ) (a : Fin nr → ℝ) (h : Fin k → ℝ),
        ∑ i, a i * ∑ j, M i j * h j = ∑ j, gnLx M a j * h j := by
      intro k M a h
      simp only [gnLx_apply, Finset.mul_sum, Finset.sum_mul]
      rw [Finset.sum_comm]
      exact Finset.sum_congr rfl fun _ _ => Finset.sum_congr rfl fun _ _ => by ring
    ext p
    · simp only [ContinuousLinearMap.comp_apply, _root_.add_apply, ContinuousLinearMap.inl_apply,
        Deriv.form_apply, ContinuousLinearMap.coe_pi', ContinuousLinearMap.coe_fst', ContinuousLinearMap.coe_snd',
        Pi.zero_apply, mul_zero, Finset.sum_const_zero, add_zero]
      exact swap _ _ _
    · simp only [ContinuousLinearMap.comp_apply, _root_.add_apply, ContinuousLinearMap.inr_apply,
        Deriv.form_apply, ContinuousLinearMap.coe_pi', ContinuousLinearMap.coe_fst', ContinuousLinearMap.coe_snd',
        Pi.zero_apply, mul_zero, Finset.sum_const_zero, zero_add]
      exact swap _ _ _

/-- The Gauss-Newton Hessian of a convex activation is positive semidefinite as a quadratic form in `(dx, du)`. -/
theorem C52_psd [LinearOrder K] [IsStrictOrderedRing K] (R : Residual X K ndx nu nr) (A : Activation K nr)
    (ops : List (Op X K nu)) (x : X) (u : Fin nu → K) (hc : Consistent R (R.diff x u).1 (R.diff x u).2)
    (hA : ∀ k, 0 ≤ A.hess (run R A (costDiff R) ops).r k) (dx : Fin ndx → K) (du : Fin nu → K) :
    let e := run R A (costDiff R) (ops ++ [.diffXU x u])
    0 ≤ dx ⬝ᵥ e.Lxx *ᵥ dx + 2 * (dx ⬝ᵥ e.Lxu *ᵥ du) + du ⬝ᵥ e.Luu *ᵥ du := by
  intro e
  obtain ⟨-, -, h3, h4, h5⟩ := C52_gauss_newton R A ops x u hc
  rw [show e.Lxx = _ from h3, show e.Lxu = _ from h4, show e.Luu = _ from h5]
  generalize (R.diff x u).1 = Rx
  generalize (R.diff x u).2 = Ru
  generalize A.hess (run R A (costDiff R) ops).r = H at hA
  have q : ∀ {a b : ℕ} (P : Matrix (Fin nr) (Fin a) K) (S : Matrix (Fin nr) (Fin b) K) (y : Fin a → K)
      (z : Fin b → K), y ⬝ᵥ gn P H S *ᵥ z = ∑ k, H k * ((P *ᵥ y) k * (S *ᵥ z) k) := by
    intro a b P S y z
    rw [gn, ← Matrix.mulVec_mulVec, ← Matrix.mulVec_mulVec, Matrix.dotProduct_mulVec, Matrix.vecMul_transpose]
    simp only [dotProduct, Matrix.mulVec_diagonal]
    exact Finset.sum_congr rfl fun _ _ => by ring
  rw [q, q, q, Finset.mul_sum, ← Finset.sum_add_distrib, ← Finset.sum_add_distrib]
  refine Finset.sum_nonneg fun k _ => ?_
  have : H k * ((Rx *ᵥ dx) k * (Rx *ᵥ dx) k) + 2 * (H k * ((Rx *ᵥ dx) k * (Ru *ᵥ du) k))
      + H k * ((Ru *ᵥ du) k * (Ru *ᵥ du) k) = H k * (((Rx *ᵥ dx) k + (Ru *ᵥ du) k) ^ 2) := by ring
  rw [this]
  exact mul_nonneg (hA k) (sq_nonneg _)

/-! ### Overrides of `calcCostDiff` -/

/-- `ResidualModelControl`: with `Ru = I` (set at creation) the shortcut is the Gauss-Newton result. -/
theorem C52_control (up : Bool) (d : Data K ndx nu nu) (hRu : d.Ru = 1) :
    (costDiffControl up d).Lu = gnLx d.Ru d.Ar ∧ (costDiffControl up d).Luu = gn d.Ru d.Arr d.Ru := by
  rw [hRu]
  simp [costDiffControl, gnLx, gn]

/-- `ResidualModelState` on a vector state: with `Rx = I` and off-diagonal entries of `Lxx` zero, the shortcut is
the Gauss-Newton result. -/
theorem C52_state_vector (up : Bool) (d : Data K ndx nu ndx) (hRx : d.Rx = 1)
    (hL : ∀ i j, i ≠ j → d.Lxx i j = 0) :
    (costDiffStateVector up d).Lx = gnLx d.Rx d.Ar ∧
    (costDiffStateVector up d).Lxx = gn d.Rx d.Arr d.Rx ∧
    ∀ i j, i ≠ j → (costDiffStateVector up d).Lxx i j = 0 := by
  rw [hRx]
  refine ⟨by simp [costDiffStateVector, gnLx], ?_, ?_⟩
  · ext i j
    simp only [costDiffStateVector, gn, Matrix.transpose_one, Matrix.one_mul, Matrix.mul_one, Matrix.diagonal_apply]
    split_ifs with h
    · rfl
    · exact hL i j h
  · intro i j hij
    simp only [costDiffStateVector, if_neg hij]
    exact hL i j hij

theorem foldl_inv {S O : Type} (st : S → O → S) (P : S → Prop) (h : ∀ s o, P s → P (st s o)) (l : List O) (s : S)
    (hs : P s) : P (l.foldl st s) := by
  induction l generalizing s with
  | nil => exact hs
  | cons o l ih => exact ih _ (h s o hs)

/-- A cost on the control residual, after any history: all five blocks are the Gauss-Newton ones (`Rx = 0`,
`Ru = I`). -/
theorem C52_control_history (R : Residual X K ndx nu nu) (hq : R.q = false) (hv : R.v = false)
    (hR : ∀ x u, R.diff x u = (0, 1)) (A : Activation K nu) (ops : List (Op X K nu)) (x : X) (u : Fin nu → K) :
    let d := run R A costDiffControl ops
    let e := run R A costDiffControl (ops ++ [.diffXU x u])
    e.Lx = gnLx (0 : Matrix (Fin nu) (Fin ndx) K) (A.grad d.r) ∧ e.Lu = gnLx 1 (A.grad d.r) ∧
    e.Lxx = gn (0 : Matrix (Fin nu) (Fin ndx) K) (A.hess d.r) 0 ∧
    e.Lxu = gn (0 : Matrix (Fin nu) (Fin ndx) K) (A.hess d.r) 1 ∧
    e.Luu = gn 1 (A.hess d.r) 1 := by
  intro d e
  let P : Data K ndx nu nu → Prop := fun d => d.Lx = 0 ∧ d.Lxx = 0 ∧ d.Lxu = 0
  have hP : ∀ s o, P s → P (step R A costDiffControl s o) := by
    rintro s (⟨x, u⟩ | x | ⟨x, u⟩ | x) ⟨h1, h2, h3⟩
    · exact ⟨h1, h2, h3⟩
    · simp only [step, calcX, hq, hv]; exact ⟨h1, h2, h3⟩
    · exact ⟨h1, h2, h3⟩
    · simp only [step, diffX, hq, hv]; exact ⟨rfl, rfl, h3⟩
  obtain ⟨h1, h2, h3⟩ := foldl_inv _ P hP (ops ++ [.diffXU x u]) create ⟨rfl, rfl, rfl⟩
  have he : e = costDiffControl true
      { d with Rx := (R.diff x u).1, Ru := (R.diff x u).2, Ar := A.grad d.r, Arr := A.hess d.r } := by
    simp only [e, d, run, List.foldl_append]; rfl
  obtain ⟨k1, k2⟩ := C52_control true
    { d with Rx := (R.diff x u).1, Ru := (R.diff x u).2, Ar := A.grad d.r, Arr := A.hess d.r } (by rw [hR])
  rw [← he] at k1 k2
  simp only [hR] at k1 k2
  exact ⟨by rw [show e.Lx = 0 from h1]; simp [gnLx], k1, by rw [show e.Lxx = 0 from h2]; simp [gn],
    by rw [show e.Lxu = 0 from h3]; simp [gn], k2⟩

/-- A cost on the state residual of a vector state, after any history: all five blocks are the Gauss-Newton ones
(`Rx = I`, `Ru = 0`). -/
theorem C52_state_vector_history (R : Residual X K ndx nu ndx) (hq : R.q = true)
    (hR : ∀ x u, R.diff x u = (1, 0)) (hRT : ∀ x, R.diffT x = (1, 0)) (A : Activation K ndx) (ops : List (Op X K nu))
    (x : X) (u : Fin nu → K) :
    let d := run R A costDiffStateVector ops
    let e := run R A costDiffStateVector (ops ++ [.diffXU x u])
    let t := run R A costDiffStateVector (ops ++ [.diffX x])
    (e.Lx = gnLx 1 (A.grad d.r) ∧ e.Lu = gnLx (0 : Matrix (Fin ndx) (Fin nu) K) (A.grad d.r) ∧
      e.Lxx = gn 1 (A.hess d.r) 1 ∧ e.Lxu = gn 1 (A.hess d.r) (0 : Matrix (Fin ndx) (Fin nu) K) ∧
      e.Luu = gn (0 : Matrix (Fin ndx) (Fin nu) K) (A.hess d.r) 0) ∧
    t.Lx = gnLx 1 (A.grad d.r) ∧ t.Lxx = gn 1 (A.hess d.r) 1 := by
  intro d e t
  let P : Data K ndx nu ndx → Prop := fun d =>
    (∀ i j, i ≠ j → d.Lxx i j = 0) ∧ d.Lu = 0 ∧ d.Luu = 0 ∧ d.Lxu = 0
  have hP : ∀ s o, P s → P (step R A costDiffStateVector s o) := by
    rintro s (⟨x, u⟩ | x | ⟨x, u⟩ | x) ⟨h1, h2, h3, h4⟩
    · exact ⟨h1, h2, h3, h4⟩
    · simp only [step, calcX, hq]; exact ⟨h1, h2, h3, h4⟩
    · refine ⟨fun i j hij => ?_, h2, h3, h4⟩
      show (if i = j then _ else s.Lxx i j) = 0
      rw [if_neg hij]; exact h1 i j hij
    · have hd : step R A costDiffStateVector s (.diffX x) = costDiffStateVector false
          { s with Rx := (R.diffT x).1, Ru := (R.diffT x).2, Ar := A.grad s.r, Arr := A.hess s.r } := by
        simp only [step, diffX, hq]; rfl
      rw [hd]
      refine ⟨fun i j hij => ?_, h2, h3, h4⟩
      show (if i = j then _ else s.Lxx i j) = 0
      rw [if_neg hij]; exact h1 i j hij
  obtain ⟨h1, -, -, -⟩ := foldl_inv _ P hP ops create ⟨fun _ _ _ => rfl, rfl, rfl, rfl⟩
  obtain ⟨-, h2, h3, h4⟩ := foldl_inv _ P hP (ops ++ [.diffXU x u]) create ⟨fun _ _ _ => rfl, rfl, rfl, rfl⟩
  have he : e = costDiffStateVector true
      { d with Rx := (R.diff x u).1, Ru := (R.diff x u).2, Ar := A.grad d.r, Arr := A.hess d.r } := by
    simp only [e, d, run, List.foldl_append]; rfl
  have ht : t = costDiffStateVector false
      { d with Rx := (R.diffT x).1, Ru := (R.diffT x).2, Ar := A.grad d.r, Arr := A.hess d.r } := by
    simp only [t, d, run, List.foldl_append, List.foldl_cons, List.foldl_nil, step, diffX, hq]; rfl
  obtain ⟨k1, k2, -⟩ := C52_state_vector true
    { d with Rx := (R.diff x u).1, Ru := (R.diff x u).2, Ar := A.grad d.r, Arr := A.hess d.r } (by rw [hR]) h1
  obtain ⟨l1, l2, -⟩ := C52_state_vector false
    { d with Rx := (R.diffT x).1, Ru := (R.diffT x).2, Ar := A.grad d.r, Arr := A.hess d.r } (by rw [hRT]) h1
  rw [← he] at k1 k2
  rw [← ht] at l1 l2
  simp only [hR] at k1 k2
  simp only [hRT] at l1 l2
  exact ⟨⟨k1, by rw [show e.Lu = 0 from h2]; simp [gnLx], k2, by rw [show e.Lxu = 0 from h4]; simp [gn],
    by rw [show e.Luu = 0 from h3]; simp [gn]⟩, l1, l2⟩

/-- The joints partition the first `nv` tangent coordinates. -/
def Partition (nv : ℕ) (joints : List (ℕ × ℕ)) : Prop :=
  (∀ i, i < nv → ∃ b ∈ joints, b.1 ≤ i ∧ i < b.1 + b.2) ∧
  (∀ b ∈ joints, b.1 + b.2 ≤ nv) ∧
  ∀ b ∈ joints, ∀ c ∈ joints, ∀ i, b.1 ≤ i → i < b.1 + b.2 → c.1 ≤ i → i < c.1 + c.2 → b = c

/-- The Jacobian of the state difference is block diagonal with the identity on the velocities. -/
def BlockDiag (nv : ℕ) (joints : List (ℕ × ℕ)) (Rx : Matrix (Fin ndx) (Fin ndx) K) : Prop :=
  (∀ i j : Fin ndx, nv ≤ i.val → Rx i j = if i = j then 1 else 0) ∧
  (∀ i j : Fin ndx, nv ≤ j.val → Rx i j = if i = j then 1 else 0) ∧
  ∀ b ∈ joints, ∀ i j : Fin ndx, inSeg b i = true → inSeg b j = false → Rx i j = 0 ∧ Rx j i = 0

theorem jointFold (joints : List (ℕ × ℕ)) (d : Data K ndx nu ndx) :
    let e := joints.foldl jointStep d
    e.Rx = d.Rx ∧ e.Ar = d.Ar ∧ e.Arr = d.Arr ∧
    (∀ i, (∀ b ∈ joints, inSeg b i = false) → e.Lx i = d.Lx i) ∧
    (∀ i j, (∀ b ∈ joints, (inSeg b i && inSeg b j) = false) → e.Lxx i j = d.Lxx i j) ∧
    (∀ i b, b ∈ joints → inSeg b i = true → (∀ c ∈ joints, inSeg c i = true → c = b) →
      e.Lx i = ∑ k, (if inSeg b k then d.Rx k i * d.Ar k else 0)) ∧
    (∀ i j b, b ∈ joints → inSeg b i = true → inSeg b j = true → (∀ c ∈ joints, inSeg c i = true → c = b) →
      e.Lxx i j = ∑ k, (if inSeg b k then d.Rx k i * d.Arr k * d.Rx k j else 0)) := by
  induction joints generalizing d with
  | nil => exact ⟨rfl, rfl, rfl, fun _ _ => rfl, fun _ _ _ => rfl, fun _ _ h => by simp at h,
      fun _ _ _ h => by simp at h⟩
  | cons c l ih =>
    obtain ⟨i1, i2, i3, i4, i5, i6, i7⟩ := ih (jointStep d c)
    refine ⟨i1, i2, i3, fun i hi => ?_, fun i j hij => ?_, fun i b hb hbi hu => ?_, fun i j b hb hbi hbj hu => ?_⟩
    · rw [List.foldl_cons, i4 i fun b hb => hi b (List.mem_cons_of_mem _ hb)]
      simp [jointStep, hi c List.mem_cons_self]
    · rw [List.foldl_cons, i5 i j fun b hb => hij b (List.mem_cons_of_mem _ hb)]
      have := hij c List.mem_cons_self
      simp only [jointStep, this, Bool.false_eq_true, if_false]
    · rw [List.foldl_cons]
      by_cases hl : b ∈ l
      · exact i6 i b hl hbi fun c hc => hu c (List.mem_cons_of_mem _ hc)
      · have hbc : b = c := (List.mem_cons.mp hb).resolve_right hl
        subst hbc
        rw [i4 i fun c hc => by
          by_contra hne
          have : c = b := hu c (List.mem_cons_of_mem _ hc) (by simpa using hne)
          exact hl (this ▸ hc)]
        simp only [jointStep, hbi, if_true]
    · rw [List.foldl_cons]
      by_cases hl : b ∈ l
      · exact i7 i j b hl hbi hbj fun c hc => hu c (List.mem_cons_of_mem _ hc)
      · have hbc : b = c := (List.mem_cons.mp hb).resolve_right hl
        subst hbc
        rw [i5 i j fun c hc => by
          by_contra hne
          simp only [Bool.and_eq_false_iff, not_or, Bool.not_eq_false] at hne
          have : c = b := hu c (List.mem_cons_of_mem _ hc) hne.1
          exact hl (this ▸ hc)]
        simp only [jointStep, hbi, hbj, Bool.and_self, if_true]

theorem inSeg_iff (b : ℕ × ℕ) (i : Fin ndx) : inSeg b i = true ↔ b.1 ≤ i.val ∧ i.val < b.1 + b.2 := by
  simp [inSeg]

/-- `ResidualModelState` on a multibody state (`ndx = 2 nv`): the joint-wise shortcut is the Gauss-Newton result,
for every partition of the tangent space in joints and every Jacobian that is block diagonal for it, provided the
entries of `Lxx` off the blocks are zero; and they stay so. -/
theorem C52_state_multibody (nv : ℕ) (hn : ndx = 2 * nv) (joints : List (ℕ × ℕ)) (hp : Partition nv joints)
    (up : Bool) (d : Data K ndx nu ndx) (hR : BlockDiag nv joints d.Rx)
    (hL : ∀ i j : Fin ndx, (∀ b ∈ joints, (inSeg b i && inSeg b j) = false) → i ≠ j → d.Lxx i j = 0) :
    let e := costDiffMultibody nv joints up d
    e.Lx = gnLx d.Rx d.Ar ∧ e.Lxx = gn d.Rx d.Arr d.Rx ∧
    ∀ i j : Fin ndx, (∀ b ∈ joints, (inSeg b i && inSeg b j) = false) → i ≠ j → e.Lxx i j = 0 := by
  intro e
  obtain ⟨f1, f2, f3, f4, f5, f6, f7⟩ := jointFold joints d
  obtain ⟨p1, p2, p3⟩ := hp
  obtain ⟨r1, r2, r3⟩ := hR
  have uniq : ∀ (i : Fin ndx) b, b ∈ joints → inSeg b i = true → ∀ c ∈ joints, inSeg c i = true → c = b := by
    intro i b hb hi c hc hci
    rw [inSeg_iff] at hi hci
    exact p3 c hc b hb i.val hci.1 hci.2 hi.1 hi.2
  have hr : ∀ i : Fin ndx, inRight nv i = true ↔ nv ≤ i.val := by
    intro i; simp only [inRight, decide_eq_true_eq]; omega
  have hLx : ∀ i, e.Lx i = gnLx d.Rx d.Ar i := by
    intro i
    rw [gnLx_apply]
    show (if inRight nv i then _ else _) = _
    by_cases hi : inRight nv i = true
    · rw [if_pos hi, f2]
      have hi' := (hr i).mp hi
      rw [Finset.sum_eq_single i]
      · rw [r2 i i hi', if_pos rfl, one_mul]
      · intro k _ hk; rw [r2 k i hi', if_neg hk, zero_mul]
      · intro h; exact absurd (Finset.mem_univ i) h
    · rw [if_neg hi]
      have hi' : i.val < nv := by rw [hr] at hi; omega
      obtain ⟨b, hb, hb1, hb2⟩ := p1 i.val hi'
      have hbi : inSeg b i = true := (inSeg_iff b i).mpr ⟨hb1, hb2⟩
      rw [f6 i b hb hbi (uniq i b hb hbi)]
      refine Finset.sum_congr rfl fun k _ => ?_
      by_cases hk : inSeg b k = true
      · rw [if_pos hk]
      · rw [if_neg hk, (r3 b hb i k hbi (by simpa using hk)).2, zero_mul]
  have hLxx : ∀ i j, e.Lxx i j = gn d.Rx d.Arr d.Rx i j := by
    intro i j
    rw [gn_apply]
    show (if i = j ∧ inRight nv i = true then _ else _) = _
    by_cases hi : i = j ∧ inRight nv i = true
    · rw [if_pos hi, f3]
      obtain ⟨hij, hi⟩ := hi
      subst hij
      have hi' := (hr i).mp hi
      rw [Finset.sum_eq_single i]
      · rw [r2 i i hi', if_pos rfl, one_mul, mul_one]
      · intro k _ hk; rw [r2 k i hi', if_neg hk, zero_mul]
      · intro h; exact absurd (Finset.mem_univ i) h
    · rw [if_neg hi]
      by_cases hb : ∃ b ∈ joints, (inSeg b i && inSeg b j) = true
      · obtain ⟨b, hb, hbij⟩ := hb
        simp only [Bool.and_eq_true] at hbij
        rw [f7 i j b hb hbij.1 hbij.2 (uniq i b hb hbij.1)]
        refine Finset.sum_congr rfl fun k _ => ?_
        by_cases hk : inSeg b k = true
        · rw [if_pos hk]; ring
        · rw [if_neg hk, (r3 b hb i k hbij.1 (by simpa using hk)).2, zero_mul]
      · have hb' : ∀ b ∈ joints, (inSeg b i && inSeg b j) = false := by
          intro b hbm; by_contra h; exact hb ⟨b, hbm, by simpa using h⟩
        rw [f5 i j hb']
        have hij : i ≠ j := by
          rintro rfl
          by_cases h : nv ≤ i.val
          · exact hi ⟨rfl, (hr i).mpr h⟩
          · obtain ⟨b, hbm, h1, h2⟩ := p1 i.val (by omega)
            have := (inSeg_iff b i).mpr ⟨h1, h2⟩
            exact hb ⟨b, hbm, by simp [this]⟩
        rw [hL i j hb' hij]
        refine (Finset.sum_eq_zero fun k _ => ?_).symm
        by_cases hi2 : nv ≤ i.val
        · by_cases hki : k = i
          · subst hki; rw [r1 k j hi2, if_neg hij, mul_zero, mul_zero]
          · rw [r2 k i hi2, if_neg hki, zero_mul]
        · by_cases hj2 : nv ≤ j.val
          · by_cases hkj : k = j
            · subst hkj; rw [r1 k i hj2, if_neg (Ne.symm hij), zero_mul]
            · rw [r2 k j hj2, if_neg hkj, mul_zero, mul_zero]
          · obtain ⟨b, hbm, h1, h2⟩ := p1 i.val (by omega)
            have hbi := (inSeg_iff b i).mpr ⟨h1, h2⟩
            have hbj : inSeg b j = false := by
              have := hb' b hbm; rw [hbi] at this; simpa using this
            by_cases hk : inSeg b k = true
            · rw [(r3 b hbm k j hk hbj).1, mul_zero, mul_zero]
            · rw [(r3 b hbm i k hbi (by simpa using hk)).2, zero_mul]
  refine ⟨funext hLx, by ext i j; exact hLxx i j, fun i j hb hij => ?_⟩
  show (if i = j ∧ inRight nv i = true then _ else _) = _
  rw [if_neg fun h => hij h.1, f5 i j hb]
  exact hL i j hb hij

/-! ### Cases -/

/-- A velocity- and control-dependent residual `r = v + u` with `nv = 1`. -/
def demoR : Residual (Fin 2 → ℚ) ℚ 2 1 1 where
  nv := 1
  q := false
  v := true
  u := true
  res x u _ := x 1 + u 0
  resT x _ := x 1
  diff _ _ := (!![0, 1], !![1])
  diffT _ := (!![0, 1], !![0])

def demoA : Activation ℚ 1 where
  val r := r 0 * r 0
  grad r _ := 2 * r 0
  hess _ _ := 2

example (x : Fin 2 → ℚ) (u : Fin 1 → ℚ) : Consistent demoR (demoR.diff x u).1 (demoR.diff x u).2 := by
  refine ⟨by simp [demoR], ?_, by simp [demoR], by simp [demoR]⟩
  intro _ _ k i hi
  fin_cases k
  fin_cases i
  · rfl
  · simp [demoR] at hi

/-- A velocity-dependent residual whose derivatives are not all zero. -/
example : (run demoR demoA (costDiff demoR) [.calcXU ![1, 2] ![3], .diffXU ![1, 2] ![3]]).Lx = ![0, 10] := by
  decide +kernel

/-- A free-flyer followed by two revolute joints. -/
example : Partition 8 [(0, 6), (6, 1), (7, 1)] := by
  refine ⟨fun i hi => ?_, by simp, ?_⟩
  · by_cases h : i < 6
    · exact ⟨(0, 6), by simp, by simp, by simpa using h⟩
    · by_cases h' : i = 6
      · exact ⟨(6, 1), by simp, by simp [h'], by simp [h']⟩
      · exact ⟨(7, 1), by simp, by simp; omega, by simp; omega⟩
  · intro b hb c hc i h1 h2 h3 h4
    simp only [List.mem_cons, List.not_mem_nil, or_false] at hb hc
    rcases hb with rfl | rfl | rfl <;> rcases hc with rfl | rfl | rfl <;> simp at h1 h2 h3 h4 ⊢ <;> omega

end Verif.ResidualCost
