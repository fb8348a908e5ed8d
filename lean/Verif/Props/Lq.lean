import Verif.Lemmas.Lq
import Mathlib.Algebra.Order.Ring.Rat
import Mathlib.LinearAlgebra.Matrix.Notation
import Mathlib.Tactic.NormNum.Basic
import Mathlib.Tactic.NormNum.Inv
import Mathlib.Tactic.NormNum.Pow
import Mathlib.Tactic.NormNum.Ineq
import Mathlib.Tactic.FieldSimp

set_option linter.unusedSectionVars false

/-!
# The backward pass on linear-quadratic problems (C29, C30, C65)

`P` is any linear-quadratic problem whose Hessian blocks on the diagonal are symmetric, `(xs, us)` any
candidate, feasible or not, and the backward pass runs on the derivatives of the `ActionModelLQR`s at the
candidate. The feasibility flag is only assumed honest: if it is set there are no gaps.
-/

namespace Verif.Lq
open Verif Verif.Solve Matrix

variable {K : Type} [Field K] [LinearOrder K] [IsStrictOrderedRing K] {n : Nat} {nu : Nat → Nat}
variable {P : LqProb K n nu} {llt : ∀ m, Matrix (Fin m) (Fin m) K → Bool} {preg : Option K} {feas : Bool}
variable {xs : Nat → Fin n → K} {us : ∀ t, Fin (nu t) → K} {s g : Arrays K n nu}

/-- The backward pass of the solver at the candidate `xs, us` of the problem `P`. -/
noncomputable def backwardOn (P : LqProb K n nu) (llt : ∀ m, Matrix (Fin m) (Fin m) K → Bool)
    (preg : Option K) (feas : Bool) (xs : Nat → Fin n → K) (us : ∀ t, Fin (nu t) → K)
    (s : Arrays K n nu) : Option (Arrays K n nu) :=
  backwardPass llt preg feas P.T (fun t => (P.node t).derivs (xs t) (us t))
    (P.term.q + P.term.Q *ᵥ xs P.T) P.term.Q (gaps P xs us) s

/-- C29. Without regularisation, the trajectory of the full-step policy has the least total cost among all
control sequences. -/
theorem C29_optimal (h : backwardOn P llt preg feas xs us s = some g) (hs : Symmetric P)
    (hl : LltSound llt) (hp : preg = none ∨ preg = some 0)
    (hf : feas = true → ∀ t ≤ P.T, gaps P xs us t = 0)
    (xs' : Nat → Fin n → K) (us' : ∀ t, Fin (nu t) → K) (hc : ClosedLoop P xs us g 1 xs' us')
    (vs : ∀ t, Fin (nu t) → K) : total P us' ≤ total P vs := by
  have hb : BackLq P llt preg feas xs us g := backwardPass_spec h
  unfold total
  rw [costToGo_value hb hs hl hp hf us' 0 (Nat.zero_le _), costToGo_value hb hs hl hp hf vs 0 (Nat.zero_le _),
    hc.along_eq]
  have := along_nonneg hb hs hl vs 0 P.x0
  simp only [sub_self, ne_eq, OfNat.ofNat_ne_zero, not_false_eq_true, zero_pow, mul_zero, zero_mul,
    add_zero, le_add_iff_nonneg_right]
  exact this

/-- C29. It is the only one: a control sequence with the same total cost applies the same controls. -/
theorem C29_unique (h : backwardOn P llt preg feas xs us s = some g) (hs : Symmetric P)
    (hl : LltSound llt) (hp : preg = none ∨ preg = some 0)
    (hf : feas = true → ∀ t ≤ P.T, gaps P xs us t = 0)
    (xs' : Nat → Fin n → K) (us' : ∀ t, Fin (nu t) → K) (hc : ClosedLoop P xs us g 1 xs' us')
    (vs : ∀ t, Fin (nu t) → K) (he : total P vs ≤ total P us') : ∀ t < P.T, vs t = us' t := by
  have hb : BackLq P llt preg feas xs us g := backwardPass_spec h
  unfold total at he
  rw [costToGo_value hb hs hl hp hf us' 0 (Nat.zero_le _), costToGo_value hb hs hl hp hf vs 0 (Nat.zero_le _),
    hc.along_eq] at he
  simp only [sub_self, ne_eq, OfNat.ofNat_ne_zero, not_false_eq_true, zero_pow, mul_zero, zero_mul,
    add_zero, add_le_iff_nonpos_right] at he
  have h0 : along P (excess xs us g vs) vs 0 P.x0 = 0 := le_antisymm he (along_nonneg hb hs hl vs 0 P.x0)
  unfold along at h0
  have hz := (Finset.sum_eq_zero_iff_of_nonneg fun i hi =>
    excess_nonneg hb hs hl vs (0 + i) (by have := Finset.mem_range.mp hi; omega) _).mp h0
  have hdev : ∀ t < P.T, dev xs us g vs t (traj P vs 0 P.x0 t) = 0 := fun t ht => by
    have := hz t (Finset.mem_range.mpr (by omega))
    rw [Nat.zero_add] at this
    exact excess_eq_zero hb hs hl vs t ht _ this
  have hboth : ∀ t, (t ≤ P.T → traj P vs 0 P.x0 t = xs' t) ∧ (t < P.T → vs t = us' t) := by
    intro t
    induction t with
    | zero =>
      have h1 : traj P vs 0 P.x0 0 = xs' 0 := hc.init.symm
      refine ⟨fun _ => h1, fun ht => ?_⟩
      have e1 := hdev 0 ht
      have e2 := hc.dev_eq 0 ht
      rw [h1] at e1
      rw [sub_self, zero_smul, ← e1] at e2
      unfold dev at e2
      simpa using e2.symm
    | succ t ih =>
      have h1 : t + 1 ≤ P.T → traj P vs 0 P.x0 (t + 1) = xs' (t + 1) := fun ht => by
        have e : 0 + t = t := Nat.zero_add t
        rw [traj, ih.1 (by omega), hc.step t (by omega), e, ih.2 (by omega)]
      refine ⟨h1, fun ht => ?_⟩
      have e1 := hdev _ ht
      have e2 := hc.dev_eq _ ht
      rw [h1 ht.le] at e1
      rw [sub_self, zero_smul, ← e1] at e2
      unfold dev at e2
      simpa using e2.symm
  exact fun t ht => (hboth t).2 ht

/-- C29. At every node the stored `Vx`, `Vxx` are the gradient (at the state the rollout reaches) and the
Hessian of the optimal cost-to-go: up to a constant the quadratic they define is the least cost-to-go from
every state. -/
theorem C29_value_function (h : backwardOn P llt preg feas xs us s = some g) (hs : Symmetric P)
    (hl : LltSound llt) (hp : preg = none ∨ preg = some 0)
    (hf : feas = true → ∀ t ≤ P.T, gaps P xs us t = 0) (t : Nat) (ht : t ≤ P.T) :
    ∃ c, ∀ x, IsLeast {j | ∃ vs : ∀ t, Fin (nu t) → K, j = costToGo P vs t x}
      (c + (g.V t).Vx ⬝ᵥ (x - (xs t + gaps P xs us t))
        + (1/2) * ((x - (xs t + gaps P xs us t)) ⬝ᵥ ((g.V t).Vxx *ᵥ (x - (xs t + gaps P xs us t))))) := by
  have hb : BackLq P llt preg feas xs us g := backwardPass_spec h
  refine ⟨base P xs us g t, fun x => ⟨?_, ?_⟩⟩
  · -- the policy from `x` at node `t`
    let st : Nat → Fin n → K := fun j => Nat.rec (motive := fun _ => Fin n → K) x
      (fun i y => (P.node (t + i)).next y
        (us (t + i) - (g.out (t + i)).k - (g.out (t + i)).Kfb *ᵥ (y - xs (t + i)))) j
    let vs : ∀ t, Fin (nu t) → K := fun j => us j - (g.out j).k - (g.out j).Kfb *ᵥ (st (j - t) - xs j)
    have htr : ∀ i, traj P vs t x i = st i := by
      intro i
      induction i with
      | zero => rfl
      | succ i ih =>
        have e : t + i - t = i := by omega
        rw [traj, ih]
        simp only [vs, e]
        rfl
    refine ⟨vs, ?_⟩
    rw [costToGo_value hb hs hl hp hf vs t ht]
    have h0 : along P (excess xs us g vs) vs t x = 0 := by
      refine Finset.sum_eq_zero fun i _ => ?_
      have e : t + i - t = i := by omega
      have : dev xs us g vs (t + i) (traj P vs t x i) = 0 := by
        unfold dev
        rw [htr]
        simp only [vs, e]
        abel
      unfold excess
      rw [this]
      simp
    rw [h0, valAt, sub_sub]
    ring
  · rintro j ⟨vs, rfl⟩
    rw [costToGo_value hb hs hl hp hf vs t ht]
    have := along_nonneg hb hs hl vs t x
    rw [valAt, sub_sub]
    linarith

/-- C30. From a feasible candidate, the improvement predicted by the DDP solver, `a (d0 + ½ a d1)`, is the
actual decrease of the total cost along the policy with any step `a`. -/
theorem C30_exact (h : backwardOn P llt preg feas xs us s = some g) (hs : Symmetric P)
    (hl : LltSound llt) (hp : preg = none ∨ preg = some 0) (hf : ∀ t ≤ P.T, gaps P xs us t = 0) (a : K)
    (xs' : Nat → Fin n → K) (us' : ∀ t, Fin (nu t) → K) (hc : ClosedLoop P xs us g a xs' us') :
    total P us - total P us' =
      a * ((expectedImprovement P.T g).1 + (1/2) * a * (expectedImprovement P.T g).2) := by
  have hb : BackLq P llt preg feas xs us g := backwardPass_spec h
  have hx : ∀ t ≤ P.T, traj P us 0 P.x0 t = xs t := by
    intro t ht
    induction t with
    | zero => have := hf 0 ht; rw [gaps, sub_eq_zero] at this; exact this
    | succ t ih =>
      have := hf (t + 1) ht
      rw [gaps, sub_eq_zero] at this
      have e : 0 + t = t := Nat.zero_add t
      rw [traj, ih (by omega), e, this]
  have h1 : along P (excess xs us g us) us 0 P.x0 =
      (1/2) * ∑ t ∈ Finset.range P.T, (g.out t).k ⬝ᵥ ((g.out t).Q.Quu *ᵥ (g.out t).k) := by
    unfold along
    rw [Finset.mul_sum]
    refine Finset.sum_congr rfl fun t ht => ?_
    have ht := Finset.mem_range.mp ht
    rw [Nat.zero_add, hx t ht.le]
    unfold excess dev
    simp
  have h2 : (expectedImprovement P.T g).1 =
      ∑ t ∈ Finset.range P.T, (g.out t).k ⬝ᵥ ((g.out t).Q.Quu *ᵥ (g.out t).k) := by
    simp only [expectedImprovement, sumTo_eq]
    refine Finset.sum_congr rfl fun t ht => ?_
    obtain ⟨-, -, -, -, hk, -⟩ := Back.facts hb hl hs.term t (Finset.mem_range.mp ht) (hs.R t)
    rw [hk, dotProduct_comm]
  have h3 : (expectedImprovement P.T g).2 =
      -∑ t ∈ Finset.range P.T, (g.out t).k ⬝ᵥ ((g.out t).Q.Quu *ᵥ (g.out t).k) := by
    simp only [expectedImprovement, sumTo_eq]
  unfold total
  rw [costToGo_value hb hs hl hp (fun _ => hf) us' 0 (Nat.zero_le _),
    costToGo_value hb hs hl hp (fun _ => hf) us 0 (Nat.zero_le _), hc.along_eq, h1, h2, h3]
  ring

/-- C30. On a feasible candidate FDDP predicts the same improvement as DDP. -/
theorem C30_fddp_feasible (T : Nat) (f dx : Nat → Fin n → K) (g : Arrays K n nu) :
    expectedImprovementFddp T true f dx g = expectedImprovement T g := by
  simp [expectedImprovementFddp, updateExpectedImprovement, expectedImprovement]

/-- C30. From an infeasible candidate, the improvement FDDP predicts for the full step, `d0 + ½ d1`, is
exactly the cost of the (infeasible) candidate minus the cost of the feasible full-step trajectory. -/
theorem C30_fddp_full_step (h : backwardOn P llt preg false xs us s = some g) (hs : Symmetric P)
    (hl : LltSound llt) (hp : preg = none ∨ preg = some 0) (dx : Nat → Fin n → K)
    (xs' : Nat → Fin n → K) (us' : ∀ t, Fin (nu t) → K) (hc : ClosedLoop P xs us g 1 xs' us') :
    ((∑ t ∈ Finset.range P.T, (P.node t).cost (xs t) (us t)) + P.term.costT (xs P.T)) - total P us' =
      (expectedImprovementFddp P.T false (gaps P xs us) dx g).1
        + (1/2) * (expectedImprovementFddp P.T false (gaps P xs us) dx g).2 := by
  have hb : BackLq P llt preg false xs us g := backwardPass_spec h
  have h2 : ∀ t ∈ Finset.range P.T, (g.out t).Q.Qu ⬝ᵥ (g.out t).k =
      (g.out t).k ⬝ᵥ ((g.out t).Q.Quu *ᵥ (g.out t).k) := fun t ht => by
    obtain ⟨-, -, -, -, hk, -⟩ := Back.facts hb hl hs.term t (Finset.mem_range.mp ht) (hs.R t)
    rw [hk, dotProduct_comm]
  unfold total
  rw [costToGo_value hb hs hl hp (fun e => by cases e) us' 0 (Nat.zero_le _), hc.along_eq]
  have hv : valAt P xs us g 0 P.x0 = 0 := by
    unfold valAt
    rw [gaps, sub_self]
    simp
  rw [hv]
  simp only [expectedImprovementFddp, updateExpectedImprovement, sumTo_eq, Bool.false_eq_true, if_false,
    base, gapTerm, Finset.range_eq_Ico]
  rw [Finset.range_eq_Ico] at h2
  rw [Finset.sum_congr rfl h2, Finset.sum_Ico_succ_top (Nat.zero_le _), Finset.sum_Ico_succ_top (Nat.zero_le _),
    Finset.sum_Ico_succ_top (Nat.zero_le _), Finset.sum_sub_distrib, Finset.sum_add_distrib, Finset.sum_sub_distrib, ← Finset.mul_sum,
    ← Finset.mul_sum]
  ring

/-- C65. For every problem (not only linear-quadratic) and every regularisation: after a successful backward
pass `d1 = -d0 ≤ 0`, so the improvement predicted for any step in `[0, 2]` is not negative. -/
theorem C65_descent {T : Nat} {d : ∀ t, Derivs K n (nu t)} {LxT : Fin n → K}
    {LxxT : Matrix (Fin n) (Fin n) K} {f : Nat → Fin n → K}
    (h : backwardPass llt preg feas T d LxT LxxT f s = some g) (hl : LltSound llt)
    (hT : LxxTᵀ = LxxT) (hL : ∀ t < T, (d t).Luuᵀ = (d t).Luu) :
    0 ≤ (expectedImprovement T g).1 ∧ (expectedImprovement T g).2 = -(expectedImprovement T g).1 ∧
    ∀ a : K, 0 ≤ a → a ≤ 2 →
      0 ≤ a * ((expectedImprovement T g).1 + (1/2) * a * (expectedImprovement T g).2) := by
  have hb := backwardPass_spec h
  have h2 : ∀ t ∈ Finset.range T, (g.out t).Q.Qu ⬝ᵥ (g.out t).k =
      (g.out t).k ⬝ᵥ ((g.out t).Q.Quu *ᵥ (g.out t).k) := fun t ht => by
    obtain ⟨-, -, -, -, hk, -⟩ := Back.facts hb hl hT t (Finset.mem_range.mp ht)
      (hL t (Finset.mem_range.mp ht))
    rw [hk, dotProduct_comm]
  have hd : (expectedImprovement T g).2 = -(expectedImprovement T g).1 := by
    simp only [expectedImprovement, sumTo_eq]
    rw [Finset.sum_congr rfl h2]
  have h0 : 0 ≤ (expectedImprovement T g).1 := by
    simp only [expectedImprovement, sumTo_eq]
    refine Finset.sum_nonneg fun t ht => ?_
    rw [h2 t ht]
    obtain ⟨-, -, -, hpd, -⟩ := Back.facts hb hl hT t (Finset.mem_range.mp ht) (hL t (Finset.mem_range.mp ht))
    by_cases hk : (g.out t).k = 0
    · rw [hk]; simp
    · exact (hpd _ hk).le
  refine ⟨h0, hd, fun a ha ha2 => ?_⟩
  rw [hd]
  have : a * ((expectedImprovement T g).1 + 1 / 2 * a * -(expectedImprovement T g).1) =
      (1/2) * (a * (2 - a) * (expectedImprovement T g).1) := by ring
  rw [this]
  have h2a : 0 ≤ 2 - a := by linarith
  have := mul_nonneg (mul_nonneg ha h2a) h0
  linarith

/-- C65. The predicted improvement vanishes exactly at candidates where every control gradient `Qu` of the
action-value function vanishes. -/
theorem C65_stationary {T : Nat} {d : ∀ t, Derivs K n (nu t)} {LxT : Fin n → K}
    {LxxT : Matrix (Fin n) (Fin n) K} {f : Nat → Fin n → K}
    (h : backwardPass llt preg feas T d LxT LxxT f s = some g) (hl : LltSound llt)
    (hT : LxxTᵀ = LxxT) (hL : ∀ t < T, (d t).Luuᵀ = (d t).Luu) :
    (expectedImprovement T g).1 = 0 ↔ ∀ t < T, (d t).Lu + (d t).Fuᵀ *ᵥ (g.V (t + 1)).Vx = 0 := by
  have hb := backwardPass_spec h
  have hfacts := fun t ht => Back.facts hb hl hT t ht (hL t ht)
  have hQu : ∀ t < T, (g.out t).Q.Qu = (d t).Lu + (d t).Fuᵀ *ᵥ (g.V (t + 1)).Vx := fun t ht => by
    rw [(hfacts t ht).1]; rfl
  have hterm : ∀ t < T, (g.out t).Q.Qu ⬝ᵥ (g.out t).k =
      (g.out t).k ⬝ᵥ ((g.out t).Q.Quu *ᵥ (g.out t).k) := fun t ht => by
    obtain ⟨-, -, -, -, hk, -⟩ := hfacts t ht
    rw [hk, dotProduct_comm]
  have hnn : ∀ t ∈ Finset.range T, 0 ≤ (g.out t).Q.Qu ⬝ᵥ (g.out t).k := fun t ht => by
    have ht := Finset.mem_range.mp ht
    rw [hterm t ht]
    obtain ⟨-, -, -, hpd, -⟩ := hfacts t ht
    by_cases hk : (g.out t).k = 0
    · rw [hk]; simp
    · exact (hpd _ hk).le
  simp only [expectedImprovement, sumTo_eq]
  rw [Finset.sum_eq_zero_iff_of_nonneg hnn]
  constructor
  · intro h0 t ht
    obtain ⟨-, -, -, hpd, hk, -⟩ := hfacts t ht
    have := h0 t (Finset.mem_range.mpr ht)
    rw [hterm t ht] at this
    have hk0 : (g.out t).k = 0 := by
      by_contra hne
      exact absurd this (hpd _ hne).ne'
    rw [← hQu t ht, ← hk, hk0, mulVec_zero]
  · intro h0 t ht
    have ht := Finset.mem_range.mp ht
    rw [hQu t ht, h0 t ht, zero_dotProduct]

/-- C66. If every stage cost has a positive semidefinite Hessian, the terminal Hessian is positive
semidefinite, and each `Luu` is positive definite or the regularisation is positive, the backward pass
never throws: whatever the dynamics, the gradients and the gaps. -/
theorem C66_never_throws {T : Nat} {d : ∀ t, Derivs K n (nu t)} {LxT : Fin n → K}
    {LxxT : Matrix (Fin n) (Fin n) K} {f : Nat → Fin n → K} (hl : LltComplete llt)
    (hp : 0 ≤ preg.getD 0) (hd : ∀ t < T, Convex (d t))
    (hpd : ∀ t < T, 0 < preg.getD 0 ∨ ∀ v, v ≠ 0 → 0 < v ⬝ᵥ ((d t).Luu *ᵥ v))
    (hT : LxxTᵀ = LxxT) (hT0 : ∀ v, 0 ≤ v ⬝ᵥ (LxxT *ᵥ v)) :
    ∃ g, backwardPass llt preg feas T d LxT LxxT f s = some g := by
  refine backLoop_convex hl hp T hd (fun t ht v hv => ?_) _ ?_ ?_
  · have h0 := (hd t ht).psd 0 v
    simp only [zero_dotProduct, mul_zero, zero_add] at h0
    rcases hpd t ht with h1 | h1
    · have := mul_pos h1 (dot_self_pos hv)
      linarith
    · have := h1 v hv
      have := mul_nonneg hp (dot_self_nonneg v)
      linarith
  · simp only [Function.update_self]
    exact addDiag_symm _ hT
  · intro v
    simp only [Function.update_self, termValue]
    rw [addDiag_quad]
    exact add_nonneg (hT0 v) (mul_nonneg hp (dot_self_nonneg v))

/-! ### A concrete problem that meets the hypotheses -/

namespace Demo

/-- A double integrator with time step 1, a cross term, a linear cost and a drift. -/
def stage : Lqr ℚ 2 1 where
  A := !![1, 1; 0, 1]
  B := !![0; 1]
  f := ![1, 0]
  Q := !![2, 0; 0, 2]
  R := !![2]
  N := !![1; 0]
  q := ![1, -1]
  r := ![1]

def prob : LqProb ℚ 2 (fun _ => 1) where
  T := 3
  node := fun _ => stage
  term := { A := 0, B := 0, f := 0, Q := !![5, 1; 1, 5], R := 0, N := 0, q := ![0, 1], r := 0 }
  x0 := ![1, 2]

open Classical in
/-- An exact Cholesky test. -/
noncomputable def chol : ∀ m, Matrix (Fin m) (Fin m) ℚ → Bool :=
  fun _ M => decide (Mᵀ = M ∧ ∀ v, v ≠ 0 → 0 < v ⬝ᵥ (M *ᵥ v))

open Classical in
theorem chol_sound : LltSound chol := fun _ _ _ h => (of_decide_eq_true h).2

open Classical in
theorem chol_complete : LltComplete chol := fun _ _ hs h => decide_eq_true ⟨hs, h⟩

theorem symm : Symmetric prob where
  Q := fun _ => show stage.Qᵀ = stage.Q by decide
  R := fun _ => show stage.Rᵀ = stage.R by decide
  term := by decide

theorem stage_convex (x : Fin 2 → ℚ) (u : Fin 1 → ℚ) : Convex (stage.derivs x u) where
  Lxx := show stage.Qᵀ = stage.Q by decide
  Luu := show stage.Rᵀ = stage.R by decide
  psd := fun x u => by
    simp [Lqr.derivs, stage, dotProduct, mulVec, Fin.sum_univ_succ]
    nlinarith [sq_nonneg (x 0 + u 0), sq_nonneg (x 0), sq_nonneg (x 1), sq_nonneg (u 0)]

theorem stage_pd (x : Fin 2 → ℚ) (u : Fin 1 → ℚ) (v : Fin 1 → ℚ) (hv : v ≠ 0) :
    0 < v ⬝ᵥ ((stage.derivs x u).Luu *ᵥ v) := by
  have h : 0 < v 0 * v 0 := by simpa [dotProduct] using dot_self_pos hv
  have : v ⬝ᵥ ((stage.derivs x u).Luu *ᵥ v) = v 0 * (2 * v 0) := by
    simp [Lqr.derivs, stage, dotProduct, mulVec]
  rw [this]
  linarith

theorem term_psd (v : Fin 2 → ℚ) : 0 ≤ v ⬝ᵥ (prob.term.Q *ᵥ v) := by
  simp [prob, dotProduct, mulVec, Fin.sum_univ_succ]
  nlinarith [sq_nonneg (v 0 + v 1), sq_nonneg (v 0), sq_nonneg (v 1)]

/-- The backward pass succeeds on it from an infeasible candidate and without regularisation, and the
policy has a trajectory: the hypotheses of C29 are met. -/
example : ∃ g xs' us', backwardOn prob chol (some 0) false (fun _ => ![3, 4]) (fun _ => ![5])
      ⟨fun _ => ⟨0, 0⟩, fun _ => ⟨⟨0, 0, 0, 0, 0⟩, 0, 0, ⟨0, 0⟩⟩⟩ = some g ∧ Symmetric prob ∧ LltSound chol ∧
      ClosedLoop prob (fun _ => ![3, 4]) (fun _ => ![5]) g 1 xs' us' ∧
      gaps prob (fun _ => ![3, 4]) (fun _ => ![5]) 0 ≠ 0 := by
  obtain ⟨g, hg⟩ := C66_never_throws (llt := chol) (preg := some 0) (feas := false) (T := 3)
    (d := fun _ => stage.derivs ![3, 4] ![5]) (LxT := prob.term.q + prob.term.Q *ᵥ ![3, 4])
    (LxxT := prob.term.Q) (f := gaps prob (fun _ => ![3, 4]) (fun _ => ![5]))
    (s := ⟨fun _ => ⟨0, 0⟩, fun _ => ⟨⟨0, 0, 0, 0, 0⟩, 0, 0, ⟨0, 0⟩⟩⟩)
    chol_complete (by simp) (fun _ _ => stage_convex _ _) (fun _ _ => .inr (stage_pd _ _)) symm.term term_psd
  refine ⟨g, _, _, hg, symm, chol_sound, closedLoop_exists _ _ _ _ _, ?_⟩
  intro h
  have := congrFun h 0
  simp [gaps, prob] at this
  norm_num at this

/-- The hypotheses of C30: a feasible candidate of the same problem (its rollout with zero controls). -/
example : ∃ g, backwardOn prob chol none true (traj prob (fun _ => ![0]) 0 prob.x0) (fun _ => ![0])
      ⟨fun _ => ⟨0, 0⟩, fun _ => ⟨⟨0, 0, 0, 0, 0⟩, 0, 0, ⟨0, 0⟩⟩⟩ = some g ∧
    (∀ t ≤ prob.T, gaps prob (traj prob (fun _ => ![0]) 0 prob.x0) (fun _ => ![0]) t = 0) := by
  obtain ⟨g, hg⟩ := C66_never_throws (llt := chol) (preg := none) (feas := true) (T := 3)
    (d := fun t => stage.derivs (traj prob (fun _ => ![0]) 0 prob.x0 t) ![0])
    (LxT := prob.term.q + prob.term.Q *ᵥ traj prob (fun _ => ![0]) 0 prob.x0 3)
    (LxxT := prob.term.Q) (f := gaps prob (traj prob (fun _ => ![0]) 0 prob.x0) (fun _ => ![0]))
    (s := ⟨fun _ => ⟨0, 0⟩, fun _ => ⟨⟨0, 0, 0, 0, 0⟩, 0, 0, ⟨0, 0⟩⟩⟩)
    chol_complete (by simp) (fun _ _ => stage_convex _ _) (fun _ _ => .inr (stage_pd _ _)) symm.term term_psd
  refine ⟨g, hg, fun t _ => ?_⟩
  cases t with
  | zero => simp [gaps, traj]
  | succ t =>
    simp only [gaps, traj, Nat.zero_add]
    exact sub_self _

end Demo

end Verif.Lq
