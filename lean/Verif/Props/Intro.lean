import Verif.Lemmas.Intro
import Verif.Props.Lq
import Mathlib.Analysis.InnerProductSpace.GramSchmidtOrtho
import Mathlib.Analysis.InnerProductSpace.PiL2

set_option linter.unusedSectionVars false

/-!
# The equality-constrained solver: gains, value function, linear-quadratic problems (C72-C74)

`F` is any set of exact factorisations, `es` any of the three equality solvers of `SolverIntro`. Node `t` has `nu t`
controls and `nh t` constraints.
-/

namespace Verif.Intro
open Verif Verif.Lq Matrix

variable {K : Type} [Field K] [LinearOrder K] [IsStrictOrderedRing K] {n : Nat} {nu nh : Nat → Nat}
variable {F : Fact K} {es : EqSolver} {preg : Option K} {feas : Bool} {T : Nat} {d : ∀ t, Derivs K n (nu t)}
  {e : ∀ t, EqDerivs K n (nu t) (nh t)} {LxT : Fin n → K} {LxxT : Matrix (Fin n) (Fin n) K}
  {f : Nat → Fin n → K} {s g : Arrays K n nu}

/-- C72. At every node with controls the policy follows the linearised constraint: whatever the state increment, a
step of length `a` leaves the fraction `1 - a` of the constraint violation, so the full step leaves none. -/
theorem C72_constraint (h : backwardPass F es preg feas T d e LxT LxxT f s = .ok g) (hF : FactOk F)
    (hT : LxxTᵀ = LxxT) (t : Nat) (ht : t < T) (hL : (d t).Luuᵀ = (d t).Luu) (hn : 0 < nu t)
    (a : K) (dx : Fin n → K) :
    linCon (e t) dx (-(a • (g.out t).k) - (g.out t).Kfb *ᵥ dx) = (1 - a) • (e t).h := by
  obtain ⟨-, -, -, hg, -⟩ := (backwardPass_spec h).facts hF hT t ht hL
  obtain ⟨h1, h2⟩ := hg.con hn
  unfold linCon
  rw [mulVec_sub, mulVec_neg, mulVec_smul, h1, mulVec_mulVec, h2, sub_smul, one_smul]
  abel

/-- C72. For every state increment, the control increment of the full-step policy is the only minimiser of the local
problem under the linearised constraint. -/
theorem C72_optimal (h : backwardPass F es preg feas T d e LxT LxxT f s = .ok g) (hF : FactOk F)
    (hT : LxxTᵀ = LxxT) (t : Nat) (ht : t < T) (hL : (d t).Luuᵀ = (d t).Luu)
    (dx : Fin n → K) (du : Fin (nu t) → K) (hc : linCon (e t) dx du = 0)
    (hne : du ≠ -(g.out t).k - (g.out t).Kfb *ᵥ dx) :
    localModel (d t) (g.V (t + 1)) (preg.getD 0) dx (-(g.out t).k - (g.out t).Kfb *ᵥ dx) <
      localModel (d t) (g.V (t + 1)) (preg.getD 0) dx du := by
  obtain ⟨hQ, hV, hQs, hg, -⟩ := (backwardPass_spec h).facts hF hT t ht hL
  rw [← quadModel_local hV, ← quadModel_local hV, ← hQ]
  have hn : 0 < nu t := by
    by_contra hz
    exact hne (funext fun i => absurd i.2 (by omega))
  obtain ⟨h1, h2⟩ := hg.con hn
  have hdu : du = (du + (g.out t).k + (g.out t).Kfb *ᵥ dx) - (g.out t).k - (g.out t).Kfb *ᵥ dx := by abel
  have hk : (e t).Hu *ᵥ (du + (g.out t).k + (g.out t).Kfb *ᵥ dx) = 0 := by
    rw [mulVec_add, mulVec_add, mulVec_mulVec, h1, h2, ← hc]
    unfold linCon
    abel
  have hv : du + (g.out t).k + (g.out t).Kfb *ᵥ dx ≠ 0 := by
    intro h0
    apply hne
    rw [hdu, h0]; abel
  generalize du + (g.out t).k + (g.out t).Kfb *ᵥ dx = v at hdu hk hv
  have e0 : -(g.out t).k - (g.out t).Kfb *ᵥ dx = 0 - (g.out t).k - (g.out t).Kfb *ᵥ dx := by abel
  rw [hdu, e0, quadModel_policy _ hQs, quadModel_policy _ hQs, hg.stat v hk, hg.statx v hk]
  simp only [zero_dotProduct, mul_zero, add_zero]
  have := hg.pd v hk hv
  linarith

/-- C73. At every node the stored `Vx`, `Vxx` are exactly the quadratic that the local problem takes along the policy:
expanded at the gap when the candidate is infeasible, with the state regularisation added. -/
theorem C73_value (h : backwardPass F es preg feas T d e LxT LxxT f s = .ok g) (hF : FactOk F)
    (hT : LxxTᵀ = LxxT) (t : Nat) (ht : t < T) (hL : (d t).Luuᵀ = (d t).Luu) (dx : Fin n → K) :
    let policy := fun y => localModel (d t) (g.V (t + 1)) (preg.getD 0) y (-(g.out t).k - (g.out t).Kfb *ᵥ y)
      + (preg.getD 0 / 2) * (y ⬝ᵥ y)
    let x0 := if feas then 0 else f t
    policy (x0 + dx) = policy x0 + (g.V t).Vx ⬝ᵥ dx + (1/2) * (dx ⬝ᵥ ((g.V t).Vxx *ᵥ dx)) := by
  intro policy x0
  have hb := backwardPass_spec h
  obtain ⟨hQ, hV, hQs, -, hv⟩ := hb.facts hF hT t ht hL
  have hVs := hb.symm hT t ht.le
  -- the policy's quadratic around zero
  have key : ∀ y, policy y = ((g.out t).Q.Qx - (g.out t).Q.Qxu *ᵥ (g.out t).k -
      (g.out t).Kfbᵀ *ᵥ ((g.out t).Q.Qu - (g.out t).Q.Quu *ᵥ (g.out t).k)) ⬝ᵥ y
      + (1/2) * (y ⬝ᵥ ((g.V t).Vxx *ᵥ y)) - ((g.out t).Q.Qu ⬝ᵥ (g.out t).k
        - (1/2) * ((g.out t).k ⬝ᵥ ((g.out t).Q.Quu *ᵥ (g.out t).k))) := fun y => by
    have e0 : -(g.out t).k - (g.out t).Kfb *ᵥ y = 0 - (g.out t).k - (g.out t).Kfb *ᵥ y := by abel
    have := quadModel_policy (g.out t).Q hQs (g.out t).k (g.out t).Kfb y 0
    simp only [policy]
    rw [← quadModel_local hV, ← hQ, e0, this]
    have hq : y ⬝ᵥ ((g.V t).Vxx *ᵥ y) = y ⬝ᵥ (((1/2 : K) • (((g.out t).Q.Qxx + ((g.out t).Kfbᵀ * (g.out t).Q.Quu -
        (2 : K) • (g.out t).Q.Qxu) * (g.out t).Kfb) + ((g.out t).Q.Qxx + ((g.out t).Kfbᵀ * (g.out t).Q.Quu -
        (2 : K) • (g.out t).Q.Qxu) * (g.out t).Kfb)ᵀ)) *ᵥ y) + preg.getD 0 * (y ⬝ᵥ y) := by
      rw [hv]
      simp only [computeValue]
      rw [addDiag_quad]
    rw [hq]
    simp only [zero_dotProduct, mul_zero, add_zero]
    ring
  have hVx : (g.V t).Vx = (g.out t).Q.Qx - (g.out t).Q.Qxu *ᵥ (g.out t).k -
      (g.out t).Kfbᵀ *ᵥ ((g.out t).Q.Qu - (g.out t).Q.Quu *ᵥ (g.out t).k) + (g.V t).Vxx *ᵥ x0 := by
    rw [hv]
    simp only [computeValue, x0]
    cases feas <;> simp
  rw [key, key, hVx]
  simp only [mulVec_add, dotProduct_add, add_dotProduct]
  rw [dot_symm hVs dx x0, dotProduct_comm ((g.V t).Vxx *ᵥ x0) dx, dot_symm hVs dx x0]
  ring

/-- C72. On convex stages with independent constraints no equality solver throws or runs into undefined behaviour. -/
theorem C72_never_throws (hF : FactOk F) (hC : FactComplete F) (hp : 0 ≤ preg.getD 0) (hd : ∀ t < T, Convex (d t))
    (hpd : ∀ t < T, 0 < preg.getD 0 ∨ ∀ v, v ≠ 0 → 0 < v ⬝ᵥ ((d t).Luu *ᵥ v))
    (hr : ∀ t < T, 0 < nu t → 0 < nh t → FullRank (e t).Hu)
    (hT : LxxTᵀ = LxxT) (hT0 : ∀ v, 0 ≤ v ⬝ᵥ (LxxT *ᵥ v)) :
    ∃ g, backwardPass F es preg feas T d e LxT LxxT f s = .ok g := by
  refine backLoop_convex hF hC es hp T hd (fun t ht v hv => ?_) hr _ ?_ ?_
  · have h0 := (hd t ht).psd 0 v
    simp only [zero_dotProduct, mul_zero, zero_add] at h0
    rcases hpd t ht with h1 | h1
    · have := mul_pos h1 (dot_self_pos hv)
      linarith
    · have := h1 v hv
      have := mul_nonneg hp (dot_self_nonneg v)
      linarith
  · simp only [Function.update_self]
    exact addDiag_symm _ hT
  · intro v
    simp only [Function.update_self, termValue]
    rw [addDiag_quad]
    exact add_nonneg (hT0 v) (mul_nonneg hp (dot_self_nonneg v))

/-- C72. Dependent constraints: whatever the node, a constraint Jacobian whose computed rank is not its number of
rows makes both null-space solvers use blocks of the wrong size. -/
theorem C72_rank_counterexample {m p : Nat} (e : EqDerivs K n m p) (Q : QTerms K n m) (hm : 0 < m) (hp : 0 < p) :
    (F.luRank e.Hu ≠ p → gains F .luNull e Q = .ub) ∧ (F.qrRank e.Hu ≠ p → gains F .qrNull e Q = .ub) := by
  have h0 : ¬(m = 0 ∨ p = 0) := by omega
  constructor <;> intro h
  · simp [gains, h0, nullBasis, h]
  · simp [gains, h0, nullBasis, h]

/-! ### Linear-quadratic problems with affine constraints -/

section
variable {P : LqProb K n nu} {cs : ∀ t, Affine K n (nu t) (nh t)} {xs : Nat → Fin n → K}
  {us : ∀ t, Fin (nu t) → K}

/-- The backward pass of the solver at the candidate `xs, us` of the problem `P` with constraints `cs`. -/
noncomputable def backwardOn (P : LqProb K n nu) (cs : ∀ t, Affine K n (nu t) (nh t)) (F : Fact K) (es : EqSolver)
    (preg : Option K) (feas : Bool) (xs : Nat → Fin n → K) (us : ∀ t, Fin (nu t) → K)
    (s : Arrays K n nu) : Res3 (Arrays K n nu) :=
  backwardPass F es preg feas P.T (fun t => (P.node t).derivs (xs t) (us t))
    (fun t => (cs t).derivs (xs t) (us t)) (P.term.q + P.term.Q *ᵥ xs P.T) P.term.Q (gaps P xs us) s

/-- C74. A step of length `a` leaves, at every node with controls, the fraction `1 - a` of the violation of the
candidate: the trajectory of the full step satisfies all these constraints. Any regularisation. -/
theorem C74_residual (h : backwardOn P cs F es preg feas xs us s = .ok g) (hs : Symmetric P) (hF : FactOk F)
    (a : K) (xs' : Nat → Fin n → K) (us' : ∀ t, Fin (nu t) → K) (hc : ClosedLoop P xs us g a xs' us')
    (t : Nat) (ht : t < P.T) (hn : 0 < nu t) :
    (cs t).eval (xs' t) (us' t) = (1 - a) • (cs t).eval (xs t) (us t) := by
  have hb : BackLq P cs F es preg feas xs us g := backwardPass_spec h
  obtain ⟨-, -, -, hg, -⟩ := hb.facts hF hs.term t ht (hs.R t)
  have h1 := (hg.con hn).1
  simp only [Affine.derivs] at h1
  rw [eval_dev hb hs hF us' t ht hn, hc.dev_eq t ht, mulVec_smul, h1]

theorem satisfies_full (h : backwardOn P cs F es preg feas xs us s = .ok g) (hs : Symmetric P) (hF : FactOk F)
    (xs' : Nat → Fin n → K) (us' : ∀ t, Fin (nu t) → K) (hc : ClosedLoop P xs us g 1 xs' us') :
    Satisfies P cs us' 0 P.x0 := by
  intro i hi hn
  rw [Nat.zero_add] at hi
  have := C74_residual h hs hF 1 xs' us' hc i hi (by rwa [Nat.zero_add] at hn)
  rw [sub_self, zero_smul] at this
  rw [hc.traj_eq i hi.le]
  have e0 : 0 + i = i := Nat.zero_add i
  rw [e0]
  exact this

theorem slope_along (hb : BackLq P cs F es preg feas xs us g) (hs : Symmetric P) (hF : FactOk F)
    (vs : ∀ t, Fin (nu t) → K) (hv : Satisfies P cs vs 0 P.x0) :
    along P (slope xs us g vs) vs 0 P.x0 = 0 :=
  along_zero _ _ _ _ fun i hi => slope_zero hb hs hF vs _ hi _ (hv i hi)

theorem excess_along (hb : BackLq P cs F es preg feas xs us g) (hs : Symmetric P) (hF : FactOk F)
    (vs : ∀ t, Fin (nu t) → K) (hv : Satisfies P cs vs 0 P.x0) :
    0 ≤ along P (excess xs us g vs) vs 0 P.x0 :=
  Finset.sum_nonneg fun i hi => (excess_nonneg hb hs hF vs _ (by have := Finset.mem_range.mp hi; omega) _
    (hv i (by have := Finset.mem_range.mp hi; omega))).1

/-- C74. Without regularisation: the trajectory of the full-step policy satisfies the constraints of all nodes with
controls and has the least total cost among all control sequences that do. Missing, and false
(`C74_terminal_counterexample`): terminal constraints; nodes without controls ignore theirs. -/
theorem C74_optimal_partial (h : backwardOn P cs F es preg feas xs us s = .ok g) (hs : Symmetric P) (hF : FactOk F)
    (hp : preg = none ∨ preg = some 0) (hf : feas = true → ∀ t ≤ P.T, gaps P xs us t = 0)
    (xs' : Nat → Fin n → K) (us' : ∀ t, Fin (nu t) → K) (hc : ClosedLoop P xs us g 1 xs' us') :
    Satisfies P cs us' 0 P.x0 ∧ ∀ vs, Satisfies P cs vs 0 P.x0 → total P us' ≤ total P vs := by
  have hb : BackLq P cs F es preg feas xs us g := backwardPass_spec h
  have hsat := satisfies_full h hs hF xs' us' hc
  refine ⟨hsat, fun vs hv => ?_⟩
  unfold total
  rw [costToGo_value hb hs hF hp hf us' 0 (Nat.zero_le _), costToGo_value hb hs hF hp hf vs 0 (Nat.zero_le _),
    hc.along_eq, slope_along hb hs hF _ hsat, slope_along hb hs hF _ hv]
  have := excess_along hb hs hF vs hv
  simp only [sub_self, ne_eq, OfNat.ofNat_ne_zero, not_false_eq_true, zero_pow, mul_zero, zero_mul, add_zero,
    le_add_iff_nonneg_right]
  exact this

/-- C74. It is the only one. -/
theorem C74_unique_partial (h : backwardOn P cs F es preg feas xs us s = .ok g) (hs : Symmetric P) (hF : FactOk F)
    (hp : preg = none ∨ preg = some 0) (hf : feas = true → ∀ t ≤ P.T, gaps P xs us t = 0)
    (xs' : Nat → Fin n → K) (us' : ∀ t, Fin (nu t) → K) (hc : ClosedLoop P xs us g 1 xs' us')
    (vs : ∀ t, Fin (nu t) → K) (hv : Satisfies P cs vs 0 P.x0) (he : total P vs ≤ total P us') :
    ∀ t < P.T, vs t = us' t := by
  have hb : BackLq P cs F es preg feas xs us g := backwardPass_spec h
  have hsat := satisfies_full h hs hF xs' us' hc
  unfold total at he
  rw [costToGo_value hb hs hF hp hf us' 0 (Nat.zero_le _), costToGo_value hb hs hF hp hf vs 0 (Nat.zero_le _),
    hc.along_eq, slope_along hb hs hF _ hsat, slope_along hb hs hF _ hv] at he
  simp only [sub_self, ne_eq, OfNat.ofNat_ne_zero, not_false_eq_true, zero_pow, mul_zero, zero_mul,
    add_zero, add_le_iff_nonpos_right] at he
  have h0 : along P (excess xs us g vs) vs 0 P.x0 = 0 := le_antisymm he (excess_along hb hs hF vs hv)
  unfold along at h0
  have hlt : ∀ i ∈ Finset.range (P.T - 0), 0 + i < P.T := fun i hi => by
    have := Finset.mem_range.mp hi; omega
  have hz := (Finset.sum_eq_zero_iff_of_nonneg fun i hi =>
    (excess_nonneg hb hs hF vs (0 + i) (hlt i hi) _ (hv i (hlt i hi))).1).mp h0
  have hdev : ∀ t < P.T, dev xs us g vs t (traj P vs 0 P.x0 t) = 0 := fun t ht => by
    have h1 := hz t (Finset.mem_range.mpr (by omega))
    have h2 := (excess_nonneg hb hs hF vs (0 + t) (by omega) _ (hv t (by omega))).2 h1
    have e0 : 0 + t = t := Nat.zero_add t
    rwa [e0] at h2
  have hboth : ∀ t, (t ≤ P.T → traj P vs 0 P.x0 t = xs' t) ∧ (t < P.T → vs t = us' t) := by
    have hstep : ∀ t, traj P vs 0 P.x0 t = xs' t → t < P.T → vs t = us' t := fun t h1 ht => by
      have e1 := hdev t ht
      have e2 := hc.dev_eq t ht
      rw [h1] at e1
      rw [sub_self, zero_smul, ← e1] at e2
      unfold dev at e2
      simpa using e2.symm
    intro t
    induction t with
    | zero => exact ⟨fun _ => hc.init.symm, hstep 0 hc.init.symm⟩
    | succ t ih =>
      have h1 : t + 1 ≤ P.T → traj P vs 0 P.x0 (t + 1) = xs' (t + 1) := fun ht => by
        have e : 0 + t = t := Nat.zero_add t
        rw [traj, ih.1 (by omega), hc.step t (by omega), e, ih.2 (by omega)]
      exact ⟨h1, fun ht => hstep _ (h1 ht.le) ht⟩
  exact fun t ht => (hboth t).2 ht

/-- C74. The improvement `d0 + d1 / 2` predicted for the full step from a feasible candidate is exact, also when the
candidate violates the constraints. -/
theorem C74_predicted (h : backwardOn P cs F es preg feas xs us s = .ok g) (hs : Symmetric P) (hF : FactOk F)
    (hp : preg = none ∨ preg = some 0) (hf : ∀ t ≤ P.T, gaps P xs us t = 0)
    (xs' : Nat → Fin n → K) (us' : ∀ t, Fin (nu t) → K) (hc : ClosedLoop P xs us g 1 xs' us') :
    total P us - total P us' = (expectedImprovement P.T g).1 + (1/2) * (expectedImprovement P.T g).2 := by
  have hb : BackLq P cs F es preg feas xs us g := backwardPass_spec h
  have htr : ∀ t ≤ P.T, traj P us 0 P.x0 t = xs t := by
    intro t
    induction t with
    | zero => intro ht; have := hf 0 ht; rw [gaps, sub_eq_zero] at this; exact this
    | succ t ih =>
      intro ht
      have h1 := hf (t + 1) ht
      rw [gaps, sub_eq_zero] at h1
      have e : 0 + t = t := Nat.zero_add t
      rw [traj, ih (by omega), e, h1]
  have h1 : total P us = (∑ t ∈ Finset.range P.T, (P.node t).cost (xs t) (us t)) + P.term.costT (xs P.T) := by
    unfold total costToGo
    rw [Nat.sub_zero, htr _ le_rfl]
    congr 1
    refine Finset.sum_congr rfl fun t ht => ?_
    have e : 0 + t = t := Nat.zero_add t
    rw [htr t (Finset.mem_range.mp ht).le, e]
  have hsat := satisfies_full h hs hF xs' us' hc
  have h2 : total P us' = (∑ t ∈ Finset.range P.T, ((P.node t).cost (xs t) (us t) - gainTerm g t))
      + P.term.costT (xs P.T) := by
    unfold total
    rw [costToGo_value hb hs hF hp (fun _ => hf) us' 0 (Nat.zero_le _), hc.along_eq, slope_along hb hs hF _ hsat]
    have hv : valAt P xs us g 0 P.x0 = 0 := by
      unfold valAt
      have := hf 0 (Nat.zero_le _)
      rw [this]
      rw [gaps] at this
      rw [this]
      simp
    have hg : ∀ t ≤ P.T, gapTerm P xs us g t = 0 := fun t ht => by
      unfold gapTerm; rw [hf t ht]; simp
    rw [hv]
    unfold base
    rw [hg _ le_rfl, ← Finset.range_eq_Ico]
    simp only [sub_self, ne_eq, OfNat.ofNat_ne_zero, not_false_eq_true, zero_pow, mul_zero, zero_mul, add_zero]
    congr 1
    refine Finset.sum_congr rfl fun t ht => ?_
    rw [hg t (Finset.mem_range.mp ht).le, add_zero]
  rw [h1, h2, Finset.sum_sub_distrib]
  simp only [expectedImprovement, Solve.sumTo_eq, gainTerm, Finset.sum_sub_distrib, ← Finset.mul_sum]
  ring

end

/-! ### Terminal constraints, and a concrete problem that meets the hypotheses -/

namespace Demo

/-- `x' = u`, cost `u²/2`, no terminal cost. -/
def prob : LqProb ℝ 1 (fun _ => 1) where
  T := 1
  node := fun _ => { A := 0, B := 1, f := 0, Q := 0, R := 1, N := 0, q := 0, r := 0 }
  term := { A := 0, B := 0, f := 0, Q := 0, R := 0, N := 0, q := 0, r := 0 }
  x0 := ![0]

theorem prob_symm : Symmetric prob where
  Q := fun _ => transpose_zero
  R := fun _ => transpose_one
  term := transpose_zero

end Demo

/-- C74. Terminal equality constraints are not used by the backward pass. On this problem the terminal constraint
`x = 1` can be satisfied, and from no candidate, with no factorisation and with no equality solver does the full step satisfy it. -/
theorem C74_terminal_counterexample :
    (∃ vs, traj Demo.prob vs 0 Demo.prob.x0 1 = ![1]) ∧
    ∀ (F : Fact ℝ) (es : EqSolver) (xs : Nat → Fin 1 → ℝ) (us : Nat → Fin 1 → ℝ) (s g : Arrays ℝ 1 fun _ => 1)
      (cs : Nat → Affine ℝ 1 1 0) (xs' us' : Nat → Fin 1 → ℝ), FactOk F →
      backwardOn Demo.prob cs F es none false xs us s = .ok g → ClosedLoop Demo.prob xs us g 1 xs' us' →
      xs' 1 = ![0] := by
  constructor
  · refine ⟨fun _ => ![1], ?_⟩
    ext i
    fin_cases i
    simp [traj, Demo.prob, Lqr.next]
  · intro F es xs us s g cs xs' us' hF h hc
    have hsat : Satisfies Demo.prob (nh := fun _ => 0) cs (fun _ => 0) 0 Demo.prob.x0 :=
      fun i _ _ => funext fun j => j.elim0
    have hcost : ∀ vs : Nat → Fin 1 → ℝ, total Demo.prob vs = (1/2) * (vs 0 ⬝ᵥ vs 0) := fun vs => by
      have hT : Demo.prob.T - 0 = 1 := rfl
      simp [total, costToGo, hT, Demo.prob, Lqr.cost, Lqr.costT, traj]
    have h0 := C74_unique_partial (nh := fun _ => 0) h Demo.prob_symm hF (.inl rfl) (by simp) xs' us' hc (fun _ => 0) hsat (by
      rw [hcost, hcost]
      have := dot_self_nonneg (us' 0)
      simp only [dotProduct_zero, mul_zero]
      linarith) 0 (by decide)
    have h1 := hc.step 0 (by decide)
    rw [← h0] at h1
    rw [show xs' 1 = xs' (0 + 1) from rfl, h1]
    ext i
    fin_cases i
    simp [Demo.prob, Lqr.next]

namespace Demo

/-- Over the reals every matrix has an orthogonal matrix whose last columns lie in its kernel. -/
theorem exists_q {p m : Nat} (H : Matrix (Fin p) (Fin m) ℝ) :
    ∃ Q : Matrix (Fin m) (Fin m) ℝ, Qᵀ * Q = 1 ∧ ∀ j : Fin m, p ≤ j.val → H *ᵥ (fun i => Q i j) = 0 := by
  let r : Fin m → EuclideanSpace ℝ (Fin m) := fun j => if hj : j.val < p then WithLp.toLp 2 (H ⟨j.val, hj⟩) else 0
  let b := InnerProductSpace.gramSchmidtOrthonormalBasis (𝕜 := ℝ) (by simp) r
  refine ⟨Matrix.of fun i j => b j i, ?_, fun j hj => ?_⟩
  · ext i j
    have := OrthonormalBasis.inner_eq_ite b j i
    rw [EuclideanSpace.inner_eq_star_dotProduct] at this
    rw [Matrix.mul_apply, one_apply]
    simp only [transpose_apply, of_apply]
    have e : (if i = j then (1 : ℝ) else 0) = if j = i then 1 else 0 := by simp only [eq_comm]
    rw [e, ← this]
    simp [dotProduct]
  · have hz : r j = 0 := by simp [r, Nat.not_lt.mpr hj]
    have hn : InnerProductSpace.gramSchmidtNormed ℝ r j = 0 := by
      rw [InnerProductSpace.gramSchmidtNormed, InnerProductSpace.gramSchmidt_def, hz]
      simp
    funext i
    have hi : i.val < m := by omega
    have := InnerProductSpace.inner_gramSchmidtOrthonormalBasis_eq_zero (𝕜 := ℝ) (by simp) hn ⟨i.val, hi⟩
    have hr : r ⟨i.val, hi⟩ = WithLp.toLp 2 (H i) := by simp [r]
    rw [hr, EuclideanSpace.inner_eq_star_dotProduct] at this
    simpa [mulVec, b] using this

open Classical in
/-- Exact factorisations over the reals. -/
noncomputable def fact : Fact ℝ where
  llt := fun _ M => decide (Mᵀ = M ∧ ∀ v, v ≠ 0 → 0 < v ⬝ᵥ (M *ᵥ v))
  luRank := fun {p _} H => if FullRank H then p else p + 1
  luPerm := fun _ => id
  luKer := fun {p m} H i j => (exists_q H).choose i ⟨m - (m - p) + j.val, by omega⟩
  qrRank := fun {p _} H => if FullRank H then p else p + 1
  qrQ := fun H => (exists_q H).choose

theorem rank_iff {p m : Nat} (H : Matrix (Fin p) (Fin m) ℝ) : fact.qrRank H = p ↔ FullRank H := by
  unfold fact
  simp only
  by_cases h : FullRank H <;> simp [h]

/-- The factorisations meet the two conditions used in the theorems. -/
theorem fact_ok : FactOk fact ∧ FactComplete fact := by
  classical
  have hker : ∀ {p m : Nat} (H : Matrix (Fin p) (Fin m) ℝ), FullRank H →
      (∀ u, H *ᵥ u = 0 ↔ ∃ w, u = fact.luKer H *ᵥ w) ∧ ∀ w, fact.luKer H *ᵥ w = 0 → w = 0 := by
    intro p m H h
    have hpm := le_of_fullRank h
    let F' : Fact ℝ := { fact with luRank := fun {p _} _ => p + 1 }
    have hF' : FactOk F' :=
      ⟨fun _ _ _ h => (of_decide_eq_true h).2, fun _ h => absurd h (Nat.succ_ne_self _), fun _ => Function.bijective_id,
        fun _ h => absurd h (Nat.succ_ne_self _), fun H h => (rank_iff H).mp h, fun H _ => (exists_q H).choose_spec.1,
        fun H _ => (exists_q H).choose_spec.2⟩
    have hb : nullBasis F' .qrNull H = some (fun i j => fact.qrQ H i (Fin.castLE hpm j), fact.luKer H) := by
      unfold nullBasis
      simp only [dif_pos (And.intro (show F'.qrRank H = p from (rank_iff H).mpr h) hpm)]
      rfl
    exact ⟨(nullBasis_ok hF' hb).2, fun w hw => last_cols_inj hpm (exists_q H).choose_spec.1 w hw⟩
  have hl : LltComplete fact.llt := fun _ _ hs h => decide_eq_true ⟨hs, h⟩
  refine ⟨⟨fun _ _ _ h => (of_decide_eq_true h).2, fun H h => (rank_iff H).mp h, fun _ => Function.bijective_id,
    fun H h => hker H ((rank_iff H).mp h), fun H h => (rank_iff H).mp h, fun H _ => (exists_q H).choose_spec.1,
    fun H _ => (exists_q H).choose_spec.2⟩,
    ⟨hl, fun H h => (rank_iff H).mpr h, fun H h => (rank_iff H).mpr h⟩⟩

/-- Two stages with two controls, dynamics `x' = x + u₀ - u₁ + 1`, cost `x²/2 + u₀² + u₁²/2`. -/
def stage : Lqr ℝ 1 2 where
  A := 1
  B := !![1, -1]
  f := ![1]
  Q := 1
  R := !![2, 0; 0, 1]
  N := 0
  q := ![1]
  r := ![0, 1]

def prob2 : LqProb ℝ 1 (fun _ => 2) where
  T := 2
  node := fun _ => stage
  term := { A := 0, B := 0, f := 0, Q := 1, R := 0, N := 0, q := ![2], r := 0 }
  x0 := ![1]

/-- The constraint `x + 3 u₀ + 4 u₁ = 5`. -/
def con : Affine ℝ 1 2 1 where
  C := 1
  D := !![3, 4]
  c := ![-5]

theorem con_rank : FullRank con.D := fun v hv => by
  have := congrFun hv 0
  simp [con, mulVec, dotProduct] at this
  ext i
  fin_cases i
  exact this

theorem stage_convex (x : Fin 1 → ℝ) (u : Fin 2 → ℝ) : Convex (stage.derivs x u) where
  Lxx := transpose_one
  Luu := by
    ext i j
    fin_cases i <;> fin_cases j <;> simp [stage, Lqr.derivs]
  psd := fun x u => by
    simp [Lqr.derivs, stage, dotProduct, mulVec, Fin.sum_univ_succ]
    nlinarith [mul_self_nonneg (x 0), mul_self_nonneg (u 0), mul_self_nonneg (u 1)]

theorem stage_pd (x : Fin 1 → ℝ) (u : Fin 2 → ℝ) (v : Fin 2 → ℝ) (hv : v ≠ 0) :
    0 < v ⬝ᵥ ((stage.derivs x u).Luu *ᵥ v) := by
  have h : 0 < v 0 * v 0 + v 1 * v 1 := by simpa [dotProduct, Fin.sum_univ_succ] using dot_self_pos hv
  have : v ⬝ᵥ ((stage.derivs x u).Luu *ᵥ v) = v 0 * (2 * v 0) + v 1 * v 1 := by
    simp [Lqr.derivs, stage, dotProduct, mulVec, Fin.sum_univ_succ]
  rw [this]
  nlinarith [mul_self_nonneg (v 0)]

theorem prob2_symm : Symmetric prob2 where
  Q := fun _ => transpose_one
  R := fun _ => (stage_convex 0 0).Luu
  term := transpose_one

theorem prob2_runs (es : EqSolver) (preg : Option ℝ) (hp : 0 ≤ preg.getD 0) (feas : Bool) (xs : Nat → Fin 1 → ℝ)
    (us : Nat → Fin 2 → ℝ) (s : Arrays ℝ 1 fun _ => 2) :
    ∃ g, backwardOn (nh := fun _ => 1) prob2 (fun _ => con) fact es preg feas xs us s = .ok g :=
  C72_never_throws fact_ok.1 fact_ok.2 hp (fun _ _ => stage_convex _ _) (fun _ _ => .inr (stage_pd _ _))
    (fun _ _ _ _ => con_rank) transpose_one fun v => by
      have := dot_self_nonneg v
      simpa [prob2] using this

/-- Hypotheses of C72, C73 and C74 from an infeasible candidate that violates the constraint, with each solver. -/
example (es : EqSolver) : ∃ g xs' us', backwardOn (nh := fun _ => 1) prob2 (fun _ => con) fact es (some 0) false
      (fun _ => ![3]) (fun _ => ![1, 1]) ⟨fun _ => ⟨0, 0⟩, fun _ => ⟨⟨0, 0, 0, 0, 0⟩, 0, 0, ⟨0, 0⟩⟩⟩ = .ok g ∧
    ClosedLoop prob2 (fun _ => ![3]) (fun _ => ![1, 1]) g 1 xs' us' ∧ FactOk fact ∧ Symmetric prob2 ∧
    con.eval ![3] ![1, 1] ≠ 0 ∧ gaps prob2 (fun _ => ![3]) (fun _ => ![1, 1]) 0 ≠ 0 := by
  obtain ⟨g, hg⟩ := prob2_runs es (some 0) (by simp) false (fun _ => ![3]) (fun _ => ![1, 1])
    ⟨fun _ => ⟨0, 0⟩, fun _ => ⟨⟨0, 0, 0, 0, 0⟩, 0, 0, ⟨0, 0⟩⟩⟩
  refine ⟨g, _, _, hg, closedLoop_exists _ _ _ _ _, fact_ok.1, prob2_symm, fun h => ?_, fun h => ?_⟩
  · have := congrFun h 0
    simp [Affine.eval, con, vecHead, vecTail] at this
    norm_num at this
  · have := congrFun h 0
    simp [gaps, prob2] at this
    norm_num at this

/-- Hypotheses of `C74_predicted`: a feasible candidate that violates the constraint. -/
example (es : EqSolver) : ∃ g, backwardOn (nh := fun _ => 1) prob2 (fun _ => con) fact es none true
      (traj prob2 (fun _ => 0) 0 prob2.x0) (fun _ => 0)
      ⟨fun _ => ⟨0, 0⟩, fun _ => ⟨⟨0, 0, 0, 0, 0⟩, 0, 0, ⟨0, 0⟩⟩⟩ = .ok g ∧
    (∀ t ≤ prob2.T, gaps prob2 (traj prob2 (fun _ => 0) 0 prob2.x0) (fun _ => 0) t = 0) ∧
    con.eval prob2.x0 0 ≠ 0 := by
  obtain ⟨g, hg⟩ := prob2_runs es none (by simp) true (traj prob2 (fun _ => 0) 0 prob2.x0) (fun _ => 0)
    ⟨fun _ => ⟨0, 0⟩, fun _ => ⟨⟨0, 0, 0, 0, 0⟩, 0, 0, ⟨0, 0⟩⟩⟩
  refine ⟨g, hg, fun t _ => ?_, fun h => ?_⟩
  · cases t with
    | zero => simp [gaps, traj]
    | succ t =>
      simp only [gaps, traj, Nat.zero_add]
      exact sub_self _
  · have := congrFun h 0
    simp [Affine.eval, con, prob2, mulVec, dotProduct] at this
    norm_num at this

end Demo

end Verif.Intro
