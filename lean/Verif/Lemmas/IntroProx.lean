import Verif.Props.Intro
import Verif.Lemmas.Prox

set_option linter.unusedSectionVars false

/-! # Lemmas: regularised constrained steps are proximal, and their predicted improvement -/

namespace Verif.Intro
open Verif Verif.Lq Verif.Solve Matrix

variable {K : Type} [Field K] [LinearOrder K] [IsStrictOrderedRing K] {n : Nat} {nu nh : Nat → Nat}
variable {F : Fact K} {es : EqSolver}

def Res3.map {α β : Type} (f : α → β) : Res3 α → Res3 β
  | .ok a => .ok (f a)
  | .throw => .throw
  | .ub => .ub

theorem backNode_bump {m p : Nat} (rho : K) (feas : Bool) (d : Derivs K n m) (e : EqDerivs K n m p) (V : Value K n)
    (f : Fin n → K) :
    backNode F es (some 0) feas (proxDerivs rho d) e V f = (backNode F es (some rho) feas d e V f).map (bumpOut rho) := by
  have hq : actionValue (some 0) (proxDerivs rho d) V =
      { actionValue (some rho) d V with Qxx := (actionValue (some rho) d V).Qxx + rho • 1 } := by
    simp only [actionValue, proxDerivs, addDiag, zero_smul, add_zero]
    congr 1 <;> abel
  have hgains : gains F es e (actionValue (some 0) (proxDerivs rho d) V) = gains F es e (actionValue (some rho) d V) := by
    rw [hq]
    unfold gains
    simp only [computeGains, schurGains, nullGains]
  unfold backNode
  simp only [hgains]
  cases gains F es e (actionValue (some rho) d V) with
  | throw => rfl
  | ub => rfl
  | ok r =>
    obtain ⟨k, Kfb⟩ := r
    simp only [Res3.map, bumpOut, hq]
    congr 2
    generalize actionValue (some rho) d V = Q
    have hM : (1 / 2 : K) • ((Q.Qxx + rho • 1 + (Kfbᵀ * Q.Quu - (2 : K) • Q.Qxu) * Kfb) +
        (Q.Qxx + rho • 1 + (Kfbᵀ * Q.Quu - (2 : K) • Q.Qxu) * Kfb)ᵀ) =
        (1 / 2 : K) • ((Q.Qxx + (Kfbᵀ * Q.Quu - (2 : K) • Q.Qxu) * Kfb) +
          (Q.Qxx + (Kfbᵀ * Q.Quu - (2 : K) • Q.Qxu) * Kfb)ᵀ) + rho • (1 : Matrix (Fin n) (Fin n) K) := by
      generalize (Kfbᵀ * Q.Quu - (2 : K) • Q.Qxu) * Kfb = W
      simp only [transpose_add, transpose_smul, transpose_one]
      module
    simp only [computeValue, addDiag, zero_smul, add_zero, hM]

theorem backLoop_bump (rho : K) (feas : Bool) (d : ∀ t, Derivs K n (nu t)) (e : ∀ t, EqDerivs K n (nu t) (nh t))
    (f : Nat → Fin n → K) (t : Nat) (s : Arrays K n nu) :
    backLoop F es (some 0) feas (fun t => proxDerivs rho (d t)) e f t (bumpArr rho s) =
      (backLoop F es (some rho) feas d e f t s).map (bumpArr rho) := by
  induction t generalizing s with
  | zero => rfl
  | succ t ih =>
    simp only [backLoop]
    have hV : (bumpArr rho s).V = s.V := rfl
    rw [hV, backNode_bump]
    cases backNode F es (some rho) feas (d t) (e t) (s.V (t + 1)) (f t) with
    | throw => rfl
    | ub => rfl
    | ok o =>
      simp only [Res3.map]
      have := ih ⟨Function.update s.V t o.V, Function.update s.out t o⟩
      simp only [Res3.map] at this
      rw [← this]
      congr 1
      simp only [bumpArr, bumpOut]
      congr 1
      funext j
      by_cases hj : j = t
      · subst hj; simp
      · simp [Function.update_of_ne hj]

theorem backwardPass_bump (rho : K) (feas : Bool) (T : Nat) (d : ∀ t, Derivs K n (nu t))
    (e : ∀ t, EqDerivs K n (nu t) (nh t)) (LxT : Fin n → K)
    (LxxT : Matrix (Fin n) (Fin n) K) (f : Nat → Fin n → K) (s : Arrays K n nu) :
    backwardPass F es (some 0) feas T (fun t => proxDerivs rho (d t)) e LxT (LxxT + rho • 1) f (bumpArr rho s) =
      (backwardPass F es (some rho) feas T d e LxT LxxT f s).map (bumpArr rho) := by
  unfold backwardPass
  rw [← backLoop_bump]
  congr 1
  simp only [bumpArr, termValue, addDiag, zero_smul, add_zero]

variable {P : LqProb K n nu} {cs : ∀ t, Affine K n (nu t) (nh t)} {rho : K} {feas : Bool} {xs : Nat → Fin n → K}
  {us : ∀ t, Fin (nu t) → K} {s g : Arrays K n nu} {preg : Option K}

/-- The regularised pass on `P` is the plain pass on the proximal problem. -/
theorem backwardOn_prox (h : backwardOn P cs F es (some rho) feas xs us s = .ok g) :
    backwardOn (prox P rho xs us) cs F es (some 0) feas xs us (bumpArr rho s) = .ok (bumpArr rho g) := by
  unfold backwardOn at h ⊢
  rw [prox_gaps]
  have hT : (prox P rho xs us).T = P.T := rfl
  have e1 : (fun t => ((prox P rho xs us).node t).derivs (xs t) (us t)) =
      fun t => proxDerivs rho ((P.node t).derivs (xs t) (us t)) := funext prox_derivs
  have e2 : (prox P rho xs us).term.q + (prox P rho xs us).term.Q *ᵥ xs P.T = P.term.q + P.term.Q *ᵥ xs P.T := by
    simp only [prox, add_mulVec, smul_one_mulVec]; abel
  rw [e1, hT, e2]
  show backwardPass F es (some 0) feas P.T _ _ _ (P.term.Q + rho • 1) _ _ = _
  rw [backwardPass_bump, h]
  rfl

theorem prox_satisfies (vs : ∀ t, Fin (nu t) → K) :
    Satisfies (prox P rho xs us) cs vs 0 (prox P rho xs us).x0 ↔ Satisfies P cs vs 0 P.x0 := by
  unfold Satisfies
  simp only [prox_traj]
  rfl

/-- The full step minimises the cost plus the proximal term, among the controls that satisfy the constraints. -/
theorem prox_optimal (h : backwardOn P cs F es (some rho) feas xs us s = .ok g) (hs : Symmetric P) (hF : FactOk F)
    (hf : feas = true → ∀ t ≤ P.T, gaps P xs us t = 0)
    (xs' : Nat → Fin n → K) (us' : ∀ t, Fin (nu t) → K) (hc : ClosedLoop P xs us g 1 xs' us')
    (vs : ∀ t, Fin (nu t) → K) (hv : Satisfies P cs vs 0 P.x0) :
    total P us' + (1 / 2) * rho * moved P xs us us' ≤ total P vs + (1 / 2) * rho * moved P xs us vs := by
  have := (C74_optimal_partial (backwardOn_prox h) (prox_symm hs) hF (.inr rfl)
    (fun e t ht => by rw [prox_gaps]; exact hf e t ht) xs' us' (closedLoop_prox hc)).2 vs ((prox_satisfies vs).mpr hv)
  rw [prox_total, prox_total] at this
  linarith

/-- Without regularisation the improvement that FDDP's formula predicts for the full step is exact, from every
candidate. -/
theorem full_step (h : backwardOn P cs F es preg feas xs us s = .ok g) (hs : Symmetric P)
    (hF : FactOk F) (hp : preg = none ∨ preg = some 0) (hf : feas = true → ∀ t ≤ P.T, gaps P xs us t = 0)
    (dx : Nat → Fin n → K)
    (xs' : Nat → Fin n → K) (us' : ∀ t, Fin (nu t) → K) (hc : ClosedLoop P xs us g 1 xs' us') :
    costOf P xs us - total P us' =
      (expectedImprovementFddp P.T feas (gaps P xs us) dx g).1
        + (1/2) * (expectedImprovementFddp P.T feas (gaps P xs us) dx g).2 := by
  have hb : BackLq P cs F es preg feas xs us g := backwardPass_spec h
  have hsat := satisfies_full h hs hF xs' us' hc
  unfold total costOf
  rw [costToGo_value hb hs hF hp hf us' 0 (Nat.zero_le _), hc.along_eq, slope_along hb hs hF _ hsat]
  have hv : valAt P xs us g 0 P.x0 = 0 := by
    unfold valAt
    rw [gaps, sub_self]
    simp
  rw [hv]
  cases feas with
  | false =>
    simp only [expectedImprovementFddp, updateExpectedImprovement, sumTo_eq, Bool.false_eq_true, if_false,
      base, gapTerm, gainTerm, Finset.range_eq_Ico]
    rw [Finset.sum_Ico_succ_top (Nat.zero_le _), Finset.sum_Ico_succ_top (Nat.zero_le _),
      Finset.sum_Ico_succ_top (Nat.zero_le _)]
    simp only [Finset.sum_sub_distrib, Finset.sum_add_distrib, ← Finset.mul_sum]
    ring
  | true =>
    have hg : ∀ t ≤ P.T, gapTerm P xs us g t = 0 := fun t ht => by
      unfold gapTerm; rw [hf rfl t ht]; simp
    simp only [expectedImprovementFddp, updateExpectedImprovement, sumTo_eq, if_true]
    unfold base
    rw [hg _ le_rfl, ← Finset.range_eq_Ico]
    have e : ∑ t ∈ Finset.range P.T, gapTerm P xs us g t = 0 :=
      Finset.sum_eq_zero fun t ht => hg t (Finset.mem_range.mp ht).le
    simp only [Finset.sum_add_distrib, gainTerm, Finset.sum_sub_distrib, ← Finset.mul_sum, e]
    ring

/-- Actual against predicted improvement of the full step. -/
theorem prox_full_step (h : backwardOn P cs F es (some rho) feas xs us s = .ok g) (hs : Symmetric P)
    (hF : FactOk F) (hf : feas = true → ∀ t ≤ P.T, gaps P xs us t = 0) (dx : Nat → Fin n → K)
    (xs' : Nat → Fin n → K) (us' : ∀ t, Fin (nu t) → K) (hc : ClosedLoop P xs us g 1 xs' us') :
    costOf P xs us - total P us' =
      (expectedImprovementFddp P.T feas (gaps P xs us) dx g).1
        + (1 / 2) * (expectedImprovementFddp P.T feas (gaps P xs us) dx g).2 + (1 / 2) * rho * moved P xs us us' := by
  have := full_step (backwardOn_prox h) (prox_symm hs) hF (.inr rfl)
    (fun e t ht => by rw [prox_gaps]; exact hf e t ht) dx xs' us' (closedLoop_prox hc)
  have e : expectedImprovementFddp (prox P rho xs us).T feas (gaps (prox P rho xs us) xs us) dx (bumpArr rho g) =
      expectedImprovementFddp P.T feas (gaps P xs us) dx g := by rw [prox_gaps]; rfl
  rw [e, prox_total, prox_costOf] at this
  linarith

/-- The predicted improvement without gaps. -/
theorem fddp_no_gaps {T : Nat} {f dx : Nat → Fin n → K} (g : Arrays K n nu) (hf : ∀ t ≤ T, f t = 0) :
    expectedImprovementFddp T feas f dx g = expectedImprovement T g := by
  have hs0 : ∀ F : Nat → K, (∀ t ≤ T, F t = 0) → sumTo F (T + 1) = 0 := fun F hF => by
    rw [sumTo_eq]
    exact Finset.sum_eq_zero fun t ht => hF t (by have := Finset.mem_range.mp ht; omega)
  have e1 := hs0 (fun t => (g.V t).Vx ⬝ᵥ f t) fun t ht => by simp only [hf t ht, dotProduct_zero]
  have e2 := hs0 (fun t => f t ⬝ᵥ ((g.V t).Vxx *ᵥ f t)) fun t ht => by simp only [hf t ht, zero_dotProduct]
  have e3 := hs0 (fun t => f t ⬝ᵥ ((g.V t).Vxx *ᵥ dx t)) fun t ht => by simp only [hf t ht, zero_dotProduct]
  cases feas <;> simp [expectedImprovementFddp, updateExpectedImprovement, expectedImprovement, e1, e2, e3]

/-- A full step that goes nowhere has zero feedforward terms: its prediction is zero. -/
theorem zero_of_moved {xs' : Nat → Fin n → K} {us' : ∀ t, Fin (nu t) → K} (hc : ClosedLoop P xs us g 1 xs' us')
    (h : moved P xs us us' = 0) :
    (∀ t < P.T, (g.out t).k = 0) ∧ ∀ t ≤ P.T, gaps P xs us t = 0 := by
  obtain ⟨m1, m2⟩ := moved_eq_zero h
  refine ⟨fun t ht => ?_, fun t ht => ?_⟩
  · have := hc.control t ht
    rw [m1 t ht, ← hc.traj_eq t ht.le, m2 t ht.le, sub_self, mulVec_zero, sub_zero, one_smul] at this
    exact sub_eq_self.mp this.symm
  · cases t with
    | zero => rw [gaps, sub_eq_zero]; exact m2 0 ht
    | succ t =>
      rw [gaps, sub_eq_zero, ← m2 t (by omega), ← m1 t ht, ← m2 (t + 1) ht, traj, Nat.zero_add]

theorem improvement_of_k (hk : ∀ t < P.T, (g.out t).k = 0) : expectedImprovement P.T g = (0, 0) := by
  simp only [expectedImprovement, sumTo_eq]
  rw [Finset.sum_eq_zero fun t ht => by rw [hk t (Finset.mem_range.mp ht), dotProduct_zero],
    Finset.sum_eq_zero fun t ht => by rw [hk t (Finset.mem_range.mp ht), zero_dotProduct], neg_zero]

end Verif.Intro
