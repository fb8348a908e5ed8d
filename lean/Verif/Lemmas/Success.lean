import Verif.Spec.Success
import Verif.Lemmas.Ends
import Mathlib.Algebra.QuadraticDiscriminant

set_option linter.unusedSectionVars false

/-! Lemmas for C143. -/

namespace Verif.Nl
open Verif Verif.Solve Verif.Lq Verif.Deriv Matrix

variable {n m : Nat} {P : NlProb n m} {kind : Kind} {c : Cfg ℝ} {fuel : Nat} {s s1 s' : NlSt n m}
variable {lin : (Nat → Fin n → ℝ) → (Nat → Fin m → ℝ) → Lin ℝ n m}
variable {llt : ∀ m, Matrix (Fin m) (Fin m) ℝ → Bool}

theorem response_eq (L : Lin ℝ n m) (v : Nat → Fin m → ℝ) (t : Nat) : response L v t = sensU L v t := by
  induction t with
  | zero => rfl
  | succ t ih => rw [response, sensU, ih]

section back
variable {L : Lin ℝ n m} {rho : ℝ} {T : Nat} {f : Nat → Fin n → ℝ} {g : Arrays ℝ n (fun _ => m)}

/-- The change of the controls with respect to the policy. -/
def offPolicy (L : Lin ℝ n m) (g : Arrays ℝ n (fun _ => m)) (v : Nat → Fin m → ℝ) (t : Nat) : Fin m → ℝ :=
  v t + (g.out t).Kfb *ᵥ response L v t

/-- Completion of squares. -/
theorem size_eq (hb : Back llt (some rho) true T L.d L.LxT L.LxxT f g) (hl : LltSound llt) (hH : SymmHess T L)
    (v : Nat → Fin m → ℝ) :
    size L rho T v = ∑ t ∈ Finset.range T, offPolicy L g v t ⬝ᵥ ((g.out t).Q.Quu *ᵥ offPolicy L g v t) := by
  set y := response L v with hy
  have key : ∀ t < T, y t ⬝ᵥ ((L.d t).Lxx *ᵥ y t) + 2 * (y t ⬝ᵥ ((L.d t).Lxu *ᵥ v t)) + v t ⬝ᵥ ((L.d t).Luu *ᵥ v t)
      + rho * (v t ⬝ᵥ v t + y t ⬝ᵥ y t) =
      offPolicy L g v t ⬝ᵥ ((g.out t).Q.Quu *ᵥ offPolicy L g v t)
      + (y t ⬝ᵥ ((g.V t).Vxx *ᵥ y t) - y (t + 1) ⬝ᵥ ((g.V (t + 1)).Vxx *ᵥ y (t + 1))) := by
    intro t ht
    obtain ⟨hQ, hVs, hs, -, -, hK, hv⟩ := Back.facts hb hl hH.term t ht (hH.Luu t ht)
    have hy1 : y (t + 1) = (L.d t).Fx *ᵥ y t + (L.d t).Fu *ᵥ v t := rfl
    have hKx : (g.out t).Q.Quu *ᵥ ((g.out t).Kfb *ᵥ y t) = (g.out t).Q.Qxuᵀ *ᵥ y t := by rw [mulVec_mulVec, hK]
    have e2 : offPolicy L g v t ⬝ᵥ ((g.out t).Q.Quu *ᵥ offPolicy L g v t) =
        v t ⬝ᵥ ((g.out t).Q.Quu *ᵥ v t) + 2 * (y t ⬝ᵥ ((g.out t).Q.Qxu *ᵥ v t))
        + y t ⬝ᵥ ((g.out t).Q.Qxu *ᵥ ((g.out t).Kfb *ᵥ y t)) := by
      have a1 : ((g.out t).Kfb *ᵥ y t) ⬝ᵥ ((g.out t).Q.Quu *ᵥ v t) = y t ⬝ᵥ ((g.out t).Q.Qxu *ᵥ v t) := by
        rw [dot_symm hs, hKx, dot_tr']
      have a2 : v t ⬝ᵥ ((g.out t).Q.Quu *ᵥ ((g.out t).Kfb *ᵥ y t)) = y t ⬝ᵥ ((g.out t).Q.Qxu *ᵥ v t) := by
        rw [hKx, dot_tr']
      have a3 : ((g.out t).Kfb *ᵥ y t) ⬝ᵥ ((g.out t).Q.Quu *ᵥ ((g.out t).Kfb *ᵥ y t)) =
          y t ⬝ᵥ ((g.out t).Q.Qxu *ᵥ ((g.out t).Kfb *ᵥ y t)) := by rw [hKx, dot_tr']
      unfold offPolicy
      rw [← hy]
      simp only [mulVec_add, dotProduct_add, add_dotProduct]
      rw [a1, a2, a3]; ring
    have e1 : y t ⬝ᵥ ((g.V t).Vxx *ᵥ y t) = y t ⬝ᵥ ((g.out t).Q.Qxx *ᵥ y t)
        - y t ⬝ᵥ ((g.out t).Q.Qxu *ᵥ ((g.out t).Kfb *ᵥ y t)) + rho * (y t ⬝ᵥ y t) := by
      rw [hv]
      simp only [computeValue, addDiag]
      rw [add_mulVec, dotProduct_add, smul_mulVec, dotProduct_smul, add_mulVec, dotProduct_add, dot_tr', sub_mulVec,
        dotProduct_sub, ← mulVec_mulVec, smul_eq_mul, smul_mulVec, one_mulVec, dotProduct_smul, smul_eq_mul]
      ring
    rw [e2, e1, hy1, hQ]
    have b1 : ((L.d t).Fx *ᵥ y t) ⬝ᵥ ((g.V (t + 1)).Vxx *ᵥ ((L.d t).Fu *ᵥ v t)) =
        ((L.d t).Fu *ᵥ v t) ⬝ᵥ ((g.V (t + 1)).Vxx *ᵥ ((L.d t).Fx *ᵥ y t)) := dot_symm hVs _ _
    have c1 : ∀ z, y t ⬝ᵥ ((L.d t).Fxᵀ *ᵥ z) = ((L.d t).Fx *ᵥ y t) ⬝ᵥ z := fun z => by rw [dot_tr', dotProduct_comm]
    have c2 : ∀ z, v t ⬝ᵥ ((L.d t).Fuᵀ *ᵥ z) = ((L.d t).Fu *ᵥ v t) ⬝ᵥ z := fun z => by rw [dot_tr', dotProduct_comm]
    simp only [actionValue, addDiag, add_mulVec, mulVec_add, dotProduct_add, add_dotProduct, ← mulVec_mulVec, smul_mulVec,
      one_mulVec, dotProduct_smul, smul_eq_mul, c1, c2]
    rw [b1]
    ring
  have hT : y T ⬝ᵥ ((g.V T).Vxx *ᵥ y T) = y T ⬝ᵥ (L.LxxT *ᵥ y T) + rho * (y T ⬝ᵥ y T) := by
    rw [hb.term]
    simp only [termValue, addDiag]
    rw [add_mulVec, dotProduct_add, smul_mulVec, one_mulVec, dotProduct_smul, smul_eq_mul]
  unfold size
  simp only
  rw [← hy, Finset.sum_congr rfl fun t ht => key t (Finset.mem_range.mp ht), Finset.sum_add_distrib,
    Finset.sum_range_sub' (fun t => y t ⬝ᵥ ((g.V t).Vxx *ᵥ y t)), hT]
  have : y 0 = 0 := rfl
  rw [this]
  simp
  ring

/-- The slope of the cost, with the terms of the backward pass. -/
theorem slope_offPolicy (hb : Back llt (some rho) true T L.d L.LxT L.LxxT f g) (h0 : ∀ t ≤ T, f t = 0)
    (v : Nat → Fin m → ℝ) :
    (∑ t ∈ Finset.range T, ((L.d t).Lx ⬝ᵥ sensU L v t + (L.d t).Lu ⬝ᵥ v t)) + L.LxT ⬝ᵥ sensU L v T =
    ∑ t ∈ Finset.range T, (g.out t).Q.Qu ⬝ᵥ offPolicy L g v t := by
  obtain ⟨hx, hT, hu⟩ := Back.vx hb fun _ => h0
  have hy : ∀ t, sensU L v t = response L v t := fun t => (response_eq L v t).symm
  simp only [hy]
  have key : ∀ t < T, (L.d t).Lx ⬝ᵥ response L v t + (L.d t).Lu ⬝ᵥ v t = (g.out t).Q.Qu ⬝ᵥ offPolicy L g v t
      + ((g.V t).Vx ⬝ᵥ response L v t - (g.V (t + 1)).Vx ⬝ᵥ response L v (t + 1)) := by
    intro t ht
    have e1 := congrArg (fun z => z ⬝ᵥ response L v t) (hx t ht)
    have e2 := congrArg (fun z => z ⬝ᵥ v t) (hu t ht)
    rw [h0 t ht.le] at e1
    simp only [add_dotProduct, sub_dotProduct, mulVec_zero, zero_dotProduct] at e1 e2
    have e3 : (g.V (t + 1)).Vx ⬝ᵥ response L v (t + 1) = ((L.d t).Fxᵀ *ᵥ (g.V (t + 1)).Vx) ⬝ᵥ response L v t
        + ((L.d t).Fuᵀ *ᵥ (g.V (t + 1)).Vx) ⬝ᵥ v t := by
      rw [response, dotProduct_add]
      congr 1
      · rw [mulVec_transpose, dotProduct_mulVec]
      · rw [mulVec_transpose, dotProduct_mulVec]
    have e4 : ((g.out t).Kfbᵀ *ᵥ (g.out t).Q.Qu) ⬝ᵥ response L v t =
        (g.out t).Q.Qu ⬝ᵥ ((g.out t).Kfb *ᵥ response L v t) := by
      rw [mulVec_transpose, dotProduct_mulVec]
    rw [offPolicy, dotProduct_add]
    linear_combination -e1 - e2 + e3 + e4
  have hT' : (g.V T).Vx = L.LxT := by rw [hT, h0 T le_rfl, mulVec_zero, add_zero]
  rw [Finset.sum_congr rfl fun t ht => key t (Finset.mem_range.mp ht), Finset.sum_add_distrib,
    Finset.sum_range_sub' (fun t => (g.V t).Vx ⬝ᵥ response L v t), hT']
  simp [response]

/-- Cauchy-Schwarz for the inner product of the `Quu` of all nodes. -/
theorem cauchy (hb : Back llt (some rho) true T L.d L.LxT L.LxxT f g) (hl : LltSound llt) (hH : SymmHess T L)
    (w : Nat → Fin m → ℝ) :
    (∑ t ∈ Finset.range T, (g.out t).Q.Qu ⬝ᵥ w t) ^ 2 ≤
      (∑ t ∈ Finset.range T, (g.out t).Q.Qu ⬝ᵥ (g.out t).k) * ∑ t ∈ Finset.range T, w t ⬝ᵥ ((g.out t).Q.Quu *ᵥ w t) := by
  have hfacts := fun t ht => Back.facts hb hl hH.term t ht (hH.Luu t ht)
  set A := ∑ t ∈ Finset.range T, (g.out t).Q.Qu ⬝ᵥ (g.out t).k with hA
  set B := ∑ t ∈ Finset.range T, (g.out t).Q.Qu ⬝ᵥ w t with hB
  set C := ∑ t ∈ Finset.range T, w t ⬝ᵥ ((g.out t).Q.Quu *ᵥ w t) with hC
  have hq : ∀ r : ℝ, 0 ≤ A * (r * r) + 2 * B * r + C := by
    intro r
    have e : A * (r * r) + 2 * B * r + C =
        ∑ t ∈ Finset.range T, (w t + r • (g.out t).k) ⬝ᵥ ((g.out t).Q.Quu *ᵥ (w t + r • (g.out t).k)) := by
      rw [hA, hB, hC, Finset.sum_mul, Finset.mul_sum, Finset.sum_mul, ← Finset.sum_add_distrib, ← Finset.sum_add_distrib]
      refine Finset.sum_congr rfl fun t ht => ?_
      obtain ⟨-, -, hs, -, hk, -⟩ := hfacts t (Finset.mem_range.mp ht)
      have a1 : (g.out t).k ⬝ᵥ ((g.out t).Q.Quu *ᵥ w t) = (g.out t).Q.Qu ⬝ᵥ w t := by
        rw [dot_symm hs, hk, dotProduct_comm]
      simp only [mulVec_add, mulVec_smul, dotProduct_add, add_dotProduct, smul_dotProduct, dotProduct_smul, smul_eq_mul, hk, a1]
      rw [dotProduct_comm (w t) (g.out t).Q.Qu, dotProduct_comm (g.out t).k (g.out t).Q.Qu]
      ring
    rw [e]
    refine Finset.sum_nonneg fun t ht => ?_
    by_cases h0 : w t + r • (g.out t).k = 0
    · rw [h0, zero_dotProduct]
    · exact ((hfacts t (Finset.mem_range.mp ht)).2.2.2.1 _ h0).le
  have := discrim_le_zero hq
  unfold discrim at this
  nlinarith

end back

/-- The backward pass that succeeded used the regularisation left in the solver. -/
theorem dirLoop_back (fuel : Nat) {s s1 : NlSt n m}
    (hd : dirLoop P.toProb c (oracle P lin llt kind) fuel s = some (true, s1)) :
    Back llt (some s1.preg) s1.feas P.T s1.lin.d s1.lin.LxT s1.lin.LxxT s1.fs s1.dir := by
  induction fuel generalizing s with
  | zero => simp [dirLoop] at hd
  | succ fuel ih =>
    simp only [dirLoop] at hd
    split at hd
    · rename_i h1
      simp only [Option.some.injEq, Prod.mk.injEq, true_and] at hd
      subst hd
      unfold computeDirection at h1 ⊢
      simp only at h1 ⊢
      generalize (if s.recalc = true then calcDiff P.toProb (oracle P lin llt kind) s else s) = sb at h1 ⊢
      have hor : (oracle P lin llt kind).backward sb =
        match backwardPass llt (some sb.preg) sb.feas P.T sb.lin.d sb.lin.LxT sb.lin.LxxT sb.fs sb.dir with
        | some g => (true, fun t => (g.out t).k, fun t dx => (g.out t).Kfb *ᵥ dx, g)
        | none => (false, sb.k, sb.gain, sb.dir) := rfl
      cases hbp : backwardPass llt (some sb.preg) sb.feas P.T sb.lin.d sb.lin.LxT sb.lin.LxxT sb.fs sb.dir with
      | some g =>
        rw [hbp] at hor
        rw [hor]
        exact backwardPass_spec hbp
      | none =>
        rw [hbp] at hor
        rw [hor] at h1
        simp at h1
    · split at hd
      · simp at hd
      · exact ih hd

/-- What a line search leaves of the expected improvement at a feasible candidate. -/
theorem lineSearch_d (hm : 0 < m) {g : Arrays ℝ n (fun _ => m)} {fs : Nat → Fin n → ℝ} (hfe : s.feas = true) (as : List ℝ)
    (h01 : ∀ a ∈ as, 0 ≤ a ∧ a ≤ 1) (s2 : NlSt n m) (hR : Ready P kind s s2 g fs)
    (hne : as ≠ [] ∨ (s2.d0, s2.d1) = expectedImprovement P.T g) :
    ((lineSearch P.toProb c (oracle P lin llt kind) kind as s2).d0,
      (lineSearch P.toProb c (oracle P lin llt kind) kind as s2).d1) = expectedImprovement P.T g := by
  induction as generalizing s2 with
  | nil => exact hne.resolve_left (by simp)
  | cons a as ih =>
    obtain ⟨h0, h1⟩ := h01 a List.mem_cons_self
    obtain ⟨sT, hp, -, -, -, -, hdd⟩ := hR.trial (lin := lin) (llt := llt) hm (f := fun _ => 0) h0 h1
      (.inl ⟨hfe, fun _ _ => rfl⟩)
    rw [hfe, expectedImprovementFddp_feas, ite_self] at hdd
    have hRb := hR.probe (lin := lin) (llt := llt) a
    rw [hp] at hRb
    simp only [lineSearch, hp]
    split
    · exact hdd
    · exact ih (fun b hb => h01 b (List.mem_cons_of_mem _ hb)) sT hRb (.inr hdd)

end Verif.Nl
