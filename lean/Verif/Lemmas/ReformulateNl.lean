import Verif.Lemmas.Reformulate
import Verif.Lemmas.Lq
import Mathlib.LinearAlgebra.Matrix.NonsingularInverse

set_option linter.unusedSectionVars false

/-!
# The backward pass commutes with orthogonal changes of coordinates and with factors of the costs
-/

namespace Verif.Nl
open Verif Verif.Solve Verif.Solver Verif.Lq Matrix

variable {n m : Nat}
variable {lam : ℝ} {S : Matrix (Fin n) (Fin n) ℝ} {W : Matrix (Fin m) (Fin m) ℝ}

/-- The value function in the new description. -/
def changeV (lam : ℝ) (S : Matrix (Fin n) (Fin n) ℝ) (V : Value ℝ n) : Value ℝ n where
  Vx := lam • (S *ᵥ V.Vx)
  Vxx := lam • (S * V.Vxx * Sᵀ)

def changeQ (lam : ℝ) (S : Matrix (Fin n) (Fin n) ℝ) (W : Matrix (Fin m) (Fin m) ℝ) (Q : QTerms ℝ n m) :
    QTerms ℝ n m where
  Qx := lam • (S *ᵥ Q.Qx)
  Qu := lam • (W *ᵥ Q.Qu)
  Qxx := lam • (S * Q.Qxx * Sᵀ)
  Qxu := lam • (S * Q.Qxu * Wᵀ)
  Quu := lam • (W * Q.Quu * Wᵀ)

def changeOut (lam : ℝ) (S : Matrix (Fin n) (Fin n) ℝ) (W : Matrix (Fin m) (Fin m) ℝ) (o : NodeOut ℝ n m) :
    NodeOut ℝ n m where
  Q := changeQ lam S W o.Q
  k := W *ᵥ o.k
  Kfb := W * o.Kfb * Sᵀ
  V := changeV lam S o.V

def changeArrays (lam : ℝ) (S : Matrix (Fin n) (Fin n) ℝ) (W : Nat → Matrix (Fin m) (Fin m) ℝ)
    (g : Arrays ℝ n (fun _ => m)) : Arrays ℝ n (fun _ => m) where
  V := fun t => changeV lam S (g.V t)
  out := fun t => changeOut lam S (W t) (g.out t)

theorem addDiag_change {p : Nat} {S : Matrix (Fin p) (Fin p) ℝ} (hS : Sᵀ * S = 1) (r : ℝ)
    (M : Matrix (Fin p) (Fin p) ℝ) :
    addDiag (some (lam * r)) (lam • (S * M * Sᵀ)) = lam • (S * addDiag (some r) M * Sᵀ) := by
  have h : S * Sᵀ = 1 := mul_eq_one_comm.mp hS
  simp only [addDiag, mul_add, add_mul, smul_add, mul_smul_comm, smul_mul_assoc, mul_one, h, smul_smul]

theorem dot_change {p : Nat} {S : Matrix (Fin p) (Fin p) ℝ} (hS : Sᵀ * S = 1) (v w : Fin p → ℝ) :
    (S *ᵥ v) ⬝ᵥ (S *ᵥ w) = v ⬝ᵥ w := by
  rw [Matrix.dotProduct_mulVec, ← Matrix.mulVec_transpose, Matrix.mulVec_mulVec, hS, Matrix.one_mulVec]

theorem cancel {p a : Nat} {S : Matrix (Fin p) (Fin p) ℝ} (hS : Sᵀ * S = 1) (B : Matrix (Fin p) (Fin a) ℝ) :
    Sᵀ * (S * B) = B := by
  rw [← Matrix.mul_assoc, hS, Matrix.one_mul]

theorem actionValue_change (hS : Sᵀ * S = 1) (hW : Wᵀ * W = 1) (r : ℝ) (d : Derivs ℝ n m) (V : Value ℝ n) :
    actionValue (some (lam * r)) (changeDerivs lam S W d) (changeV lam S V) =
      changeQ lam S W (actionValue (some r) d V) := by
  have h1 : lam • (W * d.Luu * Wᵀ) + ((S * d.Fu * Wᵀ)ᵀ * (lam • (S * V.Vxx * Sᵀ))) * (S * d.Fu * Wᵀ) =
      lam • (W * (d.Luu + (d.Fuᵀ * V.Vxx) * d.Fu) * Wᵀ) := by
    simp only [transpose_mul, transpose_transpose, Matrix.mul_assoc, Matrix.mul_smul, Matrix.smul_mul, cancel hS,
      Matrix.mul_add, Matrix.add_mul, smul_add]
  unfold actionValue changeQ
  simp only [changeDerivs, changeV, h1, addDiag_change hW]
  congr 1
  · simp only [transpose_mul, transpose_transpose, Matrix.mul_assoc, mulVec_smul, mulVec_mulVec, hS, Matrix.mul_one,
      mulVec_add, smul_add]
  · simp only [transpose_mul, transpose_transpose, Matrix.mul_assoc, mulVec_smul, mulVec_mulVec, hS, Matrix.mul_one,
      mulVec_add, smul_add]
  · simp only [transpose_mul, transpose_transpose, Matrix.mul_assoc, Matrix.mul_smul, Matrix.smul_mul, cancel hS,
      Matrix.mul_add, Matrix.add_mul, smul_add]
  · simp only [transpose_mul, transpose_transpose, Matrix.mul_assoc, Matrix.mul_smul, Matrix.smul_mul, cancel hS,
      Matrix.mul_add, Matrix.add_mul, smul_add]

theorem inv_change (hl : 0 < lam) (hW : Wᵀ * W = 1) (M : Matrix (Fin m) (Fin m) ℝ) :
    (lam • (W * M * Wᵀ))⁻¹ = lam⁻¹ • (W * M⁻¹ * Wᵀ) := by
  have hW' : W * Wᵀ = 1 := mul_eq_one_comm.mp hW
  by_cases h : IsUnit M.det
  · refine Matrix.inv_eq_right_inv ?_
    rw [Matrix.smul_mul, Matrix.mul_smul, smul_smul, mul_inv_cancel₀ hl.ne', one_smul]
    simp only [Matrix.mul_assoc, cancel hW]
    rw [← Matrix.mul_assoc M, Matrix.mul_nonsing_inv _ h, Matrix.one_mul, hW']
  · have hd : ¬ IsUnit (lam • (W * M * Wᵀ)).det := by
      intro h1
      apply h
      rw [← Matrix.isUnit_iff_isUnit_det] at h1 ⊢
      have h2 : M = lam⁻¹ • (Wᵀ * (lam • (W * M * Wᵀ)) * W) := by
        rw [Matrix.mul_smul, Matrix.smul_mul, smul_smul, inv_mul_cancel₀ hl.ne', one_smul]
        simp only [Matrix.mul_assoc, cancel hW, hW, Matrix.mul_one]
      have u1 : IsUnit W := ⟨⟨W, Wᵀ, hW', hW⟩, rfl⟩
      have u2 : IsUnit Wᵀ := ⟨⟨Wᵀ, W, hW, hW'⟩, rfl⟩
      rw [h2]
      have u3 := (u2.mul h1).mul u1
      have u4 : IsUnit (lam⁻¹ • (1 : Matrix (Fin m) (Fin m) ℝ)) :=
        ⟨⟨lam⁻¹ • 1, lam • 1, by simp [smul_smul, hl.ne'], by simp [smul_smul, hl.ne']⟩, rfl⟩
      have u5 := u4.mul u3
      rwa [Matrix.smul_mul, Matrix.one_mul] at u5
    rw [Matrix.nonsing_inv_apply_not_isUnit _ hd, Matrix.nonsing_inv_apply_not_isUnit _ h]
    simp

/-- A Cholesky test that recognises the positive definite symmetric matrices gives the same answer in the new
description. -/
theorem llt_change {llt : ∀ m, Matrix (Fin m) (Fin m) ℝ → Bool} (h1 : LltSound llt) (h2 : LltComplete llt)
    (hl : 0 < lam) (hW : Wᵀ * W = 1) {M : Matrix (Fin m) (Fin m) ℝ} (hM : Mᵀ = M) :
    llt m (lam • (W * M * Wᵀ)) = llt m M := by
  have hW' : W * Wᵀ = 1 := mul_eq_one_comm.mp hW
  have hs : (lam • (W * M * Wᵀ))ᵀ = lam • (W * M * Wᵀ) := by
    simp only [transpose_smul, transpose_mul, transpose_transpose, hM, Matrix.mul_assoc]
  have hq : ∀ v : Fin m → ℝ, v ⬝ᵥ ((lam • (W * M * Wᵀ)) *ᵥ v) = lam * ((Wᵀ *ᵥ v) ⬝ᵥ (M *ᵥ (Wᵀ *ᵥ v))) := by
    intro v
    rw [smul_mulVec, dotProduct_smul, smul_eq_mul, ← mulVec_mulVec, ← mulVec_mulVec, dotProduct_mulVec v W,
      ← mulVec_transpose]
  have hz : ∀ v : Fin m → ℝ, v ≠ 0 → Wᵀ *ᵥ v ≠ 0 := by
    intro v hv h0
    apply hv
    rw [← Matrix.one_mulVec v, ← hW', ← mulVec_mulVec, h0, mulVec_zero]
  have hz' : ∀ v : Fin m → ℝ, v ≠ 0 → W *ᵥ v ≠ 0 := by
    intro v hv h0
    apply hv
    rw [← Matrix.one_mulVec v, ← hW, ← mulVec_mulVec, h0, mulVec_zero]
  rw [Bool.eq_iff_iff]
  constructor
  · intro h
    refine h2 m M hM fun v hv => ?_
    have := h1 m _ hs h (W *ᵥ v) (hz' v hv)
    rw [hq, mulVec_mulVec, hW, Matrix.one_mulVec] at this
    exact (mul_pos_iff_of_pos_left hl).mp this
  · intro h
    refine h2 m _ hs fun v hv => ?_
    rw [hq]
    exact mul_pos hl (h1 m M hM h _ (hz v hv))

theorem computeValue_change (hS : Sᵀ * S = 1) (hW : Wᵀ * W = 1) (r : ℝ) (feas : Bool) (Q : QTerms ℝ n m)
    (Kfb : Matrix (Fin m) (Fin n) ℝ) (f : Fin n → ℝ) :
    computeValue (some (lam * r)) feas (changeQ lam S W Q) (W * Kfb * Sᵀ) (S *ᵥ f) =
      changeV lam S (computeValue (some r) feas Q Kfb f) := by
  have hM : lam • (S * Q.Qxx * Sᵀ) - lam • (S * Q.Qxu * Wᵀ) * (W * Kfb * Sᵀ) =
      lam • (S * (Q.Qxx - Q.Qxu * Kfb) * Sᵀ) := by
    simp only [Matrix.smul_mul, Matrix.mul_assoc, cancel hW, Matrix.mul_sub, Matrix.sub_mul, smul_sub]
  have hV : (1 / 2 : ℝ) • (lam • (S * (Q.Qxx - Q.Qxu * Kfb) * Sᵀ) + (lam • (S * (Q.Qxx - Q.Qxu * Kfb) * Sᵀ))ᵀ) =
      lam • (S * ((1 / 2 : ℝ) • ((Q.Qxx - Q.Qxu * Kfb) + (Q.Qxx - Q.Qxu * Kfb)ᵀ)) * Sᵀ) := by
    generalize Q.Qxx - Q.Qxu * Kfb = M
    simp only [transpose_smul, transpose_mul, transpose_transpose, Matrix.mul_smul, Matrix.smul_mul, Matrix.mul_add,
      Matrix.add_mul, Matrix.mul_assoc]
    rw [← smul_add, smul_comm]
  have hx : lam • (S *ᵥ Q.Qx) - (W * Kfb * Sᵀ)ᵀ *ᵥ (lam • (W *ᵥ Q.Qu)) = lam • (S *ᵥ (Q.Qx - Kfbᵀ *ᵥ Q.Qu)) := by
    simp only [transpose_mul, transpose_transpose, Matrix.mul_assoc, mulVec_smul, mulVec_mulVec, hW, Matrix.mul_one,
      mulVec_sub, smul_sub]
  unfold computeValue changeV
  simp only [changeQ, hM, hV, hx, addDiag_change hS]
  congr 1
  cases feas
  · simp only [Bool.false_eq_true, if_false, mulVec_mulVec, Matrix.smul_mul, Matrix.mul_assoc, hS, Matrix.mul_one,
      mulVec_add, smul_add]
    rw [smul_mulVec]
  · simp only [if_true]

theorem termValue_change (hS : Sᵀ * S = 1) (r : ℝ) (feas : Bool) (Lx : Fin n → ℝ) (Lxx : Matrix (Fin n) (Fin n) ℝ)
    (f : Fin n → ℝ) :
    termValue (some (lam * r)) feas (lam • (S *ᵥ Lx)) (lam • (S * Lxx * Sᵀ)) (S *ᵥ f) =
      changeV lam S (termValue (some r) feas Lx Lxx f) := by
  unfold termValue changeV
  simp only [addDiag_change hS]
  congr 1
  cases feas
  · simp only [Bool.false_eq_true, if_false, mulVec_mulVec, Matrix.smul_mul, Matrix.mul_assoc, hS, Matrix.mul_one,
      mulVec_add, smul_add]
    rw [smul_mulVec]
  · simp only [if_true]

theorem addDiag_symm {p : Nat} (r : ℝ) {M : Matrix (Fin p) (Fin p) ℝ} (h : Mᵀ = M) :
    (addDiag (some r) M)ᵀ = addDiag (some r) M := by
  simp [addDiag, h]

theorem backNode_change {llt : ∀ m, Matrix (Fin m) (Fin m) ℝ → Bool} (h1 : LltSound llt) (h2 : LltComplete llt)
    (hl : 0 < lam) (hS : Sᵀ * S = 1) (hW : Wᵀ * W = 1) (r : ℝ) (feas : Bool) (d : Derivs ℝ n m) (V : Value ℝ n)
    (f : Fin n → ℝ) (hd : d.Luuᵀ = d.Luu) (hV : V.Vxxᵀ = V.Vxx) :
    backNode llt (some (lam * r)) feas (changeDerivs lam S W d) (changeV lam S V) (S *ᵥ f) =
      (backNode llt (some r) feas d V f).map (changeOut lam S W) ∧
    ∀ o, backNode llt (some r) feas d V f = some o → o.V.Vxxᵀ = o.V.Vxx := by
  have hs : (actionValue (some r) d V).Quuᵀ = (actionValue (some r) d V).Quu := by
    refine addDiag_symm r ?_
    simp only [transpose_add, transpose_mul, transpose_transpose, hd, hV, Matrix.mul_assoc]
  have hg : computeGains llt (changeQ lam S W (actionValue (some r) d V)) =
      (computeGains llt (actionValue (some r) d V)).map fun p => (W *ᵥ p.1, W * p.2 * Sᵀ) := by
    unfold computeGains
    simp only [changeQ, llt_change h1 h2 hl hW hs]
    split_ifs
    · simp only [Option.map_some, inv_change hl hW, Option.some.injEq, Prod.mk.injEq]
      constructor
      · rw [mulVec_smul, smul_mulVec, smul_smul, mul_inv_cancel₀ hl.ne', one_smul]
        simp only [mulVec_mulVec, Matrix.mul_assoc, hW, Matrix.mul_one]
      · rw [transpose_smul, Matrix.mul_smul, Matrix.smul_mul, smul_smul, mul_inv_cancel₀ hl.ne', one_smul]
        simp only [transpose_mul, transpose_transpose, Matrix.mul_assoc, cancel hW]
    · rfl
  constructor
  · unfold backNode
    simp only [actionValue_change hS hW, hg]
    cases computeGains llt (actionValue (some r) d V) with
    | none => rfl
    | some p =>
      obtain ⟨k, Kfb⟩ := p
      simp only [Option.map_some, computeValue_change hS hW, changeOut]
  · intro o ho
    unfold backNode at ho
    cases hc : computeGains llt (actionValue (some r) d V) with
    | none => simp [hc] at ho
    | some p =>
      obtain ⟨k, Kfb⟩ := p
      simp only [hc, Option.some.injEq] at ho
      rw [← ho]
      refine addDiag_symm r ?_
      rw [transpose_smul, transpose_add, transpose_transpose, add_comm]

theorem backLoop_change {llt : ∀ m, Matrix (Fin m) (Fin m) ℝ → Bool} (h1 : LltSound llt) (h2 : LltComplete llt)
    (hl : 0 < lam) (hS : Sᵀ * S = 1) {W : Nat → Matrix (Fin m) (Fin m) ℝ} (hW : ∀ t, (W t)ᵀ * W t = 1) (r : ℝ)
    (feas : Bool) (d : Nat → Derivs ℝ n m) (f : Nat → Fin n → ℝ) (t : Nat) (hd : ∀ i < t, (d i).Luuᵀ = (d i).Luu)
    (g : Arrays ℝ n (fun _ => m)) (hV : (g.V t).Vxxᵀ = (g.V t).Vxx) :
    backLoop llt (some (lam * r)) feas (fun t => changeDerivs lam S (W t) (d t)) (fun t => S *ᵥ f t) t
        (changeArrays lam S W g) =
      (backLoop llt (some r) feas d f t g).map (changeArrays lam S W) := by
  induction t generalizing g with
  | zero => rfl
  | succ t ih =>
    obtain ⟨hb, hv⟩ := backNode_change h1 h2 hl hS (hW t) r feas (d t) (g.V (t + 1)) (f t) (hd t (by omega)) hV
    unfold backLoop
    simp only [changeArrays, hb]
    cases hx : backNode llt (some r) feas (d t) (g.V (t + 1)) (f t) with
    | none => rfl
    | some o =>
      have e : (⟨Function.update (fun t => changeV lam S (g.V t)) t (changeOut lam S (W t) o).V,
          Function.update (fun t => changeOut lam S (W t) (g.out t)) t (changeOut lam S (W t) o)⟩ :
            Arrays ℝ n (fun _ => m)) =
          changeArrays lam S W ⟨Function.update g.V t o.V, Function.update g.out t o⟩ := by
        unfold changeArrays
        congr 1
        · funext i
          by_cases h : i = t
          · subst h; simp [changeOut]
          · simp [h]
        · funext i
          by_cases h : i = t
          · subst h; simp
          · simp [h]
      simp only [Option.map_some, e]
      refine ih (fun i hi => hd i (by omega)) _ ?_
      simpa using hv o hx

theorem backwardPass_change {llt : ∀ m, Matrix (Fin m) (Fin m) ℝ → Bool} (h1 : LltSound llt) (h2 : LltComplete llt)
    (hl : 0 < lam) (hS : Sᵀ * S = 1) {W : Nat → Matrix (Fin m) (Fin m) ℝ} (hW : ∀ t, (W t)ᵀ * W t = 1) (r : ℝ)
    (feas : Bool) (T : Nat) {l : Lin ℝ n m} (hL : SymmHess T l) (f : Nat → Fin n → ℝ)
    (g : Arrays ℝ n (fun _ => m)) :
    backwardPass llt (some (lam * r)) feas T (changeLin lam S W l).d (changeLin lam S W l).LxT
        (changeLin lam S W l).LxxT (fun t => S *ᵥ f t) (changeArrays lam S W g) =
      (backwardPass llt (some r) feas T l.d l.LxT l.LxxT f g).map (changeArrays lam S W) := by
  unfold backwardPass
  have e : (⟨Function.update (changeArrays lam S W g).V T
      (termValue (some (lam * r)) feas (changeLin lam S W l).LxT (changeLin lam S W l).LxxT (S *ᵥ f T)),
        (changeArrays lam S W g).out⟩ : Arrays ℝ n (fun _ => m)) =
      changeArrays lam S W { g with V := Function.update g.V T (termValue (some r) feas l.LxT l.LxxT (f T)) } := by
    simp only [changeLin, termValue_change hS]
    unfold changeArrays
    congr 1
    funext i
    by_cases h : i = T
    · subst h; simp
    · simp [h]
  rw [e]
  refine backLoop_change h1 h2 hl hS hW r feas l.d f T hL.Luu _ ?_
  simp only [Function.update_self]
  exact addDiag_symm r hL.term

theorem sumTo_mul (a : ℝ) (f : Nat → ℝ) (T : Nat) : sumTo (fun t => a * f t) T = a * sumTo f T := by
  induction T with
  | zero => simp [sumTo]
  | succ T ih => simp only [sumTo, ih]; ring

theorem quad_change {p : Nat} {S : Matrix (Fin p) (Fin p) ℝ} (hS : Sᵀ * S = 1) (M : Matrix (Fin p) (Fin p) ℝ)
    (v w : Fin p → ℝ) : (S *ᵥ v) ⬝ᵥ ((lam • (S * M * Sᵀ)) *ᵥ (S *ᵥ w)) = lam * (v ⬝ᵥ (M *ᵥ w)) := by
  rw [smul_mulVec, dotProduct_smul, smul_eq_mul, mulVec_mulVec, Matrix.mul_assoc, hS, Matrix.mul_one, ← mulVec_mulVec,
    dot_change hS]

theorem expected_change (hS : Sᵀ * S = 1) {W : Nat → Matrix (Fin m) (Fin m) ℝ} (hW : ∀ t, (W t)ᵀ * W t = 1)
    (T : Nat) (g : Arrays ℝ n (fun _ => m)) :
    expectedImprovement T (changeArrays lam S W g) =
      (lam * (expectedImprovement T g).1, lam * (expectedImprovement T g).2) := by
  unfold expectedImprovement
  simp only [changeArrays, changeOut, changeQ, quad_change (hW _), smul_dotProduct, dot_change (hW _), smul_eq_mul,
    sumTo_mul, mul_neg]

theorem updated_change (hS : Sᵀ * S = 1) {W : Nat → Matrix (Fin m) (Fin m) ℝ} (hW : ∀ t, (W t)ᵀ * W t = 1)
    (T : Nat) (feas : Bool) (f : Nat → Fin n → ℝ) (g : Arrays ℝ n (fun _ => m)) :
    updateExpectedImprovement T feas (fun t => S *ᵥ f t) (changeArrays lam S W g) =
      (lam * (updateExpectedImprovement T feas f g).1, lam * (updateExpectedImprovement T feas f g).2) := by
  unfold updateExpectedImprovement
  simp only [changeArrays, changeOut, changeQ, changeV, quad_change (hW _), quad_change hS, smul_dotProduct,
    dot_change (hW _), dot_change hS, smul_eq_mul, sumTo_mul]
  cases feas
  · simp only [Bool.false_eq_true, if_false, Prod.mk.injEq]; constructor <;> ring
  · simp only [if_true, mul_neg]

theorem expectedFddp_change (hS : Sᵀ * S = 1) {W : Nat → Matrix (Fin m) (Fin m) ℝ} (hW : ∀ t, (W t)ᵀ * W t = 1)
    (T : Nat) (feas : Bool) (f dx : Nat → Fin n → ℝ) (g : Arrays ℝ n (fun _ => m)) :
    expectedImprovementFddp T feas (fun t => S *ᵥ f t) (fun t => S *ᵥ dx t) (changeArrays lam S W g) =
      (lam * (expectedImprovementFddp T feas f dx g).1, lam * (expectedImprovementFddp T feas f dx g).2) := by
  unfold expectedImprovementFddp
  simp only [updated_change hS hW]
  simp only [changeArrays, changeV, quad_change hS, sumTo_mul]
  cases feas
  · simp only [Bool.false_eq_true, if_false, Prod.mk.injEq]; constructor <;> ring
  · simp only [if_true, Prod.mk.injEq]; constructor <;> ring

/-- The linear map given by an orthogonal matrix. -/
def orthEquiv {p : Nat} (S : Matrix (Fin p) (Fin p) ℝ) (hS : Sᵀ * S = 1) : (Fin p → ℝ) ≃ₗ[ℝ] (Fin p → ℝ) where
  toFun := fun v => S *ᵥ v
  invFun := fun v => Sᵀ *ᵥ v
  map_add' := mulVec_add S
  map_smul' := fun a v => mulVec_smul S a v
  left_inv := fun v => by show Sᵀ *ᵥ (S *ᵥ v) = v; rw [mulVec_mulVec, hS, one_mulVec]
  right_inv := fun v => by show S *ᵥ (Sᵀ *ᵥ v) = v; rw [mulVec_mulVec, mul_eq_one_comm.mp hS, one_mulVec]

/-- The change of description given by orthogonal matrices. -/
def orthChange (lam : ℝ) (sig : Nat → ℝ) (sigT : ℝ) (S : Matrix (Fin n) (Fin n) ℝ) (hS : Sᵀ * S = 1)
    (W : Nat → Matrix (Fin m) (Fin m) ℝ) (hW : ∀ t, (W t)ᵀ * W t = 1) :
    Change ℝ (Fin n → ℝ) (Fin n → ℝ) (Fin m → ℝ) (Fin n → ℝ) (Fin n → ℝ) (Fin m → ℝ) where
  lam := lam
  sig := sig
  sigT := sigT
  x := fun v => S *ᵥ v
  dx := orthEquiv S hS
  u := fun t => orthEquiv (W t) (hW t)

theorem sameProb_of {lam : ℝ} {sig : Nat → ℝ} {sigT : ℝ} {S : Matrix (Fin n) (Fin n) ℝ} (hS : Sᵀ * S = 1)
    {W : Nat → Matrix (Fin m) (Fin m) ℝ} (hW : ∀ t, (W t)ᵀ * W t = 1) {P P' : NlProb n m}
    (h : SameNl lam sig sigT S W P P') (hm : m ≠ 0) :
    SameProb (orthChange lam sig sigT S hS W hW) P.toProb P'.toProb := by
  constructor
  · exact h.T
  · intro t; rfl
  · exact fun t x u => h.next t x u
  · exact fun t x u => h.cost t x u
  · intro t x _; rfl
  · intro t x hz; exact absurd (of_decide_eq_true hz) hm
  · intro t x y; exact (mulVec_sub S y x).symm
  · intro t x d; exact (mulVec_add S x d).symm
  · intro t u; rfl
  · exact h.costT
  · intro x d; exact (mulVec_add S x d).symm
  · exact h.x0

/-- The derivatives, the backward pass and the predicted improvement of the solvers commute with the change of
description. -/
theorem sameOracle_of {lam : ℝ} (hl : 0 < lam) {sig : Nat → ℝ} {sigT : ℝ} {S : Matrix (Fin n) (Fin n) ℝ} (hS : Sᵀ * S = 1)
    {W : Nat → Matrix (Fin m) (Fin m) ℝ} (hW : ∀ t, (W t)ᵀ * W t = 1) {P P' : NlProb n m}
    (hT : P'.T = P.T) {lin lin' : (Nat → Fin n → ℝ) → (Nat → Fin m → ℝ) → Lin ℝ n m}
    (hlin : ∀ xs us, lin' (fun t => S *ᵥ xs t) (fun t => W t *ᵥ us t) = changeLin lam S W (lin xs us))
    (hsym : ∀ xs us, SymmHess P.T (lin xs us)) {llt : ∀ m, Matrix (Fin m) (Fin m) ℝ → Bool} (h1 : LltSound llt)
    (h2 : LltComplete llt) (kind : Kind) :
    SameOracle (orthChange lam sig sigT S hS W hW) (changeLin lam S W) (changeArrays lam S W) P.T (SymmHess P.T)
      (oracle P lin llt kind) (oracle P' lin' llt kind) := by
  constructor
  · intro s; exact hsym _ _
  · intro s tau; exact hlin _ _
  · intro s tau hs
    have hb := backwardPass_change h1 h2 hl hS hW s.preg s.feas P.T hs s.fs s.dir
    have e : backwardPass llt (some (s.map (orthChange lam sig sigT S hS W hW) (changeLin lam S W)
          (changeArrays lam S W) P.T tau).preg) s.feas P'.T (changeLin lam S W s.lin).d (changeLin lam S W s.lin).LxT
          (changeLin lam S W s.lin).LxxT (fun t => S *ᵥ s.fs t) (changeArrays lam S W s.dir) =
        (backwardPass llt (some s.preg) s.feas P.T s.lin.d s.lin.LxT s.lin.LxxT s.fs s.dir).map
          (changeArrays lam S W) := by rw [hT]; exact hb
    have e' : (oracle P' lin' llt kind).backward (s.map (orthChange lam sig sigT S hS W hW) (changeLin lam S W)
          (changeArrays lam S W) P.T tau) =
        match backwardPass llt (some (s.map (orthChange lam sig sigT S hS W hW) (changeLin lam S W)
          (changeArrays lam S W) P.T tau).preg) s.feas P'.T (changeLin lam S W s.lin).d (changeLin lam S W s.lin).LxT
          (changeLin lam S W s.lin).LxxT (fun t => S *ᵥ s.fs t) (changeArrays lam S W s.dir) with
        | some g => (true, fun t => (g.out t).k, fun t dx => (g.out t).Kfb *ᵥ dx, g)
        | none => (false, fun t => W t *ᵥ s.k t, fun t dx => W t *ᵥ s.gain t (Sᵀ *ᵥ dx), changeArrays lam S W s.dir) :=
      rfl
    rw [e', e]
    simp only [oracle]
    cases backwardPass llt (some s.preg) s.feas P.T s.lin.d s.lin.LxT s.lin.LxxT s.fs s.dir with
    | none => rfl
    | some g =>
      simp only [Option.map_some, Prod.mk.injEq, true_and]
      refine ⟨rfl, ?_, trivial⟩
      funext t dx
      show (W t * (g.out t).Kfb * Sᵀ) *ᵥ dx = W t *ᵥ ((g.out t).Kfb *ᵥ (Sᵀ *ᵥ dx))
      simp only [mulVec_mulVec, Matrix.mul_assoc]
  · intro s tau; rfl
  · intro s tau
    simp only [oracle, hT]
    cases kind.feasibilityDriven
    · exact expected_change hS hW P.T s.dir
    · have := expectedFddp_change (lam := lam) hS hW P.T s.feas s.fs (fun t => s.xs t - s.xsTry t) s.dir
      simp only [mulVec_sub] at this
      exact this
  · intro t v; rfl
  · intro v; rfl
  · intro x; rfl

end Verif.Nl
