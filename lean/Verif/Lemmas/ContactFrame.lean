import Verif.Spec.ContactFrame
import Mathlib.Analysis.Calculus.Deriv.Add
import Mathlib.Analysis.Calculus.Deriv.Mul
import Mathlib.Analysis.Calculus.Deriv.Prod
import Mathlib.LinearAlgebra.Matrix.NonsingularInverse
import Mathlib.Tactic.Linarith
import Mathlib.Tactic.Ring
import Mathlib.Tactic.LinearCombination
import Mathlib.Tactic.Module
import Mathlib.Tactic.FinCases

/-! # Lemmas on contact frames: rotations and cross products, derivatives of moving frames -/

namespace Verif.Con

open Matrix

variable {nv : ℕ}

/-! ### Algebra -/

theorem skew_mulVec (u w : V3) : skew u *ᵥ w = u ⨯₃ w := by
  ext i
  fin_cases i <;> simp [skew, Matrix.mulVec, dotProduct, Fin.sum_univ_three, cross_apply] <;> ring

theorem skew_transpose (u : V3) : (skew u)ᵀ = -skew u := by
  ext i j
  fin_cases i <;> fin_cases j <;> simp [skew]

theorem skew_neg (u : V3) : skew (-u) = -skew u := by
  ext i j
  fin_cases i <;> fin_cases j <;> simp [skew]

theorem Rot.orth' {R : M3} (h : Rot R) : R * Rᵀ = 1 := mul_eq_one_comm.1 h.orth

theorem Rot.one : Rot 1 := ⟨by simp, by simp⟩

theorem Rot.transpose {R : M3} (h : Rot R) : Rot Rᵀ := ⟨by rw [transpose_transpose]; exact h.orth', by rw [det_transpose, h.det]⟩

theorem Rot.mul {R S : M3} (h : Rot R) (h' : Rot S) : Rot (R * S) := by
  refine ⟨?_, by rw [det_mul, h.det, h'.det, one_mul]⟩
  rw [transpose_mul, Matrix.mul_assoc, ← Matrix.mul_assoc Rᵀ, h.orth, Matrix.one_mul, h'.orth]

/-- A matrix maps cross products through its cofactors. -/
theorem cross_cofactor (R : M3) (u w : V3) : (R *ᵥ u) ⨯₃ (R *ᵥ w) = R.adjugateᵀ *ᵥ (u ⨯₃ w) := by
  ext i
  fin_cases i <;>
    simp [cross_apply, Matrix.mulVec, dotProduct, Fin.sum_univ_three, adjugate_fin_three] <;> ring

theorem Rot.cross {R : M3} (h : Rot R) (u w : V3) : (R *ᵥ u) ⨯₃ (R *ᵥ w) = R *ᵥ (u ⨯₃ w) := by
  rw [cross_cofactor]
  have : R.adjugate = Rᵀ := by
    have e : R.adjugate * R = 1 := by rw [adjugate_mul, h.det, one_smul]
    calc R.adjugate = R.adjugate * (R * Rᵀ) := by rw [h.orth', Matrix.mul_one]
      _ = Rᵀ := by rw [← Matrix.mul_assoc, e, Matrix.one_mul]
  rw [this, transpose_transpose]

theorem Rot.back {R : M3} (h : Rot R) (u : V3) : Rᵀ *ᵥ (R *ᵥ u) = u := by
  rw [mulVec_mulVec, h.orth, one_mulVec]

theorem Rot.forth {R : M3} (h : Rot R) (u : V3) : R *ᵥ (Rᵀ *ᵥ u) = u := by
  rw [mulVec_mulVec, h.orth', one_mulVec]

theorem Rot.skew_mul {R : M3} (h : Rot R) (u : V3) : R * skew u = skew (R *ᵥ u) * R := by
  refine Matrix.ext_of_mulVec_single fun i => ?_
  rw [← mulVec_mulVec, ← mulVec_mulVec, skew_mulVec, skew_mulVec, h.cross]

theorem Rot.dot {R : M3} (h : Rot R) (u w : V3) : (R *ᵥ u) ⬝ᵥ (R *ᵥ w) = u ⬝ᵥ w := by
  rw [dotProduct_mulVec, vecMul_mulVec, ← mulVec_transpose]
  simp [h.orth]

/-- Moving a motion to the contact frame, with the action matrix and directly. -/
theorem fXj_mulVec {M : Pose} (h : Rot M.rot) (X : Jac nv) (u : Fin nv → ℝ) :
    ((fXj M).mul X).mulVec u = M.actInv (X.mulVec u) := by
  simp only [fXj, Pose.inv, Pose.action, Mat6.mul, Jac.mulVec, Pose.actInv]
  congr 1
  · rw [add_mulVec, ← mulVec_mulVec, ← mulVec_mulVec, ← mulVec_mulVec, skew_mulVec, mulVec_sub, ← h.transpose.cross]
    simp [sub_eq_add_neg]
  · rw [add_mulVec, ← mulVec_mulVec, ← mulVec_mulVec]
    simp

theorem fXj_lin {M : Pose} (h : Rot M.rot) (X : Jac nv) (u : Fin nv → ℝ) :
    ((fXj M).mul X).lin *ᵥ u = (M.actInv (X.mulVec u)).lin := congrArg Six.lin (fXj_mulVec h X u)

theorem fXj_ang {M : Pose} (h : Rot M.rot) (X : Jac nv) (u : Fin nv → ℝ) :
    ((fXj M).mul X).ang *ᵥ u = (M.actInv (X.mulVec u)).ang := congrArg Six.ang (fXj_mulVec h X u)

theorem actInv_add (M : Pose) (m n : Six) : M.actInv (m.add n) = (M.actInv m).add (M.actInv n) := by
  simp only [Pose.actInv, Six.add, map_add, mulVec_add]
  congr 1
  rw [← mulVec_add]
  congr 1
  abel

/-! ### Derivatives -/

theorem hasDerivAt_mulVec {m n : ℕ} {A : ℝ → Matrix (Fin m) (Fin n) ℝ} {A' : Matrix (Fin m) (Fin n) ℝ} {u : ℝ → Fin n → ℝ}
    {u' : Fin n → ℝ} {t : ℝ} (hA : ∀ i j, HasDerivAt (fun s => A s i j) (A' i j) t) (hu : HasDerivAt u u' t) :
    HasDerivAt (fun s => A s *ᵥ u s) (A' *ᵥ u t + A t *ᵥ u') t := by
  rw [hasDerivAt_pi] at hu ⊢
  intro i
  have := HasDerivAt.fun_sum (u := Finset.univ) fun j _ => (hA i j).mul (hu j)
  refine (this.congr_deriv ?_)
  simp [Matrix.mulVec, dotProduct, Finset.sum_add_distrib]

theorem hasDerivAt_mulVec_const {m n : ℕ} {A : Matrix (Fin m) (Fin n) ℝ} {u : ℝ → Fin n → ℝ}
    {u' : Fin n → ℝ} {t : ℝ} (hu : HasDerivAt u u' t) : HasDerivAt (fun s => A *ᵥ u s) (A *ᵥ u') t := by
  refine (hasDerivAt_mulVec (A := fun _ => A) (A' := 0) (fun i j => hasDerivAt_const _ _) hu).congr_deriv ?_
  simp

theorem hasDerivAt_cross {u w : ℝ → V3} {u' w' : V3} {t : ℝ} (hu : HasDerivAt u u' t) (hw : HasDerivAt w w' t) :
    HasDerivAt (fun s => u s ⨯₃ w s) (u' ⨯₃ w t + u t ⨯₃ w') t := by
  rw [hasDerivAt_pi] at hu hw ⊢
  intro i
  fin_cases i <;> simp only [cross_apply]
  · exact (((hu 1).mul (hw 2)).sub ((hu 2).mul (hw 1))).congr_deriv (by simp; ring)
  · exact (((hu 2).mul (hw 0)).sub ((hu 0).mul (hw 2))).congr_deriv (by simp; ring)
  · exact (((hu 0).mul (hw 1)).sub ((hu 1).mul (hw 0))).congr_deriv (by simp; ring)

theorem Moves.mulVec {M : ℝ → Pose} {m : Six} {t : ℝ} (h : Moves M m t) {u : ℝ → V3} {u' : V3} (hu : HasDerivAt u u' t) :
    HasDerivAt (fun s => (M s).rot *ᵥ u s) ((M t).rot *ᵥ (m.ang ⨯₃ u t + u')) t := by
  refine (hasDerivAt_mulVec h.drot hu).congr_deriv ?_
  rw [← mulVec_mulVec, skew_mulVec, mulVec_add]

theorem Moves.tmulVec {M : ℝ → Pose} {m : Six} {t : ℝ} (h : Moves M m t) {u : ℝ → V3} {u' : V3} (hu : HasDerivAt u u' t) :
    HasDerivAt (fun s => (M s).rotᵀ *ᵥ u s) ((((M t).rotᵀ *ᵥ u t) ⨯₃ m.ang) + (M t).rotᵀ *ᵥ u') t := by
  refine (hasDerivAt_mulVec (A := fun s => (M s).rotᵀ) (A' := ((M t).rot * skew m.ang)ᵀ) (fun i j => h.drot j i) hu).congr_deriv ?_
  rw [transpose_mul, skew_transpose, ← mulVec_mulVec, neg_mulVec, skew_mulVec, cross_anticomm]

/-- The contact frame moves with the joint. -/
theorem Moves.frame {M : ℝ → Pose} {m : Six} {t : ℝ} (h : Moves M m t) {F : Pose} (hF : Rot F.rot) :
    Moves (fun s => (M s).mul F) (F.actInv m) t where
  rot s := (h.rot s).mul hF
  drot i j := by
    have := hasDerivAt_pi.1 (hasDerivAt_mulVec h.drot (hasDerivAt_const t (F.rot.col j))) i
    refine this.congr_deriv ?_
    simp only [mulVec_zero, add_zero, Pose.actInv, Pose.mul]
    have e : (M t).rot * F.rot * skew (F.rotᵀ *ᵥ m.ang) = (M t).rot * skew m.ang * F.rot := by
      rw [Matrix.mul_assoc, hF.skew_mul, hF.forth, Matrix.mul_assoc]
    rw [e]
    rfl
  dtrans := by
    have := h.dtrans.add (h.mulVec (hasDerivAt_const t F.trans))
    refine this.congr_deriv ?_
    simp only [Pose.actInv, Pose.mul, add_zero]
    rw [← mulVec_mulVec, hF.forth, ← mulVec_add]
    congr 1
    rw [sub_eq_add_neg, cross_anticomm]

/-- A placement seen from a fixed one moves with the same velocity. -/
theorem Moves.seen {M : ℝ → Pose} {m : Six} {t : ℝ} (h : Moves M m t) {F : Pose} (hF : Rot F.rot) :
    Moves (fun s => F.inv.mul (M s)) m t where
  rot s := hF.transpose.mul (h.rot s)
  drot i j := by
    have := hasDerivAt_pi.1 (hasDerivAt_mulVec_const (A := F.rotᵀ) (u := fun s => (M s).rot.col j)
      (hasDerivAt_pi.2 fun i => h.drot i j)) i
    refine this.congr_deriv ?_
    simp only [Pose.inv, Pose.mul]
    rw [Matrix.mul_assoc]
    rfl
  dtrans := by
    have := (hasDerivAt_mulVec_const (A := F.rotᵀ) h.dtrans).const_add (-(F.rotᵀ *ᵥ F.trans))
    refine this.congr_deriv ?_
    simp [Pose.inv, Pose.mul, mulVec_mulVec]

theorem HasSix.frame {f : ℝ → Six} {f' : Six} {t : ℝ} (h : HasSix f f' t) (F : Pose) :
    HasSix (fun s => F.actInv (f s)) (F.actInv f') t where
  lin := by
    refine (hasDerivAt_mulVec_const (h.lin.sub (hasDerivAt_cross (hasDerivAt_const t F.trans) h.ang))).congr_deriv ?_
    simp [Pose.actInv]
  ang := hasDerivAt_mulVec_const h.ang

theorem HasSix.addSmul {f g : ℝ → Six} {f' g' : Six} {t : ℝ} (hf : HasSix f f' t) (hg : HasSix g g' t) (c : ℝ) :
    HasSix (fun s => (f s).addSmul c (g s)) (f'.addSmul c g') t where
  lin := hf.lin.add (hg.lin.const_smul c)
  ang := hf.ang.add (hg.ang.const_smul c)

end Verif.Con
