import Verif.Spec.QuasiStatic
import Mathlib.Analysis.InnerProductSpace.PiL2
import Mathlib.Tactic.Linarith
import Mathlib.Tactic.FieldSimp
import Mathlib.Tactic.NormNum

/-!
# C96, C97: pseudo-inverses and quasi-static controls of the base classes
-/

set_option linter.unusedSectionVars false

namespace Verif.Qs

open Matrix
open Verif.Dense

/-! ## Norms -/

section Norm

variable {n m : ℕ}

theorem nrm_eq (v : Vec n) : nrm v = ‖(WithLp.toLp 2 v : EuclideanSpace ℝ (Fin n))‖ := by
  rw [EuclideanSpace.norm_eq, nrm]
  congr 1
  simp [dotProduct, sq]

theorem nrm_nonneg (v : Vec n) : 0 ≤ nrm v := Real.sqrt_nonneg _

theorem nrm_sq (v : Vec n) : nrm v ^ 2 = v ⬝ᵥ v :=
  Real.sq_sqrt (Finset.sum_nonneg fun i _ => mul_self_nonneg (v i))

theorem nrm_zero : nrm (0 : Vec n) = 0 := by simp [nrm]

theorem nrm_eq_zero {v : Vec n} : nrm v = 0 ↔ v = 0 := by
  rw [nrm_eq, norm_eq_zero]
  constructor
  · intro h; simpa using congrArg WithLp.ofLp h
  · rintro rfl; rfl

theorem nrm_neg (v : Vec n) : nrm (-v) = nrm v := by simp [nrm]

theorem nrm_add (v w : Vec n) : nrm (v + w) ≤ nrm v + nrm w := by
  rw [nrm_eq, nrm_eq, nrm_eq, WithLp.toLp_add]
  exact norm_add_le _ _

theorem nrm_sub_comm (v w : Vec n) : nrm (v - w) = nrm (w - v) := by rw [← nrm_neg, neg_sub]

theorem nrm_le {v : Vec n} {w : Vec m} (h : v ⬝ᵥ v ≤ w ⬝ᵥ w) : nrm v ≤ nrm w := Real.sqrt_le_sqrt h

theorem nrm_le_iff {v : Vec n} {w : Vec m} : nrm v ≤ nrm w ↔ v ⬝ᵥ v ≤ w ⬝ᵥ w := by
  refine ⟨fun h => ?_, nrm_le⟩
  rw [← nrm_sq, ← nrm_sq]
  exact pow_le_pow_left₀ (nrm_nonneg _) h 2

/-- A matrix with orthonormal columns keeps the norm. -/
theorem nrm_iso {U : Matrix (Fin n) (Fin m) ℝ} (h : Uᵀ * U = 1) (y : Vec m) :
    nrm (U *ᵥ y) = nrm y := by
  unfold nrm
  congr 1
  rw [dotProduct_mulVec, vecMul_mulVec, h, vecMul_one]

/-- The coordinates on orthonormal columns are not longer than the vector. -/
theorem nrm_coord {V : Matrix (Fin n) (Fin m) ℝ} (h : Vᵀ * V = 1) (v : Vec n) :
    nrm (Vᵀ *ᵥ v) ≤ nrm v := by
  refine nrm_le ?_
  have h0 : 0 ≤ (v - V *ᵥ (Vᵀ *ᵥ v)) ⬝ᵥ (v - V *ᵥ (Vᵀ *ᵥ v)) :=
    Finset.sum_nonneg fun i _ => mul_self_nonneg _
  have h1 : (V *ᵥ (Vᵀ *ᵥ v)) ⬝ᵥ (V *ᵥ (Vᵀ *ᵥ v)) = (Vᵀ *ᵥ v) ⬝ᵥ (Vᵀ *ᵥ v) := by
    rw [dotProduct_mulVec, vecMul_mulVec, h, vecMul_one]
  have h2 : v ⬝ᵥ (V *ᵥ (Vᵀ *ᵥ v)) = (Vᵀ *ᵥ v) ⬝ᵥ (Vᵀ *ᵥ v) := by
    rw [dotProduct_mulVec, mulVec_transpose]
  have h3 : (V *ᵥ (Vᵀ *ᵥ v)) ⬝ᵥ v = (Vᵀ *ᵥ v) ⬝ᵥ (Vᵀ *ᵥ v) := by rw [dotProduct_comm, h2]
  rw [dotProduct_sub, sub_dotProduct, sub_dotProduct, h1, h2, h3] at h0
  linarith

/-- A diagonal matrix amplifies by at most its largest entry. -/
theorem nrm_diag {c : ℝ} {s : Vec m} (hc : 0 ≤ c) (hs : ∀ i, |s i| ≤ c) (y : Vec m) :
    nrm (diagonal s *ᵥ y) ≤ c * nrm y := by
  have h : (diagonal s *ᵥ y) ⬝ᵥ (diagonal s *ᵥ y) ≤ (c • y) ⬝ᵥ (c • y) := by
    refine Finset.sum_le_sum fun i _ => ?_
    simp only [mulVec_diagonal, Pi.smul_apply, smul_eq_mul]
    have h1 : s i ^ 2 ≤ c ^ 2 := by
      rw [← sq_abs (s i)]
      exact pow_le_pow_left₀ (abs_nonneg _) (hs i) 2
    nlinarith [mul_le_mul_of_nonneg_right h1 (sq_nonneg (y i))]
  refine (nrm_le h).trans (le_of_eq ?_)
  rw [nrm_eq, nrm_eq, WithLp.toLp_smul, norm_smul, Real.norm_eq_abs, abs_of_nonneg hc]

end Norm

/-! ## C96: the pseudo-inverse -/

section Pinv

variable {a b : ℕ}

/-- There is one Moore-Penrose inverse. -/
theorem Penrose.unique {A : Mat a b} {P Q : Mat b a} (hP : Penrose A P) (hQ : Penrose A Q) : P = Q := by
  have h1 : A * P = A * Q := by
    have : (A * Q * (A * P))ᵀ = (A * P)ᵀ := by rw [← Matrix.mul_assoc, hQ.apa]
    rw [transpose_mul, hP.ap, hQ.ap, ← Matrix.mul_assoc, hP.apa] at this
    exact this.symm
  have h2 : P * A = Q * A := by
    have : (P * A * (Q * A))ᵀ = (P * A)ᵀ := by rw [Matrix.mul_assoc, ← Matrix.mul_assoc A, hQ.apa]
    rw [transpose_mul, hP.pa, hQ.pa, Matrix.mul_assoc, ← Matrix.mul_assoc A, hP.apa] at this
    exact this.symm
  rw [← hP.pap, Matrix.mul_assoc, h1, ← Matrix.mul_assoc, h2, hQ.pap]

/-- The factors `1 / x` or `0` of the code. -/
private noncomputable def inv' (tol : ℝ) (S : Vec n) : Vec n := fun i => if tol < S i then 1 / S i else 0

private theorem pinv_some (svd : Mat a b → Svd a b) (eps : ℝ) (A : Mat a b) (h : 0 < min a b) :
    pseudoInverse svd eps A
      = some ((svd A).V * diagonal (inv' (tolerance eps (svd A) h) (svd A).S) * (svd A).Uᵀ) := by
  rw [pseudoInverse, dif_pos h]
  rfl

private theorem tol_nonneg {eps : ℝ} (he : 0 ≤ eps) (s : Svd a b) (h : 0 < min a b) : 0 ≤ tolerance eps s h :=
  mul_nonneg (mul_nonneg he (Nat.cast_nonneg _)) (abs_nonneg _)

private theorem mul_inv' {tol : ℝ} (ht : 0 ≤ tol) {n : ℕ} (S : Vec n) (i : Fin n) :
    S i * inv' tol S i = if tol < S i then 1 else 0 := by
  unfold inv'
  split_ifs with h
  · exact mul_one_div_cancel (ht.trans_lt h).ne'
  · exact mul_zero _

private theorem AP {s : Svd a b} {A : Mat a b} (hs : s.Of A) {tol : ℝ} (ht : 0 ≤ tol) :
    A * (s.V * diagonal (inv' tol s.S) * s.Uᵀ)
      = s.U * diagonal (fun i => if tol < s.S i then (1 : ℝ) else 0) * s.Uᵀ := by
  conv_lhs => rw [hs.eq]
  have : s.U * diagonal s.S * s.Vᵀ * (s.V * diagonal (inv' tol s.S) * s.Uᵀ)
      = s.U * (diagonal s.S * (s.Vᵀ * s.V) * diagonal (inv' tol s.S)) * s.Uᵀ := by
    simp only [Matrix.mul_assoc]
  rw [this, hs.V, Matrix.mul_one, diagonal_mul_diagonal]
  simp only [mul_inv' ht]

private theorem PA {s : Svd a b} {A : Mat a b} (hs : s.Of A) {tol : ℝ} (ht : 0 ≤ tol) :
    s.V * diagonal (inv' tol s.S) * s.Uᵀ * A
      = s.V * diagonal (fun i => if tol < s.S i then (1 : ℝ) else 0) * s.Vᵀ := by
  conv_lhs => rw [hs.eq]
  have : s.V * diagonal (inv' tol s.S) * s.Uᵀ * (s.U * diagonal s.S * s.Vᵀ)
      = s.V * (diagonal (inv' tol s.S) * (s.Uᵀ * s.U) * diagonal s.S) * s.Vᵀ := by
    simp only [Matrix.mul_assoc]
  rw [this, hs.U, Matrix.mul_one, diagonal_mul_diagonal]
  simp only [mul_comm (inv' tol s.S _), mul_inv' ht]

private theorem PAP {s : Svd a b} {A : Mat a b} (hs : s.Of A) {tol : ℝ} (ht : 0 ≤ tol) :
    s.V * diagonal (inv' tol s.S) * s.Uᵀ * A * (s.V * diagonal (inv' tol s.S) * s.Uᵀ)
      = s.V * diagonal (inv' tol s.S) * s.Uᵀ := by
  rw [PA hs ht]
  have : s.V * diagonal (fun i => if tol < s.S i then (1 : ℝ) else 0) * s.Vᵀ
        * (s.V * diagonal (inv' tol s.S) * s.Uᵀ)
      = s.V * (diagonal (fun i => if tol < s.S i then (1 : ℝ) else 0) * (s.Vᵀ * s.V)
        * diagonal (inv' tol s.S)) * s.Uᵀ := by simp only [Matrix.mul_assoc]
  rw [this, hs.V, Matrix.mul_one, diagonal_mul_diagonal]
  congr 3
  funext i
  unfold inv'
  split_ifs <;> simp

private theorem APA {s : Svd a b} {A : Mat a b} (hs : s.Of A) {tol : ℝ} (ht : 0 ≤ tol) :
    A - A * (s.V * diagonal (inv' tol s.S) * s.Uᵀ) * A
      = s.U * diagonal (fun i => if tol < s.S i then 0 else s.S i) * s.Vᵀ := by
  rw [AP hs ht]
  conv_lhs => rw [hs.eq]
  have : s.U * diagonal (fun i => if tol < s.S i then (1 : ℝ) else 0) * s.Uᵀ * (s.U * diagonal s.S * s.Vᵀ)
      = s.U * (diagonal (fun i => if tol < s.S i then (1 : ℝ) else 0) * (s.Uᵀ * s.U) * diagonal s.S) * s.Vᵀ := by
    simp only [Matrix.mul_assoc]
  rw [this, hs.U, Matrix.mul_one, diagonal_mul_diagonal, ← Matrix.sub_mul, ← Matrix.mul_sub]
  congr 2
  ext i j
  by_cases h : i = j
  · subst h; simp only [Matrix.sub_apply, diagonal_apply_eq]; split_ifs <;> simp
  · simp [diagonal_apply_ne _ h]

/-- The largest singular value is the largest amplification. -/
private theorem first_le {s : Svd a b} {A : Mat a b} (hs : s.Of A) (h : 0 < min a b) {c : ℝ} (hc : Bounds A c) :
    |s.S ⟨0, h⟩| ≤ c := by
  rw [abs_of_nonneg (hs.nonneg _)]
  have h1 := hc (s.V *ᵥ Pi.single ⟨0, h⟩ 1)
  rw [nrm_iso hs.V] at h1
  have h2 : A *ᵥ (s.V *ᵥ Pi.single ⟨0, h⟩ 1) = s.U *ᵥ (diagonal s.S *ᵥ Pi.single ⟨0, h⟩ 1) := by
    conv_lhs => rw [hs.eq]
    rw [mulVec_mulVec, Matrix.mul_assoc, hs.V, Matrix.mul_one, mulVec_mulVec]
  rw [h2, nrm_iso hs.U] at h1
  have h3 : nrm (Pi.single ⟨0, h⟩ 1 : Vec (min a b)) = 1 := by simp [nrm]
  have h4 : nrm (diagonal s.S *ᵥ Pi.single ⟨0, h⟩ 1) = s.S ⟨0, h⟩ := by
    have : diagonal s.S *ᵥ Pi.single ⟨0, h⟩ 1 = Pi.single ⟨0, h⟩ (s.S ⟨0, h⟩) := by
      ext i
      rw [mulVec_diagonal]
      by_cases hi : i = ⟨0, h⟩
      · subst hi; simp
      · simp [Pi.single_eq_of_ne hi]
    rw [this, nrm]
    simp [Real.sqrt_mul_self (hs.nonneg _)]
  rw [h3, h4, mul_one] at h1
  exact h1

/-- A matrix amplifies by at most its first singular value. -/
private theorem first_bounds {s : Svd a b} {A : Mat a b} (hs : s.Of A) (h : 0 < min a b) :
    Bounds A (s.S ⟨0, h⟩) := by
  intro v
  have : A *ᵥ v = s.U *ᵥ (diagonal s.S *ᵥ (s.Vᵀ *ᵥ v)) := by
    conv_lhs => rw [hs.eq]
    rw [mulVec_mulVec, mulVec_mulVec, Matrix.mul_assoc]
  rw [this, nrm_iso hs.U]
  refine (nrm_diag (hs.nonneg _) (fun i => ?_) _).trans
    (mul_le_mul_of_nonneg_left (nrm_coord hs.V v) (hs.nonneg _))
  rw [abs_of_nonneg (hs.nonneg _)]
  exact hs.sorted _ _ (Fin.mk_le_of_le_val (Nat.zero_le _))

/-- **C96 (partial: no small singular values).** If each singular value is zero or above the cut-off, `pseudoInverse` is the
Moore-Penrose inverse. -/
theorem C96_penrose_partial (svd : Mat a b → Svd a b) (eps : ℝ) (he : 0 ≤ eps) (A : Mat a b) (h : 0 < min a b)
    (hs : (svd A).Of A) (hgap : ∀ i, (svd A).S i = 0 ∨ eps * (max b a : ℕ) * (svd A).S ⟨0, h⟩ < (svd A).S i) :
    ∃ P, pseudoInverse svd eps A = some P ∧ Penrose A P ∧ ∀ Q, Penrose A Q → Q = P := by
  have ht := tol_nonneg he (svd A) h
  have hP : Penrose A ((svd A).V * diagonal (inv' (tolerance eps (svd A) h) (svd A).S) * (svd A).Uᵀ) := by
    refine ⟨?_, PAP hs ht, ?_, ?_⟩
    · have := APA hs ht
      rw [sub_eq_iff_eq_add] at this
      have hz : (diagonal (fun i => if tolerance eps (svd A) h < (svd A).S i then 0 else (svd A).S i)
          : Matrix (Fin (min a b)) (Fin (min a b)) ℝ) = 0 := by
        rw [← diagonal_zero]
        congr 1
        funext i
        split_ifs with hi
        · rfl
        · rcases hgap i with h0 | h0
          · exact h0
          · rw [tolerance, abs_of_nonneg (hs.nonneg _)] at hi
            exact absurd h0 hi
      rw [hz, Matrix.mul_zero, Matrix.zero_mul, zero_add] at this
      exact this.symm
    · rw [AP hs ht, transpose_mul, transpose_mul, transpose_transpose, diagonal_transpose, Matrix.mul_assoc]
    · rw [PA hs ht, transpose_mul, transpose_mul, transpose_transpose, diagonal_transpose, Matrix.mul_assoc]
  exact ⟨_, pinv_some svd eps A h, hP, fun Q hQ => hQ.unique hP⟩

/-- **C96 (every matrix).** Without a condition on the singular values, `pseudoInverse` is a symmetric generalised inverse
(three of the four Moore-Penrose equations), misses the fourth by at most the cut-off, and does not amplify by more than the
inverse of the cut-off. -/
theorem C96_cutoff (svd : Mat a b → Svd a b) (eps : ℝ) (he : 0 ≤ eps) (A : Mat a b) (h : 0 < min a b)
    (hs : (svd A).Of A) :
    ∃ P, pseudoInverse svd eps A = some P ∧ P * A * P = P ∧ (A * P)ᵀ = A * P ∧ (P * A)ᵀ = P * A
      ∧ (∀ c, Bounds A c → Bounds (A - A * P * A) (eps * (max b a : ℕ) * c))
      ∧ ∀ v, 0 < eps * nrm (A *ᵥ v) → Bounds P (nrm v / (eps * (max b a : ℕ) * nrm (A *ᵥ v))) := by
  have ht := tol_nonneg he (svd A) h
  refine ⟨_, pinv_some svd eps A h, PAP hs ht, ?_, ?_, fun c hc v => ?_, fun v hv w => ?_⟩
  · rw [AP hs ht, transpose_mul, transpose_mul, transpose_transpose, diagonal_transpose, Matrix.mul_assoc]
  · rw [PA hs ht, transpose_mul, transpose_mul, transpose_transpose, diagonal_transpose, Matrix.mul_assoc]
  · rw [APA hs ht]
    have hc' := first_le hs h hc
    have hle : tolerance eps (svd A) h ≤ eps * (max b a : ℕ) * c :=
      mul_le_mul_of_nonneg_left hc' (mul_nonneg he (Nat.cast_nonneg _))
    rw [Matrix.mul_assoc, ← mulVec_mulVec, ← mulVec_mulVec, nrm_iso hs.U]
    refine (nrm_diag (ht.trans hle) (fun i => ?_) _).trans
      (mul_le_mul_of_nonneg_left (nrm_coord hs.V v) (ht.trans hle))
    split_ifs with hi
    · rw [abs_zero]; exact ht.trans hle
    · rw [abs_of_nonneg (hs.nonneg _)]; exact (not_lt.1 hi).trans hle
  · have hv0 : nrm v ≠ 0 := by
      intro h0
      rw [nrm_eq_zero] at h0
      rw [h0, mulVec_zero, nrm_zero, mul_zero] at hv
      exact lt_irrefl _ hv
    have hvp : 0 < nrm v := lt_of_le_of_ne (nrm_nonneg _) hv0.symm
    have hep : 0 < eps := lt_of_le_of_ne he (by rintro rfl; rw [zero_mul] at hv; exact lt_irrefl _ hv)
    have hAv : 0 < nrm (A *ᵥ v) := pos_of_mul_pos_right hv he
    have hm : (0 : ℝ) < (max b a : ℕ) := by
      have : 0 < max b a := lt_of_lt_of_le h ((min_le_left a b).trans (le_max_right b a))
      exact_mod_cast this
    have hfb := first_bounds hs h v
    have hS : nrm (A *ᵥ v) / nrm v ≤ (svd A).S ⟨0, h⟩ := (div_le_iff₀ hvp).2 hfb
    have hSp : 0 < (svd A).S ⟨0, h⟩ := lt_of_lt_of_le (div_pos hAv hvp) hS
    have htp : 0 < tolerance eps (svd A) h := by
      rw [tolerance, abs_of_nonneg hSp.le]
      positivity
    have hinv : 1 / tolerance eps (svd A) h ≤ nrm v / (eps * (max b a : ℕ) * nrm (A *ᵥ v)) := by
      rw [div_le_div_iff₀ htp (by positivity), one_mul, tolerance, abs_of_nonneg hSp.le]
      have := mul_le_mul_of_nonneg_left hfb (mul_nonneg he hm.le)
      nlinarith [this]
    rw [Matrix.mul_assoc, ← mulVec_mulVec, ← mulVec_mulVec, nrm_iso hs.V]
    have hc0 : 0 ≤ nrm v / (eps * (max b a : ℕ) * nrm (A *ᵥ v)) := by positivity
    refine (nrm_diag hc0 (fun i => ?_) _).trans (mul_le_mul_of_nonneg_left (nrm_coord hs.U w) hc0)
    unfold inv'
    split_ifs with hi
    · rw [abs_of_nonneg (one_div_nonneg.2 (hs.nonneg _))]
      exact (one_div_le_one_div_of_le htp hi.le).trans hinv
    · rw [abs_zero]; exact hc0

/-- **C96 (counterexample: small singular values).** Whatever decomposition is computed, with the default `epsilon = 1e-12` the
invertible matrix `diag(1, 1e-13)` does not get its inverse. -/
theorem C96_small_counterexample (svd : Mat 2 2 → Svd 2 2)
    (hsvd : (svd (diagonal ![1, 1 / 10 ^ 13])).Of (diagonal ![1, 1 / 10 ^ 13])) :
    let A : Mat 2 2 := diagonal ![1, 1 / 10 ^ 13]
    let R : Mat 2 2 := diagonal ![1, 10 ^ 13]
    A * R = 1 ∧ R * A = 1 ∧ Penrose A R ∧ ∃ P, pseudoInverse svd (1 / 10 ^ 12) A = some P ∧ P ≠ R := by
  intro A R
  have hAR : A * R = 1 := by
    rw [diagonal_mul_diagonal, ← diagonal_one]
    congr 1; funext i; fin_cases i <;> simp
  have hRA : R * A = 1 := by
    rw [diagonal_mul_diagonal, ← diagonal_one]
    congr 1; funext i; fin_cases i <;> simp
  refine ⟨hAR, hRA, ⟨by rw [hAR, Matrix.one_mul], by rw [hRA, Matrix.one_mul], by rw [hAR, transpose_one],
    by rw [hRA, transpose_one]⟩, ?_⟩
  obtain ⟨P, hP, -, -, -, -, hb⟩ := C96_cutoff svd (1 / 10 ^ 12) (by positivity) A (by norm_num) hsvd
  refine ⟨P, hP, ?_⟩
  rintro rfl
  have h1 : nrm (![1, 0] : Vec 2) = 1 := by simp [nrm]
  have h2 : A *ᵥ ![1, 0] = ![1, 0] := by
    ext i; rw [mulVec_diagonal]; fin_cases i <;> simp
  have h3 : R *ᵥ ![0, 1] = ![0, 10 ^ 13] := by
    ext i; rw [mulVec_diagonal]; fin_cases i <;> simp
  have h4 := hb ![1, 0] (by rw [h2, h1]; positivity) ![0, 1]
  rw [h2, h1, h3] at h4
  have h5 : nrm (![0, 1] : Vec 2) = 1 := by simp [nrm]
  have h6 : nrm (![0, 10 ^ 13] : Vec 2) = 10 ^ 13 := by
    have : (![0, 10 ^ 13] : Vec 2) ⬝ᵥ ![0, 10 ^ 13] = (10 ^ 13) ^ 2 := by simp [dotProduct, Fin.sum_univ_two, sq]
    rw [nrm, this, Real.sqrt_sq (by positivity)]
  rw [h5, h6] at h4
  norm_num at h4

/-- **C96 (counterexample: empty matrices).** For a matrix without rows or columns — the actuation matrix of a system without
actuators, say — the first singular value is read although there is none. -/
theorem C96_empty_counterexample (svd : Mat a b → Svd a b) (eps : ℝ) (A : Mat a b) :
    pseudoInverse svd eps A = none ↔ a = 0 ∨ b = 0 := by
  unfold pseudoInverse
  split_ifs with h
  · simp only [false_iff]; omega
  · simp only [true_iff]; omega

/-- The decomposition of a diagonal matrix with decreasing entries. -/
noncomputable def diagSvd (p q : ℝ) : Svd 2 2 where
  U := (1 : Mat 2 2)
  S := (![p, q] : Vec 2)
  V := (1 : Mat 2 2)

theorem diagSvd_of {p q : ℝ} (hq : 0 ≤ q) (hp : q ≤ p) : (diagSvd p q).Of (diagonal ![p, q]) := by
  refine ⟨?_, ?_, ?_, fun i => ?_, fun i j hij => ?_⟩
  · have e : (diagonal ![p, q] : Mat 2 2) = (1 : Mat 2 2) * (diagonal ![p, q] : Mat 2 2) * (1 : Mat 2 2)ᵀ := by simp
    exact e
  · change (1 : Mat 2 2)ᵀ * (1 : Mat 2 2) = 1
    simp
  · change (1 : Mat 2 2)ᵀ * (1 : Mat 2 2) = 1
    simp
  · change 0 ≤ (![p, q] : Vec 2) i
    revert i
    change ∀ i : Fin 2, 0 ≤ (![p, q] : Vec 2) i
    intro i
    fin_cases i
    · exact hq.trans hp
    · exact hq
  · change (![p, q] : Vec 2) j ≤ (![p, q] : Vec 2) i
    revert i j
    change ∀ i j : Fin 2, i ≤ j → (![p, q] : Vec 2) j ≤ (![p, q] : Vec 2) i
    intro i j hij
    fin_cases i <;> fin_cases j <;> simp at * <;> assumption

/-- The gap condition for `diag(3, 0)`. -/
theorem diagSvd_gap : ∀ i, (diagSvd 3 0).S i = 0
    ∨ 1 / 10 ^ 12 * ((max 2 2 : ℕ) : ℝ) * (diagSvd 3 0).S ⟨0, lt_min two_pos two_pos⟩ < (diagSvd 3 0).S i := by
  change ∀ i : Fin 2, (![3, 0] : Vec 2) i = 0 ∨ 1 / 10 ^ 12 * ((max 2 2 : ℕ) : ℝ) * (![3, 0] : Vec 2) 0 < (![3, 0] : Vec 2) i
  intro i
  fin_cases i
  · right; norm_num
  · left; simp

/-- The assumptions are met by `diag(3, 0)`, which gets its pseudo-inverse. -/
example : ∃ P, pseudoInverse (fun _ => diagSvd 3 0) (1 / 10 ^ 12) (diagonal ![3, 0]) = some P
    ∧ Penrose (diagonal ![3, 0]) P := by
  obtain ⟨P, h1, h2, -⟩ := C96_penrose_partial (fun _ => diagSvd 3 0) (1 / 10 ^ 12) (by positivity)
    (diagonal ![3, 0]) (by norm_num) (diagSvd_of le_rfl (by norm_num)) diagSvd_gap
  exact ⟨P, h1, h2⟩

/-- The assumption of `C96_small_counterexample` is met. -/
example : (diagSvd 1 (1 / 10 ^ 13)).Of (diagonal ![1, 1 / 10 ^ 13]) := diagSvd_of (by positivity) (by norm_num)

/-- The decomposition of a number. -/
noncomputable def numSvd (A : Mat 1 1) : Svd 1 1 where
  U := (fun _ _ => if 0 ≤ A 0 0 then 1 else -1 : Mat 1 1)
  S := (fun _ => |A 0 0| : Vec 1)
  V := (1 : Mat 1 1)

/-- There is a decomposition of every number. -/
theorem numSvd_of (A : Mat 1 1) : (numSvd A).Of A := by
  refine ⟨?_, ?_, ?_, fun i => abs_nonneg _, fun i j _ => le_rfl⟩
  · have e : A = (of fun _ _ => if 0 ≤ A 0 0 then 1 else -1 : Mat 1 1) * (diagonal fun _ => |A 0 0| : Mat 1 1)
        * (1 : Mat 1 1)ᵀ := by
      ext i j
      obtain rfl : i = 0 := Subsingleton.elim _ _
      obtain rfl : j = 0 := Subsingleton.elim _ _
      simp only [transpose_one, Matrix.mul_one, mul_diagonal, of_apply]
      split_ifs with h
      · rw [abs_of_nonneg h, one_mul]
      · rw [abs_of_neg (not_le.1 h), neg_one_mul, neg_neg]
    exact e
  · have e : (of fun _ _ => if 0 ≤ A 0 0 then 1 else -1 : Mat 1 1)ᵀ * (of fun _ _ => if 0 ≤ A 0 0 then 1 else -1 : Mat 1 1)
        = 1 := by
      ext i j
      obtain rfl : i = 0 := Subsingleton.elim _ _
      obtain rfl : j = 0 := Subsingleton.elim _ _
      simp only [Matrix.mul_apply, transpose_apply, of_apply, Finset.univ_unique, Finset.sum_singleton, one_apply_eq]
      split_ifs <;> norm_num
    exact e
  · change (1 : Mat 1 1)ᵀ * (1 : Mat 1 1) = 1
    simp

/-- A number gets its inverse. -/
theorem pinv_scalar (svd : Mat 1 1 → Svd 1 1) (hsvd : ∀ A, (svd A).Of A) (eps : ℝ) (he : 0 ≤ eps) (h1 : eps < 1) (r : ℝ)
    (hr : r ≠ 0) : pseudoInverse svd eps (fun _ _ => r) = some (fun _ _ => r⁻¹) := by
  set A : Mat 1 1 := fun _ _ => r with hA
  have hs := hsvd A
  have h : 0 < min 1 1 := by norm_num
  have hS : (svd A).S ⟨0, h⟩ ≠ 0 := by
    intro h0
    have hz : (svd A).S = 0 := by
      funext i
      have : i = ⟨0, h⟩ := by apply Fin.ext; have := i.2; omega
      rw [this, h0]; rfl
    have := hs.eq
    rw [hz] at this
    have h2 := congrFun (congrFun this 0) 0
    simp [hA] at h2
    exact hr h2
  have hp : 0 < (svd A).S ⟨0, h⟩ := lt_of_le_of_ne (hs.nonneg _) hS.symm
  obtain ⟨P, h2, -, h3⟩ := C96_penrose_partial svd eps he A h hs (fun i => by
    right
    have : i = ⟨0, h⟩ := by apply Fin.ext; have := i.2; omega
    rw [this]
    simpa using mul_lt_mul_of_pos_right h1 hp)
  rw [h2]
  congr 1
  have e1 : ∀ i j, A i j = r := fun _ _ => rfl
  set R : Mat 1 1 := fun _ _ => r⁻¹ with hR
  have e2 : ∀ i j, R i j = r⁻¹ := fun _ _ => rfl
  refine (h3 R ⟨?_, ?_, ?_, ?_⟩).symm <;> ext i j <;> simp [e1, e2, Matrix.mul_apply, hr]

end Pinv

/-! ## C97: quasi-static controls -/

section Newton

variable {nx ndx nu n : ℕ}

private theorem newton_fix {pinv : Mat n nu → Option (Mat nu n)} {f : Vec nu → Vec n} {F : Vec nu → Mat n nu} (tol : ℝ)
    {u : Vec nu} {P : Mat nu n} (hp : pinv (F u) = some P) (h0 : P *ᵥ f u = 0) (k : ℕ) (d : Option (Vec nu)) :
    ∃ d', newton pinv f F tol k u d = some (u, d') := by
  induction k generalizing d with
  | zero => exact ⟨d, rfl⟩
  | succ k ih =>
    simp only [newton, hp, h0, neg_zero, add_zero]
    split_ifs
    · exact ⟨_, rfl⟩
    · exact ih _

/-- With a constant matrix the first step is the last. -/
private theorem newton_affine {pinv : Mat n nu → Option (Mat nu n)} {f : Vec nu → Vec n} {F : Vec nu → Mat n nu} (tol : ℝ)
    {B : Mat n nu} (hF : ∀ u, F u = B) (hf : ∀ u v, f v - f u = B *ᵥ (v - u)) {P : Mat nu n} (hp : pinv B = some P)
    (hP : P * B * P = P) {k : ℕ} (hk : 0 < k) (u : Vec nu) (d : Option (Vec nu)) :
    ∃ d', newton pinv f F tol k u d = some (u - P *ᵥ f u, d') := by
  obtain ⟨k, rfl⟩ : ∃ j, k = j + 1 := ⟨k - 1, by omega⟩
  have h0 : P *ᵥ f (u - P *ᵥ f u) = 0 := by
    have h1 := hf u (u - P *ᵥ f u)
    rw [sub_sub_cancel_left, sub_eq_iff_eq_add] at h1
    rw [h1, mulVec_add, mulVec_neg, mulVec_neg, mulVec_mulVec, mulVec_mulVec, hP, neg_add_cancel]
  simp only [newton, hF, hp, ← sub_eq_add_neg]
  split_ifs
  · exact ⟨_, rfl⟩
  · exact newton_fix tol (by rw [hF]; exact hp) h0 k _

/-- The residual after the step, compared to the one of any control. -/
private theorem step_bound {f : Vec nu → Vec n} {B : Mat n nu} (hf : ∀ u v, f v - f u = B *ᵥ (v - u)) {P : Mat nu n}
    (hP : P * B * P = P) (hBP : (B * P)ᵀ = B * P) {e : ℝ} (he : Bounds (B - B * P * B) e) (u w : Vec nu) :
    nrm (f (u - P *ᵥ f u)) ≤ nrm (f w) + e * nrm (u - w) := by
  have h1 : f (u - P *ᵥ f u) = f u - (B * P) *ᵥ f u := by
    have := hf u (u - P *ᵥ f u)
    rw [sub_sub_cancel_left, sub_eq_iff_eq_add, mulVec_neg, mulVec_mulVec] at this
    rw [this]; abel
  have h2 : f u = f w + B *ᵥ (u - w) := by rw [← hf w u]; abel
  have h3 : f (u - P *ᵥ f u) = (f w - (B * P) *ᵥ f w) + (B - B * P * B) *ᵥ (u - w) := by
    rw [h1, h2, mulVec_add, sub_mulVec, mulVec_mulVec]
    abel
  rw [h3]
  refine (nrm_add _ _).trans (add_le_add (nrm_le ?_) (he _))
  set y := f w
  set Q := B * P with hQ
  have hQQ : Q * Q = Q := by rw [hQ, Matrix.mul_assoc, ← Matrix.mul_assoc P, hP]
  have h4 : (Q *ᵥ y) ⬝ᵥ (Q *ᵥ y) = y ⬝ᵥ (Q *ᵥ y) := by
    rw [dotProduct_mulVec, vecMul_mulVec, hBP, hQQ, ← mulVec_transpose, hBP, dotProduct_comm]
  have h5 : (Q *ᵥ y) ⬝ᵥ y = y ⬝ᵥ (Q *ᵥ y) := dotProduct_comm _ _
  have h6 : 0 ≤ (Q *ᵥ y) ⬝ᵥ (Q *ᵥ y) := Finset.sum_nonneg fun i _ => mul_self_nonneg _
  rw [dotProduct_sub, sub_dotProduct, sub_dotProduct, h4, h5]
  rw [h4] at h6
  linarith

/-- With the Moore-Penrose inverse the step ends at the closest of the best controls. -/
private theorem step_closest {f : Vec nu → Vec n} {B : Mat n nu} (hf : ∀ u v, f v - f u = B *ᵥ (v - u)) {P : Mat nu n}
    (hP : Penrose B P) (u w : Vec nu) (hw : nrm (f w) ≤ nrm (f (u - P *ᵥ f u))) :
    nrm (u - P *ᵥ f u - u) ≤ nrm (w - u) := by
  set v := u - P *ᵥ f u with hv
  have h1 : f v = f u - (B * P) *ᵥ f u := by
    have := hf u v
    rw [hv, sub_sub_cancel_left, sub_eq_iff_eq_add, mulVec_neg, mulVec_mulVec, ← hv] at this
    rw [this]; abel
  have hB0 : Bᵀ *ᵥ f v = 0 := by
    have : Bᵀ * (B * P) = Bᵀ := by
      rw [← hP.ap, ← transpose_mul, hP.apa]
    rw [h1, mulVec_sub, mulVec_mulVec, this, sub_self]
  have h2 : f w = f v + B *ᵥ (w - v) := by rw [← hf v w]; abel
  have hker : B *ᵥ (w - v) = 0 := by
    have h3 := nrm_le_iff.1 hw
    have h4 : f v ⬝ᵥ B *ᵥ (w - v) = 0 := by
      rw [dotProduct_mulVec, ← mulVec_transpose, hB0, zero_dotProduct]
    have h5 : B *ᵥ (w - v) ⬝ᵥ f v = 0 := by rw [dotProduct_comm, h4]
    rw [h2, dotProduct_add, add_dotProduct, add_dotProduct, h4, h5] at h3
    have h6 : (B *ᵥ (w - v)) ⬝ᵥ (B *ᵥ (w - v)) = 0 :=
      le_antisymm (by linarith) (Finset.sum_nonneg fun i _ => mul_self_nonneg _)
    exact nrm_eq_zero.1 (by rw [nrm, h6, Real.sqrt_zero])
  have h7 : (v - u) ⬝ᵥ (w - v) = 0 := by
    have : v - u = -((P * B) *ᵥ (P *ᵥ f u)) := by
      rw [mulVec_mulVec, hP.pap, hv]; abel
    rw [this, ← hP.pa, mulVec_transpose, neg_dotProduct, ← dotProduct_mulVec, ← mulVec_mulVec, hker, mulVec_zero,
      dotProduct_zero, neg_zero]
  refine nrm_le ?_
  have h8 : w - u = (v - u) + (w - v) := by abel
  have h9 : (w - v) ⬝ᵥ (v - u) = 0 := by rw [dotProduct_comm, h7]
  have h10 : 0 ≤ (w - v) ⬝ᵥ (w - v) := Finset.sum_nonneg fun i _ => mul_self_nonneg _
  rw [h8, dotProduct_add, add_dotProduct, add_dotProduct, h7, h9]
  linarith

/-- Where the last step started. -/
private theorem newton_last {pinv : Mat n nu → Option (Mat nu n)} {f : Vec nu → Vec n} {F : Vec nu → Mat n nu} {tol : ℝ}
    (k : ℕ) (u : Vec nu) (d : Option (Vec nu)) {v : Vec nu} {d' : Option (Vec nu)}
    (h : newton pinv f F tol (k + 1) u d = some (v, d')) :
    ∃ u' P, d' = some u' ∧ pinv (F u') = some P ∧ v = u' + -(P *ᵥ f u') := by
  induction k generalizing u d with
  | zero =>
    rw [newton] at h
    split at h
    · cases h
    · rename_i P hP
      simp only [newton, ite_self, Option.some.injEq, Prod.mk.injEq] at h
      exact ⟨u, P, h.2.symm, hP, h.1.symm⟩
  | succ k ih =>
    rw [newton] at h
    split at h
    · cases h
    · rename_i P hP
      simp only at h
      split_ifs at h
      · simp only [Option.some.injEq, Prod.mk.injEq] at h
        exact ⟨u, P, h.2.symm, hP, h.1.symm⟩
      · exact ih _ _ h

private theorem newton_total {pinv : Mat n nu → Option (Mat nu n)} {f : Vec nu → Vec n} {F : Vec nu → Mat n nu} {tol : ℝ}
    (hp : ∀ A, ∃ P, pinv A = some P) (k : ℕ) (u : Vec nu) (d : Option (Vec nu)) :
    ∃ v d', newton pinv f F tol k u d = some (v, d') := by
  induction k generalizing u d with
  | zero => exact ⟨u, d, rfl⟩
  | succ k ih =>
    obtain ⟨P, hP⟩ := hp (F u)
    simp only [newton, hP]
    split_ifs
    · exact ⟨_, _, rfl⟩
    · exact ih _ _

/-! ### The statements -/

theorem toVec_ofVec (v : Vec n) : toVec n (ofVec v) = v := by
  funext i
  simp [toVec, ofVec]

/-- **C97 (arguments).** `quasiStatic` throws exactly when `u` or `x` has a wrong size, and without controls it returns `u`
and the data as they are. -/
theorem C97_rejects (A : Action nx ndx nu) (pinv : Mat ndx nu → Option (Mat nu ndx)) (D : Diff nx n nu)
    (pinv' : Mat n nu → Option (Mat nu n)) (maxiter : ℕ) (tol : ℝ) (d : Option (Vec nu)) (u x : DVec ℝ) :
    (A.static pinv maxiter tol d u x = .throw ↔ u.size ≠ nu ∨ x.size ≠ nx)
    ∧ (D.static pinv' maxiter tol d u x = .throw ↔ u.size ≠ nu ∨ x.size ≠ nx)
    ∧ (u.size = nu → x.size = nx → nu = 0 →
        A.static pinv maxiter tol d u x = .ok u d ∧ D.static pinv' maxiter tol d u x = .ok u d) := by
  refine ⟨?_, ?_, fun h1 h2 h3 => ?_⟩
  · unfold Action.static
    split_ifs with h1 h2 h3 <;> simp_all
    split <;> simp
  · unfold Diff.static
    split_ifs with h1 h2 h3 <;> simp_all
    split <;> simp
  · simp [Action.static, Diff.static, h1, h2, h3]

private theorem action_ok {A : Action nx ndx nu} {pinv : Mat ndx nu → Option (Mat nu ndx)} {maxiter : ℕ} {tol : ℝ}
    {d d' : Option (Vec nu)} {u x : DVec ℝ} (hu : u.size = nu) (hx : x.size = nx) (hnu : 0 < nu) {v : Vec nu}
    (h : newton pinv (fun v => A.diff (toVec nx x) (A.next (toVec nx x) v)) (A.fu (toVec nx x)) tol maxiter (toVec nu u) d
      = some (v, d')) : A.static pinv maxiter tol d u x = .ok (ofVec v) d' := by
  simp only [Action.static, hu, hx, ne_eq, not_true_eq_false, if_false, hnu.ne', not_false_eq_true, if_true, h]

private theorem diff_ok {D : Diff nx n nu} {pinv : Mat n nu → Option (Mat nu n)} {maxiter : ℕ} {tol : ℝ}
    {d d' : Option (Vec nu)} {u x : DVec ℝ} (hu : u.size = nu) (hx : x.size = nx) (hnu : 0 < nu) {v : Vec nu}
    (h : newton pinv (D.xout (toVec nx x)) (D.fu (toVec nx x)) tol maxiter (toVec nu u) d
      = some (v, d')) : D.static pinv maxiter tol d u x = .ok (ofVec v) d' := by
  simp only [Diff.static, hu, hx, ne_eq, not_true_eq_false, if_false, hnu.ne', not_false_eq_true, if_true, h]

private theorem bounds_zero {a b : ℕ} {A : Mat a b} (h : A = 0) : Bounds A 0 := fun v => by
  rw [h, zero_mulVec, nrm_zero, zero_mul]

/-- **C97 (affine actions).** If the displacement is affine in the control and no singular value of `Fu` falls below the
cut-off, any positive number of iterations gives a control that moves the state as little as possible, and of these the
closest to the given control. In particular it holds the state if some control does. -/
theorem C97_affine_action_partial (A : Action nx ndx nu) (svd : Mat ndx nu → Svd ndx nu) (eps : ℝ) (he : 0 ≤ eps)
    (hndx : 0 < ndx) (hnu : 0 < nu) (maxiter : ℕ) (hk : 0 < maxiter) (tol : ℝ) (d : Option (Vec nu)) (u x : DVec ℝ)
    (hu : u.size = nu) (hx : x.size = nx) (B : Mat ndx nu) (hA : A.Affine (toVec nx x) B) (hs : (svd B).Of B)
    (hgap : ∀ i, (svd B).S i = 0 ∨ eps * (max nu ndx : ℕ) * (svd B).S ⟨0, lt_min hndx hnu⟩ < (svd B).S i) :
    ∃ v d', A.static (pseudoInverse svd eps) maxiter tol d u x = .ok (ofVec v) d'
      ∧ (∀ w, A.drift (toVec nx x) v ≤ A.drift (toVec nx x) w)
      ∧ (∀ w, A.drift (toVec nx x) w ≤ A.drift (toVec nx x) v → nrm (v - toVec nu u) ≤ nrm (w - toVec nu u))
      ∧ ((∃ w, A.Holds (toVec nx x) w) → A.Holds (toVec nx x) v) := by
  obtain ⟨P, h1, hP, -⟩ := C96_penrose_partial svd eps he B (lt_min hndx hnu) hs hgap
  obtain ⟨d', h2⟩ := newton_affine tol hA.1 hA.2 h1 hP.pap hk (toVec nu u) d
  have hle : ∀ w, A.drift (toVec nx x) (toVec nu u - P *ᵥ A.diff (toVec nx x) (A.next (toVec nx x) (toVec nu u)))
      ≤ A.drift (toVec nx x) w := fun w => by
    have := step_bound hA.2 hP.pap hP.ap (bounds_zero (by rw [hP.apa, sub_self])) (toVec nu u) w
    rwa [zero_mul, add_zero] at this
  refine ⟨_, d', action_ok hu hx hnu h2, hle, fun w hw => step_closest hA.2 hP _ _ hw, ?_⟩
  rintro ⟨w, hw⟩
  have h3 := hle w
  unfold Action.drift at h3
  rw [show A.diff (toVec nx x) (A.next (toVec nx x) w) = 0 from hw, nrm_zero] at h3
  exact nrm_eq_zero.1 (le_antisymm h3 (nrm_nonneg _))

/-- **C97 (affine differential actions).** The same for the acceleration of a differential model. -/
theorem C97_affine_diff_partial (D : Diff nx n nu) (svd : Mat n nu → Svd n nu) (eps : ℝ) (he : 0 ≤ eps)
    (hn : 0 < n) (hnu : 0 < nu) (maxiter : ℕ) (hk : 0 < maxiter) (tol : ℝ) (d : Option (Vec nu)) (u x : DVec ℝ)
    (hu : u.size = nu) (hx : x.size = nx) (B : Mat n nu) (hD : D.Affine (toVec nx x) B) (hs : (svd B).Of B)
    (hgap : ∀ i, (svd B).S i = 0 ∨ eps * (max nu n : ℕ) * (svd B).S ⟨0, lt_min hn hnu⟩ < (svd B).S i) :
    ∃ v d', D.static (pseudoInverse svd eps) maxiter tol d u x = .ok (ofVec v) d'
      ∧ (∀ w, nrm (D.xout (toVec nx x) v) ≤ nrm (D.xout (toVec nx x) w))
      ∧ (∀ w, nrm (D.xout (toVec nx x) w) ≤ nrm (D.xout (toVec nx x) v) →
          nrm (v - toVec nu u) ≤ nrm (w - toVec nu u))
      ∧ ((∃ w, D.xout (toVec nx x) w = 0) → D.xout (toVec nx x) v = 0) := by
  obtain ⟨P, h1, hP, -⟩ := C96_penrose_partial svd eps he B (lt_min hn hnu) hs hgap
  obtain ⟨d', h2⟩ := newton_affine tol hD.1 hD.2 h1 hP.pap hk (toVec nu u) d
  have hle : ∀ w, nrm (D.xout (toVec nx x) (toVec nu u - P *ᵥ D.xout (toVec nx x) (toVec nu u)))
      ≤ nrm (D.xout (toVec nx x) w) := fun w => by
    have := step_bound hD.2 hP.pap hP.ap (bounds_zero (by rw [hP.apa, sub_self])) (toVec nu u) w
    rwa [zero_mul, add_zero] at this
  refine ⟨_, d', diff_ok hu hx hnu h2, hle, fun w hw => step_closest hD.2 hP _ _ hw, ?_⟩
  rintro ⟨w, hw⟩
  have h3 := hle w
  rw [hw, nrm_zero] at h3
  exact nrm_eq_zero.1 (le_antisymm h3 (nrm_nonneg _))

/-- **C97 (`quasiStatic_x`).** On the same models the version that returns the control starts from zero: among the controls with the
least drift (least acceleration for a differential model) it returns the one of least norm, and one that holds the state if there
is one. -/
theorem C97_static_x_partial (A : Action nx ndx nu) (svd : Mat ndx nu → Svd ndx nu) (D : Diff nx n nu)
    (svd' : Mat n nu → Svd n nu) (eps : ℝ) (he : 0 ≤ eps) (hndx : 0 < ndx) (hn : 0 < n) (hnu : 0 < nu) (maxiter : ℕ)
    (hk : 0 < maxiter) (tol : ℝ) (d : Option (Vec nu)) (x : DVec ℝ) (hx : x.size = nx)
    (B : Mat ndx nu) (hA : A.Affine (toVec nx x) B) (hs : (svd B).Of B)
    (hgap : ∀ i, (svd B).S i = 0 ∨ eps * (max nu ndx : ℕ) * (svd B).S ⟨0, lt_min hndx hnu⟩ < (svd B).S i)
    (B' : Mat n nu) (hD : D.Affine (toVec nx x) B') (hs' : (svd' B').Of B')
    (hgap' : ∀ i, (svd' B').S i = 0 ∨ eps * (max nu n : ℕ) * (svd' B').S ⟨0, lt_min hn hnu⟩ < (svd' B').S i) :
    (∃ v d', A.staticX (pseudoInverse svd eps) maxiter tol d x = .ok (ofVec v) d'
      ∧ (∀ w, A.drift (toVec nx x) v ≤ A.drift (toVec nx x) w)
      ∧ (∀ w, A.drift (toVec nx x) w ≤ A.drift (toVec nx x) v → nrm v ≤ nrm w)
      ∧ ((∃ w, A.Holds (toVec nx x) w) → A.Holds (toVec nx x) v))
    ∧ (∃ v d', D.staticX (pseudoInverse svd' eps) maxiter tol d x = .ok (ofVec v) d'
      ∧ (∀ w, nrm (D.xout (toVec nx x) v) ≤ nrm (D.xout (toVec nx x) w))
      ∧ (∀ w, nrm (D.xout (toVec nx x) w) ≤ nrm (D.xout (toVec nx x) v) → nrm v ≤ nrm w)
      ∧ ((∃ w, D.xout (toVec nx x) w = 0) → D.xout (toVec nx x) v = 0)) := by
  have h0 : toVec nu (⟨nu, fun _ => 0⟩ : DVec ℝ) = 0 := by funext i; simp [toVec]
  constructor
  · obtain ⟨v, d', h1, h2, h3, h4⟩ := C97_affine_action_partial A svd eps he hndx hnu maxiter hk tol d ⟨nu, fun _ => 0⟩ x rfl hx
      B hA hs hgap
    refine ⟨v, d', h1, h2, fun w hw => ?_, h4⟩
    have := h3 w hw
    rwa [h0, sub_zero, sub_zero] at this
  · obtain ⟨v, d', h1, h2, h3, h4⟩ := C97_affine_diff_partial D svd' eps he hn hnu maxiter hk tol d ⟨nu, fun _ => 0⟩ x rfl hx
      B' hD hs' hgap'
    refine ⟨v, d', h1, h2, fun w hw => ?_, h4⟩
    have := h3 w hw
    rwa [h0, sub_zero, sub_zero] at this

/-- **C97 (affine, with small singular values).** Whatever the singular values, no control `w` moves the state less by more
than the cut-off times the distance from the given control to `w`. -/
theorem C97_cutoff_partial (A : Action nx ndx nu) (svd : Mat ndx nu → Svd ndx nu) (eps : ℝ) (he : 0 ≤ eps)
    (hndx : 0 < ndx) (hnu : 0 < nu) (maxiter : ℕ) (hk : 0 < maxiter) (tol : ℝ) (d : Option (Vec nu)) (u x : DVec ℝ)
    (hu : u.size = nu) (hx : x.size = nx) (B : Mat ndx nu) (hA : A.Affine (toVec nx x) B) (hs : (svd B).Of B)
    (c : ℝ) (hc : Bounds B c) :
    ∃ v d', A.static (pseudoInverse svd eps) maxiter tol d u x = .ok (ofVec v) d'
      ∧ ∀ w, A.drift (toVec nx x) v
          ≤ A.drift (toVec nx x) w + eps * (max nu ndx : ℕ) * c * nrm (toVec nu u - w) := by
  obtain ⟨P, h1, hpap, hap, -, hb, -⟩ := C96_cutoff svd eps he B (lt_min hndx hnu) hs
  obtain ⟨d', h2⟩ := newton_affine tol hA.1 hA.2 h1 hpap hk (toVec nu u) d
  exact ⟨_, d', action_ok hu hx hnu h2, fun w => step_bound hA.2 hpap hap (hb c hc) (toVec nu u) w⟩

/-- **C97 (nonlinear).** For a model that is not affine: if `Fu` has full row rank at every control (and its singular values
are above the cut-off), and the control returned is within `tol` of the one at which the data was last evaluated, then the
state moves by at most `L tol²`, where `L` bounds the curvature. -/
theorem C97_newton_partial (A : Action nx ndx nu) (svd : Mat ndx nu → Svd ndx nu) (hsvd : ∀ B, (svd B).Of B) (eps : ℝ)
    (he : 0 ≤ eps) (hndx : 0 < ndx) (hnu : 0 < nu) (maxiter : ℕ) (hk : 0 < maxiter) (tol : ℝ)
    (d : Option (Vec nu)) (u x : DVec ℝ) (hu : u.size = nu) (hx : x.size = nx) (L : ℝ) (hL : 0 ≤ L)
    (hA : Smooth (fun v => A.diff (toVec nx x) (A.next (toVec nx x) v)) (A.fu (toVec nx x)) L)
    (hrank : ∀ v, ∃ R : Mat nu ndx, A.fu (toVec nx x) v * R = 1)
    (hgap : ∀ v i, (svd (A.fu (toVec nx x) v)).S i = 0
      ∨ eps * (max nu ndx : ℕ) * (svd (A.fu (toVec nx x) v)).S ⟨0, lt_min hndx hnu⟩ < (svd (A.fu (toVec nx x) v)).S i) :
    ∃ v u', A.static (pseudoInverse svd eps) maxiter tol d u x = .ok (ofVec v) (some u')
      ∧ (nrm (v - u') ≤ tol → A.drift (toVec nx x) v ≤ L * tol ^ 2) := by
  obtain ⟨k, rfl⟩ : ∃ j, maxiter = j + 1 := ⟨maxiter - 1, by omega⟩
  obtain ⟨v, d', h1⟩ := newton_total (pinv := pseudoInverse svd eps)
    (f := fun v => A.diff (toVec nx x) (A.next (toVec nx x) v)) (F := A.fu (toVec nx x)) (tol := tol)
    (fun B => by obtain ⟨P, h, -⟩ := C96_cutoff svd eps he B (lt_min hndx hnu) (hsvd B); exact ⟨P, h⟩) (k + 1)
    (toVec nu u) d
  obtain ⟨u', P, rfl, hP, hv⟩ := newton_last k _ _ h1
  refine ⟨v, u', action_ok hu hx hnu h1, fun ht => ?_⟩
  obtain ⟨P', hP', hpen, -⟩ := C96_penrose_partial svd eps he _ (lt_min hndx hnu) (hsvd _) (hgap u')
  rw [hP] at hP'
  cases hP'
  obtain ⟨R, hR⟩ := hrank u'
  have hFP : A.fu (toVec nx x) u' * P = 1 := by
    have := congrArg (· * R) hpen.apa
    simpa only [Matrix.mul_assoc, hR, Matrix.mul_one] using this
  have h3 := hA u' v
  have h4 : v - u' = -(P *ᵥ A.diff (toVec nx x) (A.next (toVec nx x) u')) := by rw [hv]; abel
  have h5 : A.diff (toVec nx x) (A.next (toVec nx x) v) - A.diff (toVec nx x) (A.next (toVec nx x) u')
      - A.fu (toVec nx x) u' *ᵥ (v - u') = A.diff (toVec nx x) (A.next (toVec nx x) v) := by
    rw [h4, mulVec_neg, mulVec_mulVec, hFP, one_mulVec]; abel
  simp only [h5] at h3
  exact h3.trans (mul_le_mul_of_nonneg_left (pow_le_pow_left₀ (nrm_nonneg _) ht 2) hL)

end Newton

/-! ### The integrators -/

section Integrated

variable {m nw nu : ℕ}

open Verif.Integrators in
/-- **C97 (integrators).** If the differential model's `quasiStatic` gives a control without acceleration and the
parametrisation reproduces constant controls, then a step of the Euler or of a Runge-Kutta integrator from a state at rest,
with the control returned by the integrator's `quasiStatic`, returns the same state. -/
theorem C97_integrators (D : DiffModel ℝ m nw) (C : Ctl ℝ nw nu) (params : Vec nw → Vec nu)
    (hC : ∀ t w, C t *ᵥ params w = w) (x : X ℝ m) (hx : tail x = 0) (inner : Vec nw → Option (Vec nw)) (w : Vec nw)
    (hw : inner 0 = some w) (h0 : D.xout x w = 0) (s : Step ℝ) (ty : Controls.RKType) (dt : ℝ) :
    ∃ u, integratedStatic inner params = some u ∧ (∀ d, (eulerCalc D C s d x u).xnext = x) ∧ rkNext D C ty dt x u = x := by
  refine ⟨params w, by rw [integratedStatic, hw]; rfl, fun d => ?_, ?_⟩
  · funext i
    simp only [eulerCalc, hC, h0, hx]
    rcases i with i | i <;> simp [join]
  · have hst : ∀ i, (rkStage D C ty dt x (params w) i).k = 0 := by
      intro i
      induction i with
      | zero =>
        simp only [rkStage, hC, h0, hx]
        funext j; rcases j with j | j <;> rfl
      | succ i ih =>
        have hy : (fun j => x j + dt * rkC ty (i + 1) * (rkStage D C ty dt x (params w) i).k j) = x := by
          funext j; rw [ih]; simp
        simp only [rkStage, hy, hC, h0, hx]
        funext j; rcases j with j | j <;> rfl
    funext j
    simp only [rkNext, hst]
    cases ty <;> simp [rkSum]

open Verif.Integrators in
/-- **C97 (integrators of affine models).** A model with the base class's `quasiStatic`, whose acceleration at `x` is affine
in the control and zero for some control: the step of the integrators is at rest. -/
theorem C97_integrated_affine_partial (D : DiffModel ℝ m nw) (C : Ctl ℝ nw nu) (params : Vec nw → Vec nu)
    (hC : ∀ t w, C t *ᵥ params w = w) (x : X ℝ m) (hx : tail x = 0) (svd : Mat m nw → Svd m nw) (eps : ℝ) (he : 0 ≤ eps)
    (hm : 0 < m) (hnw : 0 < nw) (maxiter : ℕ) (hk : 0 < maxiter) (tol : ℝ) (B : Mat m nw) (hF : ∀ w, D.Fu x w = B)
    (hD : ∀ w z, D.xout x z - D.xout x w = B *ᵥ (z - w)) (hex : ∃ w, D.xout x w = 0) (hs : (svd B).Of B)
    (hgap : ∀ i, (svd B).S i = 0 ∨ eps * (max nw m : ℕ) * (svd B).S ⟨0, lt_min hm hnw⟩ < (svd B).S i)
    (s : Step ℝ) (ty : Controls.RKType) (dt : ℝ) :
    ∃ u, integratedStatic (innerStatic D (pseudoInverse svd eps) maxiter tol x) params = some u
      ∧ (∀ d, (eulerCalc D C s d x u).xnext = x) ∧ rkNext D C ty dt x u = x := by
  obtain ⟨P, h1, hP, -⟩ := C96_penrose_partial svd eps he B (lt_min hm hnw) hs hgap
  obtain ⟨d', h2⟩ := newton_affine tol hF hD h1 hP.pap hk (0 : Vec nw) none
  obtain ⟨w, hw⟩ := hex
  have h3 := step_bound hD hP.pap hP.ap (bounds_zero (by rw [hP.apa, sub_self])) (0 : Vec nw) w
  rw [hw, nrm_zero, zero_mul, add_zero] at h3
  refine C97_integrators D C params hC x hx _ _ ?_ (nrm_eq_zero.1 (le_antisymm h3 (nrm_nonneg _))) s ty dt
  rw [innerStatic, if_pos hnw.ne', h2]
  rfl

end Integrated

/-! ### Models that meet the hypotheses -/

/-- The displacement is `(3 u₀ - 6, 0)`: the second control has no effect. -/
def plane : Action 2 2 2 where
  next x u := x + (diagonal ![3, 0] *ᵥ u - ![6, 0])
  fu _ _ := diagonal ![3, 0]
  diff x y := y - x

/-- C97 applies to it: from the control `(0, 5)` the call returns a control that holds the state. -/
example (x : Vec 2) (maxiter : ℕ) (hk : 0 < maxiter) (tol : ℝ) :
    ∃ v d', plane.static (pseudoInverse (fun _ => diagSvd 3 0) (1 / 10 ^ 12)) maxiter tol none (ofVec ![0, 5]) (ofVec x)
      = .ok (ofVec v) d' ∧ plane.Holds x v := by
  obtain ⟨v, d', h1, -, -, h2⟩ := C97_affine_action_partial plane (fun _ => diagSvd 3 0) (1 / 10 ^ 12) (by positivity) two_pos
    two_pos maxiter hk tol none (ofVec ![0, 5]) (ofVec x) rfl rfl (diagonal ![3, 0])
    ⟨fun _ => rfl, fun u v => by simp only [plane, mulVec_sub]; abel⟩ (diagSvd_of le_rfl (by norm_num)) diagSvd_gap
  refine ⟨v, d', h1, ?_⟩
  rw [toVec_ofVec] at h2
  refine h2 ⟨![2, 0], ?_⟩
  funext i
  simp only [plane, Pi.sub_apply, Pi.add_apply, mulVec_diagonal]
  fin_cases i <;> norm_num

/-- The decomposition of a row with two entries. -/
noncomputable def rowSvd (A : Mat 1 2) : Svd 1 2 where
  U := (1 : Mat 1 1)
  S := (fun _ => nrm (A 0) : Vec 1)
  V := (of fun i _ => if nrm (A 0) = 0 then ![1, 0] i else A 0 i / nrm (A 0) : Matrix (Fin 2) (Fin 1) ℝ)

theorem rowSvd_of (A : Mat 1 2) : (rowSvd A).Of A := by
  refine ⟨?_, ?_, ?_, fun i => nrm_nonneg _, fun i j _ => le_rfl⟩
  · have e : A = (1 : Mat 1 1) * (diagonal fun _ => nrm (A 0) : Mat 1 1)
        * (of fun i _ => if nrm (A 0) = 0 then ![1, 0] i else A 0 i / nrm (A 0) : Matrix (Fin 2) (Fin 1) ℝ)ᵀ := by
      ext i j
      obtain rfl : i = 0 := Subsingleton.elim _ _
      simp only [Matrix.one_mul, diagonal_mul, transpose_apply, of_apply]
      split_ifs with h
      · rw [h, zero_mul]
        exact congrFun (nrm_eq_zero.1 h) j
      · rw [mul_div_cancel₀ _ h]
    exact e
  · change (1 : Mat 1 1)ᵀ * (1 : Mat 1 1) = 1
    simp
  · have e : (of fun i _ => if nrm (A 0) = 0 then ![1, 0] i else A 0 i / nrm (A 0) : Matrix (Fin 2) (Fin 1) ℝ)ᵀ
        * (of fun i _ => if nrm (A 0) = 0 then ![1, 0] i else A 0 i / nrm (A 0) : Matrix (Fin 2) (Fin 1) ℝ) = 1 := by
      ext i j
      obtain rfl : i = 0 := Subsingleton.elim _ _
      obtain rfl : j = 0 := Subsingleton.elim _ _
      simp only [Matrix.mul_apply, transpose_apply, of_apply, Fin.sum_univ_two, one_apply_eq]
      split_ifs with h
      · simp
      · have h2 : nrm (A 0) ^ 2 = A 0 0 * A 0 0 + A 0 1 * A 0 1 := by rw [nrm_sq, dotProduct, Fin.sum_univ_two]
        have h3 : nrm (A 0) ^ 2 ≠ 0 := pow_ne_zero _ h
        field_simp
        linarith
    exact e

/-- The displacement is `u₀ + u₁²`. -/
def parabola : Action 1 1 2 where
  next x u := fun i => x i + (u 0 + u 1 ^ 2)
  fu _ u := of fun _ j => ![1, 2 * u 1] j
  diff x y := y - x

/-- The hypotheses of the nonlinear statement hold for it, with `L = 1`. -/
example (x : Vec 1) (u : Vec 2) (maxiter : ℕ) (hk : 0 < maxiter) (tol : ℝ) :
    ∃ v u', parabola.static (pseudoInverse rowSvd (1 / 10 ^ 12)) maxiter tol none (ofVec u) (ofVec x)
      = .ok (ofVec v) (some u') ∧ (nrm (v - u') ≤ tol → parabola.drift (toVec 1 (ofVec x)) v ≤ 1 * tol ^ 2) := by
  refine C97_newton_partial parabola rowSvd rowSvd_of (1 / 10 ^ 12) (by positivity) one_pos two_pos maxiter hk tol none
    (ofVec u) (ofVec x) rfl rfl 1 zero_le_one (fun u v => ?_) (fun v => ⟨of fun i _ => ![1, 0] i, ?_⟩) (fun v i => ?_)
  · rw [nrm_sq, one_mul]
    have h1 : parabola.diff (toVec 1 (ofVec x)) (parabola.next (toVec 1 (ofVec x)) v)
        - parabola.diff (toVec 1 (ofVec x)) (parabola.next (toVec 1 (ofVec x)) u)
        - parabola.fu (toVec 1 (ofVec x)) u *ᵥ (v - u) = fun _ => (v 1 - u 1) ^ 2 := by
      funext i
      simp only [parabola, Pi.sub_apply, mulVec, dotProduct, of_apply, Fin.sum_univ_two, cons_val_zero, cons_val_one]
      ring
    have h2 : nrm (fun _ : Fin 1 => (v 1 - u 1) ^ 2) = (v 1 - u 1) ^ 2 := by
      rw [nrm]
      simp only [dotProduct, Finset.univ_unique, Finset.sum_singleton]
      exact Real.sqrt_mul_self (sq_nonneg _)
    simp only [h1, h2]
    simp only [dotProduct, Fin.sum_univ_two, Pi.sub_apply]
    nlinarith [sq_nonneg (v 0 - u 0)]
  · ext i j
    obtain rfl : i = 0 := Subsingleton.elim _ _
    obtain rfl : j = 0 := Subsingleton.elim _ _
    simp [parabola, Matrix.mul_apply, Fin.sum_univ_two]
  · right
    have h1 : (rowSvd (parabola.fu (toVec 1 (ofVec x)) v)).S i = nrm (parabola.fu (toVec 1 (ofVec x)) v 0) := rfl
    have h2 : (rowSvd (parabola.fu (toVec 1 (ofVec x)) v)).S ⟨0, lt_min one_pos two_pos⟩
        = nrm (parabola.fu (toVec 1 (ofVec x)) v 0) := rfl
    rw [h1, h2]
    have h3 : 0 < nrm (parabola.fu (toVec 1 (ofVec x)) v 0) := by
      refine lt_of_le_of_ne (nrm_nonneg _) (fun h => ?_)
      have := congrFun (nrm_eq_zero.1 h.symm) 0
      simp [parabola] at this
    have h4 : ((max 2 1 : ℕ) : ℝ) = 2 := by norm_num
    rw [h4]
    linarith

open Verif.Integrators in
/-- A pendulum-like model with acceleration `u - 3`: the integrators are at rest. -/
example (q : ℝ) (s : Step ℝ) (ty : Controls.RKType) (dt : ℝ) :
    let D : DiffModel ℝ 1 1 := ⟨fun _ w => w - 3, fun _ _ => 0, fun _ => 0, fun _ _ => 0, fun _ _ => 1, fun _ _ => 0,
      fun _ _ => 0, fun _ _ => 0, fun _ _ => 0, fun _ _ => 0, fun _ => 0, fun _ => 0⟩
    let x : X ℝ 1 := join (fun _ => q) 0
    ∃ u, integratedStatic (innerStatic D (pseudoInverse numSvd (1 / 10 ^ 12)) 100 (1 / 10 ^ 9) x) id = some u
      ∧ (∀ d, (eulerCalc D (fun _ => 1) s d x u).xnext = x) ∧ rkNext D (fun _ => 1) ty dt x u = x := by
  intro D x
  refine C97_integrated_affine_partial D (fun _ => 1) id (fun _ w => one_mulVec _) x rfl numSvd (1 / 10 ^ 12) (by positivity)
    one_pos one_pos 100 (by norm_num) _ 1 (fun _ => rfl) (fun w z => by simp [D]) ⟨3, by simp [D]⟩ (numSvd_of 1) (fun i => ?_)
    s ty dt
  right
  have h1 : (numSvd 1).S i = 1 := by
    change |(1 : Mat 1 1) 0 0| = 1
    simp
  have h2 : (numSvd 1).S ⟨0, lt_min one_pos one_pos⟩ = 1 := by
    change |(1 : Mat 1 1) 0 0| = 1
    simp
  rw [h1, h2]
  norm_num

/-! ### Counterexamples -/

/-- The displacement of the state is `u² - 1`. -/
def square : Action 1 1 1 where
  next x u := fun i => x i + (u 0 ^ 2 - 1)
  fu _ u := fun _ _ => 2 * u 0
  diff x y := y - x

/-- The displacement of the state is `u³ - 2 u + 2`. -/
def cubic : Action 1 1 1 where
  next x u := fun i => x i + (u 0 ^ 3 - 2 * u 0 + 2)
  fu _ u := fun _ _ => 3 * u 0 ^ 2 - 2
  diff x y := y - x

private theorem pinv_zero {a b : ℕ} (svd : Mat a b → Svd a b) (eps : ℝ) (he : 0 ≤ eps) (h : 0 < min a b)
    (hs : (svd 0).Of 0) : pseudoInverse svd eps 0 = some 0 := by
  obtain ⟨P, h1, h2, -⟩ := C96_cutoff svd eps he 0 h hs
  rw [Matrix.mul_zero, Matrix.zero_mul] at h2
  rw [h1, h2]

/-- **C97 (counterexample: a stationary derivative).** `quasiStatic_x` starts at the control zero. If `Fu` vanishes there the
loop stops at once: with the displacement `u² - 1`, the control zero is returned, for any number of iterations, although the
control one holds the state. -/
theorem C97_flat_counterexample (svd : Mat 1 1 → Svd 1 1) (hsvd : ∀ A, (svd A).Of A) (maxiter : ℕ) (x : Vec 1) :
    square.Holds x (fun _ => 1)
    ∧ ∃ d', square.staticX (pseudoInverse svd (1 / 10 ^ 12)) maxiter (1 / 10 ^ 9) none (ofVec x) = .ok (ofVec (n := 1) fun _ => 0) d'
      ∧ ¬ square.Holds x (fun _ => 0) := by
  refine ⟨by unfold Action.Holds square; funext i; simp, ?_⟩
  have hF : square.fu (toVec 1 (ofVec x)) (fun _ => 0) = 0 := by
    funext i j; simp [square]
  obtain ⟨d', h⟩ := newton_fix (pinv := pseudoInverse svd (1 / 10 ^ 12))
    (f := fun v => square.diff (toVec 1 (ofVec x)) (square.next (toVec 1 (ofVec x)) v)) (F := square.fu (toVec 1 (ofVec x)))
    (1 / 10 ^ 9) (u := fun _ => 0) (P := 0) (by rw [hF]; exact pinv_zero svd _ (by positivity) (by norm_num) (hsvd 0))
    (by rw [zero_mulVec]) maxiter none
  refine ⟨d', action_ok rfl rfl one_pos (by exact h), fun h0 => ?_⟩
  have := congrFun h0 0
  norm_num [square] at this

/-- **C97 (counterexample: a cycle).** With the displacement `u³ - 2 u + 2`, which is zero for some control, the iteration from
the control zero alternates between zero and one: for every number of iterations the call returns one of the two, without an
error. -/
theorem C97_cycle_counterexample (svd : Mat 1 1 → Svd 1 1) (hsvd : ∀ A, (svd A).Of A) (maxiter : ℕ) (x : Vec 1) :
    (∃ w, cubic.Holds x w)
    ∧ ∃ v d', cubic.staticX (pseudoInverse svd (1 / 10 ^ 12)) maxiter (1 / 10 ^ 9) none (ofVec x) = .ok (ofVec v) d'
      ∧ ¬ cubic.Holds x v := by
  constructor
  · have hc : ContinuousOn (fun t : ℝ => t ^ 3 - 2 * t + 2) (Set.Icc (-2) 0) := by fun_prop
    have := intermediate_value_Icc (by norm_num) hc
    obtain ⟨t, -, ht⟩ := this (show (0 : ℝ) ∈ Set.Icc _ _ from ⟨by norm_num, by norm_num⟩)
    refine ⟨fun _ => t, ?_⟩
    funext i
    simpa [cubic] using ht
  · have key : ∀ k d (r : ℝ), r = 0 ∨ r = 1 → ∃ v d', (v = (fun _ => 0) ∨ v = (fun _ => 1)) ∧
        newton (pseudoInverse svd (1 / 10 ^ 12)) (fun v => cubic.diff (toVec 1 (ofVec x)) (cubic.next (toVec 1 (ofVec x)) v))
          (cubic.fu (toVec 1 (ofVec x))) (1 / 10 ^ 9) k (fun _ => r) d = some (v, d') := by
      intro k
      induction k with
      | zero =>
        rintro d r (rfl | rfl)
        · exact ⟨_, d, Or.inl rfl, rfl⟩
        · exact ⟨_, d, Or.inr rfl, rfl⟩
      | succ k ih =>
        intro d r hr
        have hne : 3 * r ^ 2 - 2 ≠ 0 := by rcases hr with rfl | rfl <;> norm_num
        have hp : pseudoInverse svd (1 / 10 ^ 12) (cubic.fu (toVec 1 (ofVec x)) (fun _ => r))
            = some (fun _ _ => (3 * r ^ 2 - 2)⁻¹) := pinv_scalar svd hsvd _ (by positivity) (by norm_num) _ hne
        have hstep : (fun _ => r) + -((fun _ _ => (3 * r ^ 2 - 2)⁻¹ : Mat 1 1) *ᵥ
            cubic.diff (toVec 1 (ofVec x)) (cubic.next (toVec 1 (ofVec x)) (fun _ => r))) = (fun _ => 1 - r : Vec 1) := by
          funext i
          simp only [Pi.add_apply, Pi.neg_apply, mulVec, dotProduct, cubic, Pi.sub_apply, Finset.univ_unique,
            Finset.sum_singleton, add_sub_cancel_left]
          rcases hr with rfl | rfl <;> norm_num
        have hn : ¬ nrm (-((fun _ _ => (3 * r ^ 2 - 2)⁻¹ : Mat 1 1) *ᵥ
            cubic.diff (toVec 1 (ofVec x)) (cubic.next (toVec 1 (ofVec x)) (fun _ => r)))) ≤ 1 / 10 ^ 9 := by
          have : -((fun _ _ => (3 * r ^ 2 - 2)⁻¹ : Mat 1 1) *ᵥ
              cubic.diff (toVec 1 (ofVec x)) (cubic.next (toVec 1 (ofVec x)) (fun _ => r))) = (fun _ => 1 - 2 * r) := by
            funext i
            have := congrFun hstep i
            simp only [Pi.add_apply] at this
            linarith
          rw [this]
          have h1 : (fun _ => 1 - 2 * r : Vec 1) ⬝ᵥ (fun _ => 1 - 2 * r) = 1 := by
            simp only [dotProduct, Finset.univ_unique, Finset.sum_singleton]
            rcases hr with rfl | rfl <;> norm_num
          rw [nrm, h1, Real.sqrt_one]
          norm_num
        simp only [newton, hp, if_neg hn, hstep]
        exact ih _ _ (by rcases hr with rfl | rfl <;> simp)
    obtain ⟨v, d', hv, h⟩ := key maxiter none 0 (Or.inl rfl)
    refine ⟨v, d', action_ok rfl rfl one_pos (by exact h), fun h0 => ?_⟩
    have := congrFun h0 0
    rcases hv with rfl | rfl <;> norm_num [cubic] at this

end Verif.Qs

/-- The assumption of the two counterexamples is met. -/
example : ∀ A, (Verif.Qs.numSvd A).Of A := Verif.Qs.numSvd_of
