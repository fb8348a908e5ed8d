import Verif.Spec.Intro
import Verif.Lemmas.Lq

set_option linter.unusedSectionVars false

/-! # Lemmas on the constrained backward pass -/

namespace Verif.Intro
open Verif Verif.Lq Matrix

variable {K : Type} [Field K] [LinearOrder K] [IsStrictOrderedRing K] {n m p : Nat}

/-- What the gains of a node satisfy. -/
structure Good (e : EqDerivs K n m p) (Q : QTerms K n m) (k : Fin m → K) (Kfb : Matrix (Fin m) (Fin n) K) :
    Prop where
  con : 0 < m → e.Hu *ᵥ k = e.h ∧ e.Hu * Kfb = e.Hx
  stat : ∀ v, e.Hu *ᵥ v = 0 → v ⬝ᵥ (Q.Qu - Q.Quu *ᵥ k) = 0
  statx : ∀ v, e.Hu *ᵥ v = 0 → ∀ x, v ⬝ᵥ (Q.Qxuᵀ *ᵥ x - Q.Quu *ᵥ (Kfb *ᵥ x)) = 0
  pd : ∀ v, e.Hu *ᵥ v = 0 → v ≠ 0 → 0 < v ⬝ᵥ (Q.Quu *ᵥ v)

theorem eq_zero_of_dot_self {q : Nat} {v : Fin q → K} (h : v ⬝ᵥ v = 0) : v = 0 := by
  funext i
  have := (Finset.sum_eq_zero_iff_of_nonneg (fun i _ => mul_self_nonneg (v i))).mp h i (Finset.mem_univ i)
  simpa using this

/-- The reduced Newton step on the kernel of `Hu`. -/
theorem nullGains_good {F : Fact K} (hF : LltSound F.llt) {e : EqDerivs K n m p} {Q : QTerms K n m}
    (hQ : Q.Quuᵀ = Q.Quu) {Z : Matrix (Fin m) (Fin (m - p)) K} {kz : Fin m → K}
    {Kz : Matrix (Fin m) (Fin n) K} (h1 : e.Hu *ᵥ kz = e.h) (h2 : e.Hu * Kz = e.Hx)
    (hZ : ∀ u, e.Hu *ᵥ u = 0 ↔ ∃ w, u = Z *ᵥ w) {k : Fin m → K} {Kfb : Matrix (Fin m) (Fin n) K}
    (h : nullGains F Z kz Kz Q = .ok (k, Kfb)) : Good e Q k Kfb := by
  unfold nullGains at h
  simp only at h
  split_ifs at h with hl
  simp only [Res3.ok.injEq, Prod.mk.injEq] at h
  obtain ⟨hk, hK⟩ := h
  have hs : (Zᵀ * (Q.Quu * Z))ᵀ = Zᵀ * (Q.Quu * Z) := by
    rw [transpose_mul, transpose_mul, hQ, transpose_transpose, Matrix.mul_assoc]
  have hpd := hF _ _ hs hl
  have hu := unit_of_posdef hpd
  have hHZ : ∀ w, e.Hu *ᵥ (Z *ᵥ w) = 0 := fun w => (hZ _).mpr ⟨w, rfl⟩
  have hHZm : e.Hu * Z = 0 := by
    ext i j
    have := congrFun (hHZ (Pi.single j 1)) i
    rw [mulVec_mulVec, mulVec_single_one] at this
    simpa using this
  have hT : (Q.Quu * Z)ᵀ = Zᵀ * Q.Quu := by rw [transpose_mul, hQ]
  refine ⟨fun _ => ⟨?_, ?_⟩, ?_, ?_, ?_⟩
  · rw [← hk, mulVec_add, h1, hHZ, add_zero]
  · rw [← hK, Matrix.mul_add, h2, ← Matrix.mul_assoc e.Hu Z, hHZm, Matrix.zero_mul, add_zero]
  · intro v hv
    obtain ⟨w, rfl⟩ := (hZ v).mp hv
    have key : Zᵀ *ᵥ (Q.Qu - Q.Quu *ᵥ k) = 0 := by
      rw [← hk, hT]
      have e1 : Zᵀ *ᵥ (Q.Quu *ᵥ (Z *ᵥ ((Zᵀ * (Q.Quu * Z))⁻¹ *ᵥ (Zᵀ *ᵥ Q.Qu) -
          ((Zᵀ * (Q.Quu * Z))⁻¹ * (Zᵀ * Q.Quu)) *ᵥ kz))) = Zᵀ *ᵥ Q.Qu - (Zᵀ * Q.Quu) *ᵥ kz := by
        rw [mulVec_mulVec _ Q.Quu Z, mulVec_mulVec _ Zᵀ (Q.Quu * Z)]
        generalize Zᵀ * (Q.Quu * Z) = R at hu ⊢
        rw [← mulVec_mulVec kz R⁻¹, ← mulVec_sub, mulVec_mulVec _ R, Matrix.mul_nonsing_inv _ hu, one_mulVec]
      rw [mulVec_sub, mulVec_add, mulVec_add, e1, mulVec_mulVec]
      abel
    rw [dotProduct_comm, ← dot_tr', key, dotProduct_zero]
  · intro v hv x
    obtain ⟨w, rfl⟩ := (hZ v).mp hv
    have key : Zᵀ * Q.Qxuᵀ - Zᵀ * (Q.Quu * Kfb) = 0 := by
      rw [← hK, hT]
      have e1 : Zᵀ * (Q.Quu * (Z * ((Zᵀ * (Q.Quu * Z))⁻¹ * (Q.Qxu * Z)ᵀ -
          ((Zᵀ * (Q.Quu * Z))⁻¹ * (Zᵀ * Q.Quu)) * Kz))) = (Q.Qxu * Z)ᵀ - (Zᵀ * Q.Quu) * Kz := by
        rw [← Matrix.mul_assoc Q.Quu Z, ← Matrix.mul_assoc Zᵀ (Q.Quu * Z)]
        generalize Zᵀ * (Q.Quu * Z) = R at hu ⊢
        rw [Matrix.mul_assoc R⁻¹ (Zᵀ * Q.Quu) Kz, ← Matrix.mul_sub, ← Matrix.mul_assoc R, Matrix.mul_nonsing_inv _ hu,
          Matrix.one_mul]
      rw [Matrix.mul_add, Matrix.mul_add, e1, transpose_mul, Matrix.mul_assoc]
      abel
    have : Zᵀ *ᵥ (Q.Qxuᵀ *ᵥ x - Q.Quu *ᵥ (Kfb *ᵥ x)) = 0 := by
      have := congrArg (· *ᵥ x) key
      simpa [sub_mulVec, mulVec_sub, mulVec_mulVec, Matrix.mul_assoc] using this
    rw [dotProduct_comm, ← dot_tr', this, dotProduct_zero]
  · intro v hv hv0
    obtain ⟨w, rfl⟩ := (hZ v).mp hv
    have hw : w ≠ 0 := by rintro rfl; simp at hv0
    have := hpd w hw
    rwa [← mulVec_mulVec, ← mulVec_mulVec, dot_tr', dotProduct_comm] at this

theorem rangeStep_con {Y : Matrix (Fin m) (Fin p) K} {e : EqDerivs K n m p} (hu : IsUnit (e.Hu * Y).det) :
    e.Hu *ᵥ (rangeStep Y e).1 = e.h ∧ e.Hu * (rangeStep Y e).2 = e.Hx := by
  unfold rangeStep
  constructor
  · simp only
    rw [mulVec_mulVec, mulVec_mulVec, Matrix.mul_nonsing_inv _ hu, one_mulVec]
  · simp only
    rw [← Matrix.mul_assoc, ← Matrix.mul_assoc, Matrix.mul_nonsing_inv _ hu, Matrix.one_mul]

/-- The bases computed by the two null-space variants. -/
theorem nullBasis_ok {F : Fact K} (hF : FactOk F) {es : EqSolver} {Hu : Matrix (Fin p) (Fin m) K}
    {Y : Matrix (Fin m) (Fin p) K} {Z : Matrix (Fin m) (Fin (m - p)) K}
    (h : nullBasis F es Hu = some (Y, Z)) :
    IsUnit (Hu * Y).det ∧ ∀ u, Hu *ᵥ u = 0 ↔ ∃ w, u = Z *ᵥ w := by
  cases es with
  | schur => simp [nullBasis] at h
  | luNull =>
    unfold nullBasis at h
    simp only at h
    split_ifs at h with hr
    simp only [Option.some.injEq] at h
    have hYe := congrArg Prod.fst h
    dsimp only at hYe
    have hZe : F.luKer Hu = Z := congrArg Prod.snd h
    refine ⟨?_, hZe ▸ (hF.luKer Hu hr).1⟩
    clear h
    rw [isUnit_iff_ne_zero]
    intro h0
    obtain ⟨v, hv, hm⟩ := Matrix.exists_mulVec_eq_zero_iff.mpr h0
    apply hv
    -- `Y v = Huᵀ (v ∘ perm⁻¹)`
    obtain ⟨inv, hl, hri⟩ := Function.bijective_iff_has_inverse.mp (hF.luPerm Hu)
    have hY : Y *ᵥ v = Huᵀ *ᵥ (v ∘ inv) := by
      subst hYe
      funext i
      simp only [mulVec, dotProduct, transpose_apply, Function.comp]
      refine Fintype.sum_bijective (F.luPerm Hu) (hF.luPerm Hu) _ _ fun j => ?_
      rw [hl j]
    have h1 : (Huᵀ *ᵥ (v ∘ inv)) ⬝ᵥ (Huᵀ *ᵥ (v ∘ inv)) = 0 := by
      rw [dot_tr, ← hY, mulVec_mulVec, hm, dotProduct_zero]
    have h2 := hF.luRank Hu hr _ (eq_zero_of_dot_self h1)
    funext j
    have := congrFun h2 (F.luPerm Hu j)
    simpa [Function.comp, hl j] using this
  | qrNull =>
    unfold nullBasis at h
    simp only at h
    split_ifs at h with hr
    simp only [Option.some.injEq] at h
    have hY := congrArg Prod.fst h
    have hZ := congrArg Prod.snd h
    dsimp only at hY hZ
    clear h
    have hpm := hr.2
    have hr := hr.1
    have hQ := hF.qrQ Hu hr
    have hQ' : F.qrQ Hu * (F.qrQ Hu)ᵀ = 1 := mul_eq_one_comm.mp hQ
    have hker := hF.qrKer Hu hr
    -- splitting a vector along the columns
    have split : ∀ c : Fin m → K, F.qrQ Hu *ᵥ c =
        Y *ᵥ (fun j => c (Fin.castLE hpm j)) + Z *ᵥ (fun j => c ⟨m - (m - p) + j.val, by omega⟩) := by
      intro c
      subst hY hZ
      funext i
      simp only [mulVec, dotProduct, Pi.add_apply]
      obtain ⟨q, rfl⟩ : ∃ q, m = p + q := ⟨m - p, by omega⟩
      rw [Fin.sum_univ_add]
      congr 1
      refine Fintype.sum_bijective (Fin.cast (by omega : q = p + q - p)) (finCongr (by omega : q = p + q - p)).bijective
        _ _ fun j => ?_
      have : (Fin.natAdd p j) = (⟨p + q - (p + q - p) + ((Fin.cast (by omega : q = p + q - p) j)).val,
          by have := j.2; simp only [Fin.val_cast]; omega⟩ : Fin (p + q)) := by
        ext; simp only [Fin.val_natAdd, Fin.val_cast]; omega
      rw [this]
    have hHZ : ∀ w, Hu *ᵥ (Z *ᵥ w) = 0 := by
      intro w
      have : Hu * Z = 0 := by
        ext i j
        rw [Matrix.mul_apply, ← hZ]
        have := congrFun (hker ⟨m - (m - p) + j.val, by omega⟩ (by simp only; omega)) i
        exact this
      rw [mulVec_mulVec, this, zero_mulVec]
    have hu : IsUnit (Hu * Y).det := by
      rw [isUnit_iff_ne_zero]
      intro h0
      rw [← det_transpose] at h0
      obtain ⟨v, hv, hm⟩ := Matrix.exists_mulVec_eq_zero_iff.mpr h0
      apply hv
      refine hF.qrRank Hu hr v ?_
      rw [transpose_mul, ← mulVec_mulVec] at hm
      apply eq_zero_of_dot_self
      have e1 : Huᵀ *ᵥ v = F.qrQ Hu *ᵥ ((F.qrQ Hu)ᵀ *ᵥ (Huᵀ *ᵥ v)) := by
        rw [mulVec_mulVec, hQ', one_mulVec]
      rw [split] at e1
      generalize (fun j => ((F.qrQ Hu)ᵀ *ᵥ (Huᵀ *ᵥ v)) (Fin.castLE hpm j)) = a at e1
      generalize (fun j : Fin (m - p) => ((F.qrQ Hu)ᵀ *ᵥ (Huᵀ *ᵥ v)) ⟨m - (m - p) + j.val, by omega⟩) = b at e1
      calc (Huᵀ *ᵥ v) ⬝ᵥ (Huᵀ *ᵥ v) = (Huᵀ *ᵥ v) ⬝ᵥ (Y *ᵥ a + Z *ᵥ b) := by rw [← e1]
        _ = (Huᵀ *ᵥ v) ⬝ᵥ (Y *ᵥ a) + v ⬝ᵥ (Hu *ᵥ (Z *ᵥ b)) := by rw [dotProduct_add, dot_tr Hu v (Z *ᵥ b)]
        _ = a ⬝ᵥ (Yᵀ *ᵥ (Huᵀ *ᵥ v)) := by rw [hHZ, dotProduct_zero, add_zero, ← dot_tr']
        _ = 0 := by rw [hm, dotProduct_zero]
    refine ⟨hu, fun u => ⟨fun h0 => ?_, ?_⟩⟩
    · have e1 : u = F.qrQ Hu *ᵥ ((F.qrQ Hu)ᵀ *ᵥ u) := by rw [mulVec_mulVec, hQ', one_mulVec]
      rw [split] at e1
      generalize (fun j => ((F.qrQ Hu)ᵀ *ᵥ u) (Fin.castLE hpm j)) = a at e1
      generalize (fun j : Fin (m - p) => ((F.qrQ Hu)ᵀ *ᵥ u) ⟨m - (m - p) + j.val, by omega⟩) = b at e1
      have h3 : (Hu * Y) *ᵥ a = 0 := by
        rw [e1, mulVec_add, hHZ, add_zero, mulVec_mulVec] at h0
        exact h0
      have ha : a = 0 := by
        have := congrArg ((Hu * Y)⁻¹ *ᵥ ·) h3
        simpa [mulVec_mulVec, Matrix.nonsing_inv_mul _ hu] using this
      refine ⟨b, ?_⟩
      rw [ha, mulVec_zero, zero_add] at e1
      exact e1
    · rintro ⟨w, rfl⟩
      exact hHZ w

/-- The Schur-complement variant. -/
theorem schurGains_good {F : Fact K} (hF : LltSound F.llt) {e : EqDerivs K n m p} {Q : QTerms K n m}
    (hQ : Q.Quuᵀ = Q.Quu) {k : Fin m → K} {Kfb : Matrix (Fin m) (Fin n) K} (hm : m ≠ 0)
    (h : schurGains F e Q = .ok (k, Kfb)) : Good e Q k Kfb := by
  unfold schurGains at h
  cases hc : computeGains F.llt Q with
  | none => simp [hc] at h
  | some g =>
    obtain ⟨k0, K0⟩ := g
    simp only [hc] at h
    split_ifs at h with hl
    simp only [Res3.ok.injEq, Prod.mk.injEq] at h
    obtain ⟨hk, hK⟩ := h
    unfold computeGains at hc
    split_ifs at hc with h0
    simp only [Option.some.injEq, Prod.mk.injEq] at hc
    obtain ⟨hk0, hK0⟩ := hc
    have hpd := hF _ _ hQ (h0.resolve_left hm)
    have hu := unit_of_posdef hpd
    have hinvT : (Q.Quu⁻¹)ᵀ = Q.Quu⁻¹ := by rw [transpose_nonsing_inv, hQ]
    have hSs : (e.Hu * (Q.Quu⁻¹ * e.Huᵀ))ᵀ = e.Hu * (Q.Quu⁻¹ * e.Huᵀ) := by
      rw [transpose_mul, transpose_mul, transpose_transpose, hinvT, Matrix.mul_assoc]
    have hSpd := hF _ _ hSs hl
    have hSu := unit_of_posdef hSpd
    -- the modified `QuuinvHuT`
    have hW : ((e.Hu * (Q.Quu⁻¹ * e.Huᵀ))⁻¹ * (Q.Quu⁻¹ * e.Huᵀ)ᵀ)ᵀ =
        Q.Quu⁻¹ * e.Huᵀ * (e.Hu * (Q.Quu⁻¹ * e.Huᵀ))⁻¹ := by
      rw [transpose_mul, transpose_transpose, transpose_nonsing_inv, hSs]
    rw [hW] at hk hK
    have hHW : e.Hu * (Q.Quu⁻¹ * e.Huᵀ * (e.Hu * (Q.Quu⁻¹ * e.Huᵀ))⁻¹) = 1 := by
      rw [← Matrix.mul_assoc, Matrix.mul_nonsing_inv _ hSu]
    have hQW : ∀ v, e.Hu *ᵥ v = 0 → ∀ y,
        v ⬝ᵥ (Q.Quu *ᵥ ((Q.Quu⁻¹ * e.Huᵀ * (e.Hu * (Q.Quu⁻¹ * e.Huᵀ))⁻¹) *ᵥ y)) = 0 := by
      intro v hv y
      rw [Matrix.mul_assoc, ← mulVec_mulVec, mulVec_mulVec (M := Q.Quu), Matrix.mul_nonsing_inv _ hu, one_mulVec, ← mulVec_mulVec,
        dot_tr', hv, dotProduct_zero]
    refine ⟨fun _ => ⟨?_, ?_⟩, ?_, ?_, fun v _ hv => hpd v hv⟩
    · rw [← hk, mulVec_add, mulVec_mulVec, hHW, one_mulVec]; abel
    · rw [← hK, Matrix.mul_add, ← Matrix.mul_assoc, hHW, Matrix.one_mul]; abel
    · intro v hv
      rw [← hk, mulVec_add, ← sub_sub, dotProduct_sub, hQW v hv, sub_zero, ← hk0, mulVec_mulVec,
        Matrix.mul_nonsing_inv _ hu, one_mulVec, sub_self, dotProduct_zero]
    · intro v hv x
      rw [← hK, add_mulVec, mulVec_add, ← sub_sub, dotProduct_sub, ← mulVec_mulVec, hQW v hv, sub_zero, ← hK0,
        mulVec_mulVec (M := Q.Quu), ← Matrix.mul_assoc, Matrix.mul_nonsing_inv _ hu, Matrix.one_mul, sub_self, dotProduct_zero]

/-- All variants. -/
theorem gains_good {F : Fact K} (hF : FactOk F) {es : EqSolver} {e : EqDerivs K n m p} {Q : QTerms K n m}
    (hQ : Q.Quuᵀ = Q.Quu) {k : Fin m → K} {Kfb : Matrix (Fin m) (Fin n) K}
    (h : gains F es e Q = .ok (k, Kfb)) : Good e Q k Kfb := by
  unfold gains at h
  split_ifs at h with hmp
  · cases hc : computeGains F.llt Q with
    | none => simp [hc] at h
    | some g =>
      simp only [hc, Res3.ok.injEq] at h
      subst h
      unfold computeGains at hc
      split_ifs at hc with h0
      simp only [Option.some.injEq, Prod.mk.injEq] at hc
      obtain ⟨hk0, hK0⟩ := hc
      have hpd : ∀ v, v ≠ 0 → 0 < v ⬝ᵥ (Q.Quu *ᵥ v) := by
        rcases h0 with h0 | h0
        · intro v hv
          refine absurd (funext fun i => ?_) hv
          exact absurd i.2 (by omega)
        · exact hF.llt _ _ hQ h0
      have hu := unit_of_posdef hpd
      refine ⟨fun hm => ?_, fun v _ => ?_, fun v _ x => ?_, fun v _ hv => hpd v hv⟩
      · have hp0 : p = 0 := by omega
        subst hp0
        exact ⟨funext fun i => i.elim0, by ext i; exact i.elim0⟩
      · rw [← hk0, mulVec_mulVec, Matrix.mul_nonsing_inv _ hu, one_mulVec, sub_self, dotProduct_zero]
      · rw [← hK0, mulVec_mulVec (M := Q.Quu), ← Matrix.mul_assoc, Matrix.mul_nonsing_inv _ hu, Matrix.one_mul,
          sub_self, dotProduct_zero]
  · have hnull : ∀ es' : EqSolver, es' ≠ .schur →
        (match nullBasis F es' e.Hu with
        | none => Res3.ub
        | some (Y, Z) => nullGains F Z (rangeStep Y e).1 (rangeStep Y e).2 Q) = .ok (k, Kfb) → Good e Q k Kfb := by
      intro es' _ h
      cases hb : nullBasis F es' e.Hu with
      | none => simp [hb] at h
      | some b =>
        obtain ⟨Y, Z⟩ := b
        simp only [hb] at h
        obtain ⟨h1, h2⟩ := nullBasis_ok hF hb
        exact nullGains_good hF.llt hQ (rangeStep_con h1).1 (rangeStep_con h1).2 h2 h
    cases es with
    | schur => exact schurGains_good hF.llt hQ (by omega) h
    | luNull => exact hnull _ (by simp) h
    | qrNull => exact hnull _ (by simp) h

/-- The quadratic model around the policy: policy value, plus first-order terms, plus the curvature of the
deviation. -/
theorem quadModel_policy (Q : QTerms K n m) (hQ : Q.Quuᵀ = Q.Quu) (k : Fin m → K)
    (Kfb : Matrix (Fin m) (Fin n) K) (x : Fin n → K) (v : Fin m → K) :
    quadModel Q x (v - k - Kfb *ᵥ x) =
      (Q.Qx - Q.Qxu *ᵥ k - Kfbᵀ *ᵥ (Q.Qu - Q.Quu *ᵥ k)) ⬝ᵥ x
      + (1/2) * (x ⬝ᵥ (((1/2 : K) • ((Q.Qxx + (Kfbᵀ * Q.Quu - (2 : K) • Q.Qxu) * Kfb) +
          (Q.Qxx + (Kfbᵀ * Q.Quu - (2 : K) • Q.Qxu) * Kfb)ᵀ)) *ᵥ x))
      - (Q.Qu ⬝ᵥ k - (1/2) * (k ⬝ᵥ (Q.Quu *ᵥ k)))
      + v ⬝ᵥ (Q.Qu - Q.Quu *ᵥ k) + v ⬝ᵥ (Q.Qxuᵀ *ᵥ x - Q.Quu *ᵥ (Kfb *ᵥ x))
      + (1/2) * (v ⬝ᵥ (Q.Quu *ᵥ v)) := by
  have e1 : (1/2 : K) * (x ⬝ᵥ (((1/2 : K) • ((Q.Qxx + (Kfbᵀ * Q.Quu - (2 : K) • Q.Qxu) * Kfb) +
          (Q.Qxx + (Kfbᵀ * Q.Quu - (2 : K) • Q.Qxu) * Kfb)ᵀ)) *ᵥ x))
      = (1/2) * (x ⬝ᵥ (Q.Qxx *ᵥ x)) + (1/2) * ((Kfb *ᵥ x) ⬝ᵥ (Q.Quu *ᵥ (Kfb *ᵥ x))) - x ⬝ᵥ (Q.Qxu *ᵥ (Kfb *ᵥ x)) := by
    rw [smul_mulVec, dotProduct_smul, add_mulVec, dotProduct_add, dot_tr', add_mulVec, dotProduct_add,
      ← mulVec_mulVec, sub_mulVec, dotProduct_sub, ← mulVec_mulVec, dot_tr', smul_mulVec, dotProduct_smul, smul_eq_mul, smul_eq_mul,
      dotProduct_comm (Q.Quu *ᵥ (Kfb *ᵥ x))]
    ring
  rw [e1]
  unfold quadModel
  simp only [mulVec_sub, dotProduct_sub, sub_dotProduct, dot_tr, dot_tr']
  have a1 := dot_symm hQ k v
  have a2 := dot_symm hQ (Kfb *ᵥ x) v
  have a3 := dot_symm hQ (Kfb *ᵥ x) k
  have a4 := dotProduct_comm Q.Qu v
  have a5 := dotProduct_comm (Q.Qxu *ᵥ k) x
  have a6 := dotProduct_comm (Q.Quu *ᵥ k) (Kfb *ᵥ x)
  rw [a1, a2, a4, a5, a6]
  rw [a3]
  ring

theorem quadModel_local {d : Derivs K n m} {V : Value K n} (hV : V.Vxxᵀ = V.Vxx) (preg : Option K)
    (dx : Fin n → K) (du : Fin m → K) :
    quadModel (actionValue preg d V) dx du = localModel d V (preg.getD 0) dx du := by
  unfold quadModel localModel
  simp only [actionValue]
  rw [addDiag_quad]
  simp only [add_mulVec, mulVec_add, dotProduct_add, add_dotProduct, dot_tr, ← mulVec_mulVec]
  have b1 : (d.Fx *ᵥ dx) ⬝ᵥ (V.Vxx *ᵥ (d.Fu *ᵥ du)) = (d.Fu *ᵥ du) ⬝ᵥ (V.Vxx *ᵥ (d.Fx *ᵥ dx)) := dot_symm hV _ _
  have c1 : dx ⬝ᵥ (d.Fxᵀ *ᵥ (V.Vxx *ᵥ (d.Fx *ᵥ dx))) = (d.Fx *ᵥ dx) ⬝ᵥ (V.Vxx *ᵥ (d.Fx *ᵥ dx)) := by
    rw [dot_tr', dotProduct_comm]
  have c2 : dx ⬝ᵥ (d.Fxᵀ *ᵥ (V.Vxx *ᵥ (d.Fu *ᵥ du))) = (d.Fx *ᵥ dx) ⬝ᵥ (V.Vxx *ᵥ (d.Fu *ᵥ du)) := by
    rw [dot_tr', dotProduct_comm]
  have c3 : du ⬝ᵥ (d.Fuᵀ *ᵥ (V.Vxx *ᵥ (d.Fu *ᵥ du))) = (d.Fu *ᵥ du) ⬝ᵥ (V.Vxx *ᵥ (d.Fu *ᵥ du)) := by
    rw [dot_tr', dotProduct_comm]
  rw [c1, c2, c3]
  linarith

/-! ### The backward pass -/

variable {nu nh : Nat → Nat}

/-- The arrays after a successful backward pass. -/
structure Back (F : Fact K) (es : EqSolver) (preg : Option K) (feas : Bool) (T : Nat)
    (d : ∀ t, Derivs K n (nu t)) (e : ∀ t, EqDerivs K n (nu t) (nh t)) (LxT : Fin n → K)
    (LxxT : Matrix (Fin n) (Fin n) K) (f : Nat → Fin n → K) (g : Arrays K n nu) : Prop where
  term : g.V T = termValue preg feas LxT LxxT (f T)
  node : ∀ t < T, backNode F es preg feas (d t) (e t) (g.V (t + 1)) (f t) = .ok (g.out t)
  val : ∀ t < T, g.V t = (g.out t).V

section
variable {F : Fact K} {es : EqSolver} {preg : Option K} {feas : Bool} {T : Nat} {d : ∀ t, Derivs K n (nu t)}
  {e : ∀ t, EqDerivs K n (nu t) (nh t)} {LxT : Fin n → K} {LxxT : Matrix (Fin n) (Fin n) K}
  {f : Nat → Fin n → K}

theorem backLoop_spec (t : Nat) (s g : Arrays K n nu) (h : backLoop F es preg feas d e f t s = .ok g) :
    (∀ j, t ≤ j → g.V j = s.V j) ∧ (∀ j, t ≤ j → g.out j = s.out j) ∧
    (∀ j < t, backNode F es preg feas (d j) (e j) (g.V (j + 1)) (f j) = .ok (g.out j)) ∧
    (∀ j < t, g.V j = (g.out j).V) := by
  induction t generalizing s with
  | zero =>
    simp only [backLoop, Res3.ok.injEq] at h
    subst h
    exact ⟨fun _ _ => rfl, fun _ _ => rfl, fun _ hj => absurd hj (Nat.not_lt_zero _),
      fun _ hj => absurd hj (Nat.not_lt_zero _)⟩
  | succ t ih =>
    rw [backLoop] at h
    cases hb : backNode F es preg feas (d t) (e t) (s.V (t + 1)) (f t) with
    | throw => simp [hb] at h
    | ub => simp [hb] at h
    | ok o =>
      simp only [hb] at h
      obtain ⟨h1, h2, h3, h4⟩ := ih _ h
      have hV : ∀ j, t + 1 ≤ j → g.V j = s.V j := fun j hj => by
        rw [h1 j (by omega)]; simp only; rw [Function.update_of_ne (by omega)]
      have hoT : g.out t = o := by rw [h2 t le_rfl]; simp only [Function.update_self]
      have hVT : g.V t = o.V := by rw [h1 t le_rfl]; simp only [Function.update_self]
      refine ⟨hV, fun j hj => ?_, fun j hj => ?_, fun j hj => ?_⟩
      · rw [h2 j (by omega)]; simp only; rw [Function.update_of_ne (by omega)]
      · rcases Nat.lt_succ_iff_lt_or_eq.mp hj with hj | rfl
        · exact h3 j hj
        · rw [hV _ le_rfl, hb, hoT]
      · rcases Nat.lt_succ_iff_lt_or_eq.mp hj with hj | rfl
        · exact h4 j hj
        · rw [hVT, hoT]

theorem backwardPass_spec {s g : Arrays K n nu}
    (h : backwardPass F es preg feas T d e LxT LxxT f s = .ok g) : Back F es preg feas T d e LxT LxxT f g := by
  obtain ⟨h1, _, h3, h4⟩ := backLoop_spec T _ _ h
  refine ⟨?_, h3, h4⟩
  rw [h1 T le_rfl]
  simp only [Function.update_self]

theorem backNode_ok {d : Derivs K n m} {e : EqDerivs K n m p} {V : Value K n} {f : Fin n → K}
    {o : NodeOut K n m} (h : backNode F es preg feas d e V f = .ok o) :
    o.Q = actionValue preg d V ∧ gains F es e o.Q = .ok (o.k, o.Kfb) ∧
    o.V = computeValue preg feas o.Q o.k o.Kfb f := by
  unfold backNode at h
  simp only at h
  cases hg : gains F es e (actionValue preg d V) with
  | throw => simp [hg] at h
  | ub => simp [hg] at h
  | ok g =>
    simp only [hg, Res3.ok.injEq] at h
    subst h
    exact ⟨rfl, hg, rfl⟩

theorem Back.symm {g : Arrays K n nu} (h : Back F es preg feas T d e LxT LxxT f g) (hL : LxxTᵀ = LxxT) (t : Nat)
    (ht : t ≤ T) : (g.V t).Vxxᵀ = (g.V t).Vxx := by
  rcases Nat.lt_or_eq_of_le ht with ht | rfl
  · rw [h.val t ht, (backNode_ok (h.node t ht)).2.2]
    refine addDiag_symm _ ?_
    rw [transpose_smul, transpose_add, transpose_transpose, add_comm]
  · rw [h.term]
    exact addDiag_symm _ hL

/-- What holds at each node after a successful backward pass. -/
theorem Back.facts {g : Arrays K n nu} (h : Back F es preg feas T d e LxT LxxT f g) (hF : FactOk F)
    (hL : LxxTᵀ = LxxT) (t : Nat) (ht : t < T) (hLu : (d t).Luuᵀ = (d t).Luu) :
    (g.out t).Q = actionValue preg (d t) (g.V (t + 1)) ∧ (g.V (t + 1)).Vxxᵀ = (g.V (t + 1)).Vxx ∧
    (g.out t).Q.Quuᵀ = (g.out t).Q.Quu ∧ Good (e t) (g.out t).Q (g.out t).k (g.out t).Kfb ∧
    g.V t = computeValue preg feas (g.out t).Q (g.out t).k (g.out t).Kfb (f t) := by
  obtain ⟨hQ, hok, hv⟩ := backNode_ok (h.node t ht)
  have hVs := h.symm hL (t + 1) ht
  have hs : (g.out t).Q.Quuᵀ = (g.out t).Q.Quu := by rw [hQ]; exact Quu_symm hLu hVs
  exact ⟨hQ, hVs, hs, gains_good hF hs hok, by rw [h.val t ht, hv]⟩

end

/-! ### Success on convex problems -/

theorem le_of_fullRank {H : Matrix (Fin p) (Fin m) K} (h : FullRank H) : p ≤ m := by
  have hi : Function.Injective (Matrix.mulVecLin Hᵀ) := by
    rw [← LinearMap.ker_eq_bot, LinearMap.ker_eq_bot']
    intro v hv
    exact h v hv
  simpa using LinearMap.finrank_le_finrank_of_injective hi

/-- The last columns of an orthogonal matrix are independent. -/
theorem last_cols_inj {Q : Matrix (Fin m) (Fin m) K} (hpm : p ≤ m) (hQ : Qᵀ * Q = 1) (w : Fin (m - p) → K)
    (hw : (fun i j => Q i ⟨m - (m - p) + j.val, by omega⟩ : Matrix (Fin m) (Fin (m - p)) K) *ᵥ w = 0) : w = 0 := by
  -- pad `w` with zeros
  let c : Fin m → K := fun j => if hj : p ≤ j.val then w ⟨j.val - p, by omega⟩ else 0
  have hc : Q *ᵥ c = 0 := by
    rw [← hw]
    funext i
    simp only [mulVec, dotProduct]
    symm
    refine Finset.sum_bij_ne_zero (fun j _ _ => (⟨m - (m - p) + j.val, by omega⟩ : Fin m)) (fun _ _ _ => Finset.mem_univ _) ?_ ?_ ?_
    · intro a _ _ b _ _ hab
      have := congrArg Fin.val hab
      simp only at this
      exact Fin.ext (by omega)
    · intro b _ hb
      have hpb : p ≤ b.val := by
        by_contra hn
        simp [c, hn] at hb
      refine ⟨⟨b.val - p, by omega⟩, Finset.mem_univ _, ?_, ?_⟩
      · have : (⟨m - (m - p) + (b.val - p), by omega⟩ : Fin m) = b := Fin.ext (by simp only; omega)
        simp only [this]
        simpa [c, hpb] using hb
      · exact Fin.ext (by simp only; omega)
    · intro j _ _
      have h1 : p ≤ m - (m - p) + j.val := by omega
      have h2 : m - (m - p) + j.val - p = j.val := by omega
      simp only [c, dif_pos h1, h2]
  have hc0 : c = 0 := by
    have := congrArg (Qᵀ *ᵥ ·) hc
    simpa [mulVec_mulVec, hQ] using this
  funext j
  have := congrFun hc0 ⟨p + j.val, by omega⟩
  simpa [c] using this

theorem nullBasis_complete {F : Fact K} (hF : FactOk F) (hC : FactComplete F) {es : EqSolver}
    {Hu : Matrix (Fin p) (Fin m) K} (hr : FullRank Hu) (hes : es ≠ .schur) :
    ∃ Y Z, nullBasis F es Hu = some (Y, Z) ∧ ∀ w, Z *ᵥ w = 0 → w = 0 := by
  cases es with
  | schur => exact absurd rfl hes
  | luNull =>
    have h := hC.luRank Hu hr
    exact ⟨_, _, by unfold nullBasis; simp only [if_pos h]; rfl, (hF.luKer Hu h).2⟩
  | qrNull =>
    have h := hC.qrRank Hu hr
    have hpm := le_of_fullRank hr
    refine ⟨_, _, by unfold nullBasis; simp only [dif_pos (And.intro h hpm)]; rfl, fun w hw => ?_⟩
    have hQ := hF.qrQ Hu h
    exact last_cols_inj hpm hQ w hw

/-- With a positive definite `Quu` and independent constraints the gains are computed. -/
theorem gains_complete {F : Fact K} (hF : FactOk F) (hC : FactComplete F) (es : EqSolver) {e : EqDerivs K n m p}
    {Q : QTerms K n m} (hQ : Q.Quuᵀ = Q.Quu) (hpd : ∀ v, v ≠ 0 → 0 < v ⬝ᵥ (Q.Quu *ᵥ v))
    (hr : 0 < m → 0 < p → FullRank e.Hu) : ∃ k Kfb, gains F es e Q = .ok (k, Kfb) := by
  have hllt : F.llt m Q.Quu = true := hC.llt _ _ hQ hpd
  have hcg : computeGains F.llt Q = some (Q.Quu⁻¹ *ᵥ Q.Qu, Q.Quu⁻¹ * Q.Qxuᵀ) := by
    unfold computeGains; rw [if_pos (.inr hllt)]
  unfold gains
  by_cases hmp : m = 0 ∨ p = 0
  · rw [if_pos hmp, hcg]; exact ⟨_, _, rfl⟩
  · rw [if_neg hmp]
    have hr := hr (by omega) (by omega)
    have hnull : ∀ es' : EqSolver, es' ≠ .schur → ∃ k Kfb,
        (match nullBasis F es' e.Hu with
        | none => Res3.ub
        | some (Y, Z) => nullGains F Z (rangeStep Y e).1 (rangeStep Y e).2 Q) = .ok (k, Kfb) := by
      intro es' hes
      obtain ⟨Y, Z, hb, hZ⟩ := nullBasis_complete hF hC hr hes
      rw [hb]
      simp only [nullGains]
      have : F.llt (m - p) (Zᵀ * (Q.Quu * Z)) = true := by
        refine hC.llt _ _ ?_ fun w hw => ?_
        · rw [transpose_mul, transpose_mul, hQ, transpose_transpose, Matrix.mul_assoc]
        · have := hpd (Z *ᵥ w) fun h => hw (hZ w h)
          rwa [← mulVec_mulVec, ← mulVec_mulVec, dot_tr', dotProduct_comm]
      rw [if_pos this]
      exact ⟨_, _, rfl⟩
    cases es with
    | luNull => exact hnull _ (by simp)
    | qrNull => exact hnull _ (by simp)
    | schur =>
      simp only [schurGains, hcg]
      have hu := unit_of_posdef hpd
      have hinvT : (Q.Quu⁻¹)ᵀ = Q.Quu⁻¹ := by rw [transpose_nonsing_inv, hQ]
      have : F.llt p (e.Hu * (Q.Quu⁻¹ * e.Huᵀ)) = true := by
        refine hC.llt _ _ ?_ fun w hw => ?_
        · rw [transpose_mul, transpose_mul, transpose_transpose, hinvT, Matrix.mul_assoc]
        · have h1 : Q.Quu *ᵥ (Q.Quu⁻¹ *ᵥ (e.Huᵀ *ᵥ w)) = e.Huᵀ *ᵥ w := by
            rw [mulVec_mulVec, Matrix.mul_nonsing_inv _ hu, one_mulVec]
          have hne : Q.Quu⁻¹ *ᵥ (e.Huᵀ *ᵥ w) ≠ 0 := by
            intro h0
            rw [h0, mulVec_zero] at h1
            exact hw (hr w h1.symm)
          have := hpd _ hne
          rw [h1, dot_tr'] at this
          rwa [← mulVec_mulVec, ← mulVec_mulVec]
      rw [if_pos this]
      exact ⟨_, _, rfl⟩

theorem backNode_convex {F : Fact K} (hF : FactOk F) (hC : FactComplete F) (es : EqSolver) {preg : Option K}
    {feas : Bool} {d : Derivs K n m} {e : EqDerivs K n m p} {V : Value K n} {f : Fin n → K} (hd : Convex d)
    (hp : 0 ≤ preg.getD 0) (hpd : ∀ v, v ≠ 0 → 0 < v ⬝ᵥ (d.Luu *ᵥ v) + preg.getD 0 * (v ⬝ᵥ v))
    (hr : 0 < m → 0 < p → FullRank e.Hu)
    (hV : V.Vxxᵀ = V.Vxx) (hV0 : ∀ v, 0 ≤ v ⬝ᵥ (V.Vxx *ᵥ v)) :
    ∃ o, backNode F es preg feas d e V f = .ok o ∧ (∀ v, 0 ≤ v ⬝ᵥ (o.V.Vxx *ᵥ v)) := by
  have hs : (actionValue preg d V).Quuᵀ = (actionValue preg d V).Quu := Quu_symm hd.Luu hV
  have hquad : ∀ v, v ⬝ᵥ ((actionValue preg d V).Quu *ᵥ v) =
      (v ⬝ᵥ (d.Luu *ᵥ v) + preg.getD 0 * (v ⬝ᵥ v)) + (d.Fu *ᵥ v) ⬝ᵥ (V.Vxx *ᵥ (d.Fu *ᵥ v)) := fun v => by
    simp only [actionValue]
    rw [addDiag_quad, add_mulVec, dotProduct_add, Matrix.mul_assoc, ← mulVec_mulVec, ← mulVec_mulVec,
      dot_tr', dotProduct_comm (V.Vxx *ᵥ (d.Fu *ᵥ v))]
    ring
  have hPD : ∀ v, v ≠ 0 → 0 < v ⬝ᵥ ((actionValue preg d V).Quu *ᵥ v) := fun v hv => by
    rw [hquad]
    have := hpd v hv
    have := hV0 (d.Fu *ᵥ v)
    linarith
  obtain ⟨k, Kfb, hg⟩ := gains_complete hF hC es hs hPD hr
  refine ⟨_, by unfold backNode; simp only [hg]; rfl, fun v => ?_⟩
  simp only [computeValue]
  rw [addDiag_quad]
  refine add_nonneg ?_ (mul_nonneg hp (dot_self_nonneg v))
  -- the stage and the next value function without linear terms
  let d' : Derivs K n m := { d with Lx := 0, Lu := 0 }
  let V' : Value K n := { V with Vx := 0 }
  have hpol := quadModel_policy (actionValue preg d' V') hs 0 Kfb v 0
  rw [quadModel_local (d := d') (V := V') hV] at hpol
  simp only [localModel, d', V', zero_dotProduct, zero_add, add_zero, zero_sub, mulVec_zero, sub_zero,
    mul_zero, dotProduct_zero, actionValue, mulVec_neg] at hpol
  have hps := hd.psd v (-(Kfb *ᵥ v))
  have hv2 := hV0 (d.Fx *ᵥ v + -(d.Fu *ᵥ (Kfb *ᵥ v)))
  have hr2 := mul_nonneg hp (dot_self_nonneg (Kfb *ᵥ v))
  simp only [mulVec_neg, dotProduct_neg, neg_dotProduct, neg_neg] at hps hpol
  simp only [actionValue]
  linarith

theorem backLoop_convex {F : Fact K} (hF : FactOk F) (hC : FactComplete F) (es : EqSolver) {preg : Option K}
    {feas : Bool} {d : ∀ t, Derivs K n (nu t)} {e : ∀ t, EqDerivs K n (nu t) (nh t)} {f : Nat → Fin n → K}
    (hp : 0 ≤ preg.getD 0) (T : Nat) (hd : ∀ t < T, Convex (d t))
    (hpd : ∀ t < T, ∀ v, v ≠ 0 → 0 < v ⬝ᵥ ((d t).Luu *ᵥ v) + preg.getD 0 * (v ⬝ᵥ v))
    (hr : ∀ t < T, 0 < nu t → 0 < nh t → FullRank (e t).Hu) (s : Arrays K n nu)
    (hV : (s.V T).Vxxᵀ = (s.V T).Vxx) (hV0 : ∀ v, 0 ≤ v ⬝ᵥ ((s.V T).Vxx *ᵥ v)) :
    ∃ g, backLoop F es preg feas d e f T s = .ok g := by
  induction T generalizing s with
  | zero => exact ⟨s, rfl⟩
  | succ t ih =>
    obtain ⟨o, ho, hv⟩ := backNode_convex hF hC es (feas := feas) (f := f t) (e := e t) (hd t (by omega)) hp
      (hpd t (by omega)) (hr t (by omega)) hV hV0
    rw [backLoop, ho]
    refine ih (fun j hj => hd j (by omega)) (fun j hj => hpd j (by omega)) (fun j hj => hr j (by omega)) _ ?_ ?_
    · simp only [Function.update_self]
      rw [(backNode_ok ho).2.2]
      refine addDiag_symm _ ?_
      rw [transpose_smul, transpose_add, transpose_transpose, add_comm]
    · simp only [Function.update_self]
      exact hv

/-! ### Linear-quadratic problems with affine constraints -/

section
variable (P : LqProb K n nu) (cs : ∀ t, Affine K n (nu t) (nh t))

/-- The backward pass run on the derivatives at the candidate. -/
def BackLq (F : Fact K) (es : EqSolver) (preg : Option K) (feas : Bool) (xs : Nat → Fin n → K)
    (us : ∀ t, Fin (nu t) → K) (g : Arrays K n nu) : Prop :=
  Back F es preg feas P.T (fun t => (P.node t).derivs (xs t) (us t)) (fun t => (cs t).derivs (xs t) (us t))
    (P.term.q + P.term.Q *ᵥ xs P.T) P.term.Q (gaps P xs us) g

variable {P cs}
variable {F : Fact K} {es : EqSolver} {preg : Option K} {feas : Bool} {xs : Nat → Fin n → K}
  {us : ∀ t, Fin (nu t) → K} {g : Arrays K n nu}

/-- First-order terms of a deviation from the policy. -/
def slope (xs : Nat → Fin n → K) (us : ∀ t, Fin (nu t) → K) (g : Arrays K n nu)
    (vs : ∀ t, Fin (nu t) → K) (t : Nat) (x : Fin n → K) : K :=
  dev xs us g vs t x ⬝ᵥ ((g.out t).Q.Qu - (g.out t).Q.Quu *ᵥ (g.out t).k)
    + dev xs us g vs t x ⬝ᵥ ((g.out t).Q.Qxuᵀ *ᵥ (x - xs t) - (g.out t).Q.Quu *ᵥ ((g.out t).Kfb *ᵥ (x - xs t)))

/-- The value of the constraint is `Hu` applied to the deviation from the policy. -/
theorem eval_dev (h : BackLq P cs F es preg feas xs us g) (hs : Symmetric P) (hF : FactOk F)
    (vs : ∀ t, Fin (nu t) → K) (t : Nat) (ht : t < P.T) (hn : 0 < nu t) (x : Fin n → K) :
    (cs t).eval x (vs t) = (cs t).D *ᵥ dev xs us g vs t x := by
  obtain ⟨-, -, -, hg, -⟩ := Back.facts h hF hs.term t ht (hs.R t)
  obtain ⟨h1, h2⟩ := hg.con hn
  simp only [Affine.derivs] at h1 h2
  unfold dev
  rw [mulVec_add, mulVec_add, mulVec_mulVec, h1, h2]
  unfold Affine.eval
  rw [mulVec_sub, mulVec_sub]
  abel

theorem slope_zero (h : BackLq P cs F es preg feas xs us g) (hs : Symmetric P) (hF : FactOk F)
    (vs : ∀ t, Fin (nu t) → K) (t : Nat) (ht : t < P.T) (x : Fin n → K)
    (h0 : 0 < nu t → (cs t).eval x (vs t) = 0) : slope xs us g vs t x = 0 := by
  obtain ⟨-, -, -, hg, -⟩ := Back.facts h hF hs.term t ht (hs.R t)
  unfold slope
  rcases Nat.eq_zero_or_pos (nu t) with hz | hz
  · have : dev xs us g vs t x = 0 := funext fun i => absurd i.2 (by omega)
    rw [this, zero_dotProduct, zero_dotProduct, add_zero]
  · have hk : ((cs t).derivs (xs t) (us t)).Hu *ᵥ dev xs us g vs t x = 0 := by
      rw [← h0 hz, eval_dev h hs hF vs t ht hz x]; rfl
    rw [hg.stat _ hk, hg.statx _ hk, add_zero]

theorem excess_nonneg (h : BackLq P cs F es preg feas xs us g) (hs : Symmetric P) (hF : FactOk F)
    (vs : ∀ t, Fin (nu t) → K) (t : Nat) (ht : t < P.T) (x : Fin n → K)
    (h0 : 0 < nu t → (cs t).eval x (vs t) = 0) :
    0 ≤ excess xs us g vs t x ∧ (excess xs us g vs t x = 0 → dev xs us g vs t x = 0) := by
  obtain ⟨-, -, -, hg, -⟩ := Back.facts h hF hs.term t ht (hs.R t)
  unfold excess
  by_cases hd : dev xs us g vs t x = 0
  · rw [hd]; simp
  · have hz : 0 < nu t := by
      by_contra hz
      exact hd (funext fun i => absurd i.2 (by omega))
    have hk : ((cs t).derivs (xs t) (us t)).Hu *ᵥ dev xs us g vs t x = 0 := by
      rw [← h0 hz, eval_dev h hs hF vs t ht hz x]; rfl
    have := hg.pd _ hk hd
    constructor
    · linarith
    · intro he; linarith

theorem value_end (h : BackLq P cs F es preg feas xs us g) (hs : Symmetric P)
    (hp : preg = none ∨ preg = some 0) (hf : feas = true → ∀ t ≤ P.T, gaps P xs us t = 0)
    (x : Fin n → K) :
    P.term.costT x = P.term.costT (xs P.T) + valAt P xs us g P.T x + gapTerm P xs us g P.T := by
  have hT := h.term
  have := P.term.costT_expand hs.term (xs P.T) (x - xs P.T)
  rw [add_sub_cancel] at this
  rw [this, add_assoc, shift_quad hs.term _ (gaps P xs us P.T)]
  unfold valAt gapTerm
  rw [hT]
  simp only [termValue, addDiag_zero preg hp]
  cases feas with
  | false => simp only [Bool.false_eq_true, if_false]; ring
  | true =>
    rw [hf rfl P.T le_rfl]
    simp only [mulVec_zero, add_zero, if_true]; ring

/-- The improvement of the node that the policy predicts. -/
def gainTerm (g : Arrays K n nu) (t : Nat) : K :=
  (g.out t).Q.Qu ⬝ᵥ (g.out t).k - (1/2) * ((g.out t).k ⬝ᵥ ((g.out t).Q.Quu *ᵥ (g.out t).k))

theorem value_step (h : BackLq P cs F es preg feas xs us g) (hs : Symmetric P) (hF : FactOk F)
    (hp : preg = none ∨ preg = some 0) (hf : feas = true → ∀ t ≤ P.T, gaps P xs us t = 0)
    (t : Nat) (ht : t < P.T) (x : Fin n → K) (vs : ∀ t, Fin (nu t) → K) :
    (P.node t).cost x (vs t) + valAt P xs us g (t + 1) ((P.node t).next x (vs t)) =
      (P.node t).cost (xs t) (us t) + valAt P xs us g t x + gapTerm P xs us g t - gainTerm g t
        + slope xs us g vs t x + excess xs us g vs t x := by
  obtain ⟨hQ, hVs, hQs, hg, hv⟩ := Back.facts h hF hs.term t ht (hs.R t)
  have hc := (P.node t).cost_expand (hs.Q t) (hs.R t) (xs t) (x - xs t) (us t) (vs t - us t)
  have hn := (P.node t).next_expand (xs t) (x - xs t) (us t) (vs t - us t)
  rw [add_sub_cancel, add_sub_cancel] at hc hn
  have hpol := quadModel_policy (g.out t).Q hQs (g.out t).k (g.out t).Kfb (x - xs t) (dev xs us g vs t x)
  have hdv : dev xs us g vs t x - (g.out t).k - (g.out t).Kfb *ᵥ (x - xs t) = vs t - us t := by
    unfold dev; abel
  have hr : preg.getD 0 = 0 := by rcases hp with rfl | rfl <;> rfl
  rw [hdv] at hpol
  have hloc := quadModel_local (d := (P.node t).derivs (xs t) (us t)) hVs preg (x - xs t) (vs t - us t)
  rw [← hQ, hr, localModel, zero_div, zero_mul, add_zero] at hloc
  rw [hloc] at hpol
  clear hloc
  have hsub : (P.node t).next x (vs t) - xs (t + 1) - gaps P xs us (t + 1) =
      (P.node t).A *ᵥ (x - xs t) + (P.node t).B *ᵥ (vs t - us t) := by
    rw [hn, gaps]; abel
  have hVxx : ((1/2 : K) • (((g.out t).Q.Qxx + ((g.out t).Kfbᵀ * (g.out t).Q.Quu - (2 : K) • (g.out t).Q.Qxu) *
        (g.out t).Kfb) + ((g.out t).Q.Qxx + ((g.out t).Kfbᵀ * (g.out t).Q.Quu - (2 : K) • (g.out t).Q.Qxu) *
        (g.out t).Kfb)ᵀ)) = (g.V t).Vxx := by
    rw [hv]; simp only [computeValue, addDiag_zero preg hp]
  have hVts := Back.symm h hs.term t ht.le
  rw [hVxx, shift_quad hVts _ (gaps P xs us t)] at hpol
  have hVx : (g.out t).Q.Qx - (g.out t).Q.Qxu *ᵥ (g.out t).k -
      (g.out t).Kfbᵀ *ᵥ ((g.out t).Q.Qu - (g.out t).Q.Quu *ᵥ (g.out t).k) + (g.V t).Vxx *ᵥ gaps P xs us t
      = (g.V t).Vx := by
    rw [← hVxx]
    rw [hv]; simp only [computeValue, addDiag_zero preg hp]
    cases feas with
    | false => rfl
    | true => rw [hf rfl t ht.le]; simp
  rw [hVx] at hpol
  rw [hc]
  unfold valAt gapTerm slope gainTerm excess
  rw [hsub]
  have hd : ((P.node t).derivs (xs t) (us t)).Lxx = (P.node t).Q := rfl
  have hd1 : ((P.node t).derivs (xs t) (us t)).Lxu = (P.node t).N := rfl
  have hd2 : ((P.node t).derivs (xs t) (us t)).Luu = (P.node t).R := rfl
  have hd3 : ((P.node t).derivs (xs t) (us t)).Fx = (P.node t).A := rfl
  have hd4 : ((P.node t).derivs (xs t) (us t)).Fu = (P.node t).B := rfl
  rw [hd, hd1, hd2, hd3, hd4] at hpol
  linarith

variable (P) in
/-- The constant of the value function of node `t`. -/
def base (xs : Nat → Fin n → K) (us : ∀ t, Fin (nu t) → K) (g : Arrays K n nu) (t : Nat) : K :=
  (∑ i ∈ Finset.Ico t P.T, ((P.node i).cost (xs i) (us i) + gapTerm P xs us g i - gainTerm g i))
    + (P.term.costT (xs P.T) + gapTerm P xs us g P.T)

theorem costToGo_value (h : BackLq P cs F es preg feas xs us g) (hs : Symmetric P) (hF : FactOk F)
    (hp : preg = none ∨ preg = some 0) (hf : feas = true → ∀ t ≤ P.T, gaps P xs us t = 0)
    (vs : ∀ t, Fin (nu t) → K) (t : Nat) (ht : t ≤ P.T) (x : Fin n → K) :
    costToGo P vs t x = base P xs us g t + valAt P xs us g t x + along P (slope xs us g vs) vs t x
      + along P (excess xs us g vs) vs t x := by
  obtain ⟨r, hr⟩ : ∃ r, t + r = P.T := ⟨P.T - t, by omega⟩
  induction r generalizing t x with
  | zero =>
    obtain rfl : t = P.T := by omega
    rw [costToGo_end, along_end, along_end, value_end h hs hp hf]
    simp only [base, Finset.Ico_self, Finset.sum_empty]
    ring
  | succ r ih =>
    have ht' : t < P.T := by omega
    rw [costToGo_step P vs t ht', ih (t + 1) (by omega) _ (by omega), along_step _ _ _ ht', along_step _ _ _ ht']
    have := value_step h hs hF hp hf t ht' x vs
    have hb : base P xs us g t = (P.node t).cost (xs t) (us t) + gapTerm P xs us g t
        - gainTerm g t + base P xs us g (t + 1) := by
      unfold base
      rw [Finset.sum_eq_sum_Ico_succ_bot ht']
      ring
    rw [hb]
    linarith

theorem along_zero (G : Nat → (Fin n → K) → K) (vs : ∀ t, Fin (nu t) → K) (t0 : Nat) (x : Fin n → K)
    (h : ∀ i, t0 + i < P.T → G (t0 + i) (traj P vs t0 x i) = 0) : along P G vs t0 x = 0 :=
  Finset.sum_eq_zero fun i hi => h i (by have := Finset.mem_range.mp hi; omega)

end

end Verif.Intro
