import Verif.Lemmas.KktRows
import Verif.Lemmas.Lq

/-! # Lemmas: the KKT system and the local quadratic program -/

namespace Verif.Kkt
open Verif Verif.Lq Matrix

set_option linter.unusedSectionVars false

variable {n : ℕ} {nu : ℕ → ℕ} {K : Type} [Field K]

/-- The Hessian of the local cost, applied to two directions. -/
def bil (l : Local K n nu) (X : ℕ → Fin n → K) (U : ∀ t, Fin (nu t) → K) (Y : ℕ → Fin n → K)
    (V : ∀ t, Fin (nu t) → K) : K :=
  (∑ t ∈ Finset.range l.T, (Y t ⬝ᵥ ((l.d t).Lxx *ᵥ X t + (l.d t).Lxu *ᵥ U t)
    + V t ⬝ᵥ ((l.d t).Lxuᵀ *ᵥ X t + (l.d t).Luu *ᵥ U t))) + Y l.T ⬝ᵥ (l.LxxT *ᵥ X l.T)

theorem bil_self (l : Local K n nu) (X : ℕ → Fin n → K) (U : ∀ t, Fin (nu t) → K) : bil l X U X U = curv l X U := by
  unfold bil curv
  congr 1
  refine Finset.sum_congr rfl fun t _ => ?_
  have e : U t ⬝ᵥ ((l.d t).Lxuᵀ *ᵥ X t) = X t ⬝ᵥ ((l.d t).Lxu *ᵥ U t) := by
    rw [dotProduct_comm, mulVec_transpose, dotProduct_mulVec]
  rw [dotProduct_add, dotProduct_add, e]
  ring

theorem quad_eq (l : Local K n nu) (X : ℕ → Fin n → K) (U : ∀ t, Fin (nu t) → K) :
    quad l X U = slope l X U + (1 / 2) * curv l X U := by
  unfold quad slope curv
  rw [Finset.sum_add_distrib, ← Finset.mul_sum]
  ring

/-- The multipliers against the change of a direction's dynamics. -/
def dynDot (l : Local K n nu) (L X : ℕ → Fin n → K) (U : ∀ t, Fin (nu t) → K) : K :=
  X 0 ⬝ᵥ L 0 + ∑ t ∈ Finset.range l.T, (X (t + 1) - (l.d t).Fx *ᵥ X t - (l.d t).Fu *ᵥ U t) ⬝ᵥ L (t + 1)

theorem dynDot_eq (l : Local K n nu) (L X : ℕ → Fin n → K) (U : ∀ t, Fin (nu t) → K) :
    dynDot l L X U = (∑ t ∈ Finset.range l.T, (X t ⬝ᵥ (L t - (l.d t).Fxᵀ *ᵥ L (t + 1))
      - U t ⬝ᵥ ((l.d t).Fuᵀ *ᵥ L (t + 1)))) + X l.T ⬝ᵥ L l.T := by
  have e1 : X 0 ⬝ᵥ L 0 + ∑ t ∈ Finset.range l.T, X (t + 1) ⬝ᵥ L (t + 1)
      = (∑ t ∈ Finset.range l.T, X t ⬝ᵥ L t) + X l.T ⬝ᵥ L l.T := by
    rw [← Finset.sum_range_succ (fun t => X t ⬝ᵥ L t), Finset.sum_range_succ', add_comm]
  unfold dynDot
  have e2 : ∀ t, (X (t + 1) - (l.d t).Fx *ᵥ X t - (l.d t).Fu *ᵥ U t) ⬝ᵥ L (t + 1)
      = X (t + 1) ⬝ᵥ L (t + 1) - (X t ⬝ᵥ ((l.d t).Fxᵀ *ᵥ L (t + 1)) + U t ⬝ᵥ ((l.d t).Fuᵀ *ᵥ L (t + 1))) := by
    intro t
    rw [sub_dotProduct, sub_dotProduct, dotProduct_comm ((l.d t).Fx *ᵥ X t), dotProduct_comm ((l.d t).Fu *ᵥ U t),
      dotProduct_mulVec, dotProduct_mulVec, ← mulVec_transpose, ← mulVec_transpose, dotProduct_comm (_ *ᵥ _) (X t),
      dotProduct_comm (_ *ᵥ _) (U t)]
    ring
  simp only [e2, Finset.sum_sub_distrib]
  rw [← add_sub_assoc, e1]
  simp only [dotProduct_sub, Finset.sum_sub_distrib, Finset.sum_add_distrib]
  ring

/-- The Hessian along a solution of the system. -/
theorem Eqs.bil_eq {l : Local K n nu} {k : K} {X : ℕ → Fin n → K} {U : ∀ t, Fin (nu t) → K} {L : ℕ → Fin n → K}
    (h : Eqs l k X U L) (Y : ℕ → Fin n → K) (V : ∀ t, Fin (nu t) → K) :
    bil l X U Y V = -(k * slope l Y V) - dynDot l L Y V := by
  rw [dynDot_eq]
  unfold bil slope
  have e : ∀ t ∈ Finset.range l.T, Y t ⬝ᵥ ((l.d t).Lxx *ᵥ X t + (l.d t).Lxu *ᵥ U t)
      + V t ⬝ᵥ ((l.d t).Lxuᵀ *ᵥ X t + (l.d t).Luu *ᵥ U t)
      = -(k * ((l.d t).Lx ⬝ᵥ Y t + (l.d t).Lu ⬝ᵥ V t)) - (Y t ⬝ᵥ (L t - (l.d t).Fxᵀ *ᵥ L (t + 1))
        - V t ⬝ᵥ ((l.d t).Fuᵀ *ᵥ L (t + 1))) := by
    intro t ht
    have h1 := h.x t (Finset.mem_range.1 ht)
    have h2 := h.u t (Finset.mem_range.1 ht)
    rw [eq_sub_of_add_eq h1, eq_add_of_sub_eq h2]
    simp only [dotProduct_sub, dotProduct_add, dotProduct_neg, dotProduct_smul, smul_eq_mul,
      dotProduct_comm (l.d t).Lx, dotProduct_comm (l.d t).Lu]
    ring
  have eT : Y l.T ⬝ᵥ (l.LxxT *ᵥ X l.T) = -(k * (l.LxT ⬝ᵥ Y l.T)) - Y l.T ⬝ᵥ L l.T := by
    rw [eq_sub_of_add_eq h.xT]
    simp only [dotProduct_sub, dotProduct_neg, dotProduct_smul, smul_eq_mul, dotProduct_comm l.LxT]
  rw [Finset.sum_congr rfl e, eT, Finset.sum_sub_distrib, Finset.sum_neg_distrib, ← Finset.mul_sum]
  ring

/-- A direction that keeps the dynamics. -/
structure Hom (l : Local K n nu) (X : ℕ → Fin n → K) (U : ∀ t, Fin (nu t) → K) : Prop where
  init : X 0 = 0
  step : ∀ t < l.T, X (t + 1) = (l.d t).Fx *ᵥ X t + (l.d t).Fu *ᵥ U t

theorem Hom.dynDot {l : Local K n nu} {X : ℕ → Fin n → K} {U : ∀ t, Fin (nu t) → K} (h : Hom l X U)
    (L : ℕ → Fin n → K) : dynDot l L X U = 0 := by
  unfold Kkt.dynDot
  rw [h.init, zero_dotProduct, zero_add]
  refine Finset.sum_eq_zero fun t ht => ?_
  rw [h.step t (Finset.mem_range.1 ht), show (l.d t).Fx *ᵥ X t + (l.d t).Fu *ᵥ U t - (l.d t).Fx *ᵥ X t
    - (l.d t).Fu *ᵥ U t = 0 by abel, zero_dotProduct]

theorem Eqs.hom {l : Local K n nu} {X : ℕ → Fin n → K} {U : ∀ t, Fin (nu t) → K} {L : ℕ → Fin n → K}
    (h : Eqs l 0 X U L) : Hom l X U := by
  refine ⟨by simpa using h.c0, fun t ht => ?_⟩
  have := h.c t ht
  rw [zero_smul, neg_zero, sub_sub, sub_eq_zero] at this
  exact this

section ordered
variable [LinearOrder K] [IsStrictOrderedRing K]

/-- The Hessian is nonnegative, and zero along a direction that keeps the dynamics only if the direction is zero. -/
theorem curv_nonneg {l : Local K n nu} (hc : ConvexLocal l) (X : ℕ → Fin n → K) (U : ∀ t, Fin (nu t) → K) :
    0 ≤ curv l X U :=
  add_nonneg (Finset.sum_nonneg fun t ht => (hc.node t (Finset.mem_range.1 ht)).psd _ _) (hc.term _)

theorem Hom.zero {l : Local K n nu} (hc : ConvexLocal l) {X : ℕ → Fin n → K} {U : ∀ t, Fin (nu t) → K}
    (h : Hom l X U) (h0 : curv l X U ≤ 0) : (∀ t ≤ l.T, X t = 0) ∧ ∀ t < l.T, U t = 0 := by
  have hn : ∀ t ∈ Finset.range l.T, 0 ≤ X t ⬝ᵥ ((l.d t).Lxx *ᵥ X t) + 2 * (X t ⬝ᵥ ((l.d t).Lxu *ᵥ U t))
      + U t ⬝ᵥ ((l.d t).Luu *ᵥ U t) := fun t ht => (hc.node t (Finset.mem_range.1 ht)).psd _ _
  have hs : ∑ t ∈ Finset.range l.T, (X t ⬝ᵥ ((l.d t).Lxx *ᵥ X t) + 2 * (X t ⬝ᵥ ((l.d t).Lxu *ᵥ U t))
      + U t ⬝ᵥ ((l.d t).Luu *ᵥ U t)) = 0 := by
    have h1 := Finset.sum_nonneg hn
    have h2 := hc.term (X l.T)
    unfold curv at h0
    linarith
  have hz := (Finset.sum_eq_zero_iff_of_nonneg hn).1 hs
  have key : ∀ t < l.T, X t = 0 → U t = 0 := by
    intro t ht hx
    by_contra hu
    have h1 := hz t (Finset.mem_range.2 ht)
    rw [hx] at h1
    have h2 := hc.pd t ht (U t) hu
    simp at h1
    linarith
  have hX : ∀ t ≤ l.T, X t = 0 := by
    intro t
    induction t with
    | zero => exact fun _ => h.init
    | succ t ih =>
      intro ht
      have hx := ih (by omega)
      rw [h.step t ht, hx, key t ht hx]
      simp
  exact ⟨hX, fun t ht => key t ht (hX t ht.le)⟩

/-- Only zero solves the homogeneous system of a convex problem. -/
theorem Eqs.zero {l : Local K n nu} (hc : ConvexLocal l) {X : ℕ → Fin n → K} {U : ∀ t, Fin (nu t) → K}
    {L : ℕ → Fin n → K} (h : Eqs l 0 X U L) :
    (∀ t ≤ l.T, X t = 0) ∧ (∀ t < l.T, U t = 0) ∧ ∀ t ≤ l.T, L t = 0 := by
  have hh := h.hom
  have e := h.bil_eq X U
  rw [hh.dynDot, bil_self] at e
  obtain ⟨hX, hU⟩ := hh.zero hc (by rw [e]; simp)
  refine ⟨hX, hU, ?_⟩
  have : ∀ k t, t + k = l.T → L t = 0 := by
    intro k
    induction k with
    | zero =>
      intro t ht
      have := h.xT
      rw [hX l.T le_rfl, ← ht] at this
      simpa using this
    | succ k ih =>
      intro t ht
      have h1 := ih (t + 1) (by omega)
      have h2 := h.x t (by omega)
      rw [hX t (by omega), hU t (by omega), h1] at h2
      simpa using h2
  exact fun t ht => this (l.T - t) t (by omega)

/-- The system of a convex problem is nonsingular. -/
theorem nonsingular {l : Local K n nu} (hc : ConvexLocal l) {m : Mem K} (hm : Clean n nu l.T m) (hT : 0 < l.T)
    (z : ℕ → K) (h : ∀ p < 2 * ndx n l.T + nus nu l.T, ∑ q ∈ Finset.range (2 * ndx n l.T + nus nu l.T),
      (assembleOn l m).kkt p q * z q = 0) : ∀ q < 2 * ndx n l.T + nus nu l.T, z q = 0 := by
  obtain ⟨hX, hU, hL⟩ := (eqs_of_flat l hm 0 z hT fun p hp => by rw [h p hp]; simp).zero hc
  have hs : ∑ q ∈ Finset.range (2 * ndx n l.T + nus nu l.T), z q * z q = 0 := by
    rw [sum_all, Finset.sum_eq_zero, Finset.sum_eq_zero, Finset.sum_eq_zero]
    · simp
    · refine fun t ht => Finset.sum_eq_zero fun i _ => ?_
      rw [z_c z, hL t (by have := Finset.mem_range.1 ht; omega)]; simp
    · refine fun t ht => Finset.sum_eq_zero fun i _ => ?_
      rw [z_u z, hU t (Finset.mem_range.1 ht)]; simp
    · refine fun t ht => Finset.sum_eq_zero fun i _ => ?_
      rw [z_x z, hX t (by have := Finset.mem_range.1 ht; omega)]; simp
  have hz := (Finset.sum_eq_zero_iff_of_nonneg fun q _ => mul_self_nonneg (z q)).1 hs
  exact fun q hq => mul_self_eq_zero.1 (hz q (Finset.mem_range.2 hq))

/-- The computed direction solves the equations. -/
theorem direction_eqs {lu : ℕ → (ℕ → ℕ → K) → (ℕ → K) → ℕ → K} (hlu : LuSound lu) {l : Local K n nu}
    (hc : ConvexLocal l) {m : Mem K} (hm : Clean n nu l.T m) (hT : 0 < l.T) :
    let pd := primalDual lu n nu l.T (assembleOn l m)
    Eqs l 1 (dxOf n pd) (duOf n nu l.T pd) (lamOf n nu l.T pd) := by
  intro pd
  refine eqs_of_flat l hm 1 pd hT fun p hp => ?_
  rw [one_mul]
  exact hlu _ _ _ (nonsingular hc hm hT) p hp

end ordered

/-! ### Expected improvement and stopping criterion -/

theorem expImp_fst (l : Local K n nu) (m : Mem K) (hT : 0 < l.T) (z : ℕ → K) :
    (expImp n nu l.T (assembleOn l m) z).1 = -slope l (dxOf n z) (duOf n nu l.T z) := by
  unfold expImp slope
  simp only
  rw [sum_primal, Finset.sum_range_succ, Finset.sum_add_distrib]
  congr 1
  have e1 : ∀ t ∈ Finset.range l.T, ∑ i : Fin n, (assembleOn l m).ref ((Blk.x t).base n nu l.T + i)
      * z ((Blk.x t).base n nu l.T + i) = (l.d t).Lx ⬝ᵥ dxOf n z t := by
    intro t ht
    refine Finset.sum_congr rfl fun i _ => ?_
    have ht := Finset.mem_range.1 ht
    rw [ref_at l m hT (b := .x t) ht.le i.2, z_x z]
    simp only [rhs, if_pos ht, flat1_fin]
  have e2 : ∀ t ∈ Finset.range l.T, ∑ i : Fin (nu t), (assembleOn l m).ref ((Blk.u t).base n nu l.T + i)
      * z ((Blk.u t).base n nu l.T + i) = (l.d t).Lu ⬝ᵥ duOf n nu l.T z t := by
    intro t ht
    refine Finset.sum_congr rfl fun i _ => ?_
    have ht := Finset.mem_range.1 ht
    rw [ref_at l m hT (b := .u t) ht i.2, z_u z]
    simp only [rhs, flat1_fin]
  have e3 : ∑ i : Fin n, (assembleOn l m).ref ((Blk.x l.T).base n nu l.T + i)
      * z ((Blk.x l.T).base n nu l.T + i) = l.LxT ⬝ᵥ dxOf n z l.T := by
    refine Finset.sum_congr rfl fun i _ => ?_
    rw [ref_at l m hT (b := .x l.T) le_rfl i.2, z_x z]
    simp only [rhs, lt_irrefl, if_false, flat1_fin]
  rw [Finset.sum_congr rfl e1, Finset.sum_congr rfl e2, e3]
  ring

theorem expImp_snd (l : Local K n nu) {m : Mem K} (hm : Clean n nu l.T m) (z : ℕ → K) :
    (expImp n nu l.T (assembleOn l m) z).2 = -curv l (dxOf n z) (duOf n nu l.T z) := by
  rw [← bil_self]
  unfold expImp bil
  simp only
  rw [sum_primal, Finset.sum_range_succ, Finset.sum_add_distrib]
  congr 1
  have e1 : ∀ t ∈ Finset.range l.T, ∑ i : Fin n, (∑ q ∈ Finset.range (ndx n l.T + nus nu l.T),
      (assembleOn l m).kkt ((Blk.x t).base n nu l.T + i) q * z q) * z ((Blk.x t).base n nu l.T + i)
      = dxOf n z t ⬝ᵥ ((l.d t).Lxx *ᵥ dxOf n z t + (l.d t).Lxu *ᵥ duOf n nu l.T z t) := by
    intro t ht
    have ht := Finset.mem_range.1 ht
    refine Finset.sum_congr rfl fun i _ => ?_
    rw [prow_eq l hm z (b := .x t) ht.le i.2, rowH_x l _ _ ht, z_x z, mul_comm]
  have e2 : ∀ t ∈ Finset.range l.T, ∑ i : Fin (nu t), (∑ q ∈ Finset.range (ndx n l.T + nus nu l.T),
      (assembleOn l m).kkt ((Blk.u t).base n nu l.T + i) q * z q) * z ((Blk.u t).base n nu l.T + i)
      = duOf n nu l.T z t ⬝ᵥ ((l.d t).Lxuᵀ *ᵥ dxOf n z t + (l.d t).Luu *ᵥ duOf n nu l.T z t) := by
    intro t ht
    have ht := Finset.mem_range.1 ht
    refine Finset.sum_congr rfl fun i _ => ?_
    rw [prow_eq l hm z (b := .u t) ht i.2, rowH_u l _ _ ht, z_u z, mul_comm]
  have e3 : ∑ i : Fin n, (∑ q ∈ Finset.range (ndx n l.T + nus nu l.T),
      (assembleOn l m).kkt ((Blk.x l.T).base n nu l.T + i) q * z q) * z ((Blk.x l.T).base n nu l.T + i)
      = dxOf n z l.T ⬝ᵥ (l.LxxT *ᵥ dxOf n z l.T) := by
    refine Finset.sum_congr rfl fun i _ => ?_
    rw [prow_eq l hm z (b := .x l.T) le_rfl i.2, rowH_xT l, z_x z, mul_comm]
  rw [Finset.sum_congr rfl e1, Finset.sum_congr rfl e2, e3]
  ring

/-- The vector `dF` by blocks. -/
theorem dF_at (l : Local K n nu) (lam : ℕ → Fin n → K) (w : ℕ → K) :
    (∀ t < l.T, ∀ i : Fin n, setSeg (ixAt n l.T) n (flat1 (lam l.T)) ((List.range l.T).foldl (dFNode l lam) w)
      ((Blk.x t).base n nu l.T + i) = (lam t - (l.d t).Fxᵀ *ᵥ lam (t + 1)) i) ∧
    (∀ t < l.T, ∀ i : Fin (nu t), setSeg (ixAt n l.T) n (flat1 (lam l.T)) ((List.range l.T).foldl (dFNode l lam) w)
      ((Blk.u t).base n nu l.T + i) = -((l.d t).Fuᵀ *ᵥ lam (t + 1)) i) ∧
    (∀ i : Fin n, setSeg (ixAt n l.T) n (flat1 (lam l.T)) ((List.range l.T).foldl (dFNode l lam) w)
      ((Blk.x l.T).base n nu l.T + i) = lam l.T i) := by
  have hT : (Blk.x l.T).ok l.T := le_rfl
  have nodeAt : ∀ (q : ℕ → K) t, t < l.T → ∀ {b : Blk}, b.ok l.T → ∀ {i : ℕ}, i < b.size n nu →
      dFNode l lam q t (b.base n nu l.T + i) = if b = .u t then flat1 (-((l.d t).Fuᵀ *ᵥ lam (t + 1))) i
        else if b = .x t then flat1 (lam t - (l.d t).Fxᵀ *ᵥ lam (t + 1)) i else q (b.base n nu l.T + i) := by
    intro q t ht b hb i hi
    have hx : (Blk.x t).ok l.T := ht.le
    have hu : (Blk.u t).ok l.T := ht
    rw [← setSeg_at hx hb hi, ← setSeg_at hu hb hi]
    rfl
  refine ⟨fun t ht i => ?_, fun t ht i => ?_, fun i => ?_⟩
  · have e := setSeg_at (n := n) (nu := nu) hT (b := .x t) ht.le i.2 (flat1 (lam l.T))
      ((List.range l.T).foldl (dFNode l lam) w)
    rw [if_neg (by simp [ht.ne])] at e
    refine Eq.trans e ?_
    rw [foldl_hit (dFNode l lam) (fun q => q ((Blk.x t).base n nu l.T + i)) t
      (flat1 (lam t - (l.d t).Fxᵀ *ᵥ lam (t + 1)) i) l.T (fun q s hs => by
        rw [nodeAt q s hs (b := .x t) ht.le i.2]
        by_cases h : s = t
        · subst h; simp
        · simp [h, Ne.symm h]), if_pos ht, flat1_fin]
  · have e := setSeg_at (n := n) (nu := nu) hT (b := .u t) ht i.2 (flat1 (lam l.T))
      ((List.range l.T).foldl (dFNode l lam) w)
    rw [if_neg (by simp)] at e
    refine Eq.trans e ?_
    rw [foldl_hit (dFNode l lam) (fun q => q ((Blk.u t).base n nu l.T + i)) t
      (flat1 (-((l.d t).Fuᵀ *ᵥ lam (t + 1))) i) l.T (fun q s hs => by
        rw [nodeAt q s hs (b := .u t) ht i.2]
        by_cases h : s = t
        · subst h; simp
        · simp [h, Ne.symm h]), if_pos ht, flat1_fin]
    rfl
  · have e := setSeg_at (n := n) (nu := nu) hT (b := .x l.T) le_rfl i.2 (flat1 (lam l.T))
      ((List.range l.T).foldl (dFNode l lam) w)
    rw [if_pos rfl, flat1_fin] at e
    exact e

/-- The stopping criterion: squared norms of the gradient of the Lagrangian and of the gaps. -/
theorem stopOf_eq (l : Local K n nu) (m : Mem K) (hT : 0 < l.T) (lam : ℕ → Fin n → K) (w : ℕ → K) :
    stopOf l (assembleOn l m) lam w =
      ((∑ t ∈ Finset.range l.T, ∑ i, ((l.d t).Lx + lam t - (l.d t).Fxᵀ *ᵥ lam (t + 1)) i ^ 2)
        + (∑ i, (l.LxT + lam l.T) i ^ 2)
        + ∑ t ∈ Finset.range l.T, ∑ i, ((l.d t).Lu - (l.d t).Fuᵀ *ᵥ lam (t + 1)) i ^ 2)
      + ((∑ t ∈ Finset.range l.T, ∑ i, (l.xs (t + 1) - l.xnext t) i ^ 2) + ∑ i, (l.xs 0 - l.x0) i ^ 2) := by
  obtain ⟨h1, h2, h3⟩ := dF_at l lam w
  unfold stopOf
  simp only
  rw [sum_primal, Finset.sum_range_succ]
  congr 1
  · congr 1
    · congr 1
      · refine Finset.sum_congr rfl fun t ht => Finset.sum_congr rfl fun i _ => ?_
        have ht := Finset.mem_range.1 ht
        rw [h1 t ht i, ref_at l m hT (b := .x t) ht.le i.2]
        simp only [rhs, if_pos ht, flat1_fin, Pi.add_apply, Pi.sub_apply, add_sub_assoc]
      · refine Finset.sum_congr rfl fun i _ => ?_
        rw [h3 i, ref_at l m hT (b := .x l.T) le_rfl i.2]
        simp only [rhs, lt_irrefl, if_false, flat1_fin, Pi.add_apply]
    · refine Finset.sum_congr rfl fun t ht => Finset.sum_congr rfl fun i _ => ?_
      have ht := Finset.mem_range.1 ht
      rw [h2 t ht i, ref_at l m hT (b := .u t) ht i.2]
      simp only [rhs, flat1_fin, Pi.sub_apply, sub_eq_add_neg]
  · rw [sum_ndx (fun q => (assembleOn l m).ref (ndx n l.T + nus nu l.T + q) ^ 2), Finset.sum_range_succ']
    have e : ∀ t (i : Fin n), ndx n l.T + nus nu l.T + (ixAt n t + i) = (Blk.c t).base n nu l.T + i := by
      intro t i; simp only [Blk.base]; omega
    simp only [e]
    congr 1
    · refine Finset.sum_congr rfl fun t ht => Finset.sum_congr rfl fun i _ => ?_
      rw [ref_at l m hT (b := .c (t + 1)) (Finset.mem_range.1 ht) i.2]
      simp only [rhs, flat1_fin]
    · refine Finset.sum_congr rfl fun i _ => ?_
      rw [ref_at l m hT (b := .c 0) (Nat.zero_le _) i.2]
      simp only [rhs, flat1_fin]

end Verif.Kkt
