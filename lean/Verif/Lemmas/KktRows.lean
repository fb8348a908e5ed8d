import Verif.Lemmas.KktSystem
import Verif.Spec.KktSystem

/-! # Lemmas: the rows of the KKT system -/

namespace Verif.Kkt
open Verif Verif.Lq Matrix

set_option linter.unusedSectionVars false

variable {n : ℕ} {nu : ℕ → ℕ} {T : ℕ} {K : Type} [Field K]

theorem flat2_fin {a b : ℕ} (M : Matrix (Fin a) (Fin b) K) (i : Fin a) (j : Fin b) : flat2 M i j = M i j := by
  simp [flat2]

theorem flat1_fin {a : ℕ} (v : Fin a → K) (i : Fin a) : flat1 v i = v i := by simp [flat1]

theorem z_x (z : ℕ → K) (t : ℕ) (i : Fin n) : z ((Blk.x t).base n nu T + i) = dxOf n z t i := rfl
theorem z_u (z : ℕ → K) (t : ℕ) (i : Fin (nu t)) : z ((Blk.u t).base n nu T + i) = duOf n nu T z t i := by
  simp only [Blk.base, duOf, Nat.add_assoc]
theorem z_c (z : ℕ → K) (t : ℕ) (i : Fin n) : z ((Blk.c t).base n nu T + i) = lamOf n nu T z t i := by
  simp only [Blk.base, lamOf, Nat.add_assoc]

/-- The row of the system at a position, by blocks. -/
theorem row_eq (l : Local K n nu) {m : Mem K} (hm : Clean n nu l.T m) (z : ℕ → K) {b : Blk} (hb : b.ok l.T) {i : ℕ}
    (hi : i < b.size n nu) :
    ∑ q ∈ Finset.range (2 * ndx n l.T + nus nu l.T), (assembleOn l m).kkt (b.base n nu l.T + i) q * z q =
      ((∑ s ∈ Finset.range (l.T + 1), ∑ j : Fin n, sys l b (.x s) i j * dxOf n z s j)
      + ∑ s ∈ Finset.range l.T, ∑ j : Fin (nu s), sys l b (.u s) i j * duOf n nu l.T z s j)
      + ∑ s ∈ Finset.range (l.T + 1), ∑ j : Fin n, sys l b (.c s) i j * lamOf n nu l.T z s j := by
  rw [sum_all]
  congr 1
  · congr 1
    · refine Finset.sum_congr rfl fun s hs => Finset.sum_congr rfl fun j _ => ?_
      rw [kkt_at l m hm (b' := .x s) hb (by have := Finset.mem_range.1 hs; simp only [Blk.ok]; omega) hi j.2, z_x z]
    · refine Finset.sum_congr rfl fun s hs => Finset.sum_congr rfl fun j _ => ?_
      rw [kkt_at l m hm (b' := .u s) hb (Finset.mem_range.1 hs) hi j.2, z_u z]
  · refine Finset.sum_congr rfl fun s hs => Finset.sum_congr rfl fun j _ => ?_
    rw [kkt_at l m hm (b' := .c s) hb (by have := Finset.mem_range.1 hs; simp only [Blk.ok]; omega) hi j.2, z_c z]

theorem prow_eq (l : Local K n nu) {m : Mem K} (hm : Clean n nu l.T m) (z : ℕ → K) {b : Blk} (hb : b.ok l.T) {i : ℕ}
    (hi : i < b.size n nu) :
    ∑ q ∈ Finset.range (ndx n l.T + nus nu l.T), (assembleOn l m).kkt (b.base n nu l.T + i) q * z q =
      (∑ s ∈ Finset.range (l.T + 1), ∑ j : Fin n, sys l b (.x s) i j * dxOf n z s j)
      + ∑ s ∈ Finset.range l.T, ∑ j : Fin (nu s), sys l b (.u s) i j * duOf n nu l.T z s j := by
  rw [sum_primal]
  congr 1
  · refine Finset.sum_congr rfl fun s hs => Finset.sum_congr rfl fun j _ => ?_
    rw [kkt_at l m hm (b' := .x s) hb (by have := Finset.mem_range.1 hs; simp only [Blk.ok]; omega) hi j.2, z_x z]
  · refine Finset.sum_congr rfl fun s hs => Finset.sum_congr rfl fun j _ => ?_
    rw [kkt_at l m hm (b' := .u s) hb (Finset.mem_range.1 hs) hi j.2, z_u z]

/-- A sum with one nonzero block. -/
theorem pick {N t : ℕ} (sz : ℕ → ℕ) (g : ∀ s, Fin (sz s) → K) (z : ∀ s, Fin (sz s) → K) (ht : t < N) :
    ∑ s ∈ Finset.range N, ∑ j : Fin (sz s), (if t = s then g s j else 0) * z s j = g t ⬝ᵥ z t := by
  rw [Finset.sum_eq_single t]
  · simp [dotProduct]
  · intro s _ hs
    simp [Ne.symm hs]
  · intro h
    exact absurd (Finset.mem_range.2 ht) h

theorem pick_none {N : ℕ} (sz : ℕ → ℕ) (p : ℕ → Prop) [DecidablePred p] (g : ∀ s, Fin (sz s) → K)
    (z : ∀ s, Fin (sz s) → K) (hp : ∀ s < N, ¬p s) :
    ∑ s ∈ Finset.range N, ∑ j : Fin (sz s), (if p s then g s j else 0) * z s j = 0 :=
  Finset.sum_eq_zero fun s hs => by simp [hp s (Finset.mem_range.1 hs)]

section rows
variable (l : Local K n nu) (X : ℕ → Fin n → K) (U : ∀ t, Fin (nu t) → K) (L : ℕ → Fin n → K)

/-- Hessian part of a row of states. -/
theorem rowH_x {t : ℕ} (ht : t < l.T) (i : Fin n) :
    (∑ s ∈ Finset.range (l.T + 1), ∑ j : Fin n, sys l (.x t) (.x s) i j * X s j)
      + ∑ s ∈ Finset.range l.T, ∑ j : Fin (nu s), sys l (.x t) (.u s) i j * U s j
      = ((l.d t).Lxx *ᵥ X t + (l.d t).Lxu *ᵥ U t) i := by
  simp only [sys, val, if_pos ht, flat2_fin]
  rw [pick (fun _ => n) (fun _ j => (l.d t).Lxx i j) X (by omega), pick nu (fun s j => (l.d s).Lxu i j) U ht]
  rfl

theorem rowH_xT (i : Fin n) :
    (∑ s ∈ Finset.range (l.T + 1), ∑ j : Fin n, sys l (.x l.T) (.x s) i j * X s j)
      + ∑ s ∈ Finset.range l.T, ∑ j : Fin (nu s), sys l (.x l.T) (.u s) i j * U s j
      = (l.LxxT *ᵥ X l.T) i := by
  simp only [sys, val, lt_irrefl, if_false, flat2_fin]
  rw [pick (fun _ => n) (fun _ j => l.LxxT i j) X (by omega),
    pick_none nu (fun s => l.T = s) (fun s j => (l.d s).Lxu i j) U (fun s hs => by omega), add_zero]
  rfl

theorem rowH_u {t : ℕ} (ht : t < l.T) (i : Fin (nu t)) :
    (∑ s ∈ Finset.range (l.T + 1), ∑ j : Fin n, sys l (.u t) (.x s) i j * X s j)
      + ∑ s ∈ Finset.range l.T, ∑ j : Fin (nu s), sys l (.u t) (.u s) i j * U s j
      = ((l.d t).Lxuᵀ *ᵥ X t + (l.d t).Luu *ᵥ U t) i := by
  simp only [sys, val, flat2_fin]
  rw [pick (fun _ => n) (fun _ j => (l.d t).Lxuᵀ i j) X (by omega)]
  have e := pick nu (t := t) (fun s j => flat2 (l.d s).Luu i j) U ht
  rw [e]
  simp only [Pi.add_apply, mulVec, dotProduct, flat2_fin]

/-- Multiplier part of a row of states. -/
theorem rowC_x {t : ℕ} (ht : t ≤ l.T) (i : Fin n) :
    ∑ s ∈ Finset.range (l.T + 1), ∑ j : Fin n, sys l (.x t) (.c s) i j * L s j
      = L t i - if t < l.T then ((l.d t).Fxᵀ *ᵥ L (t + 1)) i else 0 := by
  have e : ∀ s (j : Fin n), sys l (.x t) (.c s) i j * L s j =
      (if t + 1 = s then (-(l.d t).Fx) j i else 0) * L s j + (if t = s then (if j = i then 1 else 0) else 0) * L s j := by
    intro s j
    simp only [sys, val, flat2_fin]
    by_cases h1 : s = t + 1
    · subst h1
      simp
    · have h1' : t + 1 ≠ s := Ne.symm h1
      by_cases h2 : s = t
      · subst h2
        simp [Fin.ext_iff]
      · simp [h1, h1', h2, Ne.symm h2]
  simp only [e, Finset.sum_add_distrib]
  rw [pick (fun _ => n) (fun _ j => if j = i then (1 : K) else 0) L (by omega)]
  by_cases h : t < l.T
  · rw [pick (fun _ => n) (fun _ j => (-(l.d t).Fx) j i) L (by omega), if_pos h]
    simp [dotProduct, mulVec, Finset.sum_neg_distrib]
    ring
  · rw [pick_none (fun _ => n) (fun s => t + 1 = s) (fun _ j => (-(l.d t).Fx) j i) L (fun s hs => by omega), if_neg h]
    simp [dotProduct]

theorem rowC_u {t : ℕ} (ht : t < l.T) (i : Fin (nu t)) :
    ∑ s ∈ Finset.range (l.T + 1), ∑ j : Fin n, sys l (.u t) (.c s) i j * L s j
      = -((l.d t).Fuᵀ *ᵥ L (t + 1)) i := by
  have e : ∀ s (j : Fin n), sys l (.u t) (.c s) i j * L s j = (if t + 1 = s then (-(l.d t).Fu) j i else 0) * L s j := by
    intro s j
    simp only [sys, val, flat2_fin, eq_comm]
  simp only [e]
  rw [pick (fun _ => n) (fun _ j => (-(l.d t).Fu) j i) L (by omega)]
  simp [dotProduct, mulVec, Finset.sum_neg_distrib]

/-- Rows of the dynamics. -/
theorem row_c0 (i : Fin n) :
    ((∑ s ∈ Finset.range (l.T + 1), ∑ j : Fin n, sys l (.c 0) (.x s) i j * X s j)
      + ∑ s ∈ Finset.range l.T, ∑ j : Fin (nu s), sys l (.c 0) (.u s) i j * U s j)
      + ∑ s ∈ Finset.range (l.T + 1), ∑ j : Fin n, sys l (.c 0) (.c s) i j * L s j = X 0 i := by
  have e : ∀ s (j : Fin n), sys l (.c 0) (.x s) i j * X s j
      = (if 0 = s then (if i = j then 1 else 0) else 0) * X s j := by
    intro s j
    by_cases h : 0 = s
    · subst h; simp [sys, val, Fin.ext_iff]
    · simp [sys, val, h]
  simp only [e]
  rw [pick (fun _ => n) (fun _ j => if i = j then (1 : K) else 0) X (by omega)]
  simp [sys, val, dotProduct]

theorem row_c {t : ℕ} (ht : t < l.T) (i : Fin n) :
    ((∑ s ∈ Finset.range (l.T + 1), ∑ j : Fin n, sys l (.c (t + 1)) (.x s) i j * X s j)
      + ∑ s ∈ Finset.range l.T, ∑ j : Fin (nu s), sys l (.c (t + 1)) (.u s) i j * U s j)
      + ∑ s ∈ Finset.range (l.T + 1), ∑ j : Fin n, sys l (.c (t + 1)) (.c s) i j * L s j
      = (X (t + 1) - (l.d t).Fx *ᵥ X t - (l.d t).Fu *ᵥ U t) i := by
  have e : ∀ s (j : Fin n), sys l (.c (t + 1)) (.x s) i j * X s j
      = (if t = s then (-(l.d t).Fx) i j else 0) * X s j
        + (if t + 1 = s then (if i = j then 1 else 0) else 0) * X s j := by
    intro s j
    simp only [sys, val, flat2_fin]
    by_cases h1 : t = s
    · subst h1; simp
    · by_cases h2 : t + 1 = s
      · subst h2; simp [Fin.ext_iff]
      · simp [h1, h2]
  have e2 : ∀ s (j : Fin (nu s)), sys l (.c (t + 1)) (.u s) i j * U s j
      = (if t = s then (-(l.d s).Fu) i j else 0) * U s j := by
    intro s j
    simp only [sys, val, flat2_fin, Nat.add_right_cancel_iff]
  have e3 : ∀ s (j : Fin n), sys l (.c (t + 1)) (.c s) i j * L s j = 0 := by
    intro s j; simp [sys, val]
  simp only [e, e2, e3, Finset.sum_add_distrib, Finset.sum_const_zero, add_zero]
  rw [pick (fun _ => n) (fun _ j => (-(l.d t).Fx) i j) X (by omega),
    pick (fun _ => n) (fun _ j => if i = j then (1 : K) else 0) X (by omega),
    pick nu (fun s j => (-(l.d s).Fu) i j) U ht]
  simp [dotProduct, mulVec, Finset.sum_neg_distrib]
  ring

end rows

/-- The equations that a solution of the system satisfies, by blocks: `A z = -b` with `b` the rows of `l`, or zero. -/
structure Eqs (l : Local K n nu) (k : K) (X : ℕ → Fin n → K) (U : ∀ t, Fin (nu t) → K) (L : ℕ → Fin n → K) : Prop where
  x : ∀ t < l.T, (l.d t).Lxx *ᵥ X t + (l.d t).Lxu *ᵥ U t + (L t - (l.d t).Fxᵀ *ᵥ L (t + 1)) = -(k • (l.d t).Lx)
  u : ∀ t < l.T, (l.d t).Lxuᵀ *ᵥ X t + (l.d t).Luu *ᵥ U t - (l.d t).Fuᵀ *ᵥ L (t + 1) = -(k • (l.d t).Lu)
  xT : l.LxxT *ᵥ X l.T + L l.T = -(k • l.LxT)
  c0 : X 0 = -(k • (l.xs 0 - l.x0))
  c : ∀ t < l.T, X (t + 1) - (l.d t).Fx *ᵥ X t - (l.d t).Fu *ᵥ U t = -(k • (l.xs (t + 1) - l.xnext t))

/-- Reading a flat solution by blocks. -/
theorem eqs_of_flat (l : Local K n nu) {m : Mem K} (hm : Clean n nu l.T m) (k : K) (z : ℕ → K) (hT : 0 < l.T)
    (h : ∀ p < 2 * ndx n l.T + nus nu l.T, ∑ q ∈ Finset.range (2 * ndx n l.T + nus nu l.T),
      (assembleOn l m).kkt p q * z q = -(k * (assembleOn l m).ref p)) :
    Eqs l k (dxOf n z) (duOf n nu l.T z) (lamOf n nu l.T z) := by
  have hx : ∀ t ≤ l.T, ∀ i : Fin n, (Blk.x t).base n nu l.T + i < 2 * ndx n l.T + nus nu l.T := fun t ht i => by
    have := c_row (n := n) ht i.2; simp only [Blk.base]; omega
  have hu : ∀ t < l.T, ∀ i : Fin (nu t), (Blk.u t).base n nu l.T + i < 2 * ndx n l.T + nus nu l.T := fun t ht i => by
    have := u_end (nu := nu) ht; have := i.2; simp only [Blk.base]; omega
  have hc : ∀ t ≤ l.T, ∀ i : Fin n, (Blk.c t).base n nu l.T + i < 2 * ndx n l.T + nus nu l.T := fun t ht i => by
    have := c_row (n := n) ht i.2; simp only [Blk.base]; omega
  refine ⟨fun t ht => ?_, fun t ht => ?_, ?_, ?_, fun t ht => ?_⟩
  · ext i
    have h1 := h _ (hx t ht.le i)
    rw [row_eq l hm z (b := .x t) ht.le i.2, rowH_x l _ _ ht, rowC_x l _ ht.le,
      ref_at l m hT (b := .x t) ht.le i.2] at h1
    simp only [rhs, if_pos ht, flat1_fin] at h1
    simpa using h1
  · ext i
    have h1 := h _ (hu t ht i)
    rw [row_eq l hm z (b := .u t) ht i.2, rowH_u l _ _ ht, rowC_u l _ ht,
      ref_at l m hT (b := .u t) ht i.2] at h1
    simp only [rhs, flat1_fin] at h1
    simpa [sub_eq_add_neg] using h1
  · ext i
    have h1 := h _ (hx l.T le_rfl i)
    rw [row_eq l hm z (b := .x l.T) le_rfl i.2, rowH_xT l, rowC_x l _ le_rfl,
      ref_at l m hT (b := .x l.T) le_rfl i.2] at h1
    simp only [rhs, lt_irrefl, if_false, flat1_fin] at h1
    simpa using h1
  · ext i
    have h1 := h _ (hc 0 (Nat.zero_le _) i)
    rw [row_eq l hm z (b := .c 0) (Nat.zero_le _) i.2, row_c0 l, ref_at l m hT (b := .c 0) (Nat.zero_le _) i.2] at h1
    simp only [rhs, flat1_fin] at h1
    simpa using h1
  · ext i
    have h1 := h _ (hc (t + 1) ht i)
    rw [row_eq l hm z (b := .c (t + 1)) ht i.2, row_c l _ _ _ ht, ref_at l m hT (b := .c (t + 1)) ht i.2] at h1
    simp only [rhs, flat1_fin] at h1
    simpa using h1

end Verif.Kkt
