import Verif.Model.KktSystem
import Mathlib.Algebra.BigOperators.Fin
import Mathlib.Algebra.BigOperators.Intervals
import Mathlib.Tactic.Linarith
import Mathlib.Tactic.Ring

/-! # Lemmas: the entries of the KKT system -/

namespace Verif.Kkt
open Verif Verif.Lq Matrix

set_option linter.unusedSectionVars false

/-- The blocks of rows and columns: states, controls, multipliers. -/
inductive Blk where
  | x (t : ℕ) | u (t : ℕ) | c (t : ℕ)
deriving DecidableEq

namespace Blk
/-- First row of a block. -/
def base (n : ℕ) (nu : ℕ → ℕ) (T : ℕ) : Blk → ℕ
  | x t => ixAt n t
  | u t => ndx n T + iuAt nu t
  | c t => ndx n T + nus nu T + ixAt n t

/-- Number of rows of a block. -/
def size (n : ℕ) (nu : ℕ → ℕ) : Blk → ℕ
  | x _ => n
  | u t => nu t
  | c _ => n

/-- The block exists. -/
def ok (T : ℕ) : Blk → Prop
  | x t => t ≤ T
  | u t => t < T
  | c t => t ≤ T

end Blk

theorem ixAt_eq (n t : ℕ) : ixAt n t = t * n := by
  induction t with
  | zero => simp [ixAt]
  | succ t ih => rw [ixAt, ih]; ring

theorem ixAt_le {n s t : ℕ} (h : s < t) : ixAt n s + n ≤ ixAt n t := by
  rw [ixAt_eq, ixAt_eq]
  calc s * n + n = (s + 1) * n := by ring
    _ ≤ t * n := Nat.mul_le_mul_right n h

theorem iuAt_mono {nu : ℕ → ℕ} {s t : ℕ} (h : s ≤ t) : iuAt nu s ≤ iuAt nu t := by
  induction t with
  | zero => obtain rfl : s = 0 := by omega
            exact le_rfl
  | succ t ih =>
    rcases Nat.lt_or_ge t s with h1 | h1
    · obtain rfl : s = t + 1 := by omega
      exact le_rfl
    · exact (ih h1).trans (by rw [iuAt]; omega)

theorem iuAt_le {nu : ℕ → ℕ} {s t : ℕ} (h : s < t) : iuAt nu s + nu s ≤ iuAt nu t := by
  have := iuAt_mono (nu := nu) (Nat.succ_le_of_lt h)
  rwa [Nat.succ_eq_add_one, iuAt] at this

variable {n : ℕ} {nu : ℕ → ℕ} {T : ℕ}

theorem x_end {t : ℕ} (h : t ≤ T) : ixAt n t + n ≤ ndx n T := by
  rcases Nat.lt_or_ge t T with h1 | h1
  · have := ixAt_le (n := n) h1; unfold ndx; omega
  · obtain rfl : t = T := by omega
    exact le_rfl

theorem u_end {t : ℕ} (h : t < T) : iuAt nu t + nu t ≤ nus nu T := iuAt_le h

/-- A position inside the block `b` lies in the range of `b'` exactly if the blocks are the same. -/
theorem in_blk {b b' : Blk} (hb : b.ok T) (hb' : b'.ok T) {i : ℕ} (hi : i < b.size n nu) :
    (b'.base n nu T ≤ b.base n nu T + i ∧ b.base n nu T + i < b'.base n nu T + b'.size n nu) ↔ b = b' := by
  constructor
  · intro h
    cases b with
    | x t =>
      have h1 := x_end (n := n) hb
      cases b' with
      | x s =>
        simp only [Blk.base, Blk.size] at h hi
        rcases Nat.lt_trichotomy t s with h2 | h2 | h2
        · have := ixAt_le (n := n) h2; omega
        · rw [h2]
        · have := ixAt_le (n := n) h2; omega
      | u s => simp only [Blk.base, Blk.size] at h hi; omega
      | c s => simp only [Blk.base, Blk.size] at h hi; omega
    | u t =>
      have h1 := u_end (nu := nu) hb
      cases b' with
      | x s => have h2 := x_end (n := n) hb'; simp only [Blk.base, Blk.size] at h hi; omega
      | u s =>
        simp only [Blk.base, Blk.size] at h hi
        rcases Nat.lt_trichotomy t s with h2 | h2 | h2
        · have := iuAt_le (nu := nu) h2; omega
        · rw [h2]
        · have := iuAt_le (nu := nu) h2; omega
      | c s => simp only [Blk.base, Blk.size] at h hi; omega
    | c t =>
      cases b' with
      | x s => have h2 := x_end (n := n) hb'; simp only [Blk.base, Blk.size] at h hi; omega
      | u s => have h2 := u_end (nu := nu) hb'; simp only [Blk.base, Blk.size] at h hi; omega
      | c s =>
        simp only [Blk.base, Blk.size] at h hi
        rcases Nat.lt_trichotomy t s with h2 | h2 | h2
        · have := ixAt_le (n := n) h2; omega
        · rw [h2]
        · have := ixAt_le (n := n) h2; omega
  · rintro rfl
    exact ⟨Nat.le_add_right _ _, by omega⟩

section
variable {K : Type} [Field K]

theorem setBlock_at {b1 b2 b b' : Blk} (h1 : b1.ok T) (h2 : b2.ok T) (hb : b.ok T) (hb' : b'.ok T) {i j : ℕ}
    (hi : i < b.size n nu) (hj : j < b'.size n nu) (M A : ℕ → ℕ → K) :
    setBlock (b1.base n nu T) (b2.base n nu T) (b1.size n nu) (b2.size n nu) M A (b.base n nu T + i)
      (b'.base n nu T + j) = if b = b1 ∧ b' = b2 then M i j else A (b.base n nu T + i) (b'.base n nu T + j) := by
  unfold setBlock
  simp only [in_blk hb h1 hi, in_blk hb' h2 hj]
  split
  · rename_i h
    rw [h.1, h.2]
    simp
  · rfl

theorem setSeg_at {b1 b : Blk} (h1 : b1.ok T) (hb : b.ok T) {i : ℕ} (hi : i < b.size n nu) (v w : ℕ → K) :
    setSeg (b1.base n nu T) (b1.size n nu) v w (b.base n nu T + i)
      = if b = b1 then v i else w (b.base n nu T + i) := by
  unfold setSeg
  simp only [in_blk hb h1 hi]
  split
  · rename_i h
    rw [h]
    simp
  · rfl

theorem foldl_hit {α β : Type} (step : α → ℕ → α) (v : α → β) (t0 : ℕ) (a : β) (k : ℕ)
    (h : ∀ m t, t < k → v (step m t) = if t = t0 then a else v m) (m : α) :
    v ((List.range k).foldl step m) = if t0 < k then a else v m := by
  induction k with
  | zero => simp
  | succ k ih =>
    rw [List.range_succ, List.foldl_append]
    simp only [List.foldl_cons, List.foldl_nil]
    rw [h _ _ (Nat.lt_succ_self k), ih fun m t ht => h m t (by omega)]
    by_cases h1 : k = t0
    · subst h1; simp
    · rw [if_neg h1]
      have : t0 < k + 1 ↔ t0 < k := by omega
      simp [this]

theorem foldl_keep {α β : Type} (step : α → ℕ → α) (v : α → β) (k : ℕ)
    (h : ∀ m t, t < k → v (step m t) = v m) (m : α) : v ((List.range k).foldl step m) = v m := by
  induction k with
  | zero => rfl
  | succ k ih =>
    rw [List.range_succ, List.foldl_append]
    simp only [List.foldl_cons, List.foldl_nil]
    rw [h _ _ (Nat.lt_succ_self k), ih fun m t ht => h m t (by omega)]

/-- The next rows of multipliers. -/
theorem c_succ (t : ℕ) : ndx n T + nus nu T + n + ixAt n t = (Blk.c (t + 1)).base n nu T := by
  simp only [Blk.base, ixAt]; omega

/-- What one turn of the loop leaves in the matrix. -/
theorem asmNode_kkt (l : Local K n nu) (m : Mem K) {t : ℕ} (ht : t < l.T) {b b' : Blk} (hb : b.ok l.T)
    (hb' : b'.ok l.T) {i j : ℕ} (hi : i < b.size n nu) (hj : j < b'.size n nu) :
    (asmNode l m t).kkt (b.base n nu l.T + i) (b'.base n nu l.T + j) =
      if b = .c (t + 1) ∧ b' = .u t then flat2 (-(l.d t).Fu) i j
      else if b = .c (t + 1) ∧ b' = .x t then flat2 (-(l.d t).Fx) i j
      else if b = .u t ∧ b' = .u t then flat2 (l.d t).Luu i j
      else if b = .u t ∧ b' = .x t then flat2 (l.d t).Lxuᵀ i j
      else if b = .x t ∧ b' = .u t then flat2 (l.d t).Lxu i j
      else if b = .x t ∧ b' = .x t then flat2 (l.d t).Lxx i j
      else m.kkt (b.base n nu l.T + i) (b'.base n nu l.T + j) := by
  have hx : (Blk.x t).ok l.T := ht.le
  have hu : (Blk.u t).ok l.T := ht
  have hc : (Blk.c (t + 1)).ok l.T := ht
  unfold asmNode
  simp only [c_succ]
  rw [← setBlock_at hx hx hb hb' hi hj, ← setBlock_at hx hu hb hb' hi hj, ← setBlock_at hu hx hb hb' hi hj,
    ← setBlock_at hu hu hb hb' hi hj, ← setBlock_at hc hx hb hb' hi hj, ← setBlock_at hc hu hb hb' hi hj]
  rfl

/-- What one turn of the loop leaves in the vector. -/
theorem asmNode_ref (l : Local K n nu) (m : Mem K) {t : ℕ} (ht : t < l.T) {b : Blk} (hb : b.ok l.T)
    {i : ℕ} (hi : i < b.size n nu) :
    (asmNode l m t).ref (b.base n nu l.T + i) =
      if b = .c (t + 1) then flat1 (l.xs (t + 1) - l.xnext t) i
      else if b = .u t then flat1 (l.d t).Lu i
      else if b = .x t then flat1 (l.d t).Lx i
      else if t = 0 ∧ b = .c 0 then flat1 (l.xs 0 - l.x0) i
      else m.ref (b.base n nu l.T + i) := by
  have hx : (Blk.x t).ok l.T := ht.le
  have hu : (Blk.u t).ok l.T := ht
  have hc : (Blk.c (t + 1)).ok l.T := ht
  have hc0 : (Blk.c 0).ok l.T := Nat.zero_le _
  have e0 : (if t = 0 ∧ b = .c 0 then flat1 (l.xs 0 - l.x0) i else m.ref (b.base n nu l.T + i))
      = (if t = 0 then setSeg (ndx n l.T + nus nu l.T) n (flat1 (l.xs 0 - l.x0)) m.ref else m.ref)
        (b.base n nu l.T + i) := by
    by_cases h0 : t = 0
    · simp only [h0, true_and, if_true]
      rw [← setSeg_at hc0 hb hi]
      rfl
    · simp [h0]
  unfold asmNode
  simp only [c_succ]
  rw [e0, ← setSeg_at hx hb hi, ← setSeg_at hu hb hi, ← setSeg_at hc hb hi]
  rfl

/-- The entries that no call writes are zero. -/
structure Clean (n : ℕ) (nu : ℕ → ℕ) (T : ℕ) (m : Mem K) : Prop where
  xx : ∀ t s i j, t ≤ T → s ≤ T → t ≠ s → i < n → j < n →
    m.kkt ((Blk.x t).base n nu T + i) ((Blk.x s).base n nu T + j) = 0
  xu : ∀ t s i j, t ≤ T → s < T → t ≠ s → i < n → j < nu s →
    m.kkt ((Blk.x t).base n nu T + i) ((Blk.u s).base n nu T + j) = 0
  ux : ∀ t s i j, t < T → s ≤ T → t ≠ s → i < nu t → j < n →
    m.kkt ((Blk.u t).base n nu T + i) ((Blk.x s).base n nu T + j) = 0
  uu : ∀ t s i j, t < T → s < T → t ≠ s → i < nu t → j < nu s →
    m.kkt ((Blk.u t).base n nu T + i) ((Blk.u s).base n nu T + j) = 0
  cu : ∀ t s i j, t ≤ T → s < T → t ≠ s + 1 → i < n → j < nu s →
    m.kkt ((Blk.c t).base n nu T + i) ((Blk.u s).base n nu T + j) = 0
  cc : ∀ t s i j, t ≤ T → s ≤ T → i < n → j < n →
    m.kkt ((Blk.c t).base n nu T + i) ((Blk.c s).base n nu T + j) = 0

theorem Clean.zero : Clean n nu T (Mem.zero : Mem K) := by
  constructor <;> intros <;> rfl

/-- The matrix after the identity, the loop and the terminal block, before the transposition. -/
def half (l : Local K n nu) (m : Mem K) : ℕ → ℕ → K :=
  setBlock (ixAt n l.T) (ixAt n l.T) n n (flat2 l.LxxT)
    ((List.range l.T).foldl (asmNode l)
      { m with kkt := setBlock (ndx n l.T + nus nu l.T) 0 (ndx n l.T) (ndx n l.T)
                 (fun i j => if i = j then 1 else 0) m.kkt }).kkt

theorem c_row {t i : ℕ} (ht : t ≤ T) (hi : i < n) : ixAt n t + i < ndx n T := by
  have := x_end (n := n) ht; omega

/-- The value of an entry after the identity was written. -/
def idv (old : K) : Blk → Blk → ℕ → ℕ → K
  | .c t, .x s, i, j => if t = s ∧ i = j then 1 else 0
  | _, _, _, _ => old

/-- The identity block. -/
theorem ident_at (m : ℕ → ℕ → K) {b b' : Blk} (hb : b.ok T) (hb' : b'.ok T) {i j : ℕ} (hi : i < b.size n nu)
    (hj : j < b'.size n nu) :
    setBlock (ndx n T + nus nu T) 0 (ndx n T) (ndx n T) (fun i j => if i = j then (1 : K) else 0) m
      (b.base n nu T + i) (b'.base n nu T + j) = idv (m (b.base n nu T + i) (b'.base n nu T + j)) b b' i j := by
  unfold setBlock
  cases b with
  | x t =>
    have h1 := c_row (n := n) hb hi
    rw [if_neg (fun h => by have := h.1.1; simp only [Blk.base] at this; omega)]; rfl
  | u t =>
    have := u_end (nu := nu) hb
    simp only [Blk.size] at hi
    rw [if_neg (fun h => by have := h.1.1; simp only [Blk.base] at this; omega)]; rfl
  | c t =>
    have h1 := c_row (n := n) hb hi
    cases b' with
    | x s =>
      have h2 := c_row (n := n) hb' hj
      simp only [Blk.size] at hi hj h1 h2
      rw [if_pos (by simp only [Blk.base]; omega)]
      simp only [Blk.base]
      have e : (ndx n T + nus nu T + ixAt n t + i - (ndx n T + nus nu T) = ixAt n s + j - 0) ↔ (t = s ∧ i = j) := by
        have e1 : ndx n T + nus nu T + ixAt n t + i - (ndx n T + nus nu T) = ixAt n t + i := by omega
        rw [e1, Nat.sub_zero]
        constructor
        · intro h
          rcases Nat.lt_trichotomy t s with h3 | h3 | h3
          · have := ixAt_le (n := n) h3; omega
          · subst h3; exact ⟨rfl, by omega⟩
          · have := ixAt_le (n := n) h3; omega
        · rintro ⟨rfl, rfl⟩; rfl
      simp only [e, idv]
    | u s => rw [if_neg (fun h => by have := h.2.2; simp only [Blk.base] at this; omega)]; rfl
    | c s => rw [if_neg (fun h => by have := h.2.2; simp only [Blk.base] at this; omega)]; rfl

/-- The entries of the lower part of the system. -/
def val (l : Local K n nu) : Blk → Blk → ℕ → ℕ → K
  | .x t, .x s, i, j => if t = s then (if t < l.T then flat2 (l.d t).Lxx i j else flat2 l.LxxT i j) else 0
  | .x t, .u s, i, j => if t = s then flat2 (l.d s).Lxu i j else 0
  | .u t, .x s, i, j => if t = s then flat2 (l.d t).Lxuᵀ i j else 0
  | .u t, .u s, i, j => if t = s then flat2 (l.d s).Luu i j else 0
  | .c t, .x s, i, j => if t = s + 1 then flat2 (-(l.d s).Fx) i j else if t = s ∧ i = j then 1 else 0
  | .c t, .u s, i, j => if t = s + 1 then flat2 (-(l.d s).Fu) i j else 0
  | _, .c _, _, _ => 0

/-- The value of the loop at a position. -/
theorem half_at (l : Local K n nu) (m : Mem K) (hm : Clean n nu l.T m) {b b' : Blk} (hb : b.ok l.T)
    (hb' : b'.ok l.T) (hbc : ∀ t, b' = .c t → ∃ s, b = .c s) {i j : ℕ} (hi : i < b.size n nu) (hj : j < b'.size n nu) :
    half l m (b.base n nu l.T + i) (b'.base n nu l.T + j) = val l b b' i j := by
  have hT : (Blk.x l.T).ok l.T := le_rfl
  have e := setBlock_at (n := n) (nu := nu) hT hT hb hb' hi hj (flat2 l.LxxT)
    ((List.range l.T).foldl (asmNode l)
      { m with kkt := setBlock (ndx n l.T + nus nu l.T) 0 (ndx n l.T) (ndx n l.T)
                 (fun i j => if i = j then 1 else 0) m.kkt }).kkt
  rw [show half l m (b.base n nu l.T + i) (b'.base n nu l.T + j) = _ from e]
  have hid := ident_at m.kkt hb hb' hi hj
  cases b with
  | x t =>
    cases b' with
    | x s =>
      simp only [idv] at hid
      simp only [val]
      by_cases hts : t = s
      · subst hts
        have f := foldl_hit (asmNode l) (fun q => q.kkt ((Blk.x t).base n nu l.T + i) ((Blk.x t).base n nu l.T + j)) t
          (flat2 (l.d t).Lxx i j) l.T
          (fun q s hs => by
            rw [asmNode_kkt l q hs hb hb' hi hj]
            by_cases h : s = t
            · subst h; simp
            · simp [h, Ne.symm h])
        simp only [Blk.x.injEq]
        rw [f]
        have hb : t ≤ l.T := hb
        by_cases h : t < l.T
        · simp [h, h.ne]
        · simp [h, show t = l.T by omega]
      · have f := foldl_keep (asmNode l) (fun q => q.kkt ((Blk.x t).base n nu l.T + i) ((Blk.x s).base n nu l.T + j))
          l.T (fun q r hr => by
            rw [asmNode_kkt l q hr hb hb' hi hj]
            have : ¬(t = r ∧ s = r) := fun h => hts (h.1.trans h.2.symm)
            simp [this])
        simp only [Blk.x.injEq]
        rw [f, if_neg (fun h => hts (h.1.trans h.2.symm)), if_neg hts]
        exact hid.trans (hm.xx t s i j hb hb' hts hi hj)
    | u s =>
      simp only [idv] at hid
      simp only [val]
      have hne : ¬(Blk.x t = Blk.x l.T ∧ Blk.u s = Blk.x l.T) := by simp
      rw [if_neg hne]
      by_cases hts : t = s
      · subst hts
        have f := foldl_hit (asmNode l) (fun q => q.kkt ((Blk.x t).base n nu l.T + i) ((Blk.u t).base n nu l.T + j)) t
          (flat2 (l.d t).Lxu i j) l.T
          (fun q s hs => by
            rw [asmNode_kkt l q hs hb hb' hi hj]
            by_cases h : s = t
            · subst h; simp
            · simp [Ne.symm h, h])
        rw [f, if_pos (show _ < l.T from hb')]
        simp
      · have f := foldl_keep (asmNode l) (fun q => q.kkt ((Blk.x t).base n nu l.T + i) ((Blk.u s).base n nu l.T + j))
          l.T (fun q r hr => by
            rw [asmNode_kkt l q hr hb hb' hi hj]
            have : ¬(t = r ∧ s = r) := fun h => hts (h.1.trans h.2.symm)
            simp [this])
        rw [f]
        simp only [if_neg hts]
        rw [hid]
        exact hm.xu t s i j hb hb' hts hi hj
    | c s => obtain ⟨r, hr⟩ := hbc s rfl; cases hr
  | u t =>
    have hne : ¬(Blk.u t = Blk.x l.T ∧ b' = Blk.x l.T) := by simp
    rw [if_neg hne]
    cases b' with
    | x s =>
      simp only [idv] at hid
      simp only [val]
      by_cases hts : t = s
      · subst hts
        have f := foldl_hit (asmNode l) (fun q => q.kkt ((Blk.u t).base n nu l.T + i) ((Blk.x t).base n nu l.T + j)) t
          (flat2 (l.d t).Lxuᵀ i j) l.T
          (fun q s hs => by
            rw [asmNode_kkt l q hs hb hb' hi hj]
            by_cases h : s = t
            · subst h; simp
            · simp [Ne.symm h, h])
        rw [f, if_pos (show _ < l.T from hb)]
        simp
      · have f := foldl_keep (asmNode l) (fun q => q.kkt ((Blk.u t).base n nu l.T + i) ((Blk.x s).base n nu l.T + j))
          l.T (fun q r hr => by
            rw [asmNode_kkt l q hr hb hb' hi hj]
            have : ¬(t = r ∧ s = r) := fun h => hts (h.1.trans h.2.symm)
            simp [this])
        rw [f]
        simp only [if_neg hts]
        rw [hid]
        exact hm.ux t s i j hb hb' hts hi hj
    | u s =>
      simp only [idv] at hid
      simp only [val]
      by_cases hts : t = s
      · subst hts
        have f := foldl_hit (asmNode l) (fun q => q.kkt ((Blk.u t).base n nu l.T + i) ((Blk.u t).base n nu l.T + j)) t
          (flat2 (l.d t).Luu i j) l.T
          (fun q s hs => by
            rw [asmNode_kkt l q hs hb hb' hi hj]
            by_cases h : s = t
            · subst h; simp
            · simp [Ne.symm h, h])
        rw [f, if_pos (show _ < l.T from hb)]
        simp
      · have f := foldl_keep (asmNode l) (fun q => q.kkt ((Blk.u t).base n nu l.T + i) ((Blk.u s).base n nu l.T + j))
          l.T (fun q r hr => by
            rw [asmNode_kkt l q hr hb hb' hi hj]
            have : ¬(t = r ∧ s = r) := fun h => hts (h.1.trans h.2.symm)
            simp [this])
        rw [f]
        simp only [if_neg hts]
        rw [hid]
        exact hm.uu t s i j hb hb' hts hi hj
    | c s => obtain ⟨r, hr⟩ := hbc s rfl; cases hr
  | c t =>
    have hne : ¬(Blk.c t = Blk.x l.T ∧ b' = Blk.x l.T) := by simp
    rw [if_neg hne]
    cases b' with
    | x s =>
      simp only [idv] at hid
      simp only [val]
      by_cases hts : t = s + 1
      · subst hts
        have hs : s < l.T := hb
        have f := foldl_hit (asmNode l) (fun q => q.kkt ((Blk.c (s + 1)).base n nu l.T + i) ((Blk.x s).base n nu l.T + j)) s
          (flat2 (-(l.d s).Fx) i j) l.T
          (fun q r hr => by
            rw [asmNode_kkt l q hr hb hb' hi hj]
            by_cases h : r = s
            · subst h; simp
            · simp [Ne.symm h, h])
        rw [f, if_pos hs]
        simp
      · have f := foldl_keep (asmNode l) (fun q => q.kkt ((Blk.c t).base n nu l.T + i) ((Blk.x s).base n nu l.T + j))
          l.T (fun q r hr => by
            rw [asmNode_kkt l q hr hb hb' hi hj]
            have : ¬(t = r + 1 ∧ s = r) := fun h => hts (by rw [h.2]; exact h.1)
            simp [this])
        rw [f]
        simp only [if_neg hts]
        exact hid
    | u s =>
      simp only [idv] at hid
      simp only [val]
      by_cases hts : t = s + 1
      · subst hts
        have f := foldl_hit (asmNode l) (fun q => q.kkt ((Blk.c (s + 1)).base n nu l.T + i) ((Blk.u s).base n nu l.T + j)) s
          (flat2 (-(l.d s).Fu) i j) l.T
          (fun q r hr => by
            rw [asmNode_kkt l q hr hb hb' hi hj]
            by_cases h : r = s
            · subst h; simp
            · simp [Ne.symm h, h])
        rw [f, if_pos (show _ < l.T from hb')]
        simp
      · have f := foldl_keep (asmNode l) (fun q => q.kkt ((Blk.c t).base n nu l.T + i) ((Blk.u s).base n nu l.T + j))
          l.T (fun q r hr => by
            rw [asmNode_kkt l q hr hb hb' hi hj]
            have : ¬(t = r + 1 ∧ s = r) := fun h => hts (by rw [h.2]; exact h.1)
            simp [this])
        rw [f]
        simp only [if_neg hts]
        rw [hid]
        exact hm.cu t s i j hb hb' hts hi hj
    | c s =>
      simp only [idv] at hid
      have f := foldl_keep (asmNode l) (fun q => q.kkt ((Blk.c t).base n nu l.T + i) ((Blk.c s).base n nu l.T + j))
        l.T (fun q r hr => by
          rw [asmNode_kkt l q hr hb hb' hi hj]
          simp)
      rw [f]
      exact hid.trans (hm.cc t s i j hb hb' hi hj)

/-- The entries of the system. -/
def sys (l : Local K n nu) : Blk → Blk → ℕ → ℕ → K
  | .x t, .c s, i, j => val l (.c s) (.x t) j i
  | .u t, .c s, i, j => val l (.c s) (.u t) j i
  | b, b', i, j => val l b b' i j

theorem assembleOn_kkt (l : Local K n nu) (m : Mem K) : (assembleOn l m).kkt =
    setBlock 0 (ndx n l.T + nus nu l.T) (ndx n l.T + nus nu l.T) (ndx n l.T)
      (fun i j => half l m (ndx n l.T + nus nu l.T + j) i) (half l m) := rfl

/-- Every entry of the assembled matrix. -/
theorem kkt_at (l : Local K n nu) (m : Mem K) (hm : Clean n nu l.T m) {b b' : Blk} (hb : b.ok l.T)
    (hb' : b'.ok l.T) {i j : ℕ} (hi : i < b.size n nu) (hj : j < b'.size n nu) :
    (assembleOn l m).kkt (b.base n nu l.T + i) (b'.base n nu l.T + j) = sys l b b' i j := by
  rw [assembleOn_kkt]
  unfold setBlock
  have key : ∀ s, b' = .c s → (∃ t, b = .x t) ∨ (∃ t, b = .u t) → b.base n nu l.T + i < ndx n l.T + nus nu l.T →
      (if (0 ≤ b.base n nu l.T + i ∧ b.base n nu l.T + i < 0 + (ndx n l.T + nus nu l.T)) ∧
        ndx n l.T + nus nu l.T ≤ b'.base n nu l.T + j ∧
          b'.base n nu l.T + j < ndx n l.T + nus nu l.T + ndx n l.T
      then half l m (ndx n l.T + nus nu l.T + (b'.base n nu l.T + j - (ndx n l.T + nus nu l.T)))
        (b.base n nu l.T + i - 0)
      else half l m (b.base n nu l.T + i) (b'.base n nu l.T + j)) = val l b' b j i := by
    rintro s rfl hb0 hlt
    have h1 := c_row (n := n) hb' hj
    have e : (Blk.c s).base n nu l.T = ndx n l.T + nus nu l.T + ixAt n s := rfl
    rw [if_pos (by omega), show ndx n l.T + nus nu l.T + ((Blk.c s).base n nu l.T + j - (ndx n l.T + nus nu l.T))
      = (Blk.c s).base n nu l.T + j by omega, Nat.sub_zero]
    exact half_at l m hm hb' hb (fun t h => by rcases hb0 with ⟨r, rfl⟩ | ⟨r, rfl⟩ <;> cases h) hj hi
  cases b' with
  | x s =>
    have h2 := c_row (n := n) hb' hj
    rw [if_neg (fun h => by have := h.2.1; simp only [Blk.base] at this; omega)]
    rw [half_at l m hm hb hb' (fun t h => by cases h) hi hj]
    cases b <;> rfl
  | u s =>
    have h2 := u_end (nu := nu) hb'
    simp only [Blk.size] at hj
    rw [if_neg (fun h => by have := h.2.1; simp only [Blk.base] at this; omega)]
    rw [half_at l m hm hb hb' (fun t h => by cases h) hi hj]
    cases b <;> rfl
  | c s =>
    cases b with
    | x t =>
      have h2 := c_row (n := n) hb hi
      exact key s rfl (Or.inl ⟨t, rfl⟩) (by simp only [Blk.base]; omega)
    | u t =>
      have h2 := u_end (nu := nu) hb
      simp only [Blk.size] at hi
      exact key s rfl (Or.inr ⟨t, rfl⟩) (by simp only [Blk.base]; omega)
    | c t =>
      rw [if_neg (fun h => by have := h.1.2; simp only [Blk.base] at this; omega)]
      rw [half_at l m hm hb hb' (fun r _ => ⟨t, rfl⟩) hi hj]
      rfl

/-- The entries of the right-hand side. -/
def rhs (l : Local K n nu) : Blk → ℕ → K
  | .x t, i => if t < l.T then flat1 (l.d t).Lx i else flat1 l.LxT i
  | .u t, i => flat1 (l.d t).Lu i
  | .c 0, i => flat1 (l.xs 0 - l.x0) i
  | .c (t + 1), i => flat1 (l.xs (t + 1) - l.xnext t) i

/-- Every entry of the assembled vector. -/
theorem ref_at (l : Local K n nu) (m : Mem K) (hT : 0 < l.T) {b : Blk} (hb : b.ok l.T) {i : ℕ}
    (hi : i < b.size n nu) : (assembleOn l m).ref (b.base n nu l.T + i) = rhs l b i := by
  have hx : (Blk.x l.T).ok l.T := le_rfl
  have e := setSeg_at (n := n) (nu := nu) hx hb hi (flat1 l.LxT)
    ((List.range l.T).foldl (asmNode l)
      { m with kkt := setBlock (ndx n l.T + nus nu l.T) 0 (ndx n l.T) (ndx n l.T)
                 (fun i j => if i = j then 1 else 0) m.kkt }).ref
  rw [show (assembleOn l m).ref (b.base n nu l.T + i) = _ from e]
  have hit : ∀ (t0 : ℕ) (a : K), t0 < l.T → (∀ (q : Mem K) t, t < l.T →
      (asmNode l q t).ref (b.base n nu l.T + i) = if t = t0 then a else q.ref (b.base n nu l.T + i)) →
      ((List.range l.T).foldl (asmNode l)
        { m with kkt := setBlock (ndx n l.T + nus nu l.T) 0 (ndx n l.T) (ndx n l.T)
                   (fun i j => if i = j then 1 else 0) m.kkt }).ref (b.base n nu l.T + i) = a := by
    intro t0 a h0 h
    rw [foldl_hit (asmNode l) (fun q => q.ref (b.base n nu l.T + i)) t0 a l.T h, if_pos h0]
  cases b with
  | x t =>
    have ht : t ≤ l.T := hb
    by_cases h : t < l.T
    · rw [if_neg (by simp [h.ne])]
      rw [hit t (flat1 (l.d t).Lx i) h fun q s hs => by
        rw [asmNode_ref l q hs hb hi]
        by_cases h2 : s = t
        · subst h2; simp
        · simp [h2, Ne.symm h2]]
      simp [rhs, h]
    · obtain rfl : t = l.T := by omega
      simp [rhs]
  | u t =>
    rw [if_neg (by simp)]
    exact hit t (flat1 (l.d t).Lu i) hb fun q s hs => by
      rw [asmNode_ref l q hs hb hi]
      by_cases h2 : s = t
      · subst h2; simp
      · simp [h2, Ne.symm h2]
  | c t =>
    rw [if_neg (by simp)]
    cases t with
    | zero =>
      exact hit 0 (rhs l (.c 0) i) hT fun q s hs => by
        rw [asmNode_ref l q hs hb hi]
        by_cases h2 : s = 0
        · subst h2; simp [rhs]
        · simp [h2]
    | succ t =>
      exact hit t (rhs l (.c (t + 1)) i) hb fun q s hs => by
        rw [asmNode_ref l q hs hb hi]
        by_cases h2 : s = t
        · subst h2; simp [rhs]
        · simp [h2, Ne.symm h2]

/-- Assembling keeps the untouched entries zero. -/
theorem Clean.assemble (l : Local K n nu) {m : Mem K} (hm : Clean n nu l.T m) : Clean n nu l.T (assembleOn l m) := by
  refine ⟨fun t s i j ht hs h hi hj => ?_, fun t s i j ht hs h hi hj => ?_, fun t s i j ht hs h hi hj => ?_,
    fun t s i j ht hs h hi hj => ?_, fun t s i j ht hs h hi hj => ?_, fun t s i j ht hs hi hj => ?_⟩
  · rw [kkt_at l m hm (b := .x t) (b' := .x s) ht hs hi hj]; simp [sys, val, h]
  · rw [kkt_at l m hm (b := .x t) (b' := .u s) ht hs hi hj]; simp [sys, val, h]
  · rw [kkt_at l m hm (b := .u t) (b' := .x s) ht hs hi hj]; simp [sys, val, h]
  · rw [kkt_at l m hm (b := .u t) (b' := .u s) ht hs hi hj]; simp [sys, val, h]
  · rw [kkt_at l m hm (b := .c t) (b' := .u s) ht hs hi hj]; simp [sys, val, h]
  · rw [kkt_at l m hm (b := .c t) (b' := .c s) ht hs hi hj]; simp [sys, val]

/-! ### Sums over blocks -/

theorem sum_ix (f : ℕ → K) (t : ℕ) :
    ∑ q ∈ Finset.range (ixAt n t), f q = ∑ s ∈ Finset.range t, ∑ i : Fin n, f (ixAt n s + i) := by
  induction t with
  | zero => simp [ixAt]
  | succ t ih => rw [ixAt, Finset.sum_range_add, ih, Finset.sum_range_succ]; congr 1; exact Finset.sum_range _

theorem sum_iu (f : ℕ → K) (t : ℕ) :
    ∑ q ∈ Finset.range (iuAt nu t), f q = ∑ s ∈ Finset.range t, ∑ i : Fin (nu s), f (iuAt nu s + i) := by
  induction t with
  | zero => simp [iuAt]
  | succ t ih => rw [iuAt, Finset.sum_range_add, ih, Finset.sum_range_succ]; congr 1; exact Finset.sum_range _

theorem sum_ndx (f : ℕ → K) (T : ℕ) :
    ∑ q ∈ Finset.range (ndx n T), f q = ∑ s ∈ Finset.range (T + 1), ∑ i : Fin n, f (ixAt n s + i) := sum_ix f (T + 1)

/-- A sum over the primal variables. -/
theorem sum_primal (f : ℕ → K) (T : ℕ) :
    ∑ q ∈ Finset.range (ndx n T + nus nu T), f q =
      (∑ s ∈ Finset.range (T + 1), ∑ i : Fin n, f ((Blk.x s).base n nu T + i))
      + ∑ s ∈ Finset.range T, ∑ i : Fin (nu s), f ((Blk.u s).base n nu T + i) := by
  rw [Finset.sum_range_add, sum_ndx, nus, sum_iu (fun q => f (ndx n T + q))]
  simp only [Blk.base, Nat.add_assoc]

/-- A sum over all variables. -/
theorem sum_all (f : ℕ → K) (T : ℕ) :
    ∑ q ∈ Finset.range (2 * ndx n T + nus nu T), f q =
      ((∑ s ∈ Finset.range (T + 1), ∑ i : Fin n, f ((Blk.x s).base n nu T + i))
      + ∑ s ∈ Finset.range T, ∑ i : Fin (nu s), f ((Blk.u s).base n nu T + i))
      + ∑ s ∈ Finset.range (T + 1), ∑ i : Fin n, f ((Blk.c s).base n nu T + i) := by
  rw [show 2 * ndx n T + nus nu T = (ndx n T + nus nu T) + ndx n T by ring, Finset.sum_range_add, sum_primal,
    sum_ndx (fun q => f (ndx n T + nus nu T + q))]
  simp only [Blk.base, Nat.add_assoc]

end
end Verif.Kkt
