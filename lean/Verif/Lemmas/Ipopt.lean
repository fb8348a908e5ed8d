import Verif.Spec.Ipopt
import Mathlib.Algebra.BigOperators.Ring.Finset
import Mathlib.Algebra.BigOperators.Intervals
import Mathlib.Algebra.Order.BigOperators.Group.Finset
import Mathlib.Tactic.Ring
import Mathlib.Tactic.Linarith

/-!
# Lemmas: offsets, lists of triplets, arrays
-/

set_option linter.unusedSectionVars false
set_option linter.unusedSimpArgs false

namespace Verif.Ipopt

open Spec

variable {K X D : Type*}

/-! ### Offsets -/

theorem start_succ (P : Prob) (t : ℕ) : start P (t + 1) = start P t + (P.ndx t + P.nu t) := by
  simp [start, Finset.sum_range_succ]

theorem rowStart_succ (P : Prob) (t : ℕ) : rowStart P (t + 1) = rowStart P t + P.ndx t := by
  simp [rowStart, Finset.sum_range_succ]

theorem off_mono {off len : ℕ → ℕ} (h : ∀ t, off (t + 1) = off t + len t) {a b : ℕ} (hab : a ≤ b) : off a ≤ off b := by
  induction b, hab using Nat.le_induction with
  | base => exact le_rfl
  | succ b _ ih => rw [h]; omega

theorem off_lt {off len : ℕ → ℕ} (h : ∀ t, off (t + 1) = off t + len t) {a b r : ℕ} (hab : a < b) (hr : r < len a) :
    off a + r < off b := by
  have := off_mono h (show a + 1 ≤ b from hab)
  rw [h] at this
  omega

theorem off_unique {off len : ℕ → ℕ} (h : ∀ t, off (t + 1) = off t + len t) {a b r q : ℕ} (hr : r < len a)
    (hq : q < len b) (e : off a + r = off b + q) : a = b ∧ r = q := by
  rcases lt_trichotomy a b with hab | hab | hab
  · have := off_lt h hab hr; omega
  · subst hab; exact ⟨rfl, by omega⟩
  · have := off_lt h hab hq; omega

/-- Position of a node's variable inside the node. -/
def Spec.Slot.pos (P : Prob) : Slot → ℕ
  | .state _ j => j
  | .ctrl t j => P.ndx t + j

theorem index_eq (P : Prob) (s : Slot) : s.index P = start P s.node + s.pos P := by
  cases s <;> simp [Slot.index, Slot.node, Slot.pos, Nat.add_assoc]

/-- The number of variables of a node. -/
def width (P : Prob) (t : ℕ) : ℕ := if t < P.T then P.ndx t + P.nu t else P.ndx t

theorem valid_pos (P : Prob) (s : Slot) (h : s.Valid P) : s.node ≤ P.T ∧ s.pos P < width P s.node := by
  cases s with
  | state t j =>
    refine ⟨h.1, ?_⟩
    have h2 : j < P.ndx t := h.2
    show j < width P t
    unfold width
    split <;> omega
  | ctrl t j =>
    have h1 : t < P.T := h.1
    have h2 : j < P.nu t := h.2
    refine ⟨h1.le, ?_⟩
    show P.ndx t + j < width P t
    unfold width
    rw [if_pos h1]
    omega

theorem width_le (P : Prob) (t : ℕ) : width P t ≤ P.ndx t + P.nu t := by
  unfold width; split <;> omega

theorem index_inj (P : Prob) {s s' : Slot} (h : s.Valid P) (h' : s'.Valid P) (e : s.index P = s'.index P) : s = s' := by
  have v := valid_pos P s h
  have v' := valid_pos P s' h'
  rw [index_eq, index_eq] at e
  obtain ⟨e1, e2⟩ := off_unique (start_succ P) (lt_of_lt_of_le v.2 (width_le P _)) (lt_of_lt_of_le v'.2 (width_le P _)) e
  cases s with
  | state t j =>
    cases s' with
    | state t' j' => simp only [Slot.node, Slot.pos] at e1 e2; rw [e1, e2]
    | ctrl t' j' =>
      simp only [Slot.node, Slot.pos] at e1 e2
      have := h.2
      rw [e1] at this
      omega
  | ctrl t j =>
    cases s' with
    | state t' j' =>
      simp only [Slot.node, Slot.pos] at e1 e2
      have := h'.2
      rw [← e1] at this
      omega
    | ctrl t' j' =>
      simp only [Slot.node, Slot.pos] at e1 e2
      subst e1
      rw [show j = j' by omega]

/-! ### Sums over lists -/

variable {α β : Type*}

theorem sum_flatMap_range [AddCommMonoid K] (n : ℕ) (g : ℕ → List α) (f : α → K) :
    (((List.range n).flatMap g).map f).sum = ∑ i ∈ Finset.range n, ((g i).map f).sum := by
  induction n with
  | zero => simp
  | succ n ih => simp [List.range_succ, Finset.sum_range_succ, ih]

theorem sum_map_range [AddCommMonoid K] (n : ℕ) (f : ℕ → K) :
    ((List.range n).map f).sum = ∑ i ∈ Finset.range n, f i := by
  induction n with
  | zero => simp
  | succ n ih => simp [List.range_succ, Finset.sum_range_succ, ih]

theorem length_flatMap_range (n : ℕ) (g : ℕ → List α) :
    ((List.range n).flatMap g).length = ∑ i ∈ Finset.range n, (g i).length := by
  induction n with
  | zero => simp
  | succ n ih => simp [List.range_succ, Finset.sum_range_succ, ih]

theorem foldl_add_range (n a : ℕ) (f : ℕ → ℕ) :
    (List.range n).foldl (fun s t => s + f t) a = a + ∑ i ∈ Finset.range n, f i := by
  induction n with
  | zero => simp
  | succ n ih => simp [List.range_succ, Finset.sum_range_succ, ih, Nat.add_assoc]

/-- A row of triplets picks the value at its column. -/
theorem sum_pick [AddCommMonoid K] (w a c : ℕ) (v : ℕ → K) :
    (∑ i ∈ Finset.range w, if a + i = c then v i else 0) = if a ≤ c ∧ c < a + w then v (c - a) else 0 := by
  split
  · rename_i h
    rw [Finset.sum_eq_single (c - a)]
    · rw [if_pos (by omega)]
    · intro b _ hb
      rw [if_neg (by omega)]
    · intro hn
      exact absurd (Finset.mem_range.2 (by omega)) hn
  · rename_i h
    refine Finset.sum_eq_zero fun i hi => ?_
    rw [Finset.mem_range] at hi
    rw [if_neg (by omega)]

/-- Blocks of rows: only the row's own block contributes. -/
theorem sum_block [AddCommMonoid K] {off len : ℕ → ℕ} (h : ∀ t, off (t + 1) = off t + len t) (T t0 r0 : ℕ)
    (ht : t0 < T) (hr : r0 < len t0) (F : ℕ → ℕ → K) :
    (∑ t ∈ Finset.range T, ∑ r ∈ Finset.range (len t), if off t + r = off t0 + r0 then F t r else 0) = F t0 r0 := by
  rw [Finset.sum_eq_single t0]
  · rw [Finset.sum_eq_single r0]
    · simp
    · intro b _ hb
      rw [if_neg (by omega)]
    · intro hn
      exact absurd (Finset.mem_range.2 hr) hn
  · intro t _ htne
    refine Finset.sum_eq_zero fun r hr' => ?_
    rw [if_neg]
    intro e
    exact htne (off_unique h (Finset.mem_range.1 hr') hr e).1
  · intro hn
    exact absurd (Finset.mem_range.2 ht) hn

theorem sum_block_out [AddCommMonoid K] {off len : ℕ → ℕ} (h : ∀ t, off (t + 1) = off t + len t) (T R : ℕ)
    (hR : off T ≤ R) (F : ℕ → ℕ → K) :
    (∑ t ∈ Finset.range T, ∑ r ∈ Finset.range (len t), if off t + r = R then F t r else 0) = 0 := by
  refine Finset.sum_eq_zero fun t ht => Finset.sum_eq_zero fun r hr => ?_
  have := off_lt h (Finset.mem_range.1 ht) (Finset.mem_range.1 hr)
  rw [if_neg (by omega)]

theorem takeWhile_range (n k : ℕ) (h : k < n) :
    (List.range n).takeWhile (fun c => !decide (c > k)) = List.range (k + 1) := by
  obtain ⟨m, rfl⟩ : ∃ m, n = (k + 1) + m := ⟨n - (k + 1), by omega⟩
  rw [List.range_add]
  rw [List.takeWhile_append_of_pos]
  · cases m with
    | zero => simp
    | succ m =>
      rw [List.range_succ_eq_map (n := m), List.map_cons, List.takeWhile_cons]
      simp
  · intro a ha
    simp only [List.mem_range] at ha
    simp
    omega

theorem lowerCols_eq (n r : ℕ) (h : r < n) : lowerCols n r = List.range (r + 1) := takeWhile_range n r h

/-! ### Arrays -/

theorem writeRange_in (x : ℕ → K) (off n : ℕ) (f : ℕ → K) (j : ℕ) (h : j < n) : writeRange x off n f (off + j) = f j := by
  unfold writeRange
  rw [if_pos (by omega)]
  congr 1
  omega

theorem writeRange_out (x : ℕ → K) (off n : ℕ) (f : ℕ → K) (v : ℕ) (h : v < off ∨ off + n ≤ v) :
    writeRange x off n f v = x v := by
  unfold writeRange
  rw [if_neg (by omega)]

/-- The layout the specification prescribes. -/
def Good (P : Prob) (L : Layout) : Prop := (∀ t, t ≤ P.T → L.ixu t = start P t) ∧ L.nvar = start P P.T + P.ndx P.T

theorem writeNodes_spec (P : Prob) (L : Layout) (hL : Good P L) (x : ℕ → K) (fx fu : ℕ → ℕ → K) :
    (∀ t j, t ≤ P.T → j < P.ndx t → writeNodes P L x fx fu (start P t + j) = fx t j)
    ∧ (∀ t j, t < P.T → j < P.nu t → writeNodes P L x fx fu (start P t + P.ndx t + j) = fu t j)
    ∧ ∀ v, L.nvar ≤ v → writeNodes P L x fx fu v = x v := by
  have key : ∀ k, k ≤ P.T →
      let y := (List.range k).foldl (fun x t =>
        writeRange (writeRange x (L.ixu t) (P.ndx t) (fx t)) (L.ixu t + P.ndx t) (P.nu t) (fu t)) x
      (∀ t j, t < k → j < P.ndx t → y (start P t + j) = fx t j)
      ∧ (∀ t j, t < k → j < P.nu t → y (start P t + P.ndx t + j) = fu t j)
      ∧ ∀ v, start P k ≤ v → y v = x v := by
    intro k
    induction k with
    | zero => intro _; simp
    | succ k ih =>
      intro hk
      obtain ⟨h1, h2, h3⟩ := ih (by omega)
      simp only [List.range_succ, List.foldl_append, List.foldl_cons, List.foldl_nil]
      rw [hL.1 k (by omega)]
      refine ⟨fun t j ht hj => ?_, fun t j ht hj => ?_, fun v hv => ?_⟩
      · rcases Nat.lt_succ_iff_lt_or_eq.1 ht with h | h
        · have := off_lt (start_succ P) h (show j < P.ndx t + P.nu t by omega)
          rw [writeRange_out _ _ _ _ _ (by omega), writeRange_out _ _ _ _ _ (by omega)]
          exact h1 t j h hj
        · subst h
          rw [writeRange_out _ _ _ _ _ (by omega), writeRange_in _ _ _ _ _ hj]
      · rcases Nat.lt_succ_iff_lt_or_eq.1 ht with h | h
        · have := off_lt (start_succ P) h (show P.ndx t + j < P.ndx t + P.nu t by omega)
          rw [writeRange_out _ _ _ _ _ (by omega), writeRange_out _ _ _ _ _ (by omega)]
          exact h2 t j h hj
        · subst h
          rw [writeRange_in _ _ _ _ _ hj]
      · rw [start_succ] at hv
        rw [writeRange_out _ _ _ _ _ (by omega), writeRange_out _ _ _ _ _ (by omega)]
        exact h3 v (by omega)
  obtain ⟨h1, h2, h3⟩ := key P.T le_rfl
  unfold writeNodes
  rw [hL.1 P.T le_rfl]
  refine ⟨fun t j ht hj => ?_, fun t j ht hj => ?_, fun v hv => ?_⟩
  · rcases Nat.lt_or_eq_of_le ht with h | h
    · have := off_lt (start_succ P) h (show j < P.ndx t + P.nu t by omega)
      rw [writeRange_out _ _ _ _ _ (by omega)]
      exact h1 t j h hj
    · subst h
      exact writeRange_in _ _ _ _ _ hj
  · have := off_lt (start_succ P) ht (show P.ndx t + j < P.ndx t + P.nu t by omega)
    rw [writeRange_out _ _ _ _ _ (by omega)]
    exact h2 t j ht hj
  · rw [hL.2] at hv
    rw [writeRange_out _ _ _ _ _ (by omega)]
    exact h3 v (by omega)

end Verif.Ipopt
