import Mathlib.Order.Defs.LinearOrder
import Mathlib.Algebra.BigOperators.Group.List.Basic

/-!
# `std::map` as a sorted association list

Modelling language for the `std::map<std::string, …>` containers of the cost, constraint, contact
and impulse managers. Keys are any linearly ordered type (strings are one); iteration order is the
key order, as in C++. No file of /repo is modelled here.
-/

namespace Verif.OrdMap
variable {N V W : Type} [LinearOrder N]

/-- `m.insert({k, v})`: the map and whether the insertion took place (C++'s `ret.second`). -/
def insert (k : N) (v : V) : List (N × V) → List (N × V) × Bool
  | [] => ([(k, v)], true)
  | (k', v') :: l =>
    if k < k' then ((k, v) :: (k', v') :: l, true)
    else if k = k' then ((k', v') :: l, false)
    else
      let r := insert k v l
      ((k', v') :: r.1, r.2)

/-- `m.find(k)`. -/
def find (k : N) : List (N × V) → Option V
  | [] => none
  | (k', v') :: l => if k = k' then some v' else find k l

/-- `m.erase(k)`. -/
def erase (k : N) (l : List (N × V)) : List (N × V) := l.filter fun kv => decide (kv.1 ≠ k)

/-- `it->second = f(it->second)` for the element found at `k`. -/
def adjust (k : N) (f : V → V) (l : List (N × V)) : List (N × V) :=
  l.map fun kv => if kv.1 = k then (kv.1, f kv.2) else kv

/-- Keys strictly increasing: the invariant of `std::map`. -/
def Sorted (l : List (N × V)) : Prop := (l.map Prod.fst).Pairwise (· < ·)

@[simp] theorem sorted_nil : Sorted ([] : List (N × V)) := List.Pairwise.nil

theorem sorted_cons {k : N} {v : V} {l : List (N × V)} :
    Sorted ((k, v) :: l) ↔ (∀ kv ∈ l, k < kv.1) ∧ Sorted l := by
  simp [Sorted, List.pairwise_cons]

theorem find_eq_none_of_lt {k : N} {l : List (N × V)} (h : ∀ kv ∈ l, k < kv.1) :
    find k l = none := by
  induction l with
  | nil => rfl
  | cons a l ih =>
    have := h a (by simp)
    simp only [find]
    rw [if_neg (ne_of_lt this)]
    exact ih fun kv hkv => h kv (by simp [hkv])

theorem mem_of_find {k : N} {v : V} {l : List (N × V)} (h : find k l = some v) : (k, v) ∈ l := by
  induction l with
  | nil => simp [find] at h
  | cons a l ih =>
    simp only [find] at h
    split at h
    · rename_i hk; injection h with h; subst h; subst hk; simp
    · exact List.mem_cons_of_mem _ (ih h)

theorem find_of_mem {k : N} {v : V} {l : List (N × V)} (hs : Sorted l) (h : (k, v) ∈ l) :
    find k l = some v := by
  induction l with
  | nil => simp at h
  | cons a l ih =>
    obtain ⟨k', v'⟩ := a
    rw [sorted_cons] at hs
    simp only [List.mem_cons, Prod.mk.injEq] at h
    simp only [find]
    rcases h with ⟨rfl, rfl⟩ | h
    · simp
    · have := hs.1 _ h
      simp only at this
      rw [if_neg (ne_of_gt this)]
      exact ih hs.2 h

theorem find_iff_mem {k : N} {v : V} {l : List (N × V)} (hs : Sorted l) :
    find k l = some v ↔ (k, v) ∈ l := ⟨mem_of_find, find_of_mem hs⟩

theorem find_none_iff {k : N} {l : List (N × V)} :
    find k l = none ↔ ∀ kv ∈ l, kv.1 ≠ k := by
  induction l with
  | nil => simp [find]
  | cons a l ih =>
    obtain ⟨k', v'⟩ := a
    simp only [find]
    by_cases h : k = k'
    · simp [h]
    · rw [if_neg h, ih]
      simp [Ne.symm h]

/-- What `insert` does. -/
theorem insert_spec (k : N) (v : V) (l : List (N × V)) (hs : Sorted l) :
    (find k l = none → (insert k v l).2 = true ∧ Sorted (insert k v l).1 ∧
      (insert k v l).1.Perm ((k, v) :: l)) ∧
    (find k l ≠ none → insert k v l = (l, false)) := by
  induction l with
  | nil => simp [insert, find, Sorted]
  | cons a l ih =>
    obtain ⟨k', v'⟩ := a
    rw [sorted_cons] at hs
    simp only [insert, find]
    by_cases h1 : k < k'
    · have hne : k ≠ k' := ne_of_lt h1
      simp only [if_pos h1, if_neg hne]
      have hlt : ∀ kv ∈ l, k < kv.1 := fun kv hkv => lt_trans h1 (hs.1 kv hkv)
      have hn := find_eq_none_of_lt hlt
      refine ⟨fun _ => ⟨trivial, ?_, List.Perm.refl _⟩, fun h => absurd hn h⟩
      rw [sorted_cons, sorted_cons]
      refine ⟨?_, hs⟩
      intro kv hkv
      rcases List.mem_cons.mp hkv with rfl | h
      · exact h1
      · exact hlt kv h
    · by_cases h2 : k = k'
      · simp [h2]
      · simp only [if_neg h1, if_neg h2]
        obtain ⟨ih1, ih2⟩ := ih hs.2
        constructor
        · intro h
          obtain ⟨a1, a2, a3⟩ := ih1 h
          refine ⟨a1, ?_, ?_⟩
          · rw [sorted_cons]
            refine ⟨?_, a2⟩
            intro kv hkv
            have := a3.mem_iff.mp hkv
            rcases List.mem_cons.mp this with rfl | h
            · exact lt_of_le_of_ne (not_lt.mp h1) (Ne.symm h2)
            · exact hs.1 kv h
          · exact (List.Perm.cons _ a3).trans (List.Perm.swap _ _ _)
        · intro h
          rw [ih2 h]

theorem find_insert (k : N) (v : V) (l : List (N × V)) (hs : Sorted l) (hn : find k l = none)
    (j : N) : find j (insert k v l).1 = if j = k then some v else find j l := by
  obtain ⟨_, h2, h3⟩ := (insert_spec k v l hs).1 hn
  by_cases hj : j = k
  · subst hj
    simp only [if_pos]
    exact find_of_mem h2 (h3.mem_iff.mpr (by simp))
  · rw [if_neg hj]
    cases hf : find j l with
    | none =>
      rw [find_none_iff]
      intro kv hkv
      rcases List.mem_cons.mp (h3.mem_iff.mp hkv) with rfl | h
      · exact Ne.symm hj
      · exact find_none_iff.mp hf kv h
    | some w =>
      exact find_of_mem h2 (h3.mem_iff.mpr (List.mem_cons_of_mem _ (mem_of_find hf)))

theorem sorted_erase (k : N) (l : List (N × V)) (hs : Sorted l) : Sorted (erase k l) := by
  unfold Sorted at *
  exact hs.sublist (List.Sublist.map _ List.filter_sublist)

theorem erase_of_find_none (k : N) (l : List (N × V)) (h : find k l = none) : erase k l = l := by
  unfold erase
  rw [List.filter_eq_self]
  intro kv hkv
  simpa using find_none_iff.mp h kv hkv

theorem find_erase (k : N) (l : List (N × V)) (j : N) :
    find j (erase k l) = if j = k then none else find j l := by
  induction l with
  | nil => simp [erase, find]
  | cons a l ih =>
    obtain ⟨k', v'⟩ := a
    by_cases h : k' = k
    · subst h
      have : erase k' ((k', v') :: l) = erase k' l := by simp [erase]
      rw [this, ih]
      by_cases hj : j = k'
      · simp [hj]
      · simp [hj, find]
    · have : erase k ((k', v') :: l) = (k', v') :: erase k l := by simp [erase, h]
      rw [this]
      simp only [find, ih]
      by_cases hj : j = k'
      · subst hj; simp [h]
      · simp [hj]

/-- The element at `k` and the rest. -/
theorem perm_erase {k : N} {v : V} {l : List (N × V)} (hs : Sorted l) (h : find k l = some v) :
    l.Perm ((k, v) :: erase k l) := by
  induction l with
  | nil => simp [find] at h
  | cons a l ih =>
    obtain ⟨k', v'⟩ := a
    rw [sorted_cons] at hs
    by_cases hk : k = k'
    · subst hk
      simp only [find, if_true] at h
      injection h with h; subst h
      have : erase k l = l := erase_of_find_none k l (find_eq_none_of_lt hs.1)
      have h2 : erase k ((k, v') :: l) = erase k l := by simp [erase]
      rw [h2, this]
    · simp only [find, if_neg hk] at h
      have h2 : erase k ((k', v') :: l) = (k', v') :: erase k l := by simp [erase, Ne.symm hk]
      rw [h2]
      exact (List.Perm.cons _ (ih hs.2 h)).trans (List.Perm.swap _ _ _)

@[simp] theorem adjust_keys (k : N) (f : V → V) (l : List (N × V)) :
    (adjust k f l).map Prod.fst = l.map Prod.fst := by
  unfold adjust
  rw [List.map_map]
  apply List.map_congr_left
  intro kv _
  simp only [Function.comp]
  split <;> rfl

theorem sorted_adjust (k : N) (f : V → V) (l : List (N × V)) (hs : Sorted l) :
    Sorted (adjust k f l) := by unfold Sorted at *; rw [adjust_keys]; exact hs

theorem find_adjust (k : N) (f : V → V) (l : List (N × V)) (j : N) :
    find j (adjust k f l) = if j = k then (find j l).map f else find j l := by
  induction l with
  | nil => simp [adjust, find]
  | cons a l ih =>
    obtain ⟨k', v'⟩ := a
    have : adjust k f ((k', v') :: l) =
        (if k' = k then (k', f v') else (k', v')) :: adjust k f l := rfl
    rw [this]
    by_cases h : k' = k
    · subst h
      simp only [if_true, find, ih]
      by_cases hj : j = k'
      · simp [hj]
      · simp [hj]
    · simp only [if_neg h, find, ih]
      by_cases hj : j = k'
      · subst hj; simp [h]
      · simp [hj]

theorem adjust_erase_perm {k : N} {v : V} {l : List (N × V)} (f : V → V) (hs : Sorted l)
    (h : find k l = some v) : (adjust k f l).Perm ((k, f v) :: erase k l) := by
  have h1 := perm_erase (sorted_adjust k f l hs) (v := f v) (by rw [find_adjust, if_pos rfl, h]; rfl)
  have h2 : erase k (adjust k f l) = erase k l := by
    clear h h1 hs
    induction l with
    | nil => rfl
    | cons a l ih =>
      obtain ⟨k', v'⟩ := a
      have e1 : adjust k f ((k', v') :: l) =
        (if k' = k then (k', f v') else (k', v')) :: adjust k f l := rfl
      rw [e1]
      by_cases h : k' = k
      · subst h
        have e2 : erase k' ((k', v') :: l) = erase k' l := by simp [erase]
        have e3 : erase k' ((k', f v') :: adjust k' f l) = erase k' (adjust k' f l) := by
          simp [erase]
        simp only [if_true]
        rw [e2, e3, ih]
      · have e2 : erase k ((k', v') :: l) = (k', v') :: erase k l := by simp [erase, h]
        have e3 : erase k ((k', v') :: adjust k f l) = (k', v') :: erase k (adjust k f l) := by
          simp [erase, h]
        simp only [if_neg h]
        rw [e2, e3, ih]
  rw [h2] at h1
  exact h1

/-- Sum of a quantity over the elements satisfying a test. -/
def total (q : V → Bool) (f : V → Nat) (l : List (N × V)) : Nat :=
  ((l.filter fun kv => q kv.2).map fun kv => f kv.2).sum

theorem total_perm {q : V → Bool} {f : V → Nat} {l l' : List (N × V)} (h : l.Perm l') :
    total q f l = total q f l' := by
  unfold total
  exact ((h.filter _).map _).sum_eq

@[simp] theorem total_cons (q : V → Bool) (f : V → Nat) (k : N) (v : V) (l : List (N × V)) :
    total q f ((k, v) :: l) = (if q v then f v else 0) + total q f l := by
  unfold total
  by_cases h : q v = true <;> simp [h]

end Verif.OrdMap
