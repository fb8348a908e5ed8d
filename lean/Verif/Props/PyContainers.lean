import Verif.Model.PyContainers
import Mathlib.Data.Finset.Card
import Mathlib.Data.Finset.Filter
import Mathlib.Data.List.Sort
import Mathlib.Data.List.Nodup
import Mathlib.Order.Lattice.Nat

/-!
# C125: sets and maps in Python behave as sets and dictionaries
-/

namespace Verif.PyContainers

variable {α β : Type} [LinearOrder α]

/-! ### Specification -/

/-- The number of elements of `s` below `a`: its place in the order. -/
def rank (s : Finset α) (a : α) : Nat := (s.filter fun b => b < a).card

/-- An operation on a mathematical set: the set afterwards, and the exception. -/
def specStep (s : Finset α) : Op α → Finset α × Option Err
  | .add v => (s ∪ {v}, none)
  | .discard v => (s \ {v}, none)
  | .remove v => if v ∈ s then (s \ {v}, none) else (s, some .key)
  | .clear => (∅, none)
  | .delItem i =>
    if -(s.card : Int) ≤ i ∧ i < s.card then
      (s.filter fun a => (rank s a : Int) ≠ if i < 0 then i + s.card else i, none)
    else (s, some .index)
  | .delSlice i j => (s.filter fun a => ¬ (clamp s.card i ≤ rank s a ∧ rank s a < clamp s.card j), none)

def specRun (s : Finset α) : List (Op α) → Finset α × List (Option Err)
  | [] => (s, [])
  | o :: os => ((specRun (specStep s o).1 os).1, (specStep s o).2 :: (specRun (specStep s o).1 os).2)

/-- A list that holds a `std::set`: increasing, without duplicates. -/
def Wf (l : List α) : Prop := l.Pairwise (· < ·)

/-- A list that holds a `std::map`. -/
def WfMap (m : List (α × β)) : Prop := (m.map Prod.fst).Pairwise (· < ·)

/-! ### Lemmas -/

theorem mem_insert (a b : α) (l : List α) : b ∈ insert a l ↔ b = a ∨ b ∈ l := by
  induction l with
  | nil => simp [insert]
  | cons c l ih =>
    unfold insert
    split
    · simp
    · split
      · simp only [List.mem_cons, ih]; tauto
      · rename_i h1 h2
        have : a = c := le_antisymm (not_lt.1 h2) (not_lt.1 h1)
        subst this
        simp

theorem wf_insert (a : α) (l : List α) (h : Wf l) : Wf (insert a l) := by
  unfold Wf at *
  induction l with
  | nil => simp [insert]
  | cons c l ih =>
    obtain ⟨h1, h2⟩ := List.pairwise_cons.1 h
    unfold insert
    split
    · rename_i hlt
      refine List.pairwise_cons.2 ⟨fun x hx => ?_, h⟩
      rcases List.mem_cons.1 hx with rfl | hx
      · exact hlt
      · exact hlt.trans (h1 x hx)
    · split
      · rename_i hlt
        refine List.pairwise_cons.2 ⟨fun x hx => ?_, ih h2⟩
        rcases (mem_insert a x l).1 hx with rfl | hx
        · exact hlt
        · exact h1 x hx
      · exact h

theorem Wf.nodup {l : List α} (h : Wf l) : l.Nodup := h.imp ne_of_lt

theorem Wf.card {l : List α} (h : Wf l) : l.toFinset.card = l.length := List.toFinset_card_of_nodup h.nodup

/-- Two increasing lists with the same elements are equal. -/
theorem Wf.ext {l l' : List α} (h : Wf l) (h' : Wf l') (he : ∀ a, a ∈ l ↔ a ∈ l') : l = l' := by
  have hp : l.Perm l' := (List.perm_ext_iff_of_nodup h.nodup h'.nodup).2 he
  exact hp.eq_of_pairwise (fun a b _ _ h1 h2 => absurd (h1.trans h2) (lt_irrefl a)) h h'

theorem Wf.rank_getElem {l : List α} (h : Wf l) (k : Nat) (hk : k < l.length) : rank l.toFinset l[k] = k := by
  unfold rank
  have : (l.toFinset.filter fun b => b < l[k]) = (l.take k).toFinset := by
    ext b
    simp only [Finset.mem_filter, List.mem_toFinset]
    constructor
    · rintro ⟨hb, hlt⟩
      obtain ⟨j, hj, rfl⟩ := List.getElem_of_mem hb
      have : j < k := by
        by_contra hge
        rcases Nat.lt_or_ge k j with h1 | h1
        · exact absurd (List.pairwise_iff_getElem.1 h k j hk hj h1) (not_lt.2 hlt.le)
        · have : j = k := by omega
          subst this
          exact lt_irrefl _ hlt
      exact List.mem_take_iff_getElem.2 ⟨j, by omega, rfl⟩
    · intro hb
      obtain ⟨j, hj, rfl⟩ := List.mem_take_iff_getElem.1 hb
      exact ⟨List.getElem_mem _, List.pairwise_iff_getElem.1 h j k (by omega) hk (by omega)⟩
  rw [this, List.toFinset_card_of_nodup (h.nodup.sublist (List.take_sublist k l)), List.length_take]
  omega

theorem Wf.rank_inj {l : List α} (h : Wf l) {k : Nat} {a : α} (ha : a ∈ l) (hk : rank l.toFinset a = k) :
    l[k]? = some a := by
  obtain ⟨j, hj, rfl⟩ := List.getElem_of_mem ha
  rw [h.rank_getElem j hj] at hk
  subst hk
  exact List.getElem?_eq_getElem hj

theorem index_spec (n : Nat) (i : Int) :
    (index n i = none ↔ ¬ (-(n : Int) ≤ i ∧ i < n)) ∧
    ∀ k, index n i = some k → k < n ∧ (k : Int) = if i < 0 then i + n else i := by
  unfold index
  dsimp only
  split_ifs <;> refine ⟨?_, ?_⟩ <;> simp <;> omega

theorem clamp_le (n : Nat) (i : Int) : clamp n i ≤ n := by unfold clamp; exact Nat.min_le_right _ _

theorem wf_step (l : List α) (h : Wf l) (o : Op α) :
    Wf (step l o).1 ∧ (step l o).1.toFinset = (specStep l.toFinset o).1 ∧ (step l o).2 = (specStep l.toFinset o).2 := by
  have herase : ∀ v, Wf (erase v l) ∧ (erase v l).toFinset = l.toFinset \ {v} := by
    intro v
    refine ⟨List.Pairwise.filter _ h, ?_⟩
    ext b
    simp [erase]
  cases o with
  | add v =>
    refine ⟨wf_insert v l h, ?_, rfl⟩
    ext b
    simp [step, specStep, mem_insert]
  | discard v => exact ⟨(herase v).1, (herase v).2, rfl⟩
  | remove v =>
    have hlen : (erase v l).length = l.length ↔ v ∉ l := by
      unfold erase
      rw [List.length_filter_eq_length_iff]
      simp only [ne_eq, decide_not, Bool.not_eq_eq_eq_not, Bool.not_true, decide_eq_false_iff_not]
      exact ⟨fun h hv => h v hv rfl, fun hv a ha e => hv (e ▸ ha)⟩
    by_cases hv : v ∈ l
    · have : ¬ (erase v l).length = l.length := fun e => (hlen.1 e) hv
      simp only [step, specStep, this, if_false, List.mem_toFinset, hv, if_true]
      exact ⟨(herase v).1, (herase v).2, trivial⟩
    · simp only [step, specStep, hlen.2 hv, if_true, List.mem_toFinset, hv, if_false]
      exact ⟨h, trivial, trivial⟩
  | clear => exact ⟨List.Pairwise.nil, rfl, rfl⟩
  | delItem i =>
    obtain ⟨h1, h2⟩ := index_spec l.length i
    cases hi : index l.length i with
    | none =>
      have := h1.1 hi
      simp only [step, hi, specStep, h.card, if_neg this]
      exact ⟨h, trivial, trivial⟩
    | some k =>
      obtain ⟨hk, hki⟩ := h2 k hi
      have hr : -(l.length : Int) ≤ i ∧ i < l.length := by
        by_contra hn
        rw [h1.2 hn] at hi
        cases hi
      simp only [step, hi, specStep, h.card, if_pos hr, ← hki]
      refine ⟨h.sublist (List.eraseIdx_sublist l k), ?_, trivial⟩
      ext b
      simp only [List.mem_toFinset, Finset.mem_filter, ne_eq, Int.natCast_inj]
      rw [List.mem_eraseIdx_iff_getElem]
      constructor
      · rintro ⟨j, hj, hne, rfl⟩
        exact ⟨List.getElem_mem _, by rw [h.rank_getElem j hj]; exact hne⟩
      · rintro ⟨hb, hne⟩
        obtain ⟨j, hj, rfl⟩ := List.getElem_of_mem hb
        rw [h.rank_getElem j hj] at hne
        exact ⟨j, hj, hne, rfl⟩
  | delSlice i j =>
    simp only [step, specStep, h.card]
    have hf := clamp_le l.length i
    have ht := clamp_le l.length j
    generalize clamp l.length i = f at *
    generalize clamp l.length j = t at *
    by_cases hft : f ≤ t
    · simp only [if_pos hft]
      have hsub : (l.take f ++ l.drop t).Sublist l := by
        conv_rhs => rw [← List.take_append_drop f l]
        refine List.Sublist.append_left ?_ _
        obtain ⟨d, rfl⟩ := Nat.exists_eq_add_of_le hft
        rw [← List.drop_drop]
        exact List.drop_sublist d _
      refine ⟨h.sublist hsub, ?_, trivial⟩
      ext b
      simp only [List.mem_toFinset, List.mem_append, Finset.mem_filter]
      constructor
      · rintro (hb | hb)
        · obtain ⟨k, hk, rfl⟩ := List.mem_take_iff_getElem.1 hb
          refine ⟨List.getElem_mem _, ?_⟩
          rw [h.rank_getElem k (by omega)]
          omega
        · obtain ⟨k, hk, rfl⟩ := List.mem_drop_iff_getElem.1 hb
          refine ⟨List.getElem_mem _, ?_⟩
          rw [h.rank_getElem (t + k) (by omega)]
          omega
      · rintro ⟨hb, hn⟩
        obtain ⟨k, hk, rfl⟩ := List.getElem_of_mem hb
        rw [h.rank_getElem k hk] at hn
        rcases Nat.lt_or_ge k f with hkf | hkf
        · exact Or.inl (List.mem_take_iff_getElem.2 ⟨k, by omega, rfl⟩)
        · refine Or.inr (List.mem_drop_iff_getElem.2 ⟨k - t, by omega, ?_⟩)
          congr 1
          omega
    · simp only [if_neg hft]
      refine ⟨h, ?_, trivial⟩
      ext b
      simp only [List.mem_toFinset, Finset.mem_filter]
      exact ⟨fun hb => ⟨hb, by omega⟩, fun hb => hb.1⟩

theorem mem_setstate (st l : List α) (a : α) : a ∈ setstate l st ↔ a ∈ st ∨ a ∈ l := by
  induction st generalizing l with
  | nil => simp [setstate]
  | cons v st ih =>
    have : setstate l (v :: st) = setstate (insert v l) st := rfl
    rw [this, ih, mem_insert, List.mem_cons]
    tauto

theorem wf_setstate (st l : List α) (h : Wf l) : Wf (setstate l st) := by
  induction st generalizing l with
  | nil => exact h
  | cons v st ih => exact ih (insert v l) (wf_insert v l h)

/-! ### Theorems on sets -/

/-- C125 (histories of sets): after any history of `add`, `discard`, `remove`, `clear`, `del s[i]` and `del s[i:j]`, the
container holds the elements of the mathematical set under the same operations, and the same calls have raised the same
exceptions. -/
theorem C125_set_history (l : List α) (h : Wf l) (os : List (Op α)) :
    Wf (run l os).1 ∧ (run l os).1.toFinset = (specRun l.toFinset os).1 ∧
    (run l os).2 = (specRun l.toFinset os).2 := by
  induction os generalizing l with
  | nil => exact ⟨h, rfl, rfl⟩
  | cons o os ih =>
    obtain ⟨h1, h2, h3⟩ := wf_step l h o
    obtain ⟨i1, i2, i3⟩ := ih (step l o).1 h1
    rw [h2] at i2 i3
    exact ⟨i1, i2, by simp only [run, specRun, i3, h3]⟩

/-- C125 (reading sets): `v in s`, `s[i]` and `s[i:j]` on a container: membership, the element of that place in the
order (from the end if the index is negative; `IndexError` exactly outside of the set), and the elements whose place is
in the slice. -/
theorem C125_set_reads (l : List α) (h : Wf l) :
    (∀ v, contains l v = true ↔ v ∈ l.toFinset) ∧
    (∀ i a, getItem l i = some a ↔ a ∈ l.toFinset ∧
      (rank l.toFinset a : Int) = if i < 0 then i + l.toFinset.card else i) ∧
    (∀ i, getItem l i = none ↔ ¬ (-(l.toFinset.card : Int) ≤ i ∧ i < l.toFinset.card)) ∧
    (∀ i j a, a ∈ getSlice l i j ↔ a ∈ l.toFinset ∧
      clamp l.toFinset.card i ≤ rank l.toFinset a ∧ rank l.toFinset a < clamp l.toFinset.card j) := by
  rw [h.card]
  refine ⟨fun v => by simp [contains], fun i a => ?_, fun i => ?_, fun i j a => ?_⟩
  · obtain ⟨h1, h2⟩ := index_spec l.length i
    unfold getItem
    cases hi : index l.length i with
    | none =>
      have hn := h1.1 hi
      simp only [Option.bind_none, reduceCtorEq, List.mem_toFinset, false_iff, not_and]
      intro ha he
      obtain ⟨j, hj, rfl⟩ := List.getElem_of_mem ha
      rw [h.rank_getElem j hj] at he
      split at he <;> omega
    | some k =>
      obtain ⟨hk, hki⟩ := h2 k hi
      simp only [Option.bind_some, List.mem_toFinset, ← hki, Int.natCast_inj]
      constructor
      · intro e
        rw [List.getElem?_eq_getElem hk] at e
        cases e
        exact ⟨List.getElem_mem _, h.rank_getElem k hk⟩
      · rintro ⟨ha, hr⟩
        exact h.rank_inj ha hr
  · obtain ⟨h1, h2⟩ := index_spec l.length i
    rw [← h1]
    unfold getItem
    cases hi : index l.length i with
    | none => simp
    | some k => simp [List.getElem?_eq_getElem (h2 k hi).1]
  · have hf := clamp_le l.length i
    have ht := clamp_le l.length j
    unfold getSlice
    dsimp only
    generalize clamp l.length i = f at *
    generalize clamp l.length j = t at *
    split
    · simp only [List.not_mem_nil, false_iff]
      rintro ⟨-, h1, h2⟩
      omega
    · constructor
      · intro ha
        obtain ⟨k, hk, rfl⟩ := List.mem_take_iff_getElem.1 ha
        rw [List.length_drop] at hk
        rw [List.getElem_drop]
        refine ⟨by simp, ?_⟩
        rw [h.rank_getElem (f + k) (by omega)]
        omega
      · rintro ⟨ha, h1, h2⟩
        obtain ⟨k, hk, rfl⟩ := List.getElem_of_mem (List.mem_toFinset.1 ha)
        rw [h.rank_getElem k hk] at h1 h2
        refine List.mem_take_iff_getElem.2 ⟨k - f, by rw [List.length_drop]; omega, ?_⟩
        rw [List.getElem_drop]
        congr 1
        omega

/-- C125 (pickling sets): unpickling a pickled set gives the set back. -/
theorem C125_set_pickle (l : List α) (h : Wf l) : setstate [] (getstate l) = l :=
  Wf.ext (wf_setstate _ _ List.Pairwise.nil) h fun a => by simp [mem_setstate, getstate]

/-- C125 (construction of sets): the conversion of a Python set, once it is entered, holds exactly its elements. -/
theorem C125_set_construct {P : Type} (get : P → α) (es : List P) :
    Wf (construct get es) ∧ ∀ a, a ∈ construct get es ↔ ∃ e ∈ es, get e = a :=
  ⟨wf_setstate _ _ List.Pairwise.nil, fun a => by simp [construct, mem_setstate]⟩

/-! ### Theorems on maps -/

/-- The value under a key. -/
def lookup (m : List (α × β)) (k : α) : Option β := (m.find? fun p => p.1 == k).map Prod.snd

theorem lookup_cons (p : α × β) (m : List (α × β)) (k : α) :
    lookup (p :: m) k = if p.1 = k then some p.2 else lookup m k := by
  unfold lookup
  by_cases h : p.1 = k <;> simp [h]

theorem lookup_none {m : List (α × β)} {k : α} (h : ∀ p ∈ m, p.1 ≠ k) : lookup m k = none := by
  unfold lookup
  simpa using h

theorem lookup_put (k : α) (v : β) (m : List (α × β)) (hm : WfMap m) (k' : α) :
    lookup (put k v m) k' = if k = k' then some v else lookup m k' := by
  induction m with
  | nil => simp [put, lookup]
  | cons p m ih =>
    obtain ⟨h1, h2⟩ := List.pairwise_cons.1 hm
    unfold put
    split
    · rw [lookup_cons]
    · split
      · rename_i hlt
        rw [lookup_cons, lookup_cons, ih h2]
        by_cases e1 : p.1 = k'
        · have : k ≠ k' := fun e => by rw [← e] at e1; exact absurd hlt (by rw [e1]; exact lt_irrefl _)
          simp [e1, this]
        · simp [e1]
      · rename_i g1 g2
        have : k = p.1 := le_antisymm (not_lt.1 g2) (not_lt.1 g1)
        rw [lookup_cons, lookup_cons, ← this]
        by_cases e : k = k' <;> simp [e]

theorem mem_keys_put (k : α) (v : β) (m : List (α × β)) (x : α) :
    x ∈ (put k v m).map Prod.fst ↔ x = k ∨ x ∈ m.map Prod.fst := by
  induction m with
  | nil => simp [put]
  | cons p m ih =>
    unfold put
    split
    · simp
    · split
      · simp only [List.map_cons, List.mem_cons, ih]; tauto
      · rename_i g1 g2
        have : k = p.1 := le_antisymm (not_lt.1 g2) (not_lt.1 g1)
        simp [this]

theorem wf_put (k : α) (v : β) (m : List (α × β)) (hm : WfMap m) : WfMap (put k v m) := by
  unfold WfMap at *
  induction m with
  | nil => simp [put]
  | cons p m ih =>
    obtain ⟨h1, h2⟩ := List.pairwise_cons.1 hm
    unfold put
    split
    · rename_i hlt
      refine List.pairwise_cons.2 ⟨fun x hx => ?_, hm⟩
      rcases List.mem_cons.1 hx with rfl | hx
      · exact hlt
      · exact hlt.trans (h1 x hx)
    · split
      · rename_i hlt
        refine List.pairwise_cons.2 ⟨fun x hx => ?_, ih h2⟩
        rcases (mem_keys_put k v m x).1 hx with rfl | hx
        · exact hlt
        · exact h1 x hx
      · rename_i g1 g2
        have : k = p.1 := le_antisymm (not_lt.1 g2) (not_lt.1 g1)
        refine List.pairwise_cons.2 ⟨?_, h2⟩
        rw [this]
        exact h1

/-- Two maps with the same values under all keys are equal. -/
theorem WfMap.ext {m m' : List (α × β)} (h : WfMap m) (h' : WfMap m') (he : ∀ k, lookup m k = lookup m' k) : m = m' := by
  induction m generalizing m' with
  | nil =>
    cases m' with
    | nil => rfl
    | cons p m' => have := he p.1; simp [lookup] at this
  | cons p m ih =>
    cases m' with
    | nil => have := he p.1; simp [lookup] at this
    | cons q m' =>
      obtain ⟨h1, h2⟩ := List.pairwise_cons.1 h
      obtain ⟨h1', h2'⟩ := List.pairwise_cons.1 h'
      have l1 : ∀ x, x ≤ p.1 → lookup m x = none := fun x hx =>
        lookup_none fun r hr e => absurd (h1 r.1 (List.mem_map_of_mem hr)) (not_lt.2 (e ▸ hx))
      have l2 : ∀ x, x ≤ q.1 → lookup m' x = none := fun x hx =>
        lookup_none fun r hr e => absurd (h1' r.1 (List.mem_map_of_mem hr)) (not_lt.2 (e ▸ hx))
      have hk : p.1 = q.1 := by
        rcases lt_trichotomy p.1 q.1 with hlt | e | hlt
        · have := he p.1
          rw [lookup_cons, lookup_cons, if_pos rfl, if_neg (ne_of_gt hlt), l2 _ hlt.le] at this
          cases this
        · exact e
        · have := he q.1
          rw [lookup_cons, lookup_cons, if_pos rfl, if_neg (ne_of_gt hlt), l1 _ hlt.le] at this
          cases this
      have hv : p.2 = q.2 := by
        have := he p.1
        rw [lookup_cons, lookup_cons, if_pos rfl, if_pos hk.symm] at this
        exact Option.some.inj this
      have : m = m' := ih h2 h2' fun k => by
        by_cases e : p.1 = k
        · rw [l1 k (le_of_eq e.symm), l2 k (le_of_eq (hk ▸ e.symm))]
        · have := he k
          rw [lookup_cons, lookup_cons, if_neg e, if_neg (hk ▸ e)] at this
          exact this
      rw [this, Prod.ext hk hv]

theorem insertEntry_eq (e : α × β) (m : List (α × β)) (hm : ∀ p ∈ m, p.1 ≠ e.1) : insertEntry e m = put e.1 e.2 m := by
  induction m with
  | nil => rfl
  | cons p m ih =>
    unfold insertEntry put
    rw [ih fun q hq => hm q (List.mem_cons_of_mem _ hq)]
    split
    · rfl
    · split
      · rfl
      · rename_i g1 g2
        exact absurd (le_antisymm (not_lt.1 g1) (not_lt.1 g2)) (hm p List.mem_cons_self)

theorem put_last (k : α) (v : β) (m : List (α × β)) (h : ∀ p ∈ m, p.1 < k) : put k v m = m ++ [(k, v)] := by
  induction m with
  | nil => rfl
  | cons p m ih =>
    have hp := h p List.mem_cons_self
    unfold put
    rw [if_neg (not_lt.2 hp.le), if_pos hp, ih fun q hq => h q (List.mem_cons_of_mem _ hq)]
    rfl

theorem todict_aux (m d : List (α × β)) (h : WfMap (d ++ m)) :
    m.foldl (fun d p => setdefault d p.1 p.2) d = d ++ m := by
  induction m generalizing d with
  | nil => simp
  | cons p m ih =>
    have hd : ¬ ∃ q ∈ d, q.1 = p.1 := by
      rintro ⟨q, hq, e⟩
      unfold WfMap at h
      rw [List.map_append, List.pairwise_append] at h
      exact absurd (h.2.2 q.1 (List.mem_map_of_mem hq) p.1 (by simp)) (by rw [e]; exact lt_irrefl _)
    simp only [List.foldl_cons]
    have : setdefault d p.1 p.2 = d ++ [p] := by unfold setdefault; rw [if_neg hd]
    rw [this, ih (d ++ [p]) (by simpa using h)]
    simp

/-- C125 (dictionary from map): `todict` has the entries of the map, in the order of the keys. -/
theorem C125_todict (m : List (α × β)) (h : WfMap m) : todict m = m := by
  have := todict_aux m [] (by simpa using h)
  simpa [todict] using this

/-- C125 (pickling maps): unpickling the entries of a map gives the map back. -/
theorem C125_map_pickle (m : List (α × β)) (h : WfMap m) : setstateMap [] m = m := by
  have key : ∀ (m d : List (α × β)), WfMap (d ++ m) → setstateMap d m = d ++ m := by
    intro m
    induction m with
    | nil => intro d _; simp [setstateMap]
    | cons p m ih =>
      intro d hd
      have hlt : ∀ q ∈ d, q.1 < p.1 := by
        unfold WfMap at hd
        rw [List.map_append, List.pairwise_append] at hd
        exact fun q hq => hd.2.2 q.1 (List.mem_map_of_mem hq) p.1 (by simp)
      have : setstateMap d (p :: m) = setstateMap (insertEntry p d) m := rfl
      rw [this, insertEntry_eq p d fun q hq => ne_of_lt (hlt q hq), put_last _ _ _ hlt, ih _ (by simpa using hd)]
      simp
  simpa using key m [] (by simpa using h)

/-- C125 (map from dictionary). If all keys and values have the right type, the map has under each key the value that
the dictionary has under it, and nothing else. `hinj`: distinct keys of the dictionary are distinct in C++. -/
theorem C125_from_dict {P : Type} (ek : P → Option α) (ev : P → Option β) (d : List (P × P)) (m : List (α × β))
    (hd : fromDict ek ev d = .ok m) (hinj : (d.map fun p => ek p.1).Nodup) :
    WfMap m ∧ ∀ k v, lookup m k = some v ↔ ∃ p ∈ d, ek p.1 = some k ∧ ev p.2 = some v := by
  have key : ∀ (d : List (P × P)) (m0 m : List (α × β)), fromDictAux ek ev m0 d = .ok m → WfMap m0 →
      (d.map fun p => ek p.1).Nodup → WfMap m ∧ ∀ k v, lookup m k = some v ↔
        (∃ p ∈ d, ek p.1 = some k ∧ ev p.2 = some v) ∨ ((∀ p ∈ d, ek p.1 ≠ some k) ∧ lookup m0 k = some v) := by
    intro d
    induction d with
    | nil =>
      intro m0 m h hw _
      cases h
      exact ⟨hw, fun k v => by simp⟩
    | cons p d ih =>
      intro m0 m h hw hn
      unfold fromDictAux at h
      cases hk : ek p.1 with
      | none => simp [hk] at h
      | some k0 =>
        cases hv : ev p.2 with
        | none => simp [hk, hv] at h
        | some v0 =>
          simp only [hk, hv] at h
          rw [List.map_cons, List.nodup_cons] at hn
          obtain ⟨hw', hl⟩ := ih _ m h (wf_put k0 v0 m0 hw) hn.2
          refine ⟨hw', fun k v => ?_⟩
          have hnot : ∀ q ∈ d, ek q.1 ≠ some k0 := fun q hq e =>
            hn.1 (by rw [hk, ← e]; exact List.mem_map_of_mem (f := fun p => ek p.1) hq)
          rw [hl, lookup_put _ _ _ hw]
          simp only [List.mem_cons, exists_eq_or_imp, forall_eq_or_imp, hk, hv, Option.some.injEq]
          by_cases e : k0 = k
          · subst e
            have : ¬ ∃ q ∈ d, ek q.1 = some k0 ∧ ev q.2 = some v := fun ⟨q, hq, e, _⟩ => hnot q hq e
            simp only [this, false_or, or_false, true_and, if_true, Option.some.injEq, ne_eq, not_true_eq_false,
              false_and]
            exact ⟨fun h => h.2, fun h => ⟨hnot, h⟩⟩
          · simp [e]
  obtain ⟨h1, h2⟩ := key d [] m hd List.Pairwise.nil hinj
  exact ⟨h1, fun k v => by rw [h2]; simp [lookup]⟩

/-- The conversion succeeds exactly if every key and every value has the right type. -/
theorem C125_from_dict_ok {P : Type} (ek : P → Option α) (ev : P → Option β) (d : List (P × P)) :
    (∃ m, fromDict ek ev d = .ok m) ↔ ∀ p ∈ d, ek p.1 ≠ none ∧ ev p.2 ≠ none := by
  have key : ∀ (d : List (P × P)) (m0 : List (α × β)), (∃ m, fromDictAux ek ev m0 d = .ok m) ↔
      ∀ p ∈ d, ek p.1 ≠ none ∧ ev p.2 ≠ none := by
    intro d
    induction d with
    | nil => intro m0; simp [fromDictAux]
    | cons p d ih =>
      intro m0
      unfold fromDictAux
      cases hk : ek p.1 with
      | none => simp [hk]
      | some k0 =>
        cases hv : ev p.2 with
        | none => simp [hv]
        | some v0 => simp [hk, hv, ih]
  exact key d []

/-- C125 (round trip): converting a map to a dictionary and back gives the map. -/
theorem C125_map_round_trip (m : List (α × β)) (h : WfMap m) (P : Type) (pk : α → P) (pv : β → P)
    (ek : P → Option α) (ev : P → Option β) (hk : ∀ k, ek (pk k) = some k) (hv : ∀ v, ev (pv v) = some v) :
    fromDict ek ev ((todict m).map fun p => (pk p.1, pv p.2)) = .ok m := by
  rw [C125_todict m h]
  have key : ∀ (m d : List (α × β)), WfMap (d ++ m) →
      fromDictAux ek ev d (m.map fun p => (pk p.1, pv p.2)) = .ok (d ++ m) := by
    intro m
    induction m with
    | nil => intro d _; simp [fromDictAux]
    | cons p m ih =>
      intro d hd
      have hlt : ∀ q ∈ d, q.1 < p.1 := by
        unfold WfMap at hd
        rw [List.map_append, List.pairwise_append] at hd
        exact fun q hq => hd.2.2 q.1 (List.mem_map_of_mem hq) p.1 (by simp)
      rw [List.map_cons]
      unfold fromDictAux
      simp only [hk, hv]
      rw [put_last _ _ _ hlt, ih _ (by simpa using hd)]
      simp
  simpa [fromDict] using key m [] (by simpa using h)

/-! ### Non-vacuity -/

example : run [1, 3, 5] [.add 4, .remove 2, .delItem (-1), .delSlice 0 1] = (([3, 4] : List Int), [none, some .key, none, none]) := by
  decide

example : Wf ([1, 3, 5] : List Int) := by unfold Wf; decide

example : WfMap [((1 : Int), 'a'), (2, 'b')] := by unfold WfMap; decide

example : (fromDict (fun p : Int ⊕ Char => p.getLeft?) (fun p => p.getRight?)
    [(.inl 2, .inr 'b'), (.inl 1, .inr 'a')]) = .ok [(1, 'a'), (2, 'b')] := rfl

/-! ### Where the claim fails -/

/-- A Python set is accepted where a set is expected exactly if it is empty, whatever its elements are: the type of the
iterator is tested, which is not the one of elements. -/
theorem C125_convertible_counterexample {P : Type} (elemOk : P → Bool) (iter : P) (hiter : elemOk iter = false)
    (es : List P) : convertible elemOk iter (.set es) = true ↔ es = [] := by
  cases es <;> simp [convertible, hiter]

example : convertible (fun p : Int ⊕ Char => p.isLeft) (.inr 'i') (.set [.inl 1, .inl 2]) = false := rfl

end Verif.PyContainers
