import Verif.Lemmas.Constraints
import Mathlib.Algebra.Order.Field.Basic
import Mathlib.Algebra.Order.Ring.Int
import Mathlib.Tactic.NormNum.Basic
import Mathlib.Algebra.Order.Ring.Unbundled.Rat
import Mathlib.Algebra.Field.Rat
import Mathlib.Data.List.Zip

/-! # Properties C12–C15 of constraints and the constraint manager -/

namespace Verif.Constraints
open Verif

section manager
variable {N K D : Type} [LinearOrder N] [Sub K] [Zero K] [LE K] [DecidableLE K] [DecidableEq K]
variable {nu : Nat} {maxv : K}

theorem u64_add_sub (a b : UInt64) : a + b - a = b := by
  rw [UInt64.add_comm, UInt64.add_sub_cancel]

/-- One counter: up/down moves follow the total over the items. -/
theorem total_up (q : Item → Bool) (f : Item → Nat) (l : List (N × Item)) (hs : OrdMap.Sorted l)
    (n : N) (it : Item) (hf : OrdMap.find n l = none) :
    OrdMap.total q f (OrdMap.insert n it l).1 = (if q it then f it else 0) + OrdMap.total q f l := by
  rw [OrdMap.total_perm ((OrdMap.insert_spec n it l hs).1 hf).2.2, OrdMap.total_cons]

theorem total_down (q : Item → Bool) (f : Item → Nat) (l : List (N × Item)) (hs : OrdMap.Sorted l)
    (n : N) (it : Item) (hf : OrdMap.find n l = some it) :
    OrdMap.total q f l = (if q it then f it else 0) + OrdMap.total q f (OrdMap.erase n l) := by
  rw [OrdMap.total_perm (OrdMap.perm_erase hs hf), OrdMap.total_cons]

theorem total_adjust (q : Item → Bool) (f : Item → Nat) (l : List (N × Item)) (hs : OrdMap.Sorted l)
    (n : N) (it : Item) (g : Item → Item) (hf : OrdMap.find n l = some it) :
    OrdMap.total q f (OrdMap.adjust n g l) =
      (if q (g it) then f (g it) else 0) + OrdMap.total q f (OrdMap.erase n l) := by
  rw [OrdMap.total_perm (OrdMap.adjust_erase_perm g hs hf), OrdMap.total_cons]

/-- All four counters at once. -/
structure CountsOk (heap : Nat → Con K) (l : List (N × Item)) (m : Mgr N K) : Prop where
  ng : m.ng = UInt64.ofNat (OrdMap.total (fun i => i.active) (fun i => (heap i.con).ng) l)
  nh : m.nh = UInt64.ofNat (OrdMap.total (fun i => i.active) (fun i => (heap i.con).nh) l)
  ngT : m.ngT = UInt64.ofNat (OrdMap.total (fun i => i.active && (heap i.con).tcon)
    (fun i => (heap i.con).ng) l)
  nhT : m.nhT = UInt64.ofNat (OrdMap.total (fun i => i.active && (heap i.con).tcon)
    (fun i => (heap i.con).nh) l)

omit [LinearOrder N] [Sub K] [Zero K] [LE K] [DecidableLE K] [DecidableEq K] in
theorem counts_up {heap : Nat → Con K} {l l' : List (N × Item)} {m : Mgr N K}
    (h : CountsOk heap l m) (a : Nat)
    (hl : ∀ q f, OrdMap.total q f l' = (if q ⟨a, true⟩ then f ⟨a, true⟩ else 0) +
      OrdMap.total q f l) : CountsOk heap l' (m.countUp (heap a)) := by
  obtain ⟨h1, h2, h3, h4⟩ := h
  constructor <;> simp only [Mgr.countUp, hl, h1, h2, h3, h4]
  · simp [UInt64.ofNat_add, UInt64.add_comm]
  · simp [UInt64.ofNat_add, UInt64.add_comm]
  · cases (heap a).tcon <;> simp [UInt64.ofNat_add, UInt64.add_comm]
  · cases (heap a).tcon <;> simp [UInt64.ofNat_add, UInt64.add_comm]

omit [LinearOrder N] [Sub K] [Zero K] [LE K] [DecidableLE K] [DecidableEq K] in
theorem counts_down {heap : Nat → Con K} {l l' : List (N × Item)} {m : Mgr N K}
    (h : CountsOk heap l m) (a : Nat)
    (hl : ∀ q f, OrdMap.total q f l = (if q ⟨a, true⟩ then f ⟨a, true⟩ else 0) +
      OrdMap.total q f l') : CountsOk heap l' (m.countDown (heap a)) := by
  obtain ⟨h1, h2, h3, h4⟩ := h
  rw [hl] at h1 h2 h3 h4
  constructor <;> simp only [Mgr.countDown, h1, h2, h3, h4]
  · simp [UInt64.ofNat_add, u64_add_sub]
  · simp [UInt64.ofNat_add, u64_add_sub]
  · cases (heap a).tcon <;> simp [UInt64.ofNat_add, u64_add_sub]
  · cases (heap a).tcon <;> simp [UInt64.ofNat_add, u64_add_sub]

omit [LinearOrder N] [Sub K] [Zero K] [LE K] [DecidableLE K] [DecidableEq K] in
theorem counts_same {heap : Nat → Con K} {l l' : List (N × Item)} {m : Mgr N K}
    (h : CountsOk heap l m) (a : Nat)
    (hl : ∀ q f, OrdMap.total q f l' = (if q ⟨a, false⟩ then f ⟨a, false⟩ else 0) +
      OrdMap.total q f l) : CountsOk heap l' m := by
  obtain ⟨h1, h2, h3, h4⟩ := h
  constructor <;> simp [hl, h1, h2, h3, h4]

omit [LinearOrder N] [Sub K] [Zero K] [LE K] [DecidableLE K] [DecidableEq K] in
theorem counts_same' {heap : Nat → Con K} {l l' : List (N × Item)} {m : Mgr N K}
    (h : CountsOk heap l m) (a : Nat)
    (hl : ∀ q f, OrdMap.total q f l = (if q ⟨a, false⟩ then f ⟨a, false⟩ else 0) +
      OrdMap.total q f l') : CountsOk heap l' m := by
  obtain ⟨h1, h2, h3, h4⟩ := h
  rw [hl] at h1 h2 h3 h4
  constructor <;> simp [h1, h2, h3, h4]

omit [Sub K] [Zero K] [LE K] [DecidableLE K] [DecidableEq K] in
theorem consistent_iff (w : World N K) :
    Consistent w ↔ OrdMap.Sorted w.mgr.items ∧ CountsOk w.heap w.mgr.items w.mgr ∧
      (w.mgr.lb.length = w.mgr.ng.toNat ∧ w.mgr.ub.length = w.mgr.ng.toNat) ∧
      (∀ n, n ∈ w.mgr.active ↔ ∃ it, (n, it) ∈ w.mgr.items ∧ it.active = true) ∧
      (∀ n, n ∈ w.mgr.inactive ↔ ∃ it, (n, it) ∈ w.mgr.items ∧ it.active = false) :=
  ⟨fun ⟨a, b, c, d, e, f, g, h, i⟩ => ⟨a, ⟨b, c, d, e⟩, ⟨f, g⟩, h, i⟩,
   fun ⟨a, ⟨b, c, d, e⟩, ⟨f, g⟩, h, i⟩ => ⟨a, b, c, d, e, f, g, h, i⟩⟩

theorem consistent_step (w : World N K) (hw : Consistent w) (op : Op N K) (hop : op.safe w) :
    Consistent (op.next nu maxv w) := by
  obtain ⟨hs, hc, hlen, ha, hi⟩ := (consistent_iff w).mp hw
  rw [consistent_iff]
  cases op with
  | add n a act =>
    rw [next_add w hs]
    split
    · rename_i h
      obtain ⟨hnu, hf⟩ := h
      have hno : ∀ i, (n, i) ∉ w.mgr.items := fun i hi => OrdMap.find_none_iff.mp hf _ hi rfl
      have hmem : ∀ it m i, (m, i) ∈ (OrdMap.insert n it w.mgr.items).1 ↔
          (m = n ∧ i = it) ∨ (m, i) ∈ w.mgr.items := by
        intro it m i
        rw [((OrdMap.insert_spec n it _ hs).1 hf).2.2.mem_iff]; simp
      have hsort : ∀ it, OrdMap.Sorted (OrdMap.insert n it w.mgr.items).1 :=
        fun it => ((OrdMap.insert_spec n it _ hs).1 hf).2.1
      cases act with
      | true =>
        refine ⟨hsort _, ?_, ?_, ?_, ?_⟩
        · have := counts_up hc a (l' := (OrdMap.insert n ⟨a, true⟩ w.mgr.items).1)
            (fun q f => total_up q f _ hs n _ hf)
          exact ⟨this.1, this.2, this.3, this.4⟩
        · exact ⟨resizeVec_length _ _, resizeVec_length _ _⟩
        · intro m
          simp only [if_true, Finset.mem_insert, ha, hmem]
          constructor
          · rintro (rfl | ⟨i, h1, h2⟩)
            · exact ⟨_, Or.inl ⟨rfl, rfl⟩, rfl⟩
            · exact ⟨i, Or.inr h1, h2⟩
          · rintro ⟨i, ⟨rfl, rfl⟩ | h1, h2⟩
            · exact Or.inl rfl
            · exact Or.inr ⟨i, h1, h2⟩
        · intro m
          simp only [if_true, hmem]
          show m ∈ w.mgr.inactive ↔ _
          rw [hi]
          constructor
          · rintro ⟨i, h1, h2⟩; exact ⟨i, Or.inr h1, h2⟩
          · rintro ⟨i, ⟨rfl, rfl⟩ | h1, h2⟩
            · simp at h2
            · exact ⟨i, h1, h2⟩
      | false =>
        refine ⟨hsort _, ?_, hlen, ?_, ?_⟩
        · have := counts_same hc a (l' := (OrdMap.insert n ⟨a, false⟩ w.mgr.items).1)
            (fun q f => total_up q f _ hs n _ hf)
          exact ⟨this.1, this.2, this.3, this.4⟩
        · intro m
          simp only [Bool.false_eq_true, if_false, ha, hmem]
          constructor
          · rintro ⟨i, h1, h2⟩; exact ⟨i, Or.inr h1, h2⟩
          · rintro ⟨i, ⟨rfl, rfl⟩ | h1, h2⟩
            · simp at h2
            · exact ⟨i, h1, h2⟩
        · intro m
          simp only [Bool.false_eq_true, if_false, Finset.mem_insert, hi, hmem]
          constructor
          · rintro (rfl | ⟨i, h1, h2⟩)
            · exact ⟨_, Or.inl ⟨rfl, rfl⟩, rfl⟩
            · exact ⟨i, Or.inr h1, h2⟩
          · rintro ⟨i, ⟨rfl, rfl⟩ | h1, h2⟩
            · exact Or.inl rfl
            · exact Or.inr ⟨i, h1, h2⟩
    · exact ⟨hs, hc, hlen, ha, hi⟩
  | remove n =>
    rw [next_remove]
    cases hf : OrdMap.find n w.mgr.items with
    | none => exact ⟨hs, hc, hlen, ha, hi⟩
    | some it =>
      obtain ⟨a, act⟩ := it
      have hmem : ∀ m i, (m, i) ∈ OrdMap.erase n w.mgr.items ↔ (m, i) ∈ w.mgr.items ∧ m ≠ n := by
        intro m i; simp [OrdMap.erase]
      have hn : ∀ i, (n, i) ∈ w.mgr.items → i = ⟨a, act⟩ := by
        intro i h
        have := OrdMap.find_of_mem hs h
        rw [hf] at this; injection this with this; exact this.symm
      cases act with
      | true =>
        refine ⟨OrdMap.sorted_erase n _ hs, ?_, ?_, ?_, ?_⟩
        · have := counts_down hc a (l' := OrdMap.erase n w.mgr.items)
            (fun q f => total_down q f _ hs n _ hf)
          exact ⟨this.1, this.2, this.3, this.4⟩
        · exact ⟨resizeVec_length _ _, resizeVec_length _ _⟩
        · intro m
          simp only [if_true, Finset.mem_erase, ha, hmem]
          constructor
          · rintro ⟨h0, i, h1, h2⟩; exact ⟨i, ⟨h1, h0⟩, h2⟩
          · rintro ⟨i, ⟨h1, h0⟩, h2⟩; exact ⟨h0, i, h1, h2⟩
        · intro m
          simp only [if_true, hmem]
          show m ∈ w.mgr.inactive ↔ _
          rw [hi]
          constructor
          · rintro ⟨i, h1, h2⟩
            refine ⟨i, ⟨h1, ?_⟩, h2⟩
            rintro rfl
            rw [hn i h1] at h2; simp at h2
          · rintro ⟨i, ⟨h1, _⟩, h2⟩; exact ⟨i, h1, h2⟩
      | false =>
        refine ⟨OrdMap.sorted_erase n _ hs, ?_, hlen, ?_, ?_⟩
        · have := counts_same' hc a (l' := OrdMap.erase n w.mgr.items)
            (fun q f => total_down q f _ hs n _ hf)
          exact ⟨this.1, this.2, this.3, this.4⟩
        · intro m
          simp only [Bool.false_eq_true, if_false, hmem, ha]
          constructor
          · rintro ⟨i, h1, h2⟩
            refine ⟨i, ⟨h1, ?_⟩, h2⟩
            rintro rfl
            rw [hn i h1] at h2; simp at h2
          · rintro ⟨i, ⟨h1, _⟩, h2⟩; exact ⟨i, h1, h2⟩
        · intro m
          simp only [Bool.false_eq_true, if_false, Finset.mem_erase, hi, hmem]
          constructor
          · rintro ⟨h0, i, h1, h2⟩; exact ⟨i, ⟨h1, h0⟩, h2⟩
          · rintro ⟨i, ⟨h1, h0⟩, h2⟩; exact ⟨h0, i, h1, h2⟩
  | status n act =>
    rw [next_status]
    cases hf : OrdMap.find n w.mgr.items with
    | none => exact ⟨hs, hc, hlen, ha, hi⟩
    | some it =>
      obtain ⟨a, act0⟩ := it
      simp only
      by_cases hia : act0 = act
      · rw [if_pos hia]; exact ⟨hs, hc, hlen, ha, hi⟩
      · rw [if_neg hia]
        have hs' := OrdMap.sorted_adjust n (fun i : Item => { i with active := act }) _ hs
        have hkey : ∀ (m : N) (b : Bool), (∃ i, (m, i) ∈
            OrdMap.adjust n (fun i => { i with active := act }) w.mgr.items ∧ i.active = b) ↔
            if m = n then act = b else ∃ i, (m, i) ∈ w.mgr.items ∧ i.active = b := by
          intro m b
          simp only [← OrdMap.find_iff_mem hs', ← OrdMap.find_iff_mem hs, OrdMap.find_adjust]
          by_cases hmn : m = n
          · subst hmn; simp [hf]
          · simp [hmn]
        have hrest : CountsOk w.heap (OrdMap.erase n w.mgr.items)
            (if act0 then w.mgr.countDown (w.heap a) else w.mgr) := by
          cases act0
          · exact counts_same' hc a (fun q f => total_down q f _ hs n _ hf)
          · exact counts_down hc a (fun q f => total_down q f _ hs n _ hf)
        cases act with
        | true =>
          have h0 : act0 = false := by simpa using hia
          subst h0
          refine ⟨hs', ?_, ⟨resizeVec_length _ _, resizeVec_length _ _⟩, ?_, ?_⟩
          · have := counts_up hrest a (fun q f =>
              total_adjust q f _ hs n _ (fun i : Item => { i with active := true }) hf)
            exact ⟨this.1, this.2, this.3, this.4⟩
          · intro m
            simp only [if_true]
            rw [hkey m true, Finset.mem_insert, ha]
            by_cases hmn : m = n <;> simp [hmn]
          · intro m
            simp only [if_true]
            rw [hkey m false, Finset.mem_erase, hi]
            by_cases hmn : m = n <;> simp [hmn]
        | false =>
          have h0 : act0 = true := by simpa using hia
          subst h0
          refine ⟨hs', ?_, ⟨resizeVec_length _ _, resizeVec_length _ _⟩, ?_, ?_⟩
          · have := counts_same hrest a (fun q f =>
              total_adjust q f _ hs n _ (fun i : Item => { i with active := false }) hf)
            exact ⟨this.1, this.2, this.3, this.4⟩
          · intro m
            simp only [Bool.false_eq_true, if_false]
            rw [hkey m true, Finset.mem_erase, ha]
            by_cases hmn : m = n <;> simp [hmn]
          · intro m
            simp only [Bool.false_eq_true, if_false]
            rw [hkey m false, Finset.mem_insert, hi]
            by_cases hmn : m = n <;> simp [hmn]
  | updateBounds a l u =>
    obtain ⟨h1, h2⟩ := next_onCon (nu := nu) (maxv := maxv) w (.updateBounds a l u) a
      (Or.inl ⟨l, u, rfl⟩)
    rw [h1]
    exact ⟨hs, counts_heap hs hc hop h2, hlen, ha, hi⟩
  | removeBounds a =>
    obtain ⟨h1, h2⟩ := next_onCon (nu := nu) (maxv := maxv) w (.removeBounds a) a (Or.inr rfl)
    rw [h1]
    exact ⟨hs, counts_heap hs hc hop h2, hlen, ha, hi⟩
where
  counts_heap {w : World N K} {heap' : Nat → Con K} {a : Nat} (_ : OrdMap.Sorted w.mgr.items)
      (hc : CountsOk w.heap w.mgr.items w.mgr) (hop : ¬ HeldActive w a)
      (h : ∀ b, b ≠ a → heap' b = w.heap b) : CountsOk heap' w.mgr.items w.mgr := by
    have hact : ∀ kv ∈ w.mgr.items, kv.2.active = true → heap' kv.2.con = w.heap kv.2.con := by
      intro kv hkv hk
      exact h _ fun hcon => hop ⟨kv.1, kv.2, hkv, hk, hcon⟩
    have hfil : (w.mgr.items.filter fun kv => kv.2.active && (heap' kv.2.con).tcon) =
        (w.mgr.items.filter fun kv => kv.2.active && (w.heap kv.2.con).tcon) := by
      apply List.filter_congr
      intro kv hkv
      cases hk : kv.2.active
      · simp
      · simp [hact kv hkv hk]
    obtain ⟨h1, h2, h3, h4⟩ := hc
    constructor
    · rw [h1]; simp only [OrdMap.total]; congr 2; apply List.map_congr_left
      intro kv hkv
      rw [List.mem_filter] at hkv
      rw [hact kv hkv.1 hkv.2]
    · rw [h2]; simp only [OrdMap.total]; congr 2; apply List.map_congr_left
      intro kv hkv
      rw [List.mem_filter] at hkv
      rw [hact kv hkv.1 hkv.2]
    · rw [h3]; simp only [OrdMap.total]; rw [hfil]; congr 2; apply List.map_congr_left
      intro kv hkv
      rw [List.mem_filter, Bool.and_eq_true] at hkv
      rw [hact kv hkv.1 hkv.2.1]
    · rw [h4]; simp only [OrdMap.total]; rw [hfil]; congr 2; apply List.map_congr_left
      intro kv hkv
      rw [List.mem_filter, Bool.and_eq_true] at hkv
      rw [hact kv hkv.1 hkv.2.1]

omit [Sub K] [Zero K] [LE K] [DecidableLE K] [DecidableEq K] in
theorem consistent_empty (heap : Nat → Con K) : Consistent (⟨heap, Mgr.empty⟩ : World N K) := by
  refine ⟨List.Pairwise.nil, rfl, rfl, rfl, rfl, rfl, rfl, ?_, ?_⟩ <;> simp [Mgr.empty]

theorem consistent_run (ops : List (Op N K)) : ∀ (w : World N K), Consistent w →
    Along nu maxv (fun w op => op.safe w) ops w → Consistent (runOps nu maxv ops w) := by
  induction ops with
  | nil => intro w h _; exact h
  | cons op ops ih =>
    intro w h hal
    exact ih _ (consistent_step w h op hal.1) hal.2

/-! ### C12 -/

/-- C12. After any sequence of `addConstraint`, `removeConstraint`, `changeConstraintStatus` calls on
a fresh manager, with any constraint objects (any dimensions), `get_ng`, `get_nh` are the sums over
the active constraints, `get_ng_T`, `get_nh_T` the sums over the active terminal ones (all as
`size_t`), the bound vectors have size `get_ng()` and the two name sets are exact. -/
theorem C12_history (heap : Nat → Con K) (ops : List (Op N K)) (hops : ∀ op ∈ ops, op.onManager) :
    Consistent (runOps nu maxv ops ⟨heap, Mgr.empty⟩) := by
  refine consistent_run ops _ (consistent_empty heap) ?_
  generalize (⟨heap, Mgr.empty⟩ : World N K) = w
  induction ops generalizing w with
  | nil => trivial
  | cons op ops ih =>
    refine ⟨?_, ih (fun o ho => hops o (List.mem_cons_of_mem _ ho)) _⟩
    have := hops op (by simp)
    cases op <;> simp_all [Op.safe, Op.onManager]

/-- C12: the effect of each manager call on the items, read through the map, and on nothing else:
`addConstraint` adds the item if the control dimension matches and the name is new, otherwise leaves
everything as it is; `removeConstraint` removes exactly the name; `changeConstraintStatus` changes the
status of exactly that item. No manager call modifies a constraint object. -/
theorem C12_effect (w : World N K) (hw : Consistent w) :
    (∀ n a act j, OrdMap.find j ((Op.add n a act).next nu maxv w).mgr.items =
      if j = n ∧ (w.heap a).nu = nu ∧ OrdMap.find n w.mgr.items = none then some ⟨a, act⟩
      else OrdMap.find j w.mgr.items) ∧
    (∀ n j, OrdMap.find j ((Op.remove n).next nu maxv w).mgr.items =
      if j = n then none else OrdMap.find j w.mgr.items) ∧
    (∀ n act j, OrdMap.find j ((Op.status n act).next nu maxv w).mgr.items =
      if j = n then (OrdMap.find j w.mgr.items).map (fun it => { it with active := act })
      else OrdMap.find j w.mgr.items) ∧
    (∀ op : Op N K, op.onManager → (op.next nu maxv w).heap = w.heap) := by
  have hs : OrdMap.Sorted w.mgr.items := hw.keys
  refine ⟨?_, ?_, ?_, ?_⟩
  · intro n a act j
    rw [next_add w hs]
    by_cases h : (w.heap a).nu = nu ∧ OrdMap.find n w.mgr.items = none
    · rw [if_pos h]
      have : ∀ m : Mgr N K, m.items = (OrdMap.insert n ⟨a, act⟩ w.mgr.items).1 →
          OrdMap.find j m.items = if j = n then some ⟨a, act⟩ else OrdMap.find j w.mgr.items := by
        intro m hm; rw [hm, OrdMap.find_insert n _ _ hs h.2]
      simp only
      rw [this _ (by cases act <;> rfl)]
      by_cases hj : j = n <;> simp [hj, h]
    · rw [if_neg h, if_neg (fun h' => h h'.2)]
  · intro n j
    rw [next_remove]
    cases hf : OrdMap.find n w.mgr.items with
    | none => by_cases hj : j = n <;> simp [hj, hf]
    | some it =>
      have : ∀ m : Mgr N K, m.items = OrdMap.erase n w.mgr.items → OrdMap.find j m.items =
          if j = n then none else OrdMap.find j w.mgr.items := by
        intro m hm; rw [hm, OrdMap.find_erase]
      apply this
      cases hia : it.active <;> simp [hia]
  · intro n act j
    rw [next_status]
    cases hf : OrdMap.find n w.mgr.items with
    | none => by_cases hj : j = n <;> simp [hj, hf]
    | some it =>
      simp only
      by_cases hia : it.active = act
      · rw [if_pos hia]
        by_cases hj : j = n
        · subst hj; simp [hf, ← hia]
        · simp [hj]
      · rw [if_neg hia]
        have : ∀ m : Mgr N K, m.items = OrdMap.adjust n (fun i => { i with active := act }) w.mgr.items →
            OrdMap.find j m.items =
            if j = n then (OrdMap.find j w.mgr.items).map (fun it => { it with active := act })
            else OrdMap.find j w.mgr.items := by
          intro m hm; rw [hm, OrdMap.find_adjust]
        apply this
        cases act <;> simp
  · intro op hop
    cases op with
    | add n a act => rw [next_add w hs]; split <;> rfl
    | remove n => rw [next_remove]; cases OrdMap.find n w.mgr.items <;> rfl
    | status n act =>
      rw [next_status]
      cases OrdMap.find n w.mgr.items with
      | none => rfl
      | some it => simp only; split <;> rfl
    | updateBounds => exact hop.elim
    | removeBounds => exact hop.elim

/-- C12: only `addConstraint` throws, exactly for a mismatching control dimension, and then nothing
has changed. -/
theorem C12_throws_iff (w : World N K) (op : Op N K) (hop : op.onManager) :
    (∀ w', op.run nu maxv w = .throw w' → w' = w) ∧
    ((∃ w', op.run nu maxv w = .throw w') ↔
      ∃ n a act, op = .add n a act ∧ (w.heap a).nu ≠ nu) := by
  cases op with
  | add n a act =>
    by_cases h : (w.heap a).nu = nu
    · have hno : ∀ w', (Op.add n a act : Op N K).run nu maxv w ≠ .throw w' := by
        intro w'
        simp only [Op.run, addConstraint, Cpp.bind_apply, Cpp.throwIf_apply, h, bne_self_eq_false,
          Bool.false_eq_true, if_false, Cpp.get_apply]
        split
        · simp
        · split <;> simp
      refine ⟨fun w' hw' => absurd hw' (hno w'), ⟨fun ⟨w', hw'⟩ => absurd hw' (hno w'), ?_⟩⟩
      rintro ⟨_, _, _, heq, hne⟩
      injection heq with _ h2; subst h2; exact absurd h hne
    · have hb : ((w.heap a).nu != nu) = true := by simpa using h
      have hr : (Op.add n a act : Op N K).run nu maxv w = .throw w := by
        simp [Op.run, addConstraint, hb]
      refine ⟨fun w' hw' => ?_, ⟨fun _ => ⟨_, _, _, rfl, h⟩, fun _ => ⟨w, hr⟩⟩⟩
      rw [hr] at hw'; injection hw' with hw'; exact hw'.symm
  | remove n =>
    have hno : ∀ w', (Op.remove n : Op N K).run nu maxv w ≠ .throw w' := by
      intro w'
      simp only [Op.run, removeConstraint, Cpp.bind_apply, Cpp.get_apply]
      cases OrdMap.find n w.mgr.items with
      | none => simp
      | some it => simp only; split <;> simp
    refine ⟨fun w' hw' => absurd hw' (hno w'), ⟨fun ⟨w', hw'⟩ => absurd hw' (hno w'), ?_⟩⟩
    rintro ⟨_, _, _, heq, _⟩; cases heq
  | status n act =>
    have hno : ∀ w', (Op.status n act : Op N K).run nu maxv w ≠ .throw w' := by
      intro w'
      simp only [Op.run, changeConstraintStatus, Cpp.bind_apply, Cpp.get_apply]
      cases OrdMap.find n w.mgr.items with
      | none => simp
      | some it => simp only; split <;> [simp; (split <;> simp)]
    refine ⟨fun w' hw' => absurd hw' (hno w'), ⟨fun ⟨w', hw'⟩ => absurd hw' (hno w'), ?_⟩⟩
    rintro ⟨_, _, _, heq, _⟩; cases heq
  | updateBounds => exact hop.elim
  | removeBounds => exact hop.elim

/-! #### Concrete heap: constraint `a` has `a` inequalities and one equality; `nu = 2` except
constraint 9; odd addresses are terminal constraints. -/

def exHeap (a : Nat) : Con Int where
  nu := if a = 9 then 3 else 2
  ngInt := a
  nhInt := 1
  ng := a
  nh := 1
  lb := List.replicate a .ninf
  ub := List.replicate a .pinf
  tcon := a % 2 == 1
  type := if a = 0 then .equality else .both

/-- A concrete history: name clash, wrong dimension, status changes, removals. -/
example :
    let ops : List (Op Nat Int) := [.add 1 3 true, .add 0 2 false, .add 1 7 true, .add 4 9 true,
      .status 0 true, .add 5 5 true, .remove 1, .status 5 false, .add 7 1 true]
    (∀ op ∈ ops, op.onManager) ∧
    (runOps 2 1000 ops ⟨exHeap, Mgr.empty⟩).mgr.ng = 3 ∧
    (runOps 2 1000 ops ⟨exHeap, Mgr.empty⟩).mgr.nhT = 1 ∧
    (runOps 2 1000 ops ⟨exHeap, Mgr.empty⟩).mgr.items.map Prod.fst = [0, 5, 7] := by
  refine ⟨?_, by decide, by decide, by decide⟩
  simp [Op.onManager]

/-! ### C14 -/

/-- C14 (partial). Histories that mix manager calls with `update_bounds`/`remove_bounds` keep the
manager consistent *provided* the constraint whose bounds change is not active in the manager at that
moment. The full property has no such proviso and is false: see `C14_counterexample`. -/
theorem C14_inactive_partial (heap : Nat → Con K) (ops : List (Op N K))
    (hops : Along nu maxv (fun w op => op.safe w) ops ⟨heap, Mgr.empty⟩) :
    Consistent (runOps nu maxv ops ⟨heap, Mgr.empty⟩) :=
  consistent_run ops _ (consistent_empty heap) hops

/-- The supported way to switch an active constraint to an equality: deactivate, change, reactivate. -/
example : Along 2 1000 (fun w op => op.safe w)
    [.add 1 3 true, .add 0 2 true, .status 1 false, .removeBounds 3, .status 1 true]
    (⟨exHeap, Mgr.empty⟩ : World Nat Int) ∧
    (runOps 2 1000 [.add 1 3 true, .add 0 2 true, .status 1 false, .removeBounds 3, .status 1 true]
      (⟨exHeap, Mgr.empty⟩ : World Nat Int)).mgr.nh = 5 := by
  refine ⟨⟨trivial, trivial, trivial, ?_, trivial, trivial⟩, by decide⟩
  rintro ⟨n, it, h1, h2, h3⟩
  have : (n, it) = (0, ⟨2, true⟩) ∨ (n, it) = (1, ⟨3, false⟩) := by
    revert h1
    simp [Op.next, Op.run, addConstraint, changeConstraintStatus, OrdMap.insert, OrdMap.find,
      OrdMap.adjust, Mgr.empty, Mgr.countUp, Mgr.countDown, Mgr.resizeBounds, exHeap]
  rcases this with h | h <;> (injection h with _ h; subst h; simp_all)

/-- C14 fails: removing the bounds of an active constraint (3 inequalities, 1 equality) leaves the
manager reporting `ng = 3, nh = 1` where the constraint now has `ng = 0, nh = 4`; removing the
constraint then leaves an empty manager with `ng = 3` and `nh = 2⁶⁴ - 3`. -/
theorem C14_counterexample :
    let w := runOps 2 1000 [.add 1 3 true, .removeBounds 3] (⟨exHeap, Mgr.empty⟩ : World Nat Int)
    let w' := runOps 2 1000 [.add 1 3 true, .removeBounds 3, .remove 1]
      (⟨exHeap, Mgr.empty⟩ : World Nat Int)
    (w.mgr.ng = 3 ∧ activeSum Con.ng w = 0 ∧ w.mgr.nh = 1 ∧ activeSum Con.nh w = 4) ∧
    (w'.mgr.items.length = 0 ∧ w'.mgr.ng = 3 ∧ w'.mgr.nh.toNat = 2 ^ 64 - 3) := by
  refine ⟨⟨by decide, by decide, by decide, by decide⟩, by decide, by decide, by decide⟩

end manager

/-! ### C13 -/

section layout
variable {N K D : Type} [LinearOrder N]

theorem rows_active (w : World N K) (hw : Consistent w) (hng : activeSum Con.ng w < 2 ^ 64)
    (hnh : activeSum Con.nh w < 2 ^ 64) :
    rows w.heap (fun it => it.active) Con.ng w.mgr.items = w.mgr.ng.toNat ∧
    rows w.heap (fun it => it.active) Con.nh w.mgr.items = w.mgr.nh.toNat := by
  rw [hw.ng, hw.nh, UInt64.toNat_ofNat', UInt64.toNat_ofNat']
  exact ⟨(Nat.mod_eq_of_lt hng).symm, (Nat.mod_eq_of_lt hnh).symm⟩

theorem rows_mono (heap : Nat → Con K) (f : Con K → Nat) (ms : List (N × Item)) :
    rows heap (fun it => it.active && (heap it.con).tcon) f ms ≤
      rows heap (fun it => it.active) f ms := by
  induction ms with
  | nil => simp [rows]
  | cons m ms ih =>
    rw [rows_cons, rows_cons]
    cases m.2.active <;> cases (heap m.2.con).tcon <;> simp <;> omega

theorem rows_terminal (w : World N K) (hw : Consistent w) (hng : activeSum Con.ng w < 2 ^ 64)
    (hnh : activeSum Con.nh w < 2 ^ 64) :
    rows w.heap (fun it => it.active && (w.heap it.con).tcon) Con.ng w.mgr.items
      = w.mgr.ngT.toNat ∧
    rows w.heap (fun it => it.active && (w.heap it.con).tcon) Con.nh w.mgr.items
      = w.mgr.nhT.toNat := by
  have h1 := rows_mono w.heap Con.ng w.mgr.items
  have h2 := rows_mono w.heap Con.nh w.mgr.items
  rw [hw.ngT, hw.nhT, UInt64.toNat_ofNat', UInt64.toNat_ofNat']
  exact ⟨(Nat.mod_eq_of_lt (lt_of_le_of_lt h1 hng)).symm,
    (Nat.mod_eq_of_lt (lt_of_le_of_lt h2 hnh)).symm⟩

theorem stack_length {α : Type} (heap : Nat → Con K) (sel : Item → Bool) (f : Con K → D → D)
    (out : Con K → D → List α) (dim : Con K → Nat) (ms : List (N × Item)) : ∀ (ds : List (N × D)),
    ms.length = ds.length →
    (∀ p ∈ ms.zip ds, sel p.1.2 = true →
      (out (heap p.1.2.con) (f (heap p.1.2.con) p.2.2)).length = dim (heap p.1.2.con)) →
    (stack heap sel f out ms ds).length = rows heap sel dim ms := by
  induction ms with
  | nil => intro ds hl _; simp [stack, rows]
  | cons m ms ih =>
    intro ds hl h
    cases ds with
    | nil => simp at hl
    | cons d ds =>
      rw [stack_cons, rows_cons, List.length_append,
        ih ds (by simpa using hl) (fun p hp => h p (List.mem_cons_of_mem _ hp))]
      by_cases hsel : sel m.2 = true
      · have := h (m, d) (by simp) hsel
        simp only at this
        simp [hsel, this]
      · simp [hsel]

theorem len_items {w : World N K} {d : Data N K D} (h : DataFits w d) :
    w.mgr.items.length = d.items.length := by
  have := congrArg List.length h.names; simpa using this.symm

theorem boundsOk {w : World N K} (h : BoundsSized w) {ds : List (N × D)} :
    ∀ p ∈ w.mgr.items.zip ds, p.1.2.active = true →
      (w.heap p.1.2.con).lb.length = (w.heap p.1.2.con).ng ∧
      (w.heap p.1.2.con).ub.length = (w.heap p.1.2.con).ng := by
  rintro ⟨⟨n, it⟩, d⟩ hp ha
  exact h n it (List.of_mem_zip hp).1 ha

/-- C13 (`calc(data, x, u)`). In a consistent manager, with a data that fits it and arguments of the
right size, `calc` runs without undefined behaviour, evaluates exactly the active constraints, and
`g`, `h`, `lb`, `ub` become the concatenations, in name order, of the active constraints' own vectors:
the blocks are disjoint, contiguous and cover all rows, and the bounds in a row belong to the
constraint whose residual is in that row. -/
theorem C13_calc (e : Env K D) (he : Sized e) {nx nu : Nat} (w : World N K) (d : Data N K D)
    (hw : Consistent w) (hng : activeSum Con.ng w < 2 ^ 64) (hnh : activeSum Con.nh w < 2 ^ 64)
    (hb : BoundsSized w) (hd : DataFits w d) (x u : List K) (hx : x.length = nx)
    (hu : u.length = nu) :
    ∃ m' d', calcXU e nx nu w d x u = .ok m' d' ∧
      let st := fun {α} (out : Con K → D → List α) =>
        stack w.heap (fun it => it.active) (fun c d => e.calcXU c x u d) out w.mgr.items d.items
      d'.g = (st fun _ di => e.g di).map some ∧
      d'.h = (st fun _ di => e.h di).map some ∧
      m'.lb = (st fun c _ => c.lb).map some ∧
      m'.ub = (st fun c _ => c.ub).map some ∧
      d'.items = evaluated w.heap (fun it => it.active) (fun c d => e.calcXU c x u d)
        w.mgr.items d.items ∧
      d'.Gx = d.Gx ∧ d'.Gu = d.Gu ∧ d'.Hx = d.Hx ∧ d'.Hu = d.Hu ∧
      m'.items = w.mgr.items ∧ m'.ng = w.mgr.ng ∧ m'.nh = w.mgr.nh := by
  have hlen := len_items hd
  obtain ⟨r1, r2⟩ := rows_active w hw hng hnh
  have hsz : ∀ p ∈ w.mgr.items.zip d.items, p.1.2.active = true →
      (e.g (e.calcXU (w.heap p.1.2.con) x u p.2.2)).length = (w.heap p.1.2.con).ng ∧
      (e.h (e.calcXU (w.heap p.1.2.con) x u p.2.2)).length = (w.heap p.1.2.con).nh ∧
      (w.heap p.1.2.con).lb.length = (w.heap p.1.2.con).ng ∧
      (w.heap p.1.2.con).ub.length = (w.heap p.1.2.con).ng :=
    fun p hp ha => ⟨(he.calcXU _ _ _ _).1, (he.calcXU _ _ _ _).2, boundsOk hb p hp ha⟩
  have hspec := calcLoop_spec e w.heap (fun it => it.active) (fun c d => e.calcXU c x u d) w.mgr.items
    d.items 0 0 ⟨d.g, d.h, w.mgr.lb, w.mgr.ub⟩ hlen hsz
    (by simp only [r1, hd.g]; omega) (by simp only [r2, hd.h]; omega)
    (by simp only [r1, hw.lbSize]; omega) (by simp only [r1, hw.ubSize]; omega)
  have l1 := stack_length w.heap (fun it => it.active) (fun c d => e.calcXU c x u d) (fun _ d => e.g d)
    Con.ng w.mgr.items d.items hlen (fun p hp ha => (hsz p hp ha).1)
  have l2 := stack_length w.heap (fun it => it.active) (fun c d => e.calcXU c x u d) (fun _ d => e.h d)
    Con.nh w.mgr.items d.items hlen (fun p hp ha => (hsz p hp ha).2.1)
  have l3 := stack_length w.heap (fun it => it.active) (fun c d => e.calcXU c x u d) (fun c _ => c.lb)
    Con.ng w.mgr.items d.items hlen (fun p hp ha => (hsz p hp ha).2.2.1)
  have l4 := stack_length w.heap (fun it => it.active) (fun c d => e.calcXU c x u d) (fun c _ => c.ub)
    Con.ng w.mgr.items d.items hlen (fun p hp ha => (hsz p hp ha).2.2.2)
  rw [overlay_full (by rw [l1, r1, hd.g]), overlay_full (by rw [l2, r2, hd.h]),
    overlay_full (by rw [l3, r1, hw.lbSize]), overlay_full (by rw [l4, r1, hw.ubSize])] at hspec
  simp only [calcXU, hx, hu, ← hlen, ne_eq, not_true_eq_false, if_false, hspec]
  exact ⟨_, _, rfl, rfl, rfl, rfl, rfl, rfl, rfl, rfl, rfl, rfl, rfl, rfl, rfl⟩

/-- C13 (`calcDiff(data, x, u)`): the rows of the four Jacobians are stacked with the same layout. -/
theorem C13_calcDiff (e : Env K D) (he : Sized e) {nx nu : Nat} (w : World N K) (d : Data N K D)
    (hw : Consistent w) (hng : activeSum Con.ng w < 2 ^ 64) (hnh : activeSum Con.nh w < 2 ^ 64)
    (hd : DataFits w d) (x u : List K) (hx : x.length = nx) (hu : u.length = nu) :
    ∃ m' d', diffXU e nx nu w d x u = .ok m' d' ∧
      let st := fun {α} (out : D → List α) =>
        stack w.heap (fun it => it.active) (fun c d => e.diffXU c x u d) (fun _ => out)
          w.mgr.items d.items
      d'.Gx = (st e.Gx).map some ∧ d'.Gu = (st e.Gu).map some ∧
      d'.Hx = (st e.Hx).map some ∧ d'.Hu = (st e.Hu).map some ∧
      d'.items = evaluated w.heap (fun it => it.active) (fun c d => e.diffXU c x u d)
        w.mgr.items d.items ∧
      d'.g = d.g ∧ d'.h = d.h ∧ m' = w.mgr := by
  have hlen := len_items hd
  obtain ⟨r1, r2⟩ := rows_active w hw hng hnh
  have hz : ∀ c di, (e.Gx (e.diffXU c x u di)).length = c.ng ∧
      (e.Hx (e.diffXU c x u di)).length = c.nh ∧ (e.Gu (e.diffXU c x u di)).length = c.ng ∧
      (e.Hu (e.diffXU c x u di)).length = c.nh := fun c di => he.diffXU c x u di
  have hspec := diffLoop_spec e w.heap (fun it => it.active) (fun c d => e.diffXU c x u d) false
    w.mgr.items d.items 0 0 ⟨d.Gx, d.Gu, d.Hx, d.Hu⟩ hlen
    (fun p _ _ => ⟨(hz _ _).1, (hz _ _).2.1, fun _ => (hz _ _).2.2⟩)
    (by simp only [r1, hd.Gx]; omega) (by simp only [r2, hd.Hx]; omega)
    (fun _ => ⟨by simp only [r1, hd.Gu]; omega, by simp only [r2, hd.Hu]; omega⟩)
  have l1 := stack_length w.heap (fun it => it.active) (fun c d => e.diffXU c x u d)
    (fun _ d => e.Gx d) Con.ng w.mgr.items d.items hlen (fun p _ _ => (hz _ _).1)
  have l2 := stack_length w.heap (fun it => it.active) (fun c d => e.diffXU c x u d)
    (fun _ d => e.Hx d) Con.nh w.mgr.items d.items hlen (fun p _ _ => (hz _ _).2.1)
  have l3 := stack_length w.heap (fun it => it.active) (fun c d => e.diffXU c x u d)
    (fun _ d => e.Gu d) Con.ng w.mgr.items d.items hlen (fun p _ _ => (hz _ _).2.2.1)
  have l4 := stack_length w.heap (fun it => it.active) (fun c d => e.diffXU c x u d)
    (fun _ d => e.Hu d) Con.nh w.mgr.items d.items hlen (fun p _ _ => (hz _ _).2.2.2)
  simp only [Bool.false_eq_true, if_false] at hspec
  rw [overlay_full (by rw [l1, r1, hd.Gx]), overlay_full (by rw [l3, r1, hd.Gu]),
    overlay_full (by rw [l2, r2, hd.Hx]), overlay_full (by rw [l4, r2, hd.Hu])] at hspec
  simp only [diffXU, hx, hu, ← hlen, ne_eq, not_true_eq_false, if_false, hspec]
  exact ⟨_, _, rfl, rfl, rfl, rfl, rfl, rfl, rfl, rfl, rfl⟩

/-- C13 (`calc(data, x)`): the active terminal constraints occupy rows `0..ng_T`, `0..nh_T` in name
order, and the entries behind keep their previous content (also in the manager's bound vectors). -/
theorem C13_calc_terminal (e : Env K D) (he : Sized e) {nx : Nat} (w : World N K) (d : Data N K D)
    (hw : Consistent w) (hng : activeSum Con.ng w < 2 ^ 64) (hnh : activeSum Con.nh w < 2 ^ 64)
    (hb : BoundsSized w) (hlen : w.mgr.items.length = d.items.length)
    (hdg : w.mgr.ngT.toNat ≤ d.g.length) (hdh : w.mgr.nhT.toNat ≤ d.h.length) (x : List K)
    (hx : x.length = nx) :
    ∃ m' d', calcX e nx w d x = .ok m' d' ∧
      let st := fun {α} (out : Con K → D → List α) =>
        stack w.heap (fun it => it.active && (w.heap it.con).tcon) (fun c d => e.calcX c x d) out
          w.mgr.items d.items
      d'.g = (st fun _ di => e.g di).map some ++ d.g.drop w.mgr.ngT.toNat ∧
      d'.h = (st fun _ di => e.h di).map some ++ d.h.drop w.mgr.nhT.toNat ∧
      m'.lb = (st fun c _ => c.lb).map some ++ w.mgr.lb.drop w.mgr.ngT.toNat ∧
      m'.ub = (st fun c _ => c.ub).map some ++ w.mgr.ub.drop w.mgr.ngT.toNat ∧
      (st fun _ di => e.g di).length = w.mgr.ngT.toNat ∧
      (st fun _ di => e.h di).length = w.mgr.nhT.toNat ∧
      d'.items = evaluated w.heap (fun it => it.active && (w.heap it.con).tcon)
        (fun c d => e.calcX c x d) w.mgr.items d.items := by
  obtain ⟨r1, r2⟩ := rows_terminal w hw hng hnh
  obtain ⟨q1, q2⟩ := rows_active w hw hng hnh
  have hmono := rows_mono w.heap Con.ng w.mgr.items
  set sel : Item → Bool := fun it => it.active && (w.heap it.con).tcon with hsel
  have hsz : ∀ p ∈ w.mgr.items.zip d.items, sel p.1.2 = true →
      (e.g (e.calcX (w.heap p.1.2.con) x p.2.2)).length = (w.heap p.1.2.con).ng ∧
      (e.h (e.calcX (w.heap p.1.2.con) x p.2.2)).length = (w.heap p.1.2.con).nh ∧
      (w.heap p.1.2.con).lb.length = (w.heap p.1.2.con).ng ∧
      (w.heap p.1.2.con).ub.length = (w.heap p.1.2.con).ng := by
    intro p hp ha
    have : p.1.2.active = true := by
      simp only [hsel, Bool.and_eq_true] at ha; exact ha.1
    exact ⟨(he.calcX _ _ _).1, (he.calcX _ _ _).2, boundsOk hb p hp this⟩
  have hspec := calcLoop_spec e w.heap sel (fun c d => e.calcX c x d) w.mgr.items
    d.items 0 0 ⟨d.g, d.h, w.mgr.lb, w.mgr.ub⟩ hlen hsz
    (by simp only [r1]; omega) (by simp only [r2]; omega)
    (by simp only [hw.lbSize]; omega) (by simp only [hw.ubSize]; omega)
  have l1 := stack_length w.heap sel (fun c d => e.calcX c x d) (fun _ d => e.g d)
    Con.ng w.mgr.items d.items hlen (fun p hp ha => (hsz p hp ha).1)
  have l2 := stack_length w.heap sel (fun c d => e.calcX c x d) (fun _ d => e.h d)
    Con.nh w.mgr.items d.items hlen (fun p hp ha => (hsz p hp ha).2.1)
  have l3 := stack_length w.heap sel (fun c d => e.calcX c x d) (fun c _ => c.lb)
    Con.ng w.mgr.items d.items hlen (fun p hp ha => (hsz p hp ha).2.2.1)
  have l4 := stack_length w.heap sel (fun c d => e.calcX c x d) (fun c _ => c.ub)
    Con.ng w.mgr.items d.items hlen (fun p hp ha => (hsz p hp ha).2.2.2)
  simp only [overlay_prefix, l1, l2, l3, l4, r1, r2] at hspec
  simp only [calcX, hx, ← hlen, ne_eq, not_true_eq_false, if_false]
  rw [hspec]
  exact ⟨_, _, rfl, rfl, rfl, rfl, rfl, by rw [l1, r1], by rw [l2, r2], rfl⟩

/-- C13 (`calcDiff(data, x)`): same rows as `calc(data, x)` for the state Jacobians; the control
Jacobians are not touched. -/
theorem C13_calcDiff_terminal (e : Env K D) (he : Sized e) {nx : Nat} (w : World N K)
    (d : Data N K D) (hw : Consistent w) (hng : activeSum Con.ng w < 2 ^ 64)
    (hnh : activeSum Con.nh w < 2 ^ 64) (hlen : w.mgr.items.length = d.items.length)
    (hdg : w.mgr.ngT.toNat ≤ d.Gx.length) (hdh : w.mgr.nhT.toNat ≤ d.Hx.length) (x : List K)
    (hx : x.length = nx) :
    ∃ m' d', diffX e nx w d x = .ok m' d' ∧
      let st := fun {α} (out : D → List α) =>
        stack w.heap (fun it => it.active && (w.heap it.con).tcon) (fun c d => e.diffX c x d)
          (fun _ => out) w.mgr.items d.items
      d'.Gx = (st e.Gx).map some ++ d.Gx.drop w.mgr.ngT.toNat ∧
      d'.Hx = (st e.Hx).map some ++ d.Hx.drop w.mgr.nhT.toNat ∧
      (st e.Gx).length = w.mgr.ngT.toNat ∧ (st e.Hx).length = w.mgr.nhT.toNat ∧
      d'.Gu = d.Gu ∧ d'.Hu = d.Hu ∧ d'.g = d.g ∧ d'.h = d.h ∧ m' = w.mgr := by
  obtain ⟨r1, r2⟩ := rows_terminal w hw hng hnh
  set sel : Item → Bool := fun it => it.active && (w.heap it.con).tcon with hsel
  have hz : ∀ c di, (e.Gx (e.diffX c x di)).length = c.ng ∧
      (e.Hx (e.diffX c x di)).length = c.nh := fun c di => he.diffX c x di
  have hspec := diffLoop_spec e w.heap sel (fun c d => e.diffX c x d) true
    w.mgr.items d.items 0 0 ⟨d.Gx, d.Gu, d.Hx, d.Hu⟩ hlen
    (fun p _ _ => ⟨(hz _ _).1, (hz _ _).2, fun h => by cases h⟩)
    (by simp only [r1]; omega) (by simp only [r2]; omega) (fun h => by cases h)
  have l1 := stack_length w.heap sel (fun c d => e.diffX c x d) (fun _ d => e.Gx d)
    Con.ng w.mgr.items d.items hlen (fun p _ _ => (hz _ _).1)
  have l2 := stack_length w.heap sel (fun c d => e.diffX c x d) (fun _ d => e.Hx d)
    Con.nh w.mgr.items d.items hlen (fun p _ _ => (hz _ _).2)
  simp only [overlay_prefix, l1, l2, r1, r2, if_true] at hspec
  simp only [diffX, hx, ← hlen, ne_eq, not_true_eq_false, if_false]
  rw [hspec]
  exact ⟨_, _, rfl, rfl, rfl, by rw [l1, r1], by rw [l2, r2], rfl, rfl, rfl, rfl, rfl⟩

/-- A data created from the manager fits it. -/
theorem C13_createData_fits [Zero K] (e : Env K D) (ndx nu : Nat) (w : World N K) :
    DataFits w (createData e ndx nu w) := by
  constructor <;> simp [createData, Function.comp_def]

/-- C13: resizing a data that shares memory with an action data gives exactly the rows of the running
(resp. terminal) problem and keeps the rows that were there. -/
theorem C13_resize (w : World N K) (d : Data N K D) :
    let r := resizeData w true d
    let t := resizeData w false d
    (r.g.length = w.mgr.ng.toNat ∧ r.Gx.length = w.mgr.ng.toNat ∧ r.Gu.length = w.mgr.ng.toNat ∧
      r.h.length = w.mgr.nh.toNat ∧ r.Hx.length = w.mgr.nh.toNat ∧ r.Hu.length = w.mgr.nh.toNat) ∧
    (t.g.length = w.mgr.ngT.toNat ∧ t.Gx.length = w.mgr.ngT.toNat ∧ t.Gu.length = w.mgr.ngT.toNat ∧
      t.h.length = w.mgr.nhT.toNat ∧ t.Hx.length = w.mgr.nhT.toNat ∧
      t.Hu.length = w.mgr.nhT.toNat) ∧
    (∀ i, i < w.mgr.ng.toNat → i < d.g.length → r.g[i]? = d.g[i]?) ∧
    (∀ i, i < w.mgr.nh.toNat → i < d.h.length → r.h[i]? = d.h[i]?) ∧
    r.items = d.items ∧ t.items = d.items := by
  have hl : ∀ {α : Type} (n : Nat) (v : List (Option α)), (consResize n v).length = n := by
    intro α n v; simp only [consResize, List.length_append, List.length_take, List.length_replicate]
    omega
  have hg : ∀ {α : Type} (n : Nat) (v : List (Option α)) i, i < n → i < v.length →
      (consResize n v)[i]? = v[i]? := by
    intro α n v i h1 h2
    rw [consResize, List.getElem?_append_left (by simp; omega), List.getElem?_take_of_lt h1]
  refine ⟨?_, ?_, fun i h1 h2 => hg _ _ i h1 h2, fun i h1 h2 => hg _ _ i h1 h2, rfl, rfl⟩ <;>
    simp only [resizeData, hl, if_true, Bool.false_eq_true, if_false, and_self]

/-- C13: the four evaluations reject exactly the arguments of the wrong size and the datas with a
different number of items (`throw` carries no new state: nothing has been written). -/
theorem C13_rejects (e : Env K D) (nx nu : Nat) (w : World N K) (d : Data N K D) (x u : List K) :
    (calcXU e nx nu w d x u = .throw ↔
      x.length ≠ nx ∨ u.length ≠ nu ∨ d.items.length ≠ w.mgr.items.length) ∧
    (diffXU e nx nu w d x u = .throw ↔
      x.length ≠ nx ∨ u.length ≠ nu ∨ d.items.length ≠ w.mgr.items.length) ∧
    (calcX e nx w d x = .throw ↔ x.length ≠ nx ∨ d.items.length ≠ w.mgr.items.length) ∧
    (diffX e nx w d x = .throw ↔ x.length ≠ nx ∨ d.items.length ≠ w.mgr.items.length) := by
  by_cases h1 : x.length = nx <;> by_cases h2 : u.length = nu <;>
    by_cases h3 : d.items.length = w.mgr.items.length <;>
    simp only [calcXU, diffXU, calcX, diffX, h1, h2, h3, ne_eq, not_true_eq_false,
      not_false_eq_true, if_true, if_false, or_true, true_or, or_self, or_false, false_or, true_iff,
      true_and, and_true, iff_false, iff_true] <;>
    (try refine ⟨?_, ?_, ?_, ?_⟩) <;> (try refine ⟨?_, ?_⟩) <;> split <;> simp

/-- Where the block of one item is: behind the rows of the selected items with smaller names. -/
theorem C13_block {α : Type} (heap : Nat → Con K) (sel : Item → Bool) (f : Con K → D → D)
    (out : Con K → D → List α) (ms1 ms2 : List (N × Item)) (ds1 ds2 : List (N × D)) (m : N × Item)
    (d : N × D) (hlen : ms1.length = ds1.length) (hm : sel m.2 = true) (dim : Con K → Nat)
    (hdim : ∀ p ∈ (ms1 ++ m :: ms2).zip (ds1 ++ d :: ds2), sel p.1.2 = true →
      (out (heap p.1.2.con) (f (heap p.1.2.con) p.2.2)).length = dim (heap p.1.2.con)) :
    ((stack heap sel f out (ms1 ++ m :: ms2) (ds1 ++ d :: ds2)).drop
      ((ms1.filter fun kv => sel kv.2).map fun kv => dim (heap kv.2.con)).sum).take
        (dim (heap m.2.con)) = out (heap m.2.con) (f (heap m.2.con) d.2) := by
  have hsplit : stack heap sel f out (ms1 ++ m :: ms2) (ds1 ++ d :: ds2) =
      stack heap sel f out ms1 ds1 ++ stack heap sel f out (m :: ms2) (d :: ds2) := by
    simp only [stack, List.zip_append hlen, List.filter_append, List.flatMap_append]
  have hzip : (ms1 ++ m :: ms2).zip (ds1 ++ d :: ds2) = ms1.zip ds1 ++ (m, d) :: ms2.zip ds2 := by
    rw [List.zip_append hlen]; rfl
  have hl := stack_length heap sel f out dim ms1 ds1 hlen
    (fun p hp => hdim p (by rw [hzip]; exact List.mem_append_left _ hp))
  have hl' := hdim (m, d) (by rw [hzip]; simp) hm
  simp only at hl'
  rw [hsplit, stack_cons, hm, if_pos rfl]
  have hl2 : ((ms1.filter fun kv => sel kv.2).map fun kv => dim (heap kv.2.con)).sum =
      (stack heap sel f out ms1 ds1).length := hl.symm
  rw [hl2, List.drop_left, ← hl', List.take_left]

/-! Concrete case: three constraints (3, 2 and 1 inequalities, one equality each), the second
inactive. A data content is the constraint's address-sized values. -/

def exEnv : Env Int (List Int × List Int) where
  create c := (List.replicate c.ng 0, List.replicate c.nh 0)
  calcXU c x u _ := (List.replicate c.ng (x.headD 0 + c.ng), List.replicate c.nh (u.headD 0 + c.ng))
  calcX c x _ := (List.replicate c.ng (x.headD 0 + c.ng), List.replicate c.nh (7 + c.ng))
  diffXU c _ _ _ := (List.replicate c.ng 1, List.replicate c.nh 2)
  diffX c _ _ := (List.replicate c.ng 1, List.replicate c.nh 2)
  g d := d.1
  h d := d.2
  Gx d := d.1.map fun a => [a]
  Gu d := d.1.map fun a => [a]
  Hx d := d.2.map fun a => [a]
  Hu d := d.2.map fun a => [a]

theorem exEnv_sized : Sized exEnv := by
  constructor <;> simp [exEnv]

def exWorld : World Nat Int :=
  runOps 2 1000 [.add 5 1 true, .add 1 3 true, .add 2 2 false] ⟨exHeap, Mgr.empty⟩

theorem exWorld_consistent : Consistent exWorld :=
  C12_history (maxv := 1000) exHeap _ (by simp [Op.onManager])

/-- All hypotheses of `C13_calc` hold together. -/
example : activeSum Con.ng exWorld < 2 ^ 64 ∧ activeSum Con.nh exWorld < 2 ^ 64 ∧
    BoundsSized exWorld ∧ DataFits exWorld (createData exEnv 1 2 exWorld) := by
  refine ⟨by decide, by decide, ?_, C13_createData_fits _ _ _ _⟩
  intro n it h _
  have : exWorld.heap = exHeap := rfl
  rw [this]; simp [exHeap]

/-- The values on that case. -/
example : (match calcXU exEnv 1 2 exWorld (createData exEnv 1 2 exWorld) [10] [20, 0] with
    | .ok m d => some (d.g, d.h, m.lb.length) | _ => none) =
    some ([some 13, some 13, some 13, some 11], [some 23, some 21], 4) := by decide

end layout

/-! ### C15 -/

section bounds
variable {K : Type} [Field K] [LinearOrder K] [IsStrictOrderedRing K]

/-- Entries of stored bounds that never block a later `update_bounds`. -/
def StoredOk (maxv : K) (c : Con K) : Prop :=
  (∀ v ∈ c.lb, v.lowerOk maxv) ∧ (∀ v ∈ c.ub, v.upperOk)

omit [IsStrictOrderedRing K] [LinearOrder K] in
theorem stored_any [DecidableEq K] {maxv : K} {c : Con K} (h : StoredOk maxv c) :
    (c.lb.any (fun v => v == .pinf) || c.lb.any (fun v => v == .fin maxv)) = false ∧
    (c.ub.any (fun v => v == .ninf) || c.ub.any (fun v => v == .ninf)) = false := by
  obtain ⟨h1, h2⟩ := h
  constructor
  · simp only [Bool.or_eq_false_iff, List.any_eq_false, beq_iff_eq]
    constructor
    · intro v hv
      rcases h1 v hv with rfl | ⟨a, rfl, _⟩ <;> simp
    · intro v hv
      rcases h1 v hv with rfl | ⟨a, rfl, ha⟩ <;> simp_all
  · simp only [Bool.or_self, List.any_eq_false, beq_iff_eq]
    intro v hv
    rcases h2 v hv with rfl | ⟨a, rfl⟩ <;> simp

theorem subLeZero_iff {maxv : K} {l u : Flt K} (hl : l.lowerOk maxv) (hu : u.upperOk) :
    u.subLeZero l = false ↔ l.lt u := by
  rcases hl with rfl | ⟨a, rfl, _⟩ <;> rcases hu with rfl | ⟨b, rfl⟩ <;>
    simp [Flt.subLeZero, Flt.lt]

omit [IsStrictOrderedRing K] in
/-- C15: whenever `update_bounds` throws, the constraint is unchanged; it never has undefined
behaviour. -/
theorem C15_throw_unchanged (maxv : K) (lower upper : List (Flt K)) (c : Con K) :
    updateBounds maxv lower upper c = .throw c ∨
    ∃ c', updateBounds maxv lower upper c = .ok () c' ∧ c'.lb = lower ∧ c'.ub = upper ∧
      c'.ng = c.ngInt ∧ c'.nh = c.nhInt := by
  rw [updateBounds_eq]
  split
  · exact Or.inl rfl
  · exact Or.inr ⟨_, rfl, rfl, rfl, rfl, rfl⟩

/-- C15 (partial): if neither the stored bounds nor the arguments contain `+inf`/`max`/NaN as a lower
or `-inf`/NaN as an upper entry, `update_bounds` succeeds exactly on valid bounds. Missing for the full
property: arguments with such entries must be refused, and stored ones must not matter; both fail, see
the counterexamples. -/
theorem C15_accepts_iff_partial (maxv : K) (lower upper : List (Flt K)) (c : Con K)
    (hc : StoredOk maxv c) (hl : ∀ v ∈ lower, v.lowerOk maxv) (hu : ∀ v ∈ upper, v.upperOk) :
    (∃ c', updateBounds maxv lower upper c = .ok () c') ↔ ValidBounds maxv c.ngInt lower upper := by
  obtain ⟨s1, s2⟩ := stored_any hc
  have hz : ((upper.zip lower).any fun p => p.1.subLeZero p.2) = false ↔
      ∀ p ∈ lower.zip upper, p.1.lt p.2 := by
    rw [List.any_eq_false]
    constructor
    · rintro h ⟨l, u⟩ hp
      have hp' : (u, l) ∈ upper.zip lower := by
        rw [← List.zip_swap]; exact List.mem_map.mpr ⟨_, hp, rfl⟩
      obtain ⟨m1, m2⟩ := List.of_mem_zip hp
      exact (subLeZero_iff (hl l m1) (hu u m2)).mp (by simpa using h _ hp')
    · rintro h ⟨u, l⟩ hp
      have hp' : (l, u) ∈ lower.zip upper := by
        rw [← List.zip_swap]; exact List.mem_map.mpr ⟨_, hp, rfl⟩
      obtain ⟨m1, m2⟩ := List.of_mem_zip hp'
      simpa using (subLeZero_iff (hl l m1) (hu u m2)).mpr (h _ hp')
  rw [updateBounds_eq, s1, s2, Bool.or_false, Bool.or_false]
  constructor
  · rintro ⟨c', h⟩
    split at h
    · cases h
    · rename_i hn
      simp only [Bool.or_eq_true, not_or, bne_iff_ne, ne_eq, not_not, Bool.not_eq_true] at hn
      exact ⟨hn.1.2, hn.1.1, hl, hu, hz.mp hn.2⟩
  · intro h
    rw [if_neg]
    · exact ⟨_, rfl⟩
    · simp [h.sizeL, h.sizeU, hz.mpr h.lt]

/-- One call on a constraint object. -/
inductive BOp (K : Type) where
  | update (lower upper : List (Flt K))
  | remove

/-- State after one call, exceptions caught. -/
def BOp.next (maxv : K) : BOp K → Con K → Con K
  | .update l u, c => match updateBounds maxv l u c with
    | .ok _ c' => c'
    | .throw c' => c'
    | .ub => c
  | .remove, c => match removeBounds c with
    | .ok _ c' => c'
    | .throw c' => c'
    | .ub => c

/-- No illegal infinity or NaN is passed. -/
def BOp.clean (maxv : K) : BOp K → Prop
  | .update l u => (∀ v ∈ l, v.lowerOk maxv) ∧ (∀ v ∈ u, v.upperOk)
  | .remove => True

/-- C15 (partial, histories): on a freshly built constraint (bounds `-inf`, `+inf`), after any history
of `update_bounds`/`remove_bounds` calls whose arguments contain no illegal infinity or NaN, a further
such `update_bounds` succeeds exactly on valid bounds, and the stored bounds are always legal. -/
theorem C15_history_partial (maxv : K) (c0 : Con K) (h0 : c0.lb = List.replicate c0.ngInt .ninf)
    (h1 : c0.ub = List.replicate c0.ngInt .pinf) (hist : List (BOp K))
    (hh : ∀ o ∈ hist, o.clean maxv) (lower upper : List (Flt K))
    (hl : ∀ v ∈ lower, v.lowerOk maxv) (hu : ∀ v ∈ upper, v.upperOk) :
    let c := hist.foldl (fun c o => o.next maxv c) c0
    (c.lb.length = c0.ngInt ∧ c.ub.length = c0.ngInt ∧ StoredOk maxv c) ∧
    ((∃ c', updateBounds maxv lower upper c = .ok () c') ↔
      ValidBounds maxv c0.ngInt lower upper) := by
  have gen : ∀ (hist : List (BOp K)) (c : Con K), (∀ o ∈ hist, o.clean maxv) →
      (c.lb.length = c.ngInt ∧ c.ub.length = c.ngInt ∧ StoredOk maxv c) →
      (hist.foldl (fun c o => o.next maxv c) c).ngInt = c.ngInt ∧
      ((hist.foldl (fun c o => o.next maxv c) c).lb.length = c.ngInt ∧
       (hist.foldl (fun c o => o.next maxv c) c).ub.length = c.ngInt ∧
       StoredOk maxv (hist.foldl (fun c o => o.next maxv c) c)) := by
    intro hist
    induction hist with
    | nil => intro c _ h; exact ⟨rfl, h⟩
    | cons o hist ih =>
      intro c hcl h
      have hstep : (o.next maxv c).ngInt = c.ngInt ∧ ((o.next maxv c).lb.length = c.ngInt ∧
          (o.next maxv c).ub.length = c.ngInt ∧ StoredOk maxv (o.next maxv c)) := by
        cases o with
        | update l u =>
          obtain ⟨cl, cu⟩ := hcl _ (List.mem_cons_self ..)
          obtain ⟨s1, s2⟩ := stored_any h.2.2
          simp only [BOp.next, updateBounds_eq, s1, s2, Bool.or_false]
          by_cases hA : ((u.length != c.ngInt || l.length != c.ngInt) ||
              ((u.zip l).any fun p => p.1.subLeZero p.2)) = true
          · rw [if_pos hA]; exact ⟨rfl, h⟩
          · rw [if_neg hA]
            simp only [Bool.or_eq_true, not_or, bne_iff_ne, ne_eq, not_not, Bool.not_eq_true] at hA
            exact ⟨rfl, hA.1.2, hA.1.1, cl, cu⟩
        | remove =>
          simp only [BOp.next, removeBounds, Cpp.modify_apply, List.length_map]
          refine ⟨trivial, h.1, h.2.1, ?_, ?_⟩
          · intro v hv
            simp only [List.mem_map] at hv
            obtain ⟨_, _, rfl⟩ := hv
            exact Or.inl rfl
          · intro v hv
            simp only [List.mem_map] at hv
            obtain ⟨_, _, rfl⟩ := hv
            exact Or.inl rfl
      have := ih (o.next maxv c) (fun o ho => hcl o (List.mem_cons_of_mem _ ho))
        (by rw [hstep.1]; exact hstep.2)
      rw [hstep.1] at this
      exact this
  have hstart : c0.lb.length = c0.ngInt ∧ c0.ub.length = c0.ngInt ∧ StoredOk maxv c0 := by
    refine ⟨by simp [h0], by simp [h1], ?_, ?_⟩
    · intro v hv; rw [h0] at hv; exact Or.inl (List.eq_of_mem_replicate hv)
    · intro v hv; rw [h1] at hv; exact Or.inl (List.eq_of_mem_replicate hv)
  obtain ⟨g1, g2⟩ := gen hist c0 hh hstart
  refine ⟨g2, ?_⟩
  rw [C15_accepts_iff_partial maxv lower upper _ g2.2.2 hl hu, g1]

/-- The hypotheses are met by a real history: update, remove, update on a 2-row constraint. -/
example : let hist : List (BOp ℚ) := [.update [.ninf, .fin 1] [.fin 0, .pinf], .remove,
      .update [.fin 3, .fin 1] [.fin 2, .fin 5]]
    (∀ o ∈ hist, o.clean 1000) ∧ ValidBounds (1000 : ℚ) 2 [.fin 0, .ninf] [.fin 1, .fin 0] := by
  refine ⟨?_, ⟨rfl, rfl, ?_, ?_, ?_⟩⟩ <;> simp [BOp.clean, Flt.lowerOk, Flt.upperOk, Flt.lt]

/-- C15 fails: `lower = upper = +inf` (an empty interval and an illegal lower bound) is accepted;
afterwards the perfectly valid bounds `0 < 1` are refused, now and after any number of further
`update_bounds` calls. -/
theorem C15_counterexample :
    let c0 : Con Int := ⟨2, 1, 0, 1, 0, [.ninf], [.pinf], true, .inequality⟩
    let c1 : Con Int := { c0 with lb := [.pinf], ub := [.pinf] }
    updateBounds 1000 [.pinf] [.pinf] c0 = .ok () c1 ∧
    updateBounds 1000 [.fin 0] [.fin 1] c1 = .throw c1 ∧
    (∀ l u, updateBounds 1000 l u c1 = .throw c1) := by
  refine ⟨rfl, rfl, ?_⟩
  intro l u
  simp [updateBounds_eq]

/-- C15 fails: a NaN bound is accepted. -/
theorem C15_nan_counterexample :
    let c0 : Con Int := ⟨2, 1, 0, 1, 0, [.ninf], [.pinf], true, .inequality⟩
    updateBounds 1000 [.nan] [.fin 1] c0 = .ok () { c0 with lb := [.nan], ub := [.fin 1] } := rfl

end bounds
end Verif.Constraints
