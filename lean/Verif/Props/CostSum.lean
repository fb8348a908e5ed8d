import Verif.Lemmas.CostSum
import Mathlib.Algebra.Ring.Int.Defs

/-! # Properties C09, C10, C11 of the cost sum -/

namespace Verif.CostSum
open Verif
variable {N K M D : Type} [LinearOrder N] {nx ndx nu : Nat}

theorem activeDim_eq (e : Env K M D nx ndx nu) (s : Sum N K M) :
    activeDim e s = OrdMap.total (fun i : Item K M => i.active) (fun i => e.nrOf i.cost) s.costs :=
  rfl

theorem totalDim_eq (e : Env K M D nx ndx nu) (s : Sum N K M) :
    totalDim e s = OrdMap.total (fun _ : Item K M => true) (fun i => e.nrOf i.cost) s.costs := by
  simp [totalDim, OrdMap.total]

theorem u64_add_sub (a b : UInt64) : a + b - a = b := by
  rw [UInt64.add_comm, UInt64.add_sub_cancel]

/-! ### One step -/

theorem map_step (e : Env K M D nx ndx nu) (s : Sum N K M) (hm : MapOk s) (op : Op N K M) :
    MapOk (op.next e s) := by
  have hs : OrdMap.Sorted s.costs := hm
  have hins : ∀ n (it : Item K M), OrdMap.Sorted (OrdMap.insert n it s.costs).1 := by
    intro n it
    by_cases h : OrdMap.find n s.costs = none
    · exact ((OrdMap.insert_spec n it s.costs hs).1 h).2.1
    · rw [(OrdMap.insert_spec n it s.costs hs).2 h]; exact hs
  cases op with
  | addCost n c w a => rw [next_addCost e s hs]; split <;> [exact hins n _; exact hm]
  | addCostItem n it => rw [next_addCostItem]; split <;> [exact hins n _; exact hm]
  | removeCost n =>
    rw [next_removeCost]
    cases OrdMap.find n s.costs with
    | none => exact hm
    | some it => exact OrdMap.sorted_erase n s.costs hs
  | changeCostStatus n a =>
    rw [next_changeCostStatus]
    cases OrdMap.find n s.costs with
    | none => exact hm
    | some it =>
      simp only
      split
      · exact hm
      · exact OrdMap.sorted_adjust n (fun i => { i with active := a }) s.costs hs

theorem mem_insert_costs {s : Sum N K M} (hs : OrdMap.Sorted s.costs) {n : N} {it : Item K M}
    (hf : OrdMap.find n s.costs = none) (m : N) (i : Item K M) :
    (m, i) ∈ (OrdMap.insert n it s.costs).1 ↔ (m = n ∧ i = it) ∨ (m, i) ∈ s.costs := by
  rw [((OrdMap.insert_spec n it s.costs hs).1 hf).2.2.mem_iff]
  simp

theorem setsOk_insert {s : Sum N K M} (hs : OrdMap.Sorted s.costs) (h : SetsOk s) {n : N}
    {it : Item K M} (hf : OrdMap.find n s.costs = none) (nr' nrT' : UInt64) :
    SetsOk { costs := (OrdMap.insert n it s.costs).1, nr := nr', nrTotal := nrT'
             active := if it.active then insert n s.active else s.active
             inactive := if it.active then s.inactive else insert n s.inactive } := by
  have hno : ∀ i, (n, i) ∉ s.costs := fun i hi => OrdMap.find_none_iff.mp hf _ hi rfl
  intro m
  obtain ⟨h1, h2⟩ := h m
  simp only [mem_insert_costs hs hf]
  cases hia : it.active
  · simp only [Bool.false_eq_true, if_false, Finset.mem_insert, h1, h2]
    constructor
    · constructor
      · rintro ⟨i, hi, ha⟩; exact ⟨i, Or.inr hi, ha⟩
      · rintro ⟨i, ⟨rfl, rfl⟩ | hi, ha⟩
        · simp [hia] at ha
        · exact ⟨i, hi, ha⟩
    · constructor
      · rintro (rfl | ⟨i, hi, ha⟩)
        · exact ⟨it, Or.inl ⟨rfl, rfl⟩, hia⟩
        · exact ⟨i, Or.inr hi, ha⟩
      · rintro ⟨i, ⟨rfl, rfl⟩ | hi, ha⟩
        · exact Or.inl rfl
        · exact Or.inr ⟨i, hi, ha⟩
  · simp only [if_true, Finset.mem_insert, h1, h2]
    constructor
    · constructor
      · rintro (rfl | ⟨i, hi, ha⟩)
        · exact ⟨it, Or.inl ⟨rfl, rfl⟩, hia⟩
        · exact ⟨i, Or.inr hi, ha⟩
      · rintro ⟨i, ⟨rfl, rfl⟩ | hi, ha⟩
        · exact Or.inl rfl
        · exact Or.inr ⟨i, hi, ha⟩
    · constructor
      · rintro ⟨i, hi, ha⟩; exact ⟨i, Or.inr hi, ha⟩
      · rintro ⟨i, ⟨rfl, rfl⟩ | hi, ha⟩
        · simp [hia] at ha
        · exact ⟨i, hi, ha⟩

theorem find_none_of_noDup {s : Sum N K M} {n : N} {it : Item K M}
    (h : Op.noDup s (.addCostItem n it)) : OrdMap.find n s.costs = none := by
  rw [OrdMap.find_none_iff]
  rintro ⟨m, i⟩ hmi rfl
  exact h i hmi

theorem sets_step (e : Env K M D nx ndx nu) (s : Sum N K M) (hm : MapOk s) (h : SetsOk s)
    (op : Op N K M) (hop : op.noDup s) : SetsOk (op.next e s) := by
  have hs : OrdMap.Sorted s.costs := hm
  cases op with
  | addCost n c w a =>
    rw [next_addCost e s hs]
    split
    · rename_i hc
      exact setsOk_insert hs h (it := ⟨c, w, a⟩) hc.2 _ _
    · exact h
  | addCostItem n it =>
    rw [next_addCostItem]
    split
    · exact setsOk_insert hs h (find_none_of_noDup hop) _ _
    · exact h
  | removeCost n =>
    rw [next_removeCost]
    cases hf : OrdMap.find n s.costs with
    | none => exact h
    | some it =>
      intro m
      obtain ⟨h1, h2⟩ := h m
      simp only [Finset.mem_erase, h1, h2, OrdMap.erase, List.mem_filter, decide_eq_true_eq, ne_eq]
      constructor <;> constructor
      · rintro ⟨hne, i, hi, ha⟩; exact ⟨i, ⟨hi, hne⟩, ha⟩
      · rintro ⟨i, ⟨hi, hne⟩, ha⟩; exact ⟨hne, i, hi, ha⟩
      · rintro ⟨hne, i, hi, ha⟩; exact ⟨i, ⟨hi, hne⟩, ha⟩
      · rintro ⟨i, ⟨hi, hne⟩, ha⟩; exact ⟨hne, i, hi, ha⟩
  | changeCostStatus n a =>
    rw [next_changeCostStatus]
    cases hf : OrdMap.find n s.costs with
    | none => exact h
    | some it =>
      simp only
      by_cases hia : it.active = a
      · rw [if_pos hia]; exact h
      · rw [if_neg hia]
        intro m
        obtain ⟨h1, h2⟩ := h m
        have hkey : ∀ (b : Bool), (∃ i, (m, i) ∈
            OrdMap.adjust n (fun i => { i with active := a }) s.costs ∧ i.active = b) ↔
            if m = n then a = b else ∃ i, (m, i) ∈ s.costs ∧ i.active = b := by
          intro b
          have hs' := OrdMap.sorted_adjust n (fun i : Item K M => { i with active := a }) _ hs
          simp only [← OrdMap.find_iff_mem hs', ← OrdMap.find_iff_mem hs, OrdMap.find_adjust]
          by_cases hmn : m = n
          · subst hmn; simp [hf]
          · simp [hmn]
        rw [hkey true, hkey false]
        by_cases hmn : m = n
        · subst hmn
          cases a <;> simp
        · cases a <;> simp [hmn, h1, h2]

theorem totalDim_step (e : Env K M D nx ndx nu) (s : Sum N K M) (hm : MapOk s)
    (h : s.nrTotal = UInt64.ofNat (totalDim e s)) (op : Op N K M) (hop : op.noDup s) :
    (op.next e s).nrTotal = UInt64.ofNat (totalDim e (op.next e s)) := by
  have hs : OrdMap.Sorted s.costs := hm
  rw [totalDim_eq] at h ⊢
  cases op with
  | addCost n c w a =>
    rw [next_addCost e s hs]
    split
    · rename_i hc
      simp only
      rw [OrdMap.total_perm ((OrdMap.insert_spec n ⟨c, w, a⟩ s.costs hs).1 hc.2).2.2, h,
        OrdMap.total_cons, UInt64.ofNat_add, UInt64.add_comm]
      rfl
    · exact h
  | addCostItem n it =>
    rw [next_addCostItem]
    split
    · simp only
      rw [OrdMap.total_perm ((OrdMap.insert_spec n it s.costs hs).1 (find_none_of_noDup hop)).2.2, h,
        OrdMap.total_cons, UInt64.ofNat_add, UInt64.add_comm]
      rfl
    · exact h
  | removeCost n =>
    rw [next_removeCost]
    cases hf : OrdMap.find n s.costs with
    | none => exact h
    | some it =>
      simp only
      rw [h, OrdMap.total_perm (OrdMap.perm_erase hs hf), OrdMap.total_cons]
      simp [UInt64.ofNat_add, u64_add_sub]
  | changeCostStatus n a =>
    rw [next_changeCostStatus]
    cases hf : OrdMap.find n s.costs with
    | none => exact h
    | some it =>
      simp only
      split
      · exact h
      · simp only
        rw [h, OrdMap.total_perm (OrdMap.perm_erase hs hf),
          OrdMap.total_perm (OrdMap.adjust_erase_perm _ hs hf)]
        simp

theorem activeDim_step (e : Env K M D nx ndx nu) (s : Sum N K M) (hm : MapOk s)
    (h : s.nr = UInt64.ofNat (activeDim e s)) (op : Op N K M) (hop : op.noDup s)
    (hrem : op.noRemoveInactive s) :
    (op.next e s).nr = UInt64.ofNat (activeDim e (op.next e s)) := by
  have hs : OrdMap.Sorted s.costs := hm
  rw [activeDim_eq] at h ⊢
  cases op with
  | addCost n c w a =>
    rw [next_addCost e s hs]
    split
    · rename_i hc
      simp only
      rw [OrdMap.total_perm ((OrdMap.insert_spec n ⟨c, w, a⟩ s.costs hs).1 hc.2).2.2, h,
        OrdMap.total_cons]
      cases a <;> simp [UInt64.ofNat_add, UInt64.add_comm]
    · exact h
  | addCostItem n it =>
    rw [next_addCostItem]
    split
    · simp only
      rw [OrdMap.total_perm ((OrdMap.insert_spec n it s.costs hs).1 (find_none_of_noDup hop)).2.2, h,
        OrdMap.total_cons]
      cases it.active <;> simp [UInt64.ofNat_add, UInt64.add_comm]
    · exact h
  | removeCost n =>
    rw [next_removeCost]
    cases hf : OrdMap.find n s.costs with
    | none => exact h
    | some it =>
      have hact : it.active = true := hrem it (OrdMap.mem_of_find hf)
      simp only
      rw [h, OrdMap.total_perm (OrdMap.perm_erase hs hf), OrdMap.total_cons]
      simp [UInt64.ofNat_add, hact, u64_add_sub]
  | changeCostStatus n a =>
    rw [next_changeCostStatus]
    cases hf : OrdMap.find n s.costs with
    | none => exact h
    | some it =>
      simp only
      by_cases hia : it.active = a
      · rw [if_pos hia]; exact h
      · rw [if_neg hia]
        simp only
        rw [h, OrdMap.total_perm (OrdMap.perm_erase hs hf),
          OrdMap.total_perm (OrdMap.adjust_erase_perm _ hs hf)]
        simp only [OrdMap.total_cons]
        cases a <;> simp_all [UInt64.ofNat_add, u64_add_sub, UInt64.add_comm (UInt64.ofNat (OrdMap.total _ _ _))]

/-! ### C09 -/

/-- C09 (names and total dimension). For every history in which no item object is added under an
existing name, the map stays a map, the two name sets are exactly the names of the active and of the
inactive items, and `get_nr_total()` is the sum of all residual dimensions (as a `size_t`). -/
theorem C09_sets_total_partial (e : Env K M D nx ndx nu) (ops : List (Op N K M))
    (hops : Along e Op.noDup ops empty) :
    MapOk (runOps e ops empty) ∧ SetsOk (runOps e ops empty) ∧
      (runOps e ops empty).nrTotal = UInt64.ofNat (totalDim e (runOps e ops empty)) := by
  have gen : ∀ (ops : List (Op N K M)) (s : Sum N K M), Along e Op.noDup ops s → MapOk s →
      SetsOk s → s.nrTotal = UInt64.ofNat (totalDim e s) →
      MapOk (runOps e ops s) ∧ SetsOk (runOps e ops s) ∧
        (runOps e ops s).nrTotal = UInt64.ofNat (totalDim e (runOps e ops s)) := by
    intro ops
    induction ops with
    | nil => intro s _ h1 h2 h3; exact ⟨h1, h2, h3⟩
    | cons op ops ih =>
      intro s hal h1 h2 h3
      exact ih _ hal.2 (map_step e s h1 op) (sets_step e s h1 h2 op hal.1)
        (totalDim_step e s h1 h3 op hal.1)
  exact gen ops empty hops List.Pairwise.nil (by intro n; simp [empty]) rfl

/-- C09 (active dimension). If moreover no *inactive* item is removed, `get_nr()` is the sum of the
residual dimensions of the active items. -/
theorem C09_active_dim_partial (e : Env K M D nx ndx nu) (ops : List (Op N K M))
    (hops : Along e (fun s op => op.noDup s ∧ op.noRemoveInactive s) ops empty) :
    (runOps e ops empty).nr = UInt64.ofNat (activeDim e (runOps e ops empty)) := by
  have gen : ∀ (ops : List (Op N K M)) (s : Sum N K M),
      Along e (fun s op => op.noDup s ∧ op.noRemoveInactive s) ops s → MapOk s →
      s.nr = UInt64.ofNat (activeDim e s) →
      (runOps e ops s).nr = UInt64.ofNat (activeDim e (runOps e ops s)) := by
    intro ops
    induction ops with
    | nil => intro s _ _ h; exact h
    | cons op ops ih =>
      intro s hal h1 h2
      exact ih _ hal.2 (map_step e s h1 op) (activeDim_step e s h1 h2 op hal.1.1 hal.1.2)
  exact gen ops empty hops List.Pairwise.nil rfl

/-! #### Concrete environment for the examples

Cost models are numbers; model `m` has `nr = m`, all have `nu = 1`; a data content is
`(cost, Lx)`; model `m` evaluates to `cost = m * x₀`, `Lx = m`. -/

def exEnv : Env Int Nat (Int × Int) 1 1 1 where
  nuOf m := if m = 99 then 2 else 1
  nrOf m := m
  create _ := (0, 0)
  calcXU m x _ d := (m * x.headD 0, d.2)
  calcX m x d := (m * x.headD 0, d.2)
  diffXU m _ _ d := (d.1, m)
  diffX m _ d := (d.1, m)
  view d := ⟨d.1, fun _ => d.2, fun _ => d.2, fun _ _ => d.2, fun _ _ => d.2, fun _ _ => d.2⟩

/-- A history satisfying the hypotheses of both theorems: duplicates, status changes, removals. -/
example : Along exEnv (fun s op => op.noDup s ∧ op.noRemoveInactive s)
    [Op.addCost 1 3 10 true, .addCost 0 4 20 false, .addCost 1 7 1 true, .addCostItem 2 ⟨5, 1, true⟩,
     .changeCostStatus 0 true, .removeCost 1, .changeCostStatus 2 false, .addCost 5 99 1 true]
    (empty : Sum Nat Int Nat) := by
  simp [Along, Op.noDup, Op.noRemoveInactive, empty, Op.next, Op.run, addCost, addCostItem, removeCost,
    changeCostStatus, OrdMap.insert, OrdMap.find, OrdMap.erase, OrdMap.adjust, exEnv]

/-- C09 fails: adding an inactive cost of dimension 3 and removing it leaves `get_nr() = 2⁶⁴ - 3`
(and an empty sum). -/
theorem C09_remove_inactive_counterexample :
    let s := runOps exEnv [Op.addCost 0 3 1 false, .removeCost 0] (empty : Sum Nat Int Nat)
    s.costs.length = 0 ∧ s.nr.toNat = 2 ^ 64 - 3 ∧ activeDim exEnv s = 0 := by
  refine ⟨by decide, by decide, by decide⟩

/-- C09 fails: adding an item object under an existing name changes the counters and puts the name
in both sets although the map does not change. -/
theorem C09_duplicate_item_counterexample :
    let s := runOps exEnv [Op.addCost 0 3 1 true, .addCostItem 0 ⟨4, 1, false⟩]
      (empty : Sum Nat Int Nat)
    s.costs.length = 1 ∧ totalDim exEnv s = 3 ∧ s.nrTotal.toNat = 7 ∧ 0 ∈ s.active ∧ 0 ∈ s.inactive := by
  refine ⟨by decide, by decide, by decide, by decide, by decide⟩

/-- C09: a call that throws (wrong control dimension) changes nothing, and the throw happens exactly
for `addCost` with a mismatching control dimension. -/
theorem C09_throws_iff (e : Env K M D nx ndx nu) (s : Sum N K M) (op : Op N K M) :
    (∀ s', op.run e s = .throw s' → s' = s) ∧
    ((∃ s', op.run e s = .throw s') ↔
      (∃ n c w a, op = .addCost n c w a ∧ e.nuOf c ≠ nu) ∨
      (∃ n it, op = .addCostItem n it ∧ e.nuOf it.cost ≠ nu)) := by
  cases op with
  | addCost n c w a =>
    by_cases h : e.nuOf c = nu
    · have hno : ∀ s', (Op.addCost n c w a).run e s ≠ .throw s' := by
        intro s'
        simp only [Op.run, addCost, Cpp.bind_apply, Cpp.throwIf_apply, h, bne_self_eq_false,
          Bool.false_eq_true, if_false, Cpp.get_apply, Cpp.set_apply]
        split
        · simp
        · split <;> simp
      refine ⟨fun s' hs' => absurd hs' (hno s'), ⟨fun ⟨s', hs'⟩ => absurd hs' (hno s'), ?_⟩⟩
      rintro (⟨_, _, _, _, heq, hne⟩ | ⟨_, _, heq, _⟩)
      · injection heq with _ h2; subst h2; exact absurd h hne
      · cases heq
    · have hb : (e.nuOf c != nu) = true := by simpa using h
      have hr : (Op.addCost n c w a).run e s = .throw s := by simp [Op.run, addCost, hb]
      refine ⟨fun s' hs' => ?_, ⟨fun _ => Or.inl ⟨_, _, _, _, rfl, h⟩, fun _ => ⟨s, hr⟩⟩⟩
      rw [hr] at hs'; injection hs' with hs'; exact hs'.symm
  | addCostItem n it =>
    by_cases h : e.nuOf it.cost = nu
    · have hno : ∀ s', (Op.addCostItem n it).run e s ≠ .throw s' := by
        intro s'
        simp only [Op.run, addCostItem, Cpp.bind_apply, Cpp.throwIf_apply, h, bne_self_eq_false,
          Bool.false_eq_true, if_false, Cpp.get_apply, Cpp.set_apply]
        split <;> simp
      refine ⟨fun s' hs' => absurd hs' (hno s'), ⟨fun ⟨s', hs'⟩ => absurd hs' (hno s'), ?_⟩⟩
      rintro (⟨_, _, _, _, heq, hne⟩ | ⟨_, _, heq, hne⟩)
      · cases heq
      · injection heq with _ h2; subst h2; exact absurd h hne
    · have hb : (e.nuOf it.cost != nu) = true := by simpa using h
      have hr : (Op.addCostItem n it).run e s = .throw s := by simp [Op.run, addCostItem, hb]
      refine ⟨fun s' hs' => ?_, ⟨fun _ => Or.inr ⟨_, _, rfl, h⟩, fun _ => ⟨s, hr⟩⟩⟩
      rw [hr] at hs'; injection hs' with hs'; exact hs'.symm
  | removeCost n =>
    have hno : ∀ s', (Op.removeCost n).run e s ≠ .throw s' := by
      intro s'
      simp only [Op.run, removeCost, Cpp.bind_apply, Cpp.get_apply]
      cases OrdMap.find n s.costs <;> simp
    refine ⟨fun s' hs' => absurd hs' (hno s'), ⟨fun ⟨s', hs'⟩ => absurd hs' (hno s'), ?_⟩⟩
    rintro (⟨_, _, _, _, heq, _⟩ | ⟨_, _, heq, _⟩) <;> cases heq
  | changeCostStatus n a =>
    have hno : ∀ s', (Op.changeCostStatus n a).run e s ≠ .throw s' := by
      intro s'
      simp only [Op.run, changeCostStatus, Cpp.bind_apply, Cpp.get_apply]
      cases OrdMap.find n s.costs with
      | none => simp
      | some it => simp only; split <;> [simp; (split <;> simp)]
    refine ⟨fun s' hs' => absurd hs' (hno s'), ⟨fun ⟨s', hs'⟩ => absurd hs' (hno s'), ?_⟩⟩
    rintro (⟨_, _, _, _, heq, _⟩ | ⟨_, _, heq, _⟩) <;> cases heq

/-- C09: the effect of each mutator on the items, read through the map: `addCost` adds the item if
the name is new (and keeps the old item otherwise), `removeCost` removes exactly the name,
`changeCostStatus` changes the status of exactly that item and nothing else of it. -/
theorem C09_effect (e : Env K M D nx ndx nu) (s : Sum N K M) (hm : MapOk s) :
    (∀ n c w a j, e.nuOf c = nu → OrdMap.find j ((Op.addCost n c w a).next e s).costs =
      if j = n ∧ OrdMap.find n s.costs = none then some ⟨c, w, a⟩ else OrdMap.find j s.costs) ∧
    (∀ n j, OrdMap.find j ((Op.removeCost n).next e s).costs =
      if j = n then none else OrdMap.find j s.costs) ∧
    (∀ n a j, OrdMap.find j ((Op.changeCostStatus n a).next e s).costs =
      if j = n then (OrdMap.find j s.costs).map (fun it => { it with active := a })
      else OrdMap.find j s.costs) := by
  have hs : OrdMap.Sorted s.costs := hm
  refine ⟨?_, ?_, ?_⟩
  · intro n c w a j hnu
    rw [next_addCost e s hs]
    by_cases hf : OrdMap.find n s.costs = none
    · rw [if_pos ⟨hnu, hf⟩]
      simp only
      rw [OrdMap.find_insert n _ _ hs hf]
      by_cases hj : j = n <;> simp [hj, hf]
    · rw [if_neg (fun h => hf h.2), if_neg (fun h => hf h.2)]
  · intro n j
    rw [next_removeCost]
    cases hf : OrdMap.find n s.costs with
    | none =>
      simp only
      by_cases hj : j = n
      · subst hj; simp [hf]
      · simp [hj]
    | some it => simp only [OrdMap.find_erase]
  · intro n a j
    rw [next_changeCostStatus]
    cases hf : OrdMap.find n s.costs with
    | none =>
      simp only
      by_cases hj : j = n
      · subst hj; simp [hf]
      · simp [hj]
    | some it =>
      simp only
      by_cases hia : it.active = a
      · rw [if_pos hia]
        by_cases hj : j = n
        · subst hj; subst hia; simp [hf]
        · simp [hj]
      · rw [if_neg hia]
        simp only [OrdMap.find_adjust]

/-! ### C10 and C11 -/

/-- The evaluation loop: every active item is evaluated on the data at the same position. -/
theorem evalLoop_datas (f : M → D → D) (upd : K → D → Derivs K ndx nu → Derivs K ndx nu) :
    ∀ (ms : List (N × Item K M)) (ds : List (N × DataItem M D)) (acc : Derivs K ndx nu),
      ds.length = ms.length →
      (evalLoop f upd ms ds acc).1 = (ms.zip ds).map fun p =>
        (p.2.1, { p.2.2 with content := if p.1.2.active then f p.1.2.cost p.2.2.content
                                        else p.2.2.content }) := by
  intro ms
  induction ms with
  | nil => intro ds acc h; cases ds <;> simp_all [evalLoop]
  | cons m ms ih =>
    intro ds acc h
    obtain ⟨k, it⟩ := m
    cases ds with
    | nil => simp at h
    | cons d ds =>
      obtain ⟨n, d⟩ := d
      have h' : ds.length = ms.length := by simpa using h
      simp only [evalLoop, List.zip_cons_cons, List.map_cons]
      cases hia : it.active <;> simp [ih ds _ h']

theorem evalLoop_acc {A : Type} [AddCommMonoid A] [SMul K A] (f : M → D → D)
    (upd : K → D → Derivs K ndx nu → Derivs K ndx nu) (proj : Derivs K ndx nu → A) (v : D → A)
    (hupd : ∀ w c acc, proj (upd w c acc) = proj acc + w • v c) :
    ∀ (ms : List (N × Item K M)) (ds : List (N × DataItem M D)) (acc : Derivs K ndx nu),
      proj (evalLoop f upd ms ds acc).2 = proj acc +
        (((ms.zip ds).filter fun p => p.1.2.active).map
          fun p => p.1.2.weight • v (f p.1.2.cost p.2.2.content)).sum := by
  intro ms
  induction ms with
  | nil => intro ds acc; simp [evalLoop]
  | cons m ms ih =>
    intro ds acc
    obtain ⟨k, it⟩ := m
    cases ds with
    | nil => simp [evalLoop]
    | cons d ds =>
      obtain ⟨n, d⟩ := d
      simp only [evalLoop, List.zip_cons_cons]
      cases hia : it.active
      · simp [hia, ih]
      · simp [hia, ih, hupd, add_assoc]

/-- A component the loop does not write keeps its value. -/
theorem evalLoop_frame {A : Type} (f : M → D → D)
    (upd : K → D → Derivs K ndx nu → Derivs K ndx nu) (proj : Derivs K ndx nu → A)
    (hupd : ∀ w c acc, proj (upd w c acc) = proj acc) :
    ∀ (ms : List (N × Item K M)) (ds : List (N × DataItem M D)) (acc : Derivs K ndx nu),
      proj (evalLoop f upd ms ds acc).2 = proj acc := by
  intro ms
  induction ms with
  | nil => intro ds acc; simp [evalLoop]
  | cons m ms ih =>
    intro ds acc
    obtain ⟨k, it⟩ := m
    cases ds with
    | nil => simp [evalLoop]
    | cons d ds =>
      simp only [evalLoop]
      cases hia : it.active
      · simp [ih]
      · simp [ih, hupd]

/-- C10 for `calc`: the value is the sum over the active items of `weight * cost(item)` evaluated by
the item's model; the derivatives are not touched. -/
theorem C10_calc [Ring K] (e : Env K M D nx ndx nu) (s : Sum N K M) (d : Data N K M D ndx nu)
    (x u : List K) (hx : x.length = nx) (hu : u.length = nu)
    (hlen : d.costs.length = s.costs.length) :
    ∃ d', calcXU e s d x u = some d' ∧
      d'.acc.cost = weightedSum (fun m c => (e.view (e.calcXU m x u c)).cost) s d ∧
      d'.acc.Lx = d.acc.Lx ∧ d'.acc.Lu = d.acc.Lu ∧ d'.acc.Lxx = d.acc.Lxx ∧
      d'.acc.Lxu = d.acc.Lxu ∧ d'.acc.Luu = d.acc.Luu := by
  refine ⟨_, by simp only [calcXU]; rw [if_neg (by simpa using hx), if_neg (by simpa using hu),
    if_neg (by simpa using hlen)], ?_, ?_, ?_, ?_, ?_, ?_⟩
  · rw [evalLoop_acc (fun m c => e.calcXU m x u c) _ (·.cost) (fun c => (e.view c).cost)]
    · simp [weightedSum]
    · intro w c acc; simp
  · exact evalLoop_frame (N := N) _ _ (·.Lx) (by intros; rfl) _ _ _
  · exact evalLoop_frame (N := N) _ _ (·.Lu) (by intros; rfl) _ _ _
  · exact evalLoop_frame (N := N) _ _ (·.Lxx) (by intros; rfl) _ _ _
  · exact evalLoop_frame (N := N) _ _ (·.Lxu) (by intros; rfl) _ _ _
  · exact evalLoop_frame (N := N) _ _ (·.Luu) (by intros; rfl) _ _ _

/-- C10 for the terminal `calc(data, x)`. -/
theorem C10_calc_terminal [Ring K] (e : Env K M D nx ndx nu) (s : Sum N K M)
    (d : Data N K M D ndx nu) (x : List K) (hx : x.length = nx)
    (hlen : d.costs.length = s.costs.length) :
    ∃ d', calcX e s d x = some d' ∧
      d'.acc.cost = weightedSum (fun m c => (e.view (e.calcX m x c)).cost) s d := by
  refine ⟨_, by simp only [calcX]; rw [if_neg (by simpa using hx), if_neg (by simpa using hlen)], ?_⟩
  rw [evalLoop_acc (fun m c => e.calcX m x c) _ (·.cost) (fun c => (e.view c).cost)]
  · simp [weightedSum]
  · intro w c acc; simp

/-- C10 for `calcDiff`: all five derivative blocks are the weighted sums over the active items, and
the cost is not touched. -/
theorem C10_calcDiff [Ring K] (e : Env K M D nx ndx nu) (s : Sum N K M) (d : Data N K M D ndx nu)
    (x u : List K) (hx : x.length = nx) (hu : u.length = nu)
    (hlen : d.costs.length = s.costs.length) :
    ∃ d', diffXU e s d x u = some d' ∧ d'.acc.cost = d.acc.cost ∧
      d'.acc.Lx = weightedSum (fun m c => (e.view (e.diffXU m x u c)).Lx) s d ∧
      d'.acc.Lu = weightedSum (fun m c => (e.view (e.diffXU m x u c)).Lu) s d ∧
      d'.acc.Lxx = weightedSum (fun m c => (e.view (e.diffXU m x u c)).Lxx) s d ∧
      d'.acc.Lxu = weightedSum (fun m c => (e.view (e.diffXU m x u c)).Lxu) s d ∧
      d'.acc.Luu = weightedSum (fun m c => (e.view (e.diffXU m x u c)).Luu) s d := by
  refine ⟨_, by simp only [diffXU]; rw [if_neg (by simpa using hx), if_neg (by simpa using hu),
    if_neg (by simpa using hlen)], ?_, ?_, ?_, ?_, ?_, ?_⟩
  · exact evalLoop_frame (N := N) _ _ (·.cost) (by intros; rfl) _ _ _
  · rw [evalLoop_acc (fun m c => e.diffXU m x u c) _ (·.Lx) (fun c => (e.view c).Lx)
      (fun _ _ _ => rfl)]
    simp [weightedSum]
  · rw [evalLoop_acc (fun m c => e.diffXU m x u c) _ (·.Lu) (fun c => (e.view c).Lu)
      (fun _ _ _ => rfl)]
    simp [weightedSum]
  · rw [evalLoop_acc (fun m c => e.diffXU m x u c) _ (·.Lxx) (fun c => (e.view c).Lxx)
      (fun _ _ _ => rfl)]
    simp [weightedSum]
  · rw [evalLoop_acc (fun m c => e.diffXU m x u c) _ (·.Lxu) (fun c => (e.view c).Lxu)
      (fun _ _ _ => rfl)]
    simp [weightedSum]
  · rw [evalLoop_acc (fun m c => e.diffXU m x u c) _ (·.Luu) (fun c => (e.view c).Luu)
      (fun _ _ _ => rfl)]
    simp [weightedSum]

/-- C10 for the terminal `calcDiff(data, x)`: `Lx`, `Lxx` are the weighted sums; the other blocks are
*not* reset (they keep whatever a previous running evaluation stored). -/
theorem C10_calcDiff_terminal [Ring K] (e : Env K M D nx ndx nu) (s : Sum N K M)
    (d : Data N K M D ndx nu) (x : List K) (hx : x.length = nx)
    (hlen : d.costs.length = s.costs.length) :
    ∃ d', diffX e s d x = some d' ∧ d'.acc.cost = d.acc.cost ∧
      d'.acc.Lx = weightedSum (fun m c => (e.view (e.diffX m x c)).Lx) s d ∧
      d'.acc.Lxx = weightedSum (fun m c => (e.view (e.diffX m x c)).Lxx) s d ∧
      d'.acc.Lu = d.acc.Lu ∧ d'.acc.Lxu = d.acc.Lxu ∧ d'.acc.Luu = d.acc.Luu := by
  refine ⟨_, by simp only [diffX]; rw [if_neg (by simpa using hx), if_neg (by simpa using hlen)],
    ?_, ?_, ?_, ?_, ?_, ?_⟩
  · exact evalLoop_frame (N := N) _ _ (·.cost) (by intros; rfl) _ _ _
  · rw [evalLoop_acc (fun m c => e.diffX m x c) _ (·.Lx) (fun c => (e.view c).Lx) (fun _ _ _ => rfl)]
    simp [weightedSum]
  · rw [evalLoop_acc (fun m c => e.diffX m x c) _ (·.Lxx) (fun c => (e.view c).Lxx)
      (fun _ _ _ => rfl)]
    simp [weightedSum]
  · exact evalLoop_frame (N := N) _ _ (·.Lu) (by intros; rfl) _ _ _
  · exact evalLoop_frame (N := N) _ _ (·.Lxu) (by intros; rfl) _ _ _
  · exact evalLoop_frame (N := N) _ _ (·.Luu) (by intros; rfl) _ _ _

theorem zip_map_self {α β γ : Type} (l : List α) (f : α → β) (g : α × β → γ) :
    (l.zip (l.map f)).map g = l.map fun a => g (a, f a) := by
  induction l with
  | nil => rfl
  | cons a l ih => simp [ih]

theorem weightedSum_create {A : Type} [AddCommMonoid A] [Zero K] [SMul K A]
    (e : Env K M D nx ndx nu) (g : M → D → A) (s : Sum N K M) :
    weightedSum g s (createData e s) =
      ((s.costs.filter fun kv => kv.2.active).map
        fun kv => kv.2.weight • g kv.2.cost (e.create kv.2.cost)).sum := by
  simp only [weightedSum, createData]
  congr 1
  generalize s.costs = l
  induction l with
  | nil => rfl
  | cons a l ih =>
    simp only [List.map_cons, List.zip_cons_cons, List.filter_cons]
    split <;> simp [ih]

/-- C10: deactivating an item gives the same numbers (for any component `g`) as removing it, with
fresh datas. -/
theorem C10_deactivate_eq_remove {A : Type} [AddCommMonoid A] [Zero K] [SMul K A]
    (e : Env K M D nx ndx nu) (s : Sum N K M) (hm : MapOk s) (n : N) (g : M → D → A) :
    weightedSum g ((Op.changeCostStatus n false).next e s)
        (createData e ((Op.changeCostStatus n false).next e s)) =
      weightedSum g ((Op.removeCost n).next e s) (createData e ((Op.removeCost n).next e s)) := by
  have hs : OrdMap.Sorted s.costs := hm
  rw [weightedSum_create, weightedSum_create, next_changeCostStatus, next_removeCost]
  cases hf : OrdMap.find n s.costs with
  | none => rfl
  | some it =>
    simp only
    have key : ∀ l : List (N × Item K M),
        (OrdMap.adjust n (fun i => { i with active := false }) l).filter (fun kv => kv.2.active)
          = (OrdMap.erase n l).filter (fun kv => kv.2.active) := by
      intro l
      induction l with
      | nil => rfl
      | cons a l ih =>
        obtain ⟨k, i⟩ := a
        have e1 : OrdMap.adjust n (fun i => { i with active := false }) ((k, i) :: l) =
          (if k = n then (k, { i with active := false }) else (k, i)) ::
            OrdMap.adjust n (fun i => { i with active := false }) l := rfl
        rw [e1]
        by_cases hk : k = n
        · subst hk
          simp [OrdMap.erase, ih]
        · have e2 : OrdMap.erase n ((k, i) :: l) = (k, i) :: OrdMap.erase n l := by
            simp [OrdMap.erase, hk]
          rw [e2, if_neg hk, List.filter_cons, List.filter_cons, ih]
    by_cases hia : it.active = false
    · rw [if_pos hia]
      congr 2
      unfold OrdMap.erase
      rw [List.filter_filter]
      apply List.filter_congr
      rintro ⟨k, i⟩ hki
      by_cases hk : k = n
      · subst hk
        have := OrdMap.find_of_mem hs hki
        rw [hf] at this
        injection this with this
        subst this
        simp [hia]
      · simp [hk]
    · rw [if_neg hia]
      simp only
      rw [key]

/-- Non-vacuity: a sum with two active and one inactive item: `10*(3*2) + 5*(4*2) = 100`. -/
example : ((calcXU exEnv
      (runOps exEnv [Op.addCost 1 3 10 true, .addCost 0 4 5 true, .addCost 2 7 1 false] empty)
      (createData exEnv
        (runOps exEnv [Op.addCost 1 3 10 true, .addCost 0 4 5 true, .addCost 2 7 1 false]
          (empty : Sum Nat Int Nat))) [2] [0]).map fun d => d.acc.cost) = some 100 := by decide

/-- C11 (no structural edits since the data was created). If the names and models of the items are
those the data was created for – whatever happened to weights and statuses – then every active item
is evaluated on the data created by its own model, and the pairing is preserved by evaluations. -/
theorem C11_paired_partial [Ring K] (e : Env K M D nx ndx nu) (s₀ s : Sum N K M)
    (hsame : s.costs.map (fun kv => (kv.1, kv.2.cost)) = s₀.costs.map (fun kv => (kv.1, kv.2.cost))) :
    Paired s (createData e s₀) ∧
    ∀ (d : Data N K M D ndx nu), Paired s d →
      (∀ p ∈ s.costs.zip d.costs, p.1.1 = p.2.1 ∧ p.2.2.maker = p.1.2.cost) ∧
      (∀ x u d', calcXU e s d x u = some d' → Paired s d') ∧
      (∀ x u d', diffXU e s d x u = some d' → Paired s d') ∧
      (∀ x d', calcX e s d x = some d' → Paired s d') ∧
      (∀ x d', diffX e s d x = some d' → Paired s d') := by
  constructor
  · unfold Paired createData
    rw [hsame]
    simp [Function.comp_def]
  · intro d hp
    have hlen : d.costs.length = s.costs.length := by
      have := congrArg List.length hp; simpa using this
    have hloop : ∀ (f : M → D → D) (upd : K → D → Derivs K ndx nu → Derivs K ndx nu) acc,
        Paired s ⟨(evalLoop f upd s.costs d.costs acc).1, (evalLoop f upd s.costs d.costs acc).2⟩ := by
      intro f upd acc
      unfold Paired at *
      rw [evalLoop_datas f upd _ _ acc hlen, ← hp, List.map_map]
      clear hp
      generalize s.costs = ms at hlen
      generalize d.costs = ds at hlen
      induction ms generalizing ds with
      | nil => cases ds <;> simp_all
      | cons m ms ih =>
        cases ds with
        | nil => simp at hlen
        | cons d ds =>
          have := ih ds (by simpa using hlen)
          simp only [List.zip_cons_cons, List.map_cons, this]
          simp
    refine ⟨?_, ?_, ?_, ?_, ?_⟩
    · intro p hpm
      obtain ⟨i, hi, hpi⟩ := List.getElem_of_mem hpm
      have h1 : s.costs[i]? = some p.1 ∧ d.costs[i]? = some p.2 := by
        have : (s.costs.zip d.costs)[i]? = some (p.1, p.2) := by
          rw [List.getElem?_eq_getElem hi, hpi]
        exact List.getElem?_zip_eq_some.mp this
      have h2 := congrArg (fun l => l[i]?) hp
      simp only [List.getElem?_map, h1.1, h1.2, Option.map_some, Option.some.injEq,
        Prod.mk.injEq] at h2
      exact ⟨h2.1.symm, h2.2⟩
    · intro x u d' h
      simp only [calcXU] at h
      split at h; · cases h
      split at h; · cases h
      split at h; · cases h
      injection h with h; subst h; exact hloop _ _ _
    · intro x u d' h
      simp only [diffXU] at h
      split at h; · cases h
      split at h; · cases h
      split at h; · cases h
      injection h with h; subst h; exact hloop _ _ _
    · intro x d' h
      simp only [calcX] at h
      split at h; · cases h
      split at h; · cases h
      injection h with h; subst h; exact hloop _ _ _
    · intro x d' h
      simp only [diffX] at h
      split at h; · cases h
      split at h; · cases h
      injection h with h; subst h; exact hloop _ _ _

/-- Status changes keep names and models, so they meet the hypothesis of `C11_paired_partial`. -/
theorem C11_status_changes_keep_pairing (e : Env K M D nx ndx nu) (changes : List (N × Bool)) :
    ∀ (s : Sum N K M),
    (runOps e (changes.map fun c => Op.changeCostStatus c.1 c.2) s).costs.map
        (fun kv => (kv.1, kv.2.cost)) = s.costs.map (fun kv => (kv.1, kv.2.cost)) := by
  induction changes with
  | nil => intro s; rfl
  | cons c cs ih =>
    intro s
    simp only [List.map_cons, runOps, List.foldl_cons]
    refine (ih _).trans ?_
    rw [next_changeCostStatus]
    cases OrdMap.find c.1 s.costs with
    | none => rfl
    | some it =>
      simp only
      split
      · rfl
      · simp only [OrdMap.adjust, List.map_map]
        apply List.map_congr_left
        intro kv _
        simp only [Function.comp]
        split <;> rfl

/-- C11 fails after structural edits that keep the number of items: remove `a`, add `b`; `calc` with
the old data is accepted and evaluates the model of `b` (7) on the data created by the model of `a`
(3). -/
theorem C11_swap_counterexample :
    let s₀ := runOps exEnv [Op.addCost 0 3 1 true] (empty : Sum Nat Int Nat)
    let d := createData exEnv s₀
    let s := runOps exEnv [Op.removeCost 0, .addCost 1 7 1 true] s₀
    (∃ d', calcXU exEnv s d [2] [0] = some d') ∧
    (s.costs.zip d.costs).map (fun p => (p.1.1, p.1.2.cost, p.2.1, p.2.2.maker)) = [(1, 7, 0, 3)] := by
  refine ⟨⟨_, rfl⟩, by decide⟩

end Verif.CostSum
