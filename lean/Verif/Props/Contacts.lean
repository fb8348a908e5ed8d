import Verif.Lemmas.Contacts
import Mathlib.Algebra.Group.Defs
import Mathlib.Algebra.Group.Int.Defs
import Mathlib.Algebra.BigOperators.Group.List.Basic

/-! # Properties C16–C19 of the multi-contact and multi-impulse models -/

namespace Verif.Contacts
open Verif
variable {N K M D F : Type}

section names
variable [LinearOrder N] (e : Env K M D F) (nu : Nat)

theorem u64_add_sub (a b : UInt64) : a + b - a = b := by
  rw [UInt64.add_comm, UInt64.add_sub_cancel]

theorem activeDim_eq (s : Multi N M) :
    activeDim e s = OrdMap.total (fun i : Item M => i.active) (fun i => e.ncOf i.contact) s.items :=
  rfl

theorem totalDim_eq (s : Multi N M) :
    totalDim e s = OrdMap.total (fun _ : Item M => true) (fun i => e.ncOf i.contact) s.items := by
  simp [totalDim, OrdMap.total]

/-- The names and the total dimension. -/
structure Good (s : Multi N M) : Prop extends NamesOk s where
  total : s.ncTotal = UInt64.ofNat (totalDim e s)

theorem good_addImpulse (s : Multi N M) (h : Good e s) (n : N) (c : M) (a : Bool) :
    Good e ((Op.addImpulse n c a).next e nu s) := by
  have hs : OrdMap.Sorted s.items := h.keys
  rw [next_addImpulse e nu s hs]
  split
  · rename_i hf
    have hno : ∀ i, (n, i) ∉ s.items := fun i hi => OrdMap.find_none_iff.mp hf _ hi rfl
    obtain ⟨_, hsort, hperm⟩ := (OrdMap.insert_spec n ⟨c, a⟩ s.items hs).1 hf
    have hmem : ∀ m i, (m, i) ∈ (OrdMap.insert n ⟨c, a⟩ s.items).1 ↔
        (m = n ∧ i = ⟨c, a⟩) ∨ (m, i) ∈ s.items := by
      intro m i; rw [hperm.mem_iff]; simp
    refine ⟨⟨hsort, ?_, ?_⟩, ?_⟩
    · intro m
      simp only [hmem]
      cases a
      · simp only [Bool.false_eq_true, if_false, h.act]
        constructor
        · rintro ⟨i, h1, h2⟩; exact ⟨i, Or.inr h1, h2⟩
        · rintro ⟨i, ⟨rfl, rfl⟩ | h1, h2⟩
          · simp at h2
          · exact ⟨i, h1, h2⟩
      · simp only [if_true, Finset.mem_insert, h.act]
        constructor
        · rintro (rfl | ⟨i, h1, h2⟩)
          · exact ⟨_, Or.inl ⟨rfl, rfl⟩, rfl⟩
          · exact ⟨i, Or.inr h1, h2⟩
        · rintro ⟨i, ⟨rfl, rfl⟩ | h1, h2⟩
          · exact Or.inl rfl
          · exact Or.inr ⟨i, h1, h2⟩
    · intro m
      simp only [hmem]
      cases a
      · simp only [Bool.false_eq_true, if_false, Finset.mem_insert, h.inact]
        constructor
        · rintro (rfl | ⟨i, h1, h2⟩)
          · exact ⟨_, Or.inl ⟨rfl, rfl⟩, rfl⟩
          · exact ⟨i, Or.inr h1, h2⟩
        · rintro ⟨i, ⟨rfl, rfl⟩ | h1, h2⟩
          · exact Or.inl rfl
          · exact Or.inr ⟨i, h1, h2⟩
      · simp only [if_true, h.inact]
        constructor
        · rintro ⟨i, h1, h2⟩; exact ⟨i, Or.inr h1, h2⟩
        · rintro ⟨i, ⟨rfl, rfl⟩ | h1, h2⟩
          · simp at h2
          · exact ⟨i, h1, h2⟩
    · simp only [totalDim_eq]
      rw [OrdMap.total_perm hperm, OrdMap.total_cons, h.total, totalDim_eq]
      simp [UInt64.ofNat_add, UInt64.add_comm]
  · exact h

theorem good_step (s : Multi N M) (h : Good e s) (op : Op N M) : Good e (op.next e nu s) := by
  have hs : OrdMap.Sorted s.items := h.keys
  cases op with
  | addContact n c a =>
    rw [next_addContact]
    split
    · exact good_addImpulse e nu s h n c a
    · exact h
  | addImpulse n c a => exact good_addImpulse e nu s h n c a
  | remove n =>
    rw [next_remove]
    cases hf : OrdMap.find n s.items with
    | none => exact h
    | some it =>
      have hmem : ∀ m i, (m, i) ∈ OrdMap.erase n s.items ↔ (m, i) ∈ s.items ∧ m ≠ n := by
        intro m i; simp [OrdMap.erase]
      refine ⟨⟨OrdMap.sorted_erase n _ hs, ?_, ?_⟩, ?_⟩
      · intro m
        simp only [Finset.mem_erase, h.act, hmem]
        constructor
        · rintro ⟨h0, i, h1, h2⟩; exact ⟨i, ⟨h1, h0⟩, h2⟩
        · rintro ⟨i, ⟨h1, h0⟩, h2⟩; exact ⟨h0, i, h1, h2⟩
      · intro m
        simp only [Finset.mem_erase, h.inact, hmem]
        constructor
        · rintro ⟨h0, i, h1, h2⟩; exact ⟨i, ⟨h1, h0⟩, h2⟩
        · rintro ⟨i, ⟨h1, h0⟩, h2⟩; exact ⟨h0, i, h1, h2⟩
      · simp only [totalDim_eq]
        rw [h.total, totalDim_eq, OrdMap.total_perm (OrdMap.perm_erase hs hf), OrdMap.total_cons]
        simp [UInt64.ofNat_add, u64_add_sub]
  | status n a =>
    rw [next_status]
    cases hf : OrdMap.find n s.items with
    | none => exact h
    | some it =>
      have hs' := OrdMap.sorted_adjust n (fun i : Item M => { i with active := a }) _ hs
      have hkey : ∀ (m : N) (b : Bool), (∃ i, (m, i) ∈
          OrdMap.adjust n (fun i => { i with active := a }) s.items ∧ i.active = b) ↔
          if m = n then a = b else ∃ i, (m, i) ∈ s.items ∧ i.active = b := by
        intro m b
        simp only [← OrdMap.find_iff_mem hs', ← OrdMap.find_iff_mem hs, OrdMap.find_adjust]
        by_cases hmn : m = n
        · subst hmn; simp [hf]
        · simp [hmn]
      have hself : ∀ b, (∃ i, (n, i) ∈ s.items ∧ i.active = b) ↔ it.active = b := by
        intro b
        simp only [← OrdMap.find_iff_mem hs, hf, Option.some.injEq, exists_eq_left']
      refine ⟨⟨hs', ?_, ?_⟩, ?_⟩
      · intro m
        rw [hkey]
        simp only
        by_cases hmn : m = n
        · subst hmn
          have h1 := h.act m
          rw [hself] at h1
          cases hia : it.active <;> cases a <;> simp_all
        · by_cases hia : it.active = a
          · simp [hia, hmn, h.act]
          · cases a <;> simp [hia, hmn, h.act]
      · intro m
        rw [hkey]
        simp only
        by_cases hmn : m = n
        · subst hmn
          have h1 := h.inact m
          rw [hself] at h1
          cases hia : it.active <;> cases a <;> simp_all
        · by_cases hia : it.active = a
          · simp [hia, hmn, h.inact]
          · cases a <;> simp [hia, hmn, h.inact]
      · simp only [totalDim_eq]
        rw [h.total, totalDim_eq, OrdMap.total_perm (OrdMap.perm_erase hs hf),
          OrdMap.total_perm (OrdMap.adjust_erase_perm _ hs hf)]
        simp
  | computeAll b => exact ⟨⟨h.keys, h.act, h.inact⟩, h.total⟩

theorem active_step (s : Multi N M) (hk : NamesOk s) (h : s.nc = UInt64.ofNat (activeDim e s))
    (op : Op N M) (hop : op.noRemoveInactive s) :
    (op.next e nu s).nc = UInt64.ofNat (activeDim e (op.next e nu s)) := by
  have hs : OrdMap.Sorted s.items := hk.keys
  have hadd : ∀ n c a, ((Op.addImpulse n c a).next e nu s).nc =
      UInt64.ofNat (activeDim e ((Op.addImpulse n c a).next e nu s)) := by
    intro n c a
    rw [next_addImpulse e nu s hs]
    split
    · rename_i hf
      obtain ⟨_, hsort, hperm⟩ := (OrdMap.insert_spec n ⟨c, a⟩ s.items hs).1 hf
      simp only [activeDim_eq]
      rw [OrdMap.total_perm hperm, OrdMap.total_cons, h, activeDim_eq]
      cases a <;> simp [UInt64.ofNat_add, UInt64.add_comm]
    · exact h
  cases op with
  | addContact n c a =>
    rw [next_addContact]
    split
    · exact hadd n c a
    · exact h
  | addImpulse n c a => exact hadd n c a
  | remove n =>
    rw [next_remove]
    cases hf : OrdMap.find n s.items with
    | none => exact h
    | some it =>
      have hact : it.active = true := hop it (OrdMap.mem_of_find hf)
      simp only [activeDim_eq]
      rw [h, activeDim_eq, OrdMap.total_perm (OrdMap.perm_erase hs hf), OrdMap.total_cons]
      simp [UInt64.ofNat_add, u64_add_sub, hact]
  | status n a =>
    rw [next_status]
    cases hf : OrdMap.find n s.items with
    | none => exact h
    | some it =>
      simp only [activeDim_eq]
      rw [h, activeDim_eq, OrdMap.total_perm (OrdMap.perm_erase hs hf),
        OrdMap.total_perm (OrdMap.adjust_erase_perm _ hs hf)]
      simp only [OrdMap.total_cons]
      cases hia : it.active <;> cases a <;> simp [UInt64.ofNat_add, u64_add_sub,
        UInt64.add_comm (UInt64.ofNat (OrdMap.total _ _ _))]
  | computeAll b => exact h

theorem good_empty : Good e (empty : Multi N M) := by
  refine ⟨⟨List.Pairwise.nil, ?_, ?_⟩, rfl⟩ <;> simp [empty]

theorem good_run (ops : List (Op N M)) : Good e (runOps e nu ops (empty : Multi N M)) := by
  have : ∀ (ops : List (Op N M)) (s : Multi N M), Good e s → Good e (runOps e nu ops s) := by
    intro ops
    induction ops with
    | nil => intro s h; exact h
    | cons op ops ih => intro s h; exact ih _ (good_step e nu s h op)
  exact this ops _ (good_empty e)

/-! ### C16 -/

/-- C16 (names and total dimension). After any history of calls on a fresh multi-contact or
multi-impulse model, the active and inactive sets are exactly the names of the active and inactive
items, and `get_nc_total()` is the sum of all dimensions (as a `size_t`). -/
theorem C16_names_total (ops : List (Op N M)) :
    NamesOk (runOps e nu ops (empty : Multi N M)) ∧
      (runOps e nu ops (empty : Multi N M)).ncTotal =
        UInt64.ofNat (totalDim e (runOps e nu ops (empty : Multi N M))) :=
  ⟨(good_run e nu ops).toNamesOk, (good_run e nu ops).total⟩

/-- C16 (active dimension, partial): `get_nc()` is the sum of the dimensions of the active items for
every history that never removes an *inactive* item. Missing: histories that do; there the claim is
false (`C16_remove_inactive_counterexample`). -/
theorem C16_active_dim_partial (ops : List (Op N M))
    (hops : Along e nu (fun s op => op.noRemoveInactive s) ops empty) :
    (runOps e nu ops (empty : Multi N M)).nc =
      UInt64.ofNat (activeDim e (runOps e nu ops (empty : Multi N M))) := by
  have : ∀ (ops : List (Op N M)) (s : Multi N M), Good e s →
      Along e nu (fun s op => op.noRemoveInactive s) ops s → s.nc = UInt64.ofNat (activeDim e s) →
      (runOps e nu ops s).nc = UInt64.ofNat (activeDim e (runOps e nu ops s)) := by
    intro ops
    induction ops with
    | nil => intro s _ _ h; exact h
    | cons op ops ih =>
      intro s hg hal h
      exact ih _ (good_step e nu s hg op) hal.2 (active_step e nu s hg.toNamesOk h op hal.1)
  exact this ops _ (good_empty e) hops rfl

/-- C16: the effect of each mutator on the items, read through the map. -/
theorem C16_effect (s : Multi N M) (hk : NamesOk s) :
    (∀ n c a j, OrdMap.find j ((Op.addContact n c a).next e nu s).items =
      if j = n ∧ e.nuOf c = nu ∧ OrdMap.find n s.items = none then some ⟨c, a⟩
      else OrdMap.find j s.items) ∧
    (∀ n c a j, OrdMap.find j ((Op.addImpulse n c a).next e nu s).items =
      if j = n ∧ OrdMap.find n s.items = none then some ⟨c, a⟩ else OrdMap.find j s.items) ∧
    (∀ n j, OrdMap.find j ((Op.remove n).next e nu s).items =
      if j = n then none else OrdMap.find j s.items) ∧
    (∀ n a j, OrdMap.find j ((Op.status n a).next e nu s).items =
      if j = n then (OrdMap.find j s.items).map (fun it => { it with active := a })
      else OrdMap.find j s.items) := by
  have hs : OrdMap.Sorted s.items := hk.keys
  have hadd : ∀ n c a j, OrdMap.find j ((Op.addImpulse n c a).next e nu s).items =
      if j = n ∧ OrdMap.find n s.items = none then some ⟨c, a⟩ else OrdMap.find j s.items := by
    intro n c a j
    rw [next_addImpulse e nu s hs]
    by_cases hf : OrdMap.find n s.items = none
    · rw [if_pos hf]
      simp only
      rw [OrdMap.find_insert n _ _ hs hf]
      by_cases hj : j = n <;> simp [hj, hf]
    · rw [if_neg hf, if_neg (fun h => hf h.2)]
  refine ⟨?_, hadd, ?_, ?_⟩
  · intro n c a j
    rw [next_addContact]
    by_cases h : e.nuOf c = nu
    · rw [if_pos h, hadd]; simp [h]
    · rw [if_neg h, if_neg (fun h' => h h'.2.1)]
  · intro n j
    rw [next_remove]
    cases hf : OrdMap.find n s.items with
    | none => by_cases hj : j = n <;> simp [hj, hf]
    | some it => simp only; rw [OrdMap.find_erase]
  · intro n a j
    rw [next_status]
    cases hf : OrdMap.find n s.items with
    | none => by_cases hj : j = n <;> simp [hj, hf]
    | some it => simp only; rw [OrdMap.find_adjust]

/-- C16: the compute-all switch is what was last set: it starts off, `setComputeAllContacts(b)` sets it
to `b` and changes nothing else, and no other call touches it. -/
theorem C16_computeAll (ops : List (Op N M)) (s : Multi N M) (hk : NamesOk s) :
    (∀ b, (Op.computeAll b).next e nu s = { s with all := b }) ∧
    (∀ op : Op N M, (∀ b, op ≠ .computeAll b) → (op.next e nu s).all = s.all) ∧
    (empty : Multi N M).all = false ∧
    (∀ b, (runOps e nu (ops ++ [.computeAll b]) (empty : Multi N M)).all = b) := by
  have hs : OrdMap.Sorted s.items := hk.keys
  refine ⟨fun b => rfl, ?_, rfl, ?_⟩
  · intro op hop
    cases op with
    | computeAll b => exact absurd rfl (hop b)
    | addContact n c a =>
      rw [next_addContact, next_addImpulse e nu s hs]; split_ifs <;> rfl
    | addImpulse n c a => rw [next_addImpulse e nu s hs]; split_ifs <;> rfl
    | remove n => rw [next_remove]; split <;> rfl
    | status n a => rw [next_status]; split <;> rfl
  · intro b
    simp only [runOps, List.foldl_append, List.foldl_cons, List.foldl_nil]
    rfl

/-- C16: the only rejected call is `addContact` with a contact of another control dimension, and a
rejected call changes nothing; no call has undefined behaviour. -/
theorem C16_throws_iff (s : Multi N M) (hk : NamesOk s) (op : Op N M) :
    op.run e nu s ≠ .ub ∧ (∀ s', op.run e nu s = .throw s' → s' = s) ∧
    ((∃ s', op.run e nu s = .throw s') ↔ ∃ n c a, op = .addContact n c a ∧ e.nuOf c ≠ nu) := by
  have hs : OrdMap.Sorted s.items := hk.keys
  cases op with
  | addContact n c a =>
    by_cases h : e.nuOf c = nu
    · have : (Op.addContact n c a).run e nu s = insertItem e n c a s := by
        simp [Op.run, addContact, h]
      rw [this, insertItem_eq e s hs]
      simp [h]
    · have hb : (e.nuOf c != nu) = true := by simpa using h
      simp [Op.run, addContact, hb, h]
  | addImpulse n c a => simp [Op.run, addImpulse, insertItem_eq e s hs]
  | remove n =>
    simp only [Op.run, removeItem, Cpp.bind_apply, Cpp.get_apply]
    cases OrdMap.find n s.items <;> simp
  | status n a =>
    simp only [Op.run, changeStatus, Cpp.bind_apply, Cpp.get_apply]
    cases OrdMap.find n s.items <;> simp
  | computeAll b => simp [Op.run, setComputeAll]

end names

/-! Concrete environment: contact `c` has dimension `c % 10` and is attached to joint `c / 10`;
`nu = 2` except for contact 99. A data content is (contact, force, stacked value). -/

def exEnv : Env Int Nat (Nat × List Int × Int) Int where
  nuOf c := if c = 99 then 3 else 2
  ncOf c := c % 10
  create c := (c, List.replicate (c % 10) 0, 0)
  calcF c x _ := (c, List.replicate (c % 10) 0, x.headD 0)
  diffF c x _ := (c, List.replicate (c % 10) 0, x.headD 0)
  updateForce c f _ := (c, f, 0)
  updateForceDiff _ _ _ d := d
  setZeroForce c _ := (c, List.replicate (c % 10) 0, 0)
  setZeroForceDiff _ d := d
  a0 d := List.replicate (d.1 % 10) (d.2.2 + d.1)
  Jc d := List.replicate (d.1 % 10) [d.2.2 + d.1]
  da0 d := List.replicate (d.1 % 10) [d.2.2 + d.1]
  fext d := d.2.1.sum
  joint d := d.1 / 10 % 4

/-- Hypotheses of both theorems hold for a history with clashes, wrong dimensions and removals. -/
example : Along exEnv 2 (fun s op => op.noRemoveInactive s)
    [Op.addContact 1 3 true, .addContact 0 16 false, .addContact 1 6 true, .addContact 4 99 true,
     .status 0 true, .computeAll true, .addContact 5 23 true, .remove 1, .status 5 false]
    (empty : Multi Nat Nat) := by
  simp [Along, Op.noRemoveInactive, empty, Op.next, Op.run, addContact, insertItem, removeItem,
    changeStatus, setComputeAll, OrdMap.insert, OrdMap.find, OrdMap.erase, OrdMap.adjust, exEnv]

/-- C16 fails: adding an inactive contact of dimension 3 and removing it leaves an empty model with
`get_nc() = 2⁶⁴ - 3`; the same holds for impulses. -/
theorem C16_remove_inactive_counterexample :
    let s := runOps exEnv 2 [Op.addContact 0 3 false, .remove 0] (empty : Multi Nat Nat)
    let s' := runOps exEnv 2 [Op.addImpulse 0 3 false, .remove 0] (empty : Multi Nat Nat)
    (s.items.length = 0 ∧ s.nc.toNat = 2 ^ 64 - 3 ∧ activeDim exEnv s = 0) ∧
    (s'.items.length = 0 ∧ s'.nc.toNat = 2 ^ 64 - 3 ∧ activeDim exEnv s' = 0) := by
  refine ⟨⟨by decide, by decide, by decide⟩, by decide, by decide, by decide⟩

/-! ### C17 -/

theorem rowSum_true (e : Env K M D F) (s : Multi N M) : rowSum e true s.items = totalDim e s := by
  simp [rowSum, rowsOf, totalDim]

theorem rowSum_false (e : Env K M D F) (s : Multi N M) : rowSum e false s.items = activeDim e s := by
  simp only [rowSum, rowsOf, activeDim, Bool.or_false]
  induction s.items with
  | nil => rfl
  | cons m ms ih => cases ha : m.2.active <;> simp [ha, ih]

theorem active_le_total (e : Env K M D F) (s : Multi N M) : activeDim e s ≤ totalDim e s := by
  simp only [activeDim, totalDim]
  induction s.items with
  | nil => simp
  | cons m ms ih => cases ha : m.2.active <;> simp [ha] <;> omega

theorem len_items {s : Multi N M} {d : Data N K D F} (h : DataFits s d) :
    s.items.length = d.items.length := by
  have := congrArg List.length h.names; simpa using this.symm

theorem rows_le (e : Env K M D F) (s : Multi N M) (ht : s.ncTotal = UInt64.ofNat (totalDim e s))
    (hlt : totalDim e s < 2 ^ 64) : rowSum e s.all s.items ≤ s.ncTotal.toNat := by
  rw [ht, UInt64.toNat_ofNat', Nat.mod_eq_of_lt hlt]
  cases s.all
  · rw [rowSum_false]; exact active_le_total e s
  · rw [rowSum_true]

/-- C17 (`calc`). If `get_nc_total()` is the sum of all dimensions (true for every history,
`C16_names_total`), with a fitting data, `calc` evaluates exactly the active contacts and stacks their
drifts `a0` and Jacobians `Jc` in name order from row 0 on; with `compute_all_contacts` the blocks of
inactive contacts are zero rows and the stack covers all rows; otherwise inactive contacts take no
rows, and the rows behind the active ones keep their content. -/
theorem C17_calc [Zero K] (e : Env K M D F) (he : Sized e) (nv : Nat) (s : Multi N M)
    (d : Data N K D F) (ht : s.ncTotal = UInt64.ofNat (totalDim e s)) (hlt : totalDim e s < 2 ^ 64)
    (hd : DataFits s d) (x : List K) :
    ∃ d', calcAll e nv s d x = .ok d' ∧
      let A := stacked e s.all 0 (fun m d => e.calcF m x d) e.a0 s.items d.items
      let J := stacked e s.all (List.replicate nv 0) (fun m d => e.calcF m x d) e.Jc s.items d.items
      d'.a0 = A.map some ++ d.a0.drop A.length ∧ d'.Jc = J.map some ++ d.Jc.drop J.length ∧
      A.length = J.length ∧ A.length = (if s.all then totalDim e s else activeDim e s) ∧
      (s.all = true → d'.a0 = A.map some ∧ d'.Jc = J.map some) ∧
      d'.items = evaluated (fun m d => e.calcF m x d) (fun _ d => d) s.items d.items ∧
      d'.da0 = d.da0 ∧ d'.fext = d.fext := by
  have hl := len_items hd
  have hle := rows_le e s ht hlt
  have hspec := calcLoop_spec e he nv s.all x s.items d.items 0 d.a0 d.Jc hl
    (by rw [hd.a0]; omega) (by rw [hd.Jc]; omega)
  have hA := stacked_length e s.all (0 : K) (fun m d => e.calcF m x d) e.a0
    (fun m d => he.a0 m x d) s.items d.items hl
  have hJ := stacked_length e s.all (List.replicate nv (0 : K)) (fun m d => e.calcF m x d) e.Jc
    (fun m d => he.Jc m x d) s.items d.items hl
  rw [overlay_prefix, overlay_prefix] at hspec
  simp only [calcAll, ← hl, ne_eq, not_true_eq_false, if_false, hspec]
  refine ⟨_, rfl, rfl, rfl, by rw [hA, hJ], ?_, ?_, rfl, rfl, rfl⟩
  · rw [hA]; cases s.all
    · simp [rowSum_false]
    · simp [rowSum_true]
  · intro hall
    have : rowSum e s.all s.items = s.ncTotal.toNat := by
      rw [hall, rowSum_true, ht, UInt64.toNat_ofNat', Nat.mod_eq_of_lt hlt]
    simp only
    rw [hA, hJ, this, ← hd.a0]
    constructor
    · simp
    · rw [hd.a0, ← hd.Jc]; simp

/-- C17 (`calcDiff`): the same layout for the derivative of the drift. -/
theorem C17_calcDiff [Zero K] (e : Env K M D F) (he : Sized e) (ndx : Nat) (s : Multi N M)
    (d : Data N K D F) (ht : s.ncTotal = UInt64.ofNat (totalDim e s)) (hlt : totalDim e s < 2 ^ 64)
    (hd : DataFits s d) (x : List K) :
    ∃ d', diffAll e ndx s d x = .ok d' ∧
      let A := stacked e s.all (List.replicate ndx 0) (fun m d => e.diffF m x d) e.da0 s.items d.items
      d'.da0 = A.map some ++ d.da0.drop A.length ∧
      A.length = (if s.all then totalDim e s else activeDim e s) ∧
      d'.items = evaluated (fun m d => e.diffF m x d) (fun _ d => d) s.items d.items ∧
      d'.a0 = d.a0 ∧ d'.Jc = d.Jc ∧ d'.fext = d.fext := by
  have hl := len_items hd
  have hle := rows_le e s ht hlt
  have hspec := diffLoop_spec e he ndx s.all x s.items d.items 0 d.da0 hl (by rw [hd.da0]; omega)
  have hA := stacked_length e s.all (List.replicate ndx (0 : K)) (fun m d => e.diffF m x d) e.da0
    (fun m d => he.da0 m x d) s.items d.items hl
  rw [overlay_prefix] at hspec
  simp only [diffAll, ← hl, ne_eq, not_true_eq_false, if_false, hspec]
  refine ⟨_, rfl, rfl, ?_, rfl, rfl, rfl, rfl⟩
  rw [hA]; cases s.all
  · simp [rowSum_false]
  · simp [rowSum_true]

/-- The number of force entries `updateForce` asks for. -/
theorem forceDim {e : Env K M D F} {s : Multi N M} (ht : s.ncTotal = UInt64.ofNat (totalDim e s))
    (hn : s.nc = UInt64.ofNat (activeDim e s)) (hlt : totalDim e s < 2 ^ 64) :
    (if s.all then s.ncTotal else s.nc).toNat = rowSum e s.all s.items := by
  cases s.all
  · simp only [Bool.false_eq_true, if_false]
    rw [rowSum_false, hn, UInt64.toNat_ofNat', Nat.mod_eq_of_lt (lt_of_le_of_lt (active_le_total e s) hlt)]
  · simp only [if_true]; rw [rowSum_true, ht, UInt64.toNat_ofNat', Nat.mod_eq_of_lt hlt]

/-- C17 (`updateForce`). When the counters are right, `updateForce` throws exactly on a force vector
whose size is not `get_nc()` (`get_nc_total()` with `compute_all_contacts`); otherwise the force vector
is cut, in name order, into segments of the items' dimensions (empty for inactive items unless all
contacts are computed), every active contact is updated with exactly its own segment and every
inactive contact is zeroed. -/
theorem C17_updateForce [Zero F] (e : Env K M D F) (s : Multi N M) (d : Data N K D F)
    (ht : s.ncTotal = UInt64.ofNat (totalDim e s)) (hn : s.nc = UInt64.ofNat (activeDim e s))
    (hlt : totalDim e s < 2 ^ 64) (hd : DataFits s d)
    (hj : ∀ m f di, e.joint (e.updateForce m f di) < d.fext.length) (force : List K) :
    (force.length ≠ (if s.all then totalDim e s else activeDim e s) →
      updateForceAll e s d force = .throw) ∧
    (force.length = (if s.all then totalDim e s else activeDim e s) →
      ∃ segs d', updateForceAll e s d force = .ok d' ∧ segs.flatten = force ∧
        segs.map List.length = s.items.map (fun m => rowsOf e s.all m.2) ∧
        d'.items = applied e.updateForce e.setZeroForce s.items segs d.items ∧
        d'.a0 = d.a0 ∧ d'.Jc = d.Jc ∧ d'.da0 = d.da0) := by
  have hl := len_items hd
  have hdim := forceDim ht hn hlt
  have hdim' : (if s.all then totalDim e s else activeDim e s) = rowSum e s.all s.items := by
    cases s.all
    · simp [rowSum_false]
    · simp [rowSum_true]
  rw [hdim']
  constructor
  · intro h
    simp only [updateForceAll, hdim, ne_eq, h, not_false_eq_true, if_true]
  · intro h
    obtain ⟨segs, s1, s2, s3, fext', f1, f2, f3⟩ := forceLoop_spec e s.all force s.items d.items 0
      (d.fext.map fun _ => 0) hl (by omega) (by simpa using hj)
    refine ⟨segs, { d with items := applied e.updateForce e.setZeroForce s.items segs d.items, fext := fext' }, ?_,
      by simpa using s2, s3, rfl, rfl, rfl, rfl⟩
    simp only [updateForceAll, hdim, h, ne_eq, not_true_eq_false, if_false, ← hl, f1]

/-- C17 (`updateForceDiff`): the force derivatives are cut in the same way. -/
theorem C17_updateForceDiff (e : Env K M D F) (ndx nu : Nat) (s : Multi N M) (d : Data N K D F)
    (ht : s.ncTotal = UInt64.ofNat (totalDim e s)) (hn : s.nc = UInt64.ofNat (activeDim e s))
    (hlt : totalDim e s < 2 ^ 64) (hd : DataFits s d) (fx fu : List (List K))
    (hfx : fx.length = (if s.all then totalDim e s else activeDim e s) ∧ ∀ r ∈ fx, r.length = ndx)
    (hfu : fu.length = (if s.all then totalDim e s else activeDim e s) ∧ ∀ r ∈ fu, r.length = nu) :
    ∃ (segs : List (List (List K) × List (List K))) (d' : Data N K D F),
      updateForceDiffAll e ndx nu s d fx fu = .ok d' ∧
      (segs.map Prod.fst).flatten = fx ∧ (segs.map Prod.snd).flatten = fu ∧
      segs.map (fun g => g.1.length) = s.items.map (fun m => rowsOf e s.all m.2) ∧
      segs.map (fun g => g.2.length) = s.items.map (fun m => rowsOf e s.all m.2) ∧
      d'.items = applied (fun m g di => e.updateForceDiff m g.1 g.2 di) e.setZeroForceDiff s.items
        segs d.items ∧ d'.fext = d.fext := by
  have hl := len_items hd
  have hdim := forceDim ht hn hlt
  have hdim' : (if s.all then totalDim e s else activeDim e s) = rowSum e s.all s.items := by
    cases s.all
    · simp [rowSum_false]
    · simp [rowSum_true]
  rw [hdim'] at hfx hfu
  obtain ⟨segs, s1, s2, s3, s4, s5, s6⟩ := forceDiffLoop_spec e s.all fx fu s.items d.items 0 hl
    (by omega) (by omega)
  refine ⟨segs, { d with items := _ }, ?_, by simpa using s2, by simpa using s3, s4, s5, rfl, rfl⟩
  have n1 : ¬ (fx.length ≠ rowSum e s.all s.items ∨ ∃ r ∈ fx, r.length ≠ ndx) := by
    rintro (h | ⟨r, hr, h⟩)
    · exact h hfx.1
    · exact h (hfx.2 r hr)
  have n2 : ¬ (fu.length ≠ rowSum e s.all s.items ∨ ∃ r ∈ fu, r.length ≠ nu) := by
    rintro (h | ⟨r, hr, h⟩)
    · exact h hfu.1
    · exact h (hfu.2 r hr)
  simp only [updateForceDiffAll, hdim, if_neg n1, if_neg n2, ne_eq, ← hl, not_true_eq_false, if_false, s6]

/-- A data created from the model fits it. -/
theorem C17_createData_fits [Zero K] [Zero F] (e : Env K M D F) (nv ndx nj : Nat) (s : Multi N M) :
    DataFits s (createData e nv ndx nj s) := by
  constructor <;> simp [createData, Function.comp_def]

theorem exEnv_sized : Sized exEnv := by constructor <;> simp [exEnv]

def exMulti : Multi Nat Nat :=
  runOps exEnv 2 [Op.addContact 2 13 true, .addContact 0 21 true, .addContact 1 2 false] empty

/-- The hypotheses of the C17 theorems hold together, in both modes. -/
example : exMulti.ncTotal = UInt64.ofNat (totalDim exEnv exMulti) ∧
    exMulti.nc = UInt64.ofNat (activeDim exEnv exMulti) ∧ totalDim exEnv exMulti < 2 ^ 64 ∧
    DataFits exMulti (createData exEnv 1 1 4 exMulti) ∧
    (∀ m f di, exEnv.joint (exEnv.updateForce m f di) < (createData exEnv 1 1 4 exMulti).fext.length) := by
  refine ⟨by decide, by decide, by decide, C17_createData_fits _ _ _ _ _, ?_⟩
  intro m f di
  simp only [exEnv, createData, List.length_replicate]
  omega

/-- The stacked drift with and without `compute_all_contacts`. -/
example : (match calcAll exEnv 1 exMulti (createData exEnv 1 1 4 exMulti) [100] with
      | .ok d => d.a0 | _ => []) =
      [some 121, some 113, some 113, some 113, some 0, some 0] ∧
    (match calcAll exEnv 1 { exMulti with all := true } (createData exEnv 1 1 4 exMulti) [100] with
      | .ok d => d.a0 | _ => []) =
      [some 121, some 0, some 0, some 113, some 113, some 113] := by decide

/-! ### C18 -/

/-- C18 (what the code computes): after `updateForce`, the external force of joint `j` is that of the
*last* (in name order) active contact attached to `j`, and zero if there is none. -/
theorem C18_last_wins [Zero F] (e : Env K M D F) (s : Multi N M) (d : Data N K D F)
    (ht : s.ncTotal = UInt64.ofNat (totalDim e s)) (hn : s.nc = UInt64.ofNat (activeDim e s))
    (hlt : totalDim e s < 2 ^ 64) (hd : DataFits s d)
    (hj : ∀ m f di, e.joint (e.updateForce m f di) < d.fext.length) (force : List K)
    (hf : force.length = (if s.all then totalDim e s else activeDim e s)) :
    ∃ d', updateForceAll e s d force = .ok d' ∧ d'.fext.length = d.fext.length ∧
      ∀ j, j < d.fext.length →
        d'.fext[j]? = some ((forcesOn e j s.items d'.items).getLast?.getD 0) := by
  have hl := len_items hd
  have hdim := forceDim ht hn hlt
  have hdim' : (if s.all then totalDim e s else activeDim e s) = rowSum e s.all s.items := by
    cases s.all
    · simp [rowSum_false]
    · simp [rowSum_true]
  rw [hdim'] at hf
  obtain ⟨segs, s1, s2, s3, fext', f1, f2, f3⟩ := forceLoop_spec e s.all force s.items d.items 0
    (d.fext.map fun _ => 0) hl (by omega) (by simpa using hj)
  refine ⟨{ d with items := applied e.updateForce e.setZeroForce s.items segs d.items, fext := fext' }, ?_, ?_, ?_⟩
  · simp only [updateForceAll, hdim, hf, ne_eq, not_true_eq_false, if_false, ← hl, f1]
  · simpa using f2
  · intro j hjl
    have := f3 j (by simpa using hjl)
    simp only
    rw [this]
    have h0 : (d.fext.map fun _ => (0 : F))[j]? = some 0 := by
      rw [List.getElem?_map, List.getElem?_eq_getElem hjl]; rfl
    rw [h0]
    cases (forcesOn e j s.items (applied e.updateForce e.setZeroForce s.items segs d.items)).getLast? <;> rfl

/-- C18 (partial): if at most one active contact is attached to joint `j`, its external force is the
sum of the forces of the active contacts attached to it. Missing: joints carrying several contacts,
where the claim is false (`C18_shared_joint_counterexample`). -/
theorem C18_sum_partial [AddMonoid F] (e : Env K M D F) (s : Multi N M) (d : Data N K D F)
    (ht : s.ncTotal = UInt64.ofNat (totalDim e s)) (hn : s.nc = UInt64.ofNat (activeDim e s))
    (hlt : totalDim e s < 2 ^ 64) (hd : DataFits s d)
    (hj : ∀ m f di, e.joint (e.updateForce m f di) < d.fext.length) (force : List K)
    (hf : force.length = (if s.all then totalDim e s else activeDim e s)) :
    ∃ d', updateForceAll e s d force = .ok d' ∧
      ∀ j, j < d.fext.length → (forcesOn e j s.items d'.items).length ≤ 1 →
        d'.fext[j]? = some (forcesOn e j s.items d'.items).sum := by
  obtain ⟨d', h1, _, h3⟩ := C18_last_wins e s d ht hn hlt hd hj force hf
  refine ⟨d', h1, ?_⟩
  intro j hjl hle
  rw [h3 j hjl]
  match h : forcesOn e j s.items d'.items with
  | [] => simp
  | [a] => simp
  | a :: b :: l => rw [h] at hle; simp at hle

/-- Joint 1 carries one contact (force 2+3+4), joint 2 another (force 1), joints 0 and 3 none. -/
example : (match updateForceAll exEnv exMulti (createData exEnv 1 1 4 exMulti) [1, 2, 3, 4] with
    | .ok d => d.fext | _ => []) = [0, 9, 1, 0] := by decide

/-- C18 fails: with two active contacts on joint 1 (dimensions 1 and 2, forces 5 and 7+8), the external
force of the joint is only that of the second contact, 15 instead of 20. -/
theorem C18_shared_joint_counterexample :
    let s := runOps exEnv 2 [Op.addContact 0 11 true, .addContact 1 12 true] (empty : Multi Nat Nat)
    ∃ d', updateForceAll exEnv s (createData exEnv 1 1 4 s) [5, 7, 8] = .ok d' ∧
      d'.fext = [0, 15, 0, 0] ∧ (forcesOn exEnv 1 s.items d'.items).sum = 20 := by
  exact ⟨_, rfl, by decide, by decide⟩

end Verif.Contacts
