import Verif.Model.Cast
import Verif.Props.CostSum
import Verif.Props.Constraints
import Verif.Props.Contacts

/-! # C19: casting a manager to another scalar type -/

namespace Verif
variable {N : Type} [LinearOrder N]

theorem OrdMap.insert_append {V : Type} (k : N) (v : V) : ∀ (l : List (N × V)),
    (∀ kv ∈ l, kv.1 < k) → OrdMap.insert k v l = (l ++ [(k, v)], true)
  | [], _ => rfl
  | (k', v') :: l, h => by
    have h1 : k' < k := h (k', v') (by simp)
    have ih := OrdMap.insert_append k v l (fun kv hkv => h kv (by simp [hkv]))
    simp [OrdMap.insert, not_lt_of_gt h1, (ne_of_gt h1), ih]

theorem OrdMap.find_none_of_gt {V : Type} {k : N} {l : List (N × V)}
    (h : ∀ kv ∈ l, kv.1 < k) : OrdMap.find k l = none :=
  OrdMap.find_none_iff.mpr fun kv hkv he => absurd (h kv hkv) (by rw [he]; exact lt_irrefl _)

theorem OrdMap.sorted_append_cons {V : Type} {l r : List (N × V)} {k : N} {v : V}
    (h : OrdMap.Sorted (l ++ (k, v) :: r)) : ∀ kv ∈ l, kv.1 < k := by
  intro kv hkv
  simp only [OrdMap.Sorted, List.map_append, List.map_cons, List.pairwise_append] at h
  exact h.2.2 kv.1 (List.mem_map_of_mem hkv) k (by simp)

theorem OrdMap.sorted_map {V W : Type} {l : List (N × V)} (h : OrdMap.Sorted l)
    (f : N × V → W) : OrdMap.Sorted (l.map fun kv => (kv.1, f kv)) := by
  simpa [OrdMap.Sorted, Function.comp_def] using h

namespace Contacts
variable {K M D F K' M' D' F' : Type}

/-- The cast item. -/
def Item.cast (f : M → M') (it : Item M) : Item M' := ⟨f it.contact, it.active⟩

theorem cast_fold (e' : Env K' M' D' F') (nu : Nat) (castM : M → M') (add : N × Item M → Op N M') :
    ∀ (rest : List (N × Item M)) (pre : List (N × Item M')) (r : Multi N M'),
      (∀ kv ∈ rest, ∀ r, (add kv).run e' nu r =
        insertItem e' kv.1 (castM kv.2.contact) kv.2.active r) →
      r.items = pre → OrdMap.Sorted (pre ++ rest.map fun kv => (kv.1, kv.2.cast castM)) →
      (rest.foldl (fun r kv => r.bind fun r =>
        match (add kv).run e' nu r with | .ok _ r' => some r' | _ => none) (some r)) =
        some (runOps e' nu (rest.map add) r) ∧
      (runOps e' nu (rest.map add) r).items =
        pre ++ (rest.map fun kv => (kv.1, kv.2.cast castM)) ∧
      (runOps e' nu (rest.map add) r).all = r.all := by
  intro rest
  induction rest with
  | nil => intro pre r _ hp _; simp [runOps, hp]
  | cons kv rest ih =>
    intro pre r hadd hp hs
    have hlt := OrdMap.sorted_append_cons (l := pre) (by simpa using hs)
    have hspre : OrdMap.Sorted r.items := by
      rw [hp]; simp only [OrdMap.Sorted, List.map_append, List.pairwise_append] at hs; exact hs.1
    have hfind : OrdMap.find kv.1 r.items = none := by rw [hp]; exact OrdMap.find_none_of_gt hlt
    have hins : OrdMap.insert kv.1 ⟨castM kv.2.contact, kv.2.active⟩ r.items =
        (pre ++ [(kv.1, kv.2.cast castM)], true) := by rw [hp]; exact OrdMap.insert_append _ _ _ hlt
    have hi := insertItem_eq e' r hspre kv.1 (castM kv.2.contact) kv.2.active
    rw [if_pos hfind, hins, ← hadd kv (by simp)] at hi
    obtain ⟨r', h1, h2, h3⟩ : ∃ r', (add kv).run e' nu r = .ok () r' ∧
        r'.items = pre ++ [(kv.1, kv.2.cast castM)] ∧ r'.all = r.all := ⟨_, hi, rfl, rfl⟩
    have hn : (add kv).next e' nu r = r' := by simp [Op.next, h1]
    have := ih (pre ++ [(kv.1, kv.2.cast castM)]) r' (fun kv hkv => hadd kv (by simp [hkv])) h2
      (by simpa using hs)
    simp only [List.foldl_cons, Option.bind_some, List.map_cons, runOps]
    rw [h1, hn]
    simpa [runOps, h3] using this

theorem activeDim_cast (e : Env K M D F) (e' : Env K' M' D' F') (castM : M → M')
    (hnc : ∀ m, e'.ncOf (castM m) = e.ncOf m) (s : Multi N M) (r : Multi N M')
    (hr : r.items = s.items.map fun kv => (kv.1, kv.2.cast castM)) :
    activeDim e' r = activeDim e s ∧ totalDim e' r = totalDim e s := by
  simp [activeDim, totalDim, hr, List.filter_map, Function.comp_def, Item.cast, hnc]

theorem names_cast {s : Multi N M} {r : Multi N M'} (castM : M → M') (hs : NamesOk s)
    (hrn : NamesOk r) (hr : r.items = s.items.map fun kv => (kv.1, kv.2.cast castM)) :
    r.active = s.active ∧ r.inactive = s.inactive := by
  have hm : ∀ n b, (∃ it, (n, it) ∈ r.items ∧ it.active = b) ↔
      ∃ it, (n, it) ∈ s.items ∧ it.active = b := by
    intro n b
    rw [hr]
    constructor
    · rintro ⟨it, h1, h2⟩
      simp only [List.mem_map, Prod.mk.injEq] at h1
      obtain ⟨⟨n', it'⟩, h3, h4, h5⟩ := h1
      simp only at h4; subst h4
      exact ⟨it', h3, by rw [← h2, ← h5]; rfl⟩
    · rintro ⟨it, h1, h2⟩
      exact ⟨it.cast castM, List.mem_map.mpr ⟨(n, it), h1, rfl⟩, h2⟩
  constructor
  · ext n; rw [hrn.act, hs.act, hm]
  · ext n; rw [hrn.inact, hs.inact, hm]

theorem along_adds (e' : Env K' M' D' F') (nu : Nat) : ∀ (ops : List (Op N M')) (s : Multi N M'),
    (∀ op ∈ ops, ∀ n, op ≠ .remove n) → Along e' nu (fun s op => op.noRemoveInactive s) ops s
  | [], _, _ => trivial
  | op :: ops, s, h => by
    refine ⟨?_, along_adds e' nu ops _ (fun o ho => h o (by simp [ho]))⟩
    have := h op (by simp)
    cases op <;> simp_all [Op.noRemoveInactive]

theorem cast_result (e : Env K M D F) (e' : Env K' M' D' F') (nu : Nat) (castM : M → M')
    (hnc : ∀ m, e'.ncOf (castM m) = e.ncOf m) (s : Multi N M) (hs : NamesOk s)
    (ht : s.ncTotal = UInt64.ofNat (totalDim e s)) (add : N × Item M → Op N M')
    (hrem : ∀ kv n, add kv ≠ .remove n)
    (hi : (runOps e' nu (s.items.map add) empty).items =
      s.items.map fun kv => (kv.1, kv.2.cast castM)) :
    let r := runOps e' nu (s.items.map add) (empty : Multi N M')
    r.active = s.active ∧ r.inactive = s.inactive ∧ r.ncTotal = s.ncTotal ∧
      r.nc = UInt64.ofNat (activeDim e s) := by
  have hg := C16_names_total e' nu (s.items.map add) (N := N)
  have hn := names_cast castM hs hg.1 hi
  have hd := activeDim_cast e e' castM hnc s _ hi
  have ha := C16_active_dim_partial e' nu (s.items.map add) (N := N)
    (along_adds e' nu _ _ (by
      intro op hop n
      obtain ⟨kv, _, rfl⟩ := List.mem_map.mp hop
      exact hrem kv n))
  refine ⟨hn.1, hn.2, ?_, ?_⟩
  · rw [hg.2, hd.2, ht]
  · rw [ha, hd.1]

/-- Every contact of a multi-contact model has the model's control dimension. -/
theorem nu_run (e : Env K M D F) (nu : Nat) (ops : List (Op N M))
    (hops : ∀ op ∈ ops, ∀ n c a, op ≠ .addImpulse n c a) :
    ∀ kv ∈ (runOps e nu ops (empty : Multi N M)).items, e.nuOf kv.2.contact = nu := by
  have : ∀ (ops : List (Op N M)) (s : Multi N M), (∀ op ∈ ops, ∀ n c a, op ≠ .addImpulse n c a) →
      Good e s → (∀ kv ∈ s.items, e.nuOf kv.2.contact = nu) →
      ∀ kv ∈ (runOps e nu ops s).items, e.nuOf kv.2.contact = nu := by
    intro ops
    induction ops with
    | nil => intro s _ _ h; exact h
    | cons op ops ih =>
      intro s hops hg h
      refine ih _ (fun o ho => hops o (by simp [ho])) (good_step e nu s hg op) ?_
      show ∀ kv ∈ (op.next e nu s).items, _
      cases op with
      | addContact n c a =>
        rw [next_addContact]
        split
        · rename_i hc
          rw [next_addImpulse e nu s hg.keys]
          split
          · rename_i hf
            intro kv hkv
            rw [((OrdMap.insert_spec n ⟨c, a⟩ s.items hg.keys).1 hf).2.2.mem_iff] at hkv
            rcases List.mem_cons.mp hkv with rfl | hkv
            · exact hc
            · exact h kv hkv
          · exact h
        · exact h
      | addImpulse n c a => exact absurd rfl (hops _ (by simp) n c a)
      | remove n =>
        rw [next_remove]
        cases OrdMap.find n s.items with
        | none => exact h
        | some it => intro kv hkv; simp only [OrdMap.erase, List.mem_filter] at hkv; exact h kv hkv.1
      | status n a =>
        rw [next_status]
        cases OrdMap.find n s.items with
        | none => exact h
        | some it =>
          intro kv hkv
          simp only [OrdMap.adjust, List.mem_map] at hkv
          obtain ⟨kv', h1, h2⟩ := hkv
          have := h kv' h1
          subst h2
          split <;> exact this
      | computeAll b => exact h
  exact this ops _ hops (good_empty e) (by simp [empty])

/-- C19 (contacts, partial): casting a multi-contact model obtained by any history of contact calls
never throws and gives a model with the same names in the same order, the cast contacts, the same
statuses, the same name sets and total dimension, and the active dimension the sum over the active
contacts. Missing: the `compute_all_contacts` option is not preserved (`C19_contacts_counterexample`). -/
theorem C19_contacts_partial (e : Env K M D F) (e' : Env K' M' D' F') (nu : Nat) (castM : M → M')
    (hnu : ∀ m, e'.nuOf (castM m) = e.nuOf m) (hnc : ∀ m, e'.ncOf (castM m) = e.ncOf m)
    (ops : List (Op N M)) (hops : ∀ op ∈ ops, ∀ n c a, op ≠ .addImpulse n c a) :
    let s := runOps e nu ops (empty : Multi N M)
    ∃ r, castContacts e' nu castM s = some r ∧
      r.items = s.items.map (fun kv => (kv.1, ⟨castM kv.2.contact, kv.2.active⟩)) ∧
      r.active = s.active ∧ r.inactive = s.inactive ∧ r.ncTotal = s.ncTotal ∧
      r.nc = UInt64.ofNat (activeDim e s) ∧ r.all = false := by
  intro s
  have hgood := C16_names_total e nu ops (N := N)
  have h := cast_fold e' nu castM (fun kv => Op.addContact kv.1 (castM kv.2.contact) kv.2.active)
    s.items [] (empty : Multi N M')
    (fun kv hkv r => by
      have : e'.nuOf (castM kv.2.contact) = nu := by rw [hnu]; exact nu_run e nu ops hops kv hkv
      simp [Op.run, addContact, this]) rfl
    (by simpa using OrdMap.sorted_map hgood.1.keys fun kv => kv.2.cast castM)
  have hr := cast_result e e' nu castM hnc s hgood.1 hgood.2
    (fun kv => Op.addContact kv.1 (castM kv.2.contact) kv.2.active) (fun _ _ h => by cases h)
    (by simpa using h.2.1)
  exact ⟨_, h.1, by simpa [Item.cast] using h.2.1, hr.1, hr.2.1, hr.2.2.1, hr.2.2.2, h.2.2⟩

/-- C19 (impulses): the same for multi-impulse models, which have no options. -/
theorem C19_impulses (e : Env K M D F) (e' : Env K' M' D' F') (nu : Nat) (castM : M → M')
    (hnc : ∀ m, e'.ncOf (castM m) = e.ncOf m) (ops : List (Op N M)) :
    let s := runOps e nu ops (empty : Multi N M)
    ∃ r, castImpulses e' castM s = some r ∧
      r.items = s.items.map (fun kv => (kv.1, ⟨castM kv.2.contact, kv.2.active⟩)) ∧
      r.active = s.active ∧ r.inactive = s.inactive ∧ r.ncTotal = s.ncTotal ∧
      r.nc = UInt64.ofNat (activeDim e s) := by
  intro s
  have hgood := C16_names_total e nu ops (N := N)
  have h := cast_fold e' nu castM (fun kv => Op.addImpulse kv.1 (castM kv.2.contact) kv.2.active)
    s.items [] (empty : Multi N M') (fun _ _ _ => rfl) rfl
    (by simpa using OrdMap.sorted_map hgood.1.keys fun kv => kv.2.cast castM)
  have hr := cast_result e e' nu castM hnc s hgood.1 hgood.2
    (fun kv => Op.addImpulse kv.1 (castM kv.2.contact) kv.2.active) (fun _ _ h => by cases h)
    (by simpa using h.2.1)
  exact ⟨_, h.1, by simpa [Item.cast] using h.2.1, hr.1, hr.2.1, hr.2.2.1, hr.2.2.2⟩

/-- Hypotheses of `C19_contacts_partial` with the identity cast and a non-trivial history. -/
example : ∀ op ∈ [Op.addContact 2 13 true, .addContact 0 21 false, .status 0 true, .remove 2],
    ∀ (n : Nat) (c : Nat) a, op ≠ .addImpulse n c a := by simp

/-- C19 fails for options: casting forgets `setComputeAllContacts(true)`, so the cast model expects
force vectors of another size. -/
theorem C19_contacts_counterexample :
    let s := runOps exEnv 2 [Op.addContact 0 3 true, .addContact 1 2 false, .computeAll true]
      (empty : Multi Nat Nat)
    s.all = true ∧ ∃ r, castContacts exEnv 2 id s = some r ∧ r.all = false ∧
      (match updateForceAll exEnv s (createData exEnv 1 1 4 s) [1, 2, 3, 0, 0] with
        | .ok _ => True | _ => False) ∧
      updateForceAll exEnv r (createData exEnv 1 1 4 r) [1, 2, 3, 0, 0] = .throw := by
  refine ⟨by decide, _, rfl, by decide, ?_, ?_⟩
  · exact trivial
  · rfl

end Contacts

namespace CostSum
variable {K M D K' M' D' : Type} {nx ndx nu : Nat}

/-- The cast item. -/
def Item.cast (f : M → M') (g : K → K') (it : Item K M) : Item K' M' :=
  ⟨f it.cost, g it.weight, it.active⟩

theorem cast_fold (e' : Env K' M' D' nx ndx nu) (castM : M → M') (castK : K → K') :
    ∀ (rest : List (N × Item K M)) (pre : List (N × Item K' M')) (r : Sum N K' M'),
      (∀ kv ∈ rest, e'.nuOf (castM kv.2.cost) = nu) →
      r.costs = pre → OrdMap.Sorted (pre ++ rest.map fun kv => (kv.1, kv.2.cast castM castK)) →
      let ops := rest.map fun kv =>
        Op.addCost kv.1 (castM kv.2.cost) (castK kv.2.weight) kv.2.active
      (rest.foldl (fun r kv => r.bind fun r =>
        match addCost e' kv.1 (castM kv.2.cost) (castK kv.2.weight) kv.2.active r with
        | .ok _ r' => some r' | _ => none) (some r)) = some (runOps e' ops r) ∧
      (runOps e' ops r).costs = pre ++ (rest.map fun kv => (kv.1, kv.2.cast castM castK)) := by
  intro rest
  induction rest with
  | nil => intro pre r _ hp _; simp [runOps, hp]
  | cons kv rest ih =>
    intro pre r hnu hp hs
    have hlt := OrdMap.sorted_append_cons (l := pre) (by simpa using hs)
    have hspre : OrdMap.Sorted r.costs := by
      rw [hp]; simp only [OrdMap.Sorted, List.map_append, List.pairwise_append] at hs; exact hs.1
    have hfind : OrdMap.find kv.1 r.costs = none := by rw [hp]; exact OrdMap.find_none_of_gt hlt
    have hins : OrdMap.insert kv.1 ⟨castM kv.2.cost, castK kv.2.weight, kv.2.active⟩ r.costs =
        (pre ++ [(kv.1, kv.2.cast castM castK)], true) := by
      rw [hp]; exact OrdMap.insert_append _ _ _ hlt
    have hn := next_addCost e' r hspre kv.1 (castM kv.2.cost) (castK kv.2.weight) kv.2.active
    have hk := hnu kv (by simp)
    rw [if_pos ⟨hk, hfind⟩, hins] at hn
    have hok : addCost e' kv.1 (castM kv.2.cost) (castK kv.2.weight) kv.2.active r = .ok ()
        ((Op.addCost kv.1 (castM kv.2.cost) (castK kv.2.weight) kv.2.active).next e' r) := by
      simp only [Op.next, Op.run, addCost, Cpp.bind_apply, Cpp.throwIf_apply, hk, bne_self_eq_false,
        Bool.false_eq_true, if_false, Cpp.get_apply, Cpp.set_apply, hins]
      cases kv.2.active <;> simp
    have := ih (pre ++ [(kv.1, kv.2.cast castM castK)]) _ (fun kv hkv => hnu kv (by simp [hkv]))
      (congrArg Sum.costs hn) (by simpa using hs)
    simp only [List.foldl_cons, Option.bind_some, List.map_cons, runOps]
    rw [hok]
    simpa [runOps] using this

/-- Every cost of a cost sum has the sum's control dimension. -/
theorem nu_run (e : Env K M D nx ndx nu) (ops : List (Op N K M)) :
    ∀ kv ∈ (runOps e ops (empty : Sum N K M)).costs, e.nuOf kv.2.cost = nu := by
  have hins : ∀ (l : List (N × Item K M)) (n : N) (it : Item K M), e.nuOf it.cost = nu →
      (∀ kv ∈ l, e.nuOf kv.2.cost = nu) → OrdMap.Sorted l →
      ∀ kv ∈ (OrdMap.insert n it l).1, e.nuOf kv.2.cost = nu := by
    intro l n it hit hl hs kv hkv
    cases hf : OrdMap.find n l with
    | none =>
      rw [((OrdMap.insert_spec n it l hs).1 hf).2.2.mem_iff] at hkv
      rcases List.mem_cons.mp hkv with rfl | hkv
      · exact hit
      · exact hl kv hkv
    | some it' =>
      rw [(OrdMap.insert_spec n it l hs).2 (by simp [hf])] at hkv
      exact hl kv hkv
  have : ∀ (ops : List (Op N K M)) (s : Sum N K M), MapOk s →
      (∀ kv ∈ s.costs, e.nuOf kv.2.cost = nu) →
      ∀ kv ∈ (runOps e ops s).costs, e.nuOf kv.2.cost = nu := by
    intro ops
    induction ops with
    | nil => intro s _ h; exact h
    | cons op ops ih =>
      intro s hg h
      refine ih _ (map_step e s hg op) ?_
      show ∀ kv ∈ (op.next e s).costs, _
      cases op with
      | addCost n c w a =>
        rw [next_addCost e s hg]
        split
        · rename_i hc; exact hins _ n _ hc.1 h hg
        · exact h
      | addCostItem n it =>
        by_cases hc : e.nuOf it.cost = nu
        · have := next_addCostItem e s n it
          rw [if_pos hc] at this
          rw [this]; exact hins _ n _ hc h hg
        · have := next_addCostItem e s n it
          rw [if_neg hc] at this
          rw [this]; exact h
      | removeCost n =>
        rw [next_removeCost]
        cases OrdMap.find n s.costs with
        | none => exact h
        | some it => intro kv hkv; simp only [OrdMap.erase, List.mem_filter] at hkv; exact h kv hkv.1
      | changeCostStatus n a =>
        rw [next_changeCostStatus]
        cases OrdMap.find n s.costs with
        | none => exact h
        | some it =>
          simp only
          split
          · exact h
          intro kv hkv
          simp only [OrdMap.adjust, List.mem_map] at hkv
          obtain ⟨kv', h1, h2⟩ := hkv
          have := h kv' h1
          subst h2
          split <;> exact this
  exact this ops _ List.Pairwise.nil (by simp [empty])

/-- C19 (cost sum): casting a cost sum obtained by any history of calls never throws and gives a sum
with the same names in the same order, the cast costs and weights, the same statuses; its name sets
are exact and its dimensions are the sums over the active items and over all items of the original.
(So the cast even repairs counters that `C09_remove_inactive_counterexample` had corrupted.) -/
theorem C19_cost_sum (e : Env K M D nx ndx nu) (e' : Env K' M' D' nx ndx nu) (castM : M → M')
    (castK : K → K') (hnu : ∀ m, e'.nuOf (castM m) = e.nuOf m)
    (hnr : ∀ m, e'.nrOf (castM m) = e.nrOf m) (ops : List (Op N K M)) :
    let s := runOps e ops (empty : Sum N K M)
    ∃ r, castSum e' castM castK s = some r ∧
      r.costs = s.costs.map (fun kv => (kv.1, ⟨castM kv.2.cost, castK kv.2.weight, kv.2.active⟩)) ∧
      SetsOk r ∧ r.nrTotal = UInt64.ofNat (totalDim e s) ∧ r.nr = UInt64.ofNat (activeDim e s) ∧
      (SetsOk s → r.active = s.active ∧ r.inactive = s.inactive) := by
  intro s
  have hmap : MapOk s := by
    have : ∀ (ops : List (Op N K M)) (s : Sum N K M), MapOk s → MapOk (runOps e ops s) := by
      intro ops
      induction ops with
      | nil => intro s h; exact h
      | cons op ops ih => intro s h; exact ih _ (map_step e s h op)
    exact this ops _ List.Pairwise.nil
  have h := cast_fold e' castM castK s.costs [] (empty : Sum N K' M')
    (fun kv hkv => by rw [hnu]; exact nu_run e ops kv hkv) rfl
    (by simpa using OrdMap.sorted_map hmap fun kv => kv.2.cast castM castK)
  simp only at h
  have hal : ∀ (l : List (N × Item K M)) (r : Sum N K' M'),
      Along e' (fun s op => op.noDup s ∧ op.noRemoveInactive s)
        (l.map fun kv => Op.addCost kv.1 (castM kv.2.cost) (castK kv.2.weight) kv.2.active) r := by
    intro l
    induction l with
    | nil => intro r; trivial
    | cons a l ih => intro r; exact ⟨⟨trivial, trivial⟩, ih _⟩
  have hal' : ∀ (l : List (N × Item K M)) (r : Sum N K' M'),
      Along e' Op.noDup
        (l.map fun kv => Op.addCost kv.1 (castM kv.2.cost) (castK kv.2.weight) kv.2.active) r := by
    intro l
    induction l with
    | nil => intro r; trivial
    | cons a l ih => intro r; exact ⟨trivial, ih _⟩
  have h1 := C09_sets_total_partial e' _ (hal' s.costs empty)
  have h2 := C09_active_dim_partial e' _ (hal s.costs empty)
  refine ⟨_, h.1, ?_, h1.2.1, ?_, ?_, ?_⟩
  · simpa [Item.cast] using h.2
  · rw [h1.2.2]; simp [totalDim, h.2, Function.comp_def, Item.cast, hnr]
  · rw [h2]; simp [activeDim, h.2, List.filter_map, Function.comp_def, Item.cast, hnr]
  · intro hset
    have hm : ∀ (n : N) (b : Bool), (∃ it, (n, it) ∈ s.costs.map (fun kv =>
        (kv.1, kv.2.cast castM castK)) ∧ it.active = b) ↔ ∃ it, (n, it) ∈ s.costs ∧ it.active = b := by
      intro n b
      constructor
      · rintro ⟨it, h1, h2⟩
        simp only [List.mem_map, Prod.mk.injEq] at h1
        obtain ⟨⟨n', it'⟩, h3, h4, h5⟩ := h1
        simp only at h4; subst h4
        exact ⟨it', h3, by rw [← h2, ← h5]; rfl⟩
      · rintro ⟨it, h1, h2⟩
        exact ⟨it.cast castM castK, List.mem_map.mpr ⟨(n, it), h1, rfl⟩, h2⟩
    have h2 := h.2
    simp only [List.nil_append] at h2
    constructor
    · ext n; rw [(h1.2.1 n).1, (hset n).1, h2, hm]
    · ext n; rw [(h1.2.1 n).2, (hset n).2, h2, hm]

/-- The hypotheses are met by the identity cast on a concrete sum, and the cast is not empty. -/
example : ∃ r, castSum exEnv id id (runOps exEnv [Op.addCost 3 5 2 true, .addCost 1 4 7 false]
    (empty : Sum Nat Int Nat)) = some r ∧ r.costs.map Prod.fst = [1, 3] ∧ r.nrTotal = 9 ∧ r.nr = 5 :=
  ⟨_, rfl, by decide, by decide, by decide⟩

end CostSum

namespace Constraints
variable {K K' : Type}

/-- The cast item. -/
def Item.cast (f : Nat → Nat) (it : Item) : Item := ⟨f it.con, it.active⟩

section
variable [Sub K'] [Zero K'] [LE K'] [DecidableLE K'] [DecidableEq K']

theorem cast_fold (nu : Nat) (maxv : K') (heap' : Nat → Con K') (castA : Nat → Nat) :
    ∀ (rest : List (N × Item)) (pre : List (N × Item)) (r : World N K'),
      (∀ kv ∈ rest, (heap' (castA kv.2.con)).nu = nu) → r.heap = heap' →
      r.mgr.items = pre → OrdMap.Sorted (pre ++ rest.map fun kv => (kv.1, kv.2.cast castA)) →
      let ops : List (Op N K') := rest.map fun kv => Op.add kv.1 (castA kv.2.con) kv.2.active
      (rest.foldl (fun r kv => r.bind fun r =>
        match addConstraint nu kv.1 (castA kv.2.con) kv.2.active r with
        | .ok _ r' => some r' | _ => none) (some r)) = some (runOps nu maxv ops r) ∧
      (runOps nu maxv ops r).mgr.items = pre ++ (rest.map fun kv => (kv.1, kv.2.cast castA)) ∧
      (runOps nu maxv ops r).heap = heap' := by
  intro rest
  induction rest with
  | nil => intro pre r _ hh hp _; simp [runOps, hp, hh]
  | cons kv rest ih =>
    intro pre r hnu hh hp hs
    have hlt := OrdMap.sorted_append_cons (l := pre) (by simpa using hs)
    have hspre : OrdMap.Sorted r.mgr.items := by
      rw [hp]; simp only [OrdMap.Sorted, List.map_append, List.pairwise_append] at hs; exact hs.1
    have hfind : OrdMap.find kv.1 r.mgr.items = none := by
      rw [hp]; exact OrdMap.find_none_of_gt hlt
    have hins : OrdMap.insert kv.1 ⟨castA kv.2.con, kv.2.active⟩ r.mgr.items =
        (pre ++ [(kv.1, kv.2.cast castA)], true) := by
      rw [hp]; exact OrdMap.insert_append _ _ _ hlt
    have hk : (r.heap (castA kv.2.con)).nu = nu := by rw [hh]; exact hnu kv (by simp)
    have hn := next_add (nu := nu) (maxv := maxv) r hspre kv.1 (castA kv.2.con) kv.2.active
    rw [if_pos ⟨hk, hfind⟩, hins] at hn
    have hok : addConstraint nu kv.1 (castA kv.2.con) kv.2.active r = .ok ()
        ((Op.add kv.1 (castA kv.2.con) kv.2.active).next nu maxv r) := by
      simp only [Op.next, Op.run, addConstraint, Cpp.bind_apply, Cpp.throwIf_apply, hk,
        bne_self_eq_false, Bool.false_eq_true, if_false, Cpp.get_apply, hins]
      cases kv.2.active <;> simp
    have := ih (pre ++ [(kv.1, kv.2.cast castA)])
      ((Op.add kv.1 (castA kv.2.con) kv.2.active).next nu maxv r) (fun kv hkv => hnu kv (by simp [hkv]))
      (by rw [hn]; exact hh) (by rw [hn]; cases kv.2.active <;> rfl) (by simpa using hs)
    simp only [List.foldl_cons, Option.bind_some, List.map_cons, runOps]
    rw [hok]
    simpa [runOps] using this

end

section
variable [Sub K] [Zero K] [LE K] [DecidableLE K] [DecidableEq K]

theorem nu_run (nu : Nat) (maxv : K) (heap : Nat → Con K) (ops : List (Op N K))
    (hops : ∀ op ∈ ops, op.onManager) :
    (runOps nu maxv ops ⟨heap, Mgr.empty⟩).heap = heap ∧
    ∀ kv ∈ (runOps nu maxv ops ⟨heap, Mgr.empty⟩).mgr.items, (heap kv.2.con).nu = nu := by
  have : ∀ (ops : List (Op N K)) (w : World N K), (∀ op ∈ ops, op.onManager) → Consistent w →
      w.heap = heap → (∀ kv ∈ w.mgr.items, (heap kv.2.con).nu = nu) →
      (runOps nu maxv ops w).heap = heap ∧
      ∀ kv ∈ (runOps nu maxv ops w).mgr.items, (heap kv.2.con).nu = nu := by
    intro ops
    induction ops with
    | nil => intro w _ _ hh h; exact ⟨hh, h⟩
    | cons op ops ih =>
      intro w hops hw hh h
      have hop := hops op (by simp)
      have key : (op.next nu maxv w).heap = heap ∧
          ∀ kv ∈ (op.next nu maxv w).mgr.items, (heap kv.2.con).nu = nu := by
        cases op with
        | add n a act =>
          rw [next_add w hw.keys]
          split
          · rename_i hc
            refine ⟨hh, ?_⟩
            intro kv hkv
            have hkv' : kv ∈ (OrdMap.insert n ⟨a, act⟩ w.mgr.items).1 := by
              cases act <;> exact hkv
            rw [((OrdMap.insert_spec n ⟨a, act⟩ _ hw.keys).1 hc.2).2.2.mem_iff] at hkv'
            rcases List.mem_cons.mp hkv' with rfl | hkv'
            · rw [← hh]; exact hc.1
            · exact h kv hkv'
          · exact ⟨hh, h⟩
        | remove n =>
          rw [next_remove]
          cases OrdMap.find n w.mgr.items with
          | none => exact ⟨hh, h⟩
          | some it =>
            refine ⟨hh, ?_⟩
            intro kv hkv
            have hkv' : kv ∈ OrdMap.erase n w.mgr.items := by
              revert hkv
              cases hia : it.active <;> simp only [hia] <;> exact fun h => h
            simp only [OrdMap.erase, List.mem_filter] at hkv'
            exact h kv hkv'.1
        | status n a =>
          rw [next_status]
          cases OrdMap.find n w.mgr.items with
          | none => exact ⟨hh, h⟩
          | some it =>
            simp only
            split
            · exact ⟨hh, h⟩
            · have hadj : ∀ kv ∈ OrdMap.adjust n (fun i => { i with active := a }) w.mgr.items,
                  (heap kv.2.con).nu = nu := by
                intro kv hkv
                simp only [OrdMap.adjust, List.mem_map] at hkv
                obtain ⟨kv', h1, h2⟩ := hkv
                have := h kv' h1
                subst h2
                split <;> exact this
              cases a <;> exact ⟨hh, hadj⟩
        | updateBounds => exact hop.elim
        | removeBounds => exact hop.elim
      exact ih _ (fun o ho => hops o (by simp [ho]))
        (consistent_step w hw op (by cases op <;> simp_all [Op.safe, Op.onManager])) key.1 key.2
  exact this ops _ hops (consistent_empty heap) rfl (by simp [Mgr.empty])

end

/-- C19 (constraint manager): casting a manager obtained by any history of manager calls, with cast
constraints of the same dimensions, never throws and gives a manager with the same names in the same
order, the cast constraints, the same statuses, name sets and dimensions, consistent in itself. -/
theorem C19_constraint_manager [Sub K] [Zero K] [LE K] [DecidableLE K] [DecidableEq K]
    [Sub K'] [Zero K'] [LE K'] [DecidableLE K'] [DecidableEq K'] (nu : Nat) (maxv : K) (maxv' : K')
    (heap : Nat → Con K) (heap' : Nat → Con K') (castA : Nat → Nat)
    (hnu : ∀ a, (heap' (castA a)).nu = (heap a).nu) (hng : ∀ a, (heap' (castA a)).ng = (heap a).ng)
    (hnh : ∀ a, (heap' (castA a)).nh = (heap a).nh)
    (htc : ∀ a, (heap' (castA a)).tcon = (heap a).tcon)
    (ops : List (Op N K)) (hops : ∀ op ∈ ops, op.onManager) :
    let w := runOps nu maxv ops ⟨heap, Mgr.empty⟩
    ∃ r, castManager nu heap' castA w = some r ∧ r.heap = heap' ∧ Consistent r ∧
      r.mgr.items = w.mgr.items.map (fun kv => (kv.1, ⟨castA kv.2.con, kv.2.active⟩)) ∧
      r.mgr.ng = w.mgr.ng ∧ r.mgr.nh = w.mgr.nh ∧ r.mgr.ngT = w.mgr.ngT ∧ r.mgr.nhT = w.mgr.nhT ∧
      r.mgr.active = w.mgr.active ∧ r.mgr.inactive = w.mgr.inactive := by
  intro w
  have hw : Consistent w := C12_history heap ops hops
  obtain ⟨hheap, hitems⟩ := nu_run nu maxv heap ops hops
  have h := cast_fold nu maxv' heap' castA w.mgr.items [] (⟨heap', Mgr.empty⟩ : World N K')
    (fun kv hkv => by rw [hnu]; exact hitems kv hkv) rfl rfl
    (by simpa using OrdMap.sorted_map hw.keys fun kv => kv.2.cast castA)
  simp only [List.nil_append] at h
  have hr : Consistent (runOps nu maxv' (w.mgr.items.map fun kv =>
      (Op.add kv.1 (castA kv.2.con) kv.2.active : Op N K')) ⟨heap', Mgr.empty⟩) :=
    C12_history heap' _ (by
      intro op hop
      obtain ⟨kv, _, rfl⟩ := List.mem_map.mp hop
      trivial)
  have hheap' : w.heap = heap := hheap
  have hm : ∀ (n : N) (b : Bool), (∃ it, (n, it) ∈ w.mgr.items.map (fun kv =>
      (kv.1, kv.2.cast castA)) ∧ it.active = b) ↔ ∃ it, (n, it) ∈ w.mgr.items ∧ it.active = b := by
    intro n b
    constructor
    · rintro ⟨it, h1, h2⟩
      simp only [List.mem_map, Prod.mk.injEq] at h1
      obtain ⟨⟨n', it'⟩, h3, h4, h5⟩ := h1
      simp only at h4; subst h4
      exact ⟨it', h3, by rw [← h2, ← h5]; rfl⟩
    · rintro ⟨it, h1, h2⟩
      exact ⟨it.cast castA, List.mem_map.mpr ⟨(n, it), h1, rfl⟩, h2⟩
  refine ⟨_, h.1, h.2.2, hr, by simpa [Item.cast] using h.2.1, ?_, ?_, ?_, ?_, ?_, ?_⟩
  · rw [hr.ng, hw.ng]
    simp [activeSum, h.2.1, h.2.2, hheap', List.filter_map, Function.comp_def, Item.cast, hng]
  · rw [hr.nh, hw.nh]
    simp [activeSum, h.2.1, h.2.2, hheap', List.filter_map, Function.comp_def, Item.cast, hnh]
  · rw [hr.ngT, hw.ngT]
    simp [activeSumT, h.2.1, h.2.2, hheap', List.filter_map, Function.comp_def, Item.cast, hng, htc]
  · rw [hr.nhT, hw.nhT]
    simp [activeSumT, h.2.1, h.2.2, hheap', List.filter_map, Function.comp_def, Item.cast, hnh, htc]
  · ext n; rw [hr.act, hw.act, h.2.1, hm]
  · ext n; rw [hr.inact, hw.inact, h.2.1, hm]

example : ∀ a, (exHeap (id a)).nu = (exHeap a).nu := fun _ => rfl

/-- C19 (residual constraint): the cast keeps the current dimensions of a constraint whose dimensions
come from a residual of dimension `nr` — inequality with `ng = nr`, or equality with `nh = nr` —, the bounds of an inequality
and, unless the residual is empty, the type. -/
theorem C19_residual_dims (nr : Nat) (c : Con K)
    (h : (c.type = .inequality ∧ c.ng = nr ∧ c.nh = 0) ∨ (c.type = .equality ∧ c.ng = 0 ∧ c.nh = nr))
    (qv : Bool) (hq : c.tcon = true → qv = true) :
    (castResidual nr qv c).ng = c.ng ∧ (castResidual nr qv c).nh = c.nh ∧
      (castResidual nr qv c).nu = c.nu ∧ (castResidual nr qv c).tcon = c.tcon ∧
      (c.type = .inequality → (castResidual nr qv c).lb = c.lb ∧ (castResidual nr qv c).ub = c.ub) ∧
      (0 < nr → (castResidual nr qv c).type = c.type) := by
  have ht : (qv && c.tcon) = c.tcon := by cases hc : c.tcon <;> simp_all
  rcases h with ⟨h1, h2, h3⟩ | ⟨h1, h2, h3⟩ <;> simp +contextual [castResidual, h1, h2, h3, ht]

example : ∃ c : Con Int, (c.type = .inequality ∧ c.ng = 2 ∧ c.nh = 0) ∧ c.tcon = true :=
  ⟨⟨1, 2, 0, 2, 0, [.ninf, .fin 0], [.pinf, .fin 1], true, .inequality⟩, by simp⟩

/-- C19 fails for residual constraints whose bounds were removed: the original accepts bounds again,
its cast rejects them. -/
theorem C19_residual_counterexample :
    ∃ c0 c1 c2 : Con Int, updateBounds 1000 [.fin 0] [.fin 1] c0 = .ok () c0 ∧
      removeBounds c0 = .ok () c1 ∧ updateBounds 1000 [.fin 0] [.fin 1] c1 = .ok () c2 ∧
      updateBounds 1000 [.fin 0] [.fin 1] (castResidual 1 true c1) =
        .throw (castResidual 1 true c1) :=
  ⟨⟨1, 1, 0, 1, 0, [.fin 0], [.fin 1], true, .inequality⟩, _, _, rfl, rfl, rfl, rfl⟩

end Constraints

end Verif
