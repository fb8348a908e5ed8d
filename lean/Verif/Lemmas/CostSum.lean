import Verif.Spec.CostSum

/-! Characterisation of the cost-sum mutators. -/

namespace Verif.CostSum
open Verif
variable {N K M D : Type} [LinearOrder N] {nx ndx nu : Nat}

theorem next_addCost (e : Env K M D nx ndx nu) (s : Sum N K M) (hs : OrdMap.Sorted s.costs)
    (n : N) (c : M) (w : K) (a : Bool) :
    (Op.addCost n c w a).next e s =
      if e.nuOf c = nu ∧ OrdMap.find n s.costs = none then
        { costs := (OrdMap.insert n ⟨c, w, a⟩ s.costs).1
          nr := if a then s.nr + UInt64.ofNat (e.nrOf c) else s.nr
          nrTotal := s.nrTotal + UInt64.ofNat (e.nrOf c)
          active := if a then insert n s.active else s.active
          inactive := if a then s.inactive else insert n s.inactive }
      else s := by
  simp only [Op.next, Op.run, addCost, Cpp.bind_apply, Cpp.throwIf_apply]
  by_cases h : e.nuOf c = nu
  · simp only [h, bne_self_eq_false, Bool.false_eq_true, if_false, Cpp.get_apply, Cpp.set_apply,
      true_and]
    by_cases hf : OrdMap.find n s.costs = none
    · have := ((OrdMap.insert_spec n ⟨c, w, a⟩ s.costs hs).1 hf).1
      rw [if_pos hf, this]
      cases a <;> simp
    · rw [if_neg hf, (OrdMap.insert_spec n ⟨c, w, a⟩ s.costs hs).2 hf]
      simp
  · have : (e.nuOf c != nu) = true := by simpa using h
    simp [this, h]

theorem next_addCostItem (e : Env K M D nx ndx nu) (s : Sum N K M)
    (n : N) (it : Item K M) :
    (Op.addCostItem n it).next e s =
      if e.nuOf it.cost = nu then
        { costs := (OrdMap.insert n it s.costs).1
          nr := if it.active then s.nr + UInt64.ofNat (e.nrOf it.cost) else s.nr
          nrTotal := s.nrTotal + UInt64.ofNat (e.nrOf it.cost)
          active := if it.active then insert n s.active else s.active
          inactive := if it.active then s.inactive else insert n s.inactive }
      else s := by
  simp only [Op.next, Op.run, addCostItem, Cpp.bind_apply, Cpp.throwIf_apply]
  by_cases h : e.nuOf it.cost = nu
  · simp only [h, bne_self_eq_false, Bool.false_eq_true, if_false, Cpp.get_apply, Cpp.set_apply]
    cases hia : it.active <;> simp
  · have : (e.nuOf it.cost != nu) = true := by simpa using h
    simp [this, h]

theorem next_removeCost (e : Env K M D nx ndx nu) (s : Sum N K M) (n : N) :
    (Op.removeCost n).next e s =
      match OrdMap.find n s.costs with
      | some it =>
        { costs := OrdMap.erase n s.costs
          nr := s.nr - UInt64.ofNat (e.nrOf it.cost)
          nrTotal := s.nrTotal - UInt64.ofNat (e.nrOf it.cost)
          active := s.active.erase n
          inactive := s.inactive.erase n }
      | none => s := by
  simp only [Op.next, Op.run, removeCost, Cpp.bind_apply, Cpp.get_apply]
  cases OrdMap.find n s.costs <;> rfl

theorem next_changeCostStatus (e : Env K M D nx ndx nu) (s : Sum N K M) (n : N) (a : Bool) :
    (Op.changeCostStatus n a).next e s =
      match OrdMap.find n s.costs with
      | some it =>
        if it.active = a then s
        else
        { costs := OrdMap.adjust n (fun i => { i with active := a }) s.costs
          nr := if a then s.nr + UInt64.ofNat (e.nrOf it.cost)
                else s.nr - UInt64.ofNat (e.nrOf it.cost)
          nrTotal := s.nrTotal
          active := if a then insert n s.active else s.active.erase n
          inactive := if a then s.inactive.erase n else insert n s.inactive }
      | none => s := by
  simp only [Op.next, Op.run, changeCostStatus, Cpp.bind_apply, Cpp.get_apply]
  cases OrdMap.find n s.costs with
  | none => rfl
  | some it => cases ha : it.active <;> cases a <;> simp [ha]

end Verif.CostSum
