import Verif.Model.CostSum
import Mathlib.Algebra.BigOperators.Group.List.Basic
import Mathlib.Algebra.Module.Pi
import Mathlib.LinearAlgebra.Matrix.Defs

/-! Specification vocabulary for the cost sum: everything is read off the map of items. -/

namespace Verif.CostSum
variable {N K M D : Type} [LinearOrder N] {nx ndx nu : Nat}

/-- The map of items is a map: strictly increasing keys. -/
def MapOk (s : Sum N K M) : Prop := (s.costs.map Prod.fst).Pairwise (· < ·)

/-- Sum of the residual dimensions of the active items. -/
def activeDim (e : Env K M D nx ndx nu) (s : Sum N K M) : Nat :=
  ((s.costs.filter fun kv => kv.2.active).map fun kv => e.nrOf kv.2.cost).sum

/-- Sum of the residual dimensions of all items. -/
def totalDim (e : Env K M D nx ndx nu) (s : Sum N K M) : Nat :=
  (s.costs.map fun kv => e.nrOf kv.2.cost).sum

/-- The two name sets are those of the active and of the inactive items. -/
def SetsOk (s : Sum N K M) : Prop :=
  ∀ n, (n ∈ s.active ↔ ∃ it, (n, it) ∈ s.costs ∧ it.active = true) ∧
       (n ∈ s.inactive ↔ ∃ it, (n, it) ∈ s.costs ∧ it.active = false)

/-- The call does not add an item object under an existing name. -/
def Op.noDup (s : Sum N K M) : Op N K M → Prop
  | .addCostItem n _ => ∀ it, (n, it) ∉ s.costs
  | _ => True

/-- The call does not remove an inactive item. -/
def Op.noRemoveInactive (s : Sum N K M) : Op N K M → Prop
  | .removeCost n => ∀ it, (n, it) ∈ s.costs → it.active = true
  | _ => True

/-- Every call of the history satisfies `P` in the state in which it is made. -/
def Along (e : Env K M D nx ndx nu) (P : Sum N K M → Op N K M → Prop) :
    List (Op N K M) → Sum N K M → Prop
  | [], _ => True
  | op :: ops, s => P s op ∧ Along e P ops (op.next e s)

/-- The datas are the ones of the items, in order: same names, each created by the model of the
same entry. -/
def Paired (s : Sum N K M) (d : Data N K M D ndx nu) : Prop :=
  d.costs.map (fun kv => (kv.1, kv.2.maker)) = s.costs.map (fun kv => (kv.1, kv.2.cost))

/-- Weighted sum of `g` over the active items, `g` receiving the item's model and the content of its
data. -/
def weightedSum {A : Type} [AddCommMonoid A] [SMul K A] (g : M → D → A)
    (s : Sum N K M) (d : Data N K M D ndx nu) : A :=
  (((s.costs.zip d.costs).filter fun p => p.1.2.active).map
    fun p => p.1.2.weight • g p.1.2.cost p.2.2.content).sum

end Verif.CostSum
