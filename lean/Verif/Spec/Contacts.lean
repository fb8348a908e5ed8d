import Verif.Model.Contacts

/-! Specification vocabulary for the multi-contact and multi-impulse models. -/

namespace Verif.Contacts
variable {N K M D F : Type}

/-- Sum of the dimensions of the active items. -/
def activeDim (e : Env K M D F) (s : Multi N M) : Nat :=
  ((s.items.filter fun kv => kv.2.active).map fun kv => e.ncOf kv.2.contact).sum

/-- Sum of the dimensions of all items. -/
def totalDim (e : Env K M D F) (s : Multi N M) : Nat :=
  (s.items.map fun kv => e.ncOf kv.2.contact).sum

/-- The items are a map and the two name sets are exact. -/
structure NamesOk [LinearOrder N] (s : Multi N M) : Prop where
  keys : (s.items.map Prod.fst).Pairwise (· < ·)
  act : ∀ n, n ∈ s.active ↔ ∃ it, (n, it) ∈ s.items ∧ it.active = true
  inact : ∀ n, n ∈ s.inactive ↔ ∃ it, (n, it) ∈ s.items ∧ it.active = false

/-- The call does not remove an inactive item. -/
def Op.noRemoveInactive (s : Multi N M) : Op N M → Prop
  | .remove n => ∀ it, (n, it) ∈ s.items → it.active = true
  | _ => True

/-- Every call satisfies `P` in the state in which it is made. -/
def Along [LinearOrder N] (e : Env K M D F) (nu : Nat) (P : Multi N M → Op N M → Prop) :
    List (Op N M) → Multi N M → Prop
  | [], _ => True
  | op :: ops, s => P s op ∧ Along e nu P ops (op.next e nu s)

/-- Rows an item occupies in the stacked vectors: its dimension if it is active or if all contacts
are computed, none otherwise. -/
def rowsOf (e : Env K M D F) (all : Bool) (it : Item M) : Nat :=
  if it.active || all then e.ncOf it.contact else 0

/-- Concatenation in name order: an active item contributes `out` of its evaluated data, an inactive
one contributes zero rows if all contacts are computed and nothing otherwise. -/
def stacked {α : Type} (e : Env K M D F) (all : Bool) (zero : α) (f : M → D → D)
    (out : D → List α) (ms : List (N × Item M)) (ds : List (N × D)) : List α :=
  (ms.zip ds).flatMap fun p =>
    if p.1.2.active then out (f p.1.2.contact p.2.2)
    else if all then List.replicate (e.ncOf p.1.2.contact) zero else []

/-- The item datas after evaluating exactly the active items with `f`, and treating the others
with `g`. -/
def evaluated (f g : M → D → D) (ms : List (N × Item M)) (ds : List (N × D)) : List (N × D) :=
  List.zipWith (fun m d => (d.1, if m.2.active then f m.2.contact d.2 else g m.2.contact d.2)) ms ds

/-- Evaluating a contact fills vectors and matrices of its dimension. -/
structure Sized (e : Env K M D F) : Prop where
  a0 : ∀ m x d, (e.a0 (e.calcF m x d)).length = e.ncOf m
  Jc : ∀ m x d, (e.Jc (e.calcF m x d)).length = e.ncOf m
  da0 : ∀ m x d, (e.da0 (e.diffF m x d)).length = e.ncOf m

/-- Names of data and model agree, buffers have `nc_total` rows. -/
structure DataFits (s : Multi N M) (d : Data N K D F) : Prop where
  names : d.items.map Prod.fst = s.items.map Prod.fst
  a0 : d.a0.length = s.ncTotal.toNat
  Jc : d.Jc.length = s.ncTotal.toNat
  da0 : d.da0.length = s.ncTotal.toNat

/-- The (post-call) external forces that belong on joint `j`: those of the active items whose data's
frame is attached to `j`, in name order. -/
def forcesOn (e : Env K M D F) (j : Nat) (ms : List (N × Item M)) (ds : List (N × D)) : List F :=
  ((ms.zip ds).filter fun p => p.1.2.active && (e.joint p.2.2 == j)).map fun p => e.fext p.2.2

/-- The item datas when every active item is given its own segment and every inactive one is
zeroed. -/
def applied {S : Type} (upd : M → S → D → D) (zero : M → D → D) :
    List (N × Item M) → List S → List (N × D) → List (N × D)
  | m :: ms, s :: segs, d :: ds =>
    (d.1, if m.2.active then upd m.2.contact s d.2 else zero m.2.contact d.2) ::
      applied upd zero ms segs ds
  | _, _, _ => []

end Verif.Contacts
