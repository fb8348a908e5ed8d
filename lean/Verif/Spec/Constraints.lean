import Verif.Model.Constraints

/-! Specification vocabulary for the constraint manager. -/

namespace Verif.Constraints
variable {N K D : Type} [LinearOrder N]

/-- Sum of a dimension over the active items. -/
def activeSum (f : Con K → Nat) (w : World N K) : Nat :=
  ((w.mgr.items.filter fun kv => kv.2.active).map fun kv => f (w.heap kv.2.con)).sum

/-- Sum of a dimension over the active items whose constraint is also a terminal constraint. -/
def activeSumT (f : Con K → Nat) (w : World N K) : Nat :=
  ((w.mgr.items.filter fun kv => kv.2.active && (w.heap kv.2.con).tcon).map
    fun kv => f (w.heap kv.2.con)).sum

/-- The manager's observable bookkeeping agrees with its items and their constraints. -/
structure Consistent (w : World N K) : Prop where
  keys : (w.mgr.items.map Prod.fst).Pairwise (· < ·)
  ng : w.mgr.ng = UInt64.ofNat (activeSum Con.ng w)
  nh : w.mgr.nh = UInt64.ofNat (activeSum Con.nh w)
  ngT : w.mgr.ngT = UInt64.ofNat (activeSumT Con.ng w)
  nhT : w.mgr.nhT = UInt64.ofNat (activeSumT Con.nh w)
  lbSize : w.mgr.lb.length = w.mgr.ng.toNat
  ubSize : w.mgr.ub.length = w.mgr.ng.toNat
  act : ∀ n, n ∈ w.mgr.active ↔ ∃ it, (n, it) ∈ w.mgr.items ∧ it.active = true
  inact : ∀ n, n ∈ w.mgr.inactive ↔ ∃ it, (n, it) ∈ w.mgr.items ∧ it.active = false

/-- The constraint at address `a` is held by an active item. -/
def HeldActive (w : World N K) (a : Nat) : Prop :=
  ∃ n it, (n, it) ∈ w.mgr.items ∧ it.active = true ∧ it.con = a

/-- The call is made on the manager, or changes the bounds of a constraint that is not active. -/
def Op.safe (w : World N K) : Op N K → Prop
  | .updateBounds a _ _ => ¬ HeldActive w a
  | .removeBounds a => ¬ HeldActive w a
  | _ => True

/-- The call is made on the manager. -/
def Op.onManager : Op N K → Prop
  | .updateBounds .. | .removeBounds .. => False
  | _ => True

/-- Every call satisfies `P` in the world in which it is made. -/
def Along [Sub K] [Zero K] [LE K] [DecidableLE K] [DecidableEq K] (nu : Nat) (maxv : K)
    (P : World N K → Op N K → Prop) : List (Op N K) → World N K → Prop
  | [], _ => True
  | op :: ops, w => P w op ∧ Along nu maxv P ops (op.next nu maxv w)

/-- Concatenation, in name order, of what the selected items contribute. -/
def stack {α : Type} (heap : Nat → Con K) (sel : Item → Bool) (f : Con K → D → D)
    (out : Con K → D → List α) (ms : List (N × Item)) (ds : List (N × D)) : List α :=
  ((ms.zip ds).filter fun p => sel p.1.2).flatMap
    fun p => out (heap p.1.2.con) (f (heap p.1.2.con) p.2.2)

end Verif.Constraints

namespace Verif.Constraints
variable {N K D : Type} [LinearOrder N]

/-- Item datas after the evaluation loop: exactly the selected items have been evaluated. -/
def evaluated (heap : Nat → Con K) (sel : Item → Bool) (f : Con K → D → D)
    (ms : List (N × Item)) (ds : List (N × D)) : List (N × D) :=
  List.zipWith (fun m d => (d.1, if sel m.2 then f (heap m.2.con) d.2 else d.2)) ms ds

/-- The data holds one item data per manager item (same names, same order) and buffers of the
manager's running dimensions. -/
structure DataFits (w : World N K) (d : Data N K D) : Prop where
  names : d.items.map Prod.fst = w.mgr.items.map Prod.fst
  g : d.g.length = w.mgr.ng.toNat
  h : d.h.length = w.mgr.nh.toNat
  Gx : d.Gx.length = w.mgr.ng.toNat
  Gu : d.Gu.length = w.mgr.ng.toNat
  Hx : d.Hx.length = w.mgr.nh.toNat
  Hu : d.Hu.length = w.mgr.nh.toNat

/-- Evaluating a constraint model fills vectors and matrices of the constraint's dimensions, whatever
the content of the data. -/
structure Sized (e : Env K D) : Prop where
  calcXU : ∀ c x u d, (e.g (e.calcXU c x u d)).length = c.ng ∧ (e.h (e.calcXU c x u d)).length = c.nh
  calcX : ∀ c x d, (e.g (e.calcX c x d)).length = c.ng ∧ (e.h (e.calcX c x d)).length = c.nh
  diffXU : ∀ c x u d, (e.Gx (e.diffXU c x u d)).length = c.ng ∧ (e.Hx (e.diffXU c x u d)).length = c.nh ∧
    (e.Gu (e.diffXU c x u d)).length = c.ng ∧ (e.Hu (e.diffXU c x u d)).length = c.nh
  diffX : ∀ c x d, (e.Gx (e.diffX c x d)).length = c.ng ∧ (e.Hx (e.diffX c x d)).length = c.nh

/-- The bound vectors of every constraint have its inequality dimension (true of every constraint
whose bounds have not been removed). -/
def BoundsSized (w : World N K) : Prop :=
  ∀ n it, (n, it) ∈ w.mgr.items → it.active = true →
    (w.heap it.con).lb.length = (w.heap it.con).ng ∧ (w.heap it.con).ub.length = (w.heap it.con).ng

/-- Strict order of bounds (false when a NaN is involved). -/
def _root_.Verif.Flt.lt [LT K] : Flt K → Flt K → Prop
  | .fin a, .fin b => a < b
  | .fin _, .pinf => True
  | .ninf, .fin _ => True
  | .ninf, .pinf => True
  | _, _ => False

/-- A legal entry of a lower bound: finite and below the largest number, or `-inf`. -/
def _root_.Verif.Flt.lowerOk (maxv : K) (v : Flt K) : Prop := v = .ninf ∨ ∃ a, v = .fin a ∧ a ≠ maxv

/-- A legal entry of an upper bound: finite or `+inf`. -/
def _root_.Verif.Flt.upperOk (v : Flt K) : Prop := v = .pinf ∨ ∃ a, v = .fin a

/-- The bounds a caller may legally pass for a constraint with `n` inequalities. -/
structure ValidBounds [LT K] (maxv : K) (n : Nat) (lower upper : List (Flt K)) : Prop where
  sizeL : lower.length = n
  sizeU : upper.length = n
  lowerEntries : ∀ v ∈ lower, v.lowerOk maxv
  upperEntries : ∀ v ∈ upper, v.upperOk
  lt : ∀ p ∈ lower.zip upper, p.1.lt p.2

end Verif.Constraints
