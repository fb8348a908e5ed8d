import Mathlib.Order.Defs.LinearOrder
import Mathlib.Data.List.Basic

/-!
# Model of the containers that the Python bindings expose

Files modelled: `/repo/bindings/python/crocoddyl/utils/{set-converter,set_indexing_suite,map-converter}.hpp`. A
`std::set` is the list of its elements in order, a `std::map` the list of its entries in order of the keys. The checks
of indices and slices that boost makes before it calls `get_item`, `delete_item` and the slices are assumed: an index counts
from the end if it is negative and raises `IndexError` outside of the container; the ends of a slice are clamped.
-/

namespace Verif.PyContainers

variable {α β : Type} [LinearOrder α]

/-! ### `std::set` -/

/-- `std::set::insert`. -/
def insert (a : α) : List α → List α
  | [] => [a]
  | b :: l => if a < b then a :: b :: l else if b < a then b :: insert a l else b :: l

/-- `std::set::erase(key)`. -/
def erase (a : α) (l : List α) : List α := l.filter fun b => decide (b ≠ a)

/-- The exceptions of Python. -/
inductive Err where
  | key | index
deriving DecidableEq

/-- Boost's conversion of an index. -/
def index (n : Nat) (i : Int) : Option Nat :=
  let j := if i < 0 then i + n else i
  if j < 0 ∨ (n : Int) ≤ j then none else some j.toNat

/-- Boost's conversion of an end of a slice. -/
def clamp (n : Nat) (i : Int) : Nat :=
  let j := if i < 0 then i + n else i
  min j.toNat n

/-- The operations that change a set. -/
inductive Op (α : Type) where
  | add (v : α)
  | discard (v : α)
  | remove (v : α)
  | clear
  | delItem (i : Int)
  | delSlice (i j : Int)

/-- set_indexing_suite.hpp L71-86, L96-98 and L117-123. -/
def step (l : List α) : Op α → List α × Option Err
  | .add v => (insert v l, none)
  | .discard v => (erase v l, none)
  | .remove v => if (erase v l).length = l.length then (l, some .key) else (erase v l, none)
  | .clear => ([], none)
  | .delItem i =>
    match index l.length i with
    | some k => (l.eraseIdx k, none)
    | none => (l, some .index)
  | .delSlice i j =>
    let f := clamp l.length i
    let t := clamp l.length j
    if f ≤ t then (l.take f ++ l.drop t, none) else (l, none)

/-- A history: the final set and the exceptions. -/
def run (l : List α) : List (Op α) → List α × List (Option Err)
  | [] => (l, [])
  | o :: os =>
    let r := step l o
    let q := run r.1 os
    (q.1, r.2 :: q.2)

/-- `v in s` (set_indexing_suite.hpp L67-69). -/
def contains (l : List α) (v : α) : Bool := decide (v ∈ l)

/-- `s[i]` (set_indexing_suite.hpp L88-90); `none` for `IndexError`. -/
def getItem (l : List α) (i : Int) : Option α := (index l.length i).bind fun k => l[k]?

/-- `s[i:j]` (set_indexing_suite.hpp L100-106). -/
def getSlice (l : List α) (i j : Int) : List α :=
  let f := clamp l.length i
  let t := clamp l.length j
  if t < f then [] else (l.drop f).take (t - f)

/-- `getstate` (set-converter.hpp L34-41). -/
def getstate (l : List α) : List α := l

/-- `setstate` (set-converter.hpp L43-47): the elements of the list are inserted, one by one. -/
def setstate (l : List α) (st : List α) : List α := st.foldl (fun l v => insert v l) l

/-- What Python gives to the converter: an object that is not a set, or a set with its elements in the order of
iteration. -/
inductive Arg (P : Type) where
  | other
  | set (elems : List P)

/-- `convertible` (set-converter.hpp L63-77). `iter` is the iterator object, and the element type is extracted from it
where it was meant to be extracted from the element. `elemOk` is `extract<value_type>(...).check()`. -/
def convertible {P : Type} (elemOk : P → Bool) (iter : P) : Arg P → Bool
  | .other => false
  | .set es => es.all fun _ => elemOk iter

/-- `construct` (set-converter.hpp L84-104): the elements are extracted and inserted. -/
def construct {P : Type} (get : P → α) (es : List P) : List α := setstate [] (es.map get)

/-! ### `std::map` -/

/-- `map[key] = val`. -/
def put (k : α) (v : β) : List (α × β) → List (α × β)
  | [] => [(k, v)]
  | p :: l => if k < p.1 then (k, v) :: p :: l else if p.1 < k then p :: put k v l else (k, v) :: l

/-- `std::map::insert(entry)`: an entry whose key is there already is not inserted. -/
def insertEntry (e : α × β) : List (α × β) → List (α × β)
  | [] => [e]
  | p :: l => if e.1 < p.1 then e :: p :: l else if p.1 < e.1 then p :: insertEntry e l else p :: l

/-- The exceptions of the conversion from a dictionary. -/
inductive ConvErr where
  | badKey | badValue
deriving DecidableEq

/-- The loop of `dict_to_map::construct` (map-converter.hpp L57-98), for a dictionary with items `(k, v)`. `ek` and `ev`
extract a key and a value. -/
def fromDictAux {P : Type} (ek : P → Option α) (ev : P → Option β) (m : List (α × β)) :
    List (P × P) → Except ConvErr (List (α × β))
  | [] => .ok m
  | p :: d =>
    match ek p.1 with
    | none => .error .badKey
    | some k =>
      match ev p.2 with
      | none => .error .badValue
      | some v => fromDictAux ek ev (put k v m) d

def fromDict {P : Type} (ek : P → Option α) (ev : P → Option β) (d : List (P × P)) :
    Except ConvErr (List (α × β)) := fromDictAux ek ev [] d

/-- `dict.setdefault(k, v)`: a dictionary is the list of its items, in the order of insertion. -/
def setdefault {γ : Type} [DecidableEq γ] (d : List (γ × β)) (k : γ) (v : β) : List (γ × β) :=
  if ∃ p ∈ d, p.1 = k then d else d ++ [(k, v)]

/-- `todict` (map-converter.hpp L100-107). -/
def todict (m : List (α × β)) : List (α × β) := m.foldl (fun d p => setdefault d p.1 p.2) []

/-- `setstate` of maps (map-converter.hpp L31-35). -/
def setstateMap (m : List (α × β)) (st : List (α × β)) : List (α × β) := st.foldl (fun m e => insertEntry e m) m

end Verif.PyContainers
