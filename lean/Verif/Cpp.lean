/-!
# A tiny semantics for imperative C++ member functions

A member function of a C++ object with state `σ` returning `α` is modelled by `σ → Res σ α`:
it either returns normally with a new object state, throws (`throw_pretty`) leaving a
possibly modified object behind, or runs into undefined behaviour (`ub`), after which nothing
is known. No file of /repo is modelled here; this is the modelling language.
-/

namespace Verif

/-- Result of running a C++ member function: normal return (value and object state),
an exception (with the object state at the throw), or undefined behaviour. -/
inductive Res (σ α : Type _) where
  | ok : α → σ → Res σ α
  | throw : σ → Res σ α
  | ub : Res σ α
deriving Repr, DecidableEq

/-- A C++ member function. -/
def Cpp (σ α : Type _) := σ → Res σ α

namespace Cpp
variable {σ α β : Type _}

/-- `return a;` -/
protected def pure (a : α) : Cpp σ α := fun s => .ok a s

/-- Sequencing `;`. Exceptions and undefined behaviour cut the rest of the function. -/
protected def bind (m : Cpp σ α) (f : α → Cpp σ β) : Cpp σ β := fun s =>
  match m s with
  | .ok a s' => f a s'
  | .throw s' => .throw s'
  | .ub => .ub

instance : Monad (Cpp σ) where
  pure := Cpp.pure
  bind := Cpp.bind

/-- Read the object. -/
def get : Cpp σ σ := fun s => .ok s s
/-- Replace the object state. -/
def set (s' : σ) : Cpp σ Unit := fun _ => .ok () s'
/-- Update the object state. -/
def modify (f : σ → σ) : Cpp σ Unit := fun s => .ok () (f s)
/-- `throw_pretty(...)`. -/
def throw : Cpp σ α := fun s => .throw s
/-- Undefined behaviour (out-of-bounds access, null dereference, ...). -/
def ub : Cpp σ α := fun _ => .ub
/-- `if (cond) throw_pretty(...)`. -/
def throwIf (c : Bool) : Cpp σ Unit := if c then throw else Cpp.pure ()
/-- A value that only exists when an access is in bounds. -/
def ofOption : Option α → Cpp σ α
  | some a => Cpp.pure a
  | none => ub

/-- `for (i = start; i < start + n; ++i) body(i);` -/
def forLoop (start : Nat) : (n : Nat) → (Nat → Cpp σ Unit) → Cpp σ Unit
  | 0, _ => Cpp.pure ()
  | n + 1, body => Cpp.bind (body start) (fun _ => forLoop (start + 1) n body)

@[simp] theorem pure_apply (a : α) (s : σ) : (pure a : Cpp σ α) s = .ok a s := rfl
@[simp] theorem cpure_apply (a : α) (s : σ) : (Cpp.pure a : Cpp σ α) s = .ok a s := rfl
@[simp] theorem bind_apply (m : Cpp σ α) (f : α → Cpp σ β) (s : σ) :
    (m >>= f) s = match m s with
      | .ok a s' => f a s'
      | .throw s' => .throw s'
      | .ub => .ub := rfl
@[simp] theorem cbind_apply (m : Cpp σ α) (f : α → Cpp σ β) (s : σ) :
    (Cpp.bind m f) s = match m s with
      | .ok a s' => f a s'
      | .throw s' => .throw s'
      | .ub => .ub := rfl
@[simp] theorem get_apply (s : σ) : (get : Cpp σ σ) s = .ok s s := rfl
@[simp] theorem set_apply (s s' : σ) : (set s' : Cpp σ Unit) s = .ok () s' := rfl
@[simp] theorem modify_apply (f : σ → σ) (s : σ) : (modify f) s = .ok () (f s) := rfl
@[simp] theorem throw_apply (s : σ) : (throw : Cpp σ α) s = .throw s := rfl
@[simp] theorem ub_apply (s : σ) : (ub : Cpp σ α) s = .ub := rfl
@[simp] theorem ofOption_some (a : α) : (ofOption (some a) : Cpp σ α) = Cpp.pure a := rfl
@[simp] theorem ofOption_none : (ofOption (none : Option α) : Cpp σ α) = ub := rfl
@[simp] theorem throwIf_apply (c : Bool) (s : σ) :
    (throwIf c : Cpp σ Unit) s = if c then .throw s else .ok () s := by
  cases c <;> rfl
@[simp] theorem forLoop_zero (i : Nat) (b : Nat → Cpp σ Unit) :
    forLoop i 0 b = Cpp.pure () := rfl
theorem forLoop_succ (i n : Nat) (b : Nat → Cpp σ Unit) :
    forLoop i (n + 1) b = Cpp.bind (b i) (fun _ => forLoop (i + 1) n b) := rfl

end Cpp
end Verif
