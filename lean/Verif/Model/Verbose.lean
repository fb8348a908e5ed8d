import Mathlib.Data.List.Basic

/-!
# Model of `CallbackVerbose`

File modelled: `/repo/src/core/utils/callbacks.cpp`. Text is a list of characters. How the standard library
prints a number is a parameter.
-/

namespace Verif.Verbose

/-- `VerboseLevel` (callbacks.hpp L18-30). -/
inductive Level where
  | l0 | l1 | l2 | l3 | l4
deriving DecidableEq

/-- The quantities of a line. -/
inductive Field where
  | cost | merit | stop | grad | preg | dreg | step | ffeas | gfeas | hfeas | dVexp | dV | dPhiexp | dPhi
deriving DecidableEq

/-- A heading: its text, whether its column has the fixed width 6 (`step`) instead of `6 + precision`,
whether it is padded on the right, and whether a separator follows. -/
structure Head where
  title : String
  six : Bool := false
  right : Bool := true
  sep : Bool := true

/-- The calls of `center_string` in `update_header` (callbacks.cpp L60-130). -/
def heads : Level → List Head
  | .l0 => [⟨"cost", false, true, true⟩, ⟨"stop", false, true, true⟩, ⟨"|grad|", false, true, true⟩,
      ⟨"preg", false, true, true⟩, ⟨"step", true, true, true⟩, ⟨"dV-exp", false, true, true⟩,
      ⟨"dV", false, false, false⟩]
  | .l1 => [⟨"cost", false, true, true⟩, ⟨"merit", false, true, true⟩, ⟨"stop", false, true, true⟩,
      ⟨"|grad|", false, true, true⟩, ⟨"preg", false, true, true⟩, ⟨"step", true, true, true⟩,
      ⟨"||ffeas||", false, true, true⟩, ⟨"dV-exp", false, true, true⟩, ⟨"dV", false, false, false⟩]
  | .l2 => [⟨"cost", false, true, true⟩, ⟨"merit", false, true, true⟩, ⟨"stop", false, true, true⟩,
      ⟨"|grad|", false, true, true⟩, ⟨"preg", false, true, true⟩, ⟨"dreg", false, true, true⟩,
      ⟨"step", true, true, true⟩, ⟨"||ffeas||", false, true, true⟩, ⟨"dV-exp", false, true, true⟩,
      ⟨"dV", false, false, false⟩]
  | .l3 => [⟨"cost", false, true, true⟩, ⟨"merit", false, true, true⟩, ⟨"stop", false, true, true⟩,
      ⟨"|grad|", false, true, true⟩, ⟨"preg", false, true, true⟩, ⟨"dreg", false, true, true⟩,
      ⟨"step", true, true, true⟩, ⟨"||ffeas||", false, true, true⟩, ⟨"||gfeas||", false, true, true⟩,
      ⟨"||hfeas||", false, true, true⟩, ⟨"dV-exp", false, true, true⟩, ⟨"dV", false, false, false⟩]
  | .l4 => [⟨"cost", false, true, true⟩, ⟨"merit", false, true, true⟩, ⟨"stop", false, true, true⟩,
      ⟨"|grad|", false, true, true⟩, ⟨"preg", false, true, true⟩, ⟨"dreg", false, true, true⟩,
      ⟨"step", true, true, true⟩, ⟨"||ffeas||", false, true, true⟩, ⟨"||gfeas||", false, true, true⟩,
      ⟨"||hfeas||", false, true, true⟩, ⟨"dV-exp", false, true, true⟩, ⟨"dV", false, true, true⟩,
      ⟨"dPhi-exp", false, true, true⟩, ⟨"dPhi", false, false, false⟩]

def spaces (n : Nat) : List Char := List.replicate n ' '

/-- `center_string` (callbacks.cpp L40-54). `padding_size` is a signed number; `padding_size % 2` is the
C++ remainder. -/
def center (title : List Char) (width : Nat) (right : Bool) : List Char :=
  let pad : Int := (width : Int) - title.length
  let left : Nat := if pad > 0 then (pad / 2).toNat else 0
  let rgt : Nat := if Int.tmod pad 2 ≠ 0 then left + 1 else left
  if right then spaces left ++ title ++ spaces rgt else spaces left ++ title

/-- `columnwidth`, or 6. -/
def Head.width (h : Head) (precision : Nat) : Nat := if h.six then 6 else 6 + precision

/-- A heading with the separator behind it. -/
def Head.text (precision : Nat) (h : Head) : List Char :=
  center h.title.toList (h.width precision) h.right ++ (if h.sep then spaces 2 else [])

/-- `header_` (callbacks.cpp L56-131). -/
def header (l : Level) (precision : Nat) : List Char :=
  "iter".toList ++ spaces 2 ++ (heads l).flatMap (Head.text precision)

/-- An entry of a line: the quantity, whether it goes through `space_sign` (L137-146), and the length of
the separator behind it. -/
structure Cell where
  field : Field
  signed : Bool
  sep : Nat

/-- The writes to `std::cout` in `operator()` (callbacks.cpp L149-234). -/
def cells : Level → List Cell
  | .l0 => [⟨.cost, false, 2⟩, ⟨.stop, false, 2⟩, ⟨.grad, false, 2⟩, ⟨.preg, false, 2⟩, ⟨.step, false, 1⟩,
      ⟨.dVexp, true, 1⟩, ⟨.dV, true, 0⟩]
  | .l1 => [⟨.cost, false, 1⟩, ⟨.merit, true, 2⟩, ⟨.stop, false, 2⟩, ⟨.grad, false, 2⟩, ⟨.preg, false, 2⟩,
      ⟨.step, false, 2⟩, ⟨.ffeas, false, 1⟩, ⟨.dVexp, true, 1⟩, ⟨.dV, true, 0⟩]
  | .l2 => [⟨.cost, false, 1⟩, ⟨.merit, true, 2⟩, ⟨.stop, false, 2⟩, ⟨.grad, false, 2⟩, ⟨.preg, false, 2⟩,
      ⟨.dreg, false, 2⟩, ⟨.step, false, 2⟩, ⟨.ffeas, false, 1⟩, ⟨.dVexp, true, 1⟩, ⟨.dV, true, 0⟩]
  | .l3 => [⟨.cost, false, 1⟩, ⟨.merit, true, 2⟩, ⟨.stop, false, 2⟩, ⟨.grad, false, 2⟩, ⟨.preg, false, 2⟩,
      ⟨.dreg, false, 2⟩, ⟨.step, false, 2⟩, ⟨.ffeas, false, 2⟩, ⟨.gfeas, false, 2⟩, ⟨.hfeas, false, 1⟩,
      ⟨.dVexp, true, 1⟩, ⟨.dV, true, 0⟩]
  | .l4 => [⟨.cost, false, 1⟩, ⟨.merit, true, 2⟩, ⟨.stop, false, 2⟩, ⟨.grad, false, 2⟩, ⟨.preg, false, 2⟩,
      ⟨.dreg, false, 2⟩, ⟨.step, false, 2⟩, ⟨.ffeas, false, 2⟩, ⟨.gfeas, false, 2⟩, ⟨.hfeas, false, 1⟩,
      ⟨.dVexp, true, 1⟩, ⟨.dV, true, 1⟩, ⟨.dPhiexp, true, 1⟩, ⟨.dPhi, true, 0⟩]

/-- The values of an iteration as text: for every quantity, whether it is negative, and the digits of its
absolute value (scientific with the precision, or with four decimals for the step length). -/
structure Values where
  neg : Field → Bool
  digits : Field → List Char

/-- An entry: `space_sign` writes a blank or a minus, the plain insertion a minus or nothing. `|grad|` is
written as an absolute value by the caller (L154). -/
def Cell.text (v : Values) (c : Cell) : List Char :=
  (if c.signed then [if v.neg c.field then '-' else ' ']
    else if v.neg c.field && decide (c.field ≠ .grad) then ['-'] else [])
  ++ v.digits c.field ++ spaces c.sep

/-- `std::setw(4) << iter`, with `iter` the digits of the iteration number. -/
def iterText (iter : List Char) : List Char := spaces (4 - iter.length) ++ iter

/-- The line of an iteration (callbacks.cpp L148-234). -/
def line (l : Level) (iter : List Char) (v : Values) : List Char :=
  iterText iter ++ spaces 2 ++ (cells l).flatMap (Cell.text v)

/-- Everything written for an iteration (callbacks.cpp L133-237): the header before iterations divisible
by ten. -/
def output (l : Level) (precision iteration : Nat) (iter : List Char) (v : Values) : List (List Char) :=
  (if iteration % 10 = 0 then [header l precision] else []) ++ [line l iter v]

end Verif.Verbose
