import Mathlib.Data.List.Basic

/-!
# Model of `CsvStream`

File modelled: `/repo/include/crocoddyl/core/utils/file-io.hpp`. The output file is the list of characters
written; failures of the stream are not modelled.
-/

namespace Verif.Csv

/-- `val.find_first_of(special_chars_, from)` with `special_chars_ = "\""` (file-io.hpp L32, L81-82);
`none` is `npos`. -/
def findFrom (val : List Char) (start : Nat) : Option Nat :=
  (List.range val.length).find? fun i => decide (start ≤ i) && decide (val[i]? = some '"')

theorem findFrom_some {val : List Char} {start i : Nat} (h : findFrom val start = some i) :
    start ≤ i ∧ i < val.length := by
  have h1 := List.find?_some h
  have h2 := List.mem_of_find?_eq_some h
  simp only [Bool.and_eq_true, decide_eq_true_eq] at h1
  exact ⟨h1.1, List.mem_range.1 h2⟩

/-- The loop of `escape` (file-io.hpp L80-87), started at position `start` with `acc` in the string
stream. -/
def escapeLoop (val : List Char) (start : Nat) (acc : List Char) : List Char :=
  if start < val.length then
    match h : findFrom val start with
    | some i => escapeLoop val (i + 1)
        (acc ++ (val.drop start).take (i - start) ++ ['"'] ++ (val[i]?).toList)
    | none => acc ++ val.drop start ++ ['"']
  else acc ++ val.drop start ++ ['"']
termination_by val.length - start
decreasing_by
  have := findFrom_some h
  omega

/-- `escape` (file-io.hpp L77-88). -/
def escape (val : List Char) : List Char := escapeLoop val 0 ['"']

/-- A use of the stream: `<<` with a string (`const char*` or `std::string`, L56-58), `<<` with anything
else, printed as the given characters (L60-63), or `CsvStream::endl` (L44-54). -/
inductive Op where
  | str (val : List Char)
  | raw (printed : List Char)
  | endl

/-- `fs_` and `is_first_`. -/
structure St where
  out : List Char
  first : Bool

/-- `write` (file-io.hpp L66-75). -/
def write (sep : List Char) (s : St) (v : List Char) : St :=
  { out := s.out ++ (if s.first then [] else sep) ++ v, first := false }

/-- One operation; `endrow` is file-io.hpp L49-52. -/
def step (sep : List Char) (s : St) : Op → St
  | .str v => write sep s (escape v)
  | .raw v => write sep s v
  | .endl => { out := s.out ++ ['\n'], first := true }

/-- The file after a history of operations on a new stream (L27-35). -/
def file (sep : List Char) (ops : List Op) : List Char := (ops.foldl (step sep) ⟨[], true⟩).out

end Verif.Csv
