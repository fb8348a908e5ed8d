import Verif.Model.CsvStream

/-!
# Specification: reading a CSV file (RFC 4180 quoting)
-/

namespace Verif.Csv

/-- Where the reader is: at the beginning of a line, at the beginning of a field after a separator, in a
plain field, in a quoted field, or just behind a quote in a quoted field. -/
inductive Mode where
  | line | field | plain | quoted | closed

/-- The reader: `f` is the field being read, `row` the fields before it. `none` is a malformed file. -/
def parse (sep : Char) : Mode → List Char → List (List Char) → List Char → Option (List (List (List Char)))
  | .line, _, _, [] => some []
  | .line, _, row, c :: cs =>
    if c = '"' then parse sep .quoted [] row cs
    else if c = sep then parse sep .field [] (row ++ [[]]) cs
    else if c = '\n' then (parse sep .line [] [] cs).map (row :: ·)
    else parse sep .plain [c] row cs
  | .field, _, row, [] => some [row ++ [[]]]
  | .field, _, row, c :: cs =>
    if c = '"' then parse sep .quoted [] row cs
    else if c = sep then parse sep .field [] (row ++ [[]]) cs
    else if c = '\n' then (parse sep .line [] [] cs).map ((row ++ [[]]) :: ·)
    else parse sep .plain [c] row cs
  | .plain, f, row, [] => some [row ++ [f]]
  | .plain, f, row, c :: cs =>
    if c = '"' then none
    else if c = sep then parse sep .field [] (row ++ [f]) cs
    else if c = '\n' then (parse sep .line [] [] cs).map ((row ++ [f]) :: ·)
    else parse sep .plain (f ++ [c]) row cs
  | .quoted, _, _, [] => none
  | .quoted, f, row, c :: cs =>
    if c = '"' then parse sep .closed f row cs
    else parse sep .quoted (f ++ [c]) row cs
  | .closed, f, row, [] => some [row ++ [f]]
  | .closed, f, row, c :: cs =>
    if c = '"' then parse sep .quoted (f ++ ['"']) row cs
    else if c = sep then parse sep .field [] (row ++ [f]) cs
    else if c = '\n' then (parse sep .line [] [] cs).map ((row ++ [f]) :: ·)
    else none

/-- The rows of a file. -/
def read (sep : Char) (cs : List Char) : Option (List (List (List Char))) := parse sep .line [] [] cs

/-- The rows that a history of operations means, with `row` the current one; an unfinished last row
counts if it has fields. -/
def rows : List (List Char) → List Op → List (List (List Char))
  | row, [] => if row = [] then [] else [row]
  | row, .str v :: ops => rows (row ++ [v]) ops
  | row, .raw v :: ops => rows (row ++ [v]) ops
  | row, .endl :: ops => row :: rows [] ops

/-- Printed values that need no quotes: not empty, without quotes, separators and newlines. -/
def Plain (sep : Char) : Op → Prop
  | .raw v => v ≠ [] ∧ ∀ c ∈ v, c ≠ '"' ∧ c ≠ sep ∧ c ≠ '\n'
  | _ => True

end Verif.Csv
