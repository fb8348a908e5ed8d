/-!
# Block writes into Eigen vectors and matrices

Modelling language for `v.segment(off, len) = …` and `M.block(off, 0, len, cols) = …` (a matrix is a
list of rows). Uninitialised entries are `none`. No file of /repo is modelled here.
-/

namespace Verif

/-- `buf.segment(off, len) = vals` / `buf.block(off, 0, len, cols) = vals`; `none` is undefined
behaviour (range or size mismatch; an assertion in debug builds). -/
def writeSeg {α : Type} (buf : List (Option α)) (off len : Nat) (vals : List α) :
    Option (List (Option α)) :=
  if vals.length = len ∧ off + len ≤ buf.length then
    some (buf.take off ++ vals.map some ++ buf.drop (off + len))
  else none

theorem writeSeg_some {α : Type} {buf : List (Option α)} {off len : Nat} {vals : List α}
    (h1 : vals.length = len) (h2 : off + len ≤ buf.length) :
    writeSeg buf off len vals = some (buf.take off ++ vals.map some ++ buf.drop (off + len)) := by
  simp [writeSeg, h1, h2]

theorem overlay_step {α : Type} {buf : List (Option α)} {off : Nat} {vals rest : List α}
    (h : off + vals.length ≤ buf.length) :
    let b := buf.take off ++ vals.map some ++ buf.drop (off + vals.length)
    b.length = buf.length ∧
    b.take (off + vals.length) ++ rest.map some ++ b.drop (off + vals.length + rest.length) =
      buf.take off ++ (vals ++ rest).map some ++ buf.drop (off + (vals ++ rest).length) := by
  intro b
  have hl : (buf.take off ++ vals.map some).length = off + vals.length := by
    simp; omega
  constructor
  · simp only [b, List.length_append, List.length_take, List.length_map, List.length_drop]; omega
  · have e1 : b.take (off + vals.length) = buf.take off ++ vals.map some := by
      simp only [b]; rw [List.take_append_of_le_length (by omega), List.take_of_length_le (by omega)]
    have e2 : b.drop (off + vals.length + rest.length) =
        buf.drop (off + vals.length + rest.length) := by
      simp only [b]
      rw [List.drop_append, List.drop_of_length_le (by omega), hl, List.drop_drop]
      simp
    rw [e1, e2]
    simp [Nat.add_assoc]

/-- `buf` with `vals` written from position `off` on. -/
def overlay {α : Type} (buf : List (Option α)) (off : Nat) (vals : List α) : List (Option α) :=
  buf.take off ++ vals.map some ++ buf.drop (off + vals.length)

theorem overlay_nil {α : Type} (buf : List (Option α)) (off : Nat) : overlay buf off [] = buf := by
  simp [overlay]

theorem overlay_length {α : Type} {buf : List (Option α)} {off : Nat} {vals : List α}
    (h : off + vals.length ≤ buf.length) : (overlay buf off vals).length = buf.length :=
  (overlay_step (rest := []) h).1

theorem overlay_overlay {α : Type} {buf : List (Option α)} {off : Nat} {vals rest : List α}
    (h : off + vals.length ≤ buf.length) :
    overlay (overlay buf off vals) (off + vals.length) rest = overlay buf off (vals ++ rest) :=
  (overlay_step (rest := rest) h).2

theorem writeSeg_overlay {α : Type} {buf : List (Option α)} {off len : Nat} {vals : List α}
    (h1 : vals.length = len) (h2 : off + len ≤ buf.length) :
    writeSeg buf off len vals = some (overlay buf off vals) := by
  subst h1; exact writeSeg_some rfl h2

theorem overlay_full {α : Type} {buf : List (Option α)} {vals : List α}
    (h : vals.length = buf.length) : overlay buf 0 vals = vals.map some := by
  simp [overlay, h]

theorem overlay_prefix {α : Type} (buf : List (Option α)) (vals : List α) :
    overlay buf 0 vals = vals.map some ++ buf.drop vals.length := by
  simp [overlay]

end Verif
