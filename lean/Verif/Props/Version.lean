import Verif.Model.Version

/-!
# C119: the version check
-/

namespace Verif.Version

/-- C119. The check holds exactly if the version asked for is not behind the library's in the
lexicographic order of major, minor and patch numbers. -/
theorem C119_lexicographic (M N Q a b c : Int) :
    atLeast M N Q a b c = true ↔ toLex (a, toLex (b, c)) ≤ toLex (M, toLex (N, Q)) := by
  simp only [atLeast, Prod.Lex.toLex_le_toLex, Bool.or_eq_true, Bool.and_eq_true, decide_eq_true_eq]
  omega

/-- C119 (consequences): a library satisfies its own version, checks are transitive (if the library is at
least version `v`, and `v` at least version `w`, it is at least version `w`), and of two versions one is at
least the other. -/
theorem C119_order (M N Q a b c d e f : Int) :
    atLeast M N Q M N Q = true ∧
    (atLeast M N Q a b c = true → atLeast a b c d e f = true → atLeast M N Q d e f = true) ∧
    (atLeast M N Q a b c = true ∨ atLeast a b c M N Q = true) := by
  simp only [C119_lexicographic]
  exact ⟨le_rfl, fun h h' => h'.trans h, le_total _ _⟩

/-- Non-vacuity: 3.0.1 is at least 2.9.7, and not at least 3.1.0. -/
example : atLeast 3 0 1 2 9 7 = true ∧ atLeast 3 0 1 3 1 0 = false := by decide

end Verif.Version
