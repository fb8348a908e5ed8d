import Verif.Model.Verbose
import Mathlib.Tactic.IntervalCases
import Mathlib.Data.Fintype.Basic
import Mathlib.Algebra.Order.Group.Nat
import Mathlib.Algebra.BigOperators.Group.List.Basic

/-!
# C120: the table printed by `CallbackVerbose`
-/

namespace Verif.Verbose

/-! ### Specification -/

/-- The columns of the table at a level, in order: quantity and heading. -/
def columns : Level → List (Field × String)
  | .l0 => [(.cost, "cost"), (.stop, "stop"), (.grad, "|grad|"), (.preg, "preg"), (.step, "step"),
      (.dVexp, "dV-exp"), (.dV, "dV")]
  | .l1 => [(.cost, "cost"), (.merit, "merit"), (.stop, "stop"), (.grad, "|grad|"), (.preg, "preg"),
      (.step, "step"), (.ffeas, "||ffeas||"), (.dVexp, "dV-exp"), (.dV, "dV")]
  | .l2 => [(.cost, "cost"), (.merit, "merit"), (.stop, "stop"), (.grad, "|grad|"), (.preg, "preg"),
      (.dreg, "dreg"), (.step, "step"), (.ffeas, "||ffeas||"), (.dVexp, "dV-exp"), (.dV, "dV")]
  | .l3 => [(.cost, "cost"), (.merit, "merit"), (.stop, "stop"), (.grad, "|grad|"), (.preg, "preg"),
      (.dreg, "dreg"), (.step, "step"), (.ffeas, "||ffeas||"), (.gfeas, "||gfeas||"), (.hfeas, "||hfeas||"),
      (.dVexp, "dV-exp"), (.dV, "dV")]
  | .l4 => [(.cost, "cost"), (.merit, "merit"), (.stop, "stop"), (.grad, "|grad|"), (.preg, "preg"),
      (.dreg, "dreg"), (.step, "step"), (.ffeas, "||ffeas||"), (.gfeas, "||gfeas||"), (.hfeas, "||hfeas||"),
      (.dVexp, "dV-exp"), (.dV, "dV"), (.dPhiexp, "dPhi-exp"), (.dPhi, "dPhi")]

/-- The width of a column: 6 for the step length, otherwise six more than the precision (sign-free
scientific notation: a digit, the point, the decimals, a two-digit exponent). -/
def width (precision : Nat) (f : Field) : Nat := if f = .step then 6 else 6 + precision

/-- Where column `k` starts: behind four characters for the iteration number and two blanks, the columns
being two characters apart. -/
def offset (precision : Nat) (cols : List (Field × String)) (k : Nat) : Nat :=
  6 + ((cols.take k).map fun c => width precision c.1 + 2).sum

/-- The characters of a text in a range of positions. -/
def window (text : List Char) (start len : Nat) : List Char := (text.drop start).take len

/-! ### Lemmas -/

theorem center_length {title : List Char} {w : Nat} (h : title.length ≤ w) :
    (center title w true).length = w := by
  unfold center spaces
  simp only [if_true, List.length_append, List.length_replicate]
  have ht : Int.tmod ((w : Int) - title.length) 2 = ((w : Int) - title.length) % 2 :=
    Int.tmod_eq_emod_of_nonneg (by omega)
  rw [ht]
  split <;> split <;> omega

/-- The title is inside its padded text. -/
theorem center_form (title : List Char) (w : Nat) (right : Bool) :
    ∃ a b, center title w right = spaces a ++ title ++ spaces b := by
  unfold center
  cases right
  · refine ⟨if (w : Int) - title.length > 0 then (((w : Int) - title.length) / 2).toNat else 0, 0, ?_⟩
    simp [spaces]
  · exact ⟨_, _, rfl⟩

theorem center_false_length {title : List Char} {w : Nat} (h : title.length ≤ w) :
    (center title w false).length ≤ w := by
  unfold center spaces
  simp only [Bool.false_eq_true, if_false, List.length_append, List.length_replicate]
  split <;> omega

/-- Positions in a concatenation of blocks. -/
theorem window_block (pre mid post : List Char) (s n : Nat) (h1 : pre.length = s) (h2 : mid.length = n) :
    window (pre ++ mid ++ post) s n = mid := by
  unfold window
  subst h1 h2
  simp

theorem flatMap_split {α : Type} (f : α → List Char) (l : List α) (k : Nat) (a : α) (h : l[k]? = some a) :
    l.flatMap f = (l.take k).flatMap f ++ f a ++ (l.drop (k + 1)).flatMap f := by
  obtain ⟨hk, rfl⟩ := List.getElem?_eq_some_iff.1 h
  conv_lhs => rw [← List.take_append_drop k l, List.drop_eq_getElem_cons hk]
  rw [List.flatMap_append, List.flatMap_cons, List.append_assoc]

/-- The tables of headings and of columns agree. -/
theorem heads_table (l : Level) (k : Nat) (c : Field × String) (h : (columns l)[k]? = some c) :
    ∃ hd, (heads l)[k]? = some hd ∧ hd.title = c.2 ∧ hd.six = decide (c.1 = .step) := by
  have hk : k < 14 := by
    have h1 := (List.getElem?_eq_some_iff.1 h).1
    cases l <;> simp [columns] at h1 <;> omega
  interval_cases k <;> cases l <;> simp [columns, heads] at h ⊢ <;> subst h <;> decide

theorem heads_before (l : Level) : ∀ hd ∈ (heads l).dropLast, hd.right = true ∧ hd.sep = true := by
  cases l <;> simp [heads]

theorem columns_length (l : Level) : (columns l).length = (heads l).length := by cases l <;> rfl

theorem titles_fit (l : Level) (precision : Nat) (hp : 3 ≤ precision ∨ l = .l0) :
    ∀ hd ∈ heads l, hd.title.toList.length ≤ hd.width precision := by
  have h9 : ∀ hd ∈ heads l, hd.title.toList.length ≤ if hd.six then 6 else if l = .l0 then 6 else 9 := by
    cases l <;> decide
  intro hd h
  have := h9 hd h
  unfold Head.width
  rcases hp with hp | hp
  · split at this
    · rename_i e; rw [if_pos e]; exact this
    · rename_i e; rw [if_neg e]; split at this <;> omega
  · subst hp
    split at this
    · rename_i e; rw [if_pos e]; exact this
    · rename_i e; rw [if_neg e]; simp at this; omega

theorem heads_prefix (l : Level) (precision : Nat) (hp : 3 ≤ precision ∨ l = .l0) (k : Nat)
    (hk : k < (heads l).length) :
    (((heads l).take k).flatMap (Head.text precision)).length =
      (((columns l).take k).map fun c => width precision c.1 + 2).sum := by
  induction k with
  | zero => rfl
  | succ k ih =>
    have hk' : k < (heads l).length := by omega
    have hkc : k < (columns l).length := by rw [columns_length]; exact hk'
    obtain ⟨hd, h1, h2, h3⟩ := heads_table l k _ (List.getElem?_eq_getElem hkc)
    rw [List.getElem?_eq_getElem hk'] at h1
    have h1' := Option.some.inj h1
    rw [List.take_succ_eq_append_getElem hk', List.take_succ_eq_append_getElem hkc, List.flatMap_append,
      List.length_append, ih hk', List.map_append, List.sum_append]
    congr 1
    simp only [List.flatMap_cons, List.flatMap_nil, List.append_nil, List.map_cons, List.map_nil, List.sum_cons,
      List.sum_nil, Nat.add_zero]
    have hmem : (heads l)[k] ∈ (heads l).dropLast := by
      rw [List.mem_iff_getElem]
      exact ⟨k, by rw [List.length_dropLast]; omega, by rw [List.getElem_dropLast]⟩
    obtain ⟨e1, e2⟩ := heads_before l _ hmem
    unfold Head.text
    rw [e1, e2, List.length_append, center_length (titles_fit l precision hp _ (List.getElem_mem hk'))]
    have : (heads l)[k].width precision = width precision (columns l)[k].1 := by
      unfold Head.width width
      rw [h1', h3]; simp
    rw [this]; rfl

/-- The table of line entries: same quantities, and a separator of two characters counting the place of
the sign of the next entry. -/
theorem cells_table (l : Level) (k : Nat) (c : Field × String) (h : (columns l)[k]? = some c) :
    ∃ ce, (cells l)[k]? = some ce ∧ ce.field = c.1 ∧ (k = 0 → ce.signed = false) ∧
      ∀ ce', (cells l)[k + 1]? = some ce' → ce.sep + (if ce'.signed then 1 else 0) = 2 := by
  have hk : k < 14 := by
    have h1 := (List.getElem?_eq_some_iff.1 h).1
    cases l <;> simp [columns] at h1 <;> omega
  interval_cases k <;> cases l <;> simp [columns, cells] at h ⊢ <;> subst h <;> rfl

theorem cells_length (l : Level) : (cells l).length = (columns l).length := by cases l <;> rfl

/-- Values of the usual size: every number fills its column, and the quantities printed without a place
for the sign are not negative. -/
structure Usual (l : Level) (precision : Nat) (v : Values) : Prop where
  digits : ∀ c ∈ columns l, (v.digits c.1).length = width precision c.1
  pos : ∀ ce ∈ cells l, ce.signed = false → ce.field ≠ .grad → v.neg ce.field = false

theorem cell_length {l : Level} {precision : Nat} {v : Values} (hv : Usual l precision v) {ce : Cell}
    (hce : ce ∈ cells l) (hd : (v.digits ce.field).length = width precision ce.field) :
    (ce.text v).length = (if ce.signed then 1 else 0) + width precision ce.field + ce.sep := by
  unfold Cell.text
  rw [List.length_append, List.length_append, hd]
  congr 2
  · cases hs : ce.signed
    · simp only [Bool.false_eq_true, if_false]
      by_cases hg : ce.field = .grad
      · simp [hg]
      · rw [hv.pos ce hce hs hg]; simp
    · simp
  · simp [spaces]

theorem cells_prefix {l : Level} {precision : Nat} {v : Values} (hv : Usual l precision v) (k : Nat)
    (ce : Cell) (hk : (cells l)[k]? = some ce) :
    (((cells l).take k).flatMap (Cell.text v)).length + (if ce.signed then 1 else 0) =
      (((columns l).take k).map fun c => width precision c.1 + 2).sum := by
  induction k generalizing ce with
  | zero =>
    have h0 : 0 < (columns l).length := by
      rw [← cells_length]; exact (List.getElem?_eq_some_iff.1 hk).1
    obtain ⟨ce', h1, -, h3, -⟩ := cells_table l 0 _ (List.getElem?_eq_getElem h0)
    rw [hk] at h1
    have := Option.some.inj h1
    subst this
    simp [h3 rfl]
  | succ k ih =>
    have hk2 : k + 1 < (cells l).length := (List.getElem?_eq_some_iff.1 hk).1
    have hk1 : k < (cells l).length := by omega
    have hkc : k < (columns l).length := by rw [← cells_length]; exact hk1
    obtain ⟨c0, h1, h2, -, h4⟩ := cells_table l k _ (List.getElem?_eq_getElem hkc)
    have ih' := ih c0 h1
    have h4' := h4 ce hk
    rw [List.getElem?_eq_getElem hk1] at h1
    have h1' := Option.some.inj h1
    rw [List.take_succ_eq_append_getElem hk1, List.take_succ_eq_append_getElem hkc, List.flatMap_append,
      List.length_append, List.map_append, List.sum_append, ← ih']
    simp only [List.flatMap_cons, List.flatMap_nil, List.append_nil, List.map_cons, List.map_nil, List.sum_cons,
      List.sum_nil, Nat.add_zero]
    rw [h1', cell_length hv (by rw [← h1']; exact List.getElem_mem hk1)
      (by rw [h2]; exact hv.digits _ (List.getElem_mem hkc)), h2]
    omega

/-! ### Theorems -/

/-- C120 (header). At every level, for every precision of at least 3 (any precision at level 0): the heading
of every column stands, padded with blanks, in the range of positions of its column. -/
theorem C120_header_partial (l : Level) (precision : Nat) (hp : 3 ≤ precision ∨ l = .l0) (k : Nat)
    (f : Field) (title : String) (hc : (columns l)[k]? = some (f, title)) :
    ∃ a b, window (header l precision) (offset precision (columns l) k) (width precision f) =
      spaces a ++ title.toList ++ spaces b := by
  obtain ⟨hd, h1, h2, h3⟩ := heads_table l k _ hc
  have hk : k < (heads l).length := (List.getElem?_eq_some_iff.1 h1).1
  have hw : hd.width precision = width precision f := by
    unfold Head.width width; rw [h3]; simp
  have hmem : hd ∈ heads l := by
    obtain ⟨hk', e⟩ := List.getElem?_eq_some_iff.1 h1
    rw [← e]; exact List.getElem_mem hk'
  have hfit := titles_fit l precision hp hd hmem
  rw [h2] at hfit
  have hpre : ("iter".toList ++ spaces 2 ++ ((heads l).take k).flatMap (Head.text precision)).length =
      offset precision (columns l) k := by
    rw [List.length_append, heads_prefix l precision hp k hk]; rfl
  unfold header
  rw [flatMap_split _ _ k hd h1]
  cases hr : hd.right with
  | true =>
    have hmid : (center title.toList (hd.width precision) true).length = width precision f := by
      rw [center_length hfit, hw]
    refine (show ∃ a b, center title.toList (hd.width precision) true = _ from center_form _ _ _).imp
      fun a => Exists.imp fun b h => ?_
    rw [← h]
    have := window_block _ (center title.toList (hd.width precision) true)
      ((if hd.sep then spaces 2 else []) ++ ((heads l).drop (k + 1)).flatMap (Head.text precision)) _ _ hpre hmid
    rw [← this]
    congr 1
    unfold Head.text
    rw [h2, hr]
    simp only [List.append_assoc]
  | false =>
    -- the last column
    have hlast : k + 1 = (heads l).length ∧ hd.sep = false := by
      have hk14 : k < 14 := by cases l <;> simp [heads] at hk <;> omega
      interval_cases k <;> cases l <;> simp [heads] at h1 hk ⊢ <;> subst h1 <;> simp_all
    have hnil : (heads l).drop (k + 1) = [] := List.drop_eq_nil_of_le (by omega)
    obtain ⟨a, b, hab⟩ := center_form title.toList (hd.width precision) false
    refine ⟨a, b, ?_⟩
    rw [← hab, hnil]
    have hlen := center_false_length hfit
    have ht : Head.text precision hd = center title.toList (width precision f) false := by
      unfold Head.text
      rw [h2, hr, hlast.2, hw]
      simp
    unfold window
    rw [ht, hw, ← hpre, List.flatMap_nil, List.append_nil, ← List.append_assoc, List.drop_left]
    rw [hw] at hlen
    exact List.take_of_length_le hlen

/-- C120 (lines). At every level, for every precision and every iteration number of at most four digits,
when the numbers have their usual size and the quantities printed without a place for a sign are not
negative: every quantity stands exactly in the range of positions of its column. -/
theorem C120_line_partial (l : Level) (precision : Nat) (iter : List Char) (hi : iter.length ≤ 4) (v : Values)
    (hv : Usual l precision v) (k : Nat) (f : Field) (title : String)
    (hc : (columns l)[k]? = some (f, title)) :
    window (line l iter v) (offset precision (columns l) k) (width precision f) = v.digits f := by
  obtain ⟨ce, h1, h2, -, -⟩ := cells_table l k _ hc
  have h2' : ce.field = f := h2
  have hce : ce ∈ cells l := by
    obtain ⟨hk', e⟩ := List.getElem?_eq_some_iff.1 h1
    rw [← e]; exact List.getElem_mem hk'
  have hmem : (f, title) ∈ columns l := by
    obtain ⟨hk', e⟩ := List.getElem?_eq_some_iff.1 hc
    rw [← e]; exact List.getElem_mem hk'
  have hpre := cells_prefix hv k ce h1
  have hit : (iterText iter).length = 4 := by simp [iterText, spaces]; omega
  unfold line
  rw [flatMap_split _ _ k ce h1]
  have hsgn : (if ce.signed then [if v.neg ce.field then '-' else ' ']
    else if v.neg ce.field && decide (ce.field ≠ .grad) then ['-'] else ([] : List Char)).length =
      if ce.signed then 1 else 0 := by
    cases hs : ce.signed
    · simp only [Bool.false_eq_true, if_false]
      by_cases hg : ce.field = .grad
      · simp [hg]
      · rw [hv.pos ce hce hs hg]; simp
    · simp
  have := window_block (iterText iter ++ spaces 2 ++ ((cells l).take k).flatMap (Cell.text v) ++
      (if ce.signed then [if v.neg ce.field then '-' else ' ']
        else if v.neg ce.field && decide (ce.field ≠ .grad) then ['-'] else [])) (v.digits f)
    (spaces ce.sep ++ ((cells l).drop (k + 1)).flatMap (Cell.text v)) (offset precision (columns l) k)
    (width precision f) (by
      rw [List.length_append, List.length_append, List.length_append, hsgn, hit, Nat.add_assoc, hpre]
      simp [spaces, offset]) (hv.digits _ hmem)
  rw [← this]
  congr 1
  unfold Cell.text
  rw [h2']
  simp only [List.append_assoc]

/-- C120 (when the header appears): exactly before the iterations divisible by ten, and every iteration
prints one line. -/
theorem C120_output (l : Level) (precision iteration : Nat) (iter : List Char) (v : Values) :
    output l precision iteration iter v =
      if 10 ∣ iteration then [header l precision, line l iter v] else [line l iter v] := by
  unfold output
  by_cases h : iteration % 10 = 0
  · rw [if_pos h, if_pos (Nat.dvd_of_mod_eq_zero h)]; rfl
  · rw [if_neg h, if_neg fun h' => h (Nat.mod_eq_zero_of_dvd h')]; rfl

/-! ### Examples -/

/-- Plausible values with three decimals; the improvements are negative. -/
def exValues : Values where
  neg f := decide (f = .dV ∨ f = .dVexp)
  digits f := if f = .step then "0.5000".toList else "1.250e+00".toList

/-- Non-vacuity: these values are of the usual size at every level, -/
example (l : Level) : Usual l 3 exValues :=
  ⟨by cases l <;> decide, by cases l <;> decide⟩

/-- and give this line. -/
example : line .l0 "12".toList exValues =
    "  12  1.250e+00  1.250e+00  1.250e+00  1.250e+00  0.5000 -1.250e+00 -1.250e+00".toList := by decide +kernel

example : header .l0 3 =
    "iter    cost       stop      |grad|      preg      step    dV-exp       dV".toList := by decide +kernel

/-- C120 fails for a negative cost: it takes one more character, and every later column is shifted. -/
theorem C120_negative_cost_counterexample :
    let v : Values := { exValues with neg := fun f => decide (f = .cost) }
    window (line .l0 "12".toList v) (offset 3 (columns .l0) 1) (width 3 .stop) ≠ v.digits .stop := by
  decide +kernel

/-- C120 fails for precisions below 3 from level 1 on: the headings of the feasibilities are wider than
their columns, and later headings are shifted. -/
theorem C120_precision_counterexample :
    ¬ ∃ a b, window (header .l1 2) (offset 2 (columns .l1) 7) (width 2 .dVexp) =
      spaces a ++ "dV-exp".toList ++ spaces b := by
  rintro ⟨a, b, h⟩
  have hl : (window (header .l1 2) (offset 2 (columns .l1) 7) (width 2 .dVexp)).length = 8 := by decide +kernel
  have hl' := congrArg List.length h
  rw [hl] at hl'
  simp [spaces] at hl'
  have ha : a ≤ 2 := by omega
  have hb : b = 2 - a := by omega
  subst hb
  interval_cases a <;> revert h <;> decide +kernel

end Verif.Verbose
