import Verif.Spec.CsvStream

/-!
# C118: files written with `CsvStream` are read back
-/

namespace Verif.Csv

/-- Every quote doubled. -/
def double (v : List Char) : List Char := v.flatMap fun c => if c = '"' then ['"', '"'] else [c]

theorem double_plain {v : List Char} (h : ∀ c ∈ v, c ≠ '"') : double v = v := by
  induction v with
  | nil => rfl
  | cons c v ih =>
    have := ih fun c' h' => h c' (List.mem_cons_of_mem _ h')
    simp only [double, List.flatMap_cons] at this ⊢
    rw [if_neg (h c List.mem_cons_self), this]; rfl

theorem findFrom_none {val : List Char} {start : Nat} (h : findFrom val start = none) :
    ∀ c ∈ val.drop start, c ≠ '"' := by
  intro c hc he
  subst he
  rw [List.mem_iff_getElem?] at hc
  obtain ⟨i, hi⟩ := hc
  rw [List.getElem?_drop] at hi
  have hlt : start + i < val.length := by
    by_contra hn
    rw [List.getElem?_eq_none (by omega)] at hi; cases hi
  have := List.find?_eq_none.1 h (start + i) (List.mem_range.2 hlt)
  simp [hi] at this

theorem findFrom_min {val : List Char} {start i : Nat} (h : findFrom val start = some i) :
    val[i]? = some '"' ∧ ∀ j, start ≤ j → j < i → val[j]? ≠ some '"' := by
  have h1 := List.find?_some h
  simp only [Bool.and_eq_true, decide_eq_true_eq] at h1
  refine ⟨h1.2, fun j hj hji he => ?_⟩
  unfold findFrom at h
  rw [List.find?_range_eq_some] at h
  have := h.2.2 j hji
  simp [hj, he] at this

theorem escapeLoop_eq (val : List Char) (start : Nat) (acc : List Char) :
    escapeLoop val start acc = acc ++ double (val.drop start) ++ ['"'] := by
  induction h : val.length - start using Nat.strongRecOn generalizing start acc with
  | ind n ih =>
    rw [escapeLoop]
    split
    · rename_i hlt
      split
      · rename_i i hi
        obtain ⟨h1, h2⟩ := findFrom_some hi
        obtain ⟨h3, h4⟩ := findFrom_min hi
        rw [ih (val.length - (i + 1)) (by omega) (i + 1) _ rfl, h3]
        have hsplit : val.drop start = (val.drop start).take (i - start) ++ '"' :: val.drop (i + 1) := by
          conv_lhs => rw [← List.take_append_drop (i - start) (val.drop start)]
          congr 1
          rw [List.drop_drop, show start + (i - start) = i by omega, List.drop_eq_getElem_cons h2]
          congr 1
          rw [List.getElem?_eq_getElem h2] at h3
          exact Option.some.inj h3
        have hpl : double ((val.drop start).take (i - start)) = (val.drop start).take (i - start) := by
          refine double_plain fun c hc he => ?_
          subst he
          rw [List.mem_iff_getElem?] at hc
          obtain ⟨j, hj⟩ := hc
          rw [List.getElem?_take] at hj
          split at hj
          · rename_i hlt'
            rw [List.getElem?_drop] at hj
            exact h4 (start + j) (by omega) (by omega) hj
          · cases hj
        conv_rhs => rw [hsplit]
        have : double ((val.drop start).take (i - start) ++ '"' :: val.drop (i + 1)) =
            (val.drop start).take (i - start) ++ ['"', '"'] ++ double (val.drop (i + 1)) := by
          rw [double, List.flatMap_append, List.flatMap_cons, if_pos rfl]
          rw [show List.flatMap (fun c => if c = '"' then ['"', '"'] else [c]) ((val.drop start).take (i - start))
            = double ((val.drop start).take (i - start)) from rfl, hpl, ← List.append_assoc]
          rfl
        rw [this]
        simp
      · rename_i hn
        rw [double_plain (findFrom_none hn)]
    · rename_i hge
      rw [List.drop_eq_nil_of_le (by omega)]
      simp [double]

/-- C118 (quoting). A string is written between quotes with every quote in it doubled. -/
theorem C118_escape (val : List Char) :
    escape val = '"' :: (val.flatMap fun c => if c = '"' then ['"', '"'] else [c]) ++ ['"'] := by
  unfold escape
  rw [escapeLoop_eq]
  simp [double]

/-- The text that operations append to the file. -/
def text (sep : Char) : Bool → List Op → List Char
  | _, [] => []
  | b, .str v :: ops => (if b then [] else [sep]) ++ escape v ++ text sep false ops
  | b, .raw v :: ops => (if b then [] else [sep]) ++ v ++ text sep false ops
  | _, .endl :: ops => '\n' :: text sep true ops

theorem foldl_text (sep : Char) (ops : List Op) (s : St) :
    (ops.foldl (step [sep]) s).out = s.out ++ text sep s.first ops := by
  induction ops generalizing s with
  | nil => simp [text]
  | cons o ops ih =>
    rw [List.foldl_cons, ih]
    cases o <;> simp [step, write, text]

section
variable {sep : Char}

theorem parse_quoted (v : List Char) (f : List Char) (row : List (List Char)) (rest : List Char) :
    parse sep .quoted f row (double v ++ '"' :: rest) = parse sep .closed (f ++ v) row rest := by
  induction v generalizing f with
  | nil => simp [double, parse]
  | cons c v ih =>
    have hd : double (c :: v) = (if c = '"' then ['"', '"'] else [c]) ++ double v := by
      simp [double]
    rw [hd]
    by_cases hc : c = '"'
    · subst hc
      simp only [if_true, List.cons_append, List.nil_append, parse]
      rw [ih]; simp
    · simp only [if_neg hc, List.cons_append, List.nil_append, parse]
      rw [ih]; simp

theorem parse_plain (v : List Char) (hv : ∀ c ∈ v, c ≠ '"' ∧ c ≠ sep ∧ c ≠ '\n') (f : List Char)
    (row : List (List Char)) (rest : List Char) :
    parse sep .plain f row (v ++ rest) = parse sep .plain (f ++ v) row rest := by
  induction v generalizing f with
  | nil => simp
  | cons c v ih =>
    obtain ⟨h1, h2, h3⟩ := hv c List.mem_cons_self
    rw [List.cons_append, parse, if_neg h1, if_neg h2, if_neg h3,
      ih fun c' h' => hv c' (List.mem_cons_of_mem _ h')]
    simp

theorem parse_text (hs : sep ≠ '"') (hn : sep ≠ '\n') (ops : List Op) (hp : ∀ o ∈ ops, Plain sep o) :
    parse sep .line [] [] (text sep true ops) = some (rows [] ops) ∧
    ∀ f row, parse sep .closed f row (text sep false ops) = some (rows (row ++ [f]) ops) ∧
      parse sep .plain f row (text sep false ops) = some (rows (row ++ [f]) ops) := by
  induction ops with
  | nil => simp [text, parse, rows]
  | cons o ops ih =>
    obtain ⟨ih1, ih2⟩ := ih fun o' h' => hp o' (List.mem_cons_of_mem _ h')
    have ho := hp o List.mem_cons_self
    cases o with
    | str v =>
      have key : ∀ row, parse sep .quoted [] row (double v ++ ['"'] ++ text sep false ops) =
          some (rows (row ++ [v]) ops) := by
        intro row
        rw [List.append_assoc, List.cons_append, List.nil_append, parse_quoted, List.nil_append]
        exact (ih2 v row).1
      have he : escape v = '"' :: (double v ++ ['"']) := by rw [C118_escape]; rfl
      simp only [text, he, rows]
      refine ⟨?_, fun f row => ⟨?_, ?_⟩⟩
      · simp only [if_true, List.nil_append, List.cons_append, parse]
        exact key []
      · simp only [Bool.false_eq_true, if_false, List.cons_append, List.nil_append, parse, if_neg hs]
        exact key _
      · simp only [Bool.false_eq_true, if_false, List.cons_append, List.nil_append, parse, if_neg hs]
        exact key _
    | raw v =>
      obtain ⟨h0, hv⟩ := ho
      obtain ⟨c, v, rfl⟩ := List.exists_cons_of_ne_nil h0
      obtain ⟨h1, h2, h3⟩ := hv c List.mem_cons_self
      have key : ∀ row, parse sep .plain [c] row (v ++ text sep false ops) =
          some (rows (row ++ [c :: v]) ops) := by
        intro row
        rw [parse_plain v fun c' h' => hv c' (List.mem_cons_of_mem _ h')]
        exact (ih2 _ row).2
      simp only [text, rows]
      refine ⟨?_, fun f row => ⟨?_, ?_⟩⟩
      · simp only [if_true, List.nil_append, List.cons_append, parse, if_neg h1, if_neg h2, if_neg h3]
        exact key []
      · simp only [Bool.false_eq_true, if_false, List.cons_append, List.nil_append, parse, if_neg hs, if_neg h1,
          if_neg h2, if_neg h3, if_true]
        exact key _
      · simp only [Bool.false_eq_true, if_false, List.cons_append, List.nil_append, parse, if_neg hs, if_neg h1,
          if_neg h2, if_neg h3, if_true]
        exact key _
    | endl =>
      have hq : ('\n' : Char) ≠ '"' := by decide
      simp only [text, rows, parse, if_neg hq, if_neg hn.symm, if_true, ih1]
      simp

end

/-- C118. For every separator character other than the quote and the newline, and every history of writes
and row ends: reading the file gives back the rows and fields that were written. Strings are arbitrary
(they may hold separators, quotes and newlines); other values must be printed without these characters and
not be empty, as numbers are. -/
theorem C118_round_trip (sep : Char) (hq : sep ≠ '"') (hn : sep ≠ '\n') (ops : List Op)
    (hp : ∀ o ∈ ops, Plain sep o) : read sep (file [sep] ops) = some (rows [] ops) := by
  unfold read file
  rw [foldl_text]
  exact (parse_text hq hn ops hp).1

/-- C118 (values that are not strings): text handed over as something that is not a string (a character, a
modifiable character array) is not quoted, so a separator in it splits the field. -/
theorem C118_raw_counterexample :
    read ',' (file [','] [.raw ['a', ',', 'b'], .endl]) = some [[['a'], ['b']]] ∧
    rows [] [.raw ['a', ',', 'b'], .endl] = [[['a', ',', 'b']]] := by decide

/-- Non-vacuity: a string with a quote, a separator and a newline, then a number. -/
example : read ',' (file [','] [.str ['a', '"', ',', '\n'], .raw ['1', '.', '5'], .endl, .str []]) =
    some [[['a', '"', ',', '\n'], ['1', '.', '5']], [[]]] := by
  rw [C118_round_trip ',' (by decide) (by decide)]
  · rfl
  · intro o ho
    simp only [List.mem_cons, List.not_mem_nil, or_false] at ho
    rcases ho with rfl | rfl | rfl | rfl <;> simp [Plain]

end Verif.Csv
