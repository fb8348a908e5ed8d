import Verif.Model.PyAttrs
import Mathlib.Data.List.Nodup

/-!
# C124: attributes in Python are the members of the C++ objects
-/

namespace Verif.PyAttrs

set_option linter.constructorNameAsVariable false

variable {V : Type}

/-! ### Specification -/

/-- The last value assigned to `a` in a history, if any. -/
def lastWrite (a : Name) : List (Name × V) → Option V
  | [] => none
  | p :: h => (lastWrite a h).orElse fun _ => if p.1 = a then some p.2 else none

/-- Whether the class lets the attribute be assigned. -/
def Writable (c : Cls) (a : Name) : Prop := ∃ r ∈ attrs c, r.name = a ∧ r.set ≠ none

instance (c : Cls) (a : Name) : Decidable (Writable c a) := by unfold Writable; infer_instance

/-- The attributes whose member has another spelling. -/
def spelling : List (Name × Name) :=
  [(.«xs», .«xs_»), (.«us», .«us_»), (.«fs», .«fs_»), (.«isFeasible», .«is_feasible_»), (.«cost», .«cost_»),
   (.«merit», .«merit_»), (.«stop», .«stop_»), (.«d», .«d_»), (.«dV», .«dV_»), (.«dPhi», .«dPhi_»),
   (.«dVexp», .«dVexp_»), (.«dPhiexp», .«dPhiexp_»), (.«dfeas», .«dfeas_»), (.«feas», .«feas_»),
   (.«ffeas», .«ffeas_»), (.«gfeas», .«gfeas_»), (.«hfeas», .«hfeas_»), (.«ffeas_try», .«ffeas_try_»),
   (.«gfeas_try», .«gfeas_try_»), (.«hfeas_try», .«hfeas_try_»), (.«stepLength», .«steplength_»),
   (.«iter», .«iter_»)]

/-- The member that an attribute of this name stands for. -/
def Names (a m : Name) : Prop := m = a ∨ (a, m) ∈ spelling

instance (a m : Name) : Decidable (Names a m) := by unfold Names; infer_instance

/-- The classes with an attribute that reads or writes another member. -/
def misbound : List Cls := [.activationBounds, .thrusters, .contactData6D, .actionModelCodeGen]

/-! ### Lemmas -/

/-- The table of a class is in order. -/
def Ordered (c : Cls) : Prop :=
  ((attrs c).map Attr.name).Nodup ∧ ((attrs c).map Attr.get).Nodup ∧
  ∀ r ∈ attrs c, Names r.name r.get ∧ (r.set = none ∨ r.set = some r.get)

instance (c : Cls) : Decidable (Ordered c) := by unfold Ordered; infer_instance

theorem classes_all (c : Cls) : c ∈ classes := by cases c <;> decide

set_option maxRecDepth 100000 in
theorem ordered (c : Cls) (hc : c ∉ misbound) : Ordered c := by
  revert hc
  cases c <;> decide

theorem find_mem {c : Cls} {a : Name} {r : Attr} (h : find c a = some r) : r ∈ attrs c ∧ r.name = a := by
  unfold find at h
  exact ⟨List.mem_of_find?_eq_some h, by simpa using List.find?_some h⟩

theorem find_of_mem {c : Cls} (hc : ((attrs c).map Attr.name).Nodup) {r : Attr} (hr : r ∈ attrs c) :
    find c r.name = some r := by
  have : ∃ r', find c r.name = some r' := by
    cases h : find c r.name with
    | some r' => exact ⟨r', rfl⟩
    | none =>
      unfold find at h
      have := List.find?_eq_none.1 h r hr
      simp at this
  obtain ⟨r', h⟩ := this
  have h' := find_mem h
  rw [h]
  exact congrArg some (List.inj_on_of_nodup_map hc h'.1 hr h'.2)

/-! ### Theorems -/

/-- C124 (bindings): in every class but four, each attribute reads the member of its name, and its setter, if any, writes
that member; no two attributes share a member. -/
theorem C124_bound_partial (c : Cls) (hc : c ∉ misbound) :
    (∀ r ∈ attrs c, Names r.name r.get ∧ ∀ m, r.set = some m → m = r.get) ∧
    ∀ r ∈ attrs c, ∀ r' ∈ attrs c, r.get = r'.get → r = r' := by
  obtain ⟨-, hg, hs⟩ := ordered c hc
  refine ⟨fun r hr => ⟨(hs r hr).1, fun m hm => ?_⟩, fun r hr r' hr' h => List.inj_on_of_nodup_map hg hr hr' h⟩
  rcases (hs r hr).2 with h | h <;> rw [h] at hm
  · cases hm
  · exact (Option.some.inj hm).symm

/-- C124 (histories): in every class but four, after any history of assignments an attribute that can be assigned reads as
the last value assigned to it, or as before the history if there is none; one that cannot be assigned reads as before. -/
theorem C124_history_partial (c : Cls) (hc : c ∉ misbound) (o : Obj V) (h : List (Name × V)) (a : Name)
    (ha : ∃ r ∈ attrs c, r.name = a) :
    getattr c (run c o h) a = if Writable c a then ((lastWrite a h).orElse fun _ => getattr c o a) else getattr c o a := by
  obtain ⟨hn, hg, hs⟩ := ordered c hc
  obtain ⟨r, hr, rfl⟩ := ha
  have hf := find_of_mem hn hr
  have hget : ∀ o : Obj V, getattr c o r.name = some (o r.get) := fun o => by simp [getattr, hf]
  -- one assignment
  have step : ∀ (o : Obj V) (p : Name × V), ((setattr c o p.1 p.2).getD o) r.get =
      if Writable c r.name ∧ p.1 = r.name then p.2 else o r.get := by
    intro o p
    unfold setattr
    cases hp : find c p.1 with
    | none =>
      have : p.1 ≠ r.name := fun e => by rw [e, hf] at hp; cases hp
      simp [this]
    | some q =>
      obtain ⟨hq, hqn⟩ := find_mem hp
      obtain ⟨qn, qg, qs⟩ := q
      cases qs with
      | none =>
        have : ¬ (Writable c r.name ∧ p.1 = r.name) := by
          rintro ⟨⟨r', hr', hrn, hset⟩, he⟩
          have h1 := List.inj_on_of_nodup_map hn hr' hr hrn
          rw [he, hf] at hp
          cases hp
          subst h1
          exact hset rfl
        simp [this]
      | some m =>
        have hm : m = qg := by
          rcases (hs _ hq).2 with h | h
          · cases h
          · exact Option.some.inj h
        subst hm
        by_cases he : p.1 = r.name
        · have : r = ⟨qn, m, some m⟩ := by rw [he, hf] at hp; exact Option.some.inj hp
          have hw : Writable c r.name := ⟨r, hr, rfl, by rw [this]; simp⟩
          have hw' : Writable c qn := by rw [this] at hw; exact hw
          simp [hw', he, this]
        · have : r.get ≠ m := fun e => he (by
            have h1 := List.inj_on_of_nodup_map hg hr hq e
            rw [h1]; exact hqn.symm)
          simp [he, this]
  have key : ∀ (h : List (Name × V)) (o : Obj V), (run c o h) r.get =
      if Writable c r.name then (lastWrite r.name h).getD (o r.get) else o r.get := by
    intro h
    induction h with
    | nil => intro o; simp [run, lastWrite]
    | cons p h ih =>
      intro o
      have : run c o (p :: h) = run c ((setattr c o p.1 p.2).getD o) h := rfl
      rw [this, ih, step]
      by_cases hw : Writable c r.name
      · simp only [hw, if_true, true_and, lastWrite]
        cases lastWrite r.name h with
        | some v => simp
        | none => by_cases he : p.1 = r.name <;> simp [he]
      · simp [hw]
  rw [hget, hget, key]
  split
  · cases lastWrite r.name h <;> simp
  · rfl

/-! ### Non-vacuity -/

example : getattr .actionDataAbstract (run .actionDataAbstract (fun _ => 0) [(.«cost», 3), (.«Lx», 5), (.«cost», 4)])
    .«cost» = some 4 := by
  rw [C124_history_partial .actionDataAbstract (by decide) _ _ .«cost» ⟨rw .«cost», by decide, rfl⟩, if_pos (by decide)]
  rfl

/-! ### Where the claim fails -/

/-- Assigning the upper bounds of an activation changes the lower bounds and leaves the upper ones, for all values. -/
theorem C124_bounds_counterexample (o : Obj V) (v : V) (o' : Obj V)
    (h : setattr .activationBounds o .«ub» v = some o') :
    getattr .activationBounds o' .«ub» = some (o .«ub») ∧ getattr .activationBounds o' .«lb» = some v := by
  cases h
  exact ⟨rfl, rfl⟩

/-- The maximum thrust of a thruster reads and writes the minimum thrust. The maximum cannot be read, and no history of
assignments changes it. -/
theorem C124_thrust_counterexample (o : Obj V) (h : List (Name × V)) :
    getattr .thrusters o .«max_thrust» = getattr .thrusters o .«min_thrust» ∧
    (∀ v, setattr .thrusters o .«max_thrust» v = setattr .thrusters o .«min_thrust» v) ∧
    run .thrusters o h .«max_thrust» = o .«max_thrust» := by
  refine ⟨rfl, fun _ => rfl, ?_⟩
  induction h generalizing o with
  | nil => rfl
  | cons p h ih =>
    have : run .thrusters o (p :: h) = run .thrusters ((setattr .thrusters o p.1 p.2).getD o) h := rfl
    rw [this, ih]
    unfold setattr
    split
    · rename_i q g m hq
      have : m ≠ .«max_thrust» := by
        have := (find_mem hq).1
        simp only [attrs, rw, List.mem_cons, Attr.mk.injEq, List.not_mem_nil, or_false] at this
        rcases this with h | h | h | h | h <;> (obtain ⟨-, -, h⟩ := h; cases h; decide)
      simp [Ne.symm this]
    · rfl

/-- `rMf` of the data of a six-dimensional contact is the placement of the frame in its joint, not in the reference. -/
theorem C124_contact_counterexample (o : Obj V) : getattr .contactData6D o .«rMf» = some (o .«jMf») := rfl

/-- The sizes of the outputs of a code-generated model at the terminal node and of its quasi-static function are not
those of the model: they read the ones of running nodes. -/
theorem C124_codegen_counterexample (o : Obj V) :
    getattr .actionModelCodeGen o .«nY1_T» = some (o .«nY1») ∧
    getattr .actionModelCodeGen o .«nY2_T» = some (o .«nY2») ∧
    getattr .actionModelCodeGen o .«nY3» = some (o .«nY2») ∧
    getattr .actionModelCodeGen o .«nY3_T» = some (o .«nY2») := ⟨rfl, rfl, rfl, rfl⟩

end Verif.PyAttrs
