import Verif.Model.Threads

/-!
# C121: problems with models written in Python are evaluated by one thread

The interpreter may only be entered by one thread at a time, and the classes that call Python do not lock it.
-/

namespace Verif.Threads

/-! ### Specification -/

/-- The parts whose data a call creates, in order. -/
def created : Op → List Part
  | .newState => []
  | .createData n => n
  | .build ms t => ms.flatten ++ t
  | .buildWith _ _ => []
  | .copy => []
  | .circularAppend n => n
  | .circularAppendData _ => []
  | .updateModel _ n => n
  | .updateNode _ _ => []
  | .setTerminalModel n => n
  | .setNthreads _ => []

/-- A Python part that announces itself when its data is created. -/
def Announces (p : Part) : Prop := ∃ c, p = .py c ∧ c ≠ .state ∧ c ≠ .constraint

/-- Some node of the problem runs Python code. -/
def Problem.runsPython (p : Problem) : Prop := ∃ n, (n ∈ p.running ∨ n = p.term) ∧ Threads.runsPython n = true

/-- The process at its start. -/
def fresh : World := ⟨true, ⟨[], [], none⟩⟩

/-! ### Lemmas -/

theorem create_append (a b : Node) (f : Bool) : create (a ++ b) f = create b (create a f) := by
  simp [create]

theorem foldl_create (ms : List Node) (f : Bool) :
    ms.foldl (fun f n => create n f) f = create ms.flatten f := by
  induction ms generalizing f with
  | nil => rfl
  | cons m ms ih => rw [List.foldl_cons, ih, List.flatten_cons, create_append]

theorem step_flag (hw : Nat) (w : World) (o : Op) (ho : o ≠ .newState) :
    (step hw w o).flag = create (created o) w.flag := by
  cases o with
  | newState => exact absurd rfl ho
  | build ms t => simp only [step, created, create_append, foldl_create]
  | updateModel i n => rfl
  | updateNode i n => rfl
  | setNthreads k => rfl
  | _ => rfl

theorem create_false (n : Node) (h : Part.codegen ∉ n) : create n false = false := by
  induction n with
  | nil => rfl
  | cons p n ih =>
    have hp : p.create false = false := by
      rcases p with _ | c | _
      · rfl
      · cases c <;> rfl
      · exact absurd List.mem_cons_self h
    unfold create
    rw [List.foldl_cons, hp]
    exact ih fun h' => h (List.mem_cons_of_mem _ h')

theorem create_announces (a b : Node) (p : Part) (hp : Announces p) (hb : Part.codegen ∉ b) (f : Bool) :
    create (a ++ p :: b) f = false := by
  obtain ⟨c, rfl, h1, h2⟩ := hp
  rw [create_append]
  have h : (Part.py c).create (create a f) = false := by
    cases c <;> first | rfl | exact absurd rfl h1 | exact absurd rfl h2
  show create b ((Part.py c).create (create a f)) = false
  rw [h]
  exact create_false b hb

theorem create_true (n : Node) (h : ∀ p ∈ n, ¬ Announces p) : create n true = true := by
  induction n with
  | nil => rfl
  | cons p n ih =>
    have hp : p.create true = true := by
      rcases p with _ | c | _
      · rfl
      · have := h _ List.mem_cons_self
        by_cases h1 : c = .state
        · subst h1; rfl
        · by_cases h2 : c = .constraint
          · subst h2; rfl
          · exact absurd ⟨c, rfl, h1, h2⟩ this
      · rfl
    unfold create
    rw [List.foldl_cons, hp]
    exact ih fun q hq => h q (List.mem_cons_of_mem _ hq)

/-! ### Theorems -/

/-- C121 (the flag): after any sequence of calls the flag is down if the last thing that touched it was a
Python state or a Python part that announces itself, and up if it was generated code. Here for one call: what
the call does to the flag is what the parts it creates do, the last one winning. -/
theorem C121_flag (hw : Nat) (w : World) (o : Op) (a b : Node) (p : Part) (hc : created o = a ++ p :: b) :
    (Announces p → Part.codegen ∉ b → (step hw w o).flag = false) ∧
    (p = .codegen → (∀ q ∈ b, ¬ Announces q) → (step hw w o).flag = true) ∧
    ((∀ q ∈ created o, ¬ Announces q ∧ q ≠ .codegen) → (step hw w o).flag = w.flag) := by
  have ho : o ≠ .newState := by
    rintro rfl
    simp [created] at hc
  refine ⟨fun hp hb => ?_, fun hp hb => ?_, fun h => ?_⟩
  · rw [step_flag hw w o ho, hc]; exact create_announces a b p hp hb _
  · rw [step_flag hw w o ho, hc, create_append, hp]
    exact create_true b hb
  · rw [step_flag hw w o ho]
    cases hf : w.flag with
    | true => exact create_true _ fun q hq => (h q hq).1
    | false => exact create_false _ fun hq => (h _ hq).2 rfl

/-- C121 (the number of threads): it is decided by the last constructor or call of `set_nthreads` and the flag
at that moment, and by nothing else: changing nodes leaves it. -/
theorem C121_nthreads (hw : Nat) (w : World) (ms : List Node) (t : Node) (k : Int) (post : List Op)
    (hpost : ∀ o ∈ post, o ≠ .copy ∧ (∀ j, o ≠ .setNthreads j) ∧ (∀ a b, o ≠ .build a b) ∧ ∀ a b, o ≠ .buildWith a b) :
    (run hw (.build ms t :: post) w).prob.nthreads = some (if (step hw w (.build ms t)).flag then hw else 1) ∧
    (run hw (.buildWith ms t :: post) w).prob.nthreads = some (if w.flag then hw else 1) ∧
    (run hw (.setNthreads k :: post) w).prob.nthreads =
      some (if w.flag then (if k < 1 then hw else k.toNat) else 1) := by
  have key : ∀ w : World, (run hw post w).prob.nthreads = w.prob.nthreads := by
    induction post with
    | nil => intro w; rfl
    | cons o post ih =>
      intro w
      have h1 := hpost o List.mem_cons_self
      refine (ih (fun o' ho' => hpost o' (List.mem_cons_of_mem _ ho')) (step hw w o)).trans ?_
      cases o with
      | build a b => exact absurd rfl (h1.2.2.1 a b)
      | buildWith a b => exact absurd rfl (h1.2.2.2 a b)
      | copy => exact absurd rfl h1.1
      | setNthreads j => exact absurd rfl (h1.2.1 j)
      | updateModel i n =>
        show (w.prob.replace i n).nthreads = _
        unfold Problem.replace; split <;> rfl
      | updateNode i n =>
        show (w.prob.replace i n).nthreads = _
        unfold Problem.replace; split <;> rfl
      | _ => rfl
  exact ⟨key _, key _, key _⟩

/-- C121. If the flag is down when a problem has been built, or a problem is single-threaded with the flag down,
then as long as no data of generated code is created and the problem is not copied, it stays with one thread:
whatever nodes are added, replaced or appended, whatever `set_nthreads` asks for, and whatever other problems are
built. -/
theorem C121_one_thread_partial (hw : Nat) (w : World) (hf : w.flag = false) (h1 : w.prob.nthreads = some 1)
    (post : List Op) (hpost : ∀ o ∈ post, o ≠ .copy ∧ Part.codegen ∉ created o) :
    (run hw post w).prob.nthreads = some 1 ∧ (run hw post w).flag = false := by
  induction post generalizing w with
  | nil => exact ⟨h1, hf⟩
  | cons o post ih =>
    have ho := hpost o List.mem_cons_self
    have hfl : (step hw w o).flag = false := by
      by_cases hs : o = .newState
      · subst hs; rfl
      · rw [step_flag hw w o hs, hf]; exact create_false _ ho.2
    refine ih (step hw w o) hfl ?_ fun o' ho' => hpost o' (List.mem_cons_of_mem _ ho')
    cases o with
    | copy => exact absurd rfl ho.1
    | build a b =>
      have hfl' := hfl
      simp only [step] at hfl' ⊢
      rw [hfl']; rfl
    | buildWith a b => simp only [step, hf]; rfl
    | setNthreads j => simp only [step, hf]; rfl
    | updateModel i n =>
      show (w.prob.replace i n).nthreads = _
      unfold Problem.replace; split <;> exact h1
    | updateNode i n =>
      show (w.prob.replace i n).nthreads = _
      unfold Problem.replace; split <;> exact h1
    | _ => exact h1

/-- C121 (problems built from models): if among the parts of the nodes there is a Python part other than a state or
a constraint, and no generated code behind it, then the problem has one thread, and keeps it as in
`C121_one_thread_partial`, whatever happened in the process before. -/
theorem C121_built_partial (hw : Nat) (w : World) (ms : List Node) (t : Node) (a b : Node) (p : Part)
    (hparts : ms.flatten ++ t = a ++ p :: b) (hp : Announces p) (hb : Part.codegen ∉ b)
    (post : List Op) (hpost : ∀ o ∈ post, o ≠ .copy ∧ Part.codegen ∉ created o) :
    (run hw (.build ms t :: post) w).prob.nthreads = some 1 := by
  have hf : (step hw w (.build ms t)).flag = false := (C121_flag hw w (.build ms t) a b p hparts).1 hp hb
  refine (C121_one_thread_partial hw (step hw w (.build ms t)) hf ?_ post hpost).1
  have hf' := hf
  simp only [step] at hf' ⊢
  rw [hf']; rfl

/-- C121 (a process that never meets Python or generated code uses all threads): problems get the number of threads
of the machine. -/
theorem C121_all_threads (hw : Nat) (pre : List Op) (ms : List Node) (t : Node)
    (hpre : ∀ o ∈ pre, o ≠ .newState ∧ ∀ q ∈ created o, ¬ Announces q) (hn : ∀ q ∈ ms.flatten ++ t, ¬ Announces q) :
    (run hw (pre ++ [.build ms t]) fresh).prob.nthreads = some hw := by
  have key : ∀ w : World, w.flag = true → (run hw pre w).flag = true := by
    induction pre with
    | nil => intro w h; exact h
    | cons o pre ih =>
      intro w h
      have ho := hpre o List.mem_cons_self
      refine ih (fun o' ho' => hpre o' (List.mem_cons_of_mem _ ho')) _ ?_
      rw [step_flag hw w o ho.1, h]
      exact create_true _ ho.2
  have hrun : run hw (pre ++ [.build ms t]) fresh = step hw (run hw pre fresh) (.build ms t) := by
    simp [run]
  have hfl : (step hw (run hw pre fresh) (.build ms t)).flag = true := by
    rw [step_flag _ _ _ (by simp), key fresh rfl]; exact create_true _ hn
  rw [hrun]
  have hf' := hfl
  simp only [step] at hf' ⊢
  rw [hf']; rfl

/-! ### Non-vacuity -/

/-- A node with a differential model in Python whose cost is in C++. -/
def pyNode : Node := [.py .differential, .cpp]

example : (run 8 [.build [[.cpp], pyNode] [.cpp], .setNthreads 4, .updateModel 0 [.cpp], .circularAppend pyNode]
    fresh).prob.nthreads = some 1 :=
  C121_built_partial 8 fresh [[.cpp], pyNode] [.cpp] [.cpp] [.cpp, .cpp] (.py .differential) rfl
    ⟨_, rfl, by decide, by decide⟩ (by decide) _ (by
      intro o ho
      simp only [List.mem_cons, List.not_mem_nil, or_false] at ho
      rcases ho with rfl | rfl | rfl <;> refine ⟨by simp, by decide⟩)

/-! ### Where the claim fails -/

/-- A problem of a fresh process runs Python code in several threads. -/
def Unsafe (ops : List Op) : Prop :=
  (run 8 ops fresh).prob.runsPython ∧ ∃ k, (run 8 ops fresh).prob.nthreads = some k ∧ 1 < k

/-- Generated code in the terminal node turns threads on again for the Python nodes before it. -/
theorem C121_codegen_counterexample : Unsafe [.build [pyNode] [.codegen]] :=
  ⟨⟨pyNode, Or.inl (by decide), by decide⟩, 8, by decide, by decide⟩

/-- A Python model installed in an existing problem leaves its number of threads. -/
theorem C121_update_counterexample :
    Unsafe [.build [[.cpp], [.cpp]] [.cpp], .updateModel 0 pyNode] ∧
    Unsafe [.build [[.cpp], [.cpp]] [.cpp], .circularAppend pyNode] ∧
    Unsafe [.build [[.cpp], [.cpp]] [.cpp], .setTerminalModel pyNode] :=
  ⟨⟨⟨pyNode, Or.inl (by decide), by decide⟩, 8, by decide, by decide⟩,
    ⟨⟨pyNode, Or.inl (by decide), by decide⟩, 8, by decide, by decide⟩,
    ⟨⟨pyNode, Or.inr (by decide), by decide⟩, 8, by decide, by decide⟩⟩

/-- A constraint written in Python does not announce itself. -/
theorem C121_constraint_counterexample : Unsafe [.build [[.cpp, .py .constraint]] [.cpp]] :=
  ⟨⟨[.cpp, .py .constraint], Or.inl (by decide), by decide⟩, 8, by decide, by decide⟩

/-- A state written in Python is forgotten as soon as data of generated code is created. -/
theorem C121_state_counterexample :
    Unsafe [.newState, .createData [.codegen], .build [[.py .state]] [.py .state]] :=
  ⟨⟨[.py .state], Or.inl (by decide), by decide⟩, 8, by decide, by decide⟩

/-- The copy of a problem has an uninitialised number of threads. -/
theorem C121_copy_counterexample :
    (run 8 [.build [pyNode] [.cpp], .copy] fresh).prob.nthreads = none := by decide

end Verif.Threads
