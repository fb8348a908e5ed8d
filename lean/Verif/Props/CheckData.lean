import Verif.Model.CheckData

/-!
# C123: `checkData` tells whether a data object belongs to a model
-/

namespace Verif.CheckData

/-! ### Specification -/

/-- A data object of the class that the model creates, at every level, with the sizes of the model. -/
def Belongs (m : AModel) (d : AData) : Prop := d = m.createData

/-- A data object of the class of the differential model, of any size. -/
def DSame : DModel → DData → Prop
  | .own c _, d => ∃ s, d = .own c s
  | .numdiff m, d => ∃ d', d = .numdiff d' ∧ DSame m d'
  | .python _, d => ∃ s, d = .base s

/-- A data object whose classes are those of the model, of any size; a Runge-Kutta data may have further stages. This is
what the static casts of `calc` and `calcDiff` need. -/
def Same : AModel → AData → Prop
  | .own c _, d => ∃ s, d = .own c s
  | .euler m, d => ∃ d', d = .euler d' ∧ DSame m d'
  | .rk k m, d => ∃ ds, d = .rk ds ∧ k.ni ≤ ds.length ∧ ∀ d' ∈ ds.take k.ni, DSame m d'
  | .numdiff m, d => ∃ d', d = .numdiff d' ∧ Same m d'
  | .codegen _, d => d = .codegen
  | .python _, d => ∃ s, d = .base s

/-- Differential models with a data class of their own. -/
def DPlain (m : DModel) : Prop := ∃ c s, m = .own c s

/-- Action models with a data class of their own, and the integrators of differential models with one. -/
def Plain (m : AModel) : Prop :=
  (∃ c s, m = .own c s) ∨ (∃ d, DPlain d ∧ m = .euler d) ∨ (∃ k d, DPlain d ∧ m = .rk k d)

/-! ### Lemmas -/

theorem ofBool_yes (b : Bool) : Chk.ofBool b = .yes ↔ b = true := by cases b <;> simp [Chk.ofBool]

theorem d_yes (m : DModel) (d : DData) : m.checkData d = .yes ↔ DPlain m ∧ DSame m d := by
  cases m with
  | own c s =>
    cases d <;> simp [DModel.checkData, DPlain, DSame, ofBool_yes, eq_comm (a := c)]
  | numdiff m => simp [DModel.checkData, DPlain]
  | python s => simp [DModel.checkData, DPlain]

theorem d_not_ub (m : DModel) (d : DData) : m.checkData d ≠ .ub := by
  cases m with
  | own c s =>
    cases d with
    | own c' s' => by_cases h : c = c' <;> simp [DModel.checkData, h, Chk.ofBool]
    | _ => simp [DModel.checkData]
  | _ => simp [DModel.checkData]

theorem stages_yes (m : DModel) (n : Nat) (ds : List DData) :
    checkStages m n ds = .yes ↔ n ≤ ds.length ∧ ∀ d ∈ ds.take n, m.checkData d = .yes := by
  induction n generalizing ds with
  | zero => simp [checkStages]
  | succ n ih =>
    cases ds with
    | nil => simp [checkStages]
    | cons d ds =>
      unfold checkStages
      cases h : m.checkData d with
      | yes => simp [ih, h]
      | no => simp [h]
      | ub => simp [h]

theorem stages_ub (m : DModel) (n : Nat) (ds : List DData) :
    checkStages m n ds = .ub ↔ ds.length < n ∧ ∀ d ∈ ds, m.checkData d = .yes := by
  induction n generalizing ds with
  | zero => simp [checkStages]
  | succ n ih =>
    cases ds with
    | nil => simp [checkStages]
    | cons d ds =>
      unfold checkStages
      cases h : m.checkData d with
      | yes => simp [ih, h]
      | no => simp [h]
      | ub => exact absurd h (d_not_ub m d)

theorem problem_yes (ps : List (AModel × AData)) :
    checkProblem ps = .yes ↔ ∀ p ∈ ps, p.1.checkData p.2 = .yes := by
  induction ps with
  | nil => simp [checkProblem]
  | cons p ps ih =>
    unfold checkProblem
    cases h : p.1.checkData p.2 with
    | yes => simp [ih, h]
    | no => simp [h]
    | ub => simp [h]

theorem dsame_create (m : DModel) : DSame m m.createData := by
  induction m with
  | own c s => exact ⟨s, rfl⟩
  | numdiff m ih => exact ⟨_, rfl, ih⟩
  | python s => exact ⟨s, rfl⟩

/-! ### Theorems -/

/-- C123 (differential models): for every differential model and data, `checkData` is defined, and it accepts exactly
the data of the class of the model, if the model has a data class of its own; otherwise it accepts none. -/
theorem C123_differential (m : DModel) (d : DData) :
    m.checkData d ≠ .ub ∧ (m.checkData d = .yes ↔ DPlain m ∧ DSame m d) :=
  ⟨d_not_ub m d, d_yes m d⟩

/-- C123 (accepted data). For models that are not code-generated, accepted data has the classes that the model casts it
to, at every level; and the data with these classes is accepted exactly if the model is `Plain`. -/
theorem C123_accepts_partial (m : AModel) (hm : ∀ m', m ≠ .codegen m') (d : AData) :
    m.checkData d = .yes ↔ Plain m ∧ Same m d := by
  cases m with
  | own c s => cases d <;> simp [AModel.checkData, Plain, Same, ofBool_yes, eq_comm (a := c)]
  | euler m =>
    cases d <;> simp [AModel.checkData, Plain, Same, d_yes]
  | rk k m =>
    cases d with
    | rk ds =>
      simp only [AModel.checkData, stages_yes, d_yes, Plain, Same]
      constructor
      · rintro ⟨hl, h⟩
        have hp : DPlain m := by
          cases ds with
          | nil => cases k <;> simp [RK.ni] at hl
          | cons d ds => exact (h d (by cases k <;> simp [RK.ni])).1
        exact ⟨Or.inr (Or.inr ⟨k, m, hp, rfl⟩), ds, rfl, hl, fun d hd => (h d hd).2⟩
      · rintro ⟨hp, ds', he, hl, h⟩
        cases he
        have hpl : DPlain m := by
          rcases hp with ⟨_, _, h⟩ | ⟨_, _, h⟩ | ⟨_, _, hd, h⟩
          · cases h
          · cases h
          · cases h; exact hd
        exact ⟨hl, fun d hd => ⟨hpl, h d hd⟩⟩
    | _ => simp [AModel.checkData, Same]
  | numdiff m => simp [AModel.checkData, Plain]
  | codegen m => exact absurd rfl (hm m)
  | python s => simp [AModel.checkData, Plain]

/-- C123 (own data): a model accepts the data it creates exactly if it is `Plain`. -/
theorem C123_own_partial (m : AModel) : m.checkData m.createData = .yes ↔ Plain m := by
  have key : ∀ m : AModel, m.checkData .codegen ≠ .yes := by
    intro m
    induction m with
    | codegen m ih => exact ih
    | _ => simp [AModel.checkData]
  by_cases hc : ∃ m', m = .codegen m'
  · obtain ⟨m', rfl⟩ := hc
    constructor
    · intro h; exact absurd h (key (.codegen m'))
    · rintro (⟨_, _, h⟩ | ⟨_, _, h⟩ | ⟨_, _, _, h⟩) <;> cases h
  · rw [C123_accepts_partial m fun m' h => hc ⟨m', h⟩]
    refine ⟨fun h => h.1, fun h => ⟨h, ?_⟩⟩
    rcases h with ⟨c, s, rfl⟩ | ⟨d, _, rfl⟩ | ⟨k, d, _, rfl⟩
    · exact ⟨s, rfl⟩
    · exact ⟨_, rfl, dsame_create d⟩
    · refine ⟨_, rfl, by simp, fun d' hd => ?_⟩
      rw [List.eq_of_mem_replicate (List.mem_of_mem_take hd)]
      exact dsame_create d

/-- C123 (problems): a shooting problem can be built from models and the data they create exactly if every model is
`Plain`, for any number of nodes. -/
theorem C123_problem_partial (ms : List AModel) :
    checkProblem (ms.map fun m => (m, m.createData)) = .yes ↔ ∀ m ∈ ms, Plain m := by
  rw [problem_yes]
  simp only [List.mem_map, forall_exists_index, and_imp, forall_apply_eq_imp_iff₂, C123_own_partial]

/-- C123 (undefined behaviour): when a model that is not code-generated is asked, the check is undefined exactly for an
integrator that is given non-null data of another class, and for a Runge-Kutta integrator that is given data of its
class with fewer stages than its own, all of them of the right class. -/
theorem C123_undefined (m : AModel) (hm : ∀ m', m ≠ .codegen m') (d : AData) :
    m.checkData d = .ub ↔
      (∃ e, m = .euler e ∧ d ≠ .null ∧ ∀ d', d ≠ .euler d') ∨
      (∃ k e, m = .rk k e ∧ d ≠ .null ∧ ∀ ds, d ≠ .rk ds) ∨
      (∃ k e ds, m = .rk k e ∧ d = .rk ds ∧ ds.length < k.ni ∧ ∀ d' ∈ ds, e.checkData d' = .yes) := by
  cases m with
  | own c s =>
    cases d with
    | own c' s' => by_cases h : c = c' <;> simp [AModel.checkData, h, Chk.ofBool]
    | _ => simp [AModel.checkData]
  | euler m => cases d <;> simp [AModel.checkData, d_not_ub]
  | rk k m => cases d <;> simp [AModel.checkData, stages_ub]
  | numdiff m => simp [AModel.checkData]
  | codegen m => exact absurd rfl (hm m)
  | python s => simp [AModel.checkData]

/-! ### Non-vacuity -/

example : checkProblem ([.own .lqr ⟨4, 2⟩, .euler (.own .freeFwd ⟨4, 2⟩), .rk .four (.own .contactFwd ⟨4, 2⟩)].map
    fun m => (m, m.createData)) = .yes :=
  (C123_problem_partial _).2 fun m hm => by
    simp only [List.mem_cons, List.not_mem_nil, or_false] at hm
    rcases hm with rfl | rfl | rfl
    · exact Or.inl ⟨_, _, rfl⟩
    · exact Or.inr (Or.inl ⟨_, ⟨_, _, rfl⟩, rfl⟩)
    · exact Or.inr (Or.inr ⟨_, _, ⟨_, _, rfl⟩, rfl⟩)

/-! ### Where the claim fails -/

/-- Data of a model with other sizes is accepted. -/
theorem C123_size_counterexample :
    AModel.checkData (.own .lqr ⟨4, 2⟩) (AModel.createData (.own .lqr ⟨2, 1⟩)) = .yes ∧
    ¬ Belongs (.own .lqr ⟨4, 2⟩) (AModel.createData (.own .lqr ⟨2, 1⟩)) := by
  refine ⟨by decide, fun h => ?_⟩
  simp [Belongs, AModel.createData] at h

/-- Euler and Runge-Kutta integrators dereference a null pointer when asked about data of another class, for every
differential model. So does the construction of a problem that pairs an Euler model with the data of an action
model: it does not throw. -/
theorem C123_integrator_counterexample (e : DModel) (k : RK) (s : Size) :
    (AModel.euler e).checkData (.own .lqr s) = .ub ∧ (AModel.rk k e).checkData (.own .lqr s) = .ub ∧
    (AModel.euler e).checkData (AModel.rk k e).createData = .ub ∧
    checkProblem [(.euler e, .own .lqr s)] = .ub := ⟨rfl, rfl, rfl, rfl⟩

/-- A Runge-Kutta integrator of four stages reads past the end of the data of one of two stages. -/
theorem C123_stages_counterexample (c : DCls) (s : Size) :
    (AModel.rk .four (.own c s)).checkData (AModel.rk .two (.own c s)).createData = .ub := by
  cases c <;> rfl

/-- Models that differentiate numerically and models derived in Python accept no data, their own included: the
constructor of problems with data, `updateNode` and `circularAppend` with data always throw for them. The same holds
for integrators of such differential models. -/
theorem C123_base_counterexample (m : AModel) (e : DModel) (s : Size) (d : AData) :
    (AModel.numdiff m).checkData d = .no ∧ (AModel.python s).checkData d = .no ∧
    (AModel.euler (.numdiff e)).checkData (AModel.euler (.numdiff e)).createData = .no ∧
    (AModel.euler (.python s)).checkData (AModel.euler (.python s)).createData = .no := ⟨rfl, rfl, rfl, rfl⟩

/-- A code-generated model rejects its own data (or the check is undefined, if it was generated from an integrator) and
accepts the data of the model it was generated from, which it then casts to its own data class. -/
theorem C123_codegen_counterexample (c : ACls) (s : Size) (e : DModel) :
    (AModel.codegen (.own c s)).checkData (AModel.codegen (.own c s)).createData = .no ∧
    (AModel.codegen (.euler e)).checkData (AModel.codegen (.euler e)).createData = .ub ∧
    (AModel.codegen (.own c s)).checkData (AModel.own c s).createData = .yes ∧
    ¬ Same (.codegen (.own c s)) (AModel.own c s).createData := by
  refine ⟨rfl, rfl, ?_, fun h => ?_⟩
  · cases c <;> rfl
  · simp [Same, AModel.createData] at h

end Verif.CheckData
