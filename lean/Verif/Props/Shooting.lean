import Verif.Spec.Shooting
import Verif.Lemmas.Shooting

/-!
# Properties C01, C02, C03, C06, C07, C08, C62 of the shooting problem
-/

namespace Verif.Shooting
open Verif
variable {K M : Type}

/-! ### A concrete environment used by the non-vacuity examples -/

/-- Models are numbers; `m % 10` is `nx`, `m / 10` is `ndx`; datas are accepted by their maker. -/
def exEnv : Env Nat where
  nx m := m % 10
  ndx m := m / 10
  checkData m d := d.maker == m

/-- Three running nodes and a terminal node over `nx = 3`, `ndx = 2`. -/
def exBuilt : Built (Problem Int Nat) := ctor exEnv 0 [5, 6, 7] [23, 23, 23] 23

def exProblem : Problem Int Nat :=
  { T := 3, nx := 3, ndx := 2, x0 := [5, 6, 7], models := [23, 23, 23],
    datas := [⟨0, 23⟩, ⟨1, 23⟩, ⟨2, 23⟩], tmodel := 23, tdata := ⟨3, 23⟩, nthreads := 1,
    updated := false, fresh := 4 }

example : exBuilt = .ok exProblem := by decide

/-! ### C08: construction -/

/-- C08. The constructor from models succeeds exactly when the list is non-empty and all
dimensions agree; the problem built is well formed, has the given nodes and `x0`, owns
pairwise different datas and is not flagged as updated. -/
theorem C08_ctor (e : Env M) (f : Nat) (x0 : List K) (ms : List M) (tm : M) :
    (∀ p, ctor e f x0 ms tm = .ok p →
      WellFormed e p ∧ p.models = ms ∧ p.tmodel = tm ∧ p.x0 = x0 ∧ p.updated = false ∧
      ((p.datas ++ [p.tdata]).map Data.addr).Nodup) ∧
    ((∃ p, ctor e f x0 ms tm = .ok p) ↔
      ∃ m0 rest, ms = m0 :: rest ∧ x0.length = e.nx m0 ∧
        ∀ m ∈ tm :: rest, e.nx m = e.nx m0 ∧ e.ndx m = e.ndx m0) := by
  constructor
  · intro p hp
    cases ms with
    | nil => simp [ctor] at hp
    | cons m0 rest =>
      simp only [ctor] at hp
      split at hp; · exact absurd hp (by simp)
      split at hp; · exact absurd hp (by simp)
      split at hp; · exact absurd hp (by simp)
      split at hp; · exact absurd hp (by simp)
      rename_i h1 h2 h3 h4
      injection hp with hp
      subst hp
      refine ⟨⟨by simp, rfl, length_allocDatas _ _, by simpa using h1, ?_, by simp_all, ?_, by simp⟩,
        rfl, rfl, rfl, rfl, ?_⟩
      · intro m hm
        simp only [List.mem_cons] at hm
        rcases hm with rfl | hm
        · exact ⟨rfl, rfl⟩
        · simp only [Bool.not_eq_true, List.any_eq_false, Bool.or_eq_true, bne_iff_ne, ne_eq,
            not_or, Decidable.not_not] at h2
          exact h2 m hm
      · intro i m d hm hd
        left
        simp only [getElem?_allocDatas] at hd
        rw [hm] at hd
        simp at hd
        rw [← hd]
      · have key : ∀ (l : List M) (a : Nat) (t : M),
            ((allocDatas a l ++ [(⟨a + l.length, t⟩ : Data M)]).map Data.addr) = List.range' a (l.length + 1) := by
          intro l
          induction l with
          | nil => intro a t; simp [allocDatas]
          | cons m l ih =>
            intro a t
            have := ih (a + 1) t
            simp only [allocDatas, List.cons_append, List.map_cons, List.length_cons]
            rw [show a + (l.length + 1) = a + 1 + l.length by omega, this]
            rfl
        simp only
        rw [key (m0 :: rest) f tm]
        exact List.nodup_range'
  · cases ms with
    | nil => simp [ctor]
    | cons m0 rest =>
      constructor
      · rintro ⟨p, hp⟩
        refine ⟨m0, rest, rfl, ?_⟩
        simp only [ctor] at hp
        split at hp; · exact absurd hp (by simp)
        split at hp; · exact absurd hp (by simp)
        split at hp; · exact absurd hp (by simp)
        split at hp; · exact absurd hp (by simp)
        rename_i h1 h2 h3 h4
        refine ⟨by simpa using h1, ?_⟩
        intro m hm
        simp only [List.mem_cons] at hm
        rcases hm with rfl | hm
        · exact ⟨by simpa using h3, by simpa using h4⟩
        · simp only [Bool.not_eq_true, List.any_eq_false, Bool.or_eq_true, bne_iff_ne, ne_eq,
            not_or, Decidable.not_not] at h2
          exact h2 m hm
      · rintro ⟨m0', rest', heq, hx, hall⟩
        simp only [List.cons.injEq] at heq
        obtain ⟨rfl, rfl⟩ := heq
        have ht := hall tm (by simp)
        have hr : rest.any (fun m => e.nx m != e.nx m0 || e.ndx m != e.ndx m0) = false := by
          rw [List.any_eq_false]
          intro m hm
          have := hall m (by simp [hm])
          simp [this]
        simp [ctor, hx, ht, hr]

/-- A concrete accepted construction. -/
example : ∃ p : Problem Int Nat, ctor exEnv 0 [5, 6, 7] [23, 23, 23] 23 = .ok p :=
  ⟨exProblem, by decide⟩

/-- C08, second constructor: everything is checked except the dimensions of the terminal
model, and the notification flag is whatever memory contained. -/
theorem C08_ctorDatas_partial (e : Env M) (f : Nat) (g : Bool) (x0 : List K) (ms : List M) (tm : M)
    (ds : List (Data M)) (td : Data M) (p : Problem K M)
    (h : ctorDatas e f g x0 ms tm ds td = .ok p)
    (hterm : ∀ m0 rest, ms = m0 :: rest → e.nx tm = e.nx m0 ∧ e.ndx tm = e.ndx m0) :
    WellFormed e p ∧ p.models = ms ∧ p.datas = ds ∧ p.tmodel = tm ∧ p.tdata = td ∧ p.x0 = x0 := by
  cases ms with
  | nil => simp [ctorDatas] at h
  | cons m0 rest =>
    have ht := hterm m0 rest rfl
    simp only [ctorDatas] at h
    split at h; · exact absurd h (by simp)
    split at h; · exact absurd h (by simp)
    split at h; · exact absurd h (by simp)
    split at h; · exact absurd h (by simp)
    rename_i h1 h2 h3 h4
    injection h with h
    subst h
    have h2' : ds.length = (m0 :: rest).length := by simpa using h2
    have h3' : ∀ (i : Nat) (m : M) (d : Data M), (m0 :: rest)[i]? = some m → ds[i]? = some d →
        e.nx m = e.nx m0 ∧ e.ndx m = e.ndx m0 ∧ e.checkData m d = true := by
      intro i m d hm hd
      have hz : ((m0 :: rest).zip ds)[i]? = some (m, d) := by
        rw [List.getElem?_zip_eq_some]; exact ⟨hm, hd⟩
      have hmem := List.mem_of_getElem? hz
      have h3'' := h3
      simp only [Bool.not_eq_true, List.any_eq_false] at h3''
      have := h3'' _ hmem
      simp only [Bool.or_eq_false_iff, bne_eq_false_iff_eq, Bool.not_eq_eq_eq_not,
        Bool.not_false] at this
      exact ⟨this.1.1, this.1.2, this.2⟩
    refine ⟨⟨by simp, rfl, h2', by simpa using h1, ?_, ht, ?_, Or.inr ?_⟩, rfl, rfl, rfl, rfl, rfl⟩
    · intro m hm
      obtain ⟨i, hi, hmi⟩ := List.getElem_of_mem hm
      have hi2 : i < ds.length := by simp only at hi; omega
      have := h3' i m ds[i] (by rw [List.getElem?_eq_getElem hi, hmi])
        (by rw [List.getElem?_eq_getElem hi2])
      exact ⟨this.1, this.2.1⟩
    · intro i m d hm hd
      exact Or.inr (h3' i m d hm hd).2.2
    · simpa using h4

example : ∃ p, ctorDatas exEnv 9 false [5, 6, 7] [23, 23] 23 [⟨0, 23⟩, ⟨1, 23⟩] ⟨2, 23⟩
    = Built.ok p := ⟨_, rfl⟩

/-- C08 fails for the constructor taking datas: it accepts a terminal model whose state
dimension differs from all other nodes (shooting.hxx L113-117 checks only the data). -/
theorem C08_ctorDatas_counterexample :
    ∃ p, ctorDatas exEnv 9 false [5, 6, 7] [23, 23] 44 [⟨0, 23⟩, ⟨1, 23⟩] ⟨2, 44⟩ = Built.ok p ∧
      exEnv.nx p.tmodel ≠ p.nx ∧ ¬ WellFormed exEnv p := by
  refine ⟨_, rfl, by decide, ?_⟩
  intro h
  exact absurd h.tdims.1 (by decide)

/-! ### C02: rejected calls change nothing -/

/-- C02. Whenever a mutator (any of them, including `set_runningModels`) throws, the problem
is exactly what it was. The only assumption is that the vectors have the length `T`. -/
theorem C02_rejected_unchanged (e : Env M) (hw : Nat) (en : Bool) (p : Problem K M)
    (hm : p.models.length = p.T) (hd : p.datas.length = p.T) (op : Op K M) (p' : Problem K M)
    (h : op.run e hw en p = .throw p') : p' = p := by
  cases op with
  | circularAppendData m d =>
    simp only [Op.run] at h
    by_cases hT : p.T = 0
    · by_cases hc : e.checkData m d = true <;> by_cases hx : e.nx m = p.nx <;>
        by_cases hdx : e.ndx m = p.ndx <;>
        simp [circularAppendData, hT, hc, hx, hdx] at h <;> exact h.symm
    · rw [circularAppendData_run e m d p hT hm hd] at h
      split at h
      · cases h
      · injection h with h; exact h.symm
  | circularAppend m =>
    simp only [Op.run] at h
    by_cases hT : p.T = 0
    · by_cases hx : e.nx m = p.nx <;> by_cases hdx : e.ndx m = p.ndx <;>
        simp [circularAppend, hT, hx, hdx] at h <;> exact h.symm
    · rw [circularAppend_run e m p hT hm hd] at h
      split at h
      · cases h
      · injection h with h; exact h.symm
  | updateNode i m d =>
    simp only [Op.run] at h
    rw [updateNode_run e i m d p hm hd] at h
    split at h
    · cases h
    · injection h with h; exact h.symm
  | updateModel i m =>
    simp only [Op.run] at h
    rw [updateModel_run e i m p hm hd] at h
    split at h
    · cases h
    · injection h with h; exact h.symm
  | setX0 x =>
    simp only [Op.run] at h
    rw [setX0_run] at h
    split at h
    · cases h
    · injection h with h; exact h.symm
  | setTerminalModel m =>
    simp only [Op.run] at h
    rw [setTerminalModel_run] at h
    split at h
    · cases h
    · injection h with h; exact h.symm
  | setNthreads n => simp [Op.run, setNthreads] at h
  | isUpdated => simp [Op.run, isUpdated_run] at h
  | setRunningModels ms =>
    have hpush : ∀ (n i : Nat) (s s' : Problem K M),
        Cpp.forLoop i n pushOwnModel s ≠ .throw s' := by
      intro n
      induction n with
      | zero => intro i s s'; simp
      | succ n ih =>
        intro i s s'
        rw [Cpp.forLoop_succ]
        cases hg : s.models[i]? with
        | none => simp [pushOwnModel, hg]
        | some m => simp [pushOwnModel, hg, createData, ih]
    simp only [Op.run, setRunningModels, Cpp.bind_apply, Cpp.get_apply] at h
    rcases checkLoop_cases e ms p.T 0 p with hc | hc | hc
    · rw [hc] at h
      simp only [Cpp.modify_apply] at h
      exact absurd h (hpush _ _ _ _)
    · rw [hc] at h
      injection h with h; exact h.symm
    · rw [hc] at h; cases h

/-- Rejections do occur: a wrong-dimension append to the example problem. -/
example : (Op.circularAppend (K := Int) 44).run exEnv 4 true exProblem = .throw exProblem := by
  decide

/-! ### C62: exact effect of node updates -/

/-- C62. A successful `updateNode`, `updateModel` or `set_terminalModel` replaces exactly the
addressed node (node `T` is the terminal node): its model is the given one, its data is the
given one or a fresh one created by the model, and all other nodes, `x0` and `T` are the
same. They succeed exactly on in-range nodes with matching dimensions (and valid data). -/
theorem C62_update_effect (e : Env M) (hw : Nat) (en : Bool) (p : Problem K M)
    (hwf : WellFormed e p) (i : Nat) (m : M) (d : Data M) :
    (∀ p', (Op.updateNode i m d).run e hw en p = .ok () p' →
      node p' i = some (m, d) ∧ (∀ j, j ≠ i → node p' j = node p j) ∧ p'.T = p.T ∧ p'.x0 = p.x0 ∧
        p'.models.length = p.models.length) ∧
    (∀ p', (Op.updateModel i m).run e hw en p = .ok () p' →
      node p' i = some (m, ⟨p.fresh, m⟩) ∧ (∀ j, j ≠ i → node p' j = node p j) ∧ p'.T = p.T ∧
        p'.x0 = p.x0 ∧ p'.models.length = p.models.length) ∧
    (∀ p', (Op.setTerminalModel m).run e hw en p = .ok () p' →
      node p' p.T = some (m, ⟨p.fresh, m⟩) ∧ (∀ j, j ≠ p.T → node p' j = node p j) ∧ p'.T = p.T ∧
        p'.x0 = p.x0 ∧ p'.models.length = p.models.length) ∧
    ((∃ p', (Op.updateNode i m d).run e hw en p = .ok () p') ↔
      i ≤ p.T ∧ e.checkData m d = true ∧ e.nx m = p.nx ∧ e.ndx m = p.ndx) ∧
    ((∃ p', (Op.updateModel i m).run e hw en p = .ok () p') ↔
      i ≤ p.T ∧ e.nx m = p.nx ∧ e.ndx m = p.ndx) := by
  have hm := hwf.nmodels
  have hd := hwf.ndatas
  simp only [Op.run]
  rw [updateNode_run e i m d p hm hd, updateModel_run e i m p hm hd, setTerminalModel_run]
  have hset : ∀ (d' : Data M) (f : Nat), i ≤ p.T → i ≠ p.T →
      node { p with updated := true, models := p.models.set i m, datas := p.datas.set i d', fresh := f } i
        = some (m, d') ∧
      ∀ j, j ≠ i →
        node { p with updated := true, models := p.models.set i m, datas := p.datas.set i d', fresh := f } j
          = node p j := by
    intro d' f hi hne
    constructor
    · have h1 : i < p.models.length := by omega
      have h2 : i < p.datas.length := by omega
      simp [node, hne, h1, h2]
    · intro j hj
      simp [node, List.getElem?_set_ne (Ne.symm hj)]
  refine ⟨?_, ?_, ?_, ?_, ?_⟩
  · intro p' h
    split at h
    · rename_i hc
      injection h with _ h
      by_cases hi : i = p.T
      · rw [if_pos hi] at h; subst h; subst hi
        refine ⟨by simp [node], ?_, rfl, rfl, rfl⟩
        intro j hj; simp [node, hj]
      · rw [if_neg hi] at h; subst h
        have := hset d p.fresh hc.1 hi
        exact ⟨this.1, this.2, rfl, rfl, by simp⟩
    · cases h
  · intro p' h
    split at h
    · rename_i hc
      injection h with _ h
      by_cases hi : i = p.T
      · rw [if_pos hi] at h; subst h; subst hi
        refine ⟨by simp [node], ?_, rfl, rfl, rfl⟩
        intro j hj; simp [node, hj]
      · rw [if_neg hi] at h; subst h
        have := hset ⟨p.fresh, m⟩ (p.fresh + 1) hc.1 hi
        exact ⟨this.1, this.2, rfl, rfl, by simp⟩
    · cases h
  · intro p' h
    split at h
    · injection h with _ h
      subst h
      refine ⟨by simp [node], ?_, rfl, rfl, rfl⟩
      intro j hj; simp [node, hj]
    · cases h
  · constructor
    · rintro ⟨p', h⟩
      split at h
      · assumption
      · cases h
    · intro h; rw [if_pos h]; exact ⟨_, rfl⟩
  · constructor
    · rintro ⟨p', h⟩
      split at h
      · assumption
      · cases h
    · intro h; rw [if_pos h]; exact ⟨_, rfl⟩

example : ∃ p', (Op.updateModel (K := Int) 1 23).run exEnv 4 true exProblem = .ok () p' :=
  ⟨_, rfl⟩

/-! ### C01: every history keeps the problem well formed -/

theorem wf_step (e : Env M) (hw : Nat) (en : Bool) (p : Problem K M) (hwf : WellFormed e p)
    (op : Op K M) (hop : op.notSetRunning) :
    ∃ p', (op.run e hw en p = .ok () p' ∨ op.run e hw en p = .throw p') ∧ WellFormed e p' ∧
      p'.T = p.T ∧ p'.nx = p.nx ∧ p'.ndx = p.ndx := by
  have hT : p.T ≠ 0 := by have := hwf.pos; omega
  have hm := hwf.nmodels
  have hd := hwf.ndatas
  cases op with
  | circularAppendData m d =>
    simp only [Op.run]
    rw [circularAppendData_run e m d p hT hm hd]
    by_cases hc : e.checkData m d = true ∧ e.nx m = p.nx ∧ e.ndx m = p.ndx
    · rw [if_pos hc]
      refine ⟨_, Or.inl rfl, ?_, rfl, rfl, rfl⟩
      refine ⟨hwf.pos, by simp; omega, by simp; omega, hwf.x0size, ?_, hwf.tdims, ?_, hwf.town⟩
      · intro m' hm'
        simp only [List.mem_append, List.mem_singleton] at hm'
        rcases hm' with h | rfl
        · exact hwf.dims m' (List.mem_of_mem_tail h)
        · exact hc.2
      · intro i m' d' h1 h2
        simp only [List.getElem?_append, List.length_tail] at h1 h2
        by_cases hi : i < p.T - 1
        · rw [if_pos (by omega)] at h1 h2
          rw [List.getElem?_tail] at h1 h2
          exact hwf.own _ _ _ h1 h2
        · rw [if_neg (by omega)] at h1 h2
          have hi' : i - (p.T - 1) = 0 := by
            have := (List.getElem?_eq_some_iff.mp h1).1
            simp at this; omega
          rw [show i - (p.models.length - 1) = 0 by omega] at h1
          rw [show i - (p.datas.length - 1) = 0 by omega] at h2
          simp at h1 h2
          subst h1; subst h2
          exact Or.inr hc.1
    · rw [if_neg hc]; exact ⟨p, Or.inr rfl, hwf, rfl, rfl, rfl⟩
  | circularAppend m =>
    simp only [Op.run]
    rw [circularAppend_run e m p hT hm hd]
    by_cases hc : e.nx m = p.nx ∧ e.ndx m = p.ndx
    · rw [if_pos hc]
      refine ⟨_, Or.inl rfl, ?_, rfl, rfl, rfl⟩
      refine ⟨hwf.pos, by simp; omega, by simp; omega, hwf.x0size, ?_, hwf.tdims, ?_, hwf.town⟩
      · intro m' hm'
        simp only [List.mem_append, List.mem_singleton] at hm'
        rcases hm' with h | rfl
        · exact hwf.dims m' (List.mem_of_mem_tail h)
        · exact hc
      · intro i m' d' h1 h2
        simp only [List.getElem?_append, List.length_tail] at h1 h2
        by_cases hi : i < p.T - 1
        · rw [if_pos (by omega)] at h1 h2
          rw [List.getElem?_tail] at h1 h2
          exact hwf.own _ _ _ h1 h2
        · rw [if_neg (by omega)] at h1 h2
          have hi' : i - (p.T - 1) = 0 := by
            have := (List.getElem?_eq_some_iff.mp h1).1
            simp at this; omega
          rw [show i - (p.models.length - 1) = 0 by omega] at h1
          rw [show i - (p.datas.length - 1) = 0 by omega] at h2
          simp at h1 h2
          subst h1; subst h2
          exact Or.inl rfl
    · rw [if_neg hc]; exact ⟨p, Or.inr rfl, hwf, rfl, rfl, rfl⟩
  | updateNode i m d =>
    simp only [Op.run]
    rw [updateNode_run e i m d p hm hd]
    by_cases hc : i ≤ p.T ∧ e.checkData m d = true ∧ e.nx m = p.nx ∧ e.ndx m = p.ndx
    · rw [if_pos hc]
      by_cases hi : i = p.T
      · rw [if_pos hi]
        exact ⟨_, Or.inl rfl, ⟨hwf.pos, hm, hd, hwf.x0size, hwf.dims, hc.2.2, hwf.own, Or.inr hc.2.1⟩,
          rfl, rfl, rfl⟩
      · rw [if_neg hi]
        refine ⟨_, Or.inl rfl, ⟨hwf.pos, by simpa using hm, by simpa using hd, hwf.x0size, ?_,
          hwf.tdims, ?_, hwf.town⟩, rfl, rfl, rfl⟩
        · intro m' hm'
          rcases List.mem_or_eq_of_mem_set hm' with h | rfl
          · exact hwf.dims m' h
          · exact hc.2.2
        · intro j m' d' h1 h2
          simp only [List.getElem?_set] at h1 h2
          by_cases hj : i = j
          · subst hj
            rw [if_pos rfl] at h1 h2
            split at h1 <;> split at h2 <;> simp_all
          · rw [if_neg hj] at h1 h2
            exact hwf.own _ _ _ h1 h2
    · rw [if_neg hc]; exact ⟨p, Or.inr rfl, hwf, rfl, rfl, rfl⟩
  | updateModel i m =>
    simp only [Op.run]
    rw [updateModel_run e i m p hm hd]
    by_cases hc : i ≤ p.T ∧ e.nx m = p.nx ∧ e.ndx m = p.ndx
    · rw [if_pos hc]
      by_cases hi : i = p.T
      · rw [if_pos hi]
        exact ⟨_, Or.inl rfl, ⟨hwf.pos, hm, hd, hwf.x0size, hwf.dims, hc.2, hwf.own, Or.inl rfl⟩,
          rfl, rfl, rfl⟩
      · rw [if_neg hi]
        refine ⟨_, Or.inl rfl, ⟨hwf.pos, by simpa using hm, by simpa using hd, hwf.x0size, ?_,
          hwf.tdims, ?_, hwf.town⟩, rfl, rfl, rfl⟩
        · intro m' hm'
          rcases List.mem_or_eq_of_mem_set hm' with h | rfl
          · exact hwf.dims m' h
          · exact hc.2
        · intro j m' d' h1 h2
          simp only [List.getElem?_set] at h1 h2
          by_cases hj : i = j
          · subst hj
            rw [if_pos rfl] at h1 h2
            split at h1 <;> split at h2 <;> simp_all
            left; rw [← h2]
          · rw [if_neg hj] at h1 h2
            exact hwf.own _ _ _ h1 h2
    · rw [if_neg hc]; exact ⟨p, Or.inr rfl, hwf, rfl, rfl, rfl⟩
  | setX0 x =>
    simp only [Op.run]
    rw [setX0_run]
    by_cases hc : x.length = p.x0.length
    · rw [if_pos hc]
      exact ⟨_, Or.inl rfl, ⟨hwf.pos, hm, hd, by rw [hc]; exact hwf.x0size, hwf.dims, hwf.tdims,
        hwf.own, hwf.town⟩, rfl, rfl, rfl⟩
    · rw [if_neg hc]; exact ⟨p, Or.inr rfl, hwf, rfl, rfl, rfl⟩
  | setTerminalModel m =>
    simp only [Op.run]
    rw [setTerminalModel_run]
    by_cases hc : e.nx m = p.nx ∧ e.ndx m = p.ndx
    · rw [if_pos hc]
      exact ⟨_, Or.inl rfl, ⟨hwf.pos, hm, hd, hwf.x0size, hwf.dims, hc, hwf.own, Or.inl rfl⟩,
        rfl, rfl, rfl⟩
    · rw [if_neg hc]; exact ⟨p, Or.inr rfl, hwf, rfl, rfl, rfl⟩
  | setNthreads n =>
    exact ⟨_, Or.inl rfl, ⟨hwf.pos, hm, hd, hwf.x0size, hwf.dims, hwf.tdims, hwf.own, hwf.town⟩,
      rfl, rfl, rfl⟩
  | isUpdated =>
    refine ⟨{ p with updated := false }, Or.inl (by simp [Op.run, isUpdated_run]),
      ⟨hwf.pos, hm, hd, hwf.x0size, hwf.dims, hwf.tdims, hwf.own, hwf.town⟩, rfl, rfl, rfl⟩
  | setRunningModels ms => exact absurd hop (by simp [Op.notSetRunning])

/-- C01 (all mutators except `set_runningModels`, whose failure is C07). Any finite sequence of
calls, with arbitrary arguments, accepted or rejected, on a problem built by the constructor never
runs into undefined behaviour and leaves a well-formed problem with the same `T`, `nx`, `ndx`. -/
theorem C01_history (e : Env M) (hw : Nat) (en : Bool) (ops : List (Op K M))
    (hops : ∀ op ∈ ops, op.notSetRunning) :
    ∀ p : Problem K M, WellFormed e p →
      ∃ p', runOps e hw en ops p = some p' ∧ WellFormed e p' ∧
        p'.T = p.T ∧ p'.nx = p.nx ∧ p'.ndx = p.ndx := by
  induction ops with
  | nil => intro p hp; exact ⟨p, rfl, hp, rfl, rfl, rfl⟩
  | cons op ops ih =>
    intro p hp
    obtain ⟨p1, hrun, hwf, h1, h2, h3⟩ := wf_step e hw en p hp op (hops op (by simp))
    obtain ⟨p2, hr2, hwf2, k1, k2, k3⟩ := ih (fun o ho => hops o (by simp [ho])) p1 hwf
    refine ⟨p2, ?_, hwf2, by omega, by omega, by omega⟩
    rcases hrun with h | h <;> simp [runOps, h, hr2]

/-- C01 from the constructor. -/
theorem C01_from_ctor (e : Env M) (hw : Nat) (en : Bool) (f : Nat) (x0 : List K) (ms : List M)
    (tm : M) (p : Problem K M) (hp : ctor e f x0 ms tm = .ok p) (ops : List (Op K M))
    (hops : ∀ op ∈ ops, op.notSetRunning) :
    ∃ p', runOps e hw en ops p = some p' ∧ WellFormed e p' ∧ p'.T = ms.length ∧
      p'.x0.length = x0.length := by
  have h0 := ((C08_ctor e f x0 ms tm).1 p hp)
  obtain ⟨p', h1, h2, h3, h4, _⟩ := C01_history e hw en ops hops p h0.1
  refine ⟨p', h1, h2, ?_, ?_⟩
  · rw [h3, ← h0.1.nmodels, h0.2.1]
  · rw [h2.x0size, h4, ← h0.1.x0size, h0.2.2.2.1]

/-- A history with accepted and rejected calls that meets the hypotheses. -/
example : ∃ p', runOps exEnv 4 true
    [Op.circularAppend 23, .circularAppend 44, .updateNode 1 23 ⟨77, 23⟩, .setX0 [1, 2, 3],
     .setX0 [1], .setTerminalModel 23, .isUpdated] exProblem = some p' ∧ p'.T = 3 :=
  ⟨_, rfl, rfl⟩

/-- C01 (threads). The number of threads used by the parallel loops is at least one, on a machine with at
least one hardware thread, after any such sequence of calls; and a positive request is honoured when
multithreading is enabled. -/
theorem C01_threads (e : Env M) (hw : Nat) (hhw : 1 ≤ hw) (en : Bool) (ops : List (Op K M))
    (hops : ∀ op ∈ ops, op.notSetRunning) :
    ∀ p : Problem K M, WellFormed e p → 1 ≤ p.nthreads →
      ∃ p', runOps e hw en ops p = some p' ∧ 1 ≤ p'.nthreads := by
  induction ops with
  | nil => intro p _ hn; exact ⟨p, rfl, hn⟩
  | cons op ops ih =>
    intro p hp hn
    obtain ⟨p1, hrun, hwf, -⟩ := wf_step e hw en p hp op (hops op (by simp))
    have h1 : 1 ≤ p1.nthreads := by
      have hT : p.T ≠ 0 := by have := hp.pos; omega
      have hm := hp.nmodels
      have hd := hp.ndatas
      cases op with
      | circularAppendData m d =>
        simp only [Op.run, circularAppendData_run e m d p hT hm hd] at hrun
        split at hrun <;> simp at hrun <;> subst hrun <;> exact hn
      | circularAppend m =>
        simp only [Op.run, circularAppend_run e m p hT hm hd] at hrun
        split at hrun <;> simp at hrun <;> subst hrun <;> exact hn
      | updateNode i m d =>
        simp only [Op.run, updateNode_run e i m d p hm hd] at hrun
        split at hrun
        · split at hrun <;> simp at hrun <;> subst hrun <;> exact hn
        · simp at hrun; subst hrun; exact hn
      | updateModel i m =>
        simp only [Op.run, updateModel_run e i m p hm hd] at hrun
        split at hrun
        · split at hrun <;> simp at hrun <;> subst hrun <;> exact hn
        · simp at hrun; subst hrun; exact hn
      | setX0 x =>
        simp only [Op.run, setX0_run] at hrun
        split at hrun <;> simp at hrun <;> subst hrun <;> exact hn
      | setTerminalModel m =>
        simp only [Op.run, setTerminalModel_run] at hrun
        split at hrun <;> simp at hrun <;> subst hrun <;> exact hn
      | setNthreads n =>
        simp [Op.run, setNthreads] at hrun
        subst hrun
        simp only
        split
        · split
          · exact hhw
          · omega
        · exact Nat.le_refl 1
      | isUpdated =>
        simp [Op.run, isUpdated_run] at hrun
        subst hrun; exact hn
      | setRunningModels ms => exact absurd (hops (.setRunningModels ms) (by simp)) (by simp [Op.notSetRunning])
    obtain ⟨p2, hr2, h2⟩ := ih (fun o ho => hops o (by simp [ho])) p1 hwf h1
    refine ⟨p2, ?_, h2⟩
    rcases hrun with h | h <;> simp [runOps, h, hr2]

/-- C01 (threads): the request is honoured. -/
theorem C01_threads_request (e : Env M) (hw : Nat) (n : Nat) (hn : 1 ≤ n) (p : Problem K M) :
    ∃ p', Op.run e hw true (.setNthreads n) p = .ok () p' ∧ p'.nthreads = n ∧ p'.models = p.models ∧
      p'.datas = p.datas ∧ p'.updated = p.updated := by
  refine ⟨_, rfl, ?_, rfl, rfl, rfl⟩
  have : ¬ ((n : Int) < 1) := by omega
  simp [this]

example : ∃ p', runOps exEnv 4 true [Op.setNthreads (-2), .circularAppend 23, .setNthreads 3] exProblem =
    some p' ∧ p'.nthreads = 3 := ⟨_, rfl, rfl⟩

/-! ### C03: sliding window -/

/-- C03. Appending accepted `(model, data)` pairs one after the other: the running models and
datas are the last `T` elements of the old ones followed by the new ones, in order. -/
theorem C03_sliding_window (e : Env M) (hw : Nat) (en : Bool) (new : List (M × Data M)) :
    ∀ (p : Problem K M), WellFormed e p →
    (∀ md ∈ new, e.checkData md.1 md.2 = true ∧ e.nx md.1 = p.nx ∧ e.ndx md.1 = p.ndx) →
    ∃ p', runOps e hw en (new.map fun md => Op.circularAppendData md.1 md.2) p = some p' ∧
      p'.models = (p.models ++ new.map Prod.fst).drop new.length ∧
      p'.datas = (p.datas ++ new.map Prod.snd).drop new.length ∧
      p'.tmodel = p.tmodel ∧ p'.tdata = p.tdata ∧ p'.x0 = p.x0 ∧ p'.T = p.T := by
  induction new with
  | nil => intro p _ _; exact ⟨p, rfl, by simp, by simp, rfl, rfl, rfl, rfl⟩
  | cons md new ih =>
    intro p hwf hall
    have hT : p.T ≠ 0 := by have := hwf.pos; omega
    have hm := hwf.nmodels
    have hd := hwf.ndatas
    have hc := hall md (by simp)
    have hrun := circularAppendData_run (K := K) e md.1 md.2 p hT hm hd
    rw [if_pos hc] at hrun
    obtain ⟨p1, hstep, hwf1, h1, h2, h3⟩ := wf_step e hw en p hwf (.circularAppendData md.1 md.2) trivial
    simp only [Op.run] at hstep
    rw [hrun] at hstep
    rcases hstep with hstep | hstep
    · injection hstep with _ hstep
      subst hstep
      obtain ⟨p2, k1, k2, k3, k4, k5, k6, k7⟩ := ih _ hwf1 (fun x hx => hall x (by simp [hx]))
      refine ⟨p2, ?_, ?_, ?_, k4, k5, k6, k7⟩
      · simp only [List.map_cons, runOps, Op.run]
        rw [hrun]
        exact k1
      · rw [k2]
        cases hml : p.models with
        | nil => rw [hml] at hm; simp at hm; omega
        | cons a l => simp
      · rw [k3]
        cases hdl : p.datas with
        | nil => rw [hdl] at hd; simp at hd; omega
        | cons a l => simp
    · cases hstep

/-- C03 for `circularAppend(model)`: the same window of models; each new node gets a data created
by its own model. -/
theorem C03_sliding_window_models (e : Env M) (hw : Nat) (en : Bool) (new : List M) :
    ∀ (p : Problem K M), WellFormed e p →
    (∀ m ∈ new, e.nx m = p.nx ∧ e.ndx m = p.ndx) →
    ∃ p', runOps e hw en (new.map Op.circularAppend) p = some p' ∧
      p'.models = (p.models ++ new).drop new.length ∧
      (∃ ds : List (Data M), ds.map Data.maker = new ∧
        p'.datas = (p.datas ++ ds).drop new.length) ∧
      p'.tmodel = p.tmodel ∧ p'.tdata = p.tdata ∧ p'.x0 = p.x0 ∧ p'.T = p.T := by
  induction new with
  | nil => intro p _ _; exact ⟨p, rfl, by simp, ⟨[], rfl, by simp⟩, rfl, rfl, rfl, rfl⟩
  | cons m new ih =>
    intro p hwf hall
    have hT : p.T ≠ 0 := by have := hwf.pos; omega
    have hm := hwf.nmodels
    have hd := hwf.ndatas
    have hc := hall m (by simp)
    have hrun := circularAppend_run (K := K) e m p hT hm hd
    rw [if_pos hc] at hrun
    obtain ⟨p1, hstep, hwf1, h1, h2, h3⟩ := wf_step e hw en p hwf (.circularAppend m) trivial
    simp only [Op.run] at hstep
    rw [hrun] at hstep
    rcases hstep with hstep | hstep
    · injection hstep with _ hstep
      subst hstep
      obtain ⟨p2, k1, k2, ⟨ds, k31, k32⟩, k4, k5, k6, k7⟩ :=
        ih _ hwf1 (fun x hx => hall x (by simp [hx]))
      refine ⟨p2, ?_, ?_, ⟨⟨p.fresh, m⟩ :: ds, by simp [k31], ?_⟩, k4, k5, k6, k7⟩
      · simp only [List.map_cons, runOps, Op.run]
        rw [hrun]
        exact k1
      · rw [k2]
        cases hml : p.models with
        | nil => rw [hml] at hm; simp at hm; omega
        | cons a l => simp
      · rw [k32]
        cases hdl : p.datas with
        | nil => rw [hdl] at hd; simp at hd; omega
        | cons a l => simp
    · cases hstep

/-- Two appends to a three-node problem. -/
example : ∃ p', runOps exEnv 4 true
    ([(23, ⟨50, 23⟩), (23, ⟨51, 23⟩)].map fun md => Op.circularAppendData md.1 md.2) exProblem
      = some p' ∧ p'.datas = [⟨2, 23⟩, ⟨50, 23⟩, ⟨51, 23⟩] := ⟨_, rfl, rfl⟩

/-! ### C07: replacing the running models -/

/-- C07 (what holds): if `set_runningModels` throws, nothing changed. -/
theorem C07_rejected_partial (e : Env M) (hw : Nat) (en : Bool) (p p' : Problem K M)
    (hwf : WellFormed e p) (ms : List M)
    (h : (Op.setRunningModels ms).run e hw en p = .throw p') : p' = p :=
  C02_rejected_unchanged e hw en p hwf.nmodels hwf.ndatas _ _ h

/-- A rejected replacement. -/
example : (Op.setRunningModels (K := Int) [44, 23, 23]).run exEnv 4 true exProblem
    = .throw exProblem := by decide

/-- C07 fails: on a well-formed problem `set_runningModels` never returns normally. If it does not
throw it is undefined behaviour – even for a perfectly valid replacement list – because the
replacement loop reads the vector that was just cleared (shooting.hxx L477-481). -/
theorem C07_never_succeeds (e : Env M) (hw : Nat) (en : Bool) (p : Problem K M)
    (hwf : WellFormed e p) (ms : List M) :
    (∀ p', (Op.setRunningModels ms).run e hw en p ≠ .ok () p') ∧
    ((∀ m ∈ ms, e.nx m = p.nx ∧ e.ndx m = p.ndx) →
      (Op.setRunningModels ms).run e hw en p = .ub) := by
  have hT := hwf.pos
  have hok : ∀ (n i : Nat) (s : Problem K M), i + n > ms.length → 0 < n →
      Cpp.forLoop i n (checkNewModel e ms) s ≠ .ok () s := by
    intro n
    induction n with
    | zero => intro i s _ h; omega
    | succ n ih =>
      intro i s h _
      rw [Cpp.forLoop_succ]
      cases hg : ms[i]? with
      | none => simp [checkNewModel, hg]
      | some m =>
        have hi : i < ms.length := by
          rw [List.getElem?_eq_some_iff] at hg; exact hg.1
        by_cases hx : e.nx m = s.nx <;> by_cases hdx : e.ndx m = s.ndx <;>
          simp [checkNewModel, hg, hx, hdx]
        exact ih _ _ (by omega) (by omega)
  have hpush : ∀ (n : Nat) (s : Problem K M), 0 < n → s.models = [] →
      Cpp.forLoop 0 n pushOwnModel s = .ub := by
    intro n s hn hs
    cases n with
    | zero => omega
    | succ n => rw [Cpp.forLoop_succ]; simp [pushOwnModel, hs]
  have main : ∀ hc : Cpp.forLoop 0 p.T (checkNewModel e ms) p = .ok () p,
      (Op.setRunningModels ms).run e hw en p = .ub := by
    intro hc
    simp only [Op.run, setRunningModels, Cpp.bind_apply, Cpp.get_apply, hc, Cpp.modify_apply]
    by_cases hms : ms.length = 0
    · exact absurd hc (hok _ _ _ (by omega) (by omega))
    · rw [hpush _ _ (by omega) rfl]
  constructor
  · intro p' h
    rcases checkLoop_cases e ms p.T 0 p with hc | hc | hc
    · rw [main hc] at h; cases h
    · simp [Op.run, setRunningModels, hc] at h
    · simp [Op.run, setRunningModels, hc] at h
  · intro hall
    rcases checkLoop_cases e ms p.T 0 p with hc | hc | hc
    · exact main hc
    · exfalso
      have : ∀ (n i : Nat) (s : Problem K M), s.nx = p.nx → s.ndx = p.ndx →
          Cpp.forLoop i n (checkNewModel e ms) s ≠ .throw s := by
        intro n
        induction n with
        | zero => intro i s _ _; simp
        | succ n ih =>
          intro i s h1 h2
          rw [Cpp.forLoop_succ]
          cases hg : ms[i]? with
          | none => simp [checkNewModel, hg]
          | some m =>
            have := hall m (List.mem_of_getElem? hg)
            simp [checkNewModel, hg, this, h1, h2]
            exact ih _ _ h1 h2
      exact this _ _ _ rfl rfl hc
    · simp [Op.run, setRunningModels, hc]

/-- The replacement of the example problem's models by an equally valid list is undefined. -/
example : (Op.setRunningModels (K := Int) [23, 23, 23]).run exEnv 4 true exProblem = .ub := by
  decide

/-! ### C06: update notifications -/

/-- C06 for a single consumer: between two queries, the second one returns `true` exactly when some
structural call succeeded in between (for any sequence of calls without `set_runningModels`). -/
theorem C06_single_consumer_partial (e : Env M) (hw : Nat) (en : Bool) (ops : List (Op K M))
    (hops : ∀ op ∈ ops, op.notSetRunning ∧ op.isQuery = false) :
    ∀ (p : Problem K M), WellFormed e p →
      ∃ p1 p2 b, runOps e hw en ops { p with updated := false } = some p1 ∧
        isUpdated p1 = .ok b p2 ∧
        (b = true ↔ someStructuralSuccess e hw en ops { p with updated := false }) ∧
        p2.updated = false := by
  have gen : ∀ (p : Problem K M), WellFormed e p →
      ∃ p1, runOps e hw en ops p = some p1 ∧
        (p1.updated = true ↔ p.updated = true ∨ someStructuralSuccess e hw en ops p) := by
    induction ops with
    | nil => intro p _; exact ⟨p, rfl, by simp [someStructuralSuccess]⟩
    | cons op ops ih =>
      intro p hwf
      have hop := hops op (by simp)
      obtain ⟨p1, hrun, hwf1, _, _, _⟩ := wf_step e hw en p hwf op hop.1
      obtain ⟨p2, hr2, hiff⟩ := ih (fun o ho => hops o (by simp [ho])) p1 hwf1
      refine ⟨p2, ?_, ?_⟩
      · rcases hrun with h | h <;> simp [runOps, h, hr2]
      · rw [hiff]
        rcases hrun with h | h
        · have hu : p1.updated = true ↔ p.updated = true ∨ op.structural = true := by
            have hT : p.T ≠ 0 := by have := hwf.pos; omega
            cases op with
            | circularAppendData m d =>
              simp only [Op.run] at h
              rw [circularAppendData_run e m d p hT hwf.nmodels hwf.ndatas] at h
              split at h <;> simp_all
              simp [← h, Op.structural]
            | circularAppend m =>
              simp only [Op.run] at h
              rw [circularAppend_run e m p hT hwf.nmodels hwf.ndatas] at h
              split at h <;> simp_all
              simp [← h, Op.structural]
            | updateNode i m d =>
              simp only [Op.run] at h
              rw [updateNode_run e i m d p hwf.nmodels hwf.ndatas] at h
              split at h <;> simp_all
              rw [← h]; split <;> simp [Op.structural]
            | updateModel i m =>
              simp only [Op.run] at h
              rw [updateModel_run e i m p hwf.nmodels hwf.ndatas] at h
              split at h <;> simp_all
              rw [← h]; split <;> simp [Op.structural]
            | setX0 x =>
              simp only [Op.run] at h
              rw [setX0_run] at h
              split at h <;> simp_all
              simp [← h, Op.structural]
            | setTerminalModel m =>
              simp only [Op.run] at h
              rw [setTerminalModel_run] at h
              split at h <;> simp_all
              simp [← h, Op.structural]
            | setNthreads n =>
              simp [Op.run, setNthreads] at h
              simp [← h, Op.structural]
            | isUpdated => simp [Op.isQuery] at hop
            | setRunningModels ms => exact absurd hop.1 (by simp [Op.notSetRunning])
          simp only [someStructuralSuccess, h, hu]
          exact or_assoc
        · have hp : p1 = p := C02_rejected_unchanged e hw en p hwf.nmodels hwf.ndatas op p1 h
          subst hp
          simp only [someStructuralSuccess, h]
  intro p hwf
  have hwf' : WellFormed e { p with updated := false } :=
    ⟨hwf.pos, hwf.nmodels, hwf.ndatas, hwf.x0size, hwf.dims, hwf.tdims, hwf.own, hwf.town⟩
  obtain ⟨p1, h1, h2⟩ := gen _ hwf'
  refine ⟨p1, _, _, h1, isUpdated_run p1, ?_, rfl⟩
  simpa using h2

example : ∃ p1 p2, runOps exEnv 4 true [Op.circularAppend 44, .setX0 [1, 2, 3], .updateModel 3 23]
    exProblem = some p1 ∧ isUpdated p1 = .ok true p2 := ⟨_, _, rfl, rfl⟩

/-- C06 fails with two consumers (e.g. two solvers sharing one problem): after a successful
structural update, the first consumer's query returns `true` and the second consumer – which never
queried before – gets `false`, so it misses the update. -/
theorem C06_two_consumers_counterexample :
    ∃ (p p1 p2 p3 : Problem Int Nat),
      WellFormed exEnv p ∧ p.updated = false ∧
      (Op.circularAppend 23).run exEnv 4 true p = .ok () p1 ∧
      isUpdated p1 = .ok true p2 ∧    -- first consumer: notified
      isUpdated p2 = .ok false p3 :=  -- second consumer: misses the update
  ⟨exProblem, _, _, _, ((C08_ctor exEnv 0 [5, 6, 7] [23, 23, 23] 23).1 exProblem (by decide)).1,
    rfl, rfl, rfl, rfl⟩

end Verif.Shooting
