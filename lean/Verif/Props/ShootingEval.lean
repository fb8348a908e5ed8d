import Verif.Spec.ShootingEval
import Verif.Props.Shooting
import Mathlib.Algebra.BigOperators.Group.List.Basic
import Mathlib.Algebra.Ring.Int.Defs
import Mathlib.Data.List.Nodup
import Mathlib.Data.List.Induction

/-! # Properties C04 and C05: evaluation and rollout -/

namespace Verif.Shooting
open Verif
variable {K X U V M : Type}

theorem SumTree.eval_eq_sum [AddCommMonoid K] (t : SumTree K) : t.eval = t.leaves.sum := by
  induction t with
  | leaf k => simp [SumTree.eval, SumTree.leaves]
  | node a b iha ihb => simp [SumTree.eval, SumTree.leaves, iha, ihb]

theorem LegalReduction.eval_eq [AddCommMonoid K] {l : List K} {t : SumTree K}
    (h : LegalReduction l t) : t.eval = l.sum := by
  obtain ⟨n, hp⟩ := h
  rw [SumTree.eval_eq_sum, hp.sum_eq]
  simp

/-- Running the first `n` micro-steps. -/
theorem runProg_take_succ (p : List (V → V)) (v : V) (n : Nat) (f : V → V) (h : p[n]? = some f) :
    runProg (p.take (n + 1)) v = f (runProg (p.take n) v) := by
  rw [List.take_add_one, h]
  simp [runProg]

/-- Invariant of the parallel loop: node `i`'s data holds the result of the first `pc i`
micro-steps of its program. -/
theorem parFor_inv (T : Nat) (addr : Nat → Nat) (prog : Nat → List (V → V)) (σ : Store V)
    (hinj : ∀ i < T, ∀ j < T, addr i = addr j → i = j) (sched : List Nat)
    (hlt : ∀ i ∈ sched, i < T) (hcount : ∀ i < T, sched.count i ≤ (prog i).length) :
    let s := sched.foldl (parStep addr prog) ⟨σ, fun _ => 0⟩
    (∀ i < T, s.pc i = sched.count i) ∧
    (∀ i < T, s.store (addr i) = runProg ((prog i).take (sched.count i)) (σ (addr i))) ∧
    (∀ a, (∀ i < T, addr i ≠ a) → s.store a = σ a) := by
  induction sched using List.reverseRecOn with
  | nil => simp [runProg]
  | append_singleton l k ih =>
    have hk : k < T := hlt k (by simp)
    have ih := ih (fun i hi => hlt i (by simp [hi]))
      (fun i hi => le_trans (by simp [List.count_append]) (hcount i hi))
    simp only [List.foldl_append, List.foldl_cons, List.foldl_nil]
    set s := l.foldl (parStep addr prog) ⟨σ, fun _ => 0⟩ with hs
    obtain ⟨h1, h2, h3⟩ := ih
    have hc : l.count k + 1 ≤ (prog k).length := by
      have := hcount k hk; simpa [List.count_append] using this
    have hlt' : s.pc k < (prog k).length := by rw [h1 k hk]; omega
    obtain ⟨f, hf⟩ : ∃ f, (prog k)[s.pc k]? = some f := ⟨_, List.getElem?_eq_getElem hlt'⟩
    simp only [parStep, hf]
    refine ⟨?_, ?_, ?_⟩
    · intro i hi
      by_cases hik : i = k
      · subst hik; simp [List.count_append, h1 i hi]
      · have : (k == i) = false := by simpa using fun h => hik h.symm
        simp [hik, List.count_append, h1 i hi, List.count_singleton, this]
    · intro i hi
      by_cases hik : i = k
      · subst hik
        simp only [Store.upd, if_true, List.count_append, List.count_singleton, beq_self_eq_true]
        rw [h2 i hi, runProg_take_succ _ _ _ f]
        rw [← h1 i hi]; exact hf
      · have hne : addr i ≠ addr k := fun h => hik (hinj i hi k hk h)
        have : (k == i) = false := by simpa using fun h => hik h.symm
        simp [Store.upd, hne, List.count_append, List.count_singleton, this, h2 i hi]
    · intro a ha
      have : a ≠ addr k := fun h => ha k hk h.symm
      simp [Store.upd, this, h3 a ha]

/-- The parallel loop computes, for every schedule, what the sequential loop computes. -/
theorem parFor_result (T : Nat) (addr : Nat → Nat) (prog : Nat → List (V → V)) (σ : Store V)
    (hinj : ∀ i < T, ∀ j < T, addr i = addr j → i = j) (sched : List Nat)
    (hfull : FullSchedule T prog sched) :
    (∀ i < T, parFor addr prog sched σ (addr i) = runProg (prog i) (σ (addr i))) ∧
    (∀ a, (∀ i < T, addr i ≠ a) → parFor addr prog sched σ a = σ a) := by
  have := parFor_inv T addr prog σ hinj sched hfull.1 (fun i hi => le_of_eq (hfull.2 i hi))
  refine ⟨?_, this.2.2⟩
  intro i hi
  have h := this.2.1 i hi
  rw [hfull.2 i hi, List.take_length] at h
  exact h

theorem dataAddr_of_getElem? (p : Problem K M) {i : Nat} {d : Data M} (h : p.datas[i]? = some d) :
    dataAddr p i = d.addr := by simp [dataAddr, h]

theorem distinct_inj (p : Problem K M) (h : DistinctDatas p) (hd : p.datas.length = p.T) :
    (∀ i < p.T, ∀ j < p.T, dataAddr p i = dataAddr p j → i = j) ∧
    (∀ i < p.T, dataAddr p i ≠ p.tdata.addr) := by
  unfold DistinctDatas at h
  simp only [List.map_append, List.map_cons, List.map_nil] at h
  rw [List.nodup_append] at h
  obtain ⟨h1, _, h3⟩ := h
  have hget : ∀ i, (hi : i < p.T) → dataAddr p i = (p.datas.map Data.addr)[i]'(by simp; omega) := by
    intro i hi
    simp [dataAddr, List.getElem?_eq_getElem (show i < p.datas.length by omega)]
  refine ⟨?_, ?_⟩
  · intro i hi j hj hij
    rw [hget i hi, hget j hj] at hij
    exact (List.Nodup.getElem_inj_iff h1).mp hij
  · intro i hi heq
    rw [hget i hi] at heq
    exact h3 _ (List.getElem_mem _) p.tdata.addr (by simp) heq

theorem seqContents_eq (S : Sem K X U V M) (σ : Store V) :
    ∀ (ms : List M) (ds : List (Data M)) (xs : List X) (us : List U),
    seqContents S σ ms ds xs us =
      ((((ms.zip ds).zip xs).zip us).map fun q => runProg (S.calcF q.1.1.1 q.1.2 q.2) (σ q.1.1.2.addr))
  | [], _, _, _ => by simp [seqContents]
  | _ :: _, [], _, _ => by simp [seqContents]
  | _ :: _, _ :: _, [], _ => by simp [seqContents]
  | _ :: _, _ :: _, _ :: _, [] => by simp [seqContents]
  | m :: ms, d :: ds, x :: xs, u :: us => by simp [seqContents, seqContents_eq S σ ms ds xs us]

theorem getElem?_seqContents (S : Sem K X U V M) (σ : Store V) (ms : List M) (ds : List (Data M))
    (xs : List X) (us : List U) (i : Nat) (m : M) (d : Data M) (x : X) (u : U)
    (h1 : ms[i]? = some m) (h2 : ds[i]? = some d) (h3 : xs[i]? = some x) (h4 : us[i]? = some u) :
    (seqContents S σ ms ds xs us)[i]? = some (runProg (S.calcF m x u) (σ d.addr)) := by
  rw [seqContents_eq, List.getElem?_map]
  have : (((ms.zip ds).zip xs).zip us)[i]? = some (((m, d), x), u) := by
    rw [List.getElem?_zip_eq_some, List.getElem?_zip_eq_some, List.getElem?_zip_eq_some]
    exact ⟨⟨⟨h1, h2⟩, h3⟩, h4⟩
  simp [this]

/-- What the stores contain after the evaluation, for every schedule. -/
theorem evalStore_result (S : Sem K X U V M) (p : Problem K M)
    (hm : p.models.length = p.T) (hd : p.datas.length = p.T) (hdist : DistinctDatas p)
    (xs : List X) (us : List U) (xT : X) (hxs : xs.length = p.T + 1) (hus : us.length = p.T)
    (hxT : xs.getLast? = some xT) (sched : List Nat)
    (hfull : FullSchedule p.T (nodeProg S p xs us) sched) (σ : Store V) :
    (p.datas.map fun d => evalStore S p xs us sched σ d.addr) =
      seqContents S σ p.models p.datas xs us ∧
    evalStore S p xs us sched σ p.tdata.addr = runProg (S.calcT p.tmodel xT) (σ p.tdata.addr) ∧
    (∀ a, a ∉ (p.datas ++ [p.tdata]).map Data.addr → evalStore S p xs us sched σ a = σ a) := by
  obtain ⟨hinj, hterm⟩ := distinct_inj p hdist hd
  obtain ⟨hr, ho⟩ := parFor_result p.T (dataAddr p) (nodeProg S p xs us) σ hinj sched hfull
  have hT := ho p.tdata.addr hterm
  refine ⟨?_, ?_, ?_⟩
  · apply List.ext_getElem?
    intro i
    by_cases hi : i < p.T
    · have e1 : p.models[i]? = some (p.models[i]'(by omega)) := List.getElem?_eq_getElem _
      have e2 : p.datas[i]? = some (p.datas[i]'(by omega)) := List.getElem?_eq_getElem _
      have e3 : xs[i]? = some (xs[i]'(by omega)) := List.getElem?_eq_getElem _
      have e4 : us[i]? = some (us[i]'(by omega)) := List.getElem?_eq_getElem _
      rw [getElem?_seqContents S σ _ _ _ _ i _ _ _ _ e1 e2 e3 e4, List.getElem?_map, e2]
      have ha := dataAddr_of_getElem? p e2
      have := hr i hi
      simp only [nodeProg, e1, e3, e4, ha] at this
      have hne := hterm i hi
      rw [ha] at hne
      simp only [evalStore, hxT, Option.map_some, Store.upd, if_neg hne]
      rw [this]
    · rw [List.getElem?_eq_none (by simp; omega), List.getElem?_eq_none]
      rw [seqContents_eq]
      simp; omega
  · simp only [evalStore, hxT, Store.upd, if_true, hT]
  · intro a ha
    simp only [List.map_append, List.map_cons, List.map_nil, List.mem_append, List.mem_map,
      List.mem_singleton, not_or, not_exists, not_and] at ha
    simp only [evalStore, hxT, Store.upd, if_neg ha.2]
    apply ho
    intro i hi h
    have e2 : p.datas[i]? = some (p.datas[i]'(by omega)) := List.getElem?_eq_getElem _
    rw [dataAddr_of_getElem? p e2] at h
    exact ha.1 _ (List.getElem_mem _) h

/-- C04. On a problem whose data objects are different objects, `calc` (and `calcDiff`), for every
interleaving of the parallel loop and every legal reduction, returns the sum of the node costs plus
the terminal cost, leaves in every data what the node-by-node evaluation computes, and does not
touch any other memory. -/
theorem C04_calc_value [AddCommMonoid K] (e : Env M) (S : Sem K X U V M) (p : Problem K M)
    (hwf : WellFormed e p) (hdist : DistinctDatas p) (xs : List X) (us : List U) (xT : X)
    (hxs : xs.length = p.T + 1) (hus : us.length = p.T) (hxT : xs.getLast? = some xT)
    (sched : List Nat) (hfull : FullSchedule p.T (nodeProg S p xs us) sched) (σ : Store V)
    (t : SumTree K)
    (ht : LegalReduction (runningCosts S p (evalStore S p xs us sched σ)) t) :
    ∃ σ', calcProblem S p xs us sched t σ = some (totalCost S p xs us xT σ, σ') ∧
      (p.datas.map fun d => σ' d.addr) = seqContents S σ p.models p.datas xs us ∧
      σ' p.tdata.addr = runProg (S.calcT p.tmodel xT) (σ p.tdata.addr) ∧
      (∀ a, a ∉ (p.datas ++ [p.tdata]).map Data.addr → σ' a = σ a) := by
  obtain ⟨h1, h2, h3⟩ := evalStore_result S p hwf.nmodels hwf.ndatas hdist xs us xT hxs hus hxT
    sched hfull σ
  refine ⟨evalStore S p xs us sched σ, ?_, h1, h2, h3⟩
  have hsum : t.eval = ((seqContents S σ p.models p.datas xs us).map S.cost).sum := by
    rw [ht.eval_eq, ← h1]
    simp [runningCosts, Function.comp_def]
  simp only [calcProblem]
  rw [if_neg (by simpa using hxs), if_neg (by simpa using hus)]
  simp [totalCost, hsum, h2]

/-- C04, schedule independence: two runs with any number of threads, any interleavings and any
reductions return the same cost and leave the same memory. -/
theorem C04_schedule_independent [AddCommMonoid K] (e : Env M) (S : Sem K X U V M)
    (p : Problem K M) (hwf : WellFormed e p) (hdist : DistinctDatas p) (xs : List X) (us : List U)
    (hxs : xs.length = p.T + 1) (hus : us.length = p.T)
    (s₁ s₂ : List Nat) (h₁ : FullSchedule p.T (nodeProg S p xs us) s₁)
    (h₂ : FullSchedule p.T (nodeProg S p xs us) s₂) (σ : Store V) (t₁ t₂ : SumTree K)
    (ht₁ : LegalReduction (runningCosts S p (evalStore S p xs us s₁ σ)) t₁)
    (ht₂ : LegalReduction (runningCosts S p (evalStore S p xs us s₂ σ)) t₂) :
    calcProblem S p xs us s₁ t₁ σ = calcProblem S p xs us s₂ t₂ σ := by
  obtain ⟨xT, hxT⟩ : ∃ xT, xs.getLast? = some xT := by
    cases xs with
    | nil => simp at hxs
    | cons a l => exact ⟨_, List.getLast?_eq_some_getLast (by simp)⟩
  obtain ⟨σ₁, a1, a2, a3, a4⟩ := C04_calc_value e S p hwf hdist xs us xT hxs hus hxT s₁ h₁ σ t₁ ht₁
  obtain ⟨σ₂, b1, b2, b3, b4⟩ := C04_calc_value e S p hwf hdist xs us xT hxs hus hxT s₂ h₂ σ t₂ ht₂
  have : σ₁ = σ₂ := by
    funext a
    by_cases ha : a ∈ (p.datas ++ [p.tdata]).map Data.addr
    · simp only [List.map_append, List.map_cons, List.map_nil, List.mem_append,
        List.mem_singleton] at ha
      rcases ha with ha | rfl
      · obtain ⟨d, hd, rfl⟩ := List.mem_map.mp ha
        have := a2.trans b2.symm
        exact (List.map_inj_left.mp this) d hd
      · rw [a3, b3]
    · rw [a4 a ha, b4 a ha]
  rw [a1, b1, this]

/-- C04: wrong trajectory sizes are rejected, and nothing else is. -/
theorem C04_sizes [Add K] (S : Sem K X U V M) (p : Problem K M) (xs : List X) (us : List U)
    (sched : List Nat) (t : SumTree K) (σ : Store V) :
    calcProblem S p xs us sched t σ = none ↔ xs.length ≠ p.T + 1 ∨ us.length ≠ p.T := by
  unfold calcProblem
  split
  · simp_all
  · split <;> simp_all

/-- The addresses of all datas are different and below the allocator's next address. -/
def FreshDatas (p : Problem K M) : Prop :=
  DistinctDatas p ∧ ∀ d ∈ p.datas ++ [p.tdata], d.addr < p.fresh

theorem fresh_step (e : Env M) (hw : Nat) (en : Bool) (p : Problem K M) (hwf : WellFormed e p)
    (hf : FreshDatas p) (op : Op K M) (hop : op.ownData) (p' : Problem K M)
    (h : op.run e hw en p = .ok () p') : FreshDatas p' := by
  have hT : p.T ≠ 0 := by have := hwf.pos; omega
  obtain ⟨hd, hlt⟩ := hf
  unfold DistinctDatas at hd
  simp only [List.map_append, List.map_cons, List.map_nil, List.nodup_append, List.mem_map,
    List.mem_singleton] at hd
  obtain ⟨hn, _, hdis⟩ := hd
  have hlt1 : ∀ d ∈ p.datas, d.addr < p.fresh := fun d hd => hlt d (by simp [hd])
  have hlt2 : p.tdata.addr < p.fresh := hlt _ (by simp)
  have hdis' : ∀ d ∈ p.datas, d.addr ≠ p.tdata.addr := fun d hd => hdis _ ⟨d, hd, rfl⟩ _ rfl
  cases op with
  | circularAppendData m d => exact absurd hop (by simp [Op.ownData])
  | updateNode i m d => exact absurd hop (by simp [Op.ownData])
  | setRunningModels ms => exact absurd hop (by simp [Op.ownData])
  | circularAppend m =>
    simp only [Op.run] at h
    rw [circularAppend_run e m p hT hwf.nmodels hwf.ndatas] at h
    split at h
    · injection h with _ h; subst h
      have hsub : ∀ d ∈ p.datas.tail, d ∈ p.datas := fun d hd => List.mem_of_mem_tail hd
      constructor
      · unfold DistinctDatas
        simp only [List.map_append, List.map_cons, List.map_nil, List.append_assoc,
          List.nodup_append, List.mem_map, List.mem_singleton]
        refine ⟨?_, ?_, ?_⟩
        · rw [List.map_tail]; exact hn.sublist (List.tail_sublist _)
        · simp; omega
        · rintro _ ⟨d, hd, rfl⟩ b hb
          have := hlt1 d (hsub d hd)
          have := hdis' d (hsub d hd)
          simp at hb; omega
      · intro d hd
        simp only [List.mem_append, List.mem_singleton] at hd
        rcases hd with (hd | rfl) | rfl
        · have := hlt1 d (hsub d hd); simp; omega
        · simp
        · simp; omega
    · cases h
  | updateModel i m =>
    simp only [Op.run] at h
    rw [updateModel_run e i m p hwf.nmodels hwf.ndatas] at h
    split at h
    · injection h with _ h
      by_cases hi : i = p.T
      · rw [if_pos hi] at h; subst h
        constructor
        · unfold DistinctDatas
          simp only [List.map_append, List.map_cons, List.map_nil, List.nodup_append, List.mem_map,
            List.mem_singleton]
          refine ⟨hn, by simp, ?_⟩
          rintro _ ⟨d, hd, rfl⟩ b rfl
          have := hlt1 d hd; omega
        · intro d hd
          simp only [List.mem_append, List.mem_singleton] at hd
          rcases hd with hd | rfl
          · have := hlt1 d hd; simp; omega
          · simp
      · rw [if_neg hi] at h; subst h
        constructor
        · unfold DistinctDatas
          simp only [List.map_append, List.map_cons, List.map_nil, List.nodup_append, List.mem_map,
            List.mem_singleton]
          refine ⟨?_, by simp, ?_⟩
          · rw [List.map_set]
            apply List.Nodup.set hn
            simp only [List.mem_map, not_exists, not_and]
            intro d hd; have := hlt1 d hd; omega
          · rintro _ ⟨d, hd, rfl⟩ b rfl
            rcases List.mem_or_eq_of_mem_set hd with h | rfl
            · exact hdis' d h
            · simp; omega
        · intro d hd
          simp only [List.mem_append, List.mem_singleton] at hd
          rcases hd with hd | rfl
          · rcases List.mem_or_eq_of_mem_set hd with h | rfl
            · have := hlt1 d h; simp; omega
            · simp
          · simp; omega
    · cases h
  | setX0 x =>
    simp only [Op.run] at h
    rw [setX0_run] at h
    split at h
    · injection h with _ h; subst h
      exact ⟨by simpa [DistinctDatas, List.nodup_append] using ⟨hn, hdis'⟩, hlt⟩
    · cases h
  | setTerminalModel m =>
    simp only [Op.run] at h
    rw [setTerminalModel_run] at h
    split at h
    · injection h with _ h; subst h
      constructor
      · unfold DistinctDatas
        simp only [List.map_append, List.map_cons, List.map_nil, List.nodup_append, List.mem_map,
          List.mem_singleton]
        refine ⟨hn, by simp, ?_⟩
        rintro _ ⟨d, hd, rfl⟩ b rfl
        have := hlt1 d hd; omega
      · intro d hd
        simp only [List.mem_append, List.mem_singleton] at hd
        rcases hd with hd | rfl
        · have := hlt1 d hd; simp; omega
        · simp
    · cases h
  | setNthreads n =>
    simp [Op.run, setNthreads] at h; subst h
    exact ⟨by simpa [DistinctDatas, List.nodup_append] using ⟨hn, hdis'⟩, hlt⟩
  | isUpdated =>
    simp [Op.run, isUpdated_run] at h; subst h
    exact ⟨by simpa [DistinctDatas, List.nodup_append] using ⟨hn, hdis'⟩, hlt⟩

/-- C04, reachability: every problem built by the constructor from models, after any history of
calls that do not insert foreign data objects, has pairwise different datas; so by
`C04_schedule_independent` its evaluation does not depend on the schedule. -/
theorem C04_reachable_distinct (e : Env M) (hw : Nat) (en : Bool) (f : Nat) (x0 : List K)
    (ms : List M) (tm : M) (p : Problem K M) (hp : ctor e f x0 ms tm = .ok p)
    (ops : List (Op K M)) (hops : ∀ op ∈ ops, op.ownData) :
    ∃ p', runOps e hw en ops p = some p' ∧ WellFormed e p' ∧ DistinctDatas p' := by
  have h0 := (C08_ctor e f x0 ms tm).1 p hp
  have hfresh : FreshDatas p := by
    refine ⟨h0.2.2.2.2.2, ?_⟩
    cases ms with
    | nil => simp [ctor] at hp
    | cons m0 rest =>
      simp only [ctor] at hp
      split at hp; · cases hp
      split at hp; · cases hp
      split at hp; · cases hp
      split at hp; · cases hp
      injection hp with hp
      subst hp
      intro d hd
      simp only [List.mem_append, List.mem_singleton] at hd
      have key : ∀ (l : List M) (a : Nat) (d : Data M), d ∈ allocDatas a l → d.addr < a + l.length := by
        intro l
        induction l with
        | nil => intro a d h; simp [allocDatas] at h
        | cons m l ih =>
          intro a d h
          simp only [allocDatas, List.mem_cons] at h
          rcases h with rfl | h
          · simp
          · have := ih _ _ h; simp; omega
      rcases hd with hd | rfl
      · have := key _ _ _ hd; simp only; omega
      · simp
  have gen : ∀ (ops : List (Op K M)), (∀ op ∈ ops, op.ownData) → ∀ p : Problem K M,
      WellFormed e p → FreshDatas p →
      ∃ p', runOps e hw en ops p = some p' ∧ WellFormed e p' ∧ FreshDatas p' := by
    intro ops
    induction ops with
    | nil => intro _ p h1 h2; exact ⟨p, rfl, h1, h2⟩
    | cons op ops ih =>
      intro hops p h1 h2
      have hop := hops op (by simp)
      have hns : op.notSetRunning := by cases op <;> simp_all [Op.ownData, Op.notSetRunning]
      obtain ⟨p1, hrun, hwf1, _⟩ := wf_step e hw en p h1 op hns
      have hf1 : FreshDatas p1 := by
        rcases hrun with h | h
        · exact fresh_step e hw en p h1 h2 op hop p1 h
        · rw [C02_rejected_unchanged e hw en p h1.nmodels h1.ndatas op p1 h]; exact h2
      obtain ⟨p2, hr2, hwf2, hf2⟩ := ih (fun o ho => hops o (by simp [ho])) p1 hwf1 hf1
      refine ⟨p2, ?_, hwf2, hf2⟩
      rcases hrun with h | h <;> simp [runOps, h, hr2]
  obtain ⟨p', h1, h2, h3⟩ := gen ops hops p h0.1 hfresh
  exact ⟨p', h1, h2, h3.1⟩

/-! #### A concrete model for the examples: scalar integrator, `x⁺ = x + u`, cost `x² + u²`, data
content `(cost, xnext)`; `calc` writes the next state and then the cost (two micro-steps). -/

def exSem : Sem Int Int Int (Int × Int) Nat where
  calcF _ x u := [fun v => (v.1, x + u), fun v => (x * x + u * u, v.2)]
  calcT _ x := [fun v => (x * x, v.2)]
  cost v := v.1
  xnext v := v.2

theorem exProblem_wf : WellFormed exEnv exProblem :=
  ((C08_ctor exEnv 0 [5, 6, 7] [23, 23, 23] 23).1 exProblem (by decide)).1

/-- The hypotheses of C04 hold for a genuinely interleaved schedule (nodes 0,1,2 mixed). -/
example : DistinctDatas exProblem ∧
    FullSchedule exProblem.T (nodeProg exSem exProblem [1, 2, 3, 4] [5, 6, 7]) [2, 0, 1, 0, 2, 1] ∧
    LegalReduction (K := Int) [26, 40, 58]
      (.node (.node (.leaf 58) (.leaf 0)) (.node (.leaf 26) (.leaf 40))) := by
  refine ⟨by unfold DistinctDatas; decide, ⟨by decide, by decide⟩, 0, by decide⟩

example : (calcProblem exSem exProblem [1, 2, 3, 4] [5, 6, 7] [2, 0, 1, 0, 2, 1]
    (.node (.node (.leaf 58) (.leaf 0)) (.node (.leaf 26) (.leaf 40))) (fun _ => (0, 0))).map Prod.fst
      = some 140 := by decide

/-- C04 needs the datas to be different objects: when the same data object (accepted by
`updateNode`, which only asks the model's `checkData`) serves two nodes, the cost returned by the
parallel evaluation depends on the interleaving. -/
theorem C04_shared_data_counterexample :
    ∃ (p : Problem Int Nat) (s₁ s₂ : List Nat) (t₁ t₂ : SumTree Int),
      (Op.updateNode 1 23 ⟨0, 23⟩).run exEnv 4 true exProblem = .ok () p ∧ WellFormed exEnv p ∧
      FullSchedule p.T (nodeProg exSem p [1, 2, 3, 4] [5, 6, 7]) s₁ ∧
      FullSchedule p.T (nodeProg exSem p [1, 2, 3, 4] [5, 6, 7]) s₂ ∧
      LegalReduction
        (runningCosts exSem p (evalStore exSem p [1, 2, 3, 4] [5, 6, 7] s₁ fun _ => (0, 0))) t₁ ∧
      LegalReduction
        (runningCosts exSem p (evalStore exSem p [1, 2, 3, 4] [5, 6, 7] s₂ fun _ => (0, 0))) t₂ ∧
      (calcProblem exSem p [1, 2, 3, 4] [5, 6, 7] s₁ t₁ fun _ => (0, 0)).map Prod.fst ≠
        (calcProblem exSem p [1, 2, 3, 4] [5, 6, 7] s₂ t₂ fun _ => (0, 0)).map Prod.fst := by
  obtain ⟨p, hp, hwf, _⟩ := wf_step exEnv 4 true exProblem exProblem_wf
    (.updateNode 1 23 ⟨0, 23⟩) trivial
  have hp' : (Op.updateNode 1 23 ⟨0, 23⟩).run exEnv 4 true exProblem = .ok ()
    { exProblem with datas := [⟨0, 23⟩, ⟨0, 23⟩, ⟨2, 23⟩], updated := true } := rfl
  rw [hp'] at hp
  rcases hp with hp | hp
  · injection hp with _ hp
    subst hp
    refine ⟨_, [0, 0, 1, 1, 2, 2], [1, 1, 0, 0, 2, 2],
      .node (.leaf 0) (.node (.leaf 40) (.node (.leaf 40) (.leaf 58))),
      .node (.leaf 0) (.node (.leaf 26) (.node (.leaf 26) (.leaf 58))),
      hp', hwf, ⟨by decide, by decide⟩, ⟨by decide, by decide⟩, ⟨0, by decide⟩, ⟨0, by decide⟩,
      by decide⟩
  · cases hp

/-! ### C05: rollout -/

/-- The trajectory of a dynamics `f` from `x` under the nodes' models and controls. -/
def flow (f : M → X → U → X) : List M → List U → X → List X
  | m :: ms, u :: us, x => x :: flow f ms us (f m x u)
  | _, _, x => [x]

theorem rolloutLoop_eq (S : Sem K X U V M) (f : M → X → U → X) (hf : NextStateIs S f) :
    ∀ (ms : List M) (ds : List (Data M)) (us : List U) (x : X) (σ : Store V),
      ms.length = ds.length → us.length = ms.length →
      x :: (rolloutLoop S (ms.zip ds) us x σ).1 = flow f ms us x := by
  intro ms
  induction ms with
  | nil => intro ds us x σ _ _; simp [rolloutLoop, flow]
  | cons m ms ih =>
    intro ds us x σ h1 h2
    cases ds with
    | nil => simp at h1
    | cons d ds =>
      cases us with
      | nil => simp at h2
      | cons u us =>
        simp only [List.zip_cons_cons, rolloutLoop, flow]
        rw [hf m x u, ih ds us _ _ (by simpa using h1) (by simpa using h2)]

/-- Consecutive states of the trajectory are linked by the dynamics. -/
theorem flow_spec (f : M → X → U → X) : ∀ (ms : List M) (us : List U) (x : X),
    us.length = ms.length →
    (flow f ms us x).length = ms.length + 1 ∧ (flow f ms us x)[0]? = some x ∧
    ∀ (i : Nat) (m : M) (u : U), ms[i]? = some m → us[i]? = some u →
      ∃ xi, (flow f ms us x)[i]? = some xi ∧ (flow f ms us x)[i + 1]? = some (f m xi u) := by
  intro ms
  induction ms with
  | nil => intro us x h; simp [flow]
  | cons m ms ih =>
    intro us x h
    cases us with
    | nil => simp at h
    | cons u us =>
      obtain ⟨h1, h2, h3⟩ := ih us (f m x u) (by simpa using h)
      refine ⟨by simp [flow, h1], by simp [flow], ?_⟩
      intro i m' u' hm hu
      cases i with
      | zero =>
        simp at hm hu; subst hm; subst hu
        exact ⟨x, by simp [flow], by simp [flow, h2]⟩
      | succ i =>
        simp at hm hu
        obtain ⟨xi, e1, e2⟩ := h3 i m' u' hm hu
        exact ⟨xi, by simp [flow, e1], by simp [flow, e2]⟩

/-- C05. `rollout` returns `T+1` states that start at `x0` and follow the nodes' dynamics, whatever
`xs` and the datas contained before. -/
theorem C05_rollout (e : Env M) (S : Sem K X U V M) (f : M → X → U → X) (hf : NextStateIs S f)
    (p : Problem K M) (hwf : WellFormed e p) (x0 : X) (us : List U) (xs : List X)
    (hxs : xs.length = p.T + 1) (hus : us.length = p.T) (σ : Store V) :
    ∃ xs' σ', rollout S p x0 us xs σ = some (xs', σ') ∧ xs'.length = p.T + 1 ∧
      xs'[0]? = some x0 ∧
      ∀ (i : Nat) (m : M) (u : U), p.models[i]? = some m → us[i]? = some u →
        ∃ xi, xs'[i]? = some xi ∧ xs'[i + 1]? = some (f m xi u) := by
  have hm := hwf.nmodels
  have hd := hwf.ndatas
  have hloop := rolloutLoop_eq S f hf p.models p.datas us x0 σ (by omega) (by omega)
  obtain ⟨h1, h2, h3⟩ := flow_spec f p.models us x0 (by omega)
  simp only [rollout]
  rw [if_neg (by simpa using hxs), if_neg (by simpa using hus)]
  rw [hloop]
  cases hl : (flow f p.models us x0).getLast? with
  | none => rw [List.getLast?_eq_none_iff] at hl; simp [hl] at h1
  | some x => exact ⟨_, _, rfl, by omega, h2, h3⟩

/-- C05, feasibility: re-evaluating the problem on the rolled-out trajectory, with any number of
threads and any schedule, gives a next state at every node equal to the next point of the
trajectory (all gaps are closed). -/
theorem C05_rollout_no_gaps (e : Env M) (S : Sem K X U V M) (f : M → X → U → X)
    (hf : NextStateIs S f) (p : Problem K M) (hwf : WellFormed e p) (hdist : DistinctDatas p)
    (x0 : X) (us : List U) (xs : List X) (σ σ' : Store V) (xs' : List X)
    (hr : rollout S p x0 us xs σ = some (xs', σ')) (σ'' : Store V) (sched : List Nat)
    (hfull : FullSchedule p.T (nodeProg S p xs' us) sched) :
    ∀ (i : Nat) (d : Data M), p.datas[i]? = some d →
      xs'[i + 1]? = some (S.xnext (evalStore S p xs' us sched σ'' d.addr)) := by
  have hsz : xs.length = p.T + 1 ∧ us.length = p.T := by
    unfold rollout at hr
    split at hr
    · cases hr
    · split at hr
      · cases hr
      · exact ⟨by omega, by omega⟩
  obtain ⟨ys, τ, hr', hlen, _, hstep⟩ := C05_rollout e S f hf p hwf x0 us xs hsz.1 hsz.2 σ
  rw [hr] at hr'
  injection hr' with hr'
  injection hr' with h1 h2
  subst h1; subst h2
  have hm := hwf.nmodels
  have hd := hwf.ndatas
  obtain ⟨xT, hxT⟩ : ∃ xT, xs'.getLast? = some xT := by
    cases hx : xs' with
    | nil => simp [hx] at hlen
    | cons a l => exact ⟨_, List.getLast?_eq_some_getLast (by simp)⟩
  obtain ⟨hc, _, _⟩ := evalStore_result S p hm hd hdist xs' us xT hlen hsz.2 hxT sched hfull σ''
  intro i d hdi
  have hi : i < p.T := by
    have := (List.getElem?_eq_some_iff.mp hdi).1; omega
  have e1 : p.models[i]? = some (p.models[i]'(by omega)) := List.getElem?_eq_getElem _
  have e4 : us[i]? = some (us[i]'(by omega)) := List.getElem?_eq_getElem _
  obtain ⟨xi, k1, k2⟩ := hstep i _ _ e1 e4
  have := congrArg (fun l => l[i]?) hc
  simp only [List.getElem?_map, hdi, Option.map_some] at this
  rw [getElem?_seqContents S σ'' _ _ _ _ i _ _ _ _ e1 hdi k1 e4] at this
  injection this with this
  rw [k2, this, hf]

/-- The example integrator satisfies the hypothesis, and the rollout of the example problem. -/
example : NextStateIs exSem (fun _ x u => x + u) := fun _ _ _ _ => rfl

example : (rollout exSem exProblem 1 [5, 6, 7] [0, 0, 0, 0] (fun _ => (9, 9))).map Prod.fst
    = some [1, 6, 12, 19] := by decide

end Verif.Shooting
