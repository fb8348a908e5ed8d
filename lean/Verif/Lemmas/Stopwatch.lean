import Verif.Spec.Stopwatch
import Mathlib.Tactic.Linarith
import Mathlib.Algebra.BigOperators.Group.List.Basic

set_option linter.unusedSectionVars false

/-! # Lemmas: the stopwatch -/

namespace Verif.Stopwatch
open Verif

variable {K : Type} [Field K] [LinearOrder K]

/-- The reading of the clock of a mode. -/
def Clock.read (c : Clock K) : Mode → K
  | .cpu => c.cpu
  | _ => c.real

/-- The update of minimum and maximum. -/
def mm (b : K × K) (l : K) : K × K :=
  (if l ≥ b.2 then b.1 else if l ≤ b.1 then l else b.1, if l ≥ b.2 then l else b.2)

/-- The record `r` agrees with the measurements `s`. -/
structure Rep (p : Platform K) (m : Mode) (R : Prop) (r : Perf K) (s : Meas K) : Prop where
  start : r.clockStart = (s.started.map fun t => t.read m).getD 0
  stops : r.stops = s.laps.length
  total : r.total = s.laps.sum
  last : r.last = s.laps.getLast?.getD 0
  ext : ∃ b, (b = (p.big, p.tiny) ∨ (R ∧ b = (0, 0))) ∧ (r.minT, r.maxT) = s.laps.foldl mm b

/-- The world agrees with the measurements `s` of the name `n`. -/
structure Sim (p : Platform K) (m : Mode) (n : String) (R : Prop) (w : World K) (s : Meas K) : Prop where
  active : w.active = true
  mode : w.mode = m
  profiler : w.profiler = s.profiler
  watchers : ∀ i, w.watchers i = (s.owner i).map fun k => (k, true)
  owned : ∀ i k, s.owner i = some k → ∃ r, w.records k = some r
  nz : ∀ t, s.started = some t → t.read m ≠ 0
  absent : w.records n = none → s.started = none ∧ s.laps = []
  present : ∀ r, w.records n = some r → Rep p m R r s

variable {p : Platform K} {m : Mode} {n : String} {R : Prop} {w : World K} {s : Meas K}

theorem Rep.new (h1 : s.started = none) (h2 : s.laps = []) : Rep p m R (Perf.new p) s :=
  ⟨by simp [h1, Perf.new], by simp [h2, Perf.new], by simp [h2, Perf.new], by simp [h2, Perf.new],
    _, .inl rfl, by simp [h2, Perf.new]⟩

theorem Rep.zero (hR : R) {o : Nat → Option String} {b : Bool} :
    Rep p m R (⟨0, 0, 0, 0, 0, 0⟩ : Perf K) ⟨b, o, .none, []⟩ :=
  ⟨by simp, by simp, by simp, by simp, _, .inr ⟨hR, rfl⟩, by simp⟩

theorem Rep.started {r : Perf K} (h : Rep p m R r s) (t : Clock K) :
    Rep p m R { r with clockStart := t.read m } { s with started := some t } :=
  ⟨by simp, h.stops, h.total, h.last, h.ext⟩

theorem Rep.stopped {r : Perf K} (hm : m ≠ .none) (h : Rep p m R r s)
    (hz : ∀ t, s.started = some t → t.read m ≠ 0) (now : Clock K) :
    Rep p m R (stopPerf p m (now.read m) r)
      { s with laps := s.laps ++ (s.started.map fun t => seconds p m t now).toList } := by
  obtain ⟨h1, h2, h3, h4, b, hb, h5⟩ := h
  unfold stopPerf
  cases hs : s.started with
  | none =>
    rw [hs] at h1
    simp only [Option.map_none, Option.getD_none] at h1
    simp only [h1, if_true, Option.map_none, Option.toList_none, List.append_nil]
    exact ⟨by rw [h1]; rfl, h2, h3, h4, b, hb, h5⟩
  | some t =>
    rw [hs] at h1
    simp only [Option.map_some, Option.getD_some] at h1
    have h0 := hz t hs
    have hl : (if m = .cpu then (now.read m - t.read m) / p.cps else now.read m - t.read m) = seconds p m t now := by
      cases m <;> simp_all [seconds, Clock.read]
    simp only [h1, h0, if_false, hl, Option.map_some, Option.toList_some]
    refine ⟨rfl, by simp [h2], by simp [h3], by simp, b, hb, ?_⟩
    rw [List.foldl_append, ← h5]
    rfl

/-- The world with a new record of a name. -/
def setRec (w : World K) (k : String) (x : Perf K) : World K :=
  { w with records := Function.update w.records k (some x) }

theorem update_getD {f : String → Option (Perf K)} {n k : String} {r : Perf K}
    (h : Function.update f n (some r) k = none) : f k = none ∧ k ≠ n := by
  by_cases e : k = n
  · subst e; simp at h
  · rw [Function.update_of_ne e] at h; exact ⟨h, e⟩

/-- A record present after creating it. -/
theorem created_owned {f : String → Option (Perf K)} {k : String} (x : Perf K) {j : String}
    (h : ∃ r, f j = some r) : ∃ r, Function.update f k (some x) j = some r := by
  by_cases e : j = k
  · subst e; exact ⟨x, by simp⟩
  · rw [Function.update_of_ne e]; exact h

theorem findPerf_some {r : Perf K} (h : w.records n = some r) : findPerf n w = .ok r w := by
  unfold findPerf; rw [h]

theorem findPerf_none (h : w.records n = none) : findPerf n w = .throw w := by
  unfold findPerf; rw [h]

theorem takeTime_ok (hm : m ≠ .none) (hw : w.mode = m) (now : Clock K) :
    takeTime now w = .ok (now.read m) w := by
  subst hw
  unfold takeTime Clock.read
  cases h : w.mode with
  | none => exact absurd h hm
  | cpu => rfl
  | real => rfl

/-- Setting the record of a name. -/
theorem Sim.put (h : Sim p m n R w s) {k : String} {x : Perf K} {s' : Meas K}
    (e1 : s'.profiler = s.profiler) (e2 : s'.owner = s.owner)
    (hz : ∀ t, s'.started = some t → t.read m ≠ 0)
    (hk : k = n → Rep p m R x s') (hne : k ≠ n → s' = s) :
    Sim p m n R (setRec w k x) s' := by
  refine ⟨h.active, h.mode, by rw [e1]; exact h.profiler, fun i => by rw [e2]; exact h.watchers i, ?_, hz, ?_, ?_⟩
  · intro i j hj
    rw [e2] at hj
    exact created_owned x (h.owned i j hj)
  · intro hn
    obtain ⟨h1, h2⟩ := update_getD hn
    rw [hne h2.symm]
    exact h.absent h1
  · intro r hr
    by_cases e : k = n
    · subst e
      simp only [setRec, Function.update_self, Option.some.injEq] at hr
      exact hr ▸ hk rfl
    · have hr' : Function.update w.records k (some x) n = some r := hr
      rw [Function.update_of_ne (Ne.symm e)] at hr'
      rw [hne e]
      exact h.present r hr'

/-- Creating a record. -/
theorem Sim.create (h : Sim p m n R w s) (k : String) :
    Sim p m n R { w with records := Function.update w.records k (some ((w.records k).getD (Perf.new p))) } s := by
  refine h.put rfl rfl h.nz ?_ fun _ => rfl
  rintro rfl
  cases hr : w.records k with
  | none =>
    obtain ⟨h1, h2⟩ := h.absent hr
    exact Rep.new h1 h2
  | some r => exact h.present r hr

theorem put_put {w : World K} {k : String} {a b : Perf K} :
    Function.update (Function.update w.records k (some a)) k (some b) = Function.update w.records k (some b) := by
  rw [Function.update_idem]

theorem Sim.step (hm : m ≠ .none) (h : Sim p m n R w s) (c : Call K) (ho : Ordinary n c)
    (hR : ¬ R → NoReset n c) : Sim p m n R (after p w c) (s.next p m n c) := by
  cases c with
  | enable => exact ⟨h.active, h.mode, rfl, h.watchers, h.owned, h.nz, h.absent,
      fun r hr => ⟨(h.present r hr).start, (h.present r hr).stops, (h.present r hr).total, (h.present r hr).last, (h.present r hr).ext⟩⟩
  | disable => exact ⟨h.active, h.mode, rfl, h.watchers, h.owned, h.nz, h.absent,
      fun r hr => ⟨(h.present r hr).start, (h.present r hr).stops, (h.present r hr).total, (h.present r hr).last, (h.present r hr).ext⟩⟩
  | turnOn => exact ⟨rfl, h.mode, h.profiler, h.watchers, h.owned, h.nz, h.absent, h.present⟩
  | turnOff => exact ho.elim
  | setMode m => exact ho.elim
  | start k now =>
    have hw : after p w (.start k now) = setRec w k ({ (w.records k).getD (Perf.new p) with clockStart := now.read m }) := by
      unfold after Stopwatch.step start getOrCreate Stopwatch.put setRec
      simp only [Cpp.bind_apply, Cpp.get_apply, h.active, Bool.not_true, Bool.false_eq_true, if_false,
        Cpp.modify_apply]
      rw [takeTime_ok (m := m) hm]
      · simp only [Cpp.bind_apply]
        rw [findPerf_some (r := (w.records k).getD (Perf.new p)) (by simp)]
        simp only [Cpp.modify_apply, Function.update_idem, h.active]
      · exact h.mode
    rw [hw]
    simp only [Meas.next]
    by_cases e : k = n
    · subst e
      rw [if_pos rfl]
      refine h.put rfl rfl (fun t ht => ?_) (fun _ => ?_) (fun e => absurd rfl e)
      · obtain rfl : now = t := by simpa using ht
        cases m <;> simp_all [Clock.read, Ordinary]
      · refine Rep.started (s := s) ?_ now
        cases hr : w.records k with
        | none => exact Rep.new (h.absent hr).1 (h.absent hr).2
        | some r => exact h.present r hr
    · rw [if_neg e]
      exact h.put rfl rfl h.nz (fun e' => absurd e' e) fun _ => rfl
  | stop k now =>
    cases hr : w.records k with
    | none =>
      have hw : after p w (.stop k now) = w := by
        unfold after Stopwatch.step stop
        simp only [Cpp.bind_apply, Cpp.get_apply, h.active, Bool.not_true, Bool.false_eq_true, if_false]
        rw [takeTime_ok hm h.mode]
        simp [findPerf_none hr]
      rw [hw]
      simp only [Meas.next]
      by_cases e : k = n
      · subst e
        simp only [if_true, (h.absent hr).1, Option.map_none, Option.toList_none, List.append_nil]
        have : ({ profiler := s.profiler, owner := s.owner, started := none, laps := s.laps } : Meas K) = s := by
          rw [← (h.absent hr).1]
        first | exact h | (rw [this]; exact h)
      · rw [if_neg e]; exact h
    | some r =>
      have hw : after p w (.stop k now) = setRec w k ((stopPerf p m (now.read m) r)) := by
        unfold after Stopwatch.step stop Stopwatch.put setRec
        simp only [Cpp.bind_apply, Cpp.get_apply, h.active, Bool.not_true, Bool.false_eq_true, if_false]
        rw [takeTime_ok hm h.mode]
        simp [findPerf_some hr, h.mode, h.active]
      rw [hw]
      simp only [Meas.next]
      by_cases e : k = n
      · subst e
        rw [if_pos rfl]
        exact h.put rfl rfl h.nz (fun _ => (h.present r hr).stopped hm h.nz now) (fun e => absurd rfl e)
      · rw [if_neg e]
        exact h.put rfl rfl h.nz (fun e' => absurd e' e) fun _ => rfl
  | pause k now =>
    have e : k ≠ n := ho
    show Sim p m n R (after p w (.pause k now)) s
    unfold after Stopwatch.step pause Stopwatch.put
    simp only [Cpp.bind_apply, Cpp.get_apply, h.active, Bool.not_true, Bool.false_eq_true, if_false]
    cases hr : w.records k with
    | none => rw [findPerf_none hr]; exact h
    | some r =>
      rw [findPerf_some hr]
      simp only
      by_cases h0 : r.clockStart = 0
      · simp only [h0, if_true, Cpp.pure_apply]; exact h
      · simp only [h0, if_false, Cpp.modify_apply]
        exact h.put rfl rfl h.nz (fun e' => absurd e' e) fun _ => rfl
  | reset k =>
    simp only [Meas.next]
    have hst : ∀ r, w.records k = some r → after p w (.reset k) =
        setRec w k ⟨0, 0, 0, 0, 0, 0⟩ := by
      intro r hr
      unfold after Stopwatch.step reset Stopwatch.put setRec
      simp [Cpp.bind_apply, h.active, findPerf_some hr]
    have hsn : w.records k = none → after p w (.reset k) = w := by
      intro hr
      unfold after Stopwatch.step reset
      simp [Cpp.bind_apply, h.active, findPerf_none hr]
    cases hr : w.records k with
    | none =>
      rw [hsn hr]
      by_cases e : k = n
      · subst e
        rw [if_pos rfl]
        obtain ⟨h1, h2⟩ := h.absent hr
        rw [show ({ s with started := none, laps := [] } : Meas K) = s by rw [← h1, ← h2]]
        exact h
      · rw [if_neg e]; exact h
    | some r =>
      rw [hst r hr]
      by_cases e : k = n
      · subst e
        rw [if_pos rfl]
        have hRR : R := by
          by_contra hn
          exact (hR hn) rfl
        exact h.put rfl rfl (by simp) (fun _ => Rep.zero hRR) (fun e => absurd rfl e)
      · rw [if_neg e]
        exact h.put rfl rfl h.nz (fun e' => absurd e' e) fun _ => rfl
  | resetAll =>
    have hRR : R := by
      by_contra hn
      exact (hR hn)
    unfold after Stopwatch.step resetAll
    simp only [Meas.next, Cpp.bind_apply, Cpp.get_apply, h.active, Bool.not_true, Bool.false_eq_true, if_false, Cpp.set_apply]
    refine ⟨rfl, h.mode, h.profiler, h.watchers, ?_, by simp, fun _ => ⟨rfl, rfl⟩, ?_⟩
    · intro i k hk
      obtain ⟨r, hr⟩ := h.owned i k hk
      exact ⟨⟨0, 0, 0, 0, 0, 0⟩, by simp only [hr, Option.map_some]⟩
    · intro r hr
      cases hr' : w.records n with
      | none => simp [hr'] at hr
      | some r' =>
        simp only [hr', Option.map_some, Option.some.injEq] at hr
        rw [← hr]
        exact Rep.zero hRR
  | watcher i k =>
    have hc := h.create k
    unfold after Stopwatch.step watcher getOrCreate
    simp only [Meas.next, Cpp.bind_apply, Cpp.get_apply, h.active, Bool.not_true, Bool.false_eq_true, if_false, Cpp.modify_apply]
    refine ⟨rfl, hc.mode, hc.profiler, fun j => ?_, ?_, hc.nz, hc.absent,
      fun r hr => ⟨(hc.present r hr).start, (hc.present r hr).stops, (hc.present r hr).total, (hc.present r hr).last,
        (hc.present r hr).ext⟩⟩
    · by_cases e : j = i
      · subst e; simp
      · simp only [Function.update_of_ne e]; exact hc.watchers j
    · intro j l hj
      by_cases e : j = i
      · subst e
        simp only [Function.update_self, Option.some.injEq] at hj
        subst hj
        exact ⟨_, Function.update_self ..⟩
      · simp only [Function.update_of_ne e] at hj
        exact hc.owned j l hj
  | wstart i now =>
    simp only [Meas.next]
    cases hi : s.owner i with
    | none =>
      have hw : after p w (.wstart i now) = w := by
        unfold after Stopwatch.step wstart
        simp [Cpp.bind_apply, h.watchers, hi]
      rw [hw]; simpa using h
    | some k =>
      by_cases hp : s.profiler = true
      · obtain ⟨r, hr⟩ := h.owned i k hi
        have hw : after p w (.wstart i now) = setRec w k ({ r with clockStart := now.read m }) := by
          unfold after Stopwatch.step wstart
          simp only [Cpp.bind_apply, Cpp.get_apply, h.watchers, hi, Option.map_some, h.profiler, hp, Bool.not_true,
            Bool.false_eq_true, if_false, if_true, Cpp.pure_apply]
          rw [takeTime_ok hm h.mode]
          unfold Stopwatch.put setRec
          simp [findPerf_some hr]
        rw [hw]
        by_cases e : k = n
        · subst e
          rw [if_pos ⟨hp, rfl⟩]
          refine h.put rfl rfl (fun t ht => ?_) (fun _ => (h.present r hr).started now) (fun e => absurd rfl e)
          obtain rfl : now = t := by simpa using ht
          cases m <;> simp_all [Clock.read, Ordinary]
        · rw [if_neg (by simp [e])]
          exact h.put rfl rfl h.nz (fun e' => absurd e' e) fun _ => rfl
      · have hw : after p w (.wstart i now) = w := by
          unfold after Stopwatch.step wstart
          simp [Cpp.bind_apply, h.watchers, hi, h.profiler, hp]
        rw [hw, if_neg (fun h => hp h.1)]; exact h
  | wstop i now =>
    simp only [Meas.next]
    cases hi : s.owner i with
    | none =>
      have hw : after p w (.wstop i now) = w := by
        unfold after Stopwatch.step wstop
        simp [Cpp.bind_apply, h.watchers, hi]
      rw [hw]; simpa using h
    | some k =>
      by_cases hp : s.profiler = true
      · obtain ⟨r, hr⟩ := h.owned i k hi
        have hw : after p w (.wstop i now) = setRec w k ((stopPerf p m (now.read m) r)) := by
          unfold after Stopwatch.step wstop
          simp only [Cpp.bind_apply, Cpp.get_apply, h.watchers, hi, Option.map_some, h.profiler, hp, Bool.not_true,
            Bool.or_self, Bool.false_eq_true, if_false]
          rw [takeTime_ok hm h.mode]
          unfold Stopwatch.put setRec
          simp [findPerf_some hr, h.mode]
        rw [hw]
        by_cases e : k = n
        · subst e
          rw [if_pos ⟨hp, rfl⟩]
          exact h.put rfl rfl h.nz (fun _ => (h.present r hr).stopped hm h.nz now) (fun e => absurd rfl e)
        · rw [if_neg (by simp [e])]
          exact h.put rfl rfl h.nz (fun e' => absurd e' e) fun _ => rfl
      · have hw : after p w (.wstop i now) = w := by
          unfold after Stopwatch.step wstop
          simp [Cpp.bind_apply, h.watchers, hi, h.profiler, hp]
        rw [hw, if_neg (fun h => hp h.1)]; exact h

theorem Sim.new (p : Platform K) (m : Mode) (n : String) (R : Prop) :
    Sim p m n R (World.new m) ⟨false, fun _ => none, none, []⟩ :=
  ⟨rfl, rfl, rfl, fun _ => rfl, by simp, by simp, fun _ => ⟨rfl, rfl⟩, by simp [World.new]⟩

theorem sim_run (hm : m ≠ .none) (h : List (Call K)) (ho : ∀ c ∈ h, Ordinary n c)
    (hR : ¬ R → ∀ c ∈ h, NoReset n c) {w : World K} {s : Meas K} (hs : Sim p m n R w s) :
    Sim p m n R (run p h w) (h.foldl (Meas.next p m n) s) := by
  induction h generalizing w s with
  | nil => exact hs
  | cons c h ih =>
    exact ih (fun c hc => ho c (List.mem_cons_of_mem _ hc)) (fun hn c hc => hR hn c (List.mem_cons_of_mem _ hc))
      (hs.step hm c (ho c List.mem_cons_self) fun hn => hR hn c List.mem_cons_self)

/-! ### Minimum and maximum -/

theorem mm_max [IsStrictOrderedRing K] (l : List K) (b : K × K) (hb : ∀ x ∈ l, b.2 ≤ x) (h : l ≠ []) :
    (l.foldl mm b).2 ∈ l ∧ ∀ x ∈ l, x ≤ (l.foldl mm b).2 := by
  have key : ∀ (l : List K) (b : K × K), ((l.foldl mm b).2 = b.2 ∨ (l.foldl mm b).2 ∈ l) ∧
      b.2 ≤ (l.foldl mm b).2 ∧ ∀ x ∈ l, x ≤ (l.foldl mm b).2 := by
    intro l
    induction l with
    | nil => intro b; simp
    | cons a l ih =>
      intro b
      obtain ⟨h1, h2, h3⟩ := ih (mm b a)
      have e : (mm b a).2 = if a ≥ b.2 then a else b.2 := rfl
      simp only [List.foldl_cons, List.mem_cons]
      rw [e] at h1 h2
      by_cases hc : a ≥ b.2
      · rw [if_pos hc] at h1 h2
        refine ⟨.inr ?_, hc.le.trans h2, ?_⟩
        · rcases h1 with h1 | h1
          · exact .inl h1
          · exact .inr h1
        · rintro x (rfl | hx)
          · exact h2
          · exact h3 x hx
      · rw [if_neg hc] at h1 h2
        refine ⟨?_, h2, ?_⟩
        · rcases h1 with h1 | h1
          · exact .inl h1
          · exact .inr (.inr h1)
        · rintro x (rfl | hx)
          · exact (lt_of_not_ge hc).le.trans h2
          · exact h3 x hx
  cases l with
  | nil => exact absurd rfl h
  | cons a l =>
    have hba : b.2 ≤ a := hb a List.mem_cons_self
    obtain ⟨h1, h2, h3⟩ := key l (mm b a)
    have e : (mm b a).2 = a := by simp [mm, hba]
    rw [e] at h1 h2
    refine ⟨?_, ?_⟩
    · simp only [List.foldl_cons, List.mem_cons]; exact h1
    · intro x hx
      rcases List.mem_cons.mp hx with rfl | hx
      · exact h2
      · exact h3 x hx

theorem mm_low [IsStrictOrderedRing K] (a : K) (l : List K) (b : K × K) (ha : a ≤ b.2) :
    ((l.foldl mm b).1 = b.1 ∨ (l.foldl mm b).1 ∈ l) ∧ (l.foldl mm b).1 ≤ b.1 ∧
      ∀ x ∈ l, x < a → (l.foldl mm b).1 ≤ x := by
  induction l generalizing b with
  | nil => simp
  | cons y l ih =>
    have e1 : (mm b y).1 = if y ≥ b.2 then b.1 else if y ≤ b.1 then y else b.1 := rfl
    have e2 : (mm b y).2 = if y ≥ b.2 then y else b.2 := rfl
    have h2 : a ≤ (mm b y).2 := by
      rw [e2]; split
      · linarith
      · exact ha
    obtain ⟨i1, i2, i3⟩ := ih (mm b y) h2
    have h1 : ((mm b y).1 = b.1 ∨ (mm b y).1 = y) ∧ (mm b y).1 ≤ b.1 ∧ (y < a → (mm b y).1 ≤ y) := by
      rw [e1]
      by_cases c1 : y ≥ b.2
      · rw [if_pos c1]; exact ⟨.inl rfl, le_rfl, fun h => by linarith⟩
      · rw [if_neg c1]
        by_cases c2 : y ≤ b.1
        · rw [if_pos c2]; exact ⟨.inr rfl, c2, fun _ => le_rfl⟩
        · rw [if_neg c2]; exact ⟨.inl rfl, le_rfl, fun _ => (lt_of_not_ge c2).le⟩
    simp only [List.foldl_cons, List.mem_cons]
    refine ⟨?_, i2.trans h1.2.1, ?_⟩
    · rcases i1 with i1 | i1
      · rw [i1]
        rcases h1.1 with h | h
        · exact .inl h
        · exact .inr (.inl h)
      · exact .inr (.inr i1)
    · rintro x (rfl | hx) hxa
      · exact i2.trans (h1.2.2 hxa)
      · exact i3 x hx hxa

/-- The minimum is right if some lapse is shorter than the first. -/
theorem mm_min [IsStrictOrderedRing K] (l : List K) (a : K) (b : K × K) (ha : b.2 ≤ a)
    (hbig : ∀ x ∈ l, x ≤ b.1) (h : ∃ x ∈ l, x < a) :
    ((a :: l).foldl mm b).1 ∈ a :: l ∧ ∀ x ∈ a :: l, ((a :: l).foldl mm b).1 ≤ x := by
  have e : mm b a = (b.1, a) := by simp [mm, ha]
  rw [List.foldl_cons, e]
  obtain ⟨h1, -, h3⟩ := mm_low a l (b.1, a) le_rfl
  obtain ⟨x, hx, hxa⟩ := h
  have hle := h3 x hx hxa
  constructor
  · rcases h1 with h1 | h1
    · have : x = b.1 := le_antisymm (hbig x hx) (h1 ▸ hle)
      rw [h1]
      exact List.mem_cons_of_mem _ (this ▸ hx)
    · exact List.mem_cons_of_mem _ h1
  · intro y hy
    rcases lt_or_ge y a with hya | hya
    · rcases List.mem_cons.mp hy with rfl | hy
      · exact absurd hya (lt_irrefl _)
      · exact h3 y hy hya
    · exact hle.trans (hxa.le.trans hya)

end Verif.Stopwatch
