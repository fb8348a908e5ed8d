import Verif.Lemmas.Stopwatch
import Mathlib.Algebra.Order.Ring.Rat
import Mathlib.Tactic.NormNum

set_option linter.unusedSectionVars false

/-!
# The stopwatch that profiles the solvers (C111)
-/

namespace Verif.Stopwatch
open Verif

variable {K : Type} [Field K] [LinearOrder K] [IsStrictOrderedRing K]
variable {p : Platform K} {m : Mode} {n : String} {h : List (Call K)}

theorem sim (hm : m ≠ .none) (ho : ∀ c ∈ h, Ordinary n c) :
    Sim p m n True (run p h (World.new m)) (meas p m n h) :=
  sim_run hm h ho (fun hn => absurd trivial hn) (Sim.new p m n True)

/-- If something was measured, there is a record. -/
theorem Sim.some_of {R : Prop} {w : World K} {s : Meas K} (hs : Sim p m n R w s) (hl : s.laps ≠ []) :
    ∃ r, w.records n = some r := by
  cases hr : w.records n with
  | none => exact absurd (hs.absent hr).2 hl
  | some r => exact ⟨r, rfl⟩

/-- C111. After every ordinary history of calls, on this and on other names, through the stopwatch and through
watchers, if a lapse was measured under the name `n` since its last reset: the total time is the sum of the
measured lapses, the average their mean, the last time the last of them, and asking does not throw. -/
theorem C111_statistics (hm : m ≠ .none) (ho : ∀ c ∈ h, Ordinary n c) (hl : (meas p m n h).laps ≠ []) :
    let w := run p h (World.new m)
    let laps := (meas p m n h).laps
    getTotalTime n w = .ok laps.sum w ∧
    getAverageTime n w = .ok (laps.sum / (laps.length : K)) w ∧
    getLastTime n w = .ok (laps.getLast hl) w := by
  intro w laps
  have hs := sim (p := p) hm ho
  obtain ⟨r, hr⟩ := hs.some_of hl
  have hR := hs.present r hr
  have hf : findPerf n w = .ok r w := findPerf_some hr
  refine ⟨?_, ?_, ?_⟩
  · simp [getTotalTime, hf, hR.total, laps]
  · simp [getAverageTime, hf, hR.total, hR.stops, laps]
  · simp [getLastTime, hf, hR.last, List.getLast?_eq_some_getLast hl]; rfl

/-- C111. The maximum is the greatest of the lapses measured since the last reset (lapses are at least the
smallest positive number). -/
theorem C111_max (hm : m ≠ .none) (ho : ∀ c ∈ h, Ordinary n c) (hl : (meas p m n h).laps ≠ [])
    (ht0 : 0 ≤ p.tiny) (ht : ∀ x ∈ (meas p m n h).laps, p.tiny ≤ x) :
    ∃ M ∈ (meas p m n h).laps, (∀ x ∈ (meas p m n h).laps, x ≤ M) ∧
      getMaxTime n (run p h (World.new m)) = .ok M (run p h (World.new m)) := by
  have hs := sim (p := p) hm ho
  obtain ⟨r, hr⟩ := hs.some_of hl
  obtain ⟨b, hb, he⟩ := (hs.present r hr).ext
  have hb2 : ∀ x ∈ (meas p m n h).laps, b.2 ≤ x := by
    intro x hx
    rcases hb with rfl | ⟨-, rfl⟩
    · exact ht x hx
    · exact ht0.trans (ht x hx)
  obtain ⟨h1, h2⟩ := mm_max _ b hb2 hl
  rw [← he] at h1 h2
  exact ⟨_, h1, h2, by simp [getMaxTime, findPerf_some hr]⟩

/-- C111. The minimum is the least of the lapses if the name was not reset and one lapse is shorter than the
first one. Missing: every other case; see the counterexamples. -/
theorem C111_min_partial (hm : m ≠ .none) (ho : ∀ c ∈ h, Ordinary n c) (hn : ∀ c ∈ h, NoReset n c)
    {a : K} {l : List K} (hl : (meas p m n h).laps = a :: l) (ha : p.tiny ≤ a) (hbig : ∀ x ∈ l, x ≤ p.big)
    (hx : ∃ x ∈ l, x < a) :
    ∃ M ∈ (meas p m n h).laps, (∀ x ∈ (meas p m n h).laps, M ≤ x) ∧
      getMinTime n (run p h (World.new m)) = .ok M (run p h (World.new m)) := by
  have hs : Sim p m n False (run p h (World.new m)) (meas p m n h) :=
    sim_run hm h ho (fun _ => hn) (Sim.new p m n False)
  obtain ⟨r, hr⟩ := hs.some_of (by rw [hl]; simp)
  obtain ⟨b, hb, he⟩ := (hs.present r hr).ext
  have hb : b = (p.big, p.tiny) := hb.resolve_right fun h => h.1
  subst hb
  obtain ⟨h1, h2⟩ := mm_min l a (p.big, p.tiny) ha hbig hx
  rw [hl] at he ⊢
  rw [← he] at h1 h2
  exact ⟨_, h1, h2, by simp [getMinTime, findPerf_some hr]⟩

/-- C111. Calls about other names never change the record of `n`. -/
theorem C111_other (p : Platform K) (w : World K) (c : Call K) (hc : Elsewhere n w c) :
    (after p w c).records n = w.records n := by
  cases c with
  | enable | disable | turnOn | turnOff | setMode => rfl
  | start k now =>
    have e : n ≠ k := Ne.symm hc
    cases ha : w.active with
    | false => simp [after, step, start, ha]
    | true =>
      cases hm : w.mode <;>
        simp [after, step, start, getOrCreate, takeTime, findPerf, put, ha, hm, e]
  | stop k now =>
    have e : n ≠ k := Ne.symm hc
    cases ha : w.active with
    | false => simp [after, step, stop, ha]
    | true =>
      cases hm : w.mode <;> cases hr : w.records k <;>
        simp [after, step, stop, takeTime, findPerf, put, ha, hm, hr, e]
  | pause k now =>
    have e : n ≠ k := Ne.symm hc
    cases ha : w.active with
    | false => simp [after, step, pause, ha]
    | true =>
      cases hr : w.records k with
      | none => simp [after, step, pause, findPerf, ha, hr]
      | some r =>
        by_cases h0 : r.clockStart = 0 <;> simp [after, step, pause, findPerf, put, ha, hr, h0, e]
  | reset k =>
    have e : n ≠ k := Ne.symm hc
    cases ha : w.active with
    | false => simp [after, step, reset, ha]
    | true => cases hr : w.records k <;> simp [after, step, reset, findPerf, put, ha, hr, e]
  | resetAll => exact hc.elim
  | watcher i k =>
    have e : n ≠ k := Ne.symm hc
    cases ha : w.active <;> simp [after, step, watcher, getOrCreate, ha, e]
  | wstart i now =>
    cases hi : w.watchers i with
    | none => simp [after, step, wstart, hi]
    | some kb =>
      obtain ⟨k, b⟩ := kb
      have e : n ≠ k := Ne.symm (hc k b hi)
      cases hp : w.profiler with
      | false => simp [after, step, wstart, hi, hp]
      | true =>
        cases b <;> cases hm : w.mode <;> cases hr : w.records k <;>
          simp [after, step, wstart, getOrCreate, takeTime, findPerf, put, hi, hp, hm, hr, e]
  | wstop i now =>
    cases hi : w.watchers i with
    | none => simp [after, step, wstop, hi]
    | some kb =>
      obtain ⟨k, b⟩ := kb
      have e : n ≠ k := Ne.symm (hc k b hi)
      cases hp : w.profiler with
      | false => simp [after, step, wstop, hi, hp]
      | true =>
        cases b <;> cases hm : w.mode <;> cases hr : w.records k <;>
          simp [after, step, wstop, takeTime, findPerf, put, hi, hp, hm, hr, e]

/-- C111. While the profiler is disabled, watchers and the macros of the solvers do nothing and never throw. -/
theorem C111_disabled (p : Platform K) (w : World K) (hp : w.profiler = false) (i : Nat) (n : String)
    (now : Clock K) :
    wstart p i now w = .ok () w ∧ wstop p i now w = .ok () w ∧
    startProfiler p n now w = .ok () w ∧ stopProfiler p n now w = .ok () w := by
  refine ⟨?_, ?_, ?_, ?_⟩
  · cases hi : w.watchers i <;> simp [wstart, hi, hp]
  · cases hi : w.watchers i <;> simp [wstop, hi, hp]
  · simp [startProfiler, hp]
  · simp [stopProfiler, hp]

/-- C111. While the stopwatch is turned off, its own methods do nothing and never throw. -/
theorem C111_off (p : Platform K) (w : World K) (ha : w.active = false) (n : String) (now : Clock K) :
    start p n now w = .ok () w ∧ stop p n now w = .ok () w ∧ pause n now w = .ok () w ∧
    reset n w = .ok () w ∧ resetAll w = .ok () w := by
  simp [start, stop, pause, reset, resetAll, ha]

/-- Records are never lost, and only `set_mode` changes the mode. -/
theorem after_keeps (p : Platform K) (w : World K) (c : Call K) (hw : w.mode ≠ .none)
    (hc : ∀ m, c = .setMode m → m ≠ .none) (hr : ∃ r, w.records n = some r) :
    (after p w c).mode ≠ .none ∧ ∃ r, (after p w c).records n = some r := by
  have up : ∀ k x, ∃ r, Function.update w.records k (some x) n = some r := by
    intro k x
    by_cases e : n = k
    · subst e; exact ⟨x, by simp⟩
    · rw [Function.update_of_ne e]; exact hr
  have up2 : ∀ k x y, ∃ r, Function.update (Function.update w.records k (some x)) k (some y) n = some r := by
    intro k x y
    rw [Function.update_idem]; exact up k y
  cases c with
  | enable | disable | turnOn | turnOff => exact ⟨hw, hr⟩
  | setMode m => exact ⟨hc m rfl, hr⟩
  | start k now =>
    cases ha : w.active with
    | false => simpa [after, step, start, ha] using ⟨hw, hr⟩
    | true =>
      cases hm : w.mode with
      | none => exact absurd hm hw
      | cpu | real =>
        simpa [after, step, start, getOrCreate, takeTime, findPerf, put, ha, hm] using up k _
  | stop k now =>
    cases ha : w.active with
    | false => simpa [after, step, stop, ha] using ⟨hw, hr⟩
    | true =>
      cases hm : w.mode with
      | none => exact absurd hm hw
      | cpu | real =>
        cases hk : w.records k with
        | none => simpa [after, step, stop, takeTime, findPerf, put, ha, hm, hk] using hr
        | some r => simpa [after, step, stop, takeTime, findPerf, put, ha, hm, hk] using up k _
  | pause k now =>
    cases ha : w.active with
    | false => simpa [after, step, pause, ha] using ⟨hw, hr⟩
    | true =>
      cases hk : w.records k with
      | none => simpa [after, step, pause, findPerf, ha, hk] using ⟨hw, hr⟩
      | some r =>
        by_cases h0 : r.clockStart = 0
        · simpa [after, step, pause, findPerf, put, ha, hk, h0] using ⟨hw, hr⟩
        · simpa [after, step, pause, findPerf, put, ha, hk, h0] using ⟨hw, up k _⟩
  | reset k =>
    cases ha : w.active with
    | false => simpa [after, step, reset, ha] using ⟨hw, hr⟩
    | true =>
      cases hk : w.records k with
      | none => simpa [after, step, reset, findPerf, put, ha, hk] using ⟨hw, hr⟩
      | some r => simpa [after, step, reset, findPerf, put, ha, hk] using ⟨hw, up k _⟩
  | resetAll =>
    obtain ⟨r, hr'⟩ := hr
    cases ha : w.active <;> simp [after, step, resetAll, ha, hw, hr']
  | watcher i k =>
    cases ha : w.active with
    | false => simpa [after, step, watcher, ha] using ⟨hw, hr⟩
    | true => simpa [after, step, watcher, getOrCreate, ha] using ⟨hw, up k _⟩
  | wstart i now =>
    cases hi : w.watchers i with
    | none => simpa [after, step, wstart, hi] using ⟨hw, hr⟩
    | some kb =>
      obtain ⟨k, b⟩ := kb
      cases hp : w.profiler with
      | false => simpa [after, step, wstart, hi, hp] using ⟨hw, hr⟩
      | true =>
        cases hm : w.mode with
        | none => exact absurd hm hw
        | cpu | real =>
          cases b with
          | false =>
            simpa [after, step, wstart, getOrCreate, takeTime, findPerf, put, hi, hp, hm] using up k _
          | true =>
            cases hk : w.records k with
            | none => simpa [after, step, wstart, takeTime, findPerf, put, hi, hp, hm, hk] using hr
            | some r => simpa [after, step, wstart, takeTime, findPerf, put, hi, hp, hm, hk] using up k _
  | wstop i now =>
    cases hi : w.watchers i with
    | none => simpa [after, step, wstop, hi] using ⟨hw, hr⟩
    | some kb =>
      obtain ⟨k, b⟩ := kb
      cases hp : w.profiler with
      | false => simpa [after, step, wstop, hi, hp] using ⟨hw, hr⟩
      | true =>
        cases hm : w.mode with
        | none => exact absurd hm hw
        | cpu | real =>
          cases b with
          | false => simpa [after, step, wstop, hi, hp, hm] using hr
          | true =>
            cases hk : w.records k with
            | none => simpa [after, step, wstop, takeTime, findPerf, put, hi, hp, hm, hk] using hr
            | some r => simpa [after, step, wstop, takeTime, findPerf, put, hi, hp, hm, hk] using up k _

/-- C111. Once a name was started, stopping it never throws, whatever was called in between, as long as the
stopwatch has a clock. -/
theorem C111_no_throw (p : Platform K) (w : World K) (ha : w.active = true) (hw : w.mode ≠ .none) (t : Clock K)
    (h : List (Call K)) (hm : ∀ c ∈ h, ∀ m, c = .setMode m → m ≠ .none) (now : Clock K) :
    ∃ w', stop p n now (run p (.start n t :: h) w) = .ok () w' := by
  have key : ∀ (h : List (Call K)) (w : World K), (∀ c ∈ h, ∀ m, c = .setMode m → m ≠ .none) →
      w.mode ≠ .none → (∃ r, w.records n = some r) →
      (run p h w).mode ≠ .none ∧ ∃ r, (run p h w).records n = some r := by
    intro h
    induction h with
    | nil => exact fun w _ h1 h2 => ⟨h1, h2⟩
    | cons c h ih =>
      intro w hc h1 h2
      have hst := after_keeps p w c h1 (hc c List.mem_cons_self) h2
      exact ih _ (fun c hc' => hc c (List.mem_cons_of_mem _ hc')) hst.1 hst.2
  have h0 : (after p w (.start n t)).mode ≠ .none ∧ ∃ r, (after p w (.start n t)).records n = some r := by
    cases hmo : w.mode with
    | none => exact absurd hmo hw
    | cpu | real => simp [after, step, start, getOrCreate, takeTime, findPerf, put, ha, hmo]
  obtain ⟨h1, r, h2⟩ := key h _ hm h0.1 h0.2
  show ∃ w', stop p n now (run p h (after p w (.start n t))) = .ok () w'
  generalize run p h (after p w (.start n t)) = v at *
  cases hav : v.active with
  | false => exact ⟨v, by simp [stop, hav]⟩
  | true =>
    cases hmo : v.mode with
    | none => exact absurd hmo h1
    | cpu | real => exact ⟨_, by simp [stop, takeTime, findPerf, put, hav, hmo, h2]; rfl⟩

/-- C111. After every ordinary history in which the name `n` was started at the time `t` (and not reset since),
the time so far is the time between `t` and now, in seconds in both modes, and asking changes nothing. -/
theorem C111_so_far (hm : m ≠ .none) (ho : ∀ c ∈ h, Ordinary n c) {t : Clock K}
    (ht : (meas p m n h).started = some t) (now : Clock K) :
    let w := run p h (World.new m)
    getTimeSoFar p n now w = .ok (seconds p m t now) w := by
  intro w
  have hs := sim (p := p) hm ho
  have : ∃ r, w.records n = some r := by
    cases hr : w.records n with
    | none => rw [(hs.absent hr).1] at ht; cases ht
    | some r => exact ⟨r, rfl⟩
  obtain ⟨r, hr⟩ := this
  have hc := (hs.present r hr).start
  rw [ht] at hc
  have hmo : w.mode = m := hs.mode
  cases m with
  | none => exact absurd rfl hm
  | cpu => simp [getTimeSoFar, findPerf_some hr, takeTime_ok hm hmo, hmo, hc, seconds, Clock.read]
  | real => simp [getTimeSoFar, findPerf_some hr, takeTime_ok hm hmo, hmo, hc, seconds, Clock.read]

/-- C111. A stopwatch without a clock (mode `NONE`) throws whenever it would read the clock; an attempt to start
leaves an unused record and nothing else, an attempt to stop or to ask leaves no trace. -/
theorem C111_no_clock (p : Platform K) (w : World K) (ha : w.active = true) (hm : w.mode = .none) (n : String)
    (now : Clock K) :
    (∃ w', start p n now w = .throw w' ∧ w'.records n = some ((w.records n).getD (Perf.new p)) ∧
      (∀ k, k ≠ n → w'.records k = w.records k) ∧ w'.watchers = w.watchers ∧ w'.mode = .none) ∧
    stop p n now w = .throw w ∧ getTimeSoFar p n now w = .throw w := by
  refine ⟨⟨{ w with records := Function.update w.records n (some ((w.records n).getD (Perf.new p))) },
    ?_, ?_, ?_, ?_, ?_⟩, ?_, ?_⟩
  · simp [start, getOrCreate, takeTime, ha, hm]
  · simp
  · intro k hk; simp [hk]
  · rfl
  · exact hm
  · simp [stop, takeTime, ha, hm]
  · cases hr : w.records n <;> simp [getTimeSoFar, findPerf, takeTime, hm, hr]

/-- C111. What `pause` does to a running measurement: the processor clock minus the remembered start is added to
the last time and to the total, undivided; the start, the extremes and the count of measurements stay. So the
time of a pause is right only if the remembered start is a processor time and a tick is a second. -/
theorem C111_pause (w : World K) (ha : w.active = true) {r : Perf K} (hr : w.records n = some r)
    (h0 : r.clockStart ≠ 0) (now : Clock K) :
    ∃ w' r', pause n now w = .ok () w' ∧ w'.records n = some r' ∧ (∀ k, k ≠ n → w'.records k = w.records k) ∧
      r'.total - r.total = now.cpu - r.clockStart ∧ r'.last - r.last = now.cpu - r.clockStart ∧
      r'.clockStart = r.clockStart ∧ r'.minT = r.minT ∧ r'.maxT = r.maxT ∧ r'.stops = r.stops := by
  refine ⟨{ w with records := Function.update w.records n (some { r with
    last := r.last + (now.cpu - r.clockStart), total := r.total + (now.cpu - r.clockStart) }) },
    { r with last := r.last + (now.cpu - r.clockStart), total := r.total + (now.cpu - r.clockStart) },
    ?_, ?_, ?_, ?_⟩
  · simp [pause, findPerf, put, ha, hr, h0]
  · simp
  · intro k hk; simp [hk]
  · simp

/-- C111. Resetting or pausing a name that was never used throws and changes nothing; so does every question. -/
theorem C111_unknown (p : Platform K) (w : World K) (ha : w.active = true) (hn : w.records n = none)
    (now : Clock K) :
    reset n w = .throw w ∧ pause n now w = .throw w ∧ stop p n now w = .throw w ∧ getTotalTime n w = .throw w ∧
    getAverageTime n w = .throw w ∧ getMinTime n w = .throw w ∧ getMaxTime n w = .throw w ∧
    getLastTime n w = .throw w ∧ getTimeSoFar p n now w = .throw w := by
  have hf := findPerf_none hn
  refine ⟨?_, ?_, ?_, ?_, ?_, ?_, ?_, ?_, ?_⟩
  · simp [reset, ha, hf]
  · simp [pause, ha, hf]
  · cases hm : w.mode <;> simp [stop, takeTime, ha, hf, hm]
  all_goals simp [getTotalTime, getAverageTime, getMinTime, getMaxTime, getLastTime, getTimeSoFar, hf]

/-! ### Counterexamples, on the rationals -/

namespace Demo

/-- Readings of both clocks. -/
def at' (t : ℚ) : Clock ℚ := ⟨t, t⟩

/-- A platform: 1000 ticks per second; the limits of the number format. -/
def plat : Platform ℚ := ⟨1000, 10 ^ 9, 1 / 10 ^ 9⟩

end Demo
open Demo

/-- C111. After one measurement the minimum is not the measured time but the largest number. -/
theorem C111_min_counterexample :
    let h := [Call.start "solve" (at' 5), .stop "solve" (at' 7)]
    (∀ c ∈ h, Ordinary "solve" c) ∧ (meas plat .real "solve" h).laps = [2] ∧
    ∃ w, getMinTime "solve" (run plat h (World.new .real)) = .ok (10 ^ 9) w := by
  refine ⟨?_, ?_, ?_⟩
  · simp [Ordinary, at']
  · norm_num [meas, Meas.next, seconds, at']
  · simp [run, after, step, start, stop, getOrCreate, takeTime, findPerf, put, stopPerf, getMinTime, World.new,
      Perf.new, plat, at']
    norm_num

/-- C111. After a reset the minimum stays at zero: lapses of three and two seconds, reported minimum zero. -/
theorem C111_min_reset_counterexample :
    let h := [Call.start "solve" (at' 5), .reset "solve", .start "solve" (at' 6), .stop "solve" (at' 9),
      .start "solve" (at' 10), .stop "solve" (at' 12)]
    (∀ c ∈ h, Ordinary "solve" c) ∧ (meas plat .real "solve" h).laps = [3, 2] ∧
    ∃ w, getMinTime "solve" (run plat h (World.new .real)) = .ok 0 w := by
  refine ⟨?_, ?_, ?_⟩
  · simp [Ordinary, at']
  · norm_num [meas, Meas.next, seconds, at']
  · simp [run, after, step, start, stop, reset, getOrCreate, takeTime, findPerf, put, stopPerf, getMinTime, World.new,
      Perf.new, plat, at']
    norm_num

/-- C111. A measurement started when the clock shows zero (the processor time of a program that just began) is
dropped without notice. -/
theorem C111_zero_counterexample :
    let h := [Call.start "solve" (at' 0), .stop "solve" (at' 7000)]
    (meas plat .cpu "solve" h).laps = [7] ∧
    ∃ w, getTotalTime "solve" (run plat h (World.new .cpu)) = .ok 0 w := by
  refine ⟨?_, ?_⟩
  · norm_num [meas, Meas.next, seconds, at', plat]
  · simp [run, after, step, start, stop, getOrCreate, takeTime, findPerf, put, stopPerf, getTotalTime, World.new,
      Perf.new, plat, at']

/-- C111. `pause` reads the processor clock in every mode: in the mode of real time the program that measures
one second, pauses, and measures one second more is told a negative total. -/
theorem C111_pause_counterexample :
    let h := [Call.start "setup" ⟨1000, 100⟩, .pause "setup" ⟨2000, 101⟩, .start "setup" ⟨3000, 5000⟩,
      .stop "setup" ⟨4000, 5001⟩, .start "main" ⟨5000, 5002⟩]
    (∃ w, getTotalTime "setup" (run plat h (World.new .real)) = .ok 1901 w) ∧
    (∃ w, getTotalTime "setup" (run plat [Call.start "setup" ⟨1000, 100000⟩, .pause "setup" ⟨2000, 100001⟩]
      (World.new .real)) = .ok (-98000) w) := by
  refine ⟨?_, ?_⟩ <;>
  · simp [run, after, step, start, stop, pause, getOrCreate, takeTime, findPerf, put, stopPerf, getTotalTime,
      World.new, Perf.new, plat]
    norm_num

/-- C111. `turn_off` is announced to silence the stopwatch; watchers go on measuring. -/
theorem C111_turn_off_counterexample :
    let h := [Call.enable, .watcher 0 "solve", .turnOff, .wstart 0 (at' 5), .wstop 0 (at' 7)]
    (run plat h (World.new .real)).active = false ∧
    ∃ w, getTotalTime "solve" (run plat h (World.new .real)) = .ok 2 w := by
  refine ⟨?_, ?_⟩ <;>
  · simp [run, after, step, wstart, wstop, watcher, getOrCreate, takeTime, findPerf, put, stopPerf, getTotalTime,
      World.new, Perf.new, plat, at'] <;> norm_num

/-- C111. The macros of the solvers look at the flag twice: if a callback enables the profiler during the first
`solve`, `STOP_PROFILER` at its end throws. -/
theorem C111_enable_counterexample :
    ∃ w1 w2, startProfiler plat "SolverDDP::solve" (at' 5) (World.new .real) = .ok () w1 ∧
      step plat .enable w1 = .ok () w2 ∧ stopProfiler plat "SolverDDP::solve" (at' 7) w2 = .throw w2 := by
  refine ⟨World.new .real, { World.new .real with profiler := true }, ?_, rfl, ?_⟩
  · simp [startProfiler, World.new]
  · simp [stopProfiler, stop, takeTime, findPerf, World.new]

/-- Non-vacuity of C111: nested measurements of two names, one through a watcher, with a reset. -/
example :
    let h := [Call.enable, .watcher 0 "node", .start "solve" (at' 5), .wstart 0 (at' 6), .wstop 0 (at' 9),
      .wstart 0 (at' 10), .wstop 0 (at' 11), .stop "solve" (at' 12), .reset "other", .start "solve" (at' 13),
      .stop "solve" (at' 14)]
    (∀ c ∈ h, Ordinary "solve" c ∧ NoReset "solve" c ∧ Ordinary "node" c) ∧
    (meas plat .real "solve" h).laps = [7, 1] ∧ (meas plat .real "node" h).laps = [3, 1] ∧
    (∃ w, getTotalTime "solve" (run plat h (World.new .real)) = .ok 8 w) ∧
    (∃ w, getMinTime "node" (run plat h (World.new .real)) = .ok 1 w) := by
  intro h
  have e1 : (meas plat .real "solve" h).laps = [7, 1] := by
    simp [h, meas, Meas.next, seconds, at']; norm_num
  have e2 : (meas plat .real "node" h).laps = [3, 1] := by
    simp [h, meas, Meas.next, seconds, at']; norm_num
  have ho : ∀ c ∈ h, Ordinary "solve" c ∧ NoReset "solve" c ∧ Ordinary "node" c := by
    simp [h, Ordinary, NoReset, at']
  refine ⟨ho, e1, e2, ?_, ?_⟩
  · have := (C111_statistics (p := plat) (m := .real) (n := "solve") (h := h) (by decide)
      (fun c hc => (ho c hc).1) (by rw [e1]; simp)).1
    rw [e1] at this
    exact ⟨_, by rw [this]; norm_num; rfl⟩
  · obtain ⟨M, hM, hle, hg⟩ := C111_min_partial (p := plat) (m := .real) (n := "node") (h := h) (by decide)
      (fun c hc => (ho c hc).2.2) (by simp [h, NoReset]) e2 (by norm_num [plat]) (by norm_num [plat])
      ⟨1, by simp, by norm_num⟩
    rw [e2] at hM hle
    have : M = 1 := by
      have h1 := hle 1 (by simp)
      simp at hM
      rcases hM with rfl | rfl
      · norm_num at h1
      · rfl
    exact ⟨_, by rw [hg, this]⟩

/-- Non-vacuity of the time so far: asked 4000 ticks after the start, with another name measured in between. -/
example :
    let h := [Call.start "solve" (at' 5000), .start "node" (at' 6000), .stop "node" (at' 7000)]
    ∃ w, getTimeSoFar plat "solve" (at' 9000) (run plat h (World.new .cpu)) = .ok 4 w := by
  intro h
  have ho : ∀ c ∈ h, Ordinary "solve" c := by simp [h, Ordinary, at']
  have := C111_so_far (p := plat) (m := .cpu) (n := "solve") (h := h) (t := at' 5000) (by decide) ho
    (by simp [h, meas, Meas.next]) (at' 9000)
  exact ⟨_, by rw [this]; norm_num [seconds, at', plat]; rfl⟩

/-- Non-vacuity: a stopwatch without a clock; a running measurement; an unknown name. -/
example : ∃ w : World ℚ, w.active = true ∧ w.mode = .none := ⟨World.new .none, rfl, rfl⟩

example : ∃ (w : World ℚ) (r : Perf ℚ), w = run plat [.start "solve" (at' 5)] (World.new .real) ∧ w.active = true ∧
    w.records "solve" = some r ∧ r.clockStart ≠ 0 ∧ w.records "other" = none := by
  refine ⟨_, { Perf.new plat with clockStart := 5 }, rfl, ?_, ?_, by norm_num, ?_⟩ <;>
    simp [run, after, step, start, getOrCreate, takeTime, findPerf, put, World.new, at']

end Verif.Stopwatch
