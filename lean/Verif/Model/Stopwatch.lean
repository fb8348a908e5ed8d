import Verif.Cpp
import Mathlib.Algebra.Order.Field.Basic
import Mathlib.Logic.Function.Basic

/-!
# Model: the stopwatch that profiles the solvers

`include/crocoddyl/core/utils/stop-watch.hpp` and `src/core/utils/stop-watch.cpp`.

Clock readings are arguments of the calls. Times are elements of an ordered field (rounding of
`long double` is not modelled). The `std::map` of records is a partial function; the order of its
entries only matters for the printed report, which is not modelled. The map never loses an entry, so
the pointer a `Watcher` keeps to its record is modelled by the name of the record.
-/

namespace Verif.Stopwatch
open Verif

variable {K : Type} [Field K] [LinearOrder K]

/-- `StopwatchMode`, stop-watch.hpp L54-61. -/
inductive Mode where
  | none | cpu | real
deriving DecidableEq

/-- What the two clocks show at the time of a call: `clock()` in ticks and `gettimeofday` in seconds. -/
structure Clock (K : Type) where
  cpu : K
  real : K

/-- Constants of the platform: `CLOCKS_PER_SEC`, and the largest and the smallest positive `long double`. -/
structure Platform (K : Type) where
  cps : K
  big : K
  tiny : K

/-- `PerformanceData`, stop-watch.hpp L256-274 (`paused` is written but never read; left out). -/
structure Perf (K : Type) where
  clockStart : K
  total : K
  minT : K
  maxT : K
  last : K
  stops : Nat

/-- The constructor, stop-watch.hpp L257-264. -/
def Perf.new (p : Platform K) : Perf K := ⟨0, 0, p.big, p.tiny, 0, 0⟩

/-- A stopwatch, stop-watch.hpp L280-284, and the `Watcher` objects made from it (name, and whether the
pointer `p` is set), stop-watch.hpp L159-176. -/
structure World (K : Type) where
  active : Bool
  mode : Mode
  records : String → Option (Perf K)
  profiler : Bool
  watchers : Nat → Option (String × Bool)

/-- The constructor, stop-watch.cpp L48-51. -/
def World.new (m : Mode) : World K := ⟨true, m, fun _ => none, false, fun _ => none⟩

/-- `take_time`, stop-watch.cpp L65-103. -/
def takeTime (now : Clock K) : Cpp (World K) K := fun w =>
  match w.mode with
  | .cpu => .ok now.cpu w
  | .real => .ok now.real w
  | .none => .throw w

/-- `get_or_create_perf`, stop-watch.cpp L105-109. -/
def getOrCreate (p : Platform K) (n : String) : Cpp (World K) Unit :=
  Cpp.modify fun w => { w with records := Function.update w.records n (some ((w.records n).getD (Perf.new p))) }

/-- Access to the record of a name: throws if there is none (e.g. stop-watch.cpp L132-135). -/
def findPerf (n : String) : Cpp (World K) (Perf K) := fun w =>
  match w.records n with
  | some r => .ok r w
  | none => .throw w

/-- Assignment to the record of a name. -/
def put (n : String) (r : Perf K) : Cpp (World K) Unit :=
  Cpp.modify fun w => { w with records := Function.update w.records n (some r) }

/-- `start`, stop-watch.cpp L111-124. -/
def start (p : Platform K) (n : String) (now : Clock K) : Cpp (World K) Unit := do
  let w ← Cpp.get
  if !w.active then pure () else do
    getOrCreate p n
    let t ← takeTime now
    let r ← findPerf n
    put n { r with clockStart := t }

/-- `stop_perf`, stop-watch.cpp L140-160. -/
def stopPerf (p : Platform K) (m : Mode) (clockEnd : K) (r : Perf K) : Perf K :=
  if r.clockStart = 0 then r
  else
    let lapse := if m = .cpu then (clockEnd - r.clockStart) / p.cps else clockEnd - r.clockStart
    { r with
      stops := r.stops + 1
      last := lapse
      maxT := if lapse ≥ r.maxT then lapse else r.maxT
      minT := if lapse ≥ r.maxT then r.minT else if lapse ≤ r.minT then lapse else r.minT
      total := r.total + lapse }

/-- `stop`, stop-watch.cpp L126-138. -/
def stop (p : Platform K) (n : String) (now : Clock K) : Cpp (World K) Unit := do
  let w ← Cpp.get
  if !w.active then pure () else do
    let t ← takeTime now
    let r ← findPerf n
    put n (stopPerf p w.mode t r)

/-- `pause`, stop-watch.cpp L162-181. -/
def pause (n : String) (now : Clock K) : Cpp (World K) Unit := do
  let w ← Cpp.get
  if !w.active then pure () else do
    let r ← findPerf n
    if r.clockStart = 0 then pure ()
    else put n { r with last := r.last + (now.cpu - r.clockStart), total := r.total + (now.cpu - r.clockStart) }

/-- `reset`, stop-watch.cpp L218-234. -/
def reset (n : String) : Cpp (World K) Unit := do
  let w ← Cpp.get
  if !w.active then pure () else do
    let _ ← findPerf n
    put n ⟨0, 0, 0, 0, 0, 0⟩

/-- `reset_all`, stop-watch.cpp L183-191: the loop resets every record. -/
def resetAll : Cpp (World K) Unit := do
  let w ← Cpp.get
  if !w.active then pure () else
    Cpp.set { w with records := fun n => (w.records n).map fun _ => ⟨0, 0, 0, 0, 0, 0⟩ }

/-- `watcher`, stop-watch.cpp L340-348: the new object is given the number `i`. -/
def watcher (p : Platform K) (i : Nat) (n : String) : Cpp (World K) Unit := do
  let w ← Cpp.get
  if !w.active then
    Cpp.modify fun w => { w with watchers := Function.update w.watchers i (some (n, false)) }
  else do
    getOrCreate p n
    Cpp.modify fun w => { w with watchers := Function.update w.watchers i (some (n, true)) }

/-- `Watcher::start`, stop-watch.hpp L166-168, and `_start`, stop-watch.cpp L350-359. A call on an object that
was never made is not a call; it is modelled as one without effect. -/
def wstart (p : Platform K) (i : Nat) (now : Clock K) : Cpp (World K) Unit := do
  let w ← Cpp.get
  match w.watchers i with
  | none => pure ()
  | some (n, set) =>
    if !w.profiler then pure () else do
      if set then pure () else do
        getOrCreate p n
        Cpp.modify fun w => { w with watchers := Function.update w.watchers i (some (n, true)) }
      let t ← takeTime now
      let r ← findPerf n
      put n { r with clockStart := t }

/-- `Watcher::stop`, stop-watch.hpp L169-171, and `_stop`, stop-watch.cpp L361-366. -/
def wstop (p : Platform K) (i : Nat) (now : Clock K) : Cpp (World K) Unit := do
  let w ← Cpp.get
  match w.watchers i with
  | none => pure ()
  | some (n, set) =>
    if !w.profiler || !set then pure () else do
      let t ← takeTime now
      let r ← findPerf n
      put n (stopPerf p w.mode t r)

/-- `START_PROFILER(name)`, stop-watch.hpp L39-40, as used by the solvers. -/
def startProfiler (p : Platform K) (n : String) (now : Clock K) : Cpp (World K) Unit := do
  let w ← Cpp.get
  if w.profiler then start p n now else pure ()

/-- `STOP_PROFILER(name)`, stop-watch.hpp L41-42. -/
def stopProfiler (p : Platform K) (n : String) (now : Clock K) : Cpp (World K) Unit := do
  let w ← Cpp.get
  if w.profiler then stop p n now else pure ()

/-- Calls a program can make. -/
inductive Call (K : Type) where
  | enable | disable | turnOn | turnOff
  | setMode (m : Mode)
  | start (n : String) (now : Clock K)
  | stop (n : String) (now : Clock K)
  | pause (n : String) (now : Clock K)
  | reset (n : String)
  | resetAll
  | watcher (i : Nat) (n : String)
  | wstart (i : Nat) (now : Clock K)
  | wstop (i : Nat) (now : Clock K)

/-- One call. `enable_profiler`, `disable_profiler`, `set_mode`: stop-watch.cpp L55-59; `turn_on`, `turn_off`:
L236-244. -/
def step (p : Platform K) : Call K → Cpp (World K) Unit
  | .enable => Cpp.modify fun w => { w with profiler := true }
  | .disable => Cpp.modify fun w => { w with profiler := false }
  | .turnOn => Cpp.modify fun w => { w with active := true }
  | .turnOff => Cpp.modify fun w => { w with active := false }
  | .setMode m => Cpp.modify fun w => { w with mode := m }
  | .start n now => start p n now
  | .stop n now => stop p n now
  | .pause n now => pause n now
  | .reset n => reset n
  | .resetAll => resetAll
  | .watcher i n => watcher p i n
  | .wstart i now => wstart p i now
  | .wstop i now => wstop p i now

/-- The world a call leaves; a program that catches the exception goes on with it. -/
def after (p : Platform K) (w : World K) (c : Call K) : World K :=
  match step p c w with
  | .ok _ w' => w'
  | .throw w' => w'
  | .ub => w

/-- The world after a list of calls. -/
def run (p : Platform K) (h : List (Call K)) (w : World K) : World K := h.foldl (after p) w

/-- `get_total_time`, stop-watch.cpp L290-298. -/
def getTotalTime (n : String) : Cpp (World K) K := do
  let r ← findPerf n
  pure r.total

/-- `get_average_time`, stop-watch.cpp L300-308. -/
def getAverageTime (n : String) : Cpp (World K) K := do
  let r ← findPerf n
  pure (r.total / r.stops)

/-- `get_min_time`, stop-watch.cpp L310-318. -/
def getMinTime (n : String) : Cpp (World K) K := do
  let r ← findPerf n
  pure r.minT

/-- `get_max_time`, stop-watch.cpp L320-328. -/
def getMaxTime (n : String) : Cpp (World K) K := do
  let r ← findPerf n
  pure r.maxT

/-- `get_last_time`, stop-watch.cpp L330-338. -/
def getLastTime (n : String) : Cpp (World K) K := do
  let r ← findPerf n
  pure r.last

/-- `get_time_so_far`, stop-watch.cpp L277-288. -/
def getTimeSoFar (p : Platform K) (n : String) (now : Clock K) : Cpp (World K) K := do
  let w ← Cpp.get
  let r ← findPerf n
  let t ← takeTime now
  pure (if w.mode = .cpu then (t - r.clockStart) / p.cps else t - r.clockStart)

end Verif.Stopwatch
