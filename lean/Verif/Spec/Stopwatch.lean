import Verif.Model.Stopwatch
import Mathlib.Algebra.BigOperators.Group.List.Defs

/-!
# Specification: what a stopwatch measures

The lapses a program measured under a name, read off the calls it made, without the records of the
stopwatch.
-/

namespace Verif.Stopwatch

variable {K : Type} [Field K] [LinearOrder K]

/-- Seconds between two readings of the clock of a mode (ticks are divided by `CLOCKS_PER_SEC`). -/
def seconds (p : Platform K) : Mode → Clock K → Clock K → K
  | .cpu, a, b => (b.cpu - a.cpu) / p.cps
  | _, a, b => b.real - a.real

/-- Progress of the measurements of one name: is the profiler enabled; what each watcher measures; when the
name was last started (and not reset since); the lapses measured since the last reset, in order. -/
structure Meas (K : Type) where
  profiler : Bool
  owner : Nat → Option String
  started : Option (Clock K)
  laps : List K

/-- The effect of a call on the measurements of the name `n`: starting remembers the time, stopping measures
the time since the last start, resetting forgets everything. Watchers only measure while the profiler is
enabled. -/
def Meas.next (p : Platform K) (m : Mode) (n : String) (s : Meas K) : Call K → Meas K
  | .enable => { s with profiler := true }
  | .disable => { s with profiler := false }
  | .start k now => if k = n then { s with started := some now } else s
  | .stop k now =>
    if k = n then { s with laps := s.laps ++ (s.started.map fun t => seconds p m t now).toList } else s
  | .reset k => if k = n then { s with started := none, laps := [] } else s
  | .resetAll => { s with started := none, laps := [] }
  | .watcher i k => { s with owner := Function.update s.owner i (some k) }
  | .wstart i now => if s.profiler ∧ s.owner i = some n then { s with started := some now } else s
  | .wstop i now =>
    if s.profiler ∧ s.owner i = some n then
      { s with laps := s.laps ++ (s.started.map fun t => seconds p m t now).toList } else s
  | _ => s

/-- Measurements of the name `n` in a history that begins with a new stopwatch. -/
def meas (p : Platform K) (m : Mode) (n : String) (h : List (Call K)) : Meas K :=
  h.foldl (Meas.next p m n) ⟨false, fun _ => none, none, []⟩

/-- Ordinary use of the name `n`: the mode is not changed, the stopwatch not turned off, `n` not paused, and the
clock does not show exactly zero when a measurement starts. -/
def Ordinary (n : String) : Call K → Prop
  | .setMode _ => False
  | .turnOff => False
  | .pause k _ => k ≠ n
  | .start _ now | .wstart _ now => now.cpu ≠ 0 ∧ now.real ≠ 0
  | _ => True

/-- No reset of the name `n`. -/
def NoReset (n : String) : Call K → Prop
  | .reset k => k ≠ n
  | .resetAll => False
  | _ => True

/-- The calls concern other names, or none. -/
def Elsewhere (n : String) (w : World K) : Call K → Prop
  | .start k _ | .stop k _ | .pause k _ | .reset k | .watcher _ k => k ≠ n
  | .resetAll => False
  | .wstart i _ | .wstop i _ => ∀ k b, w.watchers i = some (k, b) → k ≠ n
  | _ => True

end Verif.Stopwatch
