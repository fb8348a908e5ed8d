import Verif.Lemmas.Finite

set_option linter.unusedSectionVars false

/-!
# The solvers do not install invalid trajectories (C130)

`bad` and `badX` are `raiseIfNaN` (solver-base.cpp L476-482) on a cost and on the largest entry of a state.
The theorems hold for all such tests.
-/

namespace Verif.Solve
open Verif Verif.Solver

section
variable {K X DX U L D : Type}
variable [Field K] [LinearOrder K] [AddCommGroup DX] [Module K DX] [AddCommGroup U] [Module K U]
variable {P : Prob K X DX U} {c : Cfg K} {O : Oracle K X DX U L D} {kind : Kind}

/-- C130. Whatever the problem, the directions, the parameters and the earlier state of the solver: the
trajectory left by `solve`, and every trajectory shown to the callbacks, is the initial guess or has valid
next states, valid running sums of costs and a valid total cost. If it is marked feasible its states are
valid too (not for BoxDDP). Missing: the controls, states with open gaps, and an invalid guess. -/
theorem C130_guess_or_valid_partial (fuel maxiter : Nat) (xs : Nat → X) (us : Nat → U) (feas : Bool)
    (regInit : Option K) (s : St K X DX U L D) (o : Outcome K X DX U L D)
    (h : solve P c O kind fuel maxiter xs us feas regInit s = some o) :
    ∀ z, z = o.final ∨ z ∈ o.trace → (z.xs = xs ∧ z.us = us ∧ z.feas = feas) ∨
      (Valid P O.bad O.badX z.xs z.us ∧ (z.feas = true → kind ≠ .boxDdp → ValidStates P O.badX z.xs)) := by
  obtain ⟨h1, h2⟩ := iterLoop_keeps (Q := fun x u f => (x = xs ∧ u = us ∧ f = feas) ∨
      (Valid P O.bad O.badX x u ∧ (f = true → kind ≠ .boxDdp → ValidStates P O.badX x)))
    (fun s e b s' hi hq => by
      rcases iteration_good hi with ⟨a1, a2, a3⟩ | hg
      · rw [a1, a2, a3]; exact hq
      · exact .inr hg) maxiter (start P c xs us feas regInit s) (.inl ⟨rfl, rfl, rfl⟩) h
  rintro z (rfl | hz)
  · exact h1
  · exact h2 z hz

/-- C130. From a valid guess all candidates are valid. -/
theorem C130_valid_partial (fuel maxiter : Nat) (xs : Nat → X) (us : Nat → U) (feas : Bool)
    (regInit : Option K) (s : St K X DX U L D) (o : Outcome K X DX U L D)
    (h : solve P c O kind fuel maxiter xs us feas regInit s = some o)
    (hv : Valid P O.bad O.badX xs us) (hs : feas = true → ValidStates P O.badX xs) :
    ∀ z, z = o.final ∨ z ∈ o.trace → Valid P O.bad O.badX z.xs z.us ∧
      (z.feas = true → kind ≠ .boxDdp → ValidStates P O.badX z.xs) := by
  intro z hz
  rcases C130_guess_or_valid_partial fuel maxiter xs us feas regInit s o h z hz with ⟨a1, a2, a3⟩ | hg
  · rw [a1, a2, a3]; exact ⟨hv, fun e _ => hs e⟩
  · exact hg

end

/-! ### Where the claim fails -/

namespace FiniteDemo

/-- The largest number accepted by `raiseIfNaN`. -/
def big : ℚ := 10 ^ 30

/-- `raiseIfNaN`, solver-base.cpp L476-482, on finite numbers. -/
def isBad (v : ℚ) : Bool := decide (big ≤ v)

/-- One node with next state 0 and cost `½e(u - g)²`; terminal cost `w(x/10³⁰ - 2)²`. -/
def prob (e g w : ℚ) : Prob ℚ ℚ ℚ ℚ where
  T := 1
  node := fun _ =>
    { nuZero := false, eval := fun _ u => (0, e * (u - g) ^ 2 / 2), evalT := fun x => (x, 0)
      diff := fun x y => y - x, integ := fun x d => x + d, clamp := fun u => u }
  tcost := fun x => w * (x / big - 2) ^ 2
  tdiff := fun x y => y - x
  tinteg := fun x d => x + d
  x0 := 0

/-- Its derivatives, backward pass and expected improvement (ddp.cpp L157-170, L212-251, fddp.cpp L123-173)
written out, for candidates that start at the initial state. `lin` is `Lx`, `Lxx` of the last node; `dir` is
`Vx`, `Vxx` of the last node and `Qu`, `Quu`. -/
def oracle (e g w : ℚ) (fd : Bool) : Oracle ℚ ℚ ℚ ℚ (ℚ × ℚ) (ℚ × ℚ × ℚ × ℚ) where
  linearise := fun s => (w * (2 * (s.xs 1 / big - 2)) / big, w * 2 / big ^ 2)
  backward := fun s =>
    let Vxx := s.lin.2 + s.preg
    let Vx := s.lin.1 + if s.feas then 0 else Vxx * s.fs 1
    let Qu := e * (s.us 0 - g)
    let Quu := e + s.preg
    (true, fun _ => Qu / Quu, fun _ _ => 0, (Vx, Vxx, Qu, Quu))
  updExp := fun s => s.dir
  expImp := fun s =>
    let dg := s.dir.2.2.1 * s.k 0
    let dq := -(s.k 0 * s.dir.2.2.2 * s.k 0)
    if fd && !s.feas then
      let dv := -(s.fs 1 * s.dir.2.1 * (s.xs 1 - s.xsTry 1))
      (dg - s.dir.1 * s.fs 1 + dv, dq + s.fs 1 * s.dir.2.1 * s.fs 1 - 2 * dv)
    else (dg, dq)
  bad := isBad
  badX := fun x => isBad |x|

def cfg : Cfg ℚ := ⟨[1, 1/2, 1/4], 1/10, 2, 1/100, 1/100, 1/2, 1/100, ⟨10, 10, 0, 1000⟩⟩

def zero : St ℚ ℚ ℚ ℚ (ℚ × ℚ) (ℚ × ℚ × ℚ × ℚ) :=
  ⟨fun _ => 0, fun _ => 0, fun _ => 0, fun _ => 0, fun _ => (0, 0), 0, fun _ => 0, fun _ => 0,
   fun _ _ => 0, (0, 0), (0, 0, 0, 0), false, false, 0, 0, 0, 0, 0, 0, 0, 0, 0, 0, 0, 0, false⟩

/-- Terminal state far away: `4·10³⁰`. -/
def far : Nat → ℚ := fun t => if t = 0 then 0 else 4 * big

/-- What one iteration leaves: last state, control, feasibility flag. -/
def after (e g w : ℚ) (kind : Kind) (xs : Nat → ℚ) (feas : Bool) : Option (ℚ × ℚ × Bool) :=
  (solve (prob e g w) cfg (oracle e g w kind.feasibilityDriven) kind 1 1 xs (fun _ => 0) feas (some 0) zero).map
    fun o => (o.final.xs 1, o.final.us 0, o.final.feas)

/-- The hypotheses of `C130_valid_partial`: a valid guess, a step is taken. -/
example : Valid (prob 1 3 1) isBad (fun x => isBad |x|) (fun _ => 0) (fun _ => 0) ∧
    ValidStates (prob 1 3 1) (fun x => isBad |x|) (fun _ => 0) ∧
    after 1 3 1 .ddp (fun _ => 0) true = some (0, 3, true) := by
  have h0 : isBad |(0 : ℚ)| = false := by decide +kernel
  refine ⟨⟨fun t _ => h0, fun t ht => ?_, ?_⟩, fun t _ => h0, by decide +kernel⟩
  · have : t = 0 := by simp only [prob] at ht; omega
    subst this
    decide +kernel
  · decide +kernel

/-- C130 fails for controls: they are not tested. DDP installs the control `2·10³⁰` from a valid guess. -/
theorem C130_control_counterexample :
    after (1 / big ^ 2) (2 * big) 1 .ddp (fun _ => 0) true = some (0, 2 * big, true) ∧
    isBad (2 * big) = true := by decide +kernel

/-- C130 fails for trajectories with open gaps: FDDP tests the state before it adds the remaining gap. A
half step leaves the state `2·10³⁰`. -/
theorem C130_gap_counterexample :
    after 1 0 1 .fddp far false = some (2 * big, 0, false) ∧ isBad |2 * big| = true := by decide +kernel

/-- C130 fails for BoxDDP even if it marks the trajectory feasible: it adds the remaining gap of the last
node. -/
theorem C130_box_counterexample :
    after 1 0 (big / 4) .boxDdp far false = some (2 * big, 0, true) ∧ isBad |2 * big| = true := by
  decide +kernel

/-- C130: an invalid guess is returned as it is when no step is accepted (here the guess has the state
`4·10³⁰` and the tests reject the trials of all step lengths). -/
theorem C130_guess_counterexample :
    after 1 0 (big / 4) .ddp far true = some (4 * big, 0, true) ∧ isBad |4 * big| = true := by decide +kernel

end FiniteDemo
end Verif.Solve
