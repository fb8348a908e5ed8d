import Verif.Lemmas.IntroSolve
import Verif.Props.Solve

/-! # Properties of `SolverIntro::solve` (C75-C77) -/

namespace Verif.IntroSolve
open Verif Verif.Solver Verif.Solve

section
variable {K X DX U L D : Type}
variable [Field K] [LinearOrder K] [AddCommGroup DX] [Module K DX] [AddCommGroup U] [Module K U]
variable {P : Prob K X DX U} {E : EqC K X U (St K X DX U L D)} {c : ICfg K} {O : Oracle K X DX U L D}
variable {fuel maxiter : Nat} {xs : Nat → X} {us : Nat → U} {feas : Bool} {regInit : Option K}
  {s : Ist K X DX U L D} {o : Outcome K X DX U L D}

/-- C75. Success: the returned trajectory violates the equality constraints, the terminal one included, by less than the
threshold, the predicted improvement is below it, and, if the initial guess was only marked feasible when it is a
rollout, the returned states are the exact rollout of the returned controls. -/
theorem C75_success (hA : AutonomousOk P) (hE : EqAutonomous P E) (hon : feas = true → Rollout P xs us)
    (h : solve P E c O fuel maxiter xs us feas regInit s = some o) (hr : o.ret = true) :
    violation c.norm P E o.final.base.xs o.final.base.us < c.thStop ∧
    |o.final.base.d0 + (1 / 2) * o.final.base.d1| < c.thStop ∧
    Rollout P o.final.base.xs o.final.base.us := by
  obtain ⟨-, -, h3, h4, -, h6, -⟩ := iterLoop_induct hA hE fuel maxiter (start_pre xs us feas regInit s) h
  obtain ⟨f1, f2, f3⟩ := h4 hr
  have hn : 0 < maxiter := by
    by_contra hn
    obtain rfl : maxiter = 0 := by omega
    simp only [solve, iterLoop, Option.some.injEq] at h
    rw [← h] at hr
    simp at hr
  rw [f3, max_lt_iff] at f2
  exact ⟨(h3 hn).h ▸ f2.1, f2.2, h6 hon f1⟩

/-- C75. At every callback and when `solve` returns (after at least one iteration) the stored cost and the stored
feasibility are those of the stored candidate. -/
theorem C75_reports (hA : AutonomousOk P) (hE : EqAutonomous P E)
    (h : solve P E c O fuel maxiter xs us feas regInit s = some o) :
    o.trace.length ≤ maxiter ∧
    ∀ q, (q ∈ o.trace ∨ q = o.final ∧ 0 < maxiter) →
      q.base.cost = totalCost P q.base.xs q.base.us ∧ q.hfeas = violation c.norm P E q.base.xs q.base.us := by
  obtain ⟨h1, h2, h3, -⟩ := iterLoop_induct hA hE fuel maxiter (start_pre xs us feas regInit s) h
  refine ⟨h1, fun q hq => ?_⟩
  rcases hq with hq | ⟨rfl, hn⟩
  · exact ⟨(h2 q hq).1.cost, (h2 q hq).1.h⟩
  · exact ⟨(h3 hn).cost, (h3 hn).h⟩

/-- C75. The merit reported after an iteration that changed the candidate is the merit function of the candidate with
the penalty in force. -/
theorem C75_merit (hA : AutonomousOk P) (hE : EqAutonomous P E)
    (h : solve P E c O fuel maxiter xs us feas regInit s = some o) :
    (∀ q ∈ o.trace.head?, (q.base.xs = xs ∧ q.base.us = us) ∨ q.merit = merit c.norm P E q.upsilon q.base.xs q.base.us) ∧
    List.IsChain (fun p q => (q.base.xs = p.base.xs ∧ q.base.us = p.base.us) ∨
      q.merit = merit c.norm P E q.upsilon q.base.xs q.base.us) o.trace := by
  obtain ⟨-, -, -, -, h5, -, -⟩ := iterLoop_induct hA hE fuel maxiter (start_pre xs us feas regInit s) h
  refine ⟨?_, (List.IsChain.tail h5).imp fun p q hpq => hpq.rep⟩
  intro q hq
  rcases htr : o.trace with _ | ⟨q', tr⟩
  · rw [htr] at hq; simp at hq
  · rw [htr] at h5 hq
    simp only [List.head?_cons, Option.mem_def, Option.some.injEq] at hq
    subst hq
    exact (List.isChain_cons_cons.1 h5).1.rep

/-- C76. The steps, each from the candidate before it (the first from the initial guess): they keep the promise on the merit
function or use the exception for negative predictions. The penalty never decreases during a solve. Missing, and false
(`C76_negative_counterexample`): that the exception cannot increase the merit function. -/
theorem C76_merit_partial (hA : AutonomousOk P) (hE : EqAutonomous P E) (_hρ : c.rho < 1)
    (h : solve P E c O fuel maxiter xs us feas regInit s = some o) :
    (∀ q ∈ o.trace.head?, MeritStep c P E xs us q ∨ NegativeStep c P xs us q) ∧
    List.IsChain (fun p q => (MeritStep c P E p.base.xs p.base.us q ∨ NegativeStep c P p.base.xs p.base.us q) ∧
      p.upsilon ≤ q.upsilon) o.trace ∧
    (if c.zeroUpsilon then 0 else s.upsilon) ≤ o.final.upsilon := by
  obtain ⟨-, -, -, -, h5, -, h7⟩ := iterLoop_induct hA hE fuel maxiter (start_pre xs us feas regInit s) h
  have key : ∀ p q : Ist K X DX U L D, IRel P E c p q →
      MeritStep c P E p.base.xs p.base.us q ∨ NegativeStep c P p.base.xs p.base.us q := by
    intro p q hpq
    rcases hpq.dec with h | h | h | h
    · exact .inl (.inl h)
    · exact .inl (.inr (.inl h))
    · exact .inl (.inr (.inr h))
    · exact .inr h
  refine ⟨?_, ?_, h7⟩
  · intro q hq
    rcases htr : o.trace with _ | ⟨q', tr⟩
    · rw [htr] at hq; simp at hq
    · rw [htr] at h5 hq
      simp only [List.head?_cons, Option.mem_def, Option.some.injEq] at hq
      subst hq
      exact key _ _ (List.isChain_cons_cons.1 h5).1
  · exact (List.IsChain.tail h5).imp fun p q hpq => ⟨key p q hpq, hpq.mono⟩

end

section
variable {K X DX U L D : Type}
variable [Field K] [LinearOrder K] [IsStrictOrderedRing K] [AddCommGroup DX] [Module K DX]
variable [AddCommGroup U] [Module K U]
variable {P : Prob K X DX U} {E : EqC K X U (St K X DX U L D)} {c : ICfg K} {O : Oracle K X DX U L D}

/-- C75. `solve` ends whatever the models, the derivatives and the backward pass do, if it starts with a positive
regularisation. -/
theorem C75_terminates [Archimedean K] (hinc : 1 < c.reg.inc) (hdec : 1 < c.reg.dec) (hmin : 0 < c.reg.min)
    (hmax : 0 < c.reg.max) (maxiter : Nat) (xs : Nat → X) (us : Nat → U) (feas : Bool) (regInit : Option K)
    (hp : ∀ r ∈ regInit, 0 < r) (s : Ist K X DX U L D) :
    ∃ fuel o, solve P E c O fuel maxiter xs us feas regInit s = some o := by
  refine iterLoop_ends hinc hdec hmax maxiter _ ?_
  show 0 < regInit.getD c.reg.min
  cases regInit with
  | none => exact hmin
  | some r => exact hp r rfl

/-- C77. The penalty update before a line search, from the second iteration on and with a violated constraint: the
penalty grows if needed to `(1 - rho) upsilon hfeas ≥ d0 + d1/2`. The rule it implements bounds the predicted
*increase* of the cost: it promises that a full step which cancels the violation is predicted to decrease the merit function by
at least `rho upsilon hfeas`. This holds when the cost is predicted not to increase. Missing, and false
(`C77_counterexample`): predicted increases of the cost, the case the penalty is for. -/
theorem C77_penalty_partial (s : Ist K X DX U L D) (hρ : c.rho < 1) (hh : 0 < s.hfeas) (hi : s.base.iter ≠ 0)
    (hu : 0 ≤ s.upsilon) :
    let q := prepare c O s
    let D := q.base.d0 + (1 / 2) * q.base.d1
    D ≤ (1 - c.rho) * q.upsilon * s.hfeas ∧ s.upsilon ≤ q.upsilon ∧
      (D ≤ (1 - c.rho) * s.upsilon * s.hfeas → q.upsilon = s.upsilon) ∧
      (0 ≤ D → c.rho * q.upsilon * s.hfeas ≤ D + q.upsilon * s.hfeas) := by
  intro q D
  have hq : q.upsilon = max s.upsilon (D / ((1 - c.rho) * s.hfeas)) := by
    simp only [q, D, prepare, penalty]
    rw [if_pos ⟨hh.ne', hi⟩]
  have hpos : 0 < (1 - c.rho) * s.hfeas := mul_pos (by linarith) hh
  have h1 : D ≤ (1 - c.rho) * q.upsilon * s.hfeas := by
    have := le_max_right s.upsilon (D / ((1 - c.rho) * s.hfeas))
    rw [← hq, div_le_iff₀ hpos] at this
    linarith
  have h2 : s.upsilon ≤ q.upsilon := hq ▸ le_max_left _ _
  refine ⟨h1, h2, fun h => ?_, fun h => ?_⟩
  · rw [hq, max_eq_left]
    rw [div_le_iff₀ hpos]
    linarith
  · have : 0 ≤ (1 - c.rho) * q.upsilon * s.hfeas :=
      mul_nonneg (mul_nonneg (by linarith) (hu.trans h2)) hh.le
    linarith

end

/-! ### Concrete runs -/

namespace Demo

/-- One node, `x' = u`, cost `u²/2`, initial state 0. -/
def prob : Prob ℚ ℚ ℚ ℚ where
  T := 1
  node := fun _ => ⟨false, fun _ u => (u, u * u / 2), fun x => (x, 0), fun x y => y - x, fun x d => x + d, id⟩
  tcost := fun _ => 0
  tdiff := fun x y => y - x
  tinteg := fun x d => x + d
  x0 := 0

def cfg : ICfg ℚ := { Solve.Demo.cfg with norm := .l1, thFeas := 1 / 10 ^ 9, rho := 3 / 10, zeroUpsilon := false }

/-- A scalar constraint `h(u) = 0` on the node. -/
def con (h : ℚ → ℚ) : EqC ℚ ℚ ℚ (St ℚ ℚ ℚ ℚ Unit Unit) where
  h := fun _ _ u => [h u]
  hx := fun _ _ => []
  ht := fun _ => []
  junk := fun _ _ => []
  junkT := fun _ => []

/-- The exact backward pass when `k u` is the Newton step of the constraint: `Qu = u`, `Quu = 1`. -/
def oracle (k : ℚ → ℚ) : Oracle ℚ ℚ ℚ ℚ Unit Unit where
  linearise := fun _ => ()
  backward := fun s => (true, (fun _ => k (s.us 0)), (fun _ _ => 0), ())
  updExp := fun _ => ()
  expImp := fun s => (s.us 0 * k (s.us 0), - (k (s.us 0) * k (s.us 0)))
  bad := fun c => decide (10 ^ 30 ≤ c)
  badX := fun c => decide (10 ^ 30 ≤ |c|)

def init : Ist ℚ ℚ ℚ ℚ Unit Unit := ⟨Solve.Demo.init, fun _ => [], [], 0, 0, 0, 0, 0, 0, 0⟩

theorem ok : AutonomousOk prob := by intro t _ h; simp [prob] at h

theorem eqOk (h : ℚ → ℚ) : EqAutonomous prob (con h) := by intro t _ h; simp [prob] at h

/-- With the constraint `u = 1` from `u = 0` and an infeasible state guess, the solver returns true after two
iterations with `u = 1`: the hypotheses of C75 and C76 are met. -/
example : (solve prob (con fun u => u - 1) cfg (oracle fun u => u - 1) 1 10 (fun t => if t = 0 then 0 else 5)
      (fun _ => 0) false none init).map
      (fun o => (o.ret, [o.final.base.xs 1, o.final.base.us 0, o.final.base.cost, o.final.hfeas],
        o.trace.map fun q => q.dPhiexp)) =
    some (true, [1, 1, 1 / 2, 0], [-1 / 2, 0]) := by decide +kernel

/-- The constraint `1/u = 1/4` from `u = 1`; after one iteration it is still violated and the second one starts with
a predicted increase of the cost. -/
def inv : ℚ → ℚ := fun u => 1 / u - 1 / 4
def newton : ℚ → ℚ := fun u => -u + u * u / 4

/-- A table of costs and constraint values: `u` decreases by one in every step. -/
def tableProb : Prob ℚ ℚ ℚ ℚ := { prob with
  node := fun _ => ⟨false, fun _ u => (u, if u = 0 then 10 else if u = -1 then 5 else 0), fun x => (x, 0),
    fun x y => y - x, fun x d => x + d, id⟩ }

def tableOracle : Oracle ℚ ℚ ℚ ℚ Unit Unit := { oracle id with
  backward := fun _ => (true, (fun _ => 1), (fun _ _ => 0), ())
  expImp := fun _ => (1, 0) }

def tableCon : EqC ℚ ℚ ℚ (St ℚ ℚ ℚ ℚ Unit Unit) := con fun u => if u = -2 then 20 else 1

end Demo

/-- C76. Accepted steps can increase the merit function: in the second iteration of this run, from a feasible candidate, the
cost decreases from 5 to 0 and the violation grows from 1 to 20. The predicted change of the merit is negative, so
only the cost is tested, and the step is accepted although the merit with the penalty in force grows. -/
theorem C76_negative_counterexample : ∃ o p q,
    solve Demo.tableProb Demo.tableCon Demo.cfg Demo.tableOracle 1 2 (fun _ => 0) (fun _ => 0) true none Demo.init =
      some o ∧ o.trace = [p, q] ∧ p.base.feas = true ∧ p.base.us 0 = -1 ∧ q.base.us 0 = -2 ∧ Demo.cfg.thGrad ≤ |q.base.d0| ∧
    merit .l1 Demo.tableProb Demo.tableCon q.upsilon p.base.xs p.base.us <
      merit .l1 Demo.tableProb Demo.tableCon q.upsilon q.base.xs q.base.us := by
  obtain ⟨o, h1, h2⟩ := Solve.Demo.exists_of_check
    (fun o : Outcome ℚ ℚ ℚ ℚ Unit Unit => match o.trace with
      | [p, q] => p.base.feas && decide (p.base.us 0 = -1) && decide (q.base.us 0 = -2) &&
        decide (Demo.cfg.thGrad ≤ |q.base.d0|) && decide (q.upsilon = 10 / 7)
      | _ => false)
    (show (solve Demo.tableProb Demo.tableCon Demo.cfg Demo.tableOracle 1 2 (fun _ => 0) (fun _ => 0) true none
      Demo.init).map _ = some true by decide +kernel)
  rcases htr : o.trace with _ | ⟨p, _ | ⟨q, _ | ⟨r, tr⟩⟩⟩ <;> rw [htr] at h2 <;> simp only [Bool.false_eq_true] at h2
  simp only [Bool.and_eq_true, decide_eq_true_eq] at h2
  obtain ⟨⟨⟨⟨a1, a2⟩, a3⟩, a4⟩, a5⟩ := h2
  refine ⟨o, p, q, h1, htr, a1, a2, a3, a4, ?_⟩
  norm_num [merit, totalCost, violation, eqFeas, lp1, Demo.tableProb, Demo.prob, Demo.tableCon, Demo.con, a2, a3, a5]

/-- C77. In the second iteration of this run the constraint is violated and the cost is predicted to increase; the
penalty stays 0, so the full step is predicted to increase the merit function. -/
theorem C77_counterexample : ∃ o p q,
    solve Demo.prob (Demo.con Demo.inv) Demo.cfg (Demo.oracle Demo.newton) 1 2 (fun t => if t = 0 then 0 else 1)
      (fun _ => 1) true none Demo.init = some o ∧ o.trace = [p, q] ∧ 0 < p.hfeas ∧
    q.upsilon = 0 ∧ q.base.d0 + (1 / 2) * q.base.d1 + q.upsilon * p.hfeas < Demo.cfg.rho * q.upsilon * p.hfeas := by
  obtain ⟨o, h1, h2⟩ := Solve.Demo.exists_of_check
    (fun o : Outcome ℚ ℚ ℚ ℚ Unit Unit => match o.trace with
      | [p, q] => decide (0 < p.hfeas) && decide (q.upsilon = 0) && decide (q.base.d0 + (1 / 2) * q.base.d1 + q.upsilon * p.hfeas <
        Demo.cfg.rho * q.upsilon * p.hfeas)
      | _ => false)
    (show (solve Demo.prob (Demo.con Demo.inv) Demo.cfg (Demo.oracle Demo.newton) 1 2 (fun t => if t = 0 then 0 else 1)
      (fun _ => 1) true none Demo.init).map _ = some true by decide +kernel)
  rcases htr : o.trace with _ | ⟨p, _ | ⟨q, _ | ⟨r, tr⟩⟩⟩ <;> rw [htr] at h2 <;> simp only [Bool.false_eq_true] at h2
  simp only [Bool.and_eq_true, decide_eq_true_eq] at h2
  exact ⟨o, p, q, h1, htr, h2.1.1, h2.1.2, h2.2⟩

/-- C75. The condition on the initial flag is needed: with a guess wrongly marked feasible whose trials all throw, the
solver returns true with a state that is not the successor of the control. -/
theorem C75_flag_counterexample : ∃ o,
    solve Demo.prob (Demo.con fun u => u) Demo.cfg { Demo.oracle id with bad := fun _ => true } 1 1
      (fun t => if t = 0 then 0 else 5) (fun _ => 0) true none Demo.init = some o ∧ o.ret = true ∧
    ¬ Rollout Demo.prob o.final.base.xs o.final.base.us := by
  obtain ⟨o, h1, h2⟩ := Solve.Demo.exists_of_check
    (fun o : Outcome ℚ ℚ ℚ ℚ Unit Unit => o.ret && decide (o.final.base.xs 1 = 5) && decide (o.final.base.us 0 = 0))
    (show (solve Demo.prob (Demo.con fun u => u) Demo.cfg { Demo.oracle id with bad := fun _ => true } 1 1
      (fun t => if t = 0 then 0 else 5) (fun _ => 0) true none Demo.init).map _ = some true by decide +kernel)
  simp only [Bool.and_eq_true, decide_eq_true_eq] at h2
  refine ⟨o, h1, h2.1.1, fun h => ?_⟩
  have := h.2 0 (by decide)
  rw [h2.1.2] at this
  simp [Demo.prob, h2.2] at this

/-- The hypotheses of C77 are met in the second iteration of the run of `C76_negative_counterexample`, where the penalty grows
from 0 to 10/7. -/
example : ((solve Demo.tableProb Demo.tableCon Demo.cfg Demo.tableOracle 1 2 (fun _ => 0) (fun _ => 0) true none
    Demo.init).map fun o => o.trace.map fun q => (q.upsilon, q.hfeas)) = some [(0, 1), (10 / 7, 20)] := by
  decide +kernel

end Verif.IntroSolve
