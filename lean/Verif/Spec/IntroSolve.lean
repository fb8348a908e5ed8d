import Verif.Model.IntroSolve
import Verif.Spec.Solve

/-! # Specification vocabulary for `SolverIntro::solve` -/

namespace Verif.IntroSolve
open Verif Verif.Solver Verif.Solve

variable {K X DX U S : Type}

/-- The norm of the equality constraints of a trajectory, all nodes and the terminal one. -/
def violation [Field K] [LinearOrder K] (n : Norm) (P : Prob K X DX U) (E : EqC K X U S) (xs : Nat → X)
    (us : Nat → U) : K :=
  eqFeas n ((List.range P.T).map fun t => E.h t (xs t) (us t)) (E.ht (xs P.T))

/-- For models without controls, `calc(d, x)` and `calc(d, x, u)` leave the same `h`. -/
def EqAutonomous (P : Prob K X DX U) (E : EqC K X U S) : Prop :=
  ∀ t < P.T, (P.node t).nuZero = true → ∀ x u, E.hx t x = E.h t x u

/-- The merit function with penalty `v`. -/
def merit [Field K] [LinearOrder K] (n : Norm) (P : Prob K X DX U) (E : EqC K X U S) (v : K) (xs : Nat → X)
    (us : Nat → U) : K :=
  totalCost P xs us + v * violation n P E xs us

/-- What is promised of the candidate `q` that an iteration leaves, given the one before it: it is unchanged, or the
slope is below the gradient threshold, or the merit function, with the penalty in force, decreased by the
required fraction of its (nonnegative) prediction. -/
def MeritStep [Field K] [LinearOrder K] {DX' L D : Type} (c : ICfg K) (P : Prob K X DX U) (E : EqC K X U S)
    (xs : Nat → X) (us : Nat → U) (q : Ist K X DX' U L D) : Prop :=
  (q.base.xs = xs ∧ q.base.us = us) ∨ |q.base.d0| < c.thGrad ∨
    (0 ≤ q.dPhiexp ∧
      merit c.norm P E q.upsilon xs us - merit c.norm P E q.upsilon q.base.xs q.base.us > c.thAcceptstep * q.dPhiexp)

/-- The exception the code makes: the prediction is negative and the cost changes by more than the (usually
negative) fraction of its own prediction. -/
def NegativeStep [Field K] [LinearOrder K] {DX' L D : Type} (c : ICfg K) (P : Prob K X DX U)
    (xs : Nat → X) (us : Nat → U) (q : Ist K X DX' U L D) : Prop :=
  q.dPhiexp < 0 ∧ totalCost P xs us - totalCost P q.base.xs q.base.us > c.thAcceptnegstep * q.base.dVexp

end Verif.IntroSolve
