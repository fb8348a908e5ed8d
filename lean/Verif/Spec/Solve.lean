import Verif.Model.Solve
import Mathlib.Algebra.BigOperators.Group.Finset.Basic
import Mathlib.Data.Finset.Range

/-! # Specification vocabulary for the DDP solver family -/

namespace Verif.Solve
variable {K X DX U : Type}

/-- `xs` is the exact rollout of `us` from the initial state: no gaps. -/
def Rollout (P : Prob K X DX U) (xs : Nat → X) (us : Nat → U) : Prop :=
  xs 0 = P.x0 ∧ ∀ t < P.T, xs (t + 1) = ((P.node t).eval (xs t) (us t)).1

/-- The total cost of a trajectory: running costs plus terminal cost. -/
def totalCost [AddCommMonoid K] (P : Prob K X DX U) (xs : Nat → X) (us : Nat → U) : K :=
  (∑ t ∈ Finset.range P.T, ((P.node t).eval (xs t) (us t)).2) + P.tcost (xs P.T)

/-- For models without controls, `calc(d, x)` and `calc(d, x, u)` agree. (True of impulse models; false
of integrated action models, whose `calc(d, x)` is the terminal one.) -/
def AutonomousOk (P : Prob K X DX U) : Prop :=
  ∀ t < P.T, (P.node t).nuZero = true → ∀ x u, (P.node t).evalT x = (P.node t).eval x u

/-- The gap before node `t`: the difference between the state of the trajectory and the state predicted by
the initial state or by the previous node. -/
def gap (P : Prob K X DX U) (xs : Nat → X) (us : Nat → U) : Nat → DX
  | 0 => (P.node 0).diff (xs 0) P.x0
  | t + 1 => (P.node t).diff (xs (t + 1)) ((P.node t).eval (xs t) (us t)).1

/-- All nodes share the state manifold with operations `diff` and `integ`, and `diff` inverts `integ` up to
sign: going from `x ⊕ d` back to `x` is `-d`. Vector states satisfy it. -/
structure SharedState [AddCommGroup DX] (P : Prob K X DX U) (diff : X → X → DX) (integ : X → DX → X) :
    Prop where
  diff_eq : ∀ t, (P.node t).diff = diff
  integ_eq : ∀ t, (P.node t).integ = integ
  term_eq : P.tinteg = integ
  back : ∀ x d, diff (integ x d) x = -d
  self : ∀ x, diff x x = 0

end Verif.Solve
