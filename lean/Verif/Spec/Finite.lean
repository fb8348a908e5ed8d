import Verif.Model.Solve
import Mathlib.Algebra.BigOperators.Group.Finset.Basic
import Mathlib.Data.Finset.Range

/-! # Specification: trajectories without invalid numbers -/

namespace Verif.Solve
variable {K X DX U : Type}

/-- What node `t` computes: next state and cost (nodes without controls are evaluated without one). -/
def evalNode (P : Prob K X DX U) (t : Nat) (x : X) (u : U) : X × K :=
  if (P.node t).nuZero then (P.node t).evalT x else (P.node t).eval x u

/-- No node has an invalid next state, and neither the running sums of the costs nor the total cost are
invalid. `bad`, `badX`: the numbers and states regarded as invalid. -/
structure Valid [AddCommMonoid K] (P : Prob K X DX U) (bad : K → Bool) (badX : X → Bool)
    (xs : Nat → X) (us : Nat → U) : Prop where
  next : ∀ t < P.T, badX (evalNode P t (xs t) (us t)).1 = false
  sums : ∀ t < P.T, bad (∑ j ∈ Finset.range (t + 1), (evalNode P j (xs j) (us j)).2) = false
  total : bad ((∑ j ∈ Finset.range P.T, (evalNode P j (xs j) (us j)).2) + P.tcost (xs P.T)) = false

/-- No state after the initial one is invalid. -/
def ValidStates (P : Prob K X DX U) (badX : X → Bool) (xs : Nat → X) : Prop :=
  ∀ t < P.T, badX (xs (t + 1)) = false

end Verif.Solve
