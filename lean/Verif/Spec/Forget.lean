import Verif.Model.Solve

/-!
# Specification: two solvers that agree on what a user sees

Trajectories have `T + 1` states and `T` controls; a node without controls has an empty control vector.
-/

namespace Verif.Solve
open Verif Verif.Solver

variable {K X DX U L D : Type}

/-- The same candidate: states, controls and the flag that marks it feasible. -/
structure SameCand (P : Prob K X DX U) (s s' : St K X DX U L D) : Prop where
  xs : ∀ t ≤ P.T, s.xs t = s'.xs t
  us : ∀ t < P.T, (P.node t).nuZero = false → s.us t = s'.us t
  feas : s.feas = s'.feas

/-- The same result: candidate, cost, gaps, regularisation, number of iterations. -/
structure SameResult (P : Prob K X DX U) (s s' : St K X DX U L D) : Prop extends SameCand P s s' where
  cost : s.cost = s'.cost
  fs : ∀ t ≤ P.T, s.fs t = s'.fs t
  preg : s.preg = s'.preg
  dreg : s.dreg = s'.dreg
  iter : s.iter = s'.iter
  wasFeas : s.wasFeas = s'.wasFeas

/-- What a callback sees is the same: the result so far, the step length, and the stopping criterion once a
step from a feasible candidate was accepted (it is not tested before). -/
structure SameSeen (P : Prob K X DX U) (s s' : St K X DX U L D) : Prop extends SameResult P s s' where
  steplength : s.steplength = s'.steplength
  stop : s.wasFeas = true → s.stop = s'.stop

/-- The backward pass and the predicted improvement use nothing that an earlier `solve` left behind: the
derivatives depend on the candidate; the backward pass on the candidate, the derivatives, the gaps and the
regularisation; the predicted improvement on what the backward pass left (up to the relation `R`), and for the
feasibility-driven solvers on the trial states. -/
structure ReadsFresh (P : Prob K X DX U) (O : Oracle K X DX U L D) (kind : Kind) (R : D → D → Prop) : Prop where
  lin : ∀ s s', SameCand P s s' → O.linearise s = O.linearise s'
  backward : ∀ s s' : St K X DX U L D, SameCand P s s' → s.lin = s'.lin → (∀ t ≤ P.T, s.fs t = s'.fs t) →
    s.preg = s'.preg → s.dreg = s'.dreg →
    (O.backward s).1 = (O.backward s').1 ∧
    ((O.backward s).1 = true →
      (∀ t < P.T, (P.node t).nuZero = false → (O.backward s).2.1 t = (O.backward s').2.1 t) ∧
      (∀ t < P.T, (O.backward s).2.2.1 t = (O.backward s').2.2.1 t) ∧
      R (O.backward s).2.2.2 (O.backward s').2.2.2)
  upd : ∀ s s' : St K X DX U L D, SameCand P s s' → (∀ t ≤ P.T, s.fs t = s'.fs t) → R s.dir s'.dir →
    R (O.updExp s) (O.updExp s')
  exp : ∀ s s' : St K X DX U L D, SameCand P s s' → (∀ t ≤ P.T, s.fs t = s'.fs t) → R s.dir s'.dir →
    (kind.feasibilityDriven = true → ∀ t ≤ P.T, s.xsTry t = s'.xsTry t) → O.expImp s = O.expImp s'

end Verif.Solve
