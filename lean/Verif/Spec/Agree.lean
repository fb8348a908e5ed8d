import Verif.Spec.Forget

/-! # Specification: two solvers that compute alike -/

namespace Verif.Solve
open Verif Verif.Solver

variable {K X DX U L D : Type}

/-- No node has control limits: the box solvers do not clamp. -/
def Unlimited (P : Prob K X DX U) : Prop := ∀ t < P.T, ∀ u, (P.node t).clamp u = u

/-- At candidates that are marked feasible, two solvers compute the same derivatives, the same directions (up to the
relation `R`), and from them the same predicted improvement, and neither meets a number that is not finite. -/
structure Agree (P : Prob K X DX U) (O O' : Oracle K X DX U L D) (R : D → D → Prop) : Prop where
  lin : ∀ s s', SameCand P s s' → O.linearise s = O'.linearise s'
  backward : ∀ s s' : St K X DX U L D, SameCand P s s' → s.feas = true → s.lin = s'.lin →
    (∀ t ≤ P.T, s.fs t = s'.fs t) → s.preg = s'.preg → s.dreg = s'.dreg →
    (O.backward s).1 = (O'.backward s').1 ∧
    ((O.backward s).1 = true →
      (∀ t < P.T, (P.node t).nuZero = false → (O.backward s).2.1 t = (O'.backward s').2.1 t) ∧
      (∀ t < P.T, (O.backward s).2.2.1 t = (O'.backward s').2.2.1 t) ∧
      R (O.backward s).2.2.2 (O'.backward s').2.2.2)
  updL : ∀ (s : St K X DX U L D) (d : D), R s.dir d → R (O.updExp s) d
  updR : ∀ (s : St K X DX U L D) (d : D), R d s.dir → R d (O'.updExp s)
  exp : ∀ s s' : St K X DX U L D, SameCand P s s' → s.feas = true → R s.dir s'.dir → O.expImp s = O'.expImp s'
  finite : (∀ v, O.bad v = false) ∧ (∀ x, O.badX x = false) ∧ (∀ v, O'.bad v = false) ∧ ∀ x, O'.badX x = false

/-- What a callback sees is the same: candidate, cost, gaps, regularisation, iteration, step length and stopping
criterion. -/
structure SameView (P : Prob K X DX U) (s s' : St K X DX U L D) : Prop extends SameResult P s s' where
  steplength : s.steplength = s'.steplength
  stop : s.stop = s'.stop

end Verif.Solve
