import Verif.Model.ShootingEval
import Verif.Spec.Shooting
import Mathlib.Algebra.BigOperators.Group.List.Basic

/-! Specification vocabulary for `calc` / `rollout`. -/

namespace Verif.Shooting
variable {K X U V M : Type}

/-- All data objects of the problem (running and terminal) are different objects. -/
def DistinctDatas (p : Problem K M) : Prop := ((p.datas ++ [p.tdata]).map Data.addr).Nodup

/-- Evaluating node by node, in order, each on its own data with initial content `σ`: the list of
contents of the running datas. -/
def seqContents (S : Sem K X U V M) (σ : Store V) : List M → List (Data M) → List X → List U → List V
  | m :: ms, d :: ds, x :: xs, u :: us =>
    runProg (S.calcF m x u) (σ d.addr) :: seqContents S σ ms ds xs us
  | _, _, _, _ => []

/-- The reference value of `calc`: the sum of the node costs and the terminal cost. -/
def totalCost [AddCommMonoid K] (S : Sem K X U V M) (p : Problem K M) (xs : List X) (us : List U)
    (xT : X) (σ : Store V) : K :=
  ((seqContents S σ p.models p.datas xs us).map S.cost).sum +
    S.cost (runProg (S.calcT p.tmodel xT) (σ p.tdata.addr))

/-- The next state of every model is a function of `(x, u)`: what a user assumes of a dynamics. -/
def NextStateIs (S : Sem K X U V M) (f : M → X → U → X) : Prop :=
  ∀ m x u v, S.xnext (runProg (S.calcF m x u) v) = f m x u

/-- Calls that do not bring in a data object from outside. -/
def Op.ownData : Op K M → Prop
  | .circularAppendData .. | .updateNode .. | .setRunningModels .. => False
  | _ => True

end Verif.Shooting
