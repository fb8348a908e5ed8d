import Verif.Model.ContactStack
import Verif.Model.IntegratorsManifold
import Verif.Model.ResidualCost
import Verif.Model.Activations

/-!
# The differential model of a robot, put together

`DifferentialActionModelFreeFwdDynamics` and `DifferentialActionModelContactFwdDynamics` with their costs, as the integrated action models
call them: the forward dynamics of `Model/FwdDyn` (with the contacts of `Model/ContactStack`) and a sum of the costs of `Model/ResidualCost`
with the activations of `Model/Activations`.

Simplifications: `calcDiff` is called after `calc` with the same arguments; constraints are left out; the sum of the costs is written as a
sum (it is what `CostModelSum` computes, C10); the states are pairs of a configuration and a velocity.
-/

namespace Verif.Node

open Matrix
open Verif.Mb (Pin)
open Verif.Im (X DM)
open Verif.Integrators (Ix)

noncomputable section

variable {P : Pin} {nw nc : ℕ}

/-- A cost of the container: residual and activation (core/cost-base.hpp L276-277), the data of the activation, what was called on its
data before, its weight and whether it is active (core/costs/cost-sum.hpp L47-50). -/
structure Term (P : Pin) (nw : ℕ) where
  nr : ℕ
  res : ResidualCost.Residual (X P) ℝ (P.nv + P.nv) nw nr
  act : Activations.Model nr
  data : Activations.Data nr
  hist : List (ResidualCost.Op (X P) ℝ nw)
  weight : ℝ
  active : Bool

/-- The activation as the cost calls it: `calc`, and `calcDiff` after it, core/costs/residual.hxx L32, L63. -/
def Term.activation (t : Term P nw) : ResidualCost.Activation ℝ t.nr where
  val r := (Activations.calcA t.act t.data r).a_value
  grad r := (Activations.calcDiffA t.act (Activations.calcA t.act t.data r) r).2.Ar
  hess r := (Activations.calcDiffA t.act (Activations.calcA t.act t.data r) r).2.Arr

/-- The data of the cost after more calls. -/
def Term.after (t : Term P nw) (ops : List (ResidualCost.Op (X P) ℝ nw)) : ResidualCost.Data ℝ (P.nv + P.nv) nw t.nr :=
  ResidualCost.run t.res t.activation (ResidualCost.costDiff t.res) (t.hist ++ ops)

/-- A tangent vector of `2 nv` entries in two halves. -/
def halves {n : ℕ} (g : Fin (n + n) → ℝ) : Ix n → ℝ := fun i => g (finSumFinEquiv i)

/-- `CostModelSum::calc` and `calcDiff`, core/costs/cost-sum.hxx L108-255: the active costs, each times its weight. -/
def weighted {α : Type} [AddCommMonoid α] [Module ℝ α] (ts : List (Term P nw)) (f : Term P nw → α) : α :=
  ((ts.filter (·.active)).map fun t => t.weight • f t).sum

/-- `DifferentialActionModelContactFwdDynamics`: `calc`, contact-fwddyn.hxx L82-139, and `calcDiff`, L168-241,
on one data; without control L142-165 and L244-257. -/
def contactDM (B : Fwd.Rigid (X P) P.nv) (C : Fwd.Contacts (X P) P.nv nc) (A : Fwd.Act (X P) P.nv nw) (m : Fwd.CMod P.nv)
    (d : Fwd.CDat P.nv nc nw) (ts : List (Term P nw)) : DM P nw where
  xout x w := (Fwd.conCalc B C A m d x w).xout
  cost x w := weighted ts fun t => (t.after [.calcXU x w]).cost
  costT x := weighted ts fun t => (t.after [.calcX x]).cost
  Fx x w := (Fwd.conDiff C A m (Fwd.conCalc B C A m d x w) x w).Fx
  Fu x w := (Fwd.conDiff C A m (Fwd.conCalc B C A m d x w) x w).Fu
  Lx x w := halves (weighted ts fun t => (t.after [.calcXU x w, .diffXU x w]).Lx)
  Lu x w := weighted ts fun t => (t.after [.calcXU x w, .diffXU x w]).Lu
  LxT x := halves (weighted ts fun t => (t.after [.calcX x, .diffX x]).Lx)

/-- `DifferentialActionModelFreeFwdDynamics`: `calc`, free-fwddyn.hxx L41-85, and `calcDiff`, L114-160, on one
data; without control L88-111 and L163-177. -/
def freeDM (B : Fwd.Rigid (X P) P.nv) (A : Fwd.Act (X P) P.nv nw) (m : Fwd.Arm P.nv) (d : Fwd.FDat P.nv nw) (ts : List (Term P nw)) :
    DM P nw where
  xout x w := (Fwd.freeCalc B A m d x w).xout
  cost x w := weighted ts fun t => (t.after [.calcXU x w]).cost
  costT x := weighted ts fun t => (t.after [.calcX x]).cost
  Fx x w := (Fwd.freeDiff B A m (Fwd.freeCalc B A m d x w) x w).Fx
  Fu x w := (Fwd.freeDiff B A m (Fwd.freeCalc B A m d x w) x w).Fu
  Lx x w := halves (weighted ts fun t => (t.after [.calcXU x w, .diffXU x w]).Lx)
  Lu x w := weighted ts fun t => (t.after [.calcXU x w, .diffXU x w]).Lu
  LxT x := halves (weighted ts fun t => (t.after [.calcX x, .diffX x]).Lx)

end

end Verif.Node
