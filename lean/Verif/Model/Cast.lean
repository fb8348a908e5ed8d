import Verif.Model.CostSum
import Verif.Model.Constraints

/-!
# Casting the cost sum, the constraint manager and a residual constraint to another scalar

Files modelled: `/repo/include/crocoddyl/core/costs/cost-sum.hxx`,
`/repo/include/crocoddyl/core/constraints/constraint-manager.hxx`,
`/repo/include/crocoddyl/core/constraints/residual.hxx`. (`cast` of the multi-contact and multi-impulse
models is in `Verif.Model.Contacts`.)
-/

namespace Verif

/-- `CostModelSumTpl::cast`, cost-sum.hxx L266-277: a fresh sum to which the cast items are added in
name order; a throw propagates (`none`). `castM`, `castK` cast a cost model and a weight. -/
def CostSum.castSum {N K M K' M' D' : Type} [LinearOrder N] {nx ndx nu : Nat}
    (e' : CostSum.Env K' M' D' nx ndx nu) (castM : M → M') (castK : K → K')
    (s : CostSum.Sum N K M) : Option (CostSum.Sum N K' M') :=
  s.costs.foldl (fun r kv => r.bind fun r =>
    match CostSum.addCost e' kv.1 (castM kv.2.cost) (castK kv.2.weight) kv.2.active r with
    | .ok _ r' => some r'
    | _ => none) (some CostSum.empty)

/-- `ConstraintModelManagerTpl::cast`, constraint-manager.hxx L342-357: a fresh manager to which the
cast items are added in name order. `heap'` are the cast constraint objects and `castA` gives the
object a constraint was cast to. -/
def Constraints.castManager {N K K' : Type} [LinearOrder N] (nu : Nat)
    (heap' : Nat → Constraints.Con K') (castA : Nat → Nat) (w : Constraints.World N K) :
    Option (Constraints.World N K') :=
  w.mgr.items.foldl (fun r kv => r.bind fun r =>
    match Constraints.addConstraint nu kv.1 (castA kv.2.con) kv.2.active r with
    | .ok _ r' => some r'
    | _ => none) (some ⟨heap', Constraints.Mgr.empty⟩)

/-- `ConstraintModelResidualTpl::cast`, residual.hxx L166-182, on the object's numbers. `nr` is the
residual dimension and `qv` tells whether the residual depends on q or v. An inequality constraint is
rebuilt with its bounds (constructor L12-43), anything else as an equality constraint (L46-54).
Simplifications: the scalar is not changed (`K` is kept); the checks of the bounds constructor are not
repeated. -/
def Constraints.castResidual {K : Type} (nr : Nat) (qv : Bool) (c : Constraints.Con K) :
    Constraints.Con K :=
  if c.type = .inequality then
    { nu := c.nu, ngInt := nr, nhInt := 0, ng := nr, nh := 0, lb := c.lb, ub := c.ub
      tcon := qv && c.tcon, type := if nr > 0 then .inequality else .equality }
  else
    { nu := c.nu, ngInt := 0, nhInt := nr, ng := 0, nh := nr, lb := [], ub := []
      tcon := qv && c.tcon, type := .equality }

end Verif
