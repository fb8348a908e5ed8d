import Verif.Model.SolverBase

/-! # Specifications for C20–C23 -/

namespace Verif.Solver
open Verif

section norms
variable {K : Type} [Field K] [LinearOrder K]

/-- `r` is the maximum absolute value of the entries (0 when there is none). -/
def IsMaxAbs (l : List K) (r : K) : Prop :=
  0 ≤ r ∧ (∀ v ∈ l, |v| ≤ r) ∧ (r = 0 ∨ ∃ v ∈ l, |v| = r)

/-- `r` is the selected norm of the entries `l` taken over the whole trajectory. -/
def IsNorm : Norm → List K → K → Prop
  | .linf, l, r => IsMaxAbs l r
  | .l1, l, r => r = (l.map abs).sum

/-- `fs` are the gaps of `xs`: from the first state to `x0`, and from each later state to the state
predicted by the node before it. -/
def GapsOf {X : Type} (diff : X → X → List K) (x0 : X) (xs xnexts : List X) (fs : List (List K)) : Prop :=
  fs.length = xnexts.length + 1 ∧
  (∀ x ∈ xs[0]?, fs[0]? = some (diff x x0)) ∧
  ∀ t, ∀ x ∈ xs[t + 1]?, ∀ y ∈ xnexts[t]?, fs[t + 1]? = some (diff x y)

/-- By how much a value leaves the interval given by optional bounds. -/
def excess (g : K) (lb ub : Option K) : K :=
  match lb, ub with
  | none, none => 0
  | some l, none => max 0 (l - g)
  | none, some u => max 0 (g - u)
  | some l, some u => max 0 (max (l - g) (g - u))

/-- The value lies within its bounds. -/
def Within (g : K) (lb ub : Option K) : Prop := (∀ l ∈ lb, l ≤ g) ∧ (∀ u ∈ ub, g ≤ u)

/-- A node's bounds have as many entries as its constraints and are ordered. -/
structure Ineq.WF (c : Ineq K) : Prop where
  lb : c.lb.length = c.g.length
  ub : c.ub.length = c.g.length
  ord : ∀ p ∈ c.lb.zip c.ub, ∀ l ∈ p.1, ∀ u ∈ p.2, l ≤ u

/-- The entries of a node with their bounds. -/
def Ineq.entries (c : Ineq K) : List (K × Option K × Option K) := c.g.zip (c.lb.zip c.ub)

/-- The violations of a node. -/
def Ineq.excesses (c : Ineq K) : List K := c.entries.map fun e => excess e.1 e.2.1 e.2.2

end norms

/-! ### Candidates -/

/-- The state trajectory argument fits the problem (an empty one asks for the default). -/
def XsFit {K : Type} (models : List (Dims K)) (term : Dims K) (xs : List (List K)) : Prop :=
  xs = [] ∨ xs.map List.length = models.map Dims.nx ++ [term.nx]

/-- The control trajectory argument fits the problem (an empty one asks for the default). -/
def UsFit {K : Type} (models : List (Dims K)) (us : List (List K)) : Prop :=
  us = [] ∨ us.map List.length = models.map Dims.nu

/-- The state trajectory that is installed. -/
def xsOrZero {K : Type} (models : List (Dims K)) (term : Dims K) (xs : List (List K)) :
    List (List K) :=
  if xs = [] then models.map Dims.zero ++ [term.zero] else xs

/-- The control trajectory that is installed. -/
def usOrZero {K : Type} [Zero K] (models : List (Dims K)) (us : List (List K)) : List (List K) :=
  if us = [] then models.map (fun m => List.replicate m.nu 0) else us

/-! ### Parameter ranges -/

section ranges
variable {K : Type} [Field K] [LinearOrder K]

/-- `0 ≤ v`. -/
def NonNeg : Flt K → Prop
  | .fin a => 0 ≤ a
  | .pinf => True
  | _ => False

/-- `0 < v`. -/
def Pos : Flt K → Prop
  | .fin a => 0 < a
  | .pinf => True
  | _ => False

/-- `1 < v`. -/
def AboveOne : Flt K → Prop
  | .fin a => 1 < a
  | .pinf => True
  | _ => False

/-- `0 < v ≤ 1`. -/
def UnitOC : Flt K → Prop
  | .fin a => 0 < a ∧ a ≤ 1
  | _ => False

/-- `0 < v < 1/2`. -/
def HalfOO : Flt K → Prop
  | .fin a => 0 < a ∧ a < 1 / 2
  | _ => False

/-- `b < a`, on finite or infinite values. -/
def Above (a b : Flt K) : Prop :=
  match a, b with
  | .fin a, .fin b => b < a
  | .pinf, .fin _ => True
  | .pinf, .ninf => True
  | .fin _, .ninf => True
  | _, _ => False

/-- The range documented by the error message of each setter. -/
def InRange : Param → Flt K → Prop
  | .preg | .dreg | .thGaptol | .regMin | .regMax | .thGrad | .thAcceptnegstep | .qpThGrad | .qpReg =>
    NonNeg
  | .thStop => Pos
  | .regInc | .regDec => AboveOne
  | .thAcceptstep | .thStepdec | .thStepinc | .rho => UnitOC
  | .qpThAcceptstep => HalfOO

/-- Step lengths: at least one, positive and decreasing. -/
def AlphasOk (as : List (Flt K)) : Prop :=
  as ≠ [] ∧ (∀ a ∈ as, Pos a) ∧ as.Pairwise Above

/-- All arguments of a setter call are numbers. -/
def SetOp.NoNaN : SetOp K → Prop
  | .scalar _ v => v ≠ .nan
  | .regfactor v => v ≠ .nan
  | .alphas _ as => ∀ a ∈ as, a ≠ .nan

end ranges

/-- One change of the regularisation. -/
inductive RegOp where
  | inc | dec
deriving DecidableEq

/-- The regularisation after a sequence of changes. -/
def regAfter {K : Type} [Field K] [LinearOrder K] (r : Reg K) : List RegOp → K → K
  | [], p => p
  | .inc :: l, p => regAfter r l (increase r p)
  | .dec :: l, p => regAfter r l (decrease r p)

end Verif.Solver
