import Mathlib.Data.Matrix.Mul
import Mathlib.Data.Matrix.Diagonal

/-!
# Costs made of a residual and an activation

Files modelled (under `/repo/include/crocoddyl/`): `core/residual-base.hxx` (`calcCostDiff`),
`core/costs/residual.hxx` (`CostModelResidualTpl`), `core/residuals/control.hxx` and
`multibody/residuals/state.hxx` (their overrides of `calcCostDiff`).

The residual and activation models are parameters: functions giving the residual vector, its Jacobians, the
activation value, its gradient and the diagonal of its Hessian (`Arr` is a diagonal matrix in the code). Exact
arithmetic. The scratch matrices `Arr_Rx`, `Arr_Ru` are written before they are read and are kept because the
code only writes blocks of them.
-/

namespace Verif.ResidualCost

open Matrix

variable {X K : Type} [Field K] {ndx nu nr : ℕ}

/-- The members of a residual model used by the cost (residual-base.hpp L231-241): dependency flags, `nv` of the
state, `calc`, `calcDiff` with and without control. -/
structure Residual (X K : Type) (ndx nu nr : ℕ) where
  nv : ℕ
  q : Bool
  v : Bool
  u : Bool
  res : X → (Fin nu → K) → Fin nr → K
  resT : X → Fin nr → K
  diff : X → (Fin nu → K) → Matrix (Fin nr) (Fin ndx) K × Matrix (Fin nr) (Fin nu) K
  diffT : X → Matrix (Fin nr) (Fin ndx) K × Matrix (Fin nr) (Fin nu) K

/-- An activation model: value, gradient, diagonal of the Hessian. -/
structure Activation (K : Type) (nr : ℕ) where
  val : (Fin nr → K) → K
  grad : (Fin nr → K) → Fin nr → K
  hess : (Fin nr → K) → Fin nr → K

/-- `CostDataAbstract` with its activation and residual data. -/
structure Data (K : Type) (ndx nu nr : ℕ) where
  cost : K
  Lx : Fin ndx → K
  Lu : Fin nu → K
  Lxx : Matrix (Fin ndx) (Fin ndx) K
  Lxu : Matrix (Fin ndx) (Fin nu) K
  Luu : Matrix (Fin nu) (Fin nu) K
  aValue : K
  Ar : Fin nr → K
  Arr : Fin nr → K
  r : Fin nr → K
  Rx : Matrix (Fin nr) (Fin ndx) K
  Ru : Matrix (Fin nr) (Fin nu) K
  ArrRx : Matrix (Fin nr) (Fin ndx) K
  ArrRu : Matrix (Fin nr) (Fin nu) K

/-- `createData`: everything zero (residual-base.hpp L258-273, cost-base.hpp and activation-base.hpp data
constructors). -/
def create : Data K ndx nu nr :=
  { cost := 0, Lx := 0, Lu := 0, Lxx := 0, Lxu := 0, Luu := 0, aValue := 0, Ar := 0, Arr := 0, r := 0, Rx := 0,
    Ru := 0, ArrRx := 0, ArrRu := 0 }

/-- `leftCols(nv)` / `head(nv)` / `topRows(nv)` contain index `i`. -/
def inLeft (nv : ℕ) (i : Fin ndx) : Bool := decide (i.val < nv)

/-- `rightCols(nv)` / `tail(nv)` / `bottomRows(nv)` contain index `i`. -/
def inRight (nv : ℕ) (i : Fin ndx) : Bool := decide (ndx - nv ≤ i.val)

/-- The writes of the three branches of `calcCostDiff`, L79-114, to the entries selected by `s` (all of them, the
left block, the right block). -/
def writeX (s : Fin ndx → Bool) (isRu : Bool) (d : Data K ndx nu nr) : Data K ndx nu nr :=
  let ArrRx : Matrix (Fin nr) (Fin ndx) K := fun k i => if s i then d.Arr k * d.Rx k i else d.ArrRx k i
  { d with
    Lx := fun i => if s i then ∑ k, d.Rx k i * d.Ar k else d.Lx i
    ArrRx := ArrRx
    Lxx := fun i j => if s i && s j then ∑ k, d.Rx k i * ArrRx k j else d.Lxx i j
    Lxu := fun i j => if isRu && s i then ∑ k, d.Rx k i * d.ArrRu k j else d.Lxu i j }

/-- `calcCostDiff`, residual-base.hxx L65-115. -/
def costDiff (R : Residual X K ndx nu nr) (updateU : Bool) (d : Data K ndx nu nr) : Data K ndx nu nr :=
  let isRu := R.u && decide (nu ≠ 0) && updateU
  let d : Data K ndx nu nr :=
    if isRu then
      let ArrRu : Matrix (Fin nr) (Fin nu) K := fun k j => d.Arr k * d.Ru k j
      { d with Lu := fun j => ∑ k, d.Ru k j * d.Ar k, ArrRu := ArrRu,
               Luu := fun i j => ∑ k, d.Ru k i * ArrRu k j }
    else d
  if R.q && R.v then writeX (fun _ => true) isRu d
  else if R.q then writeX (inLeft R.nv) isRu d
  else if R.v then writeX (inRight R.nv) isRu d
  else d

/-- `CostModelResidual::calc(data, x, u)`, residual.hxx L24-34. -/
def calcXU (R : Residual X K ndx nu nr) (A : Activation K nr) (d : Data K ndx nu nr) (x : X) (u : Fin nu → K) :
    Data K ndx nu nr :=
  let r := R.res x u
  { d with r := r, aValue := A.val r, cost := A.val r }

/-- `CostModelResidual::calc(data, x)`, residual.hxx L36-54. -/
def calcX (R : Residual X K ndx nu nr) (A : Activation K nr) (d : Data K ndx nu nr) (x : X) :
    Data K ndx nu nr :=
  if !R.q && !R.v then { d with aValue := 0, cost := 0 }
  else
    let r := R.resT x
    { d with r := r, aValue := A.val r, cost := A.val r }

/-- `CostModelResidual::calcDiff(data, x, u)`, residual.hxx L56-68, with `cd` the residual's `calcCostDiff`. -/
def diffXU (R : Residual X K ndx nu nr) (A : Activation K nr) (cd : Bool → Data K ndx nu nr → Data K ndx nu nr)
    (d : Data K ndx nu nr) (x : X) (u : Fin nu → K) : Data K ndx nu nr :=
  cd true { d with Rx := (R.diff x u).1, Ru := (R.diff x u).2, Ar := A.grad d.r, Arr := A.hess d.r }

/-- `CostModelResidual::calcDiff(data, x)`, residual.hxx L70-89. -/
def diffX (R : Residual X K ndx nu nr) (A : Activation K nr) (cd : Bool → Data K ndx nu nr → Data K ndx nu nr)
    (d : Data K ndx nu nr) (x : X) : Data K ndx nu nr :=
  if !R.q && !R.v then { d with Lx := 0, Lxx := 0 }
  else cd false { d with Rx := (R.diffT x).1, Ru := (R.diffT x).2, Ar := A.grad d.r, Arr := A.hess d.r }

/-- `ResidualModelControl::calcCostDiff`, control.hxx L90-97 (`nr = nu`). -/
def costDiffControl (_ : Bool) (d : Data K ndx nu nu) : Data K ndx nu nu :=
  { d with Lu := d.Ar, Luu := Matrix.diagonal d.Arr }

/-- `ResidualModelState::calcCostDiff` for a state that is not multibody, state.hxx L127-130 (`nr = ndx`). -/
def costDiffStateVector (_ : Bool) (d : Data K ndx nu ndx) : Data K ndx nu ndx :=
  { d with Lx := d.Ar, Lxx := fun i j => if i = j then d.Arr i else d.Lxx i j }

/-- The segment of joint `(idx, n)` contains index `i`. -/
def inSeg (b : ℕ × ℕ) (i : Fin ndx) : Bool := decide (b.1 ≤ i.val) && decide (i.val < b.1 + b.2)

/-- Body of the loop over the joints, state.hxx L106-124; `b` is `(idx_vs[i], nvs[i])`. -/
def jointStep (d : Data K ndx nu ndx) (b : ℕ × ℕ) : Data K ndx nu ndx :=
  { d with
    Lx := fun i => if inSeg b i then ∑ k, (if inSeg b k then d.Rx k i * d.Ar k else 0) else d.Lx i
    Lxx := fun i j => if inSeg b i && inSeg b j then
        ∑ k, (if inSeg b k then d.Rx k i * d.Arr k * d.Rx k j else 0) else d.Lxx i j }

/-- `ResidualModelState::calcCostDiff` for a multibody state, state.hxx L103-126; `joints` lists the joints. -/
def costDiffMultibody (nv : ℕ) (joints : List (ℕ × ℕ)) (_ : Bool) (d : Data K ndx nu ndx) : Data K ndx nu ndx :=
  let d := joints.foldl jointStep d
  { d with
    Lx := fun i => if inRight nv i then d.Ar i else d.Lx i
    Lxx := fun i j => if i = j ∧ inRight nv i = true then d.Arr i else d.Lxx i j }

/-- The calls of a user or solver on one data object. -/
inductive Op (X K : Type) (nu : ℕ)
  | calcXU (x : X) (u : Fin nu → K)
  | calcX (x : X)
  | diffXU (x : X) (u : Fin nu → K)
  | diffX (x : X)

/-- One call. -/
def step (R : Residual X K ndx nu nr) (A : Activation K nr) (cd : Bool → Data K ndx nu nr → Data K ndx nu nr)
    (d : Data K ndx nu nr) : Op X K nu → Data K ndx nu nr
  | .calcXU x u => calcXU R A d x u
  | .calcX x => calcX R A d x
  | .diffXU x u => diffXU R A cd d x u
  | .diffX x => diffX R A cd d x

/-- A fresh data after a list of calls. -/
def run (R : Residual X K ndx nu nr) (A : Activation K nr) (cd : Bool → Data K ndx nu nr → Data K ndx nu nr)
    (ops : List (Op X K nu)) : Data K ndx nu nr :=
  ops.foldl (step R A cd) create

end Verif.ResidualCost
