import Mathlib.Analysis.SpecialFunctions.Exp
import Mathlib.Analysis.SpecialFunctions.Log.Basic
import Mathlib.Analysis.SpecialFunctions.Sqrt

/-!
# Activation models

Files modelled (under `/repo/include/crocoddyl/core`): `activation-base.hpp` L27-106 and, in `activations/`,
`quadratic.hpp` L32-71, `weighted-quadratic.hpp` L32-98, `quadratic-barrier.hpp` L128-175,
`weighted-quadratic-barrier.hpp` L36-86, `smooth-1norm.hpp` L57-117 (also `smooth-abs.hpp`, which only derives
from it), `smooth-2norm.hpp` L54-104, `2norm-barrier.hpp` L62-135, `quadratic-flat-exp.hpp` L57-115,
`quadratic-flat-log.hpp` L57-113.

Scalars are exact reals. Residuals have the right size by typing (the code throws otherwise, before
writing anything). A division by zero has no meaning here; the theorems exclude the points where the code
performs one.
-/

namespace Verif.Activations

noncomputable section
variable {n : ℕ}

/-- The activation classes with their parameters. -/
inductive Act (n : ℕ) where
  | quad
  | weighted (w : Fin n → ℝ)
  | barrier (lb ub : Fin n → ℝ)
  | weightedBarrier (lb ub w : Fin n → ℝ)
  | smooth1 (eps : ℝ)
  | smooth2 (eps : ℝ)
  | normBarrier (alpha : ℝ) (trueHessian : Bool)
  | flatExp (alpha : ℝ)
  | flatLog (alpha : ℝ)

/-- An activation model; `newWeights` is `new_weights_` of `ActivationModelWeightedQuadTpl`
(weighted-quadratic.hpp L113), unused by the others. -/
structure Model (n : ℕ) where
  act : Act n
  newWeights : Bool

/-- A model just constructed (`new_weights_(false)`, weighted-quadratic.hpp L32-33). -/
def Model.ofAct (a : Act n) : Model n := ⟨a, false⟩

/-- `ActivationDataAbstractTpl` (activation-base.hpp L75-95; `Arr` is a diagonal matrix) and the scratch
members of the derived classes: `v1` is `Wr` (weighted-quadratic.hpp L133-141), `rlb_min_`
(quadratic-barrier.hpp L200-225) or `a` (smooth-1norm.hpp L152-158); `v2` is `rub_max_`; `s0` is `d`
(2norm-barrier.hpp L178-187) or `a0`, `s1` is `a1` (quadratic-flat-exp.hpp L161-170,
quadratic-flat-log.hpp L159-168). -/
structure Data (n : ℕ) where
  a_value : ℝ
  Ar : Fin n → ℝ
  Arr : Fin n → ℝ
  v1 : Fin n → ℝ
  v2 : Fin n → ℝ
  s0 : ℝ
  s1 : ℝ

/-- `createData`: everything zero (activation-base.hpp L85-92 and the constructors of the derived datas)
except the constant Hessians of the quadratic (quadratic.hpp L65-71) and weighted quadratic
(weighted-quadratic.hpp L69-80) models. The scratch scalars that the code leaves uninitialised are zero
here; they are written by `calc` before being read. -/
def createData (m : Model n) : Data n where
  a_value := 0
  Ar := 0
  Arr := match m.act with
    | .quad => fun _ => 1
    | .weighted w => w
    | _ => 0
  v1 := 0
  v2 := 0
  s0 := 0
  s1 := 0

/-- `r.squaredNorm()` (and `r.dot(r)`). -/
def sq (r : Fin n → ℝ) : ℝ := ∑ i, r i * r i

/-- `calc(data, r)`: quadratic.hpp L35-43, weighted-quadratic.hpp L36-48, quadratic-barrier.hpp L134-148,
weighted-quadratic-barrier.hpp L42-57, smooth-1norm.hpp L76-87, smooth-2norm.hpp L68-77,
2norm-barrier.hpp L81-97, quadratic-flat-exp.hpp L72-83, quadratic-flat-log.hpp L71-81. -/
def calcA (m : Model n) (d : Data n) (r : Fin n → ℝ) : Data n :=
  match m.act with
  | .quad => { d with a_value := 1 / 2 * sq r }
  | .weighted w =>
    let Wr := fun i => w i * r i
    { d with v1 := Wr, a_value := 1 / 2 * ∑ i, r i * Wr i }
  | .barrier lb ub =>
    let lo := fun i => min (r i - lb i) 0
    let hi := fun i => max (r i - ub i) 0
    { d with v1 := lo, v2 := hi, a_value := 1 / 2 * sq lo + 1 / 2 * sq hi }
  | .weightedBarrier lb ub w =>
    let lo := fun i => min (r i - lb i) 0 * w i
    let hi := fun i => max (r i - ub i) 0 * w i
    { d with v1 := lo, v2 := hi, a_value := 1 / 2 * sq lo + 1 / 2 * sq hi }
  | .smooth1 eps =>
    let a := fun i => √(r i ^ 2 + eps)
    { d with v1 := a, a_value := ∑ i, a i }
  | .smooth2 eps => { d with a_value := √(sq r + eps) }
  | .normBarrier alpha _ =>
    let dn := √(sq r)
    { d with s0 := dn, a_value := if dn < alpha then 1 / 2 * (dn - alpha) * (dn - alpha) else 0 }
  | .flatExp alpha =>
    let a0 := Real.exp (-sq r / alpha)
    { d with s0 := a0, a_value := 1 - a0 }
  | .flatLog alpha =>
    let a0 := sq r / alpha
    { d with s0 := a0, a_value := Real.log (1 + a0) }

/-- The diagonal of the barriers' Hessian: `if_then_else(LE, r - lb, 0, 1, if_then_else(GE, r - ub, 0, 1, 0))`
(quadratic-barrier.hpp L161-166, weighted-quadratic-barrier.hpp L69-74). -/
def outside (l u x : ℝ) : ℝ := if x - l ≤ 0 then 1 else if x - u ≥ 0 then 1 else 0

/-- `calcDiff(data, r)`: quadratic.hpp L45-57, weighted-quadratic.hpp L50-67 (the flag is cleared),
quadratic-barrier.hpp L150-168, weighted-quadratic-barrier.hpp L59-79, smooth-1norm.hpp L95-107,
smooth-2norm.hpp L85-95, 2norm-barrier.hpp L105-125, quadratic-flat-exp.hpp L91-104,
quadratic-flat-log.hpp L89-102. The debug-build assertions on `Arr` are not modelled. -/
def calcDiffA (m : Model n) (d : Data n) (r : Fin n → ℝ) : Model n × Data n :=
  match m.act with
  | .quad => (m, { d with Ar := r })
  | .weighted w =>
    if m.newWeights then ({ m with newWeights := false }, { d with Ar := d.v1, Arr := w })
    else (m, { d with Ar := d.v1 })
  | .barrier lb ub =>
    (m, { d with Ar := fun i => d.v1 i + d.v2 i, Arr := fun i => outside (lb i) (ub i) (r i) })
  | .weightedBarrier lb ub w =>
    (m, { d with
      Ar := fun i => (d.v1 i + d.v2 i) * w i
      Arr := fun i => outside (lb i) (ub i) (r i) * w i })
  | .smooth1 _ =>
    (m, { d with Ar := fun i => r i * (d.v1 i)⁻¹, Arr := fun i => (d.v1 i * d.v1 i * d.v1 i)⁻¹ })
  | .smooth2 _ =>
    (m, { d with Ar := fun i => r i / d.a_value, Arr := fun _ => 1 / d.a_value ^ 3 })
  | .normBarrier alpha th =>
    if d.s0 < alpha then
      (m, { d with
        Ar := fun i => (d.s0 - alpha) / d.s0 * r i
        Arr := if th then fun i => alpha * r i ^ 2 / d.s0 ^ 3 + (d.s0 - alpha) / d.s0
          else fun i => r i ^ 2 / d.s0 ^ 2 })
    else (m, { d with Ar := 0, Arr := 0 })
  | .flatExp alpha =>
    let a1 := 2 / alpha * d.s0
    (m, { d with s1 := a1, Ar := fun i => a1 * r i, Arr := fun i => -2 * a1 * r i ^ 2 / alpha + a1 })
  | .flatLog alpha =>
    let a1 := 2 / (alpha + alpha * d.s0)
    (m, { d with s1 := a1, Ar := fun i => a1 * r i, Arr := fun i => -a1 * a1 * r i ^ 2 + a1 })

/-! ### Weights and several data objects -/

/-- A model shared by the data objects created from it, in creation order. -/
structure World (n : ℕ) where
  model : Model n
  datas : List (Data n)

/-- Calls of the user. `setWeights`: weighted-quadratic.hpp L90-98 (sets the flag),
weighted-quadratic-barrier.hpp L98-105; other classes have no weights. -/
inductive Op (n : ℕ) where
  | setWeights (w : Fin n → ℝ)
  | create
  | eval (i : ℕ) (r : Fin n → ℝ)
  | diff (i : ℕ) (r : Fin n → ℝ)

/-- `set_weights`. -/
def Model.setWeights (m : Model n) (w : Fin n → ℝ) : Model n :=
  match m.act with
  | .weighted _ => ⟨.weighted w, true⟩
  | .weightedBarrier lb ub _ => { m with act := .weightedBarrier lb ub w }
  | _ => m

/-- One call; a call on a data that does not exist does nothing. -/
def step (s : World n) : Op n → World n
  | .setWeights w => { s with model := s.model.setWeights w }
  | .create => { s with datas := s.datas ++ [createData s.model] }
  | .eval i r =>
    match s.datas[i]? with
    | some d => { s with datas := s.datas.set i (calcA s.model d r) }
    | none => s
  | .diff i r =>
    match s.datas[i]? with
    | some d =>
      let o := calcDiffA s.model d r
      ⟨o.1, s.datas.set i o.2⟩
    | none => s

/-- A history of calls on a model just constructed. -/
def run (a : Act n) (ops : List (Op n)) : World n := ops.foldl step ⟨Model.ofAct a, []⟩

end

end Verif.Activations
