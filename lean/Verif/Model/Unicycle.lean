import Mathlib.Analysis.SpecialFunctions.Trigonometric.Basic
import Mathlib.Data.Matrix.Basic
import Mathlib.Data.Fin.VecNotation

/-!
# The unicycle action model

File modelled: `/repo/include/crocoddyl/core/actions/unicycle.hxx`, `unicycle.hpp`. Real arithmetic; the size
checks are those of `Fin 3` and `Fin 2`.
-/

namespace Verif.Unicycle

noncomputable section

/-- The members `dt_` and `cost_weights_`. -/
structure Model where
  dt : ℝ
  w : Fin 2 → ℝ

/-- The constructor, unicycle.hxx L11-17. -/
def Model.init : Model := ⟨1 / 10, ![10, 1]⟩

/-- `ActionDataUnicycle`; `Lxu`, `g`, `h`, … are never written by the model. -/
structure Data where
  xnext : Fin 3 → ℝ
  r : Fin 5 → ℝ
  cost : ℝ
  Fx : Matrix (Fin 3) (Fin 3) ℝ
  Fu : Matrix (Fin 3) (Fin 2) ℝ
  Lx : Fin 3 → ℝ
  Lu : Fin 2 → ℝ
  Lxx : Matrix (Fin 3) (Fin 3) ℝ
  Lxu : Matrix (Fin 3) (Fin 2) ℝ
  Luu : Matrix (Fin 2) (Fin 2) ℝ

/-- `M.diagonal().setConstant(c)`. -/
def setDiag {n : ℕ} (M : Matrix (Fin n) (Fin n) ℝ) (c : ℝ) : Matrix (Fin n) (Fin n) ℝ :=
  fun i j => if i = j then c else M i j

/-- `M(i, j) = c`. -/
def setEntry {n m : ℕ} (M : Matrix (Fin n) (Fin m) ℝ) (i : Fin n) (j : Fin m) (c : ℝ) :
    Matrix (Fin n) (Fin m) ℝ :=
  fun a b => if a = i ∧ b = j then c else M a b

/-- `createData()`, unicycle.hpp L103-105 and action-base.hpp L366-409: zero, with ones on the diagonal of
`Fx`. -/
def createData : Data where
  xnext := 0
  r := 0
  cost := 0
  Fx := setDiag 0 1
  Fu := 0
  Lx := 0
  Lu := 0
  Lxx := 0
  Lxu := 0
  Luu := 0

/-- `calc(data, x, u)`, L19-41. -/
def calcXU (m : Model) (d : Data) (x : Fin 3 → ℝ) (u : Fin 2 → ℝ) : Data :=
  let c := Real.cos (x 2)
  let s := Real.sin (x 2)
  let r := ![m.w 0 * x 0, m.w 0 * x 1, m.w 0 * x 2, m.w 1 * u 0, m.w 1 * u 1]
  { d with
    xnext := ![x 0 + c * u 0 * m.dt, x 1 + s * u 0 * m.dt, x 2 + u 1 * m.dt]
    r := r
    cost := 1 / 2 * ∑ i, r i * r i }

/-- `calc(data, x)`, L43-58. -/
def calcX (m : Model) (d : Data) (x : Fin 3 → ℝ) : Data :=
  let r := ![m.w 0 * x 0, m.w 0 * x 1, m.w 0 * x 2, 0, 0]
  { d with
    xnext := x
    r := r
    cost := 1 / 2 * (r 0 * r 0 + r 1 * r 1 + r 2 * r 2) }

/-- `calcDiff(data, x, u)`, L60-89. -/
def diffXU (m : Model) (d : Data) (x : Fin 3 → ℝ) (u : Fin 2 → ℝ) : Data :=
  let c := Real.cos (x 2)
  let s := Real.sin (x 2)
  let w_x := m.w 0 * m.w 0
  let w_u := m.w 1 * m.w 1
  { d with
    Lx := fun i => x i * w_x
    Lu := fun i => u i * w_u
    Lxx := setDiag d.Lxx w_x
    Luu := setDiag d.Luu w_u
    Fx := setEntry (setEntry d.Fx 0 2 (-s * u 0 * m.dt)) 1 2 (c * u 0 * m.dt)
    Fu := setEntry (setEntry (setEntry d.Fu 0 0 (c * m.dt)) 1 0 (s * m.dt)) 2 1 m.dt }

/-- `calcDiff(data, x)`, L91-105. -/
def diffX (m : Model) (d : Data) (x : Fin 3 → ℝ) : Data :=
  let w_x := m.w 0 * m.w 0
  { d with Lx := fun i => x i * w_x, Lxx := setDiag d.Lxx w_x }

/-- `set_dt`, L155-159: rejects `dt ≤ 0` without a change. -/
def setDt (m : Model) (dt : ℝ) : Model := if dt ≤ 0 then m else { m with dt := dt }

/-- `cast()`, L113-119: a default-constructed model, whatever the parameters of `*this`. -/
def castM (_ : Model) : Model := Model.init

/-- A model and its data objects. -/
structure World where
  model : Model
  datas : List Data

/-- The calls of a user or solver. -/
inductive Op
  | setDt (dt : ℝ)
  | setWeights (w : Fin 2 → ℝ)
  | create
  | calcXU (i : ℕ) (x : Fin 3 → ℝ) (u : Fin 2 → ℝ)
  | calcX (i : ℕ) (x : Fin 3 → ℝ)
  | diffXU (i : ℕ) (x : Fin 3 → ℝ) (u : Fin 2 → ℝ)
  | diffX (i : ℕ) (x : Fin 3 → ℝ)

/-- Replace the data `i`, if it exists. -/
def onData (s : World) (i : ℕ) (f : Data → Data) : World :=
  match s.datas[i]? with
  | some d => { s with datas := s.datas.set i (f d) }
  | none => s

/-- One call. -/
def step (s : World) : Op → World
  | .setDt dt => { s with model := setDt s.model dt }
  | .setWeights w => { s with model := { s.model with w := w } }
  | .create => { s with datas := s.datas ++ [createData] }
  | .calcXU i x u => onData s i fun d => calcXU s.model d x u
  | .calcX i x => onData s i fun d => calcX s.model d x
  | .diffXU i x u => onData s i fun d => diffXU s.model d x u
  | .diffX i x => onData s i fun d => diffX s.model d x

/-- A history of calls on a new model. -/
def run (ops : List Op) : World := ops.foldl step ⟨Model.init, []⟩

end

end Verif.Unicycle
