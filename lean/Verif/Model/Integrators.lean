import Verif.Model.Controls
import Mathlib.Data.Matrix.Mul
import Mathlib.Data.Matrix.Block
import Mathlib.Data.Matrix.ColumnRowPartitioned

/-!
# Integrated action models (`IntegratedActionModelEuler`, `IntegratedActionModelRK`)

The model covers vector-space states with `nx = ndx = 2 nv`: a state is a vector indexed by
`Fin n ⊕ Fin n` (first the configuration, then the velocity), matrices over these indices have the
blocks the code accesses with `topRows(nv)`, `bottomRightCorner(nv, nv)`, ….  On such a state
`integrate` is the sum, `JintegrateTransport` does nothing and `Jintegrate(…, first, addto)` adds
the identity (`Verif.StateVector`, C44).

The differential model is an arbitrary record of functions of the state and of the control: its
`calc` and `calcDiff` are taken to be functions of their arguments.  The control parametrisation
enters by its matrix `J t` with `w = J t u` (all the parametrisations of the library are linear in
the parameters, C41) and its Jacobian products are the matrix products (C43).
-/

namespace Verif.Integrators

open Matrix
open Verif.Controls (RKType)

variable {K : Type*} {n nw nu : ℕ}

/-- Index set of the state and of its tangent. -/
abbrev Ix (n : ℕ) := Fin n ⊕ Fin n

/-- States and controls. -/
abbrev X (K : Type*) (n : ℕ) := Ix n → K

/-- `x.tail(nv)`. -/
def tail (x : X K n) : Fin n → K := fun i => x (Sum.inr i)

/-- `head(nv) = a, tail(nv) = b`. -/
def join (a b : Fin n → K) : X K n := Sum.elim a b

/-- The differential action model (`DifferentialActionModelAbstractTpl`), an external interface:
what `calc` writes (`xout`, `cost`; `costT` in the call without control) and what `calcDiff`
writes. -/
structure DiffModel (K : Type*) (n nw : ℕ) where
  xout : X K n → (Fin nw → K) → (Fin n → K)
  cost : X K n → (Fin nw → K) → K
  costT : X K n → K
  Fx : X K n → (Fin nw → K) → Matrix (Fin n) (Ix n) K
  Fu : X K n → (Fin nw → K) → Matrix (Fin n) (Fin nw) K
  Lx : X K n → (Fin nw → K) → (Ix n → K)
  Lu : X K n → (Fin nw → K) → (Fin nw → K)
  Lxx : X K n → (Fin nw → K) → Matrix (Ix n) (Ix n) K
  Lxu : X K n → (Fin nw → K) → Matrix (Ix n) (Fin nw) K
  Luu : X K n → (Fin nw → K) → Matrix (Fin nw) (Fin nw) K
  LxT : X K n → (Ix n → K)
  LxxT : X K n → Matrix (Ix n) (Ix n) K

/-- The control parametrisation: `calc(data, t, u)` writes `w = J t u`. -/
abbrev Ctl (K : Type*) (nw nu : ℕ) := K → Matrix (Fin nw) (Fin nu) K

/-! ## Time step -/

/-- `time_step_` and `time_step2_`. -/
structure Step (K : Type*) where
  dt : K
  dt2 : K

/-- Constructor and `init()` (core/integ-action-base.hxx L17-63): a negative step is replaced by
`1e-3`.  The conversion of the control bounds is in `Verif.Controls.convertBounds`. -/
def Step.init [Field K] [LinearOrder K] (dt : K) : Step K :=
  if dt < 0 then ⟨1 / 1000, 1 / 1000 * (1 / 1000)⟩ else ⟨dt, dt * dt⟩

/-- `set_dt` (core/integ-action-base.hxx L125-131). -/
def Step.set [Field K] [LinearOrder K] (s : Step K) (dt : K) : Dense.Out × Step K :=
  if dt < 0 then (.throw, s) else (.ok, ⟨dt, dt * dt⟩)

/-! ## Euler -/

section Euler

variable [Field K]

/-- The members of `ActionDataAbstractTpl` (core/action-base.hpp L360-436) and of the Euler data
that the functions write. -/
structure Data (K : Type*) (n nu : ℕ) where
  dx : X K n
  xnext : X K n
  cost : K
  Fx : Matrix (Ix n) (Ix n) K
  Fu : Matrix (Ix n) (Fin nu) K
  Lx : Ix n → K
  Lu : Fin nu → K
  Lxx : Matrix (Ix n) (Ix n) K
  Lxu : Matrix (Ix n) (Fin nu) K
  Luu : Matrix (Fin nu) (Fin nu) K

/-- `createData`: all the buffers are zero (core/action-base.hpp L370-407, euler.hpp L209-225). -/
def Data.init : Data K n nu :=
  ⟨0, 0, 0, 0, 0, 0, 0, 0, 0, 0⟩

/-- `IntegratedActionModelEulerTpl::calc(data, x, u)` (core/integrator/euler.hxx L27-57).  Sizes
are right by typing; `g`, `h`, `r` are copies of those of the differential data. -/
def eulerCalc (D : DiffModel K n nw) (C : Ctl K nw nu) (s : Step K) (d : Data K n nu) (x : X K n)
    (u : Fin nu → K) : Data K n nu :=
  let w := C 0 *ᵥ u
  let a := D.xout x w
  let v := tail x
  let dx := join (fun i => v i * s.dt + a i * s.dt2) (fun i => a i * s.dt)
  { d with dx := dx, xnext := fun i => x i + dx i, cost := s.dt * D.cost x w }

/-- `IntegratedActionModelEulerTpl::calc(data, x)` (core/integrator/euler.hxx L60-79). -/
def eulerCalcT (D : DiffModel K n nw) (d : Data K n nu) (x : X K n) : Data K n nu :=
  { d with dx := 0, xnext := x, cost := D.costT x }

/-- The rows of `Fx` before the identity is added: `topRows = da_dx dt2`, `bottomRows = da_dx dt`,
`topRightCorner.diagonal += dt` (core/integrator/euler.hxx L104-106). -/
def eulerFx (s : Step K) (da : Matrix (Fin n) (Ix n) K) : Matrix (Ix n) (Ix n) K := fun i j =>
  match i with
  | Sum.inl r => da r j * s.dt2 + (if j = Sum.inr r then s.dt else 0)
  | Sum.inr r => da r j * s.dt

/-- The rows of `Fu` (core/integrator/euler.hxx L107-108). -/
def eulerFu (s : Step K) (da : Matrix (Fin n) (Fin nu) K) : Matrix (Ix n) (Fin nu) K := fun i j =>
  match i with
  | Sum.inl r => s.dt2 * da r j
  | Sum.inr r => s.dt * da r j

/-- `IntegratedActionModelEulerTpl::calcDiff(data, x, u)` (core/integrator/euler.hxx L82-128).  The
derivatives of the constraints are not modelled. -/
def eulerCalcDiff (D : DiffModel K n nw) (C : Ctl K nw nu) (s : Step K) (d : Data K n nu)
    (x : X K n) (u : Fin nu → K) : Data K n nu :=
  let w := C 0 *ᵥ u
  let J := C 0
  let da_du := D.Fu x w * J
  { d with
    Fx := eulerFx s (D.Fx x w) + 1
    Fu := eulerFu s da_du
    Lx := s.dt • D.Lx x w
    Lu := s.dt • (Jᵀ *ᵥ D.Lu x w)
    Lxx := s.dt • D.Lxx x w
    Lxu := s.dt • (D.Lxu x w * J)
    Luu := s.dt • (Jᵀ * (D.Luu x w * J)) }

/-- `IntegratedActionModelEulerTpl::calcDiff(data, x)` (core/integrator/euler.hxx L131-147).
`Jintegrate(x, dx, Fx, Fx)` (components `both`, mode `setto`) writes ones on the diagonal of `Fx`
and leaves the other entries (core/states/euclidean.hxx L107-166). -/
def eulerCalcDiffT (D : DiffModel K n nw) (d : Data K n nu) (x : X K n) : Data K n nu :=
  { d with
    Fx := fun i j => if i = j then 1 else d.Fx i j
    Lx := D.LxT x
    Lxx := D.LxxT x }

/-- Calls of the user on a model-data pair. -/
inductive Op (K : Type*) (n nu : ℕ)
  | eval (x : X K n) (u : Fin nu → K)
  | evalT (x : X K n)
  | diff (x : X K n) (u : Fin nu → K)
  | diffT (x : X K n)

/-- One call on the Euler model. -/
def eulerStep (D : DiffModel K n nw) (C : Ctl K nw nu) (s : Step K) (d : Data K n nu) :
    Op K n nu → Data K n nu
  | .eval x u => eulerCalc D C s d x u
  | .evalT x => eulerCalcT D d x
  | .diff x u => eulerCalcDiff D C s d x u
  | .diffT x => eulerCalcDiffT D d x

end Euler

/-! ## Runge-Kutta -/

section RK

variable [Field K]

/-- `ni_` (core/integrator/rk.hxx L409-433). -/
def rkN : RKType → ℕ
  | .two => 2
  | .three => 3
  | .four => 4

/-- `rk_c_` (core/integrator/rk.hxx L409-433). -/
def rkC : RKType → ℕ → K
  | .two, i => if i = 1 then 1 / 2 else 0
  | .three, i => if i = 1 then 1 / 3 else if i = 2 then 2 / 3 else 0
  | .four, i => if i = 1 then 1 / 2 else if i = 2 then 1 / 2 else if i = 3 then 1 else 0

/-- The buffers of one stage: `y[i]`, `ws[i]`, `ki[i]`, `integral[i]`. -/
structure Stage (K : Type*) (n nw : ℕ) where
  y : X K n
  w : Fin nw → K
  k : X K n
  l : K

/-- The loop of `IntegratedActionModelRKTpl::calc(data, x, u)` (core/integrator/rk.hxx L46-70). -/
def rkStage (D : DiffModel K n nw) (C : Ctl K nw nu) (ty : RKType) (dt : K) (x : X K n)
    (u : Fin nu → K) : ℕ → Stage K n nw
  | 0 =>
    let w := C (rkC ty 0) *ᵥ u
    ⟨x, w, join (tail x) (D.xout x w), D.cost x w⟩
  | i + 1 =>
    let kp := (rkStage D C ty dt x u i).k
    let y : X K n := fun j => x j + dt * rkC ty (i + 1) * kp j
    let w := C (rkC ty (i + 1)) *ᵥ u
    ⟨y, w, join (tail y) (D.xout y w), D.cost y w⟩

/-- The weighted sum of the stage values (core/integrator/rk.hxx L72-87): `k1 dt`,
`(k0 + 3 k2) dt / 4`, `(k0 + 2 k1 + 2 k2 + k3) dt / 6`. -/
def rkSum (ty : RKType) (dt : K) (k : ℕ → K) : K :=
  match ty with
  | .two => k 1 * dt
  | .three => (k 0 + 3 * k 2) * dt / 4
  | .four => (k 0 + 2 * k 1 + 2 * k 2 + k 3) * dt / 6

/-- The next state of `IntegratedActionModelRKTpl::calc(data, x, u)` (core/integrator/rk.hxx
L30-93). -/
def rkNext (D : DiffModel K n nw) (C : Ctl K nw nu) (ty : RKType) (dt : K) (x : X K n)
    (u : Fin nu → K) : X K n :=
  fun j => x j + rkSum ty dt (fun i => (rkStage D C ty dt x u i).k j)

/-- The cost of `IntegratedActionModelRKTpl::calc(data, x, u)` (core/integrator/rk.hxx L30-93). -/
def rkCost (D : DiffModel K n nw) (C : Ctl K nw nu) (ty : RKType) (dt : K) (x : X K n)
    (u : Fin nu → K) : K :=
  rkSum ty dt (fun i => (rkStage D C ty dt x u i).l)

/-- The derivative buffers of one stage: `dyi_dx[i]`, `dyi_du[i]`, `dki_dx[i]`, `dki_du[i]`,
`dli_dx[i]`, `dli_du[i]`. -/
structure DStage (K : Type*) (n nu : ℕ) where
  yx : Matrix (Ix n) (Ix n) K
  yu : Matrix (Ix n) (Fin nu) K
  kx : Matrix (Ix n) (Ix n) K
  ku : Matrix (Ix n) (Fin nu) K
  lx : Ix n → K
  lu : Fin nu → K

/-- The loop of `IntegratedActionModelRKTpl::calcDiff(data, x, u)` (core/integrator/rk.hxx
L146-253) after `calc(data, x, u)`: the stage states and controls are those stored by it.
`dki_dx[0]` has the constant top right block `I`, `dyi_dx[0]` is the constant identity (rk.hpp
L289-291).  In the first iteration of the loop the product `dki_dqi * dqi_dv` is replaced by
`dt/2 * dki_dqi` (L209-213). The second derivatives are not modelled. -/
def rkDStage (D : DiffModel K n nw) (C : Ctl K nw nu) (ty : RKType) (dt : K) (x : X K n)
    (u : Fin nu → K) : ℕ → DStage K n nu
  | 0 =>
    let s := rkStage D C ty dt x u 0
    let Fx := D.Fx s.y s.w
    let J := C (rkC ty 0)
    { yx := 1
      yu := 0
      kx := fromBlocks 0 1 (Fx.submatrix id Sum.inl) (Fx.submatrix id Sum.inr)
      ku := fromRows 0 (D.Fu s.y s.w * J)
      lx := D.Lx s.y s.w
      lu := Jᵀ *ᵥ D.Lu s.y s.w }
  | i + 1 =>
    let p := rkDStage D C ty dt x u i
    let s := rkStage D C ty dt x u (i + 1)
    let J := C (rkC ty (i + 1))
    let yx := (rkC ty (i + 1) * dt) • p.kx + 1
    let yu := (rkC ty (i + 1) * dt) • p.ku
    let Fq := (D.Fx s.y s.w).submatrix id Sum.inl
    let Fv := (D.Fx s.y s.w).submatrix id Sum.inr
    let dkv_dq := Fq * yx.toBlocks₁₁ + Fv * yx.toBlocks₂₁
    let dkv_dv := (if i + 1 = 1 then (dt / 2) • Fq else Fq * yx.toBlocks₁₂) + Fv * yx.toBlocks₂₂
    { yx := yx
      yu := yu
      kx := fromBlocks yx.toBlocks₂₁ yx.toBlocks₂₂ dkv_dq dkv_dv
      ku := fromRows yu.toRows₂ (Fq * yu.toRows₁ + Fv * yu.toRows₂ + D.Fu s.y s.w * J)
      lx := D.Lx s.y s.w ᵥ* yx
      lu := Jᵀ *ᵥ D.Lu s.y s.w + D.Lx s.y s.w ᵥ* yu }

/-- The weighted sum of the derivative buffers (core/integrator/rk.hxx L255-300): `dt k1`,
`dt/4 (k0 + 3 k2)`, `dt/6 (k0 + 2 k1 + 2 k2 + k3)`. -/
def rkDSum (ty : RKType) (dt : K) (k : ℕ → K) : K :=
  match ty with
  | .two => dt * k 1
  | .three => dt / 4 * (k 0 + 3 * k 2)
  | .four => dt / 6 * (k 0 + 2 * k 1 + 2 * k 2 + k 3)

/-- `Fx` after `calcDiff(data, x, u)` (core/integrator/rk.hxx L255-310). -/
def rkFx (D : DiffModel K n nw) (C : Ctl K nw nu) (ty : RKType) (dt : K) (x : X K n)
    (u : Fin nu → K) : Matrix (Ix n) (Ix n) K :=
  Matrix.of (fun a b => rkDSum ty dt (fun i => (rkDStage D C ty dt x u i).kx a b)) + 1

/-- `Fu` after `calcDiff(data, x, u)` (core/integrator/rk.hxx L255-310). -/
def rkFu (D : DiffModel K n nw) (C : Ctl K nw nu) (ty : RKType) (dt : K) (x : X K n)
    (u : Fin nu → K) : Matrix (Ix n) (Fin nu) K :=
  fun a b => rkDSum ty dt (fun i => (rkDStage D C ty dt x u i).ku a b)

/-- `Lx` after `calcDiff(data, x, u)` (core/integrator/rk.hxx L255-300). -/
def rkLx (D : DiffModel K n nw) (C : Ctl K nw nu) (ty : RKType) (dt : K) (x : X K n)
    (u : Fin nu → K) : Ix n → K :=
  fun b => rkDSum ty dt (fun i => (rkDStage D C ty dt x u i).lx b)

/-- `Lu` after `calcDiff(data, x, u)` (core/integrator/rk.hxx L255-300). -/
def rkLu (D : DiffModel K n nw) (C : Ctl K nw nu) (ty : RKType) (dt : K) (x : X K n)
    (u : Fin nu → K) : Fin nu → K :=
  fun b => rkDSum ty dt (fun i => (rkDStage D C ty dt x u i).lu b)

end RK

end Verif.Integrators
