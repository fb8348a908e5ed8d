import Mathlib.Analysis.SpecialFunctions.Pow.Real
import Mathlib.Data.Matrix.Mul
import Mathlib.LinearAlgebra.CrossProduct

/-!
# Model: actuation models and the smooth-saturation squashing

Vectors carry their dimension in their type, so the size checks of `calc` and `commands` (which throw
before writing anything) have no counterpart here, except where the code itself passes a vector of one
size to a function that wants another (`ActuationSquashingModelTpl::commands`).
`pseudoInverse` (`core/utils/math.hpp:42-82`, an SVD) is a parameter.
-/

namespace Verif.Act

open Matrix

variable {K X : Type*} {nv nu ndx : ℕ}

/-- `ActuationDataAbstractTpl` (`core/actuation-base.hpp:178-212`). -/
structure Data (K : Type*) (nv nu ndx : ℕ) where
  tau : Fin nv → K
  u : Fin nu → K
  dtauDx : Matrix (Fin nv) (Fin ndx) K
  dtauDu : Matrix (Fin nv) (Fin nu) K
  mtau : Matrix (Fin nu) (Fin nv) K
  tauSet : Fin nv → Bool

/-- The data constructor (`core/actuation-base.hpp:187-200`): zeros, and every torque marked as set. -/
def Data.zero [Zero K] : Data K nv nu ndx :=
  { tau := fun _ => 0, u := fun _ => 0, dtauDx := fun _ _ => 0, dtauDu := fun _ _ => 0, mtau := fun _ _ => 0,
    tauSet := fun _ => true }

/-- The virtual functions of an actuation model (`core/actuation-base.hpp:76-146`; `eval` is `calc`), with the arguments
of the right size. `torque` is `torqueTransform`. -/
structure Model (K X : Type*) (nv nu ndx : ℕ) where
  create : Data K nv nu ndx
  eval : Data K nv nu ndx → X → (Fin nu → K) → Data K nv nu ndx
  calcDiff : Data K nv nu ndx → X → (Fin nu → K) → Data K nv nu ndx
  commands : Data K nv nu ndx → X → (Fin nv → K) → Data K nv nu ndx
  torque : Data K nv nu ndx → X → (Fin nu → K) → Data K nv nu ndx

/-- One call on a data object. `eval` is `calc`; `calcX` and `diffX` are the overloads without control. -/
inductive Op (K X : Type*) (nv nu : ℕ)
  | eval (x : X) (u : Fin nu → K)
  | calcDiff (x : X) (u : Fin nu → K)
  | calcX (x : X)
  | diffX (x : X)
  | commands (x : X) (tau : Fin nv → K)
  | torque (x : X) (u : Fin nu → K)

/-- A call on a data object; the overloads without control do nothing
(`core/actuation-base.hxx:24-32`). -/
def Model.step (M : Model K X nv nu ndx) (d : Data K nv nu ndx) : Op K X nv nu → Data K nv nu ndx
  | .eval x u => M.eval d x u
  | .calcDiff x u => M.calcDiff d x u
  | .calcX _ => d
  | .diffX _ => d
  | .commands x tau => M.commands d x tau
  | .torque x u => M.torque d x u

/-- A data object after a history of calls. -/
def Model.run (M : Model K X nv nu ndx) (ops : List (Op K X nv nu)) : Data K nv nu ndx :=
  ops.foldl M.step M.create

/-! ### Full actuation -/

/-- `ActuationModelFullTpl` (`multibody/actuations/full.hpp:60-131`): `calc` L60-69 copies `u`,
`calcDiff` L79-92 and `torqueTransform` L106-118 do nothing, `commands` L94-103 copies `tau`,
`createData` L125-131 sets both matrices to the identity. -/
def full [Zero K] [One K] : Model K X nv nv ndx :=
  { create := { Data.zero with
      dtauDu := fun r c => if r.val = c.val then 1 else 0
      mtau := fun r c => if r.val = c.val then 1 else 0 }
    eval := fun d _ u => { d with tau := u }
    calcDiff := fun d _ _ => d
    commands := fun d _ tau => { d with u := tau }
    torque := fun d _ _ => d }

/-! ### Floating base -/

/-- `v.tail(k) = w` for a vector of size `n`. -/
def setTail {n k : ℕ} (v : Fin n → K) (w : Fin k → K) : Fin n → K := fun j =>
  if h : n - k ≤ j.val then w ⟨j.val - (n - k), by omega⟩ else v j

/-- `v.tail(k)` for a vector of size `n` (`k ≤ n`, otherwise Eigen asserts; the model then returns
zeros). -/
def getTail [Zero K] {n : ℕ} (k : ℕ) (v : Fin n → K) : Fin k → K := fun i =>
  if h : n - k + i.val < n then v ⟨n - k + i.val, h⟩ else 0

/-- `ActuationModelFloatingBaseTpl` (`multibody/actuations/floating-base.hpp:55-157`) for a robot with
`nv` degrees of freedom of which the root joint has `nfb`: the control dimension is `nv - nfb`
(constructor L55-63), `calc` L74-83 writes the tail of `tau`, `calcDiff` L92-106 and
`torqueTransform` L118-130 do nothing, `commands` L107-116 reads the tail of its argument, `createData`
L136-161 writes the two off-diagonals and clears the first `nfb` flags. The Pinocchio lookup of the
root joint is the parameter `nfb`. -/
def floating [Zero K] [One K] (nv nfb : ℕ) : Model K X nv (nv - nfb) ndx :=
  { create := { Data.zero with
      dtauDu := fun r c => if r.val = c.val + nfb then 1 else 0
      mtau := fun r c => if c.val = r.val + nfb then 1 else 0
      tauSet := fun i => if i.val < nfb then false else true }
    eval := fun d _ u => { d with tau := setTail d.tau u }
    calcDiff := fun d _ _ => d
    commands := fun d _ tau => { d with u := getTail (nv - nfb) tau }
    torque := fun d _ _ => d }

/-! ### Smooth saturation -/

/-- `SquashingModelSmoothSatTpl` (`core/actuation/squashing/smooth-sat.hpp:97-107`). -/
structure SmoothSat (n : ℕ) where
  uLb : Fin n → ℝ
  uUb : Fin n → ℝ
  sLb : Fin n → ℝ
  sUb : Fin n → ℝ
  smooth : ℝ
  d : Fin n → ℝ
  a : Fin n → ℝ

variable {n : ℕ}

/-- Constructor (`smooth-sat.hpp:30-46`). The bounds are not compared. -/
noncomputable def SmoothSat.make (lb ub : Fin n → ℝ) : SmoothSat n :=
  let d := fun i => (ub i - lb i) * (1 / 10 : ℝ)
  { uLb := lb, uUb := ub, sLb := lb, sUb := ub, smooth := 1 / 10, d := d, a := fun i => d i * d i }

/-- `set_smooth` (`smooth-sat.hpp:82-93`): the flag tells whether it threw. -/
noncomputable def SmoothSat.setSmooth (m : SmoothSat n) (smooth : ℝ) : SmoothSat n × Bool :=
  if smooth < 0 then (m, true)
  else
    let d := fun i => (m.uUb i - m.uLb i) * smooth
    ({ m with smooth := smooth, d := d, a := fun i => d i * d i, sLb := m.uLb, sUb := m.uUb }, false)

/-- `set_s_lb`/`set_s_ub` (`core/actuation/squashing-base.hpp:70-71`): no check. -/
def SmoothSat.setSBounds (m : SmoothSat n) (lb ub : Fin n → ℝ) : SmoothSat n := { m with sLb := lb, sUb := ub }

/-- `cast` to another scalar type (`smooth-sat.hpp:73-79`), with exact conversion of the bounds: a new
model from the bounds alone. -/
noncomputable def SmoothSat.cast (m : SmoothSat n) : SmoothSat n := SmoothSat.make m.uLb m.uUb

/-- `SquashingDataAbstractTpl` (`core/actuation/squashing-base.hpp:84-104`), zeros at creation. -/
structure SqData (n : ℕ) where
  u : Fin n → ℝ
  duDs : Matrix (Fin n) (Fin n) ℝ

def SqData.zero : SqData n := ⟨fun _ => 0, fun _ _ => 0⟩

/-- `calc` (`smooth-sat.hpp:48-57`). -/
noncomputable def SmoothSat.calc (m : SmoothSat n) (dt : SqData n) (s : Fin n → ℝ) : SqData n :=
  { dt with u := fun i => 1 / 2 * (Real.sqrt ((s i - m.uLb i) ^ 2 + m.a i)
      - Real.sqrt ((s i - m.uUb i) ^ 2 + m.a i) + m.uLb i + m.uUb i) }

/-- `calcDiff` (`smooth-sat.hpp:59-71`): writes the diagonal only. -/
noncomputable def SmoothSat.calcDiff (m : SmoothSat n) (dt : SqData n) (s : Fin n → ℝ) : SqData n :=
  { dt with duDs := fun i j => if i = j then 1 / 2 *
      ((m.a i + (s i - m.uLb i) ^ 2) ^ (-(1 / 2 : ℝ)) * (s i - m.uLb i)
        - (m.a i + (s i - m.uUb i) ^ 2) ^ (-(1 / 2 : ℝ)) * (s i - m.uUb i)) else dt.duDs i j }

/-! ### Squashed actuation -/

/-- `ActuationSquashingDataTpl` (`core/actuation/actuation-squashing.hpp:100-128`). -/
structure SqActData (nv nu ndx : ℕ) where
  base : Data ℝ nv nu ndx
  sq : SqData nu
  act : Data ℝ nv nu ndx

/-- `createData` (`actuation-squashing.hpp:76-78, 111-115`). -/
noncomputable def sqCreate (A : Model ℝ X nv nu ndx) : SqActData nv nu ndx :=
  ⟨Data.zero, SqData.zero, A.create⟩

/-- `calc` (`actuation-squashing.hpp:43-52`). -/
noncomputable def sqCalc (A : Model ℝ X nv nu ndx) (m : SmoothSat nu) (d : SqActData nv nu ndx) (x : X)
    (s : Fin nu → ℝ) : SqActData nv nu ndx :=
  let sq := m.calc d.sq s
  let act := A.eval d.act x sq.u
  { base := { d.base with tau := act.tau, tauSet := act.tauSet }, sq := sq, act := act }

/-- `calcDiff` (`actuation-squashing.hpp:54-62`): `dtau_dx` is not copied. -/
noncomputable def sqCalcDiff (A : Model ℝ X nv nu ndx) (m : SmoothSat nu) (d : SqActData nv nu ndx) (x : X)
    (s : Fin nu → ℝ) : SqActData nv nu ndx :=
  let sq := m.calcDiff d.sq s
  let act := A.calcDiff d.act x sq.u
  { base := { d.base with dtauDu := act.dtauDu * sq.duDs }, sq := sq, act := act }

/-- `torqueTransform` of the base class (`core/actuation-base.hxx:34-51`), as the squashed model
inherits it. -/
noncomputable def sqTorque (pinv : Matrix (Fin nv) (Fin nu) ℝ → Matrix (Fin nu) (Fin nv) ℝ)
    (A : Model ℝ X nv nu ndx) (m : SmoothSat nu) (d : SqActData nv nu ndx) (x : X)
    (s : Fin nu → ℝ) : SqActData nv nu ndx :=
  let d := sqCalcDiff A m (sqCalc A m d x s) x s
  { d with base := { d.base with mtau := pinv d.base.dtauDu } }

/-- `commands` (`actuation-squashing.hpp:64-74`): it hands `tau`, of size `nv`, to `torqueTransform`,
whose size check (`core/actuation-base.hxx:42-46`) wants `nu`; `none` is the throw. -/
noncomputable def sqCommands (pinv : Matrix (Fin nv) (Fin nu) ℝ → Matrix (Fin nu) (Fin nv) ℝ)
    (A : Model ℝ X nv nu ndx) (m : SmoothSat nu) (d : SqActData nv nu ndx) (x : X)
    (tau : Fin nv → ℝ) : Option (SqActData nv nu ndx) :=
  if h : nv = nu then
    let d := sqTorque pinv A m d x (fun i => tau (Fin.cast h.symm i))
    some { d with base := { d.base with u := d.base.mtau *ᵥ tau } }
  else none

/-- Calls on a squashed data object (`eval` is `calc`). -/
inductive SqOp (X : Type*) (nv nu : ℕ)
  | eval (x : X) (s : Fin nu → ℝ)
  | calcDiff (x : X) (s : Fin nu → ℝ)
  | commands (x : X) (tau : Fin nv → ℝ)
  | torque (x : X) (s : Fin nu → ℝ)

noncomputable def sqStep (pinv : Matrix (Fin nv) (Fin nu) ℝ → Matrix (Fin nu) (Fin nv) ℝ)
    (A : Model ℝ X nv nu ndx) (m : SmoothSat nu) (d : SqActData nv nu ndx) : SqOp X nv nu → SqActData nv nu ndx
  | .eval x s => sqCalc A m d x s
  | .calcDiff x s => sqCalcDiff A m d x s
  | .commands x tau => (sqCommands pinv A m d x tau).getD d
  | .torque x s => sqTorque pinv A m d x s

/-- A squashed data object after a history of calls. -/
noncomputable def sqRun (pinv : Matrix (Fin nv) (Fin nu) ℝ → Matrix (Fin nu) (Fin nv) ℝ)
    (A : Model ℝ X nv nu ndx) (m : SmoothSat nu) (ops : List (SqOp X nv nu)) : SqActData nv nu ndx :=
  ops.foldl (sqStep pinv A m) (sqCreate A)

/-! ### Thrusters

`ActuationModelFloatingBaseThrustersTpl` for a free-flyer root joint (six degrees of freedom, the first
six rows) and `nj` other joints, so `nv = 6 + nj` and, with `nt` thrusters, `nu = nj + nt`
(`multibody/actuations/floating-base-thrusters.hpp:160-175`; the missing-root-joint throw is not
modelled). -/

variable [Field K]

/-- `ThrusterTpl` (`floating-base-thrusters.hpp:20-118`): pose, torque coefficient and direction
(thrust limits play no role here). -/
structure Thruster (K : Type*) where
  rot : Matrix (Fin 3) (Fin 3) K
  trans : Fin 3 → K
  ctorque : K
  cw : Bool

/-- The model's members (`floating-base-thrusters.hpp:337-344`). -/
structure Thr (K : Type*) (nj nt : ℕ) where
  ts : List (Thruster K)
  W : Matrix (Fin (6 + nj)) (Fin (nj + nt)) K
  mtau : Matrix (Fin (nj + nt)) (Fin (6 + nj)) K
  S : Matrix (Fin (6 + nj)) (Fin (6 + nj)) K
  upd : Bool

variable {nj nt : ℕ}

/-- `W.topRows<3>().col(i) += v`. -/
def addTop (W : Matrix (Fin (6 + nj)) (Fin (nj + nt)) K) (i : ℕ) (v : Fin 3 → K) :
    Matrix (Fin (6 + nj)) (Fin (nj + nt)) K := fun r c =>
  if h : c.val = i ∧ r.val < 3 then W r c + v ⟨r.val, h.2⟩ else W r c

/-- `W.middleRows<3>(3).col(i) += v`. -/
def addMid (W : Matrix (Fin (6 + nj)) (Fin (nj + nt)) K) (i : ℕ) (v : Fin 3 → K) :
    Matrix (Fin (6 + nj)) (Fin (nj + nt)) K := fun r c =>
  if h : c.val = i ∧ 3 ≤ r.val ∧ r.val < 6 then W r c + v ⟨r.val - 3, by omega⟩ else W r c

/-- The body of the loop of `set_thrusters` (`floating-base-thrusters.hpp:306-320`). -/
def addThruster (W : Matrix (Fin (6 + nj)) (Fin (nj + nt)) K) (p : Thruster K) (i : ℕ) :
    Matrix (Fin (6 + nj)) (Fin (nj + nt)) K :=
  let fz := p.rot *ᵥ ![0, 0, 1]
  let W := addTop W i fz
  let W := addMid W i (crossProduct p.trans fz)
  if p.cw then addMid W i (fun k => p.ctorque * fz k) else addMid W i (fun k => - (p.ctorque * fz k))

/-- `set_thrusters` (`floating-base-thrusters.hpp:297-325`): the flag tells whether it threw. -/
def Thr.set (pinv : Matrix (Fin (6 + nj)) (Fin (nj + nt)) K → Matrix (Fin (nj + nt)) (Fin (6 + nj)) K)
    (m : Thr K nj nt) (ts : List (Thruster K)) : Thr K nj nt × Bool :=
  if ts.length ≠ nt then (m, true)
  else
    let W := ts.zipIdx.foldl (fun W p => addThruster W p.1 p.2) m.W
    ({ ts := ts, W := W, mtau := pinv W, S := W * pinv W, upd := true }, false)

/-- Constructor (`floating-base-thrusters.hpp:160-189`), for `nt = thrusters.size()`. -/
def Thr.make (pinv : Matrix (Fin (6 + nj)) (Fin (nj + nt)) K → Matrix (Fin (nj + nt)) (Fin (6 + nj)) K)
    (ts : List (Thruster K)) : Thr K nj nt :=
  let W : Matrix (Fin (6 + nj)) (Fin (nj + nt)) K := fun r c =>
    if nt < nj + nt ∧ (6 + nj) - nj ≤ r.val ∧ (nj + nt) - nj ≤ c.val
        ∧ r.val - ((6 + nj) - nj) = c.val - ((nj + nt) - nj) then 1 else 0
  (Thr.set pinv { ts := ts, W := W, mtau := fun _ _ => 0, S := fun _ _ => 0, upd := true } ts).1

variable [LinearOrder K]

/-- `updateData` (`floating-base-thrusters.hpp:353-361`), with the tolerance of `if_static` L364-369. -/
def Thr.updateData (eps : K) (m : Thr K nj nt) (d : Data K (6 + nj) (nj + nt) ndx) :
    Thr K nj nt × Data K (6 + nj) (nj + nt) ndx :=
  ({ m with upd := false },
   { d with dtauDu := m.W, mtau := m.mtau, tauSet := fun k => if max (m.S k k) (-(m.S k k)) < eps then false else true })

/-- `calc` (`floating-base-thrusters.hpp:200-212`). -/
def Thr.calc (eps : K) (m : Thr K nj nt) (d : Data K (6 + nj) (nj + nt) ndx) (u : Fin (nj + nt) → K) :
    Thr K nj nt × Data K (6 + nj) (nj + nt) ndx :=
  let r := if m.upd then m.updateData eps d else (m, d)
  (r.1, { r.2 with tau := r.2.dtauDu *ᵥ u })

/-- A model with the data objects created from it. -/
structure ThrWorld (K : Type*) (nj nt ndx : ℕ) where
  model : Thr K nj nt
  datas : List (Data K (6 + nj) (nj + nt) ndx)

/-- Calls on a model with thrusters and its data objects (`eval` is `calc`). -/
inductive ThrOp (K : Type*) (nj nt : ℕ)
  | setThrusters (ts : List (Thruster K))
  | create
  | eval (i : ℕ) (u : Fin (nj + nt) → K)
  | calcDiff (i : ℕ) (u : Fin (nj + nt) → K)
  | commands (i : ℕ) (tau : Fin (6 + nj) → K)

/-- One call: `createData` L260-265, `calcDiff` L222-234 (nothing), `commands` L236-240; a call on a data object
that does not exist does nothing. -/
def ThrWorld.step (pinv : Matrix (Fin (6 + nj)) (Fin (nj + nt)) K → Matrix (Fin (nj + nt)) (Fin (6 + nj)) K)
    (eps : K) (w : ThrWorld K nj nt ndx) : ThrOp K nj nt → ThrWorld K nj nt ndx
  | .setThrusters ts => { w with model := (w.model.set pinv ts).1 }
  | .create =>
    let r := w.model.updateData eps Data.zero
    { model := r.1, datas := w.datas ++ [r.2] }
  | .eval i u =>
    match w.datas[i]? with
    | none => w
    | some d =>
      let r := w.model.calc eps d u
      { model := r.1, datas := w.datas.set i r.2 }
  | .calcDiff _ _ => w
  | .commands i tau =>
    match w.datas[i]? with
    | none => w
    | some d => { w with datas := w.datas.set i { d with u := d.mtau *ᵥ tau } }

/-- The world after constructing the model and a history of calls. -/
def ThrWorld.run (pinv : Matrix (Fin (6 + nj)) (Fin (nj + nt)) K → Matrix (Fin (nj + nt)) (Fin (6 + nj)) K)
    (eps : K) (ts : List (Thruster K)) (ops : List (ThrOp K nj nt)) : ThrWorld K nj nt ndx :=
  ops.foldl (ThrWorld.step pinv eps) ⟨Thr.make pinv ts, []⟩

end Verif.Act
