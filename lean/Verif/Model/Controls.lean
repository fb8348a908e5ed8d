import Verif.Model.Dense

/-!
# Control parametrisations (poly-zero, poly-one, poly-two-rk)

The model-data pairs `ControlParametrizationModelPoly{Zero,One,TwoRK}` with the buffers of
their data objects.  Scalars are an arbitrary field.
-/

namespace Verif.Controls

open Verif.Dense

/-- `enum RKType { two = 2, three = 3, four = 4 }`
(/repo/include/crocoddyl/core/integrator/rk.hpp L18). -/
inductive RKType
  | two | three | four
  deriving DecidableEq

/-- The three classes of /repo/include/crocoddyl/core/controls. -/
inductive Kind
  | polyZero
  | polyOne
  | polyTwoRK (rk : RKType)
  deriving DecidableEq

/-- Number of parameter blocks: `Base(nw, nw)` (poly-zero.hxx L13-15), `Base(nw, 2 * nw)`
(poly-one.hxx L12-15), `Base(nw, 3 * nw)` (poly-two-rk.hxx L12-21; the constructor only
prints a message for `RKType::two`). -/
def Kind.parts : Kind → ℕ
  | .polyZero => 1
  | .polyOne => 2
  | .polyTwoRK _ => 3

/-- A parametrisation model: its class and `nw_`. -/
structure Model where
  kind : Kind
  nw : ℕ

/-- `nu_` (control-base.hxx L12-16 with the constructors above). -/
def Model.nu (m : Model) : ℕ := m.kind.parts * m.nw

/-- The data object: `w`, `u`, `dw_du` (control-base.hpp L211-232) and the coefficients `c`
(poly-one.hpp L172-190, poly-two-rk.hpp L186-206). -/
structure Data (K : Type*) where
  c : ℕ → K
  w : DVec K
  u : DVec K
  dw_du : DMat K

variable {K : Type*} [Field K]

/-- `createData` (poly-zero.hxx L44-51, poly-one.hxx L42-45, poly-two-rk.hxx L68-71) with the
constructors of the data classes, which set every buffer to zero. -/
def createData (m : Model) : Data K where
  c := fun _ => 0
  w := ⟨m.nw, fun _ => 0⟩
  u := ⟨m.nu, fun _ => 0⟩
  dw_du := ⟨m.nw, m.nu, fun i j =>
    match m.kind with
    | .polyZero => if i = j then 1 else 0
    | _ => 0⟩

/-- The coefficients written by `calc` (poly-one.hxx L27-28, poly-two-rk.hxx L38-52); for
`RKType::two` the code prints a message and leaves them. -/
def coeffs (k : Kind) (t : K) (c : ℕ → K) : ℕ → K :=
  match k with
  | .polyZero => c
  | .polyOne =>
    let c1 := 2 * t
    fun i => if i = 1 then c1 else if i = 0 then 1 - c1 else c i
  | .polyTwoRK .two => c
  | .polyTwoRK .three =>
    let t2 := t * t
    fun i => if i = 2 then 9 / 2 * t2 - 3 / 2 * t
      else if i = 1 then -9 * t2 + 6 * t
      else if i = 0 then 9 / 2 * (t2 - t) + 1 else c i
  | .polyTwoRK .four =>
    let t2 := t * t
    let c2 := 2 * t2 - t
    fun i => if i = 2 then c2
      else if i = 1 then -2 * c2 + 2 * t
      else if i = 0 then c2 - 2 * t + 1 else c i

/-- `calc(data, t, u)` (poly-zero.hxx L18-28, poly-one.hxx L18-30, poly-two-rk.hxx L24-55). -/
def calcW (m : Model) (d : Data K) (t : K) (u : DVec K) : Out × Data K :=
  if u.size ≠ m.nu then (.throw, d)
  else
    let c := coeffs m.kind t d.c
    let w : ℕ → K :=
      match m.kind with
      | .polyZero => u.e
      | .polyOne => fun i => c 0 * u.e i + c 1 * u.e (m.nu - m.nw + i)
      | .polyTwoRK _ => fun i =>
          c 2 * u.e (m.nu - m.nw + i) + c 1 * u.e (m.nw + i) + c 0 * u.e i
    (.ok, { d with c := c, w := ⟨m.nw, w⟩ })

/-- `calcDiff(data, t, u)` (poly-zero.hxx L31-42: nothing, poly-one.hxx L33-39,
poly-two-rk.hxx L58-66).  Neither `t` nor `u` is read. -/
def calcDiff (m : Model) (d : Data K) : Data K :=
  match m.kind with
  | .polyZero => d
  | .polyOne =>
    let J := d.dw_du.opDiag .setto 0 m.nw (d.c 0)
    { d with dw_du := J.opDiag .setto (m.nu - m.nw) m.nw (d.c 1) }
  | .polyTwoRK _ =>
    let J := d.dw_du.opDiag .setto 0 m.nw (d.c 0)
    let J := J.opDiag .setto m.nw m.nw (d.c 1)
    { d with dw_du := J.opDiag .setto (m.nu - m.nw) m.nw (d.c 2) }

/-- `params(data, t, w)` (poly-zero.hxx L54-63, poly-one.hxx L48-58, poly-two-rk.hxx L74-85);
`t` is not read. -/
def params (m : Model) (d : Data K) (w : DVec K) : Out × Data K :=
  if w.size ≠ m.nw then (.throw, d)
  else
    let u : DVec K :=
      match m.kind with
      | .polyZero => w
      | .polyOne => (d.u.setSeg 0 m.nw w.e).setSeg (m.nu - m.nw) m.nw w.e
      | .polyTwoRK _ =>
        ((d.u.setSeg 0 m.nw w.e).setSeg m.nw m.nw w.e).setSeg (m.nu - m.nw) m.nw w.e
    (.ok, { d with u := u })

/-- `convertBounds(w_lb, w_ub, u_lb, u_ub)` (poly-zero.hxx L66-92, poly-one.hxx L61-89,
poly-two-rk.hxx L88-118): writes into the two output vectors. -/
def convertBounds (m : Model) (w_lb w_ub u_lb u_ub : DVec K) : Out × DVec K × DVec K :=
  if u_lb.size ≠ m.nu then (.throw, u_lb, u_ub)
  else if u_ub.size ≠ m.nu then (.throw, u_lb, u_ub)
  else if w_lb.size ≠ m.nw then (.throw, u_lb, u_ub)
  else if w_ub.size ≠ m.nw then (.throw, u_lb, u_ub)
  else
    match m.kind with
    | .polyZero => (.ok, w_lb, w_ub)
    | .polyOne =>
      (.ok, (u_lb.setSeg 0 m.nw w_lb.e).setSeg (m.nu - m.nw) m.nw w_lb.e,
        (u_ub.setSeg 0 m.nw w_ub.e).setSeg (m.nu - m.nw) m.nw w_ub.e)
    | .polyTwoRK _ =>
      (.ok, ((u_lb.setSeg 0 m.nw w_lb.e).setSeg m.nw m.nw w_lb.e).setSeg (m.nu - m.nw) m.nw
          w_lb.e,
        ((u_ub.setSeg 0 m.nw w_ub.e).setSeg m.nw m.nw w_ub.e).setSeg (m.nu - m.nw) m.nw w_ub.e)

/-- `multiplyByJacobian(data, A, out, op)` (poly-zero.hxx L95-124, poly-one.hxx L92-125,
poly-two-rk.hxx L121-157).  The invalid value of `op` (`default:` branch) does not exist in
the model's type. -/
def multiplyByJacobian (m : Model) (d : Data K) (A out : DMat K) (op : AssignOp) :
    Out × DMat K :=
  if A.rows ≠ out.rows ∨ A.cols ≠ m.nw ∨ out.cols ≠ m.nu then (.throw, out)
  else
    match m.kind with
    | .polyZero => (.ok, out.opCols op 0 m.nu A.e)
    | .polyOne =>
      (.ok, (out.opCols op 0 m.nw (fun i j => d.c 0 * A.e i j)).opCols op (m.nu - m.nw) m.nw
        (fun i j => d.c 1 * A.e i j))
    | .polyTwoRK _ =>
      (.ok, ((out.opCols op 0 m.nw (fun i j => d.c 0 * A.e i j)).opCols op m.nw m.nw
        (fun i j => d.c 1 * A.e i j)).opCols op (m.nu - m.nw) m.nw (fun i j => d.c 2 * A.e i j))

/-- `multiplyJacobianTransposeBy(data, A, out, op)` (poly-zero.hxx L127-157,
poly-one.hxx L128-161, poly-two-rk.hxx L160-197). -/
def multiplyJacobianTransposeBy (m : Model) (d : Data K) (A out : DMat K) (op : AssignOp) :
    Out × DMat K :=
  if A.cols ≠ out.cols ∨ A.rows ≠ m.nw ∨ out.rows ≠ m.nu then (.throw, out)
  else
    match m.kind with
    | .polyZero => (.ok, out.opRows op 0 m.nu A.e)
    | .polyOne =>
      (.ok, (out.opRows op 0 m.nw (fun i j => d.c 0 * A.e i j)).opRows op (m.nu - m.nw) m.nw
        (fun i j => d.c 1 * A.e i j))
    | .polyTwoRK _ =>
      (.ok, ((out.opRows op 0 m.nw (fun i j => d.c 0 * A.e i j)).opRows op m.nw m.nw
        (fun i j => d.c 1 * A.e i j)).opRows op (m.nu - m.nw) m.nw (fun i j => d.c 2 * A.e i j))

/-- The calls a user can make on a model-data pair (those that write to the data). -/
inductive Op (K : Type*)
  | calcW (t : K) (u : DVec K)
  | calcDiff (t : K) (u : DVec K)
  | params (t : K) (w : DVec K)

/-- One call. -/
def step (m : Model) (d : Data K) : Op K → Data K
  | .calcW t u => (calcW m d t u).2
  | .calcDiff _ _ => calcDiff m d
  | .params _ w => (params m d w).2

/-- A sequence of calls on a data object just created. -/
def run (m : Model) (ops : List (Op K)) : Data K := ops.foldl (step m) (createData m)

end Verif.Controls
