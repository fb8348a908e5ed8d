import Verif.Model.Dense

/-!
# The vector state `StateVectorTpl` and the limits of `StateAbstractTpl`
-/

namespace Verif.StateVector

open Verif.Dense

/-- `enum Jcomponent { both = 0, first = 1, second = 2 }`
(/repo/include/crocoddyl/core/state-base.hpp L17). -/
inductive Jcomp
  | both | first | second
  deriving DecidableEq

variable {K : Type*} [Field K]

/-- `StateVectorTpl::diff(x0, x1, dxout)` (core/states/euclidean.hxx L30-49); `nx = ndx`. -/
def diff (nx : ℕ) (x0 x1 dxout : DVec K) : Out × DVec K :=
  if x0.size ≠ nx then (.throw, dxout)
  else if x1.size ≠ nx then (.throw, dxout)
  else if dxout.size ≠ nx then (.throw, dxout)
  else (.ok, ⟨nx, fun i => x1.e i - x0.e i⟩)

/-- `StateVectorTpl::integrate(x, dx, xout)` (core/states/euclidean.hxx L52-71). -/
def integrate (nx : ℕ) (x dx xout : DVec K) : Out × DVec K :=
  if x.size ≠ nx then (.throw, xout)
  else if dx.size ≠ nx then (.throw, xout)
  else if xout.size ≠ nx then (.throw, xout)
  else (.ok, ⟨nx, fun i => x.e i + dx.e i⟩)

/-- `J.setZero(); J.diagonal() = Constant(ndx, v)` (core/states/euclidean.hxx L90-91,
L101-102). -/
def setDiag (v : K) (J : DMat K) : DMat K :=
  { J with e := fun i j => if i = j then v else 0 }

/-- `StateVectorTpl::Jdiff(x0, x1, Jfirst, Jsecond, firstsecond)`
(core/states/euclidean.hxx L74-104).  The states are not read. The two buffers are assumed to be
distinct. -/
def Jdiff (ndx : ℕ) (J0 J1 : DMat K) (fs : Jcomp) : Out × DMat K × DMat K :=
  if (fs = .first ∨ fs = .both) ∧ (J0.rows ≠ ndx ∨ J0.cols ≠ ndx) then (.throw, J0, J1)
  else
    let J0' := if fs = .first ∨ fs = .both then setDiag (-1) J0 else J0
    if (fs = .second ∨ fs = .both) ∧ (J1.rows ≠ ndx ∨ J1.cols ≠ ndx) then (.throw, J0', J1)
    else
      let J1' := if fs = .second ∨ fs = .both then setDiag 1 J1 else J1
      (.ok, J0', J1')

/-- `StateVectorTpl::Jintegrate(x, dx, Jfirst, Jsecond, firstsecond, op)`
(core/states/euclidean.hxx L107-166).  Only the diagonals are written, in every mode.  The two
buffers are assumed to be distinct; `JintegrateInto` is the call with one buffer. -/
def Jintegrate (ndx : ℕ) (J0 J1 : DMat K) (fs : Jcomp) (op : AssignOp) :
    Out × DMat K × DMat K :=
  if (fs = .first ∨ fs = .both) ∧ (J0.rows ≠ ndx ∨ J0.cols ≠ ndx) then (.throw, J0, J1)
  else
    let J0' := if fs = .first ∨ fs = .both then J0.opDiag op 0 ndx 1 else J0
    if (fs = .second ∨ fs = .both) ∧ (J1.rows ≠ ndx ∨ J1.cols ≠ ndx) then (.throw, J0', J1)
    else
      let J1' := if fs = .second ∨ fs = .both then J1.opDiag op 0 ndx 1 else J1
      (.ok, J0', J1')

/-- `Jintegrate(x, dx, J, J, firstsecond, op)` with the same buffer passed twice, as
core/integrator/euler.hxx L118 and L139 and rk.hxx do. -/
def JintegrateInto (ndx : ℕ) (J : DMat K) (fs : Jcomp) (op : AssignOp) : Out × DMat K :=
  if (fs = .first ∨ fs = .both) ∧ (J.rows ≠ ndx ∨ J.cols ≠ ndx) then (.throw, J)
  else
    let J' := if fs = .first ∨ fs = .both then J.opDiag op 0 ndx 1 else J
    if (fs = .second ∨ fs = .both) ∧ (J'.rows ≠ ndx ∨ J'.cols ≠ ndx) then (.throw, J')
    else (.ok, if fs = .second ∨ fs = .both then J'.opDiag op 0 ndx 1 else J')

/-- `StateVectorTpl::JintegrateTransport(x, dx, Jin, firstsecond)`
(core/states/euclidean.hxx L169-178). -/
def JintegrateTransport (Jin : DMat K) (fs : Jcomp) : Out × DMat K :=
  if fs ≠ .first ∧ fs ≠ .second then (.throw, Jin) else (.ok, Jin)

/-- The limits of `StateAbstractTpl` (core/state-base.hxx L12-21): an entry is a finite value or
`none` for an infinity (or a NaN); only finiteness matters. -/
structure Limits (K : Type*) where
  nx : ℕ
  lb : List (Option K)
  ub : List (Option K)
  has_limits : Bool

/-- Constructor (core/state-base.hxx L12-21). -/
def Limits.init (nx : ℕ) : Limits K where
  nx := nx
  lb := List.replicate nx none
  ub := List.replicate nx none
  has_limits := false

/-- `update_has_limits` (core/state-base.hxx L176-178). -/
def Limits.update (s : Limits K) : Limits K :=
  { s with has_limits := s.lb.any Option.isSome || s.ub.any Option.isSome }

/-- `set_lb` (core/state-base.hxx L154-162). -/
def Limits.setLb (s : Limits K) (v : List (Option K)) : Out × Limits K :=
  if v.length ≠ s.nx then (.throw, s) else (.ok, ({ s with lb := v } : Limits K).update)

/-- `set_ub` (core/state-base.hxx L165-173). -/
def Limits.setUb (s : Limits K) (v : List (Option K)) : Out × Limits K :=
  if v.length ≠ s.nx then (.throw, s) else (.ok, ({ s with ub := v } : Limits K).update)

/-- A call of one of the two setters. -/
inductive LimOp (K : Type*)
  | lb (v : List (Option K))
  | ub (v : List (Option K))

/-- One setter call. -/
def Limits.step (s : Limits K) : LimOp K → Limits K
  | .lb v => (s.setLb v).2
  | .ub v => (s.setUb v).2

end Verif.StateVector
