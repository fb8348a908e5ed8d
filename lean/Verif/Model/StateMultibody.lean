import Verif.Model.StateVector
import Verif.Model.Limits
import Mathlib.Data.Matrix.Mul
import Mathlib.Data.EReal.Operations

/-!
# The multibody state `StateMultibodyTpl`

File modelled: `/repo/include/crocoddyl/multibody/states/multibody.hxx`. Pinocchio is a parameter. Real arithmetic;
limits are extended real numbers.
-/

namespace Verif.Mb

noncomputable section

open Verif.Dense Verif.StateVector
open Verif.Limits (finite)

/-- What the state uses of a Pinocchio model: the sizes, `neutral`, `integrate`, `difference`, `dIntegrate`, `dDifference`
and `dIntegrateTransport` (`false` is `ARG0`, `true` is `ARG1`), the position and velocity limits, and the joint named
`root_joint`, if there is one, as the index of its first entry in the configuration and its number of entries. -/
structure Pin where
  nq : ℕ
  nv : ℕ
  neutral : Fin nq → ℝ
  integrate : (Fin nq → ℝ) → (Fin nv → ℝ) → Fin nq → ℝ
  difference : (Fin nq → ℝ) → (Fin nq → ℝ) → Fin nv → ℝ
  dInt : Bool → (Fin nq → ℝ) → (Fin nv → ℝ) → Matrix (Fin nv) (Fin nv) ℝ
  dDiff : Bool → (Fin nq → ℝ) → (Fin nq → ℝ) → Matrix (Fin nv) (Fin nv) ℝ
  transport : Bool → (Fin nq → ℝ) → (Fin nv → ℝ) → (c : ℕ) → Matrix (Fin nv) (Fin c) ℝ → Matrix (Fin nv) (Fin c) ℝ
  lower : List EReal
  upper : List EReal
  vel : List EReal
  root : Option (ℕ × ℕ)

/-- `x.head(n)` (Eigen), for `n` up to the size. -/
def head (n : ℕ) (x : DVec ℝ) : Fin n → ℝ := fun i => x.e i

/-- The entries of a vector with a fixed size. -/
def ent {n : ℕ} (v : Fin n → ℝ) : ℕ → ℝ := fun i => if h : i < n then v ⟨i, h⟩ else 0

/-- The entries of a matrix with fixed sizes. -/
def ent2 {n m : ℕ} (M : Matrix (Fin n) (Fin m) ℝ) : ℕ → ℕ → ℝ :=
  fun i j => if h : i < n then if h' : j < m then M ⟨i, h⟩ ⟨j, h'⟩ else 0 else 0

/-- The members of the state (core/state-base.hpp L334-340, multibody/states/multibody.hpp L117-118). -/
structure St where
  P : Pin
  nx : ℕ
  ndx : ℕ
  nq : ℕ
  nv : ℕ
  x0 : DVec ℝ
  lb : List EReal
  ub : List EReal
  has : Bool

/-- `update_has_limits` (core/state-base.hxx L176-178). -/
def St.update (s : St) : St := { s with has := s.lb.any finite || s.ub.any finite }

/-- The constructor (multibody.hxx L12-35) with that of the base class (core/state-base.hxx L12-21); `big` is the largest
number of the scalar type. The four segments of the limits cover them. -/
def St.init (P : Pin) (big : ℝ) : St :=
  let nx := P.nq + P.nv
  let ndx := 2 * P.nv
  let nv := ndx / 2
  let nq := nx - nv
  let nq0 := match P.root with
    | some (_, n) => n
    | none => 0
  St.update
    { P := P, nx := nx, ndx := ndx, nq := nq, nv := nv
      x0 := (⟨nx, fun _ => 0⟩ : DVec ℝ).setSeg 0 nq (ent P.neutral)
      lb := List.replicate nq0 ((-big : ℝ) : EReal) ++ P.lower.drop (P.lower.length - (nq - nq0)) ++ P.vel.map (fun v => -v)
      ub := List.replicate nq0 (big : EReal) ++ P.upper.drop (P.upper.length - (nq - nq0)) ++ P.vel
      has := false }

/-- `zero` (multibody.hxx L45-47). -/
def St.zero (s : St) : DVec ℝ := s.x0

/-- `set_lb` (core/state-base.hxx L154-162). -/
def St.setLb (s : St) (v : List EReal) : Out × St :=
  if v.length ≠ s.nx then (.throw, s) else (.ok, { s with lb := v }.update)

/-- `set_ub` (core/state-base.hxx L165-173). -/
def St.setUb (s : St) (v : List EReal) : Out × St :=
  if v.length ≠ s.nx then (.throw, s) else (.ok, { s with ub := v }.update)

/-- `cast` (multibody.hxx L286-294) to the same scalar type. -/
def St.cast (s : St) (big : ℝ) : St := St.init s.P big

/-- `diff` (multibody.hxx L57-79); `head(nq_)` is written with the size of the Pinocchio model, to which it is equal. -/
def St.diff (s : St) (x0 x1 dxout : DVec ℝ) : Out × DVec ℝ :=
  if x0.size ≠ s.nx then (.throw, dxout)
  else if x1.size ≠ s.nx then (.throw, dxout)
  else if dxout.size ≠ s.ndx then (.throw, dxout)
  else
    let d := dxout.setSeg 0 s.nv (ent (s.P.difference (head s.P.nq x0) (head s.P.nq x1)))
    (.ok, d.setSeg (s.ndx - s.nv) s.nv fun i => x1.e (s.nx - s.nv + i) - x0.e (s.nx - s.nv + i))

/-- `integrate` (multibody.hxx L82-104). -/
def St.integrate (s : St) (x dx xout : DVec ℝ) : Out × DVec ℝ :=
  if x.size ≠ s.nx then (.throw, xout)
  else if dx.size ≠ s.ndx then (.throw, xout)
  else if xout.size ≠ s.nx then (.throw, xout)
  else
    let y := xout.setSeg 0 s.nq (ent (s.P.integrate (head s.P.nq x) (head s.P.nv dx)))
    (.ok, y.setSeg (s.nx - s.nv) s.nv fun i => x.e (s.nx - s.nv + i) + dx.e (s.ndx - s.nv + i))

/-- `diff_dx` (core/state-base.hxx L37-43). -/
def St.diffDx (s : St) (x0 x1 : DVec ℝ) : Out × DVec ℝ := s.diff x0 x1 ⟨s.ndx, fun _ => 0⟩

/-- `integrate_x` (core/state-base.hxx L46-51). -/
def St.integrateX (s : St) (x dx : DVec ℝ) : Out × DVec ℝ := s.integrate x dx ⟨s.nx, fun _ => 0⟩

/-- `J.topLeftCorner(n, n) op= D` (Eigen, and the operators of Pinocchio). -/
def corner (op : AssignOp) (n : ℕ) (D : ℕ → ℕ → ℝ) (J : DMat ℝ) : DMat ℝ :=
  { J with e := fun i j => if i < n ∧ j < n then op.apply (J.e i j) (D i j) else J.e i j }

/-- `J.bottomRightCorner(n, n).diagonal().array() op= v` (Eigen), for a square matrix. -/
def cornerDiag (op : AssignOp) (n : ℕ) (v : ℝ) (J : DMat ℝ) : DMat ℝ :=
  { J with e := fun i j => if J.rows - n ≤ i ∧ i < J.rows ∧ i = j then op.apply (J.e i j) v else J.e i j }

/-- `Jfirst.rows() != ndx_ || Jfirst.cols() != ndx_`. -/
def St.wrong (s : St) (J : DMat ℝ) : Prop := J.rows ≠ s.ndx ∨ J.cols ≠ s.ndx

instance (s : St) (J : DMat ℝ) : Decidable (s.wrong J) := inferInstanceAs (Decidable (_ ∨ _))

/-- One Jacobian of `diff`: `dDifference` into the corner, the sign on the diagonal (multibody.hxx L135-137, L146-148,
L164-169). -/
def St.jd (s : St) (arg : Bool) (x0 x1 : DVec ℝ) (J : DMat ℝ) : DMat ℝ :=
  cornerDiag .setto s.nv (if arg then 1 else -1)
    (corner .setto s.nv (ent2 (s.P.dDiff arg (head s.P.nq x0) (head s.P.nq x1))) J)

/-- `Jdiff` (multibody.hxx L107-171). The two buffers are assumed to be distinct. -/
def St.Jdiff (s : St) (x0 x1 : DVec ℝ) (J0 J1 : DMat ℝ) (fs : Jcomp) : Out × DMat ℝ × DMat ℝ :=
  if x0.size ≠ s.nx then (.throw, J0, J1)
  else if x1.size ≠ s.nx then (.throw, J0, J1)
  else match fs with
    | .first => if s.wrong J0 then (.throw, J0, J1) else (.ok, s.jd false x0 x1 J0, J1)
    | .second => if s.wrong J1 then (.throw, J0, J1) else (.ok, J0, s.jd true x0 x1 J1)
    | .both =>
      if s.wrong J0 then (.throw, J0, J1)
      else if s.wrong J1 then (.throw, J0, J1)
      else (.ok, s.jd false x0 x1 J0, s.jd true x0 x1 J1)

/-- One Jacobian of `integrate` (multibody.hxx L193-216, L226-249). -/
def St.ji (s : St) (arg : Bool) (op : AssignOp) (x dx : DVec ℝ) (J : DMat ℝ) : DMat ℝ :=
  cornerDiag op s.nv 1 (corner op s.nv (ent2 (s.P.dInt arg (head s.P.nq x) (head s.P.nv dx))) J)

/-- `x.head(nq_)` and `dx.head(nv_)` are out of range. -/
def St.short (s : St) (x dx : DVec ℝ) : Prop := x.size < s.nq ∨ dx.size < s.nv

instance (s : St) (x dx : DVec ℝ) : Decidable (s.short x dx) := inferInstanceAs (Decidable (_ ∨ _))

/-- `Jintegrate` (multibody.hxx L174-251). The sizes of `x` and `dx` are not checked: `none` is a read out of range. The
two buffers are assumed to be distinct. -/
def St.Jintegrate (s : St) (x dx : DVec ℝ) (J0 J1 : DMat ℝ) (fs : Jcomp) (op : AssignOp) :
    Option (Out × DMat ℝ × DMat ℝ) :=
  if fs ≠ .second ∧ s.wrong J0 then some (.throw, J0, J1)
  else if fs ≠ .second ∧ s.short x dx then none
  else
    let J0' := if fs ≠ .second then s.ji false op x dx J0 else J0
    if fs ≠ .first ∧ s.wrong J1 then some (.throw, J0', J1)
    else if fs ≠ .first ∧ s.short x dx then none
    else some (.ok, J0', if fs ≠ .first then s.ji true op x dx J1 else J1)

/-- `Jdiff_Js` (core/state-base.hxx L55-80). -/
def St.JdiffJs (s : St) (x0 x1 : DVec ℝ) (fs : Jcomp) : Out × List (DMat ℝ) :=
  let r := s.Jdiff x0 x1 ⟨s.ndx, s.ndx, fun _ _ => 0⟩ ⟨s.ndx, s.ndx, fun _ _ => 0⟩ fs
  if r.1 = .throw then (.throw, [])
  else (.ok, match fs with
    | .both => [r.2.1, r.2.2]
    | .first => [r.2.1]
    | .second => [r.2.2])

/-- `Jintegrate_Js` (core/state-base.hxx L84-109). -/
def St.JintegrateJs (s : St) (x dx : DVec ℝ) (fs : Jcomp) : Option (Out × List (DMat ℝ)) :=
  (s.Jintegrate x dx ⟨s.ndx, s.ndx, fun _ _ => 0⟩ ⟨s.ndx, s.ndx, fun _ _ => 0⟩ fs .setto).map fun r =>
    if r.1 = .throw then (.throw, [])
    else (.ok, match fs with
      | .both => [r.2.1, r.2.2]
      | .first => [r.2.1]
      | .second => [r.2.2])

/-- `JintegrateTransport` (multibody.hxx L254-278): nothing is checked. -/
def St.JintegrateTransport (s : St) (x dx : DVec ℝ) (J : DMat ℝ) (fs : Jcomp) : Option (Out × DMat ℝ) :=
  match fs with
  | .both => some (.throw, J)
  | .first => if s.short x dx ∨ J.rows < s.nv then none else some (.ok, tr false)
  | .second => if s.short x dx ∨ J.rows < s.nv then none else some (.ok, tr true)
where
  /-- The call of Pinocchio on `Jin.topRows(nv_)`. -/
  tr (arg : Bool) : DMat ℝ :=
    J.opRows .setto 0 s.nv
      (ent2 (s.P.transport arg (head s.P.nq x) (head s.P.nv dx) J.cols (fun i j => J.e i j)))

/-- Calls of the setters of the limits. -/
inductive LimCall
  | lb (v : List EReal)
  | ub (v : List EReal)

/-- One call. -/
def St.step (s : St) : LimCall → St
  | .lb v => (s.setLb v).2
  | .ub v => (s.setUb v).2

/-- The state after its construction and calls of the setters. -/
def after (P : Pin) (big : ℝ) (h : List LimCall) : St := h.foldl St.step (St.init P big)

end

end Verif.Mb
