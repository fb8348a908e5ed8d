import Verif.Model.Dense
import Verif.Model.Integrators
import Mathlib.Data.Matrix.Diagonal
import Mathlib.Analysis.SpecialFunctions.Sqrt

/-!
# The pseudo-inverse and the quasi-static controls of the base classes

`pseudoInverse` (core/utils/math.hpp), the Newton iteration of `ActionModelAbstractTpl::quasiStatic`
and `DifferentialActionModelAbstractTpl::quasiStatic`, and the versions of the two integrators.
Scalars are real numbers.
-/

namespace Verif.Qs

open Matrix
open Verif.Dense

/-- Vectors and matrices of fixed sizes. -/
abbrev Vec (n : ℕ) := Fin n → ℝ

/-- Matrices. -/
abbrev Mat (a b : ℕ) := Matrix (Fin a) (Fin b) ℝ

/-- `VectorXs::norm()` (Eigen): the Euclidean norm. -/
noncomputable def nrm {n : ℕ} (v : Vec n) : ℝ := Real.sqrt (v ⬝ᵥ v)

/-! ## The pseudo-inverse -/

/-- What `Eigen::JacobiSVD` returns for an `a × b` matrix with the options `ComputeThinU |
ComputeThinV` (core/utils/math.hpp L49-50): `matrixU()`, `singularValues()`, `matrixV()`, with
`min a b` columns.  Eigen is not modelled: `Svd.Of` in the specification says what is assumed. -/
structure Svd (a b : ℕ) where
  U : Matrix (Fin a) (Fin (min a b)) ℝ
  S : Fin (min a b) → ℝ
  V : Matrix (Fin b) (Fin (min a b)) ℝ

/-- `tolerance = epsilon * max(a.cols(), a.rows()) * singularValues().abs()(0)`
(core/utils/math.hpp L51-53); there is a first singular value. -/
noncomputable def tolerance {a b : ℕ} (eps : ℝ) (s : Svd a b) (h : 0 < min a b) : ℝ :=
  eps * (max b a : ℕ) * |s.S ⟨0, h⟩|

/-- `pseudoInverseAlgo<MatrixLike, true>::run` and `pseudoInverse` (core/utils/math.hpp L42-63,
L76-82).  `none` is the read of the first singular value of an empty matrix, which is out of
range (L53). -/
noncomputable def pseudoInverse {a b : ℕ} (svd : Mat a b → Svd a b) (eps : ℝ) (A : Mat a b) :
    Option (Mat b a) :=
  if h : 0 < min a b then
    let s := svd A
    let tol := tolerance eps s h
    some (s.V * diagonal (fun i => if tol < s.S i then 1 / s.S i else 0) * s.Uᵀ)
  else none

/-! ## The Newton iteration -/

variable {nx ndx nu n : ℕ}

/-- The loop of `quasiStatic` (core/action-base.hxx L87-97, core/diff-action-base.hxx L67-76).
`f u` is the vector the loop wants to be zero, `F u` is `data->Fu`, both as written by
`calc(data, x, u)` and `calcDiff(data, x, u)`; `at'` is the control with which the data was last
evaluated.  `none` is the undefined behaviour of `pseudoInverse`. -/
noncomputable def newton (pinv : Mat n nu → Option (Mat nu n)) (f : Vec nu → Vec n)
    (F : Vec nu → Mat n nu) (tol : ℝ) :
    ℕ → Vec nu → Option (Vec nu) → Option (Vec nu × Option (Vec nu))
  | 0, u, at' => some (u, at')
  | k + 1, u, _ =>
    match pinv (F u) with
    | none => none
    | some P =>
      let du := -(P *ᵥ f u)
      let u' := u + du
      if nrm du ≤ tol then some (u', some u) else newton pinv f F tol k u' (some u)

/-- The entries of an argument whose size has been checked. -/
def toVec (n : ℕ) (v : DVec ℝ) : Vec n := fun i => v.e i

/-- A vector of size `n`. -/
def ofVec {n : ℕ} (v : Vec n) : DVec ℝ := ⟨n, fun i => if h : i < n then v ⟨i, h⟩ else 0⟩

/-- How a call of `quasiStatic` ends. -/
inductive Res (nu : ℕ)
  /-- `throw_pretty`, before anything is written. -/
  | throw
  /-- An out-of-range read. -/
  | ub
  /-- Normal return: the control vector and the control with which the data was last evaluated. -/
  | ok (u : DVec ℝ) (at' : Option (Vec nu))

/-- The parts of an action model the loop uses, as functions of their arguments: the `xnext` of
`calc(data, x, u)`, the `Fu` of `calcDiff(data, x, u)` and `state_->diff`. -/
structure Action (nx ndx nu : ℕ) where
  next : Vec nx → Vec nu → Vec nx
  fu : Vec nx → Vec nu → Mat ndx nu
  diff : Vec nx → Vec nx → Vec ndx

/-- `ActionModelAbstractTpl::quasiStatic(data, u, x, maxiter, tol)` (core/action-base.hxx L66-99).
The check that the velocity is zero is an assertion (L81-82), absent in release builds, and not
modelled. -/
noncomputable def Action.static (A : Action nx ndx nu) (pinv : Mat ndx nu → Option (Mat nu ndx))
    (maxiter : ℕ) (tol : ℝ) (d : Option (Vec nu)) (u x : DVec ℝ) : Res nu :=
  if u.size ≠ nu then .throw
  else if x.size ≠ nx then .throw
  else if nu ≠ 0 then
    let x' := toVec nx x
    match newton pinv (fun v => A.diff x' (A.next x' v)) (A.fu x') tol maxiter (toVec nu u) d with
    | none => .ub
    | some (v, d') => .ok (ofVec v) d'
  else .ok u d

/-- `ActionModelAbstractTpl::quasiStatic_x(data, x, maxiter, tol)` (core/action-base.hxx
L101-110). -/
noncomputable def Action.staticX (A : Action nx ndx nu) (pinv : Mat ndx nu → Option (Mat nu ndx))
    (maxiter : ℕ) (tol : ℝ) (d : Option (Vec nu)) (x : DVec ℝ) : Res nu :=
  A.static pinv maxiter tol d ⟨nu, fun _ => 0⟩ x

/-- The parts of a differential action model the loop uses: `xout` and `Fu`. -/
structure Diff (nx nv nu : ℕ) where
  xout : Vec nx → Vec nu → Vec nv
  fu : Vec nx → Vec nu → Mat nv nu

/-- `DifferentialActionModelAbstractTpl::quasiStatic(data, u, x, maxiter, tol)`
(core/diff-action-base.hxx L48-78). -/
noncomputable def Diff.static (D : Diff nx n nu) (pinv : Mat n nu → Option (Mat nu n))
    (maxiter : ℕ) (tol : ℝ) (d : Option (Vec nu)) (u x : DVec ℝ) : Res nu :=
  if u.size ≠ nu then .throw
  else if x.size ≠ nx then .throw
  else if nu ≠ 0 then
    let x' := toVec nx x
    match newton pinv (D.xout x') (D.fu x') tol maxiter (toVec nu u) d with
    | none => .ub
    | some (v, d') => .ok (ofVec v) d'
  else .ok u d

/-- `DifferentialActionModelAbstractTpl::quasiStatic_x(data, x, maxiter, tol)`
(core/diff-action-base.hxx L80-89). -/
noncomputable def Diff.staticX (D : Diff nx n nu) (pinv : Mat n nu → Option (Mat nu n))
    (maxiter : ℕ) (tol : ℝ) (d : Option (Vec nu)) (x : DVec ℝ) : Res nu :=
  D.static pinv maxiter tol d ⟨nu, fun _ => 0⟩ x

/-! ## The integrators -/

/-- `quasiStatic` of the two integrators (core/integrator/euler.hxx L187-209,
core/integrator/rk.hxx L372-395) with right sizes: the control `w` of the (first) control data is
set to zero (the Runge-Kutta version multiplies it by zero, which is the same for real numbers but
not for an infinity or a NaN left there), given to `inner`, the `quasiStatic` of the differential
model, and converted to parameters by `params`.  The given `u` is not read.  `none` when `inner`
does not return. -/
def integratedStatic {nw : ℕ} (inner : Vec nw → Option (Vec nw)) (params : Vec nw → Vec nu) :
    Option (Vec nu) :=
  (inner 0).map params

/-- The `quasiStatic` of the differential model of an integrated model, when it is the one of the
base class. -/
noncomputable def innerStatic {m nw : ℕ} (D : Integrators.DiffModel ℝ m nw)
    (pinv : Mat m nw → Option (Mat nw m)) (maxiter : ℕ) (tol : ℝ) (x : Integrators.X ℝ m)
    (w : Vec nw) : Option (Vec nw) :=
  if nw ≠ 0 then (newton pinv (D.xout x) (D.Fu x) tol maxiter w none).map Prod.fst else some w

end Verif.Qs
