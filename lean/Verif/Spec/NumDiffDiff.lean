import Verif.Model.NumDiffDiff
import Verif.Spec.NumDiff

/-!
# Specification of the finite-difference differential action model

The wrapper of a linear-quadratic differential model on a vector space. Difference quotients: `Spec/NumDiff`.
-/

namespace Verif.NumDiffD

/-- A linear-quadratic differential model with an affine residual `Sx x + Su u + s`: `p` gives the acceleration, cost
and constraints as in the specification of the LQR models (`Lqr.Spec`). -/
structure LQ (nv n nu nr ng nh : ℕ) where
  p : Lqr.Par (Fin nv) (Fin n) (Fin nu) (Fin ng) (Fin nh) ℝ
  Sx : Matrix (Fin nr) (Fin n) ℝ
  Su : Matrix (Fin nr) (Fin nu) ℝ
  s : Fin nr → ℝ

/-- What `calc` of the linear-quadratic model returns. -/
noncomputable def LQ.res {nv n nu nr ng nh : ℕ} (q : LQ nv n nu nr ng nh) (x : Fin n → ℝ) (u : Fin nu → ℝ) :
    Res nv nr ng nh where
  xout := Lqr.Spec.next q.p x u
  cost := Lqr.Spec.cost q.p x u
  r a := ∑ j, q.Sx a j * x j + ∑ j, q.Su a j * u j + q.s a
  g := Lqr.Spec.ineq q.p x u
  h := Lqr.Spec.eqc q.p x u

/-- The finite-difference wrapper of the linear-quadratic model. -/
noncomputable def LQ.wrap {nv n nu nr ng nh : ℕ} (q : LQ nv n nu nr ng nh)
    (qs : (Fin n → ℝ) → ℕ → ℝ → Fin nu → ℝ) (ejac ehess : ℝ) (gauss ndebug : Bool) :
    Model (Fin n → ℝ) nv n nu nr ng nh where
  st := NumDiff.euclid n
  ev := q.res
  evT x := q.res x 0
  qs := qs
  ejac := ejac
  ehess := ehess
  gauss := gauss
  ndebug := ndebug

end Verif.NumDiffD
