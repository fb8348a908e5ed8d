import Verif.Model.NumDiff
import Verif.Spec.LqrAction

/-!
# Specification of the finite-difference action model

Second difference quotients, and the wrapper of a linear-quadratic model on a vector space.
-/

namespace Verif.NumDiff

section
variable {k : ℕ} (ev evm : (Fin k → ℝ) → ℝ) (c0 h : ℝ)

/-- Forward mixed difference quotient: `(f(h eᵢ + h eⱼ) - f(h eⱼ) - f(h eᵢ) + f(0)) / h²`. -/
noncomputable def mixed (i j : Fin k) : ℝ :=
  (ev (Pi.single i h + Pi.single j h) - ev (Pi.single j h) - ev (Pi.single i h) + c0) / (h * h)

/-- Central second difference quotient: `(f(h eᵢ) - 2 f(0) + f(-h eᵢ)) / h²` (`evm` is `f` at the opposite). -/
noncomputable def second (i : Fin k) : ℝ :=
  (ev (Pi.single i h) - 2 * c0 + evm (Pi.single i h)) / (h * h)

/-- The approximated Hessian. -/
noncomputable def hessEntry (b : Fin k × Fin k) : ℝ :=
  if b.1 = b.2 then second ev evm c0 h b.1
  else if b.1 < b.2 then mixed ev c0 h b.1 b.2 else mixed ev c0 h b.2 b.1

end

/-- The Euclidean state (`StateVector`): `integrate` adds, `diff(x0, x1)` is `x1 - x0`. -/
def euclid (n : ℕ) : StateOps (Fin n → ℝ) n where
  zero := 0
  integrate x dx := x + dx
  diff x0 x1 := x1 - x0

/-- A linear-quadratic model with an affine residual `Sx x + Su u + s`: `p` gives dynamics, cost and constraints
as in the specification of the LQR action (`Lqr.Spec`). -/
structure LQ (n nu nr ng nh : ℕ) where
  p : Lqr.Par (Fin n) (Fin n) (Fin nu) (Fin ng) (Fin nh) ℝ
  Sx : Matrix (Fin nr) (Fin n) ℝ
  Su : Matrix (Fin nr) (Fin nu) ℝ
  s : Fin nr → ℝ

/-- What `calc` of the linear-quadratic model returns. -/
noncomputable def LQ.res {n nu nr ng nh : ℕ} (q : LQ n nu nr ng nh) (x : Fin n → ℝ) (u : Fin nu → ℝ) :
    Res (Fin n → ℝ) nr ng nh where
  xnext := Lqr.Spec.next q.p x u
  cost := Lqr.Spec.cost q.p x u
  r a := ∑ j, q.Sx a j * x j + ∑ j, q.Su a j * u j + q.s a
  g := Lqr.Spec.ineq q.p x u
  h := Lqr.Spec.eqc q.p x u

/-- The finite-difference wrapper of the linear-quadratic model. -/
noncomputable def LQ.wrap {n nu nr ng nh : ℕ} (q : LQ n nu nr ng nh) (ejac ehess : ℝ) (gauss ndebug : Bool) :
    Model (Fin n → ℝ) n nu nr ng nh where
  st := euclid n
  ev := q.res
  evT x := q.res x 0
  ejac := ejac
  ehess := ehess
  gauss := gauss
  ndebug := ndebug

end Verif.NumDiff
