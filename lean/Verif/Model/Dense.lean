import Mathlib.Algebra.Field.Defs

/-!
# Dense vectors and matrices with run-time sizes

`Eigen::VectorXs`/`MatrixXs` arguments carry their sizes at run time and many functions of
the library check them.  A vector is a size and a total function of the index; only the
entries below the size are meaningful, and every statement about the entries is restricted
to these.
-/

namespace Verif.Dense

/-- `enum AssignmentOp { setto, addto, rmfrom }`
(/repo/include/crocoddyl/core/fwd.hpp L22). -/
inductive AssignOp
  | setto | addto | rmfrom
  deriving DecidableEq

/-- Outcome of a call that either returns or throws (`throw_pretty`). -/
inductive Out
  | ok | throw
  deriving DecidableEq

/-- `VectorXs`: a size and its entries. -/
structure DVec (K : Type*) where
  size : ℕ
  e : ℕ → K

/-- `MatrixXs`: the sizes and its entries. -/
structure DMat (K : Type*) where
  rows : ℕ
  cols : ℕ
  e : ℕ → ℕ → K

variable {K : Type*}

/-- What `=`, `+=` and `-=` do to one entry. -/
def AssignOp.apply [Add K] [Sub K] : AssignOp → K → K → K
  | .setto, _, b => b
  | .addto, a, b => a + b
  | .rmfrom, a, b => a - b

/-- `out.middleCols(lo, n) op= B` (Eigen; `leftCols(n)` is `lo = 0`, `rightCols(n)` is
`lo = cols - n`). -/
def DMat.opCols [Add K] [Sub K] (op : AssignOp) (lo n : ℕ) (B : ℕ → ℕ → K) (out : DMat K) :
    DMat K :=
  { out with e := fun i j =>
      if lo ≤ j ∧ j < lo + n then op.apply (out.e i j) (B i (j - lo)) else out.e i j }

/-- `out.middleRows(lo, n) op= B` (Eigen; `topRows(n)` is `lo = 0`, `bottomRows(n)` is
`lo = rows - n`). -/
def DMat.opRows [Add K] [Sub K] (op : AssignOp) (lo n : ℕ) (B : ℕ → ℕ → K) (out : DMat K) :
    DMat K :=
  { out with e := fun i j =>
      if lo ≤ i ∧ i < lo + n then op.apply (out.e i j) (B (i - lo) j) else out.e i j }

/-- `out.middleCols(lo, n).diagonal() op= v` (Eigen). -/
def DMat.opDiag [Add K] [Sub K] (op : AssignOp) (lo n : ℕ) (v : K) (out : DMat K) : DMat K :=
  { out with e := fun i j =>
      if i < n ∧ j = lo + i then op.apply (out.e i j) v else out.e i j }

/-- `v.segment(lo, n) = b` (Eigen). -/
def DVec.setSeg (lo n : ℕ) (b : ℕ → K) (v : DVec K) : DVec K :=
  { v with e := fun i => if lo ≤ i ∧ i < lo + n then b (i - lo) else v.e i }

end Verif.Dense
