import Verif.Model.Dense

/-! # Specification vocabulary: assignment operations on matrices -/

namespace Verif.Dense
variable {K : Type*} [Add K] [Sub K]

/-- `new` is the entry `old` after `=`, `+=` or `-=` with `b`. -/
def AssignOp.Gives (op : AssignOp) (old new b : K) : Prop :=
  (op = .setto → new = b) ∧ (op = .addto → new = old + b) ∧ (op = .rmfrom → new = old - b)

theorem AssignOp.gives_iff (op : AssignOp) (old new b : K) : op.Gives old new b ↔ new = op.apply old b := by
  cases op <;> simp [AssignOp.Gives, AssignOp.apply]

end Verif.Dense
