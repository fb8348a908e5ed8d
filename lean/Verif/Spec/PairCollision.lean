import Verif.Model.PairCollision
import Verif.Spec.ContactFrame

/-!
# Specification: distance between two objects
-/

namespace Verif.Pc
open Matrix Verif.Con

variable {nv : ℕ}

/-- The point of the world where the body with placement `M` has its point `a`. -/
def at_ (M : Pose) (a : V3) : V3 := M.trans + M.rot *ᵥ a

/-- `p` are nearest points of the object `A`, carried by the body with placement `M`, and of the object `B` of the
world. -/
structure Nearest (M : Pose) (A B : Set V3) (p : V3 × V3) : Prop where
  fst : ∃ a ∈ A, p.1 = at_ M a
  snd : p.2 ∈ B
  le : ∀ a ∈ A, ∀ b ∈ B, (p.1 - p.2) ⬝ᵥ (p.1 - p.2) ≤ (at_ M a - b) ⬝ᵥ (at_ M a - b)

/-- Half the squared distance: the cost of the residual with the quadratic activation. -/
noncomputable def half (p : V3 × V3) : ℝ := (1 / 2) * ((p.1 - p.2) ⬝ᵥ (p.1 - p.2))

/-- The columns of the joint Jacobian outside the support are zero: those joints do not move the body. -/
def Supported (supp : Fin nv → Bool) (k : Kin nv) : Prop :=
  ∀ j, supp j = false → ∀ i, k.J.lin i j = 0 ∧ k.J.ang i j = 0

end Verif.Pc
