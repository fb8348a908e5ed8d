import Verif.Model.FrameRes
import Verif.Spec.ContactFrame

/-!
# Residuals of a frame: what the caller has chosen, and what is assumed of the logarithms
-/

namespace Verif.Fr

open Matrix Verif.Con

variable {nv : ℕ}

/-- Frame and reference the caller has chosen last, starting with those of the constructor. -/
def chosen {ρ : Type} (c : ℕ × ρ) : List (Op (Set ρ) nv) → ℕ × ρ
  | [] => c
  | .set (.id i) :: ops => chosen (i, c.2) ops
  | .set (.ref a) :: ops => chosen (c.1, a) ops
  | _ :: ops => chosen c ops

/-- The same for the velocity residual: frame, reference, type. -/
def chosenV (c : ℕ × Six × Ref) : List (Op SetV nv) → ℕ × Six × Ref
  | [] => c
  | .set (.id i) :: ops => chosenV (i, c.2.1, c.2.2) ops
  | .set (.ref a) :: ops => chosenV (c.1, a, c.2.2) ops
  | .set (.type t) :: ops => chosenV (c.1, c.2.1, t) ops
  | _ :: ops => chosenV c ops

/-- What happens between `calc` and `calcDiff` at one state: the same kinematics again, and the other residuals. -/
inductive Quiet {U : Type} (k : ℕ → Kin nv) : Op U nv → Prop
  | again : Quiet k (.kinematics k)
  | other (i : ℕ) : Quiet k (.other i)

/-- The calls an action makes at one state. -/
def evaluate {U : Type} (k : ℕ → Kin nv) (mid : List (Op U nv)) : List (Op U nv) :=
  [.kinematics k, .calc] ++ mid ++ [.diff]

/-- `Rx`. -/
def DT.Rx (d : DT nv) : Matrix (Fin 3) (Tan nv) ℝ := fromCols d.left d.right
/-- `Rx`. -/
def DR.Rx (d : DR nv) : Matrix (Fin 3) (Tan nv) ℝ := fromCols d.left d.right

/-- Product of `Rx`, given by its two halves of six rows, and a tangent vector. -/
def rx (left right : Jac nv) (δ : Tan nv → ℝ) : Six := (left.mulVec (δ ∘ Sum.inl)).add (right.mulVec (δ ∘ Sum.inr))

/-- `log3` and `Jlog3` along a curve of rotations: if the curve turns with angular velocity `ω` (in the body) at `0`, the
logarithm has the derivative `Jlog3 ω`. It holds away from the half turns. -/
def LogOn3 (L : Log3) (R : ℝ → M3) : Prop :=
  ∀ ω : V3, (∀ i j, HasDerivAt (fun s => R s i j) ((R 0 * skew ω) i j) 0) →
    HasDerivAt (fun s => L.log (R s)) (L.jlog (R 0) *ᵥ ω) 0

/-- The same for `log6` and `Jlog6`. -/
def LogOn (L : Log) (M : ℝ → Pose) : Prop := ∀ m : Six, Moves M m 0 → LogAlong L M m 0

/-- The logarithm of a rotation vanishes only at the identity. -/
def LogZero3 (L : Log3) : Prop := ∀ R : M3, Rot R → (L.log R = 0 ↔ R = 1)

/-- The logarithm of a placement vanishes only at the identity. -/
def LogZero (L : Log) : Prop := ∀ M : Pose, Rot M.rot → (L.log M = ⟨0, 0⟩ ↔ M = ⟨1, 0⟩)

end Verif.Fr
