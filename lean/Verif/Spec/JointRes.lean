import Verif.Model.JointRes
import Mathlib.Analysis.Calculus.Deriv.Basic
import Mathlib.Analysis.Calculus.FDeriv.Pi

/-!
# Residuals of efforts, accelerations, gravity, centre of mass and momentum: what they should be
-/

namespace Verif.Jr

open Matrix Verif.Con

variable {nr nv nu : ℕ} {S U : Type}

/-- The reference the caller has set last: the setter refuses a vector of the wrong size. -/
def lastVec (n : ℕ) (a : Fin n → ℝ) : List (Op S Vec) → Fin n → ℝ
  | [] => a
  | .set b :: ops => lastVec n (if h : b.1 = n then h ▸ b.2 else a) ops
  | _ :: ops => lastVec n a ops

/-- The reference the caller has set last. -/
def lastSet (a : U) : List (Op S U) → U
  | [] => a
  | .set b :: ops => lastSet b ops
  | _ :: ops => lastSet a ops

/-- The calls of an action model at one state and control: it refreshes the shared data, calls `calc`, refreshes them again (the
derivatives), calls `calcDiff`. -/
def evaluate (s t : S) : List (Op S U) := [.share s, .value, .share t, .diff]

/-- The same at the end of a trajectory. -/
def evaluateT (s t : S) : List (Op S U) := [.share s, .valueT, .share t, .diffT]

/-- `f` has at `0` the derivative that the blocks give along `δq`, `δv`, `δu`. -/
def Der {n : ℕ} (f : ℝ → Fin n → ℝ) (A B : Mat n nv) (C : Mat n nu) (δq δv : Fin nv → ℝ) (δu : Fin nu → ℝ) : Prop :=
  HasDerivAt f (A *ᵥ δq + B *ᵥ δv + C *ᵥ δu) 0

/-- The stored derivatives are those of `f` along `δq`, `δv`, `δu`. -/
def Cell.Right {n : ℕ} (d : Cell n nv nu) (f : ℝ → Fin n → ℝ) (δq δv : Fin nv → ℝ) (δu : Fin nu → ℝ) : Prop :=
  Der f d.left d.right d.Ru δq δv δu

end Verif.Jr
