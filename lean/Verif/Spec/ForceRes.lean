import Verif.Model.ForceRes
import Mathlib.Analysis.Calculus.Deriv.Basic
import Mathlib.Analysis.Calculus.FDeriv.Pi

/-!
# Residuals of a contact force: what they should be
-/

namespace Verif.Frc

open Matrix Verif.Con

variable {k : Kind} {ρ : Type} {nr ndx nu : ℕ}

/-- The force of a contact with the components `l`, as a vector of the contact frame: the components a contact of one dimension
reports are along the third axis, those of two dimensions along the axes `x` and `z` of the frame `R` in its joint. -/
noncomputable def linear (R : M3) : (k : Kind) → (Fin k.nc → ℝ) → V3
  | .one, l => ![0, 0, l 0]
  | .two, l => l 0 • R.col 0 + l 1 • R.col 2
  | .three, l => l
  | .six, l => ![l 0, l 1, l 2]

/-- Reference of the force residual restricted to the components of the contact. -/
def refOf : (k : Kind) → Six → Fin k.nc → ℝ
  | .one, f => ![f.lin 2]
  | .two, f => ![f.lin 0, f.lin 2]
  | .three, f => f.lin
  | .six, f => vec f

/-- The reference the caller has set last. -/
def lastRef (a : ρ) : List (Op k ρ ndx nu) → ρ
  | [] => a
  | .setRef b :: ops => lastRef b ops
  | _ :: ops => lastRef a ops

/-- A call that concerns another data object than `i`. -/
def Elsewhere (i : ℕ) : Op k ρ ndx nu → Prop
  | .create j | .force j _ _ | .zeroForce j | .forceDiff j _ _ | .eval j | .evalT j | .diff j | .diffT j => j ≠ i
  | .setRef _ => False

/-- Evaluation of node `i` at one point: the action model stores the force with components `l` and calls `calc`, then it stores
the derivatives of the force and calls `calcDiff`; `m1`, `m2`, `m3` are what other nodes do meanwhile. -/
def evaluate (i : ℕ) (R : M3) (l : Fin k.nc → ℝ) (dfx : Matrix (Fin k.nc) (Fin ndx) ℝ) (dfu : Matrix (Fin k.nc) (Fin nu) ℝ)
    (m1 m2 m3 : List (Op k ρ ndx nu)) : List (Op k ρ ndx nu) :=
  [.force i R l] ++ m1 ++ [.eval i] ++ m2 ++ [.forceDiff i dfx dfu] ++ m3 ++ [.diff i]

/-- The products that `updateJacobians` stores are the derivatives of what `calc` stores: whenever the force components have the
derivative `dfx δx + dfu δu` along a curve, the residual has the derivative `Rx δx + Ru δu`. -/
def Exact (c : Code k ρ nr) (R : M3) : Prop :=
  ∀ (ndx nu : ℕ) (a : ρ) (Λ : ℝ → Fin k.nc → ℝ) (dfx : Matrix (Fin k.nc) (Fin ndx) ℝ) (dfu : Matrix (Fin k.nc) (Fin nu) ℝ)
    (δx : Fin ndx → ℝ) (δu : Fin nu → ℝ), HasDerivAt Λ (dfx *ᵥ δx + dfu *ᵥ δu) 0 →
      HasDerivAt (fun s => c.value a (stored R k (Λ s))) (c.jac a dfx *ᵥ δx + c.jac a dfu *ᵥ δu) 0

/-- Inverse dynamics: a call that leaves the derivatives of the forces as the action model has set them at creation. -/
def Inverse : Op k ρ ndx nu → Prop
  | .forceDiff _ _ _ => False
  | _ => True

/-- A call that does not make another data object than `i` refresh its derivatives, nor changes the reference. -/
def Undisturbed (i : ℕ) : Op k ρ ndx nu → Prop
  | .forceDiff _ _ _ => False
  | .setRef _ => False
  | .create j => j = i
  | .diff j => j = i
  | _ => True

end Verif.Frc
