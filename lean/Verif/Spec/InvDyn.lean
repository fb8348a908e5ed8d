import Verif.Model.InvDyn
import Verif.Spec.FwdDyn

/-!
# Inverse dynamics: contracts and what is claimed
-/

namespace Verif.Inv

open Matrix Verif.Fwd

variable {X : Type} {nv nc nu m : ℕ}

/-- The actuation drives the joints marked by `S`: whatever was called before on its data, the generalised force is `B u`,
where the columns of `B` are orthonormal and span the forces on the marked joints; the commands for a force are given
by the transpose. There are as many marked joints as controls. -/
structure Drives (A : Act.Model ℝ X nv nu (nv + nv)) (S : Fin nv → Bool) (B : Mat nv nu) : Prop where
  eval : ∀ ops x u, (A.eval (A.run ops) x u).tau = B *ᵥ u
  cmd : ∀ ops x τ, (A.commands (A.run ops) x τ).u = Bᵀ *ᵥ τ
  mtau : ∀ ops, (A.run ops).mtau = Bᵀ
  dx : ∀ ops, (A.run ops).dtauDx = 0
  du : ∀ ops, (A.run ops).dtauDu = B
  set : ∀ ops, (A.run ops).tauSet = S
  orth : Bᵀ * B = 1
  free : ∀ u k, S k = false → (B *ᵥ u) k = 0
  onto : ∀ τ, (∀ k, S k = false → τ k = 0) → B *ᵥ (Bᵀ *ᵥ τ) = τ
  count : ((List.finRange nv).filter fun k => !S k).length + nu = nv

/-- Contract of what Pinocchio and the contacts compute, for nonlinear effects `nle` and contact drift `a0`. -/
structure PlantOk (P : Plant X nv nc) (nle : X → Vec nv) (a0 : X → Vec nc) : Prop where
  rnea : ∀ x a l, P.rnea x a l = P.M x *ᵥ a + nle x - (P.J x)ᵀ *ᵥ l
  acc : ∀ x a, P.acc x a = P.J x *ᵥ a + a0 x

/-- Along a curve of states with velocity `δ` the computed matrices are derivatives. -/
structure PlantAlong (P : Plant X nv nc) (nle : X → Vec nv) (x : ℝ → X) (δ : Tan nv → ℝ) : Prop where
  M : ContinuousAt (fun s => P.M (x s)) 0
  J : ContinuousAt (fun s => P.J (x s)) 0
  rnea : ∀ a l, HasDerivAt (fun s => P.M (x s) *ᵥ a + nle (x s) - (P.J (x s))ᵀ *ᵥ l)
    ((P.rneaDx (x 0) a l + fromCols (P.dtau (x 0) l) 0) *ᵥ δ) 0
  acc : ∀ a, HasDerivAt (fun s => P.acc (x s) a) (P.da0 (x 0) a *ᵥ δ) 0

/-- No two active contacts are on the same joint. -/
def Apart (L : Layout nc) (on : Fin nc → Bool) : Prop :=
  ∀ i k, on i = true → on k = true → L.joint i = L.joint k → L.own i = L.own k

/-- The forces of the active contacts. -/
def forces (on : Fin nc → Bool) (f : Vec nc) : Vec nc := fun i => if on i = true then f i else 0

/-- Data made by the constructor and used by any calls, at any states, with any set of active contacts. -/
inductive Reach (P : Plant X nv nc) (A : Act.Model ℝ X nv nu (nv + nv)) (rest : X → X)
    (pinv : Matrix (Fin nv) (Fin nu ⊕ Fin nc) ℝ → Matrix (Fin nu ⊕ Fin nc) (Fin nv) ℝ) : Dat nv nc nu m → Prop
  | create : Reach P A rest pinv (create A)
  | value {d e} (on x u) : Reach P A rest pinv d → invCalc P A on d x u = some e → Reach P A rest pinv e
  | diff {d e} (on x u) : Reach P A rest pinv d → invDiff P A on d x u = some e → Reach P A rest pinv e
  | static {d e u} (on x) : Reach P A rest pinv d → invStatic P A on rest pinv d x = some (e, u) → Reach P A rest pinv e

end Verif.Inv
