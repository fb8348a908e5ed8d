import Verif.Model.IntegratorsManifold
import Verif.Spec.StateMultibody

/-!
# C101, C102: derivatives on the manifold of states

A derivative with respect to the state is a derivative with respect to an increment `e` of it, at zero; a derivative of a state is
the derivative of its difference from the value.
-/

namespace Verif.Im

open Verif.Deriv
open Verif.Mb (Pin)
open Verif.Integrators (Ix Ctl rkN)
open Verif.Controls (RKType)

variable {P : Pin} {nw nu : ℕ}

/-- `A` and `B` are the derivatives of a state that depends on a state and a control. -/
def StateJac (f : X P → (Fin nu → ℝ) → X P) (A : Matrix (Ix P.nv) (Ix P.nv) ℝ) (B : Matrix (Ix P.nv) (Fin nu) ℝ) (x : X P)
    (u : Fin nu → ℝ) : Prop :=
  HasJac (fun e v => diff (f x u) (f (int x e) v)) A B 0 u

/-- `A` and `B` are the derivatives of a vector that depends on a state and a control. -/
def VecJac {n : ℕ} (f : X P → (Fin nu → ℝ) → Fin n → ℝ) (A : Matrix (Fin n) (Ix P.nv) ℝ) (B : Matrix (Fin n) (Fin nu) ℝ)
    (x : X P) (u : Fin nu → ℝ) : Prop :=
  HasJac (fun e v => f (int x e) v) A B 0 u

/-- `a` and `b` are the gradients of a number that depends on a state and a control. -/
def NumGrad (f : X P → (Fin nu → ℝ) → ℝ) (a : Ix P.nv → ℝ) (b : Fin nu → ℝ) (x : X P) (u : Fin nu → ℝ) : Prop :=
  HasGrad (fun e v => f (int x e) v) a b 0 u

/-- The derivatives of the differential model are exact at a point. -/
structure Exact (D : DM P nw) (x : X P) (w : Fin nw → ℝ) : Prop where
  xout : VecJac D.xout (D.Fx x w) (D.Fu x w) x w
  cost : NumGrad D.cost (D.Lx x w) (D.Lu x w) x w

/-- The differential model is exact at the points at which the scheme evaluates it. -/
def ExactAtStages (D : DM P nw) (C : Ctl ℝ nw nu) (ty : RKType) (dt : ℝ) (x : X P) (u : Fin nu → ℝ) : Prop :=
  ∀ i < rkN ty, Exact D (rkStage D C ty dt x u i).y (rkStage D C ty dt x u i).w

/-- The differential model does not distinguish configurations that describe the same placement. -/
def Respects (Same : (Fin P.nq → ℝ) → (Fin P.nq → ℝ) → Prop) (D : DM P nw) : Prop :=
  ∀ q q' v w, Same q q' → D.xout ⟨q, v⟩ w = D.xout ⟨q', v⟩ w ∧ D.cost ⟨q, v⟩ w = D.cost ⟨q', v⟩ w

/-- The time derivative of the state at the state `y` with the control value at the fraction `c` of the step. -/
def slope (D : DM P nw) (C : Ctl ℝ nw nu) (u : Fin nu → ℝ) (y : X P) (c : ℝ) : Tan P :=
  Sum.elim y.v (D.xout y (Matrix.mulVec (C c) u))

/-- The running cost there. -/
def running (D : DM P nw) (C : Ctl ℝ nw nu) (u : Fin nu → ℝ) (y : X P) (c : ℝ) : ℝ := D.cost y (Matrix.mulVec (C c) u)

/-- The state in a vector. -/
def decX (P : Pin) (x : Dense.DVec ℝ) : X P := ⟨Mb.conf P x, Mb.veloc P x⟩

/-- The position of an entry in a tangent vector. -/
def pos {n : ℕ} : Ix n → ℕ
  | .inl i => i
  | .inr i => n + i

/-- The tangent vector in a vector. -/
def decT (P : Pin) (x : Dense.DVec ℝ) : Tan P := fun i => x.e (pos i)

/-- The matrix in a buffer with `2 nv` rows and columns. -/
def decM (P : Pin) (J : Dense.DMat ℝ) : Matrix (Ix P.nv) (Ix P.nv) ℝ := fun i j => J.e (pos i) (pos j)

/-- The matrix in a buffer with `2 nv` rows and `c` columns. -/
def decU (P : Pin) (c : ℕ) (J : Dense.DMat ℝ) : Matrix (Ix P.nv) (Fin c) ℝ := fun i j => J.e (pos i) j

end Verif.Im
