import Verif.Model.FwdDyn
import Mathlib.Analysis.Calculus.Deriv.Basic
import Mathlib.Analysis.Calculus.FDeriv.Pi
import Mathlib.Topology.Instances.Matrix

/-!
# What is assumed of Pinocchio, and the equations of motion

The contracts are what the action models expect of Pinocchio (not checked against Pinocchio, which is not in the repository): which equations the computed accelerations and forces solve, and
which functions the computed matrices are the derivatives of.
-/

namespace Verif.Fwd

open Matrix Filter Topology

variable {X Q : Type} {nv nc nu : ℕ}

/-- Symmetric positive definite. -/
def Spd (M : Mat nv nv) : Prop := Mᵀ = M ∧ ∀ v, v ≠ 0 → 0 < v ⬝ᵥ M *ᵥ v

/-- The inertia of the motors: none unless one was set. -/
def inertia (a : Arm nv) : Vec nv := if a.none = true then 0 else a.arm

/-- The contact problem has one solution: the mass matrix is positive definite, and there is damping or the rows of the Jacobian
are independent. -/
def Regular (M : Mat nv nv) (J : Mat nc nv) (μ : ℝ) : Prop :=
  Spd M ∧ 0 ≤ μ ∧ (0 < μ ∨ ∀ q, Jᵀ *ᵥ q = 0 → q = 0)

/-- The matrix of the contact problem. -/
def kkt (M : Mat nv nv) (J : Mat nc nv) (μ : ℝ) : Matrix (Fin nv ⊕ Fin nc) (Fin nv ⊕ Fin nc) ℝ :=
  fromBlocks M Jᵀ J (-(μ • 1))

/-- No two contacts are on the same joint. -/
def Layout.Distinct (L : Layout nc) : Prop := ∀ i k, L.joint i = L.joint k → L.own i = L.own k

/-- Contract of the dynamics without contacts. -/
structure RigidOk (P : Rigid X nv) : Prop where
  /-- `aba` inverts the equations of motion. -/
  aba : ∀ x τ, Spd (P.M x) → P.M x *ᵥ P.aba x τ + P.nle x = τ
  abaMinv : ∀ x τ, Spd (P.M x) → P.abaMinv x τ * P.M x = 1
  cholInv : ∀ M, Spd M → P.cholInv M * M = 1
  rnea : ∀ x a, P.rnea x a = P.M x *ᵥ a + P.nle x

/-- Contract of the dynamics with contacts. -/
structure ContactsOk (C : Contacts X nv nc) : Prop where
  /-- `M a = b + Jᵀ λ` and `J a + a0 = -μ λ`. -/
  fwd : ∀ M b J a0 μ, Regular M J μ →
    M *ᵥ (C.fwd M b J a0 μ).1 = b + Jᵀ *ᵥ (C.fwd M b J a0 μ).2
    ∧ J *ᵥ (C.fwd M b J a0 μ).1 + a0 = -(μ • (C.fwd M b J a0 μ).2)
  kinv : ∀ M J μ, Regular M J μ → C.kinv M J μ * kkt M J μ = 1

/-- Contract of the impulse dynamics: `M (v⁺ - v) = Jᵀ λ` and `J v⁺ = -r J v - μ λ`. -/
structure ImpactsOk (I : Impacts Q nv nc) : Prop where
  imp : ∀ M v J r μ, Regular M J μ →
    M *ᵥ ((I.imp M v J r μ).1 - v) = Jᵀ *ᵥ (I.imp M v J r μ).2
    ∧ J *ᵥ (I.imp M v J r μ).1 = -(r • J *ᵥ v) - μ • (I.imp M v J r μ).2
  kinv : ∀ M J μ, Regular M J μ → I.kinv M J μ * kkt M J μ = 1

/-- A curve of states with velocity `δ` (in the tangent space) at `0`, along which the mass matrix is continuous and the
derivatives computed by Pinocchio are derivatives. -/
structure RigidAlong (P : Rigid X nv) (x : ℝ → X) (δ : Tan nv → ℝ) : Prop where
  M : ContinuousAt (fun s => P.M (x s)) 0
  /-- `computeRNEADerivatives`: the torque for a fixed acceleration. -/
  rnea : ∀ a, HasDerivAt (fun s => P.M (x s) *ᵥ a + P.nle (x s)) (P.rneaDx (x 0) a *ᵥ δ) 0
  /-- `computeABADerivatives`: the acceleration for a fixed torque. -/
  aba : ∀ τ, HasDerivAt (fun s => P.aba (x s) τ) (P.abaDx (x 0) τ *ᵥ δ) 0

/-- The actuation model is differentiable along the curve of states and controls, with the derivatives it computes. -/
def ActAlong (A : Act X nv nu) (x : ℝ → X) (u : ℝ → Vec nu) (δ : Tan nv → ℝ) (w : Vec nu) : Prop :=
  HasDerivAt (fun s => A.tau (x s) (u s)) (A.dx (x 0) (u 0) *ᵥ δ + A.du (x 0) (u 0) *ᵥ w) 0

/-- The same for the quantities with contacts. -/
structure ContactsAlong (P : Rigid X nv) (C : Contacts X nv nc) (x : ℝ → X) (δ : Tan nv → ℝ) : Prop where
  M : ContinuousAt (fun s => P.M (x s)) 0
  J : ContinuousAt (fun s => C.J (x s)) 0
  /-- The torque for fixed acceleration and forces. -/
  rnea : ∀ a l, HasDerivAt (fun s => P.M (x s) *ᵥ a + P.nle (x s) - (C.J (x s))ᵀ *ᵥ l) 
    ((C.rneaDx (x 0) a l + fromCols (C.dtau (x 0) l) 0) *ᵥ δ) 0
  /-- The acceleration of the contacts for a fixed joint acceleration. -/
  a0 : ∀ a, HasDerivAt (fun s => C.J (x s) *ᵥ a + C.a0 (x s)) (C.da0 (x 0) a *ᵥ δ) 0

/-- The same for the quantities with impulses: a curve of configurations with velocity `δ`. -/
structure ImpactsAlong (I : Impacts Q nv nc) (grav : Q → Vec nv) (q : ℝ → Q) (δ : Vec nv) : Prop where
  M : ContinuousAt (fun s => I.M (q s)) 0
  J : ContinuousAt (fun s => I.J (q s)) 0
  /-- The torque at zero velocity for fixed acceleration and impulses. -/
  rnea : ∀ a l, HasDerivAt (fun s => I.M (q s) *ᵥ a + grav (q s) - (I.J (q s))ᵀ *ᵥ l) 
    ((I.rneaDq (q 0) a l + I.dtau (q 0) l) *ᵥ δ) 0
  grav : HasDerivAt (fun s => grav (q s)) (I.gravDq (q 0) *ᵥ δ) 0
  /-- The velocity of the contacts for a fixed joint velocity. -/
  v0 : ∀ v, HasDerivAt (fun s => I.J (q s) *ᵥ v) (I.dv0 (q 0) v *ᵥ δ) 0

end Verif.Fwd
