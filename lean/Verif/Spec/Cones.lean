import Verif.Model.Cones

/-!
# Specification of the cones
-/

namespace Verif.Cones.Spec

open Matrix

/-- Euclidean norm of a 3-vector. -/
noncomputable def nrm (v : V3) : ℝ := √(v ⬝ᵥ v)

/-- Coulomb's law for a surface with unit normal `n`: the tangential part of `f` is at most `mu` times its normal
part. -/
def Coulomb (n : V3) (mu : ℝ) (f : V3) : Prop := nrm (f - (n ⬝ᵥ f) • n) ≤ mu * (n ⬝ᵥ f)

/-- `R` is orthogonal. -/
def Orthogonal (R : M3) : Prop := Rᵀ * R = 1

/-- The surface normal of a cone with orientation `R` with respect to the inertial frame: the image of `UnitZ`. -/
def normal (R : M3) : V3 := R *ᵥ ![0, 0, 1]

/-- The force satisfies all rows of the friction cone. -/
def FSat (c : FCone) (f : V3) : Prop :=
  ∀ i, i < c.nf + 1 → c.lb i ≤ ((c.A i ⬝ᵥ f : ℝ) : EReal) ∧ ((c.A i ⬝ᵥ f : ℝ) : EReal) ≤ c.ub i

/-- The normal force is within the limits. -/
def Normal (minN : ℝ) (maxN : EReal) (fn : ℝ) : Prop := minN ≤ fn ∧ (fn : EReal) ≤ maxN

/-- The wrench `(f, τ)` satisfies all rows of the wrench cone. -/
def WSat (c : WCone) (f τ : V3) : Prop :=
  ∀ i, i < c.nf + 13 → c.lb i ≤ ((c.Al i ⬝ᵥ f + c.Ar i ⬝ᵥ τ : ℝ) : EReal) ∧
    ((c.Al i ⬝ᵥ f + c.Ar i ⬝ᵥ τ : ℝ) : EReal) ≤ c.ub i

/-- The friction pyramid of a local force: `nf` facets with coefficient `mu`. -/
def Pyramid (nf : ℕ) (mu : ℝ) (f : V3) : Prop :=
  ∀ i, i < nf → Real.cos (2 * Real.pi / nf * i) * f 0 + Real.sin (2 * Real.pi / nf * i) * f 1 ≤ mu * f 2

/-- The centre of pressure is in the box of half-length `L` and half-width `W`. -/
def CoP (L W : ℝ) (f τ : V3) : Prop := |τ 0| ≤ W * f 2 ∧ |τ 1| ≤ L * f 2

/-- The yaw-torque limits of Caron et al. for a rectangular support. -/
def Yaw (L W mu : ℝ) (f τ : V3) : Prop :=
  -mu * (L + W) * f 2 + |W * f 0 - mu * τ 0| + |L * f 1 - mu * τ 1| ≤ τ 2 ∧
  τ 2 ≤ mu * (L + W) * f 2 - |W * f 0 + mu * τ 0| - |L * f 1 + mu * τ 1|

/-- Coulomb's law linearised with four facets, at one contact point. -/
def Square (mu : ℝ) (f : V3) : Prop := |f 0| ≤ mu * f 2 ∧ |f 1| ≤ mu * f 2

/-- Torque of `f` applied at the point `(px, py)` of the surface. -/
def torque (px py : ℝ) (f : V3) : V3 := ![py * f 2, -px * f 2, px * f 1 - py * f 0]

end Verif.Cones.Spec
