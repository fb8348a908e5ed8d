import Mathlib.Data.Matrix.ColumnRowPartitioned
import Mathlib.Data.Real.Basic
import Mathlib.LinearAlgebra.Matrix.NonsingularInverse

/-!
# Forward dynamics of multibody systems

`include/crocoddyl/multibody/actions/free-fwddyn.hxx`, `contact-fwddyn.hxx` and `impulse-fwddyn.hxx`: what the action models
do with the quantities that Pinocchio, the actuation model and the contact or impulse container compute.

Pinocchio's functions are parameters (structures `Rigid`, `Contacts`, `Impacts`); what is assumed of them is stated in
`Verif/Spec/FwdDyn.lean`. Configurations and states are abstract: the first half of a tangent vector (`Sum.inl`) is the
configuration, the second half (`Sum.inr`) the velocity.

Simplifications: scalars are real numbers; costs and constraints, which are evaluated afterwards on the data, are left out
(C09-C15); the dimension checks of `x` and `u` are in the types; the rank check of debug builds
(contact-fwddyn.hxx L114-122, impulse-fwddyn.hxx L218-227) is left out.
-/

namespace Verif.Fwd

open Matrix

noncomputable section

/-- Vectors. -/
abbrev Vec (k : ℕ) := Fin k → ℝ
/-- Tangent vectors of the state: configuration and velocity. -/
abbrev Tan (nv : ℕ) := Fin nv ⊕ Fin nv
/-- Matrices. -/
abbrev Mat (r c : ℕ) := Matrix (Fin r) (Fin c) ℝ

/-- What Pinocchio computes of the rigid-body system at a state: `computeAllTerms` (mass matrix, nonlinear effects), `rnea` at
rest, `aba`, `computeABADerivatives` (its three results, at a state and torque), the inverse through the Cholesky
factorisation, `computeRNEADerivatives` without external forces. -/
structure Rigid (X : Type) (nv : ℕ) where
  M : X → Mat nv nv
  nle : X → Vec nv
  aba : X → Vec nv → Vec nv
  abaDx : X → Vec nv → Matrix (Fin nv) (Tan nv) ℝ
  abaMinv : X → Vec nv → Mat nv nv
  cholInv : Mat nv nv → Mat nv nv
  rneaDx : X → Vec nv → Matrix (Fin nv) (Tan nv) ℝ
  rnea : X → Vec nv → Vec nv

/-- The actuation model: `calc`, and the two results of `calcDiff`. -/
structure Act (X : Type) (nv nu : ℕ) where
  tau : X → Vec nu → Vec nv
  dx : X → Vec nu → Matrix (Fin nv) (Tan nv) ℝ
  du : X → Vec nu → Mat nv nu

/-- The inertia of the motors: `armature_`, and the flag that is `true` until `set_armature` is called (`without_armature_` in
free-fwddyn.hxx, `with_armature_` in the two others). -/
structure Arm (nv : ℕ) where
  none : Bool := true
  arm : Vec nv := 0

/-- `set_armature`, free-fwddyn.hxx L351-362, contact-fwddyn.hxx L463-474, impulse-fwddyn.hxx L409-420 (vector of the right
dimension; another is refused). -/
def Arm.set {nv : ℕ} (_ : Arm nv) (v : Vec nv) : Arm nv := { none := false, arm := v }

/-- The mass matrix used for the dynamics: `M.diagonal() += armature_` if an armature was set, free-fwddyn.hxx L70,
contact-fwddyn.hxx L108-110, impulse-fwddyn.hxx L213-215. -/
def Arm.mass {nv : ℕ} (a : Arm nv) (M : Mat nv nv) : Mat nv nv := if a.none then M else M + diagonal a.arm

/-! ### Free forward dynamics -/

/-- The part of the data of the free forward dynamics that is modelled. -/
structure FDat (nv nu : ℕ) where
  xout : Vec nv
  Minv : Mat nv nv
  tau : Vec nv
  Fx : Matrix (Fin nv) (Tan nv) ℝ
  Fu : Mat nv nu
  /-- `multibody.joint->a`, `->tau`, `->da_dx`, `->da_du`. -/
  ja : Vec nv
  jtau : Vec nu
  jda_dx : Matrix (Fin nv) (Tan nv) ℝ
  jda_du : Mat nv nu

variable {X : Type} {nv nc nu : ℕ}

/-- `calc(data, x, u)`, free-fwddyn.hxx L41-87. -/
def freeCalc (P : Rigid X nv) (A : Act X nv nu) (m : Arm nv) (d : FDat nv nu) (x : X) (u : Vec nu) : FDat nv nu :=
  let d := { d with tau := A.tau x u }
  let d := if m.none then { d with xout := P.aba x d.tau }
    else
      let Minv := P.cholInv (m.mass (P.M x))
      { d with Minv := Minv, xout := Minv *ᵥ (d.tau - P.nle x) }
  { d with ja := d.xout, jtau := u }

/-- `calcDiff(data, x, u)`, free-fwddyn.hxx L114-161. -/
def freeDiff (P : Rigid X nv) (A : Act X nv nu) (m : Arm nv) (d : FDat nv nu) (x : X) (u : Vec nu) : FDat nv nu :=
  let d := if m.none then
      { d with Fx := P.abaDx x d.tau + P.abaMinv x d.tau * A.dx x u, Fu := P.abaMinv x d.tau * A.du x u }
    else
      let dtau := A.dx x u - P.rneaDx x d.xout
      { d with Fx := d.Minv * dtau, Fu := d.Minv * A.du x u }
  { d with jda_dx := d.Fx, jda_du := d.Fu }

/-- `quasiStatic`, free-fwddyn.hxx L222-257. `rest x` is the state with the same configuration and zero velocity
(`tmp_xstatic`); `pinv` is `pseudoInverse`. -/
def freeStatic (P : Rigid X nv) (A : Act X nv nu) (rest : X → X) (pinv : ∀ {a b : ℕ}, Mat a b → Mat b a) (x : X) : Vec nu :=
  pinv (A.du (rest x) 0) *ᵥ P.rnea (rest x) 0

/-! ### Forward dynamics with contacts -/

/-- Which contact (in the order of the container) and which joint a row of the stacked contact Jacobian belongs to. -/
structure Layout (nc : ℕ) where
  own : Fin nc → ℕ
  joint : Fin nc → ℕ

/-- The forces that reach the external forces `fext`: `updateForce` assigns `fext[joint]` contact after contact
(multiple-contacts.hxx L233-282, multiple-impulses.hxx L163-192), so that of several active contacts at one joint only
the last counts. -/
def Layout.seen (L : Layout nc) (on : Fin nc → Bool) (l : Vec nc) : Vec nc := fun i =>
  if on i = true ∧ ∀ k, on k = true → L.joint k = L.joint i → L.own k ≤ L.own i then l i else 0

/-- What is computed with the contacts: `contacts_->calc` (Jacobian and desired acceleration, at the state), `da0_dx` of
`contacts_->calcDiff` (at the state and joint acceleration), `computeRNEADerivatives` with external forces (at the state,
acceleration and forces), the sum of the `dtau_dq` of the contacts that `updateRneaDiff` adds to it, `forwardDynamics` (mass matrix, generalised force without
contacts, Jacobian, desired acceleration, damping; acceleration and forces) and
`getKKTContactDynamicMatrixInverse` for the factorisations left by it. -/
structure Contacts (X : Type) (nv nc : ℕ) where
  J : X → Mat nc nv
  a0 : X → Vec nc
  da0 : X → Vec nv → Matrix (Fin nc) (Tan nv) ℝ
  rneaDx : X → Vec nv → Vec nc → Matrix (Fin nv) (Tan nv) ℝ
  dtau : X → Vec nc → Mat nv nv
  lay : Layout nc
  fwd : Mat nv nv → Vec nv → Mat nc nv → Vec nc → ℝ → Vec nv × Vec nc
  kinv : Mat nv nv → Mat nc nv → ℝ → Matrix (Fin nv ⊕ Fin nc) (Fin nv ⊕ Fin nc) ℝ

/-- The part of the data that is modelled. `facM`, `facJ`, `facμ` stand for the factorisations in Pinocchio's data. -/
structure CDat (nv nc nu : ℕ) where
  xout : Vec nv
  tau : Vec nv
  facM : Mat nv nv
  facJ : Mat nc nv
  facμ : ℝ
  /-- The forces handed to the contacts, and through them to the external forces. -/
  lam : Vec nc
  Fx : Matrix (Fin nv) (Tan nv) ℝ
  Fu : Mat nv nu
  df_dx : Matrix (Fin nc) (Tan nv) ℝ
  df_du : Mat nc nu
  ja : Vec nv
  jtau : Vec nu
  jda_dx : Matrix (Fin nv) (Tan nv) ℝ
  jda_du : Mat nv nu
  /-- What `updateAcceleration`, `updateAccelerationDiff` and `updateForceDiff` hand to the contacts. -/
  cdv : Vec nv
  cddv_dx : Matrix (Fin nv) (Tan nv) ℝ
  cdf_dx : Matrix (Fin nc) (Tan nv) ℝ
  cdf_du : Mat nc nu

/-- The action model: armature, damping, whether the derivatives of the forces are wanted. -/
structure CMod (nv : ℕ) where
  arm : Arm nv := {}
  damping : ℝ := 0
  force : Bool := false

/-- The check of the damping in the constructor, contact-fwddyn.hxx L59-63: a negative one is refused. -/
def CMod.make (nv : ℕ) (damping : ℝ) (force : Bool) : Option (CMod nv) :=
  if damping < 0 then none else some { damping := damping, force := force }

/-- `set_damping_factor`, contact-fwddyn.hxx L476-484: a negative one is refused, the old one is kept. -/
def CMod.setDamping (m : CMod nv) (damping : ℝ) : Option Unit × CMod nv :=
  if damping < 0 then (none, m) else (some (), { m with damping := damping })

/-- `calc(data, x, u)`, contact-fwddyn.hxx L82-139. -/
def conCalc (P : Rigid X nv) (C : Contacts X nv nc) (A : Act X nv nu) (m : CMod nv) (d : CDat nv nc nu) (x : X)
    (u : Vec nu) : CDat nv nc nu :=
  let M := m.arm.mass (P.M x)
  let d := { d with tau := A.tau x u }
  let r := C.fwd M (d.tau - P.nle x) (C.J x) (C.a0 x) m.damping
  let d := { d with facM := M, facJ := C.J x, facμ := m.damping, xout := r.1 }
  { d with cdv := r.1, lam := r.2, ja := r.1, jtau := u }

/-- `calcDiff(data, x, u)`, contact-fwddyn.hxx L168-241. -/
def conDiff (C : Contacts X nv nc) (A : Act X nv nu) (m : CMod nv) (d : CDat nv nc nu) (x : X) (u : Vec nu) :
    CDat nv nc nu :=
  let dr := C.rneaDx x d.xout (C.lay.seen (fun _ => true) d.lam)
  let dr := dr + fromCols (C.dtau x d.lam) 0
  let K := C.kinv d.facM d.facJ d.facμ
  let da := C.da0 x d.xout
  let aτ := K.toBlocks₁₁
  let aa := K.toBlocks₁₂
  let fτ := K.toBlocks₂₁
  let fa := K.toBlocks₂₂
  let d := { d with Fx := -(aτ * dr) }
  let d := { d with Fx := d.Fx - aa * da }
  let d := { d with Fx := d.Fx + aτ * A.dx x u, Fu := aτ * A.du x u }
  let d := { d with jda_dx := d.Fx, jda_du := d.Fu }
  if m.force then
    let d := { d with df_dx := fτ * dr }
    let d := { d with df_dx := d.df_dx + fa * da }
    let d := { d with df_dx := d.df_dx - fτ * A.dx x u, df_du := -(fτ * A.du x u) }
    { d with cddv_dx := d.Fx, cdf_dx := d.df_dx, cdf_du := d.df_du }
  else d

/-- `quasiStatic`, contact-fwddyn.hxx L292-345: the first `nu` entries of the pseudo-inverse of the stacked matrix times
the torque of gravity. -/
def conStatic (P : Rigid X nv) (C : Contacts X nv nc) (A : Act X nv nu) (rest : X → X)
    (pinv : Matrix (Fin nv) (Fin nu ⊕ Fin nc) ℝ → Matrix (Fin nu ⊕ Fin nc) (Fin nv) ℝ) (x : X) : Vec nu :=
  let S : Matrix (Fin nv) (Fin nu ⊕ Fin nc) ℝ := fromCols (A.du (rest x) 0) (C.J (rest x))ᵀ
  fun i => (pinv S *ᵥ P.rnea (rest x) 0) (Sum.inl i)

/-! ### Impulse dynamics -/

/-- What is computed with the impulses at a configuration: mass matrix, Jacobian, derivative of RNEA at zero velocity with
external forces, what `updateRneaDiff` adds to it, derivative of gravity, `dv0_dq` of `impulses_->calcDiff` after forward kinematics with a
velocity, `impulseDynamics` (mass matrix, velocity, Jacobian, restitution, damping; velocity after and impulses), the
KKT inverse. -/
structure Impacts (Q : Type) (nv nc : ℕ) where
  M : Q → Mat nv nv
  J : Q → Mat nc nv
  rneaDq : Q → Vec nv → Vec nc → Mat nv nv
  dtau : Q → Vec nc → Mat nv nv
  lay : Layout nc
  gravDq : Q → Mat nv nv
  dv0 : Q → Vec nv → Mat nc nv
  imp : Mat nv nv → Vec nv → Mat nc nv → ℝ → ℝ → Vec nv × Vec nc
  kinv : Mat nv nv → Mat nc nv → ℝ → Matrix (Fin nv ⊕ Fin nc) (Fin nv ⊕ Fin nc) ℝ

/-- The part of the data that is modelled. -/
structure IDat (Q : Type) (nv nc : ℕ) where
  xnext : Q × Vec nv
  facM : Mat nv nv
  facJ : Mat nc nv
  facμ : ℝ
  /-- `pinocchio.M`, of which Pinocchio fills the upper triangle only. -/
  pM : Mat nv nv
  lam : Vec nc
  Fx : Matrix (Tan nv) (Tan nv) ℝ
  df_dx : Matrix (Fin nc) (Tan nv) ℝ
  ivn : Vec nv
  idvn : Matrix (Fin nv) (Tan nv) ℝ
  idf : Matrix (Fin nc) (Tan nv) ℝ

/-- The action model. -/
structure IMod (nv : ℕ) where
  arm : Arm nv := {}
  r : ℝ := 0
  damping : ℝ := 0
  force : Bool := false

/-- `initCalc`, impulse-fwddyn.hxx L192-236, called by both `calc`s. -/
def impCalc {Q : Type} (I : Impacts Q nv nc) (m : IMod nv) (d : IDat Q nv nc) (x : Q × Vec nv) : IDat Q nv nc :=
  let M := m.arm.mass (I.M x.1)
  let r := I.imp M x.2 (I.J x.1) m.r m.damping
  { d with pM := M, facM := M, facJ := I.J x.1, facμ := m.damping, xnext := (x.1, r.1), ivn := r.1, lam := r.2 }

/-- The upper triangle mirrored below the diagonal. -/
def mirror (M : Mat nv nv) : Mat nv nv := of fun i j => if j < i then M j i else M i j

/-- `initCalcDiff`, impulse-fwddyn.hxx L239-304. `computeRNEADerivatives` also writes the mass matrix of the system, without
`armature_`, into `pinocchio.M` (its derivative with respect to the acceleration; free-invdyn.hxx L158-170 relies on it). -/
def impDiff {Q : Type} (I : Impacts Q nv nc) (m : IMod nv) (d : IDat Q nv nc) (x : Q × Vec nv) : IDat Q nv nc :=
  let dr := I.rneaDq x.1 (d.xnext.2 - x.2) (I.lay.seen (fun _ => true) d.lam)
  let d := { d with pM := I.M x.1 }
  let K := I.kinv d.facM d.facJ d.facμ
  let dv := I.dv0 x.1 d.xnext.2
  let aτ := K.toBlocks₁₁
  let aa := K.toBlocks₁₂
  let fτ := K.toBlocks₂₁
  let fa := K.toBlocks₂₂
  let dr := dr + I.dtau x.1 d.lam
  let dr := dr - I.gravDq x.1
  let d := { d with pM := mirror d.pM }
  let d := { d with Fx := fromBlocks 1 0 (-(aτ * dr) - aa * dv) (aτ * d.pM) }
  if m.force then
    let d := { d with df_dx := fromCols (fτ * dr + fa * dv) (fa * d.facJ) }
    { d with idvn := d.Fx.submatrix Sum.inr id, idf := d.df_dx }
  else d

end
end Verif.Fwd
