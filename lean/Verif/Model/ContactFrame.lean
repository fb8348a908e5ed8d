import Mathlib.Data.Matrix.ColumnRowPartitioned
import Mathlib.Data.Real.Basic
import Mathlib.LinearAlgebra.Matrix.Notation
import Mathlib.LinearAlgebra.CrossProduct

/-!
# Contact and impulse models

`include/crocoddyl/multibody/contacts/contact-{1d,2d,3d,6d}.hxx` and `multibody/impulses/impulse-{3d,6d}.hxx`: from the
kinematics of the joint that carries the contact to the Jacobian, desired acceleration, its derivative, the force on the joint
and the derivative of the joint torques.

What Pinocchio holds of the joint is a parameter (`Kin`). The functions of Pinocchio that move it to the contact frame
(`updateFramePlacement`, `getFrameJacobian`, `getFrameVelocity`, `getFrameAcceleration`, `getFrameClassicalAcceleration`, the
action of a placement) are modelled by the usual formulas of rigid-body kinematics (not checked against Pinocchio, which
is not in the repository).

Simplifications: scalars are real numbers; the dimension check of `force` in `updateForce` is in the types; of the data only the
fields that are read later are kept.
-/

namespace Verif.Con

open Matrix

noncomputable section

/-- Vectors of space. -/
abbrev V3 := Fin 3 → ℝ
/-- `Matrix3s`. -/
abbrev M3 := Matrix (Fin 3) (Fin 3) ℝ
/-- Matrices. -/
abbrev Mat (r c : ℕ) := Matrix (Fin r) (Fin c) ℝ
/-- Tangent vectors of the state: configuration and velocity. -/
abbrev Tan (nv : ℕ) := Fin nv ⊕ Fin nv

/-- A `pinocchio::Motion` or `pinocchio::Force`: linear and angular part. -/
structure Six where
  lin : V3
  ang : V3

/-- A matrix with six rows (`Matrix6xs`): `topRows<3>` and `bottomRows<3>`. -/
structure Jac (nv : ℕ) where
  lin : Mat 3 nv
  ang : Mat 3 nv

/-- A six by six matrix, in blocks. -/
structure Mat6 where
  ll : M3
  la : M3
  al : M3
  aa : M3

/-- `pinocchio::SE3`. -/
structure Pose where
  rot : M3
  trans : V3

/-- `pinocchio::ReferenceFrame`. -/
inductive Ref where
  | loc
  | world
  | lwa

/-- `pinocchio::skew`. -/
def skew (u : V3) : M3 := !![0, -u 2, u 1; u 2, 0, -u 0; -u 1, u 0, 0]

/-- Product of a six by six matrix and one with six rows. -/
def Mat6.mul {nv : ℕ} (A : Mat6) (X : Jac nv) : Jac nv where
  lin := A.ll * X.lin + A.la * X.ang
  ang := A.al * X.lin + A.aa * X.ang

/-- `SE3::inverse`. -/
def Pose.inv (M : Pose) : Pose := ⟨M.rotᵀ, -(M.rotᵀ *ᵥ M.trans)⟩

/-- Product of placements. -/
def Pose.mul (A B : Pose) : Pose := ⟨A.rot * B.rot, A.trans + A.rot *ᵥ B.trans⟩

/-- `SE3::toActionMatrix`. -/
def Pose.action (M : Pose) : Mat6 := ⟨M.rot, skew M.trans * M.rot, 0, M.rot⟩

/-- `SE3::act` on a motion. -/
def Pose.act (M : Pose) (m : Six) : Six := ⟨M.rot *ᵥ m.lin + M.trans ⨯₃ (M.rot *ᵥ m.ang), M.rot *ᵥ m.ang⟩

/-- `SE3::actInv` on a motion. -/
def Pose.actInv (M : Pose) (m : Six) : Six := ⟨M.rotᵀ *ᵥ (m.lin - M.trans ⨯₃ m.ang), M.rotᵀ *ᵥ m.ang⟩

/-- `SE3::act` on a force. -/
def Pose.actF (M : Pose) (f : Six) : Six := ⟨M.rot *ᵥ f.lin, M.rot *ᵥ f.ang + M.trans ⨯₃ (M.rot *ᵥ f.lin)⟩

/-- `SE3::actInv` on a force. -/
def Pose.actInvF (M : Pose) (f : Six) : Six := ⟨M.rotᵀ *ᵥ f.lin, M.rotᵀ *ᵥ (f.ang - M.trans ⨯₃ f.lin)⟩

/-- What Pinocchio's data hold of the joint that carries the contact: placement `oMi`, spatial velocity `v` and acceleration `a`
in the frame of the joint, and the four results of `getJointAccelerationDerivatives(…, LOCAL, …)`: `v_partial_dq`,
`a_partial_dq`, `a_partial_dv` and `a_partial_da` (the Jacobian of the joint). -/
structure Kin (nv : ℕ) where
  oMi : Pose
  v : Six
  a : Six
  vq : Jac nv
  aq : Jac nv
  av : Jac nv
  J : Jac nv

variable {nv : ℕ}

/-- `updateFramePlacement`: `jMf` is the placement of the contact frame in the frame of the joint (`frames[id].placement`). -/
def Kin.oMf (k : Kin nv) (jMf : Pose) : Pose := k.oMi.mul jMf

/-- `fXj`, contact-3d.hpp L204: `jMf.inverse().toActionMatrix()`. -/
def fXj (jMf : Pose) : Mat6 := jMf.inv.action

/-- `getFrameJacobian(…, LOCAL, fJf)`. -/
def Kin.fJf (k : Kin nv) (jMf : Pose) : Jac nv := (fXj jMf).mul k.J

/-- `getFrameVelocity(…)` in the frame of the contact. -/
def Kin.vel (k : Kin nv) (jMf : Pose) : Six := jMf.actInv k.v

/-- `getFrameAcceleration(…)` in the frame of the contact. -/
def Kin.acc (k : Kin nv) (jMf : Pose) : Six := jMf.actInv k.a

/-- `getFrameClassicalAcceleration(…, LOCAL).linear()`. -/
def Kin.classical (k : Kin nv) (jMf : Pose) : V3 := (k.acc jMf).lin + (k.vel jMf).ang ⨯₃ (k.vel jMf).lin

/-- `getFrameVelocity(…, type)`. -/
def Kin.velIn (k : Kin nv) (jMf : Pose) : Ref → Six
  | .loc => k.vel jMf
  | .world => (k.oMf jMf).act (k.vel jMf)
  | .lwa => ⟨(k.oMf jMf).rot *ᵥ (k.vel jMf).lin, (k.oMf jMf).rot *ᵥ (k.vel jMf).ang⟩

/-! ### The part that the contacts of one and three dimensions share -/

/-- The fields of `ContactData1DTpl` and `ContactData3DTpl` for the local frame; `oMf` is `pinocchio->oMf[id_]`. -/
structure Loc (nv : ℕ) where
  oMf : Pose
  fJf : Jac nv
  v : Six
  a0l : V3
  dpl : V3
  dal : Matrix (Fin 3) (Tan nv) ℝ

/-- The two gains of the stabilisation. -/
structure Gains where
  kp : ℝ
  kd : ℝ

/-- `calc` up to the local acceleration, contact-1d.hxx L69-91 (with `ref` the vector `xref_ * Raxis_ * UnitZ()`) and
contact-3d.hxx L66-86 (with `ref` the vector `xref_`). -/
def locCalc (jMf : Pose) (g : Gains) (ref : V3) (k : Kin nv) (d : Loc nv) : Loc nv :=
  let d := { d with oMf := k.oMf jMf, fJf := k.fJf jMf, v := k.vel jMf, a0l := k.classical jMf }
  let d := if g.kp ≠ 0 then
      let dpl := d.oMf.rotᵀ *ᵥ (d.oMf.trans - ref)
      { d with dpl := dpl, a0l := d.a0l + g.kp • dpl }
    else d
  if g.kd ≠ 0 then { d with a0l := d.a0l + g.kd • d.v.lin } else d

/-- `calcDiff` up to the local derivatives, contact-1d.hxx L109-145 and contact-3d.hxx L104-140. -/
def locDiff (jMf : Pose) (g : Gains) (k : Kin nv) (d : Loc nv) : Loc nv :=
  let X := fXj jMf
  let dq := X.mul k.vq
  let left := (X.mul k.aq).lin + skew d.v.ang * dq.lin - skew d.v.lin * dq.ang
  let right := (X.mul k.av).lin + skew d.v.ang * d.fJf.lin - skew d.v.lin * d.fJf.ang
  let left := if g.kp ≠ 0 then left + (g.kp • skew d.dpl) * d.fJf.ang + g.kp • d.fJf.lin else left
  let left' := if g.kd ≠ 0 then left + g.kd • dq.lin else left
  let right' := if g.kd ≠ 0 then right + g.kd • d.fJf.lin else right
  { d with dal := fromCols left' right' }

/-- The local acceleration with the current joint acceleration, contact-1d.hxx L152-163 and contact-3d.hxx L147-158. -/
def locAgain (jMf : Pose) (g : Gains) (k : Kin nv) (d : Loc nv) : Loc nv :=
  let a := k.classical jMf
  let a := if g.kp ≠ 0 then a + g.kp • d.dpl else a
  let a := if g.kd ≠ 0 then a + g.kd • d.v.lin else a
  { d with a0l := a }

/-! ### Three dimensions -/

/-- `ContactData3DTpl`. -/
structure D3 (nv : ℕ) where
  l : Loc nv
  Jc : Mat 3 nv
  a0 : V3
  da0 : Matrix (Fin 3) (Tan nv) ℝ
  f : Six
  fext : Six
  dtau : Mat nv nv

/-- `ContactModel3DTpl`: frame, reference, type, gains. -/
structure C3 where
  jMf : Pose
  xref : V3
  type : Ref
  g : Gains

/-- `calc`, contact-3d.hxx L63-98. -/
def C3.calc (m : C3) (k : Kin nv) (d : D3 nv) : D3 nv :=
  let l := locCalc m.jMf m.g m.xref k d.l
  match m.type with
  | .loc => { d with l := l, Jc := l.fJf.lin, a0 := l.a0l }
  | _ => { d with l := l, Jc := l.oMf.rot * l.fJf.lin, a0 := l.oMf.rot *ᵥ l.a0l }

/-- `calcDiff`, contact-3d.hxx L101-168. -/
def C3.diff (m : C3) (k : Kin nv) (d : D3 nv) : D3 nv :=
  let l := locDiff m.jMf m.g k d.l
  match m.type with
  | .loc => { d with l := l, da0 := l.dal }
  | _ =>
    let l := locAgain m.jMf m.g k l
    let a0 := l.oMf.rot *ᵥ l.a0l
    let w := skew a0 * l.oMf.rot
    { d with l := l, a0 := a0, da0 := l.oMf.rot * l.dal - fromCols (w * l.fJf.ang) 0 }

/-- `updateForce`, contact-3d.hxx L171-197; the same in impulse-3d.hxx L76-102. -/
def C3.force (m : C3) (f : V3) (d : D3 nv) : D3 nv :=
  let d := { d with f := ⟨f, 0⟩ }
  match m.type with
  | .loc => { d with fext := m.jMf.actF d.f, dtau := 0 }
  | _ =>
    let fl : Six := ⟨d.l.oMf.rotᵀ *ᵥ f, 0⟩
    { d with fext := m.jMf.actF fl, dtau := -(d.l.fJf.linᵀ * (skew fl.lin * d.l.fJf.ang)) }

/-! ### One dimension -/

/-- `ContactData1DTpl`. -/
structure D1 (nv : ℕ) where
  l : Loc nv
  Jc : Fin nv → ℝ
  a0 : ℝ
  da0 : Tan nv → ℝ
  f : Six
  fext : Six
  dtau : Mat nv nv

/-- `ContactModel1DTpl`: frame, reference, type, rotation `Raxis_`, gains. -/
structure C1 where
  jMf : Pose
  xref : ℝ
  type : Ref
  axis : M3
  g : Gains

/-- `Vector3s::UnitZ()`. -/
def unitZ : V3 := ![0, 0, 1]

/-- `calc`, contact-1d.hxx L66-103. -/
def C1.calc (m : C1) (k : Kin nv) (d : D1 nv) : D1 nv :=
  let l := locCalc m.jMf m.g ((m.xref • m.axis) *ᵥ unitZ) k d.l
  match m.type with
  | .loc => { d with l := l, Jc := (m.axis * l.fJf.lin) 2, a0 := (m.axis *ᵥ l.a0l) 2 }
  | _ => { d with l := l, Jc := (m.axis * l.oMf.rot * l.fJf.lin) 2, a0 := ((m.axis * l.oMf.rot) *ᵥ l.a0l) 2 }

/-- `calcDiff`, contact-1d.hxx L106-174. -/
def C1.diff (m : C1) (k : Kin nv) (d : D1 nv) : D1 nv :=
  let l := locDiff m.jMf m.g k d.l
  match m.type with
  | .loc => { d with l := l, da0 := (m.axis * l.dal) 2 }
  | _ =>
    let l := locAgain m.jMf m.g k l
    let w := skew ((m.axis * l.oMf.rot) *ᵥ l.a0l) * m.axis * l.oMf.rot
    { d with l := l, a0 := ((m.axis * l.oMf.rot) *ᵥ l.a0l) 2,
             da0 := (m.axis * l.oMf.rot * l.dal) 2 - Sum.elim ((w * l.fJf.ang) 2) 0 }

/-- `updateForce`, contact-1d.hxx L177-207. -/
def C1.force (m : C1) (f : ℝ) (d : D1 nv) : D1 nv :=
  let d := { d with f := ⟨![0, 0, f], 0⟩ }
  match m.type with
  | .loc =>
    let lin : V3 := f • (m.jMf.rot * m.axisᵀ).col 2
    { d with fext := ⟨lin, m.jMf.trans ⨯₃ lin⟩, dtau := 0 }
  | _ =>
    let fl : Six := ⟨f • (d.l.oMf.rotᵀ * m.axisᵀ).col 2, 0⟩
    { d with fext := m.jMf.actF fl, dtau := -(d.l.fJf.linᵀ * (skew fl.lin * d.l.fJf.ang)) }

/-! ### Two dimensions -/

/-- `ContactData2DTpl`. -/
structure D2 (nv : ℕ) where
  oMf : Pose
  fJf : Jac nv
  v : Six
  Jc : Mat 2 nv
  a0 : Fin 2 → ℝ
  da0 : Matrix (Fin 2) (Tan nv) ℝ
  f : Six
  fext : Six
  dtau : Mat nv nv

/-- `ContactModel2DTpl`: frame, reference, gains. -/
structure C2 where
  jMf : Pose
  xref : Fin 2 → ℝ
  g : Gains

/-- `calc`, contact-2d.hxx L33-65. -/
def C2.calc (m : C2) (k : Kin nv) (d : D2 nv) : D2 nv :=
  let J := k.fJf m.jMf
  let v := k.vel m.jMf
  let a := k.acc m.jMf
  let M := k.oMf m.jMf
  let a0 : Fin 2 → ℝ := ![a.lin 0 + v.ang 1 * v.lin 2 - v.ang 2 * v.lin 1, a.lin 2 + v.ang 0 * v.lin 1 - v.ang 1 * v.lin 0]
  let a0 := if m.g.kp ≠ 0 then
      ![a0 0 + m.g.kp * (M.trans 0 - m.xref 0), a0 1 + m.g.kp * (M.trans 2 - m.xref 1)]
    else a0
  let a0 := if m.g.kd ≠ 0 then ![a0 0 + m.g.kd * v.lin 0, a0 1 + m.g.kd * v.lin 2] else a0
  { d with oMf := M, fJf := J, v := v, Jc := Matrix.of ![J.lin 0, J.lin 2], a0 := a0 }

/-- The rows 0 and 2 of a matrix. -/
def pick {ι : Type} (A : Matrix (Fin 3) ι ℝ) : Matrix (Fin 2) ι ℝ := Matrix.of ![A 0, A 2]

/-- `calcDiff`, contact-2d.hxx L68-126. -/
def C2.diff (m : C2) (k : Kin nv) (d : D2 nv) : D2 nv :=
  let X := fXj m.jMf
  let dq := X.mul k.vq
  let left := pick ((X.mul k.aq).lin + skew d.v.ang * dq.lin - skew d.v.lin * dq.ang)
  let right := pick ((X.mul k.av).lin + skew d.v.ang * d.fJf.lin - skew d.v.lin * d.fJf.ang)
  let R : Mat 2 2 := !![d.oMf.rot 0 0, d.oMf.rot 0 2; d.oMf.rot 2 0, d.oMf.rot 2 2]
  let left := if m.g.kp ≠ 0 then left + (m.g.kp • R) * d.Jc else left
  let left' := if m.g.kd ≠ 0 then left + m.g.kd • pick dq.lin else left
  let right' := if m.g.kd ≠ 0 then right + m.g.kd • pick (X.mul k.J).lin else right
  { d with da0 := fromCols left' right' }

/-- `updateForce`, contact-2d.hxx L129-141; `dtau_dq` is not written. -/
def C2.force (m : C2) (f : Fin 2 → ℝ) (d : D2 nv) : D2 nv :=
  let lin : V3 := f 0 • m.jMf.rot.col 0 + f 1 • m.jMf.rot.col 2
  { d with f := ⟨lin, 0⟩, fext := ⟨lin, m.jMf.trans ⨯₃ lin⟩ }

/-! ### Six dimensions -/

/-- `pinocchio::log6` and `pinocchio::Jlog6`. -/
structure Log where
  log : Pose → Six
  jlog : Pose → Mat6

/-- `ContactData6DTpl`; `rot` is the rotation of `lwaMl`, whose translation is never set. -/
structure D6 (nv : ℕ) where
  oMf : Pose
  rMf : Pose
  rot : M3
  fJf : Jac nv
  v : Six
  a0l : Six
  Jc : Jac nv
  a0 : Six
  da0 : Matrix (Fin 3) (Tan nv) ℝ × Matrix (Fin 3) (Tan nv) ℝ
  f : Six
  fext : Six
  dtau : Mat nv nv

/-- `ContactModel6DTpl`: frame, reference, type, gains. -/
structure C6 where
  jMf : Pose
  pref : Pose
  type : Ref
  g : Gains

/-- `lwaMl`. -/
def D6.lwaMl (d : D6 nv) : Pose := ⟨d.rot, 0⟩

/-- Adding to a motion a multiple of another one. -/
def Six.addSmul (m : Six) (c : ℝ) (n : Six) : Six := ⟨m.lin + c • n.lin, m.ang + c • n.ang⟩

/-- `calc`, contact-6d.hxx L64-96. -/
def C6.calc (L : Log) (m : C6) (k : Kin nv) (d : D6 nv) : D6 nv :=
  let d := { d with oMf := k.oMf m.jMf, fJf := k.fJf m.jMf, a0l := k.acc m.jMf }
  let d := if m.g.kp ≠ 0 then
      let r := m.pref.inv.mul d.oMf
      { d with rMf := r, a0l := d.a0l.addSmul m.g.kp (L.log r) }
    else d
  let d := if m.g.kd ≠ 0 then { d with v := k.vel m.jMf, a0l := d.a0l.addSmul m.g.kd (k.vel m.jMf) } else d
  match m.type with
  | .loc => { d with Jc := d.fJf, a0 := d.a0l }
  | _ =>
    let d := { d with rot := d.oMf.rot }
    { d with Jc := d.lwaMl.action.mul d.fJf, a0 := d.lwaMl.act d.a0l }

/-- `calcDiff`, contact-6d.hxx L99-151. -/
def C6.diff (L : Log) (m : C6) (k : Kin nv) (d : D6 nv) : D6 nv :=
  let X := fXj m.jMf
  let left := X.mul k.aq
  let right := X.mul k.av
  let left : Jac nv := if m.g.kp ≠ 0 then
      let e := (L.jlog d.rMf).mul d.fJf
      ⟨left.lin + m.g.kp • e.lin, left.ang + m.g.kp • e.ang⟩
    else left
  let left' : Jac nv := if m.g.kd ≠ 0 then
      let e := X.mul k.vq
      ⟨left.lin + m.g.kd • e.lin, left.ang + m.g.kd • e.ang⟩
    else left
  let right' : Jac nv := if m.g.kd ≠ 0 then
      ⟨right.lin + m.g.kd • d.fJf.lin, right.ang + m.g.kd • d.fJf.ang⟩
    else right
  match m.type with
  | .loc => { d with da0 := (fromCols left'.lin right'.lin, fromCols left'.ang right'.ang) }
  | _ =>
    let a := k.acc m.jMf
    let a := if m.g.kp ≠ 0 then a.addSmul m.g.kp (L.log d.rMf) else a
    let a := if m.g.kd ≠ 0 then a.addSmul m.g.kd d.v else a
    let a0 := d.lwaMl.act a
    let A := d.lwaMl.action
    let l := A.mul left'
    let r := A.mul right'
    { d with a0l := a, a0 := a0,
             da0 := (fromCols (l.lin - skew a0.lin * d.oMf.rot * d.fJf.ang) r.lin,
                     fromCols (l.ang - skew a0.ang * d.oMf.rot * d.fJf.ang) r.ang) }

/-- `updateForce`, contact-6d.hxx L154-180; the same in impulse-6d.hxx L79-105. -/
def C6.force (m : C6) (f : Six) (d : D6 nv) : D6 nv :=
  let d := { d with f := f }
  match m.type with
  | .loc => { d with fext := m.jMf.actF f, dtau := 0 }
  | _ =>
    let fl := d.lwaMl.actInvF f
    { d with fext := m.jMf.actF fl,
             dtau := -(d.fJf.linᵀ * (skew fl.lin * d.fJf.ang) + d.fJf.angᵀ * (skew fl.ang * d.fJf.ang)) }

/-! ### Impulses -/

/-- `ImpulseData3DTpl`. -/
structure DI3 (nv : ℕ) where
  oMf : Pose
  fJf : Jac nv
  Jc : Mat 3 nv
  dv0 : Mat 3 nv

/-- `ImpulseModel3DTpl` and `ImpulseModel6DTpl`: frame and type. -/
structure Imp where
  jMf : Pose
  type : Ref

/-- `calc`, impulse-3d.hxx L21-40. -/
def Imp.calc3 (m : Imp) (k : Kin nv) (d : DI3 nv) : DI3 nv :=
  let d := { d with oMf := k.oMf m.jMf, fJf := k.fJf m.jMf }
  match m.type with
  | .loc => { d with Jc := d.fJf.lin }
  | _ => { d with Jc := d.oMf.rot * d.fJf.lin }

/-- `calcDiff`, impulse-3d.hxx L43-73. -/
def Imp.diff3 (m : Imp) (k : Kin nv) (d : DI3 nv) : DI3 nv :=
  let e := ((fXj m.jMf).mul k.vq).lin
  match m.type with
  | .loc => { d with dv0 := e }
  | _ =>
    let v0 := (k.velIn m.jMf .lwa).lin
    { d with dv0 := d.oMf.rot * e - skew v0 * d.oMf.rot * d.fJf.ang }

/-- `ImpulseData6DTpl`. -/
structure DI6 (nv : ℕ) where
  oMf : Pose
  rot : M3
  fJf : Jac nv
  Jc : Jac nv
  dv0 : Jac nv

/-- `lwaMl`. -/
def DI6.lwaMl (d : DI6 nv) : Pose := ⟨d.rot, 0⟩

/-- `calc`, impulse-6d.hxx L24-42. -/
def Imp.calc6 (m : Imp) (k : Kin nv) (d : DI6 nv) : DI6 nv :=
  let d := { d with oMf := k.oMf m.jMf, fJf := k.fJf m.jMf }
  match m.type with
  | .loc => { d with Jc := d.fJf }
  | _ =>
    let d := { d with rot := d.oMf.rot }
    { d with Jc := d.lwaMl.action.mul d.fJf }

/-- `calcDiff`, impulse-6d.hxx L45-76. The velocity is read in the frame `type_` (L63-64). -/
def Imp.diff6 (m : Imp) (k : Kin nv) (d : DI6 nv) : DI6 nv :=
  let e := (fXj m.jMf).mul k.vq
  match m.type with
  | .loc => { d with dv0 := e }
  | t =>
    let v0 := k.velIn m.jMf t
    let r := d.lwaMl.action.mul e
    { d with dv0 := ⟨r.lin - skew v0.lin * d.oMf.rot * d.fJf.ang, r.ang - skew v0.ang * d.oMf.rot * d.fJf.ang⟩ }

end

end Verif.Con
