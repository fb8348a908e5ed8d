import Verif.Model.ContactFrame

/-!
# Residuals of a frame: translation, rotation, placement, velocity

`include/crocoddyl/multibody/residuals/frame-{translation,rotation,placement,velocity}.hxx`.

The kinematics of the joints, which the action model asks Pinocchio to compute, are inputs of the history; the table of frame
placements `oMf` of Pinocchio's data is state, since only the residuals update it. The logarithms of Pinocchio are parameters.

Simplifications: the check of the frame index in the constructors is in the types (the table of frames is a function); the
residual vectors of six entries are spatial vectors; scalars are real numbers. The calls without control are those with control
(the residual base class, core/residual-base.hxx L41-46 and L53-58).
-/

namespace Verif.Fr

open Matrix Verif.Con

noncomputable section

variable {nv : ℕ}

/-- `pinocchio::log3` and `Jlog3`. -/
structure Log3 where
  log : M3 → V3
  jlog : M3 → M3

/-- `pinocchio->frames[id].placement`. -/
abbrev Frames := ℕ → Pose

/-- Pinocchio's data: for each frame the kinematics of the joint that carries it, and the table of placements. -/
structure Pin (nv : ℕ) where
  kin : ℕ → Kin nv
  oMf : ℕ → Pose

/-- `updateFramePlacement(model, data, id)`. -/
def Pin.update (F : Frames) (p : Pin nv) (id : ℕ) : Pin nv :=
  { p with oMf := Function.update p.oMf id ((p.kin id).oMf (F id)) }

/-- `getFrameJacobian(model, data, id, LOCAL, …)`. -/
def Pin.jacobian (F : Frames) (p : Pin nv) (id : ℕ) : Jac nv := (p.kin id).fJf (F id)

/-! ### Translation -/

/-- `ResidualModelFrameTranslationTpl`. -/
structure MT where
  id : ℕ
  ref : V3

/-- `ResidualDataFrameTranslationTpl`: residual and its derivative (`leftCols`, `rightCols`), frame-translation.hpp L161-197. -/
structure DT (nv : ℕ) where
  r : V3
  left : Mat 3 nv
  right : Mat 3 nv

/-- `calc`, frame-translation.hxx L44-52. -/
def MT.calc (F : Frames) (m : MT) (p : Pin nv) (d : DT nv) : Pin nv × DT nv :=
  let p := p.update F m.id
  (p, { d with r := (p.oMf m.id).trans - m.ref })

/-- `calcDiff`, frame-translation.hxx L54-67. -/
def MT.diff (F : Frames) (m : MT) (p : Pin nv) (d : DT nv) : DT nv :=
  { d with left := (p.oMf m.id).rot * (p.jacobian F m.id).lin }

/-! ### Rotation -/

/-- `ResidualModelFrameRotationTpl`. -/
structure MR where
  id : ℕ
  ref : M3
  inv : M3

/-- The constructor, frame-rotation.hxx L12-27. -/
def MR.make (id : ℕ) (ref : M3) : MR := ⟨id, ref, refᵀ⟩

/-- `set_reference`, frame-rotation.hxx L121-126. -/
def MR.setRef (m : MR) (ref : M3) : MR := { m with ref := ref, inv := refᵀ }

/-- `ResidualDataFrameRotationTpl`, frame-rotation.hpp L159-202. -/
structure DR (nv : ℕ) where
  r : V3
  left : Mat 3 nv
  right : Mat 3 nv
  rRf : M3

/-- `calc`, frame-rotation.hxx L46-56. -/
def MR.calc (L : Log3) (F : Frames) (m : MR) (p : Pin nv) (d : DR nv) : Pin nv × DR nv :=
  let p := p.update F m.id
  let e := m.inv * (p.oMf m.id).rot
  (p, { d with rRf := e, r := L.log e })

/-- `calcDiff`, frame-rotation.hxx L58-72. -/
def MR.diff (L : Log3) (F : Frames) (m : MR) (p : Pin nv) (d : DR nv) : DR nv :=
  { d with left := L.jlog d.rRf * (p.jacobian F m.id).ang }

/-! ### Placement -/

/-- `ResidualModelFramePlacementTpl`. -/
structure MP where
  id : ℕ
  ref : Pose
  inv : Pose

/-- The constructor, frame-placement.hxx L12-26. -/
def MP.make (id : ℕ) (ref : Pose) : MP := ⟨id, ref, ref.inv⟩

/-- `set_reference`, frame-placement.hxx L119-124. -/
def MP.setRef (m : MP) (ref : Pose) : MP := { m with ref := ref, inv := ref.inv }

/-- `ResidualDataFramePlacementTpl`, frame-placement.hpp L160-201. -/
structure DP (nv : ℕ) where
  r : Six
  left : Jac nv
  right : Jac nv
  rMf : Pose

/-- `calc`, frame-placement.hxx L45-55. -/
def MP.calc (L : Log) (F : Frames) (m : MP) (p : Pin nv) (d : DP nv) : Pin nv × DP nv :=
  let p := p.update F m.id
  let e := m.inv.mul (p.oMf m.id)
  (p, { d with rMf := e, r := L.log e })

/-- `calcDiff`, frame-placement.hxx L57-69. -/
def MP.diff (L : Log) (F : Frames) (m : MP) (p : Pin nv) (d : DP nv) : DP nv :=
  { d with left := (L.jlog d.rMf).mul (p.jacobian F m.id) }

/-! ### Velocity -/

/-- `ResidualModelFrameVelocityTpl`. -/
structure MV where
  id : ℕ
  ref : Six
  type : Ref

/-- Difference of motions. -/
def subSix (m n : Six) : Six := ⟨m.lin - n.lin, m.ang - n.ang⟩

/-- `ResidualDataFrameVelocityTpl`, frame-velocity.hpp L177-209. -/
structure DV (nv : ℕ) where
  r : Six
  left : Jac nv
  right : Jac nv

/-- `calc`, frame-velocity.hxx L47-58. -/
def MV.calc (F : Frames) (m : MV) (p : Pin nv) (d : DV nv) : DV nv :=
  { d with r := subSix ((p.kin m.id).velIn (F m.id) m.type) m.ref }

/-- The first result of Pinocchio's `getFrameVelocityDerivatives`: with respect to the configuration. In the frame itself it is
the one of the joint moved to the frame; in the directions of the world, and in the world, the motion of the frame is added. -/
def velDq (F : Pose) (k : Kin nv) : Ref → Jac nv
  | .loc => (fXj F).mul k.vq
  | .lwa =>
    let R := (k.oMf F).rot
    let v := k.vel F
    let e := (fXj F).mul k.vq
    ⟨R * (e.lin - skew v.lin * (k.fJf F).ang), R * (e.ang - skew v.ang * (k.fJf F).ang)⟩
  | .world =>
    let v := k.vel F
    let e := (fXj F).mul k.vq
    (k.oMf F).action.mul ⟨e.lin - skew v.lin * (k.fJf F).ang - skew v.ang * (k.fJf F).lin, e.ang - skew v.ang * (k.fJf F).ang⟩

/-- The second result of `getFrameVelocityDerivatives`: with respect to the velocity. -/
def velDv (F : Pose) (k : Kin nv) : Ref → Jac nv
  | .loc => k.fJf F
  | .lwa => ⟨(k.oMf F).rot * (k.fJf F).lin, (k.oMf F).rot * (k.fJf F).ang⟩
  | .world => (k.oMf F).action.mul (k.fJf F)

/-- `calcDiff`, frame-velocity.hxx L60-70. -/
def MV.diff (F : Frames) (m : MV) (p : Pin nv) (d : DV nv) : DV nv :=
  { d with left := velDq (F m.id) (p.kin m.id) m.type, right := velDv (F m.id) (p.kin m.id) m.type }

/-! ### Histories -/

/-- What can happen to a residual: Pinocchio's kinematics are recomputed, `calc`, `calcDiff`, another residual updates the
placement of a frame, a setter is called. -/
inductive Op (U : Type) (nv : ℕ)
  | kinematics (k : ℕ → Kin nv)
  | calc
  | diff
  | other (id : ℕ)
  | set (a : U)

/-- A residual: `calc`, `calcDiff` and its setters. -/
structure Code (M D U : Type) (nv : ℕ) where
  value : Frames → M → Pin nv → D → Pin nv × D
  diff : Frames → M → Pin nv → D → D
  set : M → U → M

/-- Model, Pinocchio's data and data of the residual. -/
structure World (M D : Type) (nv : ℕ) where
  m : M
  p : Pin nv
  d : D

/-- One call. -/
def Code.step {M D U : Type} (c : Code M D U nv) (F : Frames) (w : World M D nv) : Op U nv → World M D nv
  | .kinematics k => { w with p := { w.p with kin := k } }
  | .calc => { w with p := (c.value F w.m w.p w.d).1, d := (c.value F w.m w.p w.d).2 }
  | .diff => { w with d := c.diff F w.m w.p w.d }
  | .other i => { w with p := w.p.update F i }
  | .set a => { w with m := c.set w.m a }

/-- A list of calls. -/
def Code.run {M D U : Type} (c : Code M D U nv) (F : Frames) (w : World M D nv) (ops : List (Op U nv)) : World M D nv :=
  ops.foldl (c.step F) w

/-- The setters `set_id` and `set_reference`. -/
inductive Set (ρ : Type)
  | id (i : ℕ)
  | ref (a : ρ)

/-- The setters of the velocity residual. -/
inductive SetV
  | id (i : ℕ)
  | ref (a : Six)
  | type (t : Ref)

/-- Frame translation; setters frame-translation.hxx L108-118. -/
def translation : Code MT (DT nv) (Set V3) nv where
  value := MT.calc
  diff := MT.diff
  set m
    | .id i => { m with id := i }
    | .ref a => { m with ref := a }

/-- Frame rotation; setters frame-rotation.hxx L115-126. -/
def rotation (L : Log3) : Code MR (DR nv) (Set M3) nv where
  value := MR.calc L
  diff := MR.diff L
  set m
    | .id i => { m with id := i }
    | .ref a => m.setRef a

/-- Frame placement; setters frame-placement.hxx L113-124. -/
def placement (L : Log) : Code MP (DP nv) (Set Pose) nv where
  value := MP.calc L
  diff := MP.diff L
  set m
    | .id i => { m with id := i }
    | .ref a => m.setRef a

/-- Frame velocity; setters frame-velocity.hxx L117-133. -/
def velocity : Code MV (DV nv) SetV nv where
  value F m p d := (p, MV.calc F m p d)
  diff := MV.diff
  set m
    | .id i => { m with id := i }
    | .ref a => { m with ref := a }
    | .type t => { m with type := t }

/-- The data at creation (core/residual-base.hpp L259-273 and the constructors of the data): zeros. -/
def freshT : DT nv := ⟨0, 0, 0⟩
/-- The data at creation, frame-rotation.hpp L172-190. -/
def freshR : DR nv := ⟨0, 0, 0, 1⟩
/-- The data at creation, frame-placement.hpp L172-189; the placement `rMf` is not initialised (`e` is what it holds). -/
def freshP (e : Pose) : DP nv := ⟨⟨0, 0⟩, ⟨0, 0⟩, ⟨0, 0⟩, e⟩
/-- The data at creation, frame-velocity.hpp. -/
def freshV : DV nv := ⟨⟨0, 0⟩, ⟨0, 0⟩, ⟨0, 0⟩⟩

end

end Verif.Fr
