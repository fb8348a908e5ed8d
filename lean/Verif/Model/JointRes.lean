import Verif.Model.ContactFrame

/-!
# Residuals of efforts, accelerations, gravity, centre of mass and momentum

`include/crocoddyl/core/residuals/joint-{effort,acceleration}.hxx` and
`include/crocoddyl/multibody/residuals/{control-gravity,contact-control-gravity,com-position,centroidal-momentum,impulse-com}.hxx`.

What the action model leaves in the shared data before it calls the costs is an input of the history. Pinocchio's functions are
parameters. Scalars are real numbers; configurations are elements of an arbitrary type. The outcome `none` is undefined behaviour:
a read of an uninitialised member, or an Eigen assignment of vectors of different sizes with assertions off.
-/

namespace Verif.Jr

open Matrix Verif.Con

noncomputable section

variable {nr nv nu : ℕ} {Q M D S U : Type}

/-- `ResidualDataAbstractTpl`: residual and derivatives, `Rx` by its halves `leftCols(nv)` and `rightCols(nv)`
(core/residual-base.hpp L259-273). -/
structure Cell (nr nv nu : ℕ) where
  r : Fin nr → ℝ
  left : Mat nr nv
  right : Mat nr nv
  Ru : Mat nr nu

/-- Zeros at creation, core/residual-base.hpp L259-273. -/
def fresh : Cell nr nv nu := ⟨0, 0, 0, 0⟩

/-! ### Histories -/

/-- What can happen: the action model refreshes the shared data; the four calls; a setter. -/
inductive Op (S U : Type)
  | share (s : S)
  | value
  | valueT
  | diff
  | diffT
  | set (a : U)

/-- A residual class: the four calls (`none`: undefined behaviour) and its setter (`none`: exception). -/
structure Code (M D S U : Type) where
  value : M → S → D → Option D
  valueT : M → S → D → Option D
  diff : M → S → D → Option D
  diffT : M → S → D → Option D
  set : M → U → Option M

/-- Model, shared data, residual data. -/
structure World (M D S : Type) where
  m : M
  s : S
  d : D

/-- One call. An exception leaves the model as it was. -/
def Code.step (c : Code M D S U) (w : World M D S) : Op S U → Option (World M D S)
  | .share s => some { w with s := s }
  | .value => (c.value w.m w.s w.d).map fun d => { w with d := d }
  | .valueT => (c.valueT w.m w.s w.d).map fun d => { w with d := d }
  | .diff => (c.diff w.m w.s w.d).map fun d => { w with d := d }
  | .diffT => (c.diffT w.m w.s w.d).map fun d => { w with d := d }
  | .set a => some { w with m := (c.set w.m a).getD w.m }

/-- A list of calls. -/
def Code.run (c : Code M D S U) (w : World M D S) : List (Op S U) → Option (World M D S)
  | [] => some w
  | o :: ops => (c.step w o).bind fun w => c.run w ops

/-- A vector with its size, as the caller may pass it. -/
abbrev Vec := Σ n : ℕ, Fin n → ℝ

/-- The difference `a - b` of Eigen vectors; undefined when the sizes differ. -/
def minus (a : Fin nr → ℝ) (b : Vec) : Option (Fin nr → ℝ) :=
  if h : b.1 = nr then some (a - h ▸ b.2) else none

/-! ### Joint effort -/

/-- `JointDataAbstractTpl`, core/data/joint.hpp L34-62. -/
structure Joint (nr nv nu : ℕ) where
  tau : Fin nr → ℝ
  tauDq : Mat nr nv
  tauDv : Mat nr nv
  tauDu : Mat nr nu
  a : Fin nv → ℝ
  aDq : Mat nv nv
  aDv : Mat nv nv
  aDu : Mat nv nu

/-- `ResidualModelJointEffortTpl`: reference, `fwddyn_` (`none`: uninitialised), `q_dependent_ || v_dependent_`. -/
structure Effort where
  ref : Vec
  fwd : Option Bool
  xdep : Bool

/-- The constructors, joint-effort.hxx L13-60, in order: with `nu` and `fwddyn`; with the reference; with `nu`; without either.
The sizes are not compared. The exception for `nu = 0` is left out. -/
def Effort.make1 (ref : Vec) (fwd : Bool) : Effort := ⟨ref, some fwd, !fwd⟩
/-- joint-effort.hxx L30-37. -/
def Effort.make2 (ref : Vec) : Effort := ⟨ref, some false, true⟩
/-- joint-effort.hxx L39-52. -/
def Effort.make3 (nr : ℕ) : Effort := ⟨⟨nr, 0⟩, some false, true⟩
/-- joint-effort.hxx L54-60: `fwddyn_` is not set. -/
def Effort.make4 (nr : ℕ) : Effort := ⟨⟨nr, 0⟩, none, true⟩

/-- `calc` and `calcDiff` of the joint effort. -/
def effort : Code Effort (Cell nr nv nu) (Joint nr nv nu) Vec where
  -- joint-effort.hxx L62-68
  value m s d := (minus s.tau m.ref).map fun r => { d with r := r }
  -- joint-effort.hxx L70-80
  valueT m s d := m.fwd.bind fun f => if f then some { d with r := 0 } else (minus s.tau m.ref).map fun r => { d with r := r }
  -- joint-effort.hxx L82-91
  diff m s d := some (if m.xdep then { d with left := s.tauDq, right := s.tauDv, Ru := s.tauDu } else { d with Ru := s.tauDu })
  -- joint-effort.hxx L93-104
  diffT m s d := m.fwd.map fun f =>
    if f then { d with left := 0, right := 0 } else { d with left := s.tauDq, right := s.tauDv, Ru := s.tauDu }
  -- joint-effort.hxx L137-147
  set m a := if a.1 = nr then some { m with ref := a } else none

/-! ### Joint acceleration -/

/-- The constructors with a reference, joint-acceleration.hxx L13-35: they throw (`none`) when the size is wrong. -/
def makeAcc (nv : ℕ) (ref : Vec) : Option Vec := if ref.1 = nv then some ref else none

/-- `calc` and `calcDiff` of the joint acceleration. -/
def acceleration : Code Vec (Cell nv nv nu) (Joint nr nv nu) Vec where
  -- joint-acceleration.hxx L49-55
  value m s d := (minus s.a m).map fun r => { d with r := r }
  -- joint-acceleration.hxx L57-62
  valueT _ _ d := some { d with r := 0 }
  -- joint-acceleration.hxx L64-71
  diff _ s d := some { d with left := s.aDq, right := s.aDv, Ru := s.aDu }
  -- not overridden: core/residual-base.hxx L53-58 calls the one with control
  diffT _ s d := some { d with left := s.aDq, right := s.aDv, Ru := s.aDu }
  -- joint-acceleration.hxx L103-114
  set _ a := if a.1 = nv then some a else none

/-! ### Gravity -/

/-- Pinocchio's `computeGeneralizedGravity(Derivatives)` and `computeStaticTorque(Derivatives)` for external forces in `F`. -/
structure Gravity (Q F : Type) (nv : ℕ) where
  g : Q → Fin nv → ℝ
  dg : Q → Mat nv nv
  st : Q → F → Fin nv → ℝ
  dst : Q → F → Mat nv nv

/-- The shared data: the configuration of the call, the actuation data (core/actuation-base.hpp) and the external forces of the
contacts. -/
structure Act (Q F : Type) (nv nu : ℕ) where
  q : Q
  tau : Fin nv → ℝ
  tauDq : Mat nv nv
  tauDv : Mat nv nv
  tauDu : Mat nv nu
  fext : F

/-- Control gravity, control-gravity.hxx L29-83. -/
def gravity {F : Type} (G : Gravity Q F nv) : Code Unit (Cell nv nv nu) (Act Q F nv nu) Empty where
  value _ s d := some { d with r := s.tau - G.g s.q }
  valueT _ s d := some { d with r := -G.g s.q }
  diff _ s d := some { d with left := -G.dg s.q, Ru := s.tauDu }
  diffT _ s d := some { d with left := -G.dg s.q }
  set _ a := a.elim

/-- Data of the gravity residual in contact: the constructor copies the external forces, contact-control-gravity.hpp L187. -/
structure DG (F : Type) (nv nu : ℕ) where
  cell : Cell nv nv nu
  fext : F

/-- Control gravity in contact, contact-control-gravity.hxx L30-82: `calc` uses the forces of the data object, not those of the
contacts. -/
def contactGravity {F : Type} (G : Gravity Q F nv) : Code Unit (DG F nv nu) (Act Q F nv nu) Empty where
  value _ s d := some { d with cell := { d.cell with r := s.tau - G.st s.q d.fext } }
  valueT _ s d := some { d with cell := { d.cell with r := -G.g s.q } }
  diff _ s d := some { d with cell := { d.cell with left := -G.dst s.q d.fext, Ru := s.tauDu } }
  diffT _ s d := some { d with cell := { d.cell with left := -G.dg s.q } }
  set _ a := a.elim

/-! ### Centre of mass and momentum -/

/-- The part of Pinocchio's data that the residuals read: `com[0]`, `Jcom`, `hg` and what `getCentroidalDynamicsDerivatives`
returns. -/
structure Mass (nv : ℕ) where
  com : V3
  jcom : Mat 3 nv
  hg : Fin 6 → ℝ
  hgDq : Mat 6 nv
  hgDv : Mat 6 nv

/-- Position of the centre of mass, com-position.hxx L23-41 and L77-80. The calls without control are those with control
(core/residual-base.hxx L41-46, L53-58). -/
def comPosition : Code V3 (Cell 3 nv nu) (Mass nv) V3 where
  value m s d := some { d with r := s.com - m }
  valueT m s d := some { d with r := s.com - m }
  diff _ s d := some { d with left := s.jcom }
  diffT _ s d := some { d with left := s.jcom }
  set _ a := some a

/-- Centroidal momentum, centroidal-momentum.hxx L27-46 and L82-86. -/
def momentum : Code (Fin 6 → ℝ) (Cell 6 nv nu) (Mass nv) (Fin 6 → ℝ) where
  value m s d := some { d with r := s.hg - m }
  valueT m s d := some { d with r := s.hg - m }
  diff _ s d := some { d with left := s.hgDq, right := s.hgDv }
  diffT _ s d := some { d with left := s.hgDq, right := s.hgDv }
  set _ a := some a

/-! ### Jump of the centre of mass at an impulse -/

/-- Pinocchio's `centerOfMass(q, v)` (its `vcom[0]`), `getCenterOfMassVelocityDerivatives` and `jacobianCenterOfMass`. -/
structure Com (Q : Type) (nv : ℕ) where
  vcom : Q → (Fin nv → ℝ) → V3
  dq : Q → (Fin nv → ℝ) → Mat 3 nv
  jcom : Q → Mat 3 nv

/-- The shared data: the state of the call and the impulse data (`vnext`, `dvnext_dx` by halves). -/
structure Imp (Q : Type) (nv : ℕ) where
  q : Q
  v : Fin nv → ℝ
  vnext : Fin nv → ℝ
  nextDq : Mat nv nv
  nextDv : Mat nv nv

/-- `ResidualDataImpulseCoMTpl`: `pinocchio_internal` holds the configuration and velocity of the last `centerOfMass`
(impulse-com.hpp L129-160; at creation some values). -/
structure DI (Q : Type) (nv : ℕ) where
  cell : Cell 3 nv 0
  q : Q
  v : Fin nv → ℝ

/-- Impulse centre of mass, impulse-com.hxx L18-56. The calls without control are those with control. -/
def impulseCom (P : Com Q nv) : Code Unit (DI Q nv) (Imp Q nv) Empty where
  value _ s d := some ⟨{ d.cell with r := P.vcom s.q (s.vnext - s.v) }, s.q, s.vnext - s.v⟩
  valueT _ s d := some ⟨{ d.cell with r := P.vcom s.q (s.vnext - s.v) }, s.q, s.vnext - s.v⟩
  diff _ s d := some { d with cell := { d.cell with
    left := P.dq d.q d.v + P.jcom d.q * s.nextDq
    right := P.jcom d.q * (s.nextDv - 1) } }
  diffT _ s d := some { d with cell := { d.cell with
    left := P.dq d.q d.v + P.jcom d.q * s.nextDq
    right := P.jcom d.q * (s.nextDv - 1) } }
  set _ a := a.elim

end

end Verif.Jr
