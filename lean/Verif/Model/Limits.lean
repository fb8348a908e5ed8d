import Verif.Model.Dense
import Mathlib.Data.EReal.Basic

/-!
# Control limits of action models and their users

Limits are extended real numbers (a NaN as a limit is not modelled).
-/

namespace Verif.Limits

open Verif.Dense (Out)

/-- `isfinite` (Eigen). -/
noncomputable def finite (x : EReal) : Bool := by
  classical exact decide (x ≠ ⊥ ∧ x ≠ ⊤)

/-- The members of `ActionModelAbstractTpl` (core/action-base.hpp L328-341) and of
`DifferentialActionModelAbstractTpl` (core/diff-action-base.hpp L361-374) that concern limits:
`nu_`, `u_lb_`, `u_ub_`, `has_control_limits_`, the numbers `ng_`, `ng_T_` of inequality constraints
and their bounds. -/
structure Model where
  nu : ℕ
  ulb : List EReal
  uub : List EReal
  has : Bool
  ng : ℕ
  ngT : ℕ
  glb : List EReal
  gub : List EReal

/-- The constructors (core/action-base.hxx L13-33, core/diff-action-base.hxx L13-31). -/
noncomputable def Model.init (nu ng ngT : ℕ) : Model where
  nu := nu
  ulb := List.replicate nu ⊥
  uub := List.replicate nu ⊤
  has := false
  ng := ng
  ngT := ngT
  glb := List.replicate (if ng > ngT then ng else ngT) ⊥
  gub := List.replicate (if ng > ngT then ng else ngT) ⊤

/-- `update_has_control_limits` (core/action-base.hxx L241-246, core/diff-action-base.hxx
L225-230). -/
noncomputable def Model.update (m : Model) : Model :=
  { m with has := m.ulb.any finite && m.uub.any finite }

/-- `set_u_lb` (core/action-base.hxx L219-228, core/diff-action-base.hxx L201-211). -/
noncomputable def Model.setULb (m : Model) (v : List EReal) : Out × Model :=
  if v.length ≠ m.nu then (.throw, m) else (.ok, { m with ulb := v }.update)

/-- `set_u_ub` (core/action-base.hxx L230-239, core/diff-action-base.hxx L213-223). -/
noncomputable def Model.setUUb (m : Model) (v : List EReal) : Out × Model :=
  if v.length ≠ m.nu then (.throw, m) else (.ok, { m with uub := v }.update)

/-- `set_g_lb` (core/action-base.hxx L195-205, core/diff-action-base.hxx L175-186). -/
def Model.setGLb (m : Model) (v : List EReal) : Out × Model :=
  if v.length ≠ (if m.ng > m.ngT then m.ng else m.ngT) then (.throw, m) else (.ok, { m with glb := v })

/-- `set_g_ub` (core/action-base.hxx L207-217, core/diff-action-base.hxx L188-199). -/
def Model.setGUb (m : Model) (v : List EReal) : Out × Model :=
  if v.length ≠ (if m.ng > m.ngT then m.ng else m.ngT) then (.throw, m) else (.ok, { m with gub := v })

/-- A call of a setter. -/
inductive Op
  | ulb (v : List EReal)
  | uub (v : List EReal)
  | glb (v : List EReal)
  | gub (v : List EReal)

/-- One call; when it throws the caller goes on with what is left. -/
noncomputable def Model.step (m : Model) : Op → Out × Model
  | .ulb v => m.setULb v
  | .uub v => m.setUUb v
  | .glb v => m.setGLb v
  | .gub v => m.setGUb v

/-- A history of calls. -/
noncomputable def Model.run (m : Model) (ops : List Op) : Model := ops.foldl (fun m o => (m.step o).2) m

/-! ## The users -/

/-- The control of a rollout of the box solvers: `us_try_[t] =
us_try_[t].cwiseMax(u_lb).cwiseMin(u_ub)` if `get_has_control_limits()` (src/core/solvers/box-ddp.cpp
L133-136, src/core/solvers/box-fddp.cpp L123-127, L161-165); `u` is the control of the linear
feedback. -/
noncomputable def Model.clamp (m : Model) (u : List ℝ) : List EReal :=
  let u : List EReal := u.map fun (r : ℝ) => (r : EReal)
  if m.has then List.zipWith min (List.zipWith max u m.ulb) m.uub else u

/-- The box in which Ipopt searches the controls of a node (src/core/solvers/ipopt/ipopt-iface.cpp
L159-166); `big` is the largest double. -/
noncomputable def Model.ipoptBox (m : Model) (big : ℝ) : List EReal × List EReal :=
  (if m.has then m.ulb else List.replicate m.nu ((-big : ℝ) : EReal),
   if m.has then m.uub else List.replicate m.nu (big : EReal))

/-! ## Integrated models -/

/-- `convertBounds` of the control parametrisations (core/controls/poly-zero.hxx L66-92,
poly-one.hxx L61-89, poly-two-rk.hxx L88-118) with right sizes: the bounds are repeated for each of
the `parts` blocks of parameters (`Verif.Controls.convertBounds` is the model with sizes and
buffers). -/
def convert (parts : ℕ) (v : List EReal) : List EReal := (List.replicate parts v).flatten

/-- A differential model and an integrated model built on it. -/
structure Pair where
  diff : Model
  parts : ℕ
  act : Model

/-- `Base::set_u_lb(u_lb); Base::set_u_ub(u_ub)` with the converted bounds (core/integ-action-base.hxx
L53-57 and L147-151). -/
noncomputable def import' (parts : ℕ) (d a : Model) : Model :=
  ((a.setULb (convert parts d.ulb)).2.setUUb (convert parts d.uub)).2

/-- The constructors (core/integ-action-base.hxx L16-48) with `init` (L50-63): the base class gets
`nu = control.nu = parts * nu` of the differential model, and the number `ng_` of
running constraints only. -/
noncomputable def Pair.init (parts : ℕ) (d : Model) : Pair where
  diff := d
  parts := parts
  act := import' parts d (Model.init (parts * d.nu) d.ng 0)

/-- `get_g_lb` of the integrated model (core/integ-action-base.hxx L95-99). -/
def Pair.glb (p : Pair) : List EReal := p.diff.glb

/-- `get_g_ub` of the integrated model (core/integ-action-base.hxx L101-105). -/
def Pair.gub (p : Pair) : List EReal := p.diff.gub

/-- Calls on the two models. The setters of the integrated model are those of the base class, which
are not virtual (core/action-base.hpp L296-311). -/
inductive PairOp
  /-- A setter of the differential model. -/
  | diff (o : Op)
  /-- A setter of the integrated model. -/
  | act (o : Op)
  /-- `set_differential` (core/integ-action-base.hxx L133-152): throws for another number of
  controls. -/
  | replace (d : Model)

/-- One call. -/
noncomputable def Pair.step (p : Pair) : PairOp → Pair
  | .diff o => { p with diff := (p.diff.step o).2 }
  | .act o => { p with act := (p.act.step o).2 }
  | .replace d => if p.diff.nu ≠ d.nu then p else { p with diff := d, act := import' p.parts d p.act }

/-! ## Copies -/

/-- What a copied action model needs for the calls without control: the limits, and the size of
`unone_` (core/action-base.hpp L335). -/
structure Copied where
  lim : Model
  unone : ℕ

/-- The constructor (core/action-base.hxx L24): `unone_` is a zero vector of size `nu`. -/
def Copied.init (m : Model) : Copied := ⟨m, m.nu⟩

/-- The copy constructor (core/action-base.hxx L35-49): `unone_` is not in the list of members, so
it is an empty vector. -/
def Copied.copy (c : Copied) : Copied := ⟨c.lim, 0⟩

/-- `calc(data, x)` of the base class (core/action-base.hxx L51-56): the `calc` with control, given
as a function of the size of the control vector, is called with `unone_`. -/
def Copied.calcT {R : Type*} (c : Copied) (calcU : ℕ → R) : R := calcU c.unone

/-- The first lines of `calc(data, x, u)` of the models of the library, of the unicycle for example
(core/actions/unicycle.hxx L20-32) and of models written in Python
(bindings/python/crocoddyl/core/action-base.hpp L61-65): the size of the control vector is checked. -/
def checked {R : Type*} (nu : ℕ) (body : R) (n : ℕ) : Option R := if n ≠ nu then none else some body

end Verif.Limits
