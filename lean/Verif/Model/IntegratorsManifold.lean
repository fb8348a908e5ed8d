import Verif.Model.Integrators
import Verif.Model.StateMultibody
import Mathlib.Logic.Equiv.Fin.Basic

/-!
# The integrators on multibody states

Files modelled: `/repo/include/crocoddyl/core/integrator/{euler,rk}.hxx`, with the state of
`/repo/include/crocoddyl/multibody/states/multibody.hxx`. `Model/Integrators` has the same code on vector states. Here a state
is a configuration and a velocity, and Pinocchio is the parameter `P` of `Model/StateMultibody`, which has the sizes and the
buffers of the state; sizes are right by typing. Real arithmetic.
-/

namespace Verif.Im

noncomputable section

open Matrix
open Verif.Mb (Pin)
open Verif.Integrators (Ix Ctl Step rkC rkN rkSum rkDSum)
open Verif.Controls (RKType)

/-- A state `x = (q, v)`. -/
@[ext] structure X (P : Pin) where
  q : Fin P.nq → ℝ
  v : Fin P.nv → ℝ

/-- A tangent vector: `dx.head(nv)` on the left and `dx.tail(nv)` on the right. -/
abbrev Tan (P : Pin) := Ix P.nv → ℝ

variable {P : Pin} {nw nu : ℕ}

/-- `dx.head(nv)`. -/
def hd (dx : Tan P) : Fin P.nv → ℝ := fun i => dx (Sum.inl i)

/-- `dx.tail(nv)`. -/
def tl (dx : Tan P) : Fin P.nv → ℝ := fun i => dx (Sum.inr i)

/-- `state->integrate(x, dx, xnext)` (multibody/states/multibody.hxx L82-104). -/
def int (x : X P) (dx : Tan P) : X P := ⟨P.integrate x.q (hd dx), fun i => x.v i + dx (Sum.inr i)⟩

/-- `state->diff(x0, x1, dx)` (multibody/states/multibody.hxx L57-79). -/
def diff (x0 x1 : X P) : Tan P := Sum.elim (P.difference x0.q x1.q) (fun i => x1.v i - x0.v i)

/-- `state->Jintegrate(x, dx, M, M, first, addto)` (multibody/states/multibody.hxx L186-217). -/
def addFirst (x : X P) (dx : Tan P) (M : Matrix (Ix P.nv) (Ix P.nv) ℝ) : Matrix (Ix P.nv) (Ix P.nv) ℝ :=
  M + fromBlocks (P.dInt false x.q (hd dx)) 0 0 1

/-- `state->JintegrateTransport(x, dx, M, second)` (multibody/states/multibody.hxx L254-278): the top rows are replaced. `e`
numbers the columns. -/
def trSecond {κ : Type*} {c : ℕ} (e : κ ≃ Fin c) (x : X P) (dx : Tan P) (M : Matrix (Ix P.nv) κ ℝ) :
    Matrix (Ix P.nv) κ ℝ :=
  fromRows ((P.transport true x.q (hd dx) c (M.toRows₁.submatrix id e.symm)).submatrix id e) M.toRows₂

/-- `state->Jintegrate(x, dx, M, M)`, with the default arguments `both` and `setto` and one buffer
(multibody/states/multibody.hxx L186-250): the upper left corner is `dIntegrate` for the first argument and then for the
second, the diagonal of the lower right corner is one, and the other entries are not written. -/
def setBoth (x : X P) (dx : Tan P) (M : Matrix (Ix P.nv) (Ix P.nv) ℝ) : Matrix (Ix P.nv) (Ix P.nv) ℝ
  | Sum.inl i, Sum.inl j => P.dInt true x.q (hd dx) i j
  | Sum.inr i, Sum.inr j => if i = j then 1 else M (Sum.inr i) (Sum.inr j)
  | i, j => M i j

/-- A differential action model: the accelerations and the cost, with and without control, and the derivatives its `calcDiff`
writes after `calc`. -/
structure DM (P : Pin) (nw : ℕ) where
  xout : X P → (Fin nw → ℝ) → Fin P.nv → ℝ
  cost : X P → (Fin nw → ℝ) → ℝ
  costT : X P → ℝ
  Fx : X P → (Fin nw → ℝ) → Matrix (Fin P.nv) (Ix P.nv) ℝ
  Fu : X P → (Fin nw → ℝ) → Matrix (Fin P.nv) (Fin nw) ℝ
  Lx : X P → (Fin nw → ℝ) → Ix P.nv → ℝ
  Lu : X P → (Fin nw → ℝ) → Fin nw → ℝ
  LxT : X P → Ix P.nv → ℝ

/-! ## Euler -/

/-- The members of the data of the Euler integrator that are modelled (core/action-base.hpp L360-436, euler.hpp L209-241). -/
structure Data (P : Pin) (nu : ℕ) where
  dx : Tan P
  xnext : X P
  cost : ℝ
  Fx : Matrix (Ix P.nv) (Ix P.nv) ℝ
  Fu : Matrix (Ix P.nv) (Fin nu) ℝ
  Lx : Ix P.nv → ℝ
  Lu : Fin nu → ℝ

/-- `calc(data, x, u)` (core/integrator/euler.hxx L27-57). -/
def eulerCalc (D : DM P nw) (C : Ctl ℝ nw nu) (s : Step ℝ) (d : Data P nu) (x : X P) (u : Fin nu → ℝ) : Data P nu :=
  let w := C 0 *ᵥ u
  let a := D.xout x w
  let dx : Tan P := Sum.elim (fun i => x.v i * s.dt + a i * s.dt2) (fun i => a i * s.dt)
  { d with dx := dx, xnext := int x dx, cost := s.dt * D.cost x w }

/-- `calc(data, x)` (core/integrator/euler.hxx L60-79). -/
def eulerCalcT (D : DM P nw) (d : Data P nu) (x : X P) : Data P nu := { d with dx := 0, xnext := x, cost := D.costT x }

/-- `Fx` before the calls of the state (core/integrator/euler.hxx L104-106). -/
def eulerFx (s : Step ℝ) (da : Matrix (Fin P.nv) (Ix P.nv) ℝ) : Matrix (Ix P.nv) (Ix P.nv) ℝ
  | Sum.inl r, j => da r j * s.dt2 + (if j = Sum.inr r then s.dt else 0)
  | Sum.inr r, j => da r j * s.dt

/-- `Fu` before the call of the state (core/integrator/euler.hxx L107-108). -/
def eulerFu (s : Step ℝ) (da : Matrix (Fin P.nv) (Fin nu) ℝ) : Matrix (Ix P.nv) (Fin nu) ℝ
  | Sum.inl r, j => s.dt2 * da r j
  | Sum.inr r, j => s.dt * da r j

/-- `calcDiff(data, x, u)` (core/integrator/euler.hxx L82-128): the increment `d->dx` is that of the last `calc`. Second
derivatives and constraints are not modelled. -/
def eulerCalcDiff (D : DM P nw) (C : Ctl ℝ nw nu) (s : Step ℝ) (d : Data P nu) (x : X P) (u : Fin nu → ℝ) : Data P nu :=
  let w := C 0 *ᵥ u
  { d with
    Fx := addFirst x d.dx (trSecond finSumFinEquiv x d.dx (eulerFx s (D.Fx x w)))
    Fu := trSecond (Equiv.refl _) x d.dx (eulerFu s (D.Fu x w * C 0))
    Lx := s.dt • D.Lx x w
    Lu := s.dt • ((C 0)ᵀ *ᵥ D.Lu x w) }

/-- `calcDiff(data, x)` (core/integrator/euler.hxx L131-147). -/
def eulerCalcDiffT (D : DM P nw) (d : Data P nu) (x : X P) : Data P nu :=
  { d with Fx := setBoth x d.dx d.Fx, Lx := D.LxT x }

/-! ## Runge-Kutta -/

/-- The buffers of one stage: `dx_rk[i]`, `y[i]`, `ws[i]`, `ki[i]`, `integral[i]`. -/
structure Stage (P : Pin) (nw : ℕ) where
  dx : Tan P
  y : X P
  w : Fin nw → ℝ
  k : Tan P
  l : ℝ

/-- The loop of `calc(data, x, u)` (core/integrator/rk.hxx L46-70). -/
def rkStage (D : DM P nw) (C : Ctl ℝ nw nu) (ty : RKType) (dt : ℝ) (x : X P) (u : Fin nu → ℝ) : ℕ → Stage P nw
  | 0 =>
    let w := C (rkC ty 0) *ᵥ u
    ⟨0, x, w, Sum.elim x.v (D.xout x w), D.cost x w⟩
  | i + 1 =>
    let dx : Tan P := fun j => dt * rkC ty (i + 1) * (rkStage D C ty dt x u i).k j
    let y := int x dx
    let w := C (rkC ty (i + 1)) *ᵥ u
    ⟨dx, y, w, Sum.elim y.v (D.xout y w), D.cost y w⟩

/-- `d->dx` after `calc(data, x, u)` (core/integrator/rk.hxx L72-86). -/
def rkDx (D : DM P nw) (C : Ctl ℝ nw nu) (ty : RKType) (dt : ℝ) (x : X P) (u : Fin nu → ℝ) : Tan P :=
  fun j => rkSum ty dt (fun i => (rkStage D C ty dt x u i).k j)

/-- `d->xnext` after `calc(data, x, u)` (core/integrator/rk.hxx L87). -/
def rkNext (D : DM P nw) (C : Ctl ℝ nw nu) (ty : RKType) (dt : ℝ) (x : X P) (u : Fin nu → ℝ) : X P :=
  int x (rkDx D C ty dt x u)

/-- `d->cost` after `calc(data, x, u)` (core/integrator/rk.hxx L72-86). -/
def rkCost (D : DM P nw) (C : Ctl ℝ nw nu) (ty : RKType) (dt : ℝ) (x : X P) (u : Fin nu → ℝ) : ℝ :=
  rkSum ty dt (fun i => (rkStage D C ty dt x u i).l)

/-- The derivative buffers of one stage: `dyi_dx[i]`, `dyi_du[i]`, `dki_dx[i]`, `dki_du[i]`, `dli_dx[i]`, `dli_du[i]`. -/
structure DStage (P : Pin) (nu : ℕ) where
  yx : Matrix (Ix P.nv) (Ix P.nv) ℝ
  yu : Matrix (Ix P.nv) (Fin nu) ℝ
  kx : Matrix (Ix P.nv) (Ix P.nv) ℝ
  ku : Matrix (Ix P.nv) (Fin nu) ℝ
  lx : Ix P.nv → ℝ
  lu : Fin nu → ℝ

/-- The loop of `calcDiff(data, x, u)` (core/integrator/rk.hxx L146-253) after `calc(data, x, u)`, which left the states, controls
and increments of the stages. `dki_dx[0]` has the constant top right block `I` and `dyi_dx[0]` is the constant identity (rk.hpp
L289-291). For `i = 1` the product `dki_dqi * dqi_dv` is replaced by `dt/2 * dki_dqi` (L209-210). The second derivatives are
not modelled. -/
def rkDStage (D : DM P nw) (C : Ctl ℝ nw nu) (ty : RKType) (dt : ℝ) (x : X P) (u : Fin nu → ℝ) : ℕ → DStage P nu
  | 0 =>
    let s := rkStage D C ty dt x u 0
    let Fx := D.Fx s.y s.w
    let J := C (rkC ty 0)
    { yx := 1
      yu := 0
      kx := fromBlocks 0 1 (Fx.submatrix id Sum.inl) (Fx.submatrix id Sum.inr)
      ku := fromRows 0 (D.Fu s.y s.w * J)
      lx := D.Lx s.y s.w
      lu := Jᵀ *ᵥ D.Lu s.y s.w }
  | i + 1 =>
    let p := rkDStage D C ty dt x u i
    let s := rkStage D C ty dt x u (i + 1)
    let J := C (rkC ty (i + 1))
    let yx := addFirst x s.dx (trSecond finSumFinEquiv x s.dx ((rkC ty (i + 1) * dt) • p.kx))
    let yu := trSecond (Equiv.refl _) x s.dx ((rkC ty (i + 1) * dt) • p.ku)
    let Fq := (D.Fx s.y s.w).submatrix id Sum.inl
    let Fv := (D.Fx s.y s.w).submatrix id Sum.inr
    let dkv_dq := Fq * yx.toBlocks₁₁ + Fv * yx.toBlocks₂₁
    let dkv_dv := (if i + 1 = 1 then (dt / 2) • Fq else Fq * yx.toBlocks₁₂) + Fv * yx.toBlocks₂₂
    { yx := yx
      yu := yu
      kx := fromBlocks yx.toBlocks₂₁ yx.toBlocks₂₂ dkv_dq dkv_dv
      ku := fromRows yu.toRows₂ (Fq * yu.toRows₁ + Fv * yu.toRows₂ + D.Fu s.y s.w * J)
      lx := D.Lx s.y s.w ᵥ* yx
      lu := Jᵀ *ᵥ D.Lu s.y s.w + D.Lx s.y s.w ᵥ* yu }

/-- `Fx` after `calc` and `calcDiff(data, x, u)` (core/integrator/rk.hxx L255-309). -/
def rkFx (D : DM P nw) (C : Ctl ℝ nw nu) (ty : RKType) (dt : ℝ) (x : X P) (u : Fin nu → ℝ) :
    Matrix (Ix P.nv) (Ix P.nv) ℝ :=
  addFirst x (rkDx D C ty dt x u) (trSecond finSumFinEquiv x (rkDx D C ty dt x u)
    (Matrix.of fun a b => rkDSum ty dt (fun i => (rkDStage D C ty dt x u i).kx a b)))

/-- `Fu` after `calc` and `calcDiff(data, x, u)` (core/integrator/rk.hxx L255-310). -/
def rkFu (D : DM P nw) (C : Ctl ℝ nw nu) (ty : RKType) (dt : ℝ) (x : X P) (u : Fin nu → ℝ) : Matrix (Ix P.nv) (Fin nu) ℝ :=
  trSecond (Equiv.refl _) x (rkDx D C ty dt x u)
    (Matrix.of fun a b => rkDSum ty dt (fun i => (rkDStage D C ty dt x u i).ku a b))

/-- `Lx` after `calc` and `calcDiff(data, x, u)` (core/integrator/rk.hxx L255-300). -/
def rkLx (D : DM P nw) (C : Ctl ℝ nw nu) (ty : RKType) (dt : ℝ) (x : X P) (u : Fin nu → ℝ) : Ix P.nv → ℝ :=
  fun b => rkDSum ty dt (fun i => (rkDStage D C ty dt x u i).lx b)

/-- `Lu` after `calc` and `calcDiff(data, x, u)` (core/integrator/rk.hxx L255-300). -/
def rkLu (D : DM P nw) (C : Ctl ℝ nw nu) (ty : RKType) (dt : ℝ) (x : X P) (u : Fin nu → ℝ) : Fin nu → ℝ :=
  fun b => rkDSum ty dt (fun i => (rkDStage D C ty dt x u i).lu b)

end

end Verif.Im
