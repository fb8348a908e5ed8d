import Verif.Model.NumDiff

/-!
# Finite differences of a differential action model (`DifferentialActionModelNumDiffTpl`)

File modelled: `/repo/include/crocoddyl/core/numdiff/diff-action.hxx`. As in `Model/NumDiff`, the differentiated model
and the state are parameters, and `calc` of the differentiated model is a function of `(x, u)`. Real arithmetic. The
loops over the Hessian are textually those of `action.hxx`: `hessRow` of `Model/NumDiff` is used for them.
-/

namespace Verif.NumDiffD

noncomputable section

open Matrix
open Verif.NumDiff (StateOps setCol setAt hessRow)

/-- Results of `calc` of the differentiated model: `xout` is the acceleration. -/
structure Res (nv nr ng nh : ℕ) where
  xout : Fin nv → ℝ
  cost : ℝ
  r : Fin nr → ℝ
  g : Fin ng → ℝ
  h : Fin nh → ℝ

/-- The wrapper: `model_` (its two `calc`s, its `quasiStatic` and state), `e_jac_`, `e_hess_`,
`with_gauss_approx_`, and whether the library was compiled with `NDEBUG`. -/
structure Model (X : Type) (nv n nu nr ng nh : ℕ) where
  st : StateOps X n
  ev : X → (Fin nu → ℝ) → Res nv nr ng nh
  evT : X → Res nv nr ng nh
  qs : X → ℕ → ℝ → Fin nu → ℝ
  ejac : ℝ
  ehess : ℝ
  gauss : Bool
  ndebug : Bool

/-- `DifferentialActionDataNumDiff` (diff-action.hpp L196-258): `d0` is `data_0`. The resized row counts of `Gx`,
`Hx`, … are the types. -/
structure Data (nv n nu nr ng nh : ℕ) where
  d0 : Res nv nr ng nh
  xout : Fin nv → ℝ
  cost : ℝ
  g : Fin ng → ℝ
  h : Fin nh → ℝ
  Fx : Matrix (Fin nv) (Fin n) ℝ
  Fu : Matrix (Fin nv) (Fin nu) ℝ
  Lx : Fin n → ℝ
  Lu : Fin nu → ℝ
  Rx : Matrix (Fin nr) (Fin n) ℝ
  Ru : Matrix (Fin nr) (Fin nu) ℝ
  Gx : Matrix (Fin ng) (Fin n) ℝ
  Gu : Matrix (Fin ng) (Fin nu) ℝ
  Hx : Matrix (Fin nh) (Fin n) ℝ
  Hu : Matrix (Fin nh) (Fin nu) ℝ
  Lxx : Matrix (Fin n) (Fin n) ℝ
  Lxu : Matrix (Fin n) (Fin nu) ℝ
  Luu : Matrix (Fin nu) (Fin nu) ℝ
  dx : Fin n → ℝ
  du : Fin nu → ℝ

variable {X : Type} {nv n nu nr ng nh : ℕ}

/-- `set_disturbance`, L348-356: `none` is the exception for a negative value. -/
def setDisturbance (m : Model X nv n nu nr ng nh) (e : ℝ) : Option (Model X nv n nu nr ng nh) :=
  if e < 0 then none else some { m with ejac := e, ehess := √(2 * e) }

/-- The constructor, L15-27 (`eps` is the machine epsilon of the scalar type); `none` is the exception. -/
def create (st : StateOps X n) (ev : X → (Fin nu → ℝ) → Res nv nr ng nh) (evT : X → Res nv nr ng nh)
    (qs : X → ℕ → ℝ → Fin nu → ℝ) (eps : ℝ) (gauss ndebug : Bool) : Option (Model X nv n nu nr ng nh) :=
  if gauss = true ∧ nr = 1 then none
  else some { st := st, ev := ev, evT := evT, qs := qs, ejac := √(2 * eps), ehess := √(2 * √(2 * eps)),
              gauss := gauss, ndebug := ndebug }

/-- `cast()`, L327-334: the wrapper of the cast model, constructed with the default `with_gauss_approx = false`
(diff-action.hpp L68-69). The cast of the differentiated model is taken to be the model itself. -/
def castM (eps : ℝ) (m : Model X nv n nu nr ng nh) : Option (Model X nv n nu nr ng nh) :=
  create m.st m.ev m.evT m.qs eps false m.ndebug

/-- `quasiStatic`, L318-325: the differentiated model's. -/
def quasiStatic (m : Model X nv n nu nr ng nh) (x : X) (maxiter : ℕ) (tol : ℝ) : Fin nu → ℝ := m.qs x maxiter tol

/-- `calc(data, x, u)`, L29-49. -/
def calcXU (m : Model X nv n nu nr ng nh) (d : Data nv n nu nr ng nh) (x : X) (u : Fin nu → ℝ) :
    Data nv n nu nr ng nh :=
  let d0 := m.ev x u
  { d with d0 := d0, xout := d0.xout, cost := d0.cost, g := d0.g, h := d0.h }

/-- `calc(data, x)`, L51-66. -/
def calcX (m : Model X nv n nu nr ng nh) (d : Data nv n nu nr ng nh) (x : X) : Data nv n nu nr ng nh :=
  let d0 := m.evT x
  { d with d0 := d0, xout := d0.xout, cost := d0.cost, g := d0.g, h := d0.h }

/-- Body of the loop over the state, L107-120 (L258-269, without `Fx`, for a terminal node); `ev` is
`model_->calc(·, xp, u)`. -/
def jacX (m : Model X nv n nu nr ng nh) (ev : X → Res nv nr ng nh) (fx : Bool) (x : X) (h : ℝ)
    (d : Data nv n nu nr ng nh) (ix : Fin n) : Data nv n nu nr ng nh :=
  let d : Data nv n nu nr ng nh := { d with dx := Function.update d.dx ix h }
  let p := ev (m.st.integrate x d.dx)
  { d with
    Fx := if fx then setCol d.Fx ix (fun i => (p.xout i - d.d0.xout i) / h) else d.Fx
    Gx := setCol d.Gx ix (fun i => (p.g i - d.g i) / h)
    Hx := setCol d.Hx ix (fun i => (p.h i - d.h i) / h)
    Lx := Function.update d.Lx ix ((p.cost - d.d0.cost) / h)
    Rx := setCol d.Rx ix (fun i => (p.r i - d.d0.r i) / h)
    dx := Function.update d.dx ix 0 }

/-- Body of the loop over the control, L124-136. -/
def jacU (m : Model X nv n nu nr ng nh) (x : X) (u : Fin nu → ℝ) (h : ℝ)
    (d : Data nv n nu nr ng nh) (iu : Fin nu) : Data nv n nu nr ng nh :=
  let d : Data nv n nu nr ng nh := { d with du := Function.update d.du iu h }
  let p := m.ev x (u + d.du)
  { d with
    Fu := setCol d.Fu iu (fun i => (p.xout i - d.d0.xout i) / h)
    Gu := setCol d.Gu iu (fun i => (p.g i - d.g i) / h)
    Hu := setCol d.Hu iu (fun i => (p.h i - d.h i) / h)
    Lu := Function.update d.Lu iu ((p.cost - d.d0.cost) / h)
    Ru := setCol d.Ru iu (fun i => (p.r i - d.d0.r i) / h)
    du := Function.update d.du iu 0 }

/-- Body of the mixed loop, L203-221. -/
def hessXU (m : Model X nv n nu nr ng nh) (x : X) (u : Fin nu → ℝ) (hx hu : ℝ) (ix : Fin n)
    (d : Data nv n nu nr ng nh) (ju : Fin nu) : Data nv n nu nr ng nh :=
  let dx := Function.update d.dx ix hx
  let xp := m.st.integrate x dx
  let du := Function.update d.du ju hu
  let cpp := (m.ev xp (u + du)).cost
  let cpm := (m.ev xp (u - du)).cost
  let xm := m.st.integrate x (-dx)
  let cmp := (m.ev xm (u + du)).cost
  let cmm := (m.ev xm (u - du)).cost
  { d with
    Lxu := setAt d.Lxu ix ju ((cpp - cpm - cmp + cmm) / (4 * hx * hu))
    dx := Function.update dx ix 0
    du := Function.update du ju 0 }

/-- `max(1, ‖x ⊖ 0‖)` times a constant, L103-106, L140. -/
def stepX (m : Model X nv n nu nr ng nh) (e : ℝ) (x : X) : ℝ := e * max 1 (NumDiff.norm (m.st.diff m.st.zero x))

/-- `max(1, ‖u‖)` times a constant, L123, L173. -/
def stepU (e : ℝ) (u : Fin nu → ℝ) : ℝ := e * max 1 (NumDiff.norm u)

/-- The Hessian loops compiled in release mode, L138-222. -/
def hessians (m : Model X nv n nu nr ng nh) (d : Data nv n nu nr ng nh) (x : X) (u : Fin nu → ℝ) :
    Data nv n nu nr ng nh :=
  let c0 := d.d0.cost
  let hx := stepX m m.ehess x
  let a := (List.finRange n).foldl
    (hessRow (fun dx => (m.ev (m.st.integrate x dx) u).cost)
      (fun dx => (m.ev (m.st.integrate x (-dx)) u).cost) c0 hx) (d.dx, d.Lxx)
  let d : Data nv n nu nr ng nh := { d with dx := a.1, Lxx := a.2 }
  let hu := stepU m.ehess u
  let b := (List.finRange nu).foldl
    (hessRow (fun du => (m.ev x (u + du)).cost) (fun du => (m.ev x (u - du)).cost) c0 hu) (d.du, d.Luu)
  let d : Data nv n nu nr ng nh := { d with du := b.1, Luu := b.2 }
  (List.finRange n).foldl (fun d ix => (List.finRange nu).foldl (hessXU m x u hx hu ix) d) d

/-- `calcDiff(data, x, u)`, L68-229. -/
def diffXU (m : Model X nv n nu nr ng nh) (d : Data nv n nu nr ng nh) (x : X) (u : Fin nu → ℝ) :
    Data nv n nu nr ng nh :=
  let d : Data nv n nu nr ng nh := { d with du := 0, dx := 0 }
  let hx := stepX m m.ejac x
  let d := (List.finRange n).foldl (jacX m (fun y => m.ev y u) true x hx) d
  let hu := stepU m.ejac u
  let d := (List.finRange nu).foldl (jacU m x u hu) d
  let d := if m.ndebug then hessians m d x u else d
  if m.gauss then { d with Lxx := d.Rxᵀ * d.Rx, Lxu := d.Rxᵀ * d.Ru, Luu := d.Ruᵀ * d.Ru } else d

/-- `calcDiff(data, x)`, L231-310. -/
def diffX (m : Model X nv n nu nr ng nh) (d : Data nv n nu nr ng nh) (x : X) : Data nv n nu nr ng nh :=
  let d : Data nv n nu nr ng nh := { d with dx := 0 }
  let hx := stepX m m.ejac x
  let d := (List.finRange n).foldl (jacX m m.evT false x hx) d
  let d : Data nv n nu nr ng nh :=
    if m.ndebug then
      let a := (List.finRange n).foldl
        (hessRow (fun dx => (m.evT (m.st.integrate x dx)).cost)
          (fun dx => (m.evT (m.st.integrate x (-dx))).cost) d.d0.cost (stepX m m.ehess x)) (d.dx, d.Lxx)
      { d with dx := a.1, Lxx := a.2 }
    else d
  if m.gauss then { d with Lxx := d.Rxᵀ * d.Rx } else d

end

end Verif.NumDiffD
