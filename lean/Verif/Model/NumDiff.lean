import Mathlib.Analysis.SpecialFunctions.Pow.Real
import Mathlib.Data.Matrix.Mul
import Mathlib.Data.List.FinRange

/-!
# Finite differences of an action model (`ActionModelNumDiffTpl`)

File modelled: `/repo/include/crocoddyl/core/numdiff/action.hxx`. The differentiated model and the state are
parameters; `calc` of the differentiated model is a function of `(x, u)`, so writing it into `data_x[ix]` or
`data_u[iu]` and reading the result is the result itself. Real arithmetic.
-/

namespace Verif.NumDiff

noncomputable section

open Matrix

/-- The state: `zero()`, `integrate`, `diff`. -/
structure StateOps (X : Type) (n : ℕ) where
  zero : X
  integrate : X → (Fin n → ℝ) → X
  diff : X → X → Fin n → ℝ

/-- Results of `calc` of the differentiated model. -/
structure Res (X : Type) (nr ng nh : ℕ) where
  xnext : X
  cost : ℝ
  r : Fin nr → ℝ
  g : Fin ng → ℝ
  h : Fin nh → ℝ

/-- The wrapper: `model_` (its two `calc`s and state), `e_jac_`, `e_hess_`, `with_gauss_approx_`, and whether the
library was compiled with `NDEBUG`. -/
structure Model (X : Type) (n nu nr ng nh : ℕ) where
  st : StateOps X n
  ev : X → (Fin nu → ℝ) → Res X nr ng nh
  evT : X → Res X nr ng nh
  ejac : ℝ
  ehess : ℝ
  gauss : Bool
  ndebug : Bool

/-- `ActionDataNumDiff`: `d0` is `data_0`. The resized row counts of `Gx`, `Hx`, … are the types. -/
structure Data (X : Type) (n nu nr ng nh : ℕ) where
  d0 : Res X nr ng nh
  xnext : X
  cost : ℝ
  g : Fin ng → ℝ
  h : Fin nh → ℝ
  Fx : Matrix (Fin n) (Fin n) ℝ
  Fu : Matrix (Fin n) (Fin nu) ℝ
  Lx : Fin n → ℝ
  Lu : Fin nu → ℝ
  Rx : Matrix (Fin nr) (Fin n) ℝ
  Ru : Matrix (Fin nr) (Fin nu) ℝ
  Gx : Matrix (Fin ng) (Fin n) ℝ
  Gu : Matrix (Fin ng) (Fin nu) ℝ
  Hx : Matrix (Fin nh) (Fin n) ℝ
  Hu : Matrix (Fin nh) (Fin nu) ℝ
  Lxx : Matrix (Fin n) (Fin n) ℝ
  Lxu : Matrix (Fin n) (Fin nu) ℝ
  Luu : Matrix (Fin nu) (Fin nu) ℝ
  dx : Fin n → ℝ
  du : Fin nu → ℝ

variable {X : Type} {n nu nr ng nh : ℕ}

/-- `set_disturbance`, L354-361 (negative values are rejected). -/
def setDisturbance (m : Model X n nu nr ng nh) (e : ℝ) : Model X n nu nr ng nh :=
  if e < 0 then m else { m with ejac := e, ehess := √(2 * e) }

/-- The constructor, L14-27 (`eps` is the machine epsilon of the scalar type). -/
def create (st : StateOps X n) (ev : X → (Fin nu → ℝ) → Res X nr ng nh) (evT : X → Res X nr ng nh)
    (eps : ℝ) (gauss ndebug : Bool) : Model X n nu nr ng nh :=
  { st := st, ev := ev, evT := evT, ejac := √(2 * eps), ehess := √(2 * √(2 * eps)), gauss := gauss,
    ndebug := ndebug }

/-- `cast()`, L335-341: the wrapper of the cast model, constructed with the default `with_gauss_approx = false`
(action.hpp L62). The cast of the differentiated model is taken to be the model itself. -/
def castM (eps : ℝ) (m : Model X n nu nr ng nh) : Model X n nu nr ng nh :=
  create m.st m.ev m.evT eps false m.ndebug

/-- `M.col(j) = v`. -/
def setCol {a b : ℕ} (M : Matrix (Fin a) (Fin b) ℝ) (j : Fin b) (v : Fin a → ℝ) : Matrix (Fin a) (Fin b) ℝ :=
  fun i k => if k = j then v i else M i k

/-- `M(i, j) = v`. -/
def setAt {a b : ℕ} (M : Matrix (Fin a) (Fin b) ℝ) (i : Fin a) (j : Fin b) (v : ℝ) : Matrix (Fin a) (Fin b) ℝ :=
  fun i' j' => if i' = i ∧ j' = j then v else M i' j'

/-- Euclidean norm of a vector. -/
def norm {k : ℕ} (v : Fin k → ℝ) : ℝ := √(∑ i, v i * v i)

/-- `calc(data, x, u)`, L29-49. -/
def calcXU (m : Model X n nu nr ng nh) (d : Data X n nu nr ng nh) (x : X) (u : Fin nu → ℝ) :
    Data X n nu nr ng nh :=
  let d0 := m.ev x u
  { d with d0 := d0, xnext := d0.xnext, cost := d0.cost, g := d0.g, h := d0.h }

/-- `calc(data, x)`, L50-66. -/
def calcX (m : Model X n nu nr ng nh) (d : Data X n nu nr ng nh) (x : X) : Data X n nu nr ng nh :=
  let d0 := m.evT x
  { d with d0 := d0, xnext := d0.xnext, cost := d0.cost, g := d0.g, h := d0.h }

/-- Body of the loop over the state, L107-123 (L264-277 for a terminal node); `ev` is `model_->calc(·, xp, u)`. -/
def jacX (m : Model X n nu nr ng nh) (ev : X → Res X nr ng nh) (fx : Bool) (x : X) (h : ℝ)
    (d : Data X n nu nr ng nh) (ix : Fin n) : Data X n nu nr ng nh :=
  let d : Data X n nu nr ng nh := { d with dx := Function.update d.dx ix h }
  let p := ev (m.st.integrate x d.dx)
  { d with
    Fx := if fx then setCol d.Fx ix (m.st.diff d.d0.xnext p.xnext) else d.Fx
    Lx := Function.update d.Lx ix ((p.cost - d.d0.cost) / h)
    Rx := if m.gauss then setCol d.Rx ix (fun i => (p.r i - d.d0.r i) / h) else d.Rx
    Gx := setCol d.Gx ix (fun i => (p.g i - d.g i) / h)
    Hx := setCol d.Hx ix (fun i => (p.h i - d.h i) / h)
    dx := Function.update d.dx ix 0 }

/-- Body of the loop over the control, L127-141. -/
def jacU (m : Model X n nu nr ng nh) (x : X) (u : Fin nu → ℝ) (h : ℝ)
    (d : Data X n nu nr ng nh) (iu : Fin nu) : Data X n nu nr ng nh :=
  let d : Data X n nu nr ng nh := { d with du := Function.update d.du iu h }
  let p := m.ev x (u + d.du)
  { d with
    Fu := setCol d.Fu iu (m.st.diff d.d0.xnext p.xnext)
    Lu := Function.update d.Lu iu ((p.cost - d.d0.cost) / h)
    Ru := if m.gauss then setCol d.Ru iu (fun i => (p.r i - d.d0.r i) / h) else d.Ru
    Gu := setCol d.Gu iu (fun i => (p.g i - d.g i) / h)
    Hu := setCol d.Hu iu (fun i => (p.h i - d.h i) / h)
    du := Function.update d.du iu 0 }

/-- The indices `ix + 1, …, k - 1`. -/
def after {k : ℕ} (ix : Fin k) : List (Fin k) := (List.finRange k).filter (fun j => decide (ix < j))

/-- Inner loop of the Hessian loops, L157-175 (L188-204 for the control, L293-310 for a terminal node): `ev`
is the cost after a disturbance, `cp` the one after the disturbance of `i` alone. The pair is the disturbance
(`dx` or `du`) and the Hessian block. -/
def hessInner {k : ℕ} (ev : (Fin k → ℝ) → ℝ) (c0 cp h : ℝ) (i : Fin k)
    (s : (Fin k → ℝ) × Matrix (Fin k) (Fin k) ℝ) (j : Fin k) : (Fin k → ℝ) × Matrix (Fin k) (Fin k) ℝ :=
  let dx := Function.update s.1 j h
  let cpp := ev dx
  let dx := Function.update dx i 0
  let czp := ev dx
  let L := setAt s.2 i j ((cpp - czp - cp + c0) / (h * h))
  let L := setAt L j i (L i j)
  (Function.update (Function.update dx i h) j 0, L)

/-- One row of the Hessian loops, L148-177 (L181-206, L283-312); `evm` is the cost after the opposite
disturbance. -/
def hessRow {k : ℕ} (ev evm : (Fin k → ℝ) → ℝ) (c0 h : ℝ)
    (s : (Fin k → ℝ) × Matrix (Fin k) (Fin k) ℝ) (i : Fin k) : (Fin k → ℝ) × Matrix (Fin k) (Fin k) ℝ :=
  let dx := Function.update s.1 i h
  let cp := ev dx
  let cm := evm dx
  let L := setAt s.2 i i ((cp - 2 * c0 + cm) / (h * h))
  let t := (after i).foldl (hessInner ev c0 cp h i) (dx, L)
  (Function.update t.1 i 0, t.2)

/-- Body of the mixed loop, L210-226. -/
def hessXU (m : Model X n nu nr ng nh) (x : X) (u : Fin nu → ℝ) (hx hu : ℝ) (ix : Fin n)
    (d : Data X n nu nr ng nh) (ju : Fin nu) : Data X n nu nr ng nh :=
  let dx := Function.update d.dx ix hx
  let xp := m.st.integrate x dx
  let du := Function.update d.du ju hu
  let cpp := (m.ev xp (u + du)).cost
  let cpm := (m.ev xp (u - du)).cost
  let xm := m.st.integrate x (-dx)
  let cmp := (m.ev xm (u + du)).cost
  let cmm := (m.ev xm (u - du)).cost
  { d with
    Lxu := setAt d.Lxu ix ju ((cpp - cpm - cmp + cmm) / (4 * hx * hu))
    dx := Function.update dx ix 0
    du := Function.update du ju 0 }

/-- `max(1, ‖x ⊖ 0‖)` times a constant, L103-106, L146. -/
def stepX (m : Model X n nu nr ng nh) (e : ℝ) (x : X) : ℝ := e * max 1 (norm (m.st.diff m.st.zero x))

/-- `max(1, ‖u‖)` times a constant, L126, L179. -/
def stepU (e : ℝ) (u : Fin nu → ℝ) : ℝ := e * max 1 (norm u)

/-- The Hessian loops compiled in release mode, L144-228. -/
def hessians (m : Model X n nu nr ng nh) (d : Data X n nu nr ng nh) (x : X) (u : Fin nu → ℝ) :
    Data X n nu nr ng nh :=
  let c0 := d.d0.cost
  let hx := stepX m m.ehess x
  let a := (List.finRange n).foldl
    (hessRow (fun dx => (m.ev (m.st.integrate x dx) u).cost)
      (fun dx => (m.ev (m.st.integrate x (-dx)) u).cost) c0 hx) (d.dx, d.Lxx)
  let d : Data X n nu nr ng nh := { d with dx := a.1, Lxx := a.2 }
  let hu := stepU m.ehess u
  let b := (List.finRange nu).foldl
    (hessRow (fun du => (m.ev x (u + du)).cost) (fun du => (m.ev x (u - du)).cost) c0 hu) (d.du, d.Luu)
  let d : Data X n nu nr ng nh := { d with du := b.1, Luu := b.2 }
  (List.finRange n).foldl (fun d ix => (List.finRange nu).foldl (hessXU m x u hx hu ix) d) d

/-- `calcDiff(data, x, u)`, L68-235. -/
def diffXU (m : Model X n nu nr ng nh) (d : Data X n nu nr ng nh) (x : X) (u : Fin nu → ℝ) :
    Data X n nu nr ng nh :=
  let d : Data X n nu nr ng nh :=
    { d with xnext := d.d0.xnext, cost := d.d0.cost, du := 0, dx := 0 }
  let hx := stepX m m.ejac x
  let d := (List.finRange n).foldl (jacX m (fun y => m.ev y u) true x hx) d
  let d : Data X n nu nr ng nh := { d with Fx := fun i j => d.Fx i j / hx }
  let hu := stepU m.ejac u
  let d := (List.finRange nu).foldl (jacU m x u hu) d
  let d : Data X n nu nr ng nh := { d with Fu := fun i j => d.Fu i j / hu }
  let d := if m.ndebug then hessians m d x u else d
  if m.gauss then { d with Lxx := d.Rxᵀ * d.Rx, Lxu := d.Rxᵀ * d.Ru, Luu := d.Ruᵀ * d.Ru } else d

/-- `calcDiff(data, x)`, L237-318. -/
def diffX (m : Model X n nu nr ng nh) (d : Data X n nu nr ng nh) (x : X) : Data X n nu nr ng nh :=
  let d : Data X n nu nr ng nh := { d with xnext := d.d0.xnext, cost := d.d0.cost, dx := 0 }
  let hx := stepX m m.ejac x
  let d := (List.finRange n).foldl (jacX m m.evT false x hx) d
  let d : Data X n nu nr ng nh :=
    if m.ndebug then
      let a := (List.finRange n).foldl
        (hessRow (fun dx => (m.evT (m.st.integrate x dx)).cost)
          (fun dx => (m.evT (m.st.integrate x (-dx))).cost) d.d0.cost (stepX m m.ehess x)) (d.dx, d.Lxx)
      { d with dx := a.1, Lxx := a.2 }
    else d
  if m.gauss then { d with Lxx := d.Rxᵀ * d.Rx } else d

end

end Verif.NumDiff
