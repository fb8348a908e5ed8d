import Verif.Model.NumDiff

/-!
# The other finite-difference wrappers

Files modelled, in `/repo/include/crocoddyl/core/numdiff/`: `residual.hxx`, `constraint.hxx`, `actuation.hxx`,
`cost.hxx`, `activation.hxx`, `control.hxx`, `state.hxx` (and the data structures of the `.hpp` files). Argument sizes
are the types (the throws on wrong sizes are not modelled). Real arithmetic.

Wrappers of models that read the shared data (`reevals_`) work on a state `W`, the shared data: `calc` of the differentiated
model is a function of `W` and the point. The outputs of a wrapper are one vector, indexed by `ι`: for a residual `ι` has
`nr` elements, for a constraint it is the disjoint union of the indices of `g` and `h` (so `Jx` is `Gx` above `Hx`),
for an actuation it has `nv` elements, for a cost it is the cost and the residual.
-/

namespace Verif.NdMore

noncomputable section

open Verif.NumDiff Matrix

/-- The loop of all the wrappers (`residual.hxx` L55-65 and L69-80, `constraint.hxx` L97-108 and L112-123,
`actuation.hxx` L77-83 and L87-92, `cost.hxx` L64-77 and L81-94, with the columns of `Jx` written together):
`dx(i) = h`, the re-evaluation functions and `calc` at the disturbed point (`ev`),
`col(i) = (result - base) / h`, `dx(i) = 0`. -/
def fdLoop {W ι : Type} {k : ℕ} (ev : W → (Fin k → ℝ) → W × (ι → ℝ)) (base : ι → ℝ) (h : ℝ)
    (s : W × (Fin k → ℝ) × Matrix ι (Fin k) ℝ) : W × (Fin k → ℝ) × Matrix ι (Fin k) ℝ :=
  (List.finRange k).foldl (fun s i =>
    let dx := Function.update s.2.1 i h
    let p := ev s.1 dx
    (p.1, Function.update dx i 0, fun a j => if j = i then (p.2 a - base a) / h else s.2.2 a j)) s

/-- How the step of `calcDiff(data, x)` is found: not at all (`residual.hxx` L83-104 uses the member `xh_jac` as it
is), from `x.norm()` (`cost.hxx` L125), from `diff(zero, x)` (`constraint.hxx` L146-149, `actuation.hxx` L109-112). -/
inductive TermStep
  | stale | xnorm | dist

/-- A wrapper: the state, the norm of the vector that represents a state, the re-evaluation functions in order
(with and without control), the two `calc`s of the differentiated model. -/
structure Wrap (W X ι : Type) (n nu : ℕ) where
  st : StateOps X n
  xnorm : X → ℝ
  re : X → (Fin nu → ℝ) → W → W
  reT : X → W → W
  ev : W → X → (Fin nu → ℝ) → ι → ℝ
  evT : W → X → ι → ℝ
  term : TermStep

/-- The wrapper's data: results, disturbances, and the member `xh_jac` (`none`: not initialised, as the constructors
leave it, e.g. `residual.hpp` L166-188). -/
structure Dat (ι : Type) (n nu : ℕ) where
  r : ι → ℝ
  Jx : Matrix ι (Fin n) ℝ
  Ju : Matrix ι (Fin nu) ℝ
  dx : Fin n → ℝ
  du : Fin nu → ℝ
  xh : Option ℝ

/-- `e_jac_`, the shared data, and one data object. -/
structure World (W ι : Type) (n nu : ℕ) where
  ejac : ℝ
  sh : W
  d : Dat ι n nu

/-- Calls: `calc`, `calcDiff` with and without control, `set_disturbance`, and an update of the shared data by the
caller. -/
inductive Op (W X : Type) (nu : ℕ)
  | eval (x : X) (u : Fin nu → ℝ)
  | evalT (x : X)
  | diff (x : X) (u : Fin nu → ℝ)
  | diffT (x : X)
  | setDist (e : ℝ)
  | update (f : W → W)

section
variable {W X ι : Type} {n nu : ℕ}

/-- Construction, and `createData`. -/
def fresh (eps : ℝ) (w : W) : World W ι n nu :=
  { ejac := √(2 * eps), sh := w, d := { r := 0, Jx := 0, Ju := 0, dx := 0, du := 0, xh := none } }

/-- `calc(data, x, u)`: `residual.hxx` L20-27, `constraint.hxx` L21-42, `actuation.hxx` L21-38, `cost.hxx` L21-30. -/
def calcU (m : Wrap W X ι n nu) (s : World W ι n nu) (x : X) (u : Fin nu → ℝ) : World W ι n nu :=
  { s with d := { s.d with r := m.ev s.sh x u } }

/-- `calc(data, x)`. -/
def calcT (m : Wrap W X ι n nu) (s : World W ι n nu) (x : X) : World W ι n nu :=
  { s with d := { s.d with r := m.evT s.sh x } }

/-- `calcDiff(data, x, u)`: `residual.hxx` L38-80, `constraint.hxx` L62-124, `actuation.hxx` L54-93,
`cost.hxx` L43-94. -/
def diff (m : Wrap W X ι n nu) (s : World W ι n nu) (x : X) (u : Fin nu → ℝ) : World W ι n nu :=
  let hx := s.ejac * max 1 (NumDiff.norm (m.st.diff m.st.zero x))
  let a := fdLoop (fun w dx =>
      let xp := m.st.integrate x dx
      let w := m.re xp u w
      (w, m.ev w xp u)) s.d.r hx (s.sh, 0, s.d.Jx)
  let hu := s.ejac * max 1 (NumDiff.norm u)
  let b := fdLoop (fun w du =>
      let up := u + du
      let w := m.re x up w
      (w, m.ev w x up)) s.d.r hu (a.1, 0, s.d.Ju)
  { s with sh := b.1, d := { s.d with Jx := a.2.2, Ju := b.2.2, dx := a.2.1, du := b.2.1, xh := some hx } }

/-- The step of `calcDiff(data, x)`, see `TermStep`. -/
def termStep (m : Wrap W X ι n nu) (s : World W ι n nu) (x : X) : Option ℝ :=
  match m.term with
  | .stale => s.d.xh
  | .xnorm => some (s.ejac * max 1 (m.xnorm x))
  | .dist => some (s.ejac * max 1 (NumDiff.norm (m.st.diff m.st.zero x)))

/-- `calcDiff(data, x)`: `residual.hxx` L82-104, `constraint.hxx` L126-163, `actuation.hxx` L95-120,
`cost.hxx` L108-139. `none`: the step is read before it was ever written (for `ndx > 0`). -/
def diffT (m : Wrap W X ι n nu) (s : World W ι n nu) (x : X) : Option (World W ι n nu) :=
  match termStep m s x with
  | none => none
  | some h =>
    let a := fdLoop (fun w dx =>
        let xp := m.st.integrate x dx
        let w := m.reT xp w
        (w, m.evT w xp)) s.d.r h (s.sh, 0, s.d.Jx)
    some { s with sh := a.1, d := { s.d with Jx := a.2.2, dx := a.2.1, xh := some h } }

/-- `set_disturbance` (`residual.hxx` L133-140 and the same in the others): a negative value is rejected. -/
def setDist (s : World W ι n nu) (e : ℝ) : World W ι n nu :=
  if e < 0 then s else { s with ejac := e }

/-- One call. -/
def step (m : Wrap W X ι n nu) (s : World W ι n nu) : Op W X nu → Option (World W ι n nu)
  | .eval x u => some (calcU m s x u)
  | .evalT x => some (calcT m s x)
  | .diff x u => some (diff m s x u)
  | .diffT x => diffT m s x
  | .setDist e => some (setDist s e)
  | .update f => some { s with sh := f s.sh }

/-- A history of calls. -/
def run (m : Wrap W X ι n nu) (s : World W ι n nu) (ops : List (Op W X nu)) : Option (World W ι n nu) :=
  ops.foldlM (step m) s

/-! ### Cost: second derivatives -/

variable {nr : ℕ}

/-- The Hessians of a cost data. -/
structure Hess (n nu : ℕ) where
  Lxx : Matrix (Fin n) (Fin n) ℝ
  Lxu : Matrix (Fin n) (Fin nu) ℝ
  Luu : Matrix (Fin nu) (Fin nu) ℝ

/-- `residual->Rx` in the stacked Jacobian of a cost. -/
def rows {k : ℕ} (J : Matrix (Unit ⊕ Fin nr) (Fin k) ℝ) : Matrix (Fin nr) (Fin k) ℝ := fun a j => J (Sum.inr a) j

/-- The end of `calcDiff(data, x, u)` of a cost, `cost.hxx` L96-105; `arr` is the Hessian the activation computes at the
residual `r0` (L52-53). The Gauss approximation is used if `nr > 0` (`get_with_gauss_approx`). -/
def costHess (arr : (Fin nr → ℝ) → Matrix (Fin nr) (Fin nr) ℝ) (d : Dat (Unit ⊕ Fin nr) n nu) : Hess n nu :=
  let r0 : Fin nr → ℝ := fun a => d.r (Sum.inr a)
  if 0 < nr then
    { Lxx := (rows d.Jx)ᵀ * arr r0 * rows d.Jx, Lxu := (rows d.Jx)ᵀ * arr r0 * rows d.Ju,
      Luu := (rows d.Ju)ᵀ * arr r0 * rows d.Ju }
  else { Lxx := 0, Lxu := 0, Luu := 0 }

/-- The end of `calcDiff(data, x)` of a cost, `cost.hxx` L141-146: only `Lxx`. -/
def costHessT (arr : (Fin nr → ℝ) → Matrix (Fin nr) (Fin nr) ℝ) (d : Dat (Unit ⊕ Fin nr) n nu) (H : Hess n nu) :
    Hess n nu :=
  let r0 : Fin nr → ℝ := fun a => d.r (Sum.inr a)
  if 0 < nr then { H with Lxx := (rows d.Jx)ᵀ * arr r0 * rows d.Jx } else { H with Lxx := 0 }

/-- `calcDiff(data, x, u)` of a cost. -/
def costDiff (m : Wrap W X (Unit ⊕ Fin nr) n nu) (arr : (Fin nr → ℝ) → Matrix (Fin nr) (Fin nr) ℝ)
    (s : World W (Unit ⊕ Fin nr) n nu) (x : X) (u : Fin nu → ℝ) : World W (Unit ⊕ Fin nr) n nu × Hess n nu :=
  let s' := diff m s x u
  (s', costHess arr s'.d)

/-- `calcDiff(data, x)` of a cost. -/
def costDiffT (m : Wrap W X (Unit ⊕ Fin nr) n nu) (arr : (Fin nr → ℝ) → Matrix (Fin nr) (Fin nr) ℝ)
    (s : World W (Unit ⊕ Fin nr) n nu) (H : Hess n nu) (x : X) :
    Option (World W (Unit ⊕ Fin nr) n nu × Hess n nu) :=
  (diffT m s x).map fun s' => (s', costHessT arr s'.d H)

/-! ### Activation -/

/-- `ActivationDataNumDiff`: `a0` is the value in `data_0`; `Arr` is a diagonal matrix (the base class stores one). -/
structure ActDat (nr : ℕ) where
  a0 : ℝ
  a : ℝ
  Ar : Fin nr → ℝ
  Arr : Fin nr → ℝ

/-- `calc`, `activation.hxx` L22-34; `f` is the differentiated activation. -/
def actCalc (f : (Fin nr → ℝ) → ℝ) (d : ActDat nr) (r : Fin nr → ℝ) : ActDat nr := { d with a0 := f r, a := f r }

/-- Body of the loop of `calcDiff`, `activation.hxx` L54-59: the first component is `rp`. -/
def actBody (f : (Fin nr → ℝ) → ℝ) (a0 h : ℝ) (s : (Fin nr → ℝ) × (Fin nr → ℝ)) (i : Fin nr) :
    (Fin nr → ℝ) × (Fin nr → ℝ) :=
  let rp := Function.update s.1 i (s.1 i + h)
  (Function.update rp i (rp i - h), Function.update s.2 i ((f rp - a0) / h))

/-- `calcDiff`, `activation.hxx` L36-64. -/
def actDiff (f : (Fin nr → ℝ) → ℝ) (ejac : ℝ) (d : ActDat nr) (r : Fin nr → ℝ) : ActDat nr :=
  let h := ejac * max 1 (NumDiff.norm r)
  let Ar := ((List.finRange nr).foldl (actBody f d.a0 h) (r, d.Ar)).2
  { d with a := d.a0, Ar := Ar, Arr := fun i => Ar i * Ar i }

/-! ### Control parametrisation -/

variable {nw : ℕ}

/-- `ControlParametrizationDataNumDiff`: `w0` is `data_0->w`. -/
structure CtlDat (nw nu : ℕ) where
  w0 : Fin nw → ℝ
  w : Fin nw → ℝ
  dw : Matrix (Fin nw) (Fin nu) ℝ
  du : Fin nu → ℝ

/-- `calc`, `control.hxx` L20-26: only `data_0` is written. `f t u` is `w` of the differentiated
parametrisation. -/
def ctlCalc (f : ℝ → (Fin nu → ℝ) → Fin nw → ℝ) (d : CtlDat nw nu) (t : ℝ) (u : Fin nu → ℝ) : CtlDat nw nu :=
  { d with w0 := f t u }

/-- Body of the loop of `calcDiff`, `control.hxx` L37-42. -/
def ctlBody (f : ℝ → (Fin nu → ℝ) → Fin nw → ℝ) (t : ℝ) (u : Fin nu → ℝ) (w : Fin nw → ℝ) (h : ℝ)
    (s : (Fin nu → ℝ) × Matrix (Fin nw) (Fin nu) ℝ) (i : Fin nu) : (Fin nu → ℝ) × Matrix (Fin nw) (Fin nu) ℝ :=
  let du := Function.update s.1 i (s.1 i + h)
  (Function.update du i 0, setCol s.2 i (f t (u + du) - w))

/-- `calcDiff`, `control.hxx` L28-44. -/
def ctlDiff (f : ℝ → (Fin nu → ℝ) → Fin nw → ℝ) (ejac : ℝ) (d : CtlDat nw nu) (t : ℝ) (u : Fin nu → ℝ) :
    CtlDat nw nu :=
  let w := d.w0
  let h := ejac * max 1 (NumDiff.norm u)
  let a := (List.finRange nu).foldl (ctlBody f t u w h) (0, d.dw)
  { d with w := w, du := a.1, dw := fun i j => a.2 i j / h }

/-- `AssignmentOp`. -/
inductive AssOp
  | setto | addto | rmfrom

/-- `multiplyByJacobian`, `control.hxx` L68-90. -/
def mulJac {p : ℕ} (op : AssOp) (d : CtlDat nw nu) (A : Matrix (Fin p) (Fin nw) ℝ) (out : Matrix (Fin p) (Fin nu) ℝ) :
    Matrix (Fin p) (Fin nu) ℝ :=
  match op with
  | .setto => A * d.dw
  | .addto => out + A * d.dw
  | .rmfrom => out - A * d.dw

/-- `multiplyJacobianTransposeBy`, `control.hxx` L92-114. -/
def mulJacT {p : ℕ} (op : AssOp) (d : CtlDat nw nu) (A : Matrix (Fin nw) (Fin p) ℝ) (out : Matrix (Fin nu) (Fin p) ℝ) :
    Matrix (Fin nu) (Fin p) ℝ :=
  match op with
  | .setto => d.dwᵀ * A
  | .addto => out + d.dwᵀ * A
  | .rmfrom => out - d.dwᵀ * A

/-! ### State -/

/-- `Jcomponent`. -/
inductive Jc
  | both | first | second
deriving DecidableEq

/-- A loop of `Jdiff` or `Jintegrate`, e.g. `state.hxx` L111-117: `ev dx` is what is stored in the column; the first
component is `dx_`. -/
def stLoop {k a : ℕ} (ev : (Fin k → ℝ) → Fin a → ℝ) (h : ℝ) (J : Matrix (Fin a) (Fin k) ℝ) : Matrix (Fin a) (Fin k) ℝ :=
  ((List.finRange k).foldl (fun (s : (Fin k → ℝ) × Matrix (Fin a) (Fin k) ℝ) i =>
    let dx := Function.update s.1 i h
    (Function.update dx i 0, setCol s.2 i (ev dx))) (0, J)).2

/-- `Jdiff`, `state.hxx` L76-140. -/
def jdiff (st : StateOps X n) (xnorm : X → ℝ) (ejac : ℝ) (c : Jc) (x0 x1 : X)
    (J : Matrix (Fin n) (Fin n) ℝ × Matrix (Fin n) (Fin n) ℝ) : Matrix (Fin n) (Fin n) ℝ × Matrix (Fin n) (Fin n) ℝ :=
  let dx0 := st.diff x0 x1
  let h0 := ejac * max 1 (xnorm x0)
  let J1 := if c = .first ∨ c = .both then
      let M := stLoop (fun dx => st.diff (st.integrate x0 dx) x1 - dx0) h0 0
      Matrix.of (fun i j => M i j / h0) else J.1
  let h1 := ejac * max 1 (xnorm x1)
  let J2 := if c = .second ∨ c = .both then
      let M := stLoop (fun dx => st.diff x0 (st.integrate x1 dx) - dx0) h1 0
      Matrix.of (fun i j => M i j / h1) else J.2
  (J1, J2)

/-- `Jintegrate`, `state.hxx` L142-206. The assignment operator is ignored. -/
def jintegrate (st : StateOps X n) (xnorm : X → ℝ) (ejac : ℝ) (c : Jc) (_ : AssOp) (x : X) (dx : Fin n → ℝ)
    (J : Matrix (Fin n) (Fin n) ℝ × Matrix (Fin n) (Fin n) ℝ) : Matrix (Fin n) (Fin n) ℝ × Matrix (Fin n) (Fin n) ℝ :=
  let x0 := st.integrate x dx
  let h0 := ejac * max 1 (xnorm x)
  let J1 := if c = .first ∨ c = .both then
      let M := stLoop (fun e => st.diff x0 (st.integrate (st.integrate x e) dx)) h0 0
      Matrix.of (fun i j => M i j / h0) else J.1
  let h1 := ejac * max 1 (NumDiff.norm dx)
  let J2 := if c = .second ∨ c = .both then
      let M := stLoop (fun e => st.diff x0 (st.integrate x (dx + e))) h1 0
      Matrix.of (fun i j => M i j / h1) else J.2
  (J1, J2)

/-- `JintegrateTransport`, `state.hxx` L216-219: nothing. -/
def jtransport {p : ℕ} (_ : X) (_ : Fin n → ℝ) (J : Matrix (Fin n) (Fin p) ℝ) (_ : Jc) : Matrix (Fin n) (Fin p) ℝ := J

end
end
end Verif.NdMore
