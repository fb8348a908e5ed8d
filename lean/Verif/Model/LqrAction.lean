import Mathlib.Data.Matrix.Mul
import Mathlib.Data.Matrix.ColumnRowPartitioned
import Mathlib.Data.Fintype.Sum

/-!
# The linear-quadratic action models

Files modelled: `/repo/include/crocoddyl/core/actions/lqr.hxx`, `lqr.hpp` (`ActionModelLQRTpl`) and
`diff-lqr.hxx`, `diff-lqr.hpp` (`DifferentialActionModelLQRTpl`). Scalar arithmetic is exact.

A matrix `G` (`ng x (nx + nu)`) is kept as its two blocks `leftCols(nx)` and `rightCols(nu)`. The two classes
share the text of `calcDiff`; they differ in how a matrix multiplies the state (`Variant.mul`) and in what the
terminal `calc` does with the next state (`Variant.term`).
-/

namespace Verif.Lqr

open Matrix

variable {o ι κ γ η K : Type} [Fintype ι] [Fintype κ] [Field K]

/-- The members `A_` (`[Aq_ Av_]`), `B_`, `Q_`, `R_`, `N_`, `G_`, `H_`, `f_`, `q_`, `r_`, `g_`, `h_`
(lqr.hpp L272-288, diff-lqr.hpp). -/
structure Par (o ι κ γ η K : Type) where
  A : Matrix o ι K
  B : Matrix o κ K
  Q : Matrix ι ι K
  R : Matrix κ κ K
  N : Matrix ι κ K
  Gx : Matrix γ ι K
  Gu : Matrix γ κ K
  Hx : Matrix η ι K
  Hu : Matrix η κ K
  f : o → K
  q : ι → K
  r : κ → K
  g : γ → K
  h : η → K

/-- The model: its parameters and the flag `updated_lqr_`. -/
structure Model (o ι κ γ η K : Type) where
  par : Par o ι κ γ η K
  updated : Bool

/-- The data (action-base.hpp L366-436, `xnext`/`xout` is `out`). `gxCols`, `hxCols` are the column counts of
the resizable matrices `Gx`, `Hx`. The scratch vectors `R_u_tmp`, `Q_x_tmp` are written before they are read
and are left out. -/
structure Data (o ι κ γ η K : Type) where
  out : o → K
  cost : K
  g : γ → K
  h : η → K
  Fx : Matrix o ι K
  Fu : Matrix o κ K
  Lx : ι → K
  Lu : κ → K
  Lxx : Matrix ι ι K
  Luu : Matrix κ κ K
  Lxu : Matrix ι κ K
  Gx : Matrix γ ι K
  gxCols : ℕ
  Gu : Matrix γ κ K
  Hx : Matrix η ι K
  hxCols : ℕ
  Hu : Matrix η κ K

/-- What distinguishes the two classes in `calc`. -/
structure Variant (o ι K : Type) where
  mul : ∀ {ρ : Type}, Matrix ρ ι K → (ι → K) → ρ → K
  term : (ι → K) → (o → K) → o → K

/-- `ActionModelLQR`: `M * x` (lqr.hxx L107, L122, L151), and `xnext = x` in the terminal call (L142). -/
def discrete (nx : ℕ) (K : Type) [Field K] : Variant (Fin nx) (Fin nx) K where
  mul M x := M *ᵥ x
  term x _ := x

/-- `DifferentialActionModelLQR`: the blocks multiply `q` and `v` (diff-lqr.hxx L112-113, L128-130); the
terminal call does not touch `xout` (L139-162). -/
def differential (nq : ℕ) (K : Type) [Field K] : Variant (Fin nq) (Fin nq ⊕ Fin nq) K where
  mul M x := toCols₁ M *ᵥ (fun i => x (.inl i)) + toCols₂ M *ᵥ (fun i => x (.inr i))
  term _ old := old

/-- `createData()`: lqr.hpp L300-317 (on top of the base constructor, which zeroes everything),
diff-lqr.hpp L328-343. `Gx` and `Hx` get `2 * nq` columns, `nq = nx - nx / 2` (state-base.hxx L19-20); the
extra column for odd `nx` belongs to `G.rightCols` and is not represented. -/
def createData (m : Model o ι κ γ η K) : Data o ι κ γ η K where
  out := 0
  cost := 0
  g := 0
  h := 0
  Fx := m.par.A
  Fu := m.par.B
  Lx := 0
  Lu := 0
  Lxx := m.par.Q
  Luu := m.par.R
  Lxu := m.par.N
  Gx := m.par.Gx
  gxCols := 2 * (Fintype.card ι - Fintype.card ι / 2)
  Gu := m.par.Gu
  Hx := m.par.Hx
  hxCols := 2 * (Fintype.card ι - Fintype.card ι / 2)
  Hu := m.par.Hu

/-- `calc(data, x, u)`, lqr.hxx L91-129, diff-lqr.hxx L93-136. -/
def calcXU (V : Variant o ι K) (m : Model o ι κ γ η K) (d : Data o ι κ γ η K) (x : ι → K) (u : κ → K) :
    Data o ι κ γ η K :=
  let p := m.par
  { d with
    out := V.mul p.A x + p.B *ᵥ u + p.f
    cost := 1 / 2 * (x ⬝ᵥ (p.Q *ᵥ x)) + 1 / 2 * (u ⬝ᵥ (p.R *ᵥ u)) + x ⬝ᵥ (p.N *ᵥ u) + p.q ⬝ᵥ x + p.r ⬝ᵥ u
    g := V.mul p.Gx x + p.Gu *ᵥ u + p.g
    h := V.mul p.Hx x + p.Hu *ᵥ u + p.h }

/-- `calc(data, x)`, lqr.hxx L132-155, diff-lqr.hxx L139-162. -/
def calcX (V : Variant o ι K) (m : Model o ι κ γ η K) (d : Data o ι κ γ η K) (x : ι → K) :
    Data o ι κ γ η K :=
  let p := m.par
  { d with
    out := V.term x d.out
    cost := 1 / 2 * (x ⬝ᵥ (p.Q *ᵥ x)) + p.q ⬝ᵥ x
    g := V.mul p.Gx x + p.g
    h := V.mul p.Hx x + p.h }

/-- `calcDiff(data, x, u)`, lqr.hxx L158-191, diff-lqr.hxx L165-201. -/
def diffXU (m : Model o ι κ γ η K) (d : Data o ι κ γ η K) (x : ι → K) (u : κ → K) :
    Model o ι κ γ η K × Data o ι κ γ η K :=
  let p := m.par
  let d : Data o ι κ γ η K :=
    if m.updated then d else
      { d with
        Fx := p.A, Fu := p.B, Lxx := p.Q, Luu := p.R, Lxu := p.N
        Gx := p.Gx, gxCols := Fintype.card ι, Gu := p.Gu
        Hx := p.Hx, hxCols := Fintype.card ι, Hu := p.Hu }
  ({ m with updated := true },
    { d with
      Lx := p.q + p.Q *ᵥ x + p.N *ᵥ u
      Lu := p.r + p.Nᵀ *ᵥ x + p.R *ᵥ u })

/-- `calcDiff(data, x)`, lqr.hxx L194-212, diff-lqr.hxx L204-222. -/
def diffX (m : Model o ι κ γ η K) (d : Data o ι κ γ η K) (x : ι → K) :
    Model o ι κ γ η K × Data o ι κ γ η K :=
  let p := m.par
  let d : Data o ι κ γ η K :=
    if m.updated then d else
      { d with
        Lxx := p.Q, Gx := p.Gx, gxCols := Fintype.card ι, Hx := p.Hx, hxCols := Fintype.card ι }
  ({ m with updated := true }, { d with Lx := p.q + p.Q *ᵥ x })

/-- `set_LQR` after its checks, lqr.hxx L425-438, diff-lqr.hxx L448-463. -/
def setLQR (p : Par o ι κ γ η K) : Model o ι κ γ η K := ⟨p, false⟩

/-- A model and the data objects created for it. -/
structure World (o ι κ γ η K : Type) where
  model : Model o ι κ γ η K
  datas : List (Data o ι κ γ η K)

/-- The calls of a user or solver; data objects are numbered in order of creation. -/
inductive Op (o ι κ γ η K : Type)
  | set (p : Par o ι κ γ η K)
  | create
  | calcXU (i : ℕ) (x : ι → K) (u : κ → K)
  | calcX (i : ℕ) (x : ι → K)
  | diffXU (i : ℕ) (x : ι → K) (u : κ → K)
  | diffX (i : ℕ) (x : ι → K)

/-- One call; a call on a data that does not exist does nothing. -/
def step (V : Variant o ι K) (s : World o ι κ γ η K) : Op o ι κ γ η K → World o ι κ γ η K
  | .set p => { s with model := setLQR p }
  | .create => { s with datas := s.datas ++ [createData s.model] }
  | .calcXU i x u =>
    match s.datas[i]? with
    | some d => { s with datas := s.datas.set i (calcXU V s.model d x u) }
    | none => s
  | .calcX i x =>
    match s.datas[i]? with
    | some d => { s with datas := s.datas.set i (calcX V s.model d x) }
    | none => s
  | .diffXU i x u =>
    match s.datas[i]? with
    | some d => ⟨(diffXU s.model d x u).1, s.datas.set i (diffXU s.model d x u).2⟩
    | none => s
  | .diffX i x =>
    match s.datas[i]? with
    | some d => ⟨(diffX s.model d x).1, s.datas.set i (diffX s.model d x).2⟩
    | none => s

/-- A history of calls on a model just constructed with parameters `p`. `flag` is the initial value of
`updated_lqr_`: `false`, except for the constructor `ActionModelLQR(nx, nu, drift_free)` which does not
initialise it (lqr.hxx L60-76). -/
def run (V : Variant o ι K) (p : Par o ι κ γ η K) (flag : Bool) (ops : List (Op o ι κ γ η K)) :
    World o ι κ γ η K :=
  ops.foldl (step V) ⟨⟨p, flag⟩, []⟩

/-- Sizes of the arguments of `set_LQR`. -/
structure Shapes where
  A : ℕ × ℕ
  B : ℕ × ℕ
  Q : ℕ × ℕ
  R : ℕ × ℕ
  N : ℕ × ℕ
  G : ℕ × ℕ
  H : ℕ × ℕ
  f : ℕ
  q : ℕ
  r : ℕ
  g : ℕ
  h : ℕ
deriving DecidableEq

/-- The checks of `set_LQR` in order, lqr.hxx L350-424; `psd` is the answer of `checkPSD`
(utils/math.hpp L83-94). `true`: the arguments are stored. `false`: an exception, and no member that can be
observed has changed (only `L_`, which has no getter, may have). -/
def accepts (nx nu ng nh : ℕ) (s : Shapes) (psd : Bool) : Bool :=
  if s.A.1 ≠ nx then false
  else if s.B.1 ≠ nx then false
  else if s.Q.1 ≠ nx || s.Q.2 ≠ nx then false
  else if s.R.1 ≠ nu || s.R.2 ≠ nu then false
  else if s.N.1 ≠ nx || s.N.2 ≠ nu then false
  else if s.G.1 ≠ ng || s.G.2 ≠ nx + nu then false
  else if s.H.1 ≠ nh || s.H.2 ≠ nx + nu then false
  else if s.f ≠ nx then false
  else if s.q ≠ nx then false
  else if s.r ≠ nu then false
  else if s.g ≠ ng then false
  else if s.h ≠ nh then false
  else psd

/-- The full constructor, lqr.hxx L47-57: `nx`, `nu`, `ng`, `nh` are read from `A.cols()`, `B.cols()`,
`G.rows()`, `H.rows()`. -/
def ctorAccepts (s : Shapes) (psd : Bool) : Bool := accepts s.A.2 s.B.2 s.G.1 s.H.1 s psd

end Verif.Lqr
