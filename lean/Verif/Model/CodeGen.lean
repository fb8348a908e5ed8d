import Mathlib.Data.List.OfFn

/-!
# Code-generated action models

`include/crocoddyl/core/codegen/action.{hpp,hxx}` (`ActionModelCodeGenTpl`, `ActionDataCodeGenTpl`).

The buffers that carry inputs and outputs of the generated functions are lists; Eigen's maps and segments of them are partial:
outside the buffer, and for blocks assigned from an expression of another size, the result is `none` (undefined behaviour; an abort
if Eigen's assertions are enabled).

CppAD is not in the repository. The model takes from it that the recorded function replays, for every input, the operations that
were executed at the recording point (branches are not replayed), and that `Jacobian` and `Hessian` return flat arrays, row by row;
their entries are a parameter (`Diff`). Left out: compiling and loading the library, file names, profiling, the two constructors
from a model with automatic-differentiation scalars (they differ from the modelled ones only in which of the two models is the cast).
-/

namespace Verif.Cg

/-- A matrix as Eigen stores it: column by column. A vector has one column. -/
@[ext] structure Mx (K : Type) where
  rows : ℕ
  cols : ℕ
  data : List K
  deriving DecidableEq

/-- The array has as many entries as the matrix. -/
def Mx.Ok {K : Type} (M : Mx K) : Prop := M.data.length = M.rows * M.cols

/-- Entry of a matrix. -/
def Mx.entry {K : Type} (M : Mx K) (i j : ℕ) : Option K :=
  if i < M.rows ∧ j < M.cols then M.data[i + j * M.rows]? else none

/-- A vector as a matrix of one column. -/
def col {K : Type} (v : List K) : Mx K := ⟨v.length, 1, v⟩

/-- What `calc(data, x, u)` of an action model leaves in its data (action-base.hpp L410-430). -/
structure Val (K : Type) where
  cost : K
  xnext : List K
  g : List K
  h : List K

/-- What `calc` and `calcDiff` with a control leave in the data besides. -/
structure Der (K : Type) where
  Fx : Mx K
  Fu : Mx K
  Lx : Mx K
  Lu : Mx K
  Lxx : Mx K
  Lxu : Mx K
  Luu : Mx K
  Gx : Mx K
  Gu : Mx K
  Hx : Mx K
  Hu : Mx K

/-- What `calc(data, x)` leaves in the data. -/
structure ValT (K : Type) where
  cost : K
  g : List K
  h : List K

/-- What `calc(data, x)` and `calcDiff(data, x)` leave in the data besides. -/
structure DerT (K : Type) where
  Lx : Mx K
  Lxx : Mx K
  Gx : Mx K
  Hx : Mx K

/-- The functions of an action model that are recorded. -/
inductive Fun
  | calc | calcT | diff | diffT | quasi
  deriving DecidableEq

/-- An action model: dimensions, and its functions of parameters, state and control. The first argument of each function is the
outcome of the comparisons that it makes, `branch` is that outcome for an input of the function (state, control, parameters). -/
structure Action (K B : Type) where
  nx : ℕ
  ndx : ℕ
  nu : ℕ
  ng : ℕ
  nh : ℕ
  ngT : ℕ
  nhT : ℕ
  ulb : List K
  uub : List K
  /-- `get_has_control_limits` -/
  limits : Bool
  branch : Fun → List K → B
  run : B → List K → List K → List K → Val K
  runT : B → List K → List K → ValT K
  diff : B → List K → List K → List K → Der K
  diffT : B → List K → List K → DerT K
  /-- parameters, first guess of the control, state -/
  quasi : B → List K → List K → List K → List K
  /-- `checkData`, of a data of the class that the model creates -/
  checkOwn : Bool
  /-- `checkData`, of the data of a code-generated model -/
  checkOther : Bool

variable {K B : Type}

/-- A block to be written: shape of the block, how far the index moves, the value assigned. -/
structure Cell (K : Type) where
  rows : ℕ
  cols : ℕ
  adv : ℕ
  val : Mx K

/-- `v` copied into the buffer from `off`. -/
def put (b : List K) (off : ℕ) (v : List K) : List K := b.take off ++ v ++ b.drop (off + v.length)

/-- Consecutive assignments `Map(b.data() + it, rows, cols) = val; it += adv;` (the code does not move the index after the last
one, which has no effect). Undefined outside the buffer and for a value of
another shape. -/
def write (b : List K) : ℕ → List (Cell K) → Option (List K)
  | _, [] => some b
  | off, c :: cs =>
    if c.val.rows = c.rows ∧ c.val.cols = c.cols ∧ off + c.rows * c.cols ≤ b.length then
      write (put b off c.val.data) (off + c.adv) cs
    else none

/-- `Map(b.data() + off, rows, cols)` read. -/
def view (b : List K) (off rows cols : ℕ) : Option (Mx K) :=
  if off + rows * cols ≤ b.length then some ⟨rows, cols, (b.drop off).take (rows * cols)⟩ else none

/-- Consecutive reads, each followed by `it += rows * cols`. -/
def read (b : List K) : ℕ → List (ℕ × ℕ) → Option (List (Mx K))
  | _, [] => some []
  | off, (r, c) :: cs => do
    let M ← view b off r c
    let Ms ← read b (off + r * c) cs
    pure (M :: Ms)

/-- What CppAD computes from a recorded function. -/
structure Diff (K : Type) where
  jac : (List K → Option (List K)) → List K → List K
  hess : (List K → Option (List K)) → List K → List K → List K

/-- A code-generated model: the wrapped model, the number of parameters, whether derivatives are automatic, the sizes and limits of
its base class, the recorded functions, the weights of the Hessians, whether the library sources are there. -/
structure Gen (K B : Type) where
  A : Action K B
  np : ℕ
  autodiff : Bool
  nX : ℕ
  nXT : ℕ
  nX3 : ℕ
  nY1 : ℕ
  nY1T : ℕ
  nY2 : ℕ
  nY2T : ℕ
  nY3 : ℕ
  limits : Bool
  calcFun : List K → Option (List K)
  calcFunT : List K → Option (List K)
  diffFun : List K → Option (List K)
  diffFunT : List K → Option (List K)
  quasiFun : List K → Option (List K)
  w : List K
  wT : List K
  source : Bool

variable [Zero K]

def zeros (n : ℕ) : List K := List.replicate n 0

/-- `Map(b.data() + off, ld, c).middleRows(lo, n).transpose()` read. -/
def viewT (b : List K) (off ld c lo n : ℕ) : Option (Mx K) :=
  if off + ld * c ≤ b.length ∧ lo + n ≤ ld then
    some ⟨c, n, List.ofFn fun k : Fin (c * n) => b.getD (off + (lo + k.1 / c) + (k.1 % c) * ld) 0⟩
  else none

/-- `Map(b.data(), ld, ld).middleCols(lc, c).middleRows(lr, r)` read. -/
def viewB (b : List K) (ld lr r lc c : ℕ) : Option (Mx K) :=
  if ld * ld ≤ b.length ∧ lr + r ≤ ld ∧ lc + c ≤ ld then
    some ⟨r, c, List.ofFn fun k : Fin (r * c) => b.getD ((lr + k.1 % r) + (lc + k.1 / r) * ld) 0⟩
  else none

/-- `state_->get_nx()`, control and parameters of the independent variables: `head(nx)`, `segment(nx, nu_)`, `tail(np_)`. -/
def split3 (nx nu : ℕ) (X : List K) : List K × List K × List K := (X.take nx, (X.drop nx).take nu, X.drop (nx + nu))

/-- `recordCalc`, `tapeCalcOutput` (action.hxx L659-672, L733-743), replayed at `X`; recorded at a point with branch `b`. -/
def recordCalc (A : Action K B) (b : B) (X : List K) : Option (List K) :=
  let (x, u, p) := split3 A.nx A.nu X
  let v := A.run b p x u
  write (zeros (1 + A.nx + A.ng + A.nh)) 0
    [⟨1, 1, 1, col [v.cost]⟩, ⟨A.nx, 1, A.nx, col v.xnext⟩, ⟨A.ng, 1, A.ng, col v.g⟩, ⟨A.nh, 1, A.nh, col v.h⟩]

/-- `recordCalc_T`, `tapeCalcOutput_T` (action.hxx L674-687, L745-753). The base class was given no number of terminal constraints
(L21-22), its default is 0 (action-base.hpp L122-123). -/
def recordCalcT (A : Action K B) (b : B) (X : List K) : Option (List K) :=
  let ng_T := 0
  let nh_T := 0
  let v := A.runT b (X.drop A.nx) (X.take A.nx)
  write (zeros (1 + ng_T + nh_T)) 0 [⟨1, 1, 1, col [v.cost]⟩, ⟨ng_T, 1, ng_T, col v.g⟩, ⟨nh_T, 1, nh_T, col v.h⟩]

/-- `nY2_` (action.hxx L55-57). -/
def sizeY2 (A : Action K B) : ℕ :=
  2 * A.ndx * A.ndx + 2 * A.ndx * A.nu + A.nu * A.nu + A.ndx + A.nu + (A.ng * (A.ndx + A.nu) + A.nh * (A.ndx + A.nu))

/-- `recordCalcDiff`, `tapeCalcDiffOutput` (action.hxx L689-703, L755-780). -/
def recordDiff (A : Action K B) (b : B) (X : List K) : Option (List K) :=
  let (x, u, p) := split3 A.nx A.nu X
  let d := A.diff b p x u
  let (n, m) := (A.ndx, A.nu)
  write (zeros (sizeY2 A)) 0
    [⟨n, n, n * n, d.Fx⟩, ⟨n, m, n * m, d.Fu⟩, ⟨n, 1, n, d.Lx⟩, ⟨m, 1, m, d.Lu⟩, ⟨n, n, n * n, d.Lxx⟩, ⟨n, m, n * m, d.Lxu⟩,
      ⟨m, m, m * m, d.Luu⟩, ⟨A.ng, n, A.ng * n, d.Gx⟩, ⟨A.ng, m, A.ng * m, d.Gu⟩, ⟨A.nh, n, A.nh * n, d.Hx⟩, ⟨A.nh, m, A.nh * m, d.Hu⟩]

/-- `recordCalcDiff_T`, `tapeCalcDiffOutput_T` (action.hxx L705-719, L782-793): the blocks have `ng_` and `nh_` rows, the index
moves by `ng_T_`, the buffer (L58-59) has room for `ng_T_` and `nh_T_`, which are 0. -/
def recordDiffT (A : Action K B) (b : B) (X : List K) : Option (List K) :=
  let ng_T := 0
  let nh_T := 0
  let d := A.diffT b (X.drop A.nx) (X.take A.nx)
  let n := A.ndx
  write (zeros (n * n + n + (ng_T + nh_T) * n)) 0
    [⟨n, 1, n, d.Lx⟩, ⟨n, n, n * n, d.Lxx⟩, ⟨A.ng, n, ng_T * n, d.Gx⟩, ⟨A.nh, n, nh_T * n, d.Hx⟩]

/-- `recordQuasiStatic` (action.hxx L721-731): the parameters are not set, they keep the values of the last recording; the first
guess is what `ad_Y3_` holds. -/
def recordQuasi (A : Action K B) (b : B) (p guess X : List K) : Option (List K) := some (A.quasi b p guess X)

/-- Values that CppAD's vectors hold when they are recorded: one input for each function, and the first guess of `quasiStatic`. -/
structure Point (K : Type) where
  X : List K
  XT : List K
  X3 : List K
  Y3 : List K

/-- The constructor that generates a library (action.hxx L16-69). -/
def make [One K] (A : Action K B) (autodiff : Bool) (np : ℕ) (P : Point K) : Option (Gen K B) := do
  let calcFun := recordCalc A (A.branch .calc P.X)
  let calcFunT := recordCalcT A (A.branch .calcT P.XT)
  let diffFun := recordDiff A (A.branch .diff P.X)
  let diffFunT := recordDiffT A (A.branch .diffT P.XT)
  let quasiFun := recordQuasi A (A.branch .quasi P.X3) (P.XT.drop A.nx) P.Y3
  let _ ← calcFun P.X
  let _ ← calcFunT P.XT
  let _ ← diffFun P.X
  let _ ← diffFunT P.XT
  let _ ← quasiFun P.X3
  let nY1 := 1 + A.nx + A.ng + A.nh
  let nY1T := 1
  pure { A, np, autodiff, nX := A.nx + A.nu + np, nXT := A.nx + np, nX3 := A.nx, nY1, nY1T, nY2 := sizeY2 A,
         nY2T := A.ndx * A.ndx + A.ndx, nY3 := A.nu, limits := false, calcFun, calcFunT, diffFun, diffFunT, quasiFun,
         w := (zeros nY1).set 0 1, wT := (zeros nY1T).set 0 1, source := true }

/-- `ActionDataCodeGenTpl` (action.hpp L495-566): inputs, and the results of the last calls. The flat outputs `Y1`, `J1`, ... are
overwritten before they are read. -/
structure Data (K : Type) where
  X : List K
  XT : List K
  X3 : List K
  cost : K
  xnext : List K
  r : List K
  g : List K
  h : List K
  d : Der K

/-- The state of a program: the data, and the numbers of constraints that the wrapped model has now
(`get_ng`, `get_nh`, `get_ng_T`, `get_nh_T`, action.hxx L571-589). -/
structure St (K : Type) where
  data : Data K
  ng : ℕ
  nh : ℕ
  ngT : ℕ
  nhT : ℕ

def zeroMx (r c : ℕ) : Mx K := ⟨r, c, zeros (r * c)⟩

/-- `createData` (action.hpp L505-532, action-base.hpp L364-407). `nr` is the dimension of the residual. -/
def Gen.create (G : Gen K B) (nr : ℕ) : St K :=
  let A := G.A
  let (n, m, ng, nh) := (A.ndx, A.nu, max A.ng A.ngT, max A.nh A.nhT)
  { data :=
      { X := zeros G.nX, XT := zeros G.nXT, X3 := zeros G.nX3, cost := 0, xnext := zeros A.nx, r := zeros nr, g := zeros ng,
        h := zeros nh
        d := { Fx := zeroMx n n, Fu := zeroMx n m, Lx := zeroMx n 1, Lu := zeroMx m 1, Lxx := zeroMx n n, Lxu := zeroMx n m,
               Luu := zeroMx m m, Gx := zeroMx ng n, Gu := zeroMx ng m, Hx := zeroMx nh n, Hu := zeroMx nh m } }
    ng := A.ng, nh := A.nh, ngT := A.ngT, nhT := A.nhT }

/-- Calls of a program: on the code-generated model, and one that changes which constraints of the wrapped model are active. -/
inductive Op (K : Type)
  | params (p : List K)
  | calc (x u : List K)
  | calcT (x : List K)
  | diff (x u : List K)
  | diffT (x : List K)
  | quasi (x : List K)
  | constraints (ng nh ngT nhT : ℕ)

/-- `b.segment(off, n) = v` with `n` the expected size. -/
def assign (b : List K) (off n : ℕ) (v : List K) : Option (List K) :=
  if v.length = n ∧ off + n ≤ b.length then some (put b off v) else none

/-- `update_p` (action.hxx L422-434); a wrong dimension throws before anything changes. -/
def Gen.params (G : Gen K B) (s : St K) (p : List K) : Option (St K) :=
  if p.length ≠ G.np then some s
  else do
    let X ← assign s.data.X (s.data.X.length - G.np) G.np p
    let XT ← assign s.data.XT (s.data.XT.length - G.np) G.np p
    pure { s with data := { s.data with X, XT } }

/-- `calc` with a control and `set_Y1` (action.hxx L436-450, action.hpp L568-581). -/
def Gen.calc (G : Gen K B) (s : St K) (x u : List K) : Option (St K) := do
  let X ← assign s.data.X 0 G.A.nx x
  let X ← assign X G.A.nx G.A.nu u
  let Y1 ← G.calcFun X
  match ← read Y1 0 [(1, 1), (G.A.nx, 1), (s.ng, 1), (s.nh, 1)] with
  | [⟨_, _, [cost]⟩, xnext, g, h] =>
    pure { s with data := { s.data with X, cost, xnext := xnext.data, g := g.data, h := h.data } }
  | _ => none

/-- `calc` without a control and `set_Y1_T` (action.hxx L452-466, action.hpp L613-623). -/
def Gen.calcT (G : Gen K B) (s : St K) (x : List K) : Option (St K) := do
  let XT ← assign s.data.XT 0 G.A.nx x
  let Y1 ← G.calcFunT XT
  match ← read Y1 0 [(1, 1), (s.ngT, 1), (s.nhT, 1)] with
  | [⟨_, _, [cost]⟩, g, h] => pure { s with data := { s.data with XT, xnext := x, cost, g := g.data, h := h.data } }
  | _ => none

/-- `set_D1` (action.hpp L583-611). -/
def Gen.setD1 (G : Gen K B) (s : St K) (J H : List K) : Option (Der K) := do
  let (n, m, ng, nh) := (G.A.ndx, G.A.nu, s.ng, s.nh)
  let nxu := n + m + G.np
  let Lx ← view J 0 n 1
  let Lu ← view J n m 1
  let it := n + (m + G.np)
  let Fx ← viewT J it nxu n 0 n
  let Fu ← viewT J it nxu n n m
  let it := it + n * nxu
  let Gx ← viewT J it nxu ng 0 n
  let Gu ← viewT J it nxu ng n m
  let it := it + ng * nxu
  let Hx ← viewT J it nxu nh 0 n
  let Hu ← viewT J it nxu nh n m
  let Lxx ← viewB H nxu 0 n 0 n
  let Luu ← viewB H nxu n m n m
  let Lxu ← viewB H nxu 0 n n m
  pure { Fx, Fu, Lx, Lu, Lxx, Lxu, Luu, Gx, Gu, Hx, Hu }

/-- `calcDiff` with a control, `set_Y2` (action.hxx L468-492, action.hpp L644-672). `Hessian` needs a weight for each output. -/
def Gen.diff (D : Diff K) (G : Gen K B) (s : St K) (x u : List K) : Option (St K) := do
  let X ← assign s.data.X 0 G.A.nx x
  let X ← assign X G.A.nx G.A.nu u
  if G.autodiff then
    if G.w.length = G.nY1 then
      let d ← G.setD1 s (D.jac G.calcFun X) (D.hess G.calcFun X G.w)
      pure { s with data := { s.data with X, d } }
    else none
  else
    let (n, m, ng, nh) := (G.A.ndx, G.A.nu, s.ng, s.nh)
    let Y2 ← G.diffFun X
    match ← read Y2 0 [(n, n), (n, m), (n, 1), (m, 1), (n, n), (n, m), (m, m), (ng, n), (ng, m), (nh, n), (nh, m)] with
    | [Fx, Fu, Lx, Lu, Lxx, Lxu, Luu, Gx, Gu, Hx, Hu] =>
      pure { s with data := { s.data with X, d := { Fx, Fu, Lx, Lu, Lxx, Lxu, Luu, Gx, Gu, Hx, Hu } } }
    | _ => none

/-- `set_D1_T` (action.hpp L625-642): both constraint blocks have `get_ng()` rows. -/
def Gen.setD1T (G : Gen K B) (s : St K) (J H : List K) : Option (DerT K) := do
  let (n, ng) := (G.A.ndx, s.ng)
  let nxp := n + G.np
  let Lx ← view J 0 n 1
  let it := nxp
  let Gx ← viewT J it nxp ng 0 n
  let it := it + ng * nxp
  let Hx ← viewT J it nxp ng 0 n
  let Lxx ← viewB H nxp 0 n 0 n
  pure { Lx, Lxx, Gx, Hx }

/-- `calcDiff` without a control, `set_Y2_T` (action.hxx L494-517, action.hpp L674-687). -/
def Gen.diffT (D : Diff K) (G : Gen K B) (s : St K) (x : List K) : Option (St K) := do
  let XT ← assign s.data.XT 0 G.A.nx x
  if G.autodiff then
    if G.wT.length = G.nY1T then
      let d ← G.setD1T s (D.jac G.calcFunT XT) (D.hess G.calcFunT XT G.wT)
      pure { s with data := { s.data with XT, d := { s.data.d with Lx := d.Lx, Lxx := d.Lxx, Gx := d.Gx, Hx := d.Hx } } }
    else none
  else
    let (n, ng, nh) := (G.A.ndx, s.ngT, s.nhT)
    let Y2 ← G.diffFunT XT
    match ← read Y2 0 [(n, 1), (n, n), (ng, n), (nh, n)] with
    | [Lx, Lxx, Gx, Hx] => pure { s with data := { s.data with XT, d := { s.data.d with Lx, Lxx, Gx, Hx } } }
    | _ => none

/-- `quasiStatic` (action.hxx L534-547): the control that it returns, and the data. -/
def Gen.quasi (G : Gen K B) (s : St K) (x : List K) : Option (List K × St K) := do
  let X3 := x
  if X3.length = G.nX3 then
    let Y3 ← G.quasiFun X3
    let u ← view Y3 0 G.A.nu 1
    pure (u.data, { s with data := { s.data with X3 } })
  else none

/-- One call. -/
def Gen.step (D : Diff K) (G : Gen K B) (s : St K) : Op K → Option (St K)
  | .params p => G.params s p
  | .calc x u => G.calc s x u
  | .calcT x => G.calcT s x
  | .diff x u => G.diff D s x u
  | .diffT x => G.diffT D s x
  | .quasi x => (G.quasi s x).map Prod.snd
  | .constraints ng nh ngT nhT => some { s with ng, nh, ngT, nhT }

/-- A list of calls. -/
def Gen.run (D : Diff K) (G : Gen K B) (s : St K) (ops : List (Op K)) : Option (St K) :=
  ops.foldlM (G.step D) s

/-- `checkData` (action.hxx L528-532): the wrapped model is asked about the data of the code-generated one. -/
def Gen.checkData (G : Gen K B) : Bool := G.A.checkOther

/-- The copy constructor (action.hxx L126-176): the weights of the Hessians are not copied; the sources of the library are
dereferenced. -/
def Gen.copy (G : Gen K B) : Option (Gen K B) := if G.source then some { G with w := [], wT := [] } else none

/-- Sizes of the functions in a library: `Domain` and `Range`. -/
structure Sizes where
  nX : ℕ
  nXT : ℕ
  nX3 : ℕ
  nY1 : ℕ
  nY1T : ℕ
  nY2 : ℕ
  nY2T : ℕ
  nY3 : ℕ

/-- Sizes of a library generated by `make`. -/
def Gen.sizes (G : Gen K B) : Sizes := ⟨G.nX, G.nXT, G.nX3, G.nY1, G.nY1T, G.nY2, G.nY2T, G.nY3⟩

/-- `std::size_t` has 64 bits. -/
def wrap (n : ℕ) : ℕ := n % 2 ^ 64

/-- The checks of the constructor that loads a library (action.hxx L196-231): the number of parameters, or `none` for a throw. -/
def load (A : Action K B) (L : Sizes) : Option ℕ :=
  let np := wrap (L.nXT + 2 ^ 64 - A.nx)
  if L.nX ≠ wrap (A.nx + A.nu + np) then none
  else if L.nXT ≠ wrap (A.nx + np) then none
  else if L.nY1 ≠ 1 + A.nx + A.ng + A.nh then none
  else if L.nY1T ≠ 1 then none
  else if L.nY3 ≠ A.nu then none
  else some np

/-- The constructor that loads the library generated for `G` with the model `A` (action.hxx L178-245). Jacobians and Hessians are
in the library if they were generated (L323-325). `none` is a throw. -/
def Gen.reload [One K] (G : Gen K B) (A : Action K B) : Option (Gen K B) := do
  let np ← load A G.sizes
  pure { G with A, np, limits := false, w := (zeros G.nY1).set 0 1, wT := (zeros G.nY1T).set 0 1, source := false }

end Verif.Cg
