import Mathlib.Algebra.BigOperators.Group.Finset.Basic
import Mathlib.Algebra.Ring.Defs

/-!
# Model: the Ipopt interface

`src/core/solvers/ipopt/ipopt-iface.cpp`. The problem is seen through the dimensions of its nodes and
through the functions of its models; vectors and matrices are functions of natural-number indices that
are read only below their dimensions. `Ipopt::Index` (an `int`) is `ℕ`. The array that Ipopt passes is a
function of the index, written by `writeRange`. The parallel loops write disjoint data objects and are
modelled in order.
-/

namespace Verif.Ipopt

variable {K X D : Type*}

/-- Dimensions: `T` running nodes with tangent dimension `ndx t` and control dimension `nu t`, and the
terminal node `T` with tangent dimension `ndx T`. -/
structure Prob where
  T : ℕ
  ndx : ℕ → ℕ
  nu : ℕ → ℕ

/-- `ixu_`, `nvar_`, `nconst_` (`include/crocoddyl/core/solvers/ipopt/ipopt-iface.hpp:466-468`). -/
structure Layout where
  ixu : ℕ → ℕ
  nvar : ℕ
  nconst : ℕ

/-- The loop body shared by the constructor and `resizeData` (`ipopt-iface.cpp:27-38, 58-69`). -/
def layoutStep (P : Prob) (L : Layout) (t : ℕ) : Layout :=
  { ixu := Function.update L.ixu t L.nvar
    nconst := L.nconst + P.ndx t
    nvar := L.nvar + (P.ndx t + P.nu t) }

/-- After the loop (`ipopt-iface.cpp:39-50, 70-81`). `models[0]` exists when `0 < T` (otherwise
undefined behaviour). -/
def layoutEnd (P : Prob) (L : Layout) : Layout :=
  { ixu := Function.update L.ixu P.T L.nvar
    nconst := L.nconst + P.ndx 0
    nvar := L.nvar + P.ndx P.T }

/-- Constructor (`ipopt-iface.cpp:15-51`). -/
def make (P : Prob) : Layout :=
  layoutEnd P ((List.range P.T).foldl (layoutStep P) ⟨fun _ => 0, 0, 0⟩)

/-- `resizeData` (`ipopt-iface.cpp:53-82`), for the dimensions the problem has now; `nconst_` is not
reset. -/
def resize (P : Prob) (L : Layout) : Layout :=
  layoutEnd P ((List.range P.T).foldl (layoutStep P) { L with nvar := 0 })

/-! ### Numbers announced -/

/-- `for (i = 1; i <= n; ++i) nonzero += i` (`ipopt-iface.cpp:108-111, 122-125`). -/
def triCount (n : ℕ) : ℕ := (List.range n).foldl (fun s i => s + (i + 1)) 0

/-- `nnz_jac_g` of `get_nlp_info` (`ipopt-iface.cpp:94-116`; the dimension of the node after `t` is
`ndx (t+1)`, the terminal one when `t + 1 = T`). -/
def nnzJac (P : Prob) : ℕ :=
  (List.range P.T).foldl (fun s t => s + P.ndx t * (P.ndx t + P.ndx (t + 1) + P.nu t)) 0 + P.ndx 0 * P.ndx 0

/-- `nnz_h_lag` of `get_nlp_info` (`ipopt-iface.cpp:95-126`). -/
def nnzHess (P : Prob) : ℕ :=
  (List.range P.T).foldl (fun s t => s + triCount (P.ndx t + P.nu t)) 0 + triCount (P.ndx P.T)

/-! ### Sparsity structures -/

/-- `eval_jac_g` with `values == NULL` (`ipopt-iface.cpp:438-472`): the pairs `(iRow, jCol)` in the
order of `idx`. -/
def jacStruct (P : Prob) (ixu : ℕ → ℕ) : List (ℕ × ℕ) :=
  let s := (List.range P.T).foldl (fun (s : ℕ × List (ℕ × ℕ)) t =>
    (s.1 + P.ndx t,
     s.2 ++ (List.range (P.ndx t)).flatMap fun r =>
       (List.range (P.ndx t + P.nu t + P.ndx (t + 1))).map fun c => (s.1 + r, ixu t + c))) (0, [])
  s.2 ++ (List.range (P.ndx 0)).flatMap fun r => (List.range (P.ndx 0)).map fun c => (s.1 + r, c)

/-- `for (c = 0; c < n; ++c) { if (c > r) break; ... }`: the columns visited. -/
def lowerCols (n r : ℕ) : List ℕ := (List.range n).takeWhile fun c => !decide (c > r)

/-- `eval_h` with `values == NULL` (`ipopt-iface.cpp:587-622`). -/
def hessStruct (P : Prob) (ixu : ℕ → ℕ) : List (ℕ × ℕ) :=
  ((List.range P.T).flatMap fun t => (List.range (P.ndx t + P.nu t)).flatMap fun r =>
    (lowerCols (P.ndx t + P.nu t) r).map fun c => (ixu t + r, ixu t + c))
  ++ (List.range (P.ndx P.T)).flatMap fun r => (lowerCols (P.ndx P.T) r).map fun c => (ixu P.T + r, ixu P.T + c)

/-! ### Values -/

/-- The blocks of the constraint Jacobian kept in `datas_` (`ipopt-iface.hpp:477-565`). -/
structure JacBlocks (K : Type*) where
  dx : ℕ → ℕ → ℕ → K
  u : ℕ → ℕ → ℕ → K
  dxnext : ℕ → ℕ → ℕ → K
  ic : ℕ → ℕ → K

/-- `eval_jac_g`: the values (`ipopt-iface.cpp:518-558`). -/
def jacVals (P : Prob) (J : JacBlocks K) : List K :=
  ((List.range P.T).flatMap fun t => (List.range (P.ndx t)).flatMap fun r =>
    (List.range (P.ndx t)).map (J.dx t r) ++ (List.range (P.nu t)).map (J.u t r)
      ++ (List.range (P.ndx (t + 1))).map (J.dxnext t r))
  ++ (List.range (P.ndx 0)).flatMap fun r => (List.range (P.ndx 0)).map (J.ic r)

/-- The blocks of the Hessian kept in `datas_` and in the action data. -/
structure HessBlocks (K : Type*) where
  dxdx : ℕ → ℕ → ℕ → K
  dxu : ℕ → ℕ → ℕ → K
  uu : ℕ → ℕ → ℕ → K

/-- `eval_h`: the values (`ipopt-iface.cpp:646-707`); the terminal block is not multiplied by
`obj_factor`. -/
def hessVals [Mul K] (P : Prob) (H : HessBlocks K) (objFactor : K) : List K :=
  ((List.range P.T).flatMap fun t =>
    ((List.range (P.ndx t)).flatMap fun r => (lowerCols (P.ndx t) r).map fun c => objFactor * H.dxdx t r c)
    ++ (List.range (P.nu t)).flatMap fun r =>
        ((List.range (P.ndx t)).map fun c => objFactor * H.dxu t c r)
        ++ (lowerCols (P.nu t) r).map fun c => objFactor * H.uu t r c)
  ++ (List.range (P.ndx P.T)).flatMap fun r => (lowerCols (P.ndx P.T) r).map fun c => H.dxdx P.T r c

/-! ### Arrays -/

/-- `for (j = 0; j < n; ++j) x[off + j] = f(j)`. -/
def writeRange (x : ℕ → K) (off n : ℕ) (f : ℕ → K) : ℕ → K := fun v =>
  if off ≤ v ∧ v < off + n then f (v - off) else x v

/-- A write of all the nodes: for every running node a state block and a control block, then the
terminal state block (the loops of `get_bounds_info` L151-176, `get_starting_point` L214-229 and
`eval_grad_f` L321-351). -/
def writeNodes (P : Prob) (L : Layout) (x : ℕ → K) (fx fu : ℕ → ℕ → K) : ℕ → K :=
  writeRange ((List.range P.T).foldl (fun x t =>
    writeRange (writeRange x (L.ixu t) (P.ndx t) (fx t)) (L.ixu t + P.ndx t) (P.nu t) (fu t)) x)
    (L.ixu P.T) (P.ndx P.T) (fx P.T)

/-- Control limits of a model: the flag and the two vectors. -/
structure Limits (K : Type*) where
  has : Bool
  lb : ℕ → K
  ub : ℕ → K

/-- `get_bounds_info` (`ipopt-iface.cpp:133-184`), with `lo` and `hi` the extreme doubles: the bounds
of the variables. -/
def boundsInfo (P : Prob) (L : Layout) (lim : ℕ → Limits K) (lo hi : K) (xl xu : ℕ → K) : (ℕ → K) × (ℕ → K) :=
  (writeNodes P L xl (fun _ _ => lo) (fun t j => if (lim t).has then (lim t).lb j else lo),
   writeNodes P L xu (fun _ _ => hi) (fun t j => if (lim t).has then (lim t).ub j else hi))

/-- `get_starting_point` (`ipopt-iface.cpp:186-232`). -/
def startingPoint [Zero K] (P : Prob) (L : Layout) (us : ℕ → ℕ → K) (x : ℕ → K) : ℕ → K :=
  writeNodes P L x (fun _ _ => 0) us

/-! ### Evaluations -/

/-- What a node's model and state offer, with `D` the action data. Node `t` of the problem is `t`, the
terminal node is `T`, where `calc` and `calcDiff` are the overloads without control (they ignore the
control argument of `eval` and `diff` here). -/
structure Nodes (K X D : Type*) where
  integrate : ℕ → X → (ℕ → K) → X
  jint : ℕ → X → (ℕ → K) → ℕ → ℕ → K
  eval : ℕ → D → X → (ℕ → K) → D
  diff : ℕ → D → X → (ℕ → K) → D
  cost : D → K
  lx : D → ℕ → K
  lu : D → ℕ → K
  lxx : D → ℕ → ℕ → K
  lxu : D → ℕ → ℕ → K
  luu : D → ℕ → ℕ → K

/-- `Map(x + ixu_[t], ndxi)`. -/
def dxOf (L : Layout) (x : ℕ → K) (t : ℕ) : ℕ → K := fun j => x (L.ixu t + j)

/-- `Map(x + ixu_[t] + ndxi, nui)`. -/
def uOf (P : Prob) (L : Layout) (x : ℕ → K) (t : ℕ) : ℕ → K := fun j => x (L.ixu t + P.ndx t + j)

/-- The point of node `t`: `integrate(xs_[t], dx)`. -/
def pointOf (N : Nodes K X D) (L : Layout) (xs : ℕ → X) (x : ℕ → K) (t : ℕ) : X :=
  N.integrate t (xs t) (dxOf L x t)

/-- `eval_f` (`ipopt-iface.cpp:234-286`): the data afterwards and the objective, which is added to the
value passed in. -/
def evalF [Add K] (P : Prob) (N : Nodes K X D) (L : Layout) (xs : ℕ → X) (ds : ℕ → D) (x : ℕ → K) (obj : K) :
    (ℕ → D) × K :=
  let ds' := fun t => if t ≤ P.T then N.eval t (ds t) (pointOf N L xs x t) (uOf P L x t) else ds t
  (ds', (List.range P.T).foldl (fun o t => o + N.cost (ds' t)) obj + N.cost (ds' P.T))

/-- `eval_grad_f` (`ipopt-iface.cpp:288-353`): the data afterwards and the gradient array. `Ldx` is
`Jint^T Lx`. -/
def evalGrad [Semiring K] (P : Prob) (N : Nodes K X D) (L : Layout) (xs : ℕ → X) (ds : ℕ → D) (x : ℕ → K)
    (grad : ℕ → K) : (ℕ → D) × (ℕ → K) :=
  let ds' := fun t => if t ≤ P.T then
    N.diff t (N.eval t (ds t) (pointOf N L xs x t) (uOf P L x t)) (pointOf N L xs x t) (uOf P L x t) else ds t
  let ldx := fun t j => ∑ i ∈ Finset.range (P.ndx t), N.jint t (xs t) (dxOf L x t) i j * N.lx (ds' t) i
  (ds', writeNodes P L grad ldx fun t j => N.lu (ds' t) j)

/-- What the constraints need of a node: its next state and derivatives, and the difference of its
state with the two Jacobians. -/
structure Dyn (K X D : Type*) where
  xnext : D → X
  fx : D → ℕ → ℕ → K
  fu : D → ℕ → ℕ → K
  diff : ℕ → X → X → ℕ → K
  jdiff1 : ℕ → X → X → ℕ → ℕ → K
  jdiff2 : ℕ → X → X → ℕ → ℕ → K

/-- `Map(x + ixu_[t] + ndxi + nui, ndxi_next)`. -/
def dxnextOf (P : Prob) (L : Layout) (x : ℕ → K) (t : ℕ) : ℕ → K := fun j => x (L.ixu t + P.ndx t + P.nu t + j)

/-- `integrate(xs_[t + 1], dxnext)` with the state of the next node. -/
def nextOf (P : Prob) (N : Nodes K X D) (L : Layout) (xs : ℕ → X) (x : ℕ → K) (t : ℕ) : X :=
  N.integrate (t + 1) (xs (t + 1)) (dxnextOf P L x t)

/-- `eval_g` (`ipopt-iface.cpp:355-420`): the data afterwards and the constraint array. -/
def evalG (P : Prob) (N : Nodes K X D) (Dy : Dyn K X D) (L : Layout) (xs : ℕ → X) (x0 : X) (ds : ℕ → D) (x : ℕ → K)
    (g : ℕ → K) : (ℕ → D) × (ℕ → K) :=
  let ds' := fun t => if t < P.T then N.eval t (ds t) (pointOf N L xs x t) (uOf P L x t) else ds t
  let s := (List.range P.T).foldl (fun (s : ℕ × (ℕ → K)) t =>
    (s.1 + P.ndx t, writeRange s.2 s.1 (P.ndx t) (Dy.diff t (Dy.xnext (ds' t)) (nextOf P N L xs x t)))) (0, g)
  (ds', writeRange s.2 s.1 (P.ndx 0) (Dy.diff 0 (N.integrate 0 (xs 0) x) x0))

/-- The Jacobian blocks computed by `eval_jac_g` (`ipopt-iface.cpp:473-517, 540-552`): `calcDiff`
without `calc`. The matrix products have the inner dimensions of the code: `Jdiff` of node `t` is
`ndx t` by `ndx t`. -/
def evalJBlocks [Semiring K] (P : Prob) (N : Nodes K X D) (Dy : Dyn K X D) (L : Layout) (xs : ℕ → X) (x0 : X)
    (ds : ℕ → D) (x : ℕ → K) : (ℕ → D) × JacBlocks K :=
  let ds' := fun t => if t < P.T then N.diff t (ds t) (pointOf N L xs x t) (uOf P L x t) else ds t
  (ds',
   { dx := fun t r c => ∑ i ∈ Finset.range (P.ndx t),
       Dy.jdiff1 t (Dy.xnext (ds' t)) (nextOf P N L xs x t) r i
         * ∑ k ∈ Finset.range (P.ndx t), Dy.fx (ds' t) i k * N.jint t (xs t) (dxOf L x t) k c
     u := fun t r c => ∑ i ∈ Finset.range (P.ndx t),
       Dy.jdiff1 t (Dy.xnext (ds' t)) (nextOf P N L xs x t) r i * Dy.fu (ds' t) i c
     dxnext := fun t r c => ∑ i ∈ Finset.range (P.ndx (t + 1)),
       Dy.jdiff2 t (Dy.xnext (ds' t)) (nextOf P N L xs x t) r i
         * N.jint (t + 1) (xs (t + 1)) (dxnextOf P L x t) i c
     ic := fun r c => ∑ i ∈ Finset.range (P.ndx 0),
       Dy.jdiff1 0 (N.integrate 0 (xs 0) x) x0 r i * N.jint 0 (xs 0) x i c })

/-- The Hessian blocks computed by `eval_h` (`ipopt-iface.cpp:629-645, 685-697`): running nodes call
`calcDiff` only, the terminal node `calc` and `calcDiff`. -/
def evalHBlocks [Semiring K] (P : Prob) (N : Nodes K X D) (L : Layout) (xs : ℕ → X) (ds : ℕ → D) (x : ℕ → K) :
    (ℕ → D) × HessBlocks K :=
  let ds' := fun t => if t < P.T then N.diff t (ds t) (pointOf N L xs x t) (uOf P L x t)
    else if t = P.T then
      N.diff t (N.eval t (ds t) (pointOf N L xs x t) (uOf P L x t)) (pointOf N L xs x t) (uOf P L x t)
    else ds t
  let J := fun t => N.jint t (xs t) (dxOf L x t)
  (ds',
   { dxdx := fun t r c => ∑ i ∈ Finset.range (P.ndx t), ∑ j ∈ Finset.range (P.ndx t),
       J t i r * N.lxx (ds' t) i j * J t j c
     dxu := fun t r c => ∑ i ∈ Finset.range (P.ndx t), J t i r * N.lxu (ds' t) i c
     uu := fun t => N.luu (ds' t) })

/-- `finalize_solution` (`ipopt-iface.cpp:713-743`): the new `xs_` and `us_`. -/
def finalize (P : Prob) (N : Nodes K X D) (L : Layout) (xs : ℕ → X) (us : ℕ → ℕ → K) (x : ℕ → K) :
    (ℕ → X) × (ℕ → ℕ → K) :=
  (fun t => if t ≤ P.T then pointOf N L xs x t else xs t, fun t => if t < P.T then uOf P L x t else us t)

end Verif.Ipopt
