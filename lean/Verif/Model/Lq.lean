import Verif.Model.Solve
import Mathlib.Data.Matrix.Mul
import Mathlib.LinearAlgebra.Matrix.NonsingularInverse
import Mathlib.Logic.Function.Basic

/-!
# Model of the backward pass of DDP and of the linear-quadratic action model

Files modelled: `/repo/src/core/solvers/ddp.cpp` L157-170, L212-251, L303-396;
`/repo/src/core/solvers/fddp.cpp` L123-173; `/repo/include/crocoddyl/core/actions/lqr.hxx` L91-212.

Each node `t` has its own control dimension `nu t`; states have dimension `n`. `preg = none` is NaN.
Eigen's `LLT` is represented by its success test, an arbitrary function `llt`, and by the exact inverse for
`solveInPlace`. Scalars are exact, so the NaN tests `raiseIfNaN` never fire.
-/

namespace Verif.Lq
open Verif Matrix

/-- The derivatives in an action data (`Fx`, `Fu`, `Lx`, `Lu`, `Lxx`, `Lxu`, `Luu`). -/
structure Derivs (K : Type) (n m : Nat) where
  Fx : Matrix (Fin n) (Fin n) K
  Fu : Matrix (Fin n) (Fin m) K
  Lx : Fin n → K
  Lu : Fin m → K
  Lxx : Matrix (Fin n) (Fin n) K
  Lxu : Matrix (Fin n) (Fin m) K
  Luu : Matrix (Fin m) (Fin m) K

/-- `Vx_[t]`, `Vxx_[t]`. -/
structure Value (K : Type) (n : Nat) where
  Vx : Fin n → K
  Vxx : Matrix (Fin n) (Fin n) K

/-- `Qx_[t]`, `Qu_[t]`, `Qxx_[t]`, `Qxu_[t]`, `Quu_[t]`. -/
structure QTerms (K : Type) (n m : Nat) where
  Qx : Fin n → K
  Qu : Fin m → K
  Qxx : Matrix (Fin n) (Fin n) K
  Qxu : Matrix (Fin n) (Fin m) K
  Quu : Matrix (Fin m) (Fin m) K

noncomputable section
variable {K : Type} [Field K] {n m : Nat}

/-- `if (!std::isnan(preg_)) M.diagonal().array() += preg_`. -/
def addDiag {p : Nat} (preg : Option K) (M : Matrix (Fin p) (Fin p) K) : Matrix (Fin p) (Fin p) K :=
  match preg with
  | none => M
  | some r => M + r • (1 : Matrix (Fin p) (Fin p) K)

/-- `computeActionValueFunction`, ddp.cpp L303-340. (For `nu = 0` the control blocks are empty.) -/
def actionValue (preg : Option K) (d : Derivs K n m) (V : Value K n) : QTerms K n m where
  Qx := d.Lx + d.Fxᵀ *ᵥ V.Vx
  Qu := d.Lu + d.Fuᵀ *ᵥ V.Vx
  Qxx := d.Lxx + (d.Fxᵀ * V.Vxx) * d.Fx
  Qxu := d.Lxu + (d.Fxᵀ * V.Vxx) * d.Fu
  Quu := addDiag preg (d.Luu + (d.Fuᵀ * V.Vxx) * d.Fu)

/-- What the backward pass leaves at a node: the action-value terms, the gains and the value function. -/
structure NodeOut (K : Type) (n m : Nat) where
  Q : QTerms K n m
  k : Fin m → K
  Kfb : Matrix (Fin m) (Fin n) K
  V : Value K n

/-- `computeGains`, ddp.cpp L372-396: `none` is `throw_pretty("backward_error")`. `llt` is the success
test of the Cholesky factorisation. -/
def computeGains (llt : ∀ m, Matrix (Fin m) (Fin m) K → Bool) (Q : QTerms K n m) :
    Option ((Fin m → K) × Matrix (Fin m) (Fin n) K) :=
  if m = 0 ∨ llt m Q.Quu = true then some (Q.Quu⁻¹ *ᵥ Q.Qu, Q.Quu⁻¹ * Q.Qxuᵀ) else none

/-- `computeValueFunction`, ddp.cpp L342-370; `f` is `fs_[t]`. -/
def computeValue (preg : Option K) (feas : Bool) (Q : QTerms K n m) (Kfb : Matrix (Fin m) (Fin n) K)
    (f : Fin n → K) : Value K n :=
  let Vx := Q.Qx - Kfbᵀ *ᵥ Q.Qu
  let M := Q.Qxx - Q.Qxu * Kfb
  let Vxx := addDiag preg ((1 / 2 : K) • (M + Mᵀ))
  { Vx := if feas then Vx else Vx + Vxx *ᵥ f, Vxx := Vxx }

/-- Body of the loop of `backwardPass`, ddp.cpp L228-248. -/
def backNode (llt : ∀ m, Matrix (Fin m) (Fin m) K → Bool) (preg : Option K) (feas : Bool)
    (d : Derivs K n m) (V : Value K n) (f : Fin n → K) : Option (NodeOut K n m) :=
  let Q := actionValue preg d V
  match computeGains llt Q with
  | none => none
  | some (k, Kfb) => some ⟨Q, k, Kfb, computeValue preg feas Q Kfb f⟩

/-- The terminal value function, ddp.cpp L214-224. -/
def termValue (preg : Option K) (feas : Bool) (Lx : Fin n → K) (Lxx : Matrix (Fin n) (Fin n) K)
    (f : Fin n → K) : Value K n :=
  let Vxx := addDiag preg Lxx
  { Vx := if feas then Lx else Lx + Vxx *ᵥ f, Vxx := Vxx }

/-- The arrays written by the backward pass. -/
structure Arrays (K : Type) (n : Nat) (nu : Nat → Nat) where
  V : Nat → Value K n
  out : ∀ t, NodeOut K n (nu t)

/-- The loop `for (t = T-1; t >= 0; --t)` of `backwardPass`, ddp.cpp L229-250, for the nodes below `t`. -/
def backLoop {nu : Nat → Nat} (llt : ∀ m, Matrix (Fin m) (Fin m) K → Bool) (preg : Option K)
    (feas : Bool) (d : ∀ t, Derivs K n (nu t)) (f : Nat → Fin n → K) :
    Nat → Arrays K n nu → Option (Arrays K n nu)
  | 0, s => some s
  | t + 1, s =>
    match backNode llt preg feas (d t) (s.V (t + 1)) (f t) with
    | none => none
    | some o => backLoop llt preg feas d f t ⟨Function.update s.V t o.V, Function.update s.out t o⟩

/-- `backwardPass`, ddp.cpp L212-251, on the arrays `s` left by earlier calls. -/
def backwardPass {nu : Nat → Nat} (llt : ∀ m, Matrix (Fin m) (Fin m) K → Bool) (preg : Option K)
    (feas : Bool) (T : Nat) (d : ∀ t, Derivs K n (nu t)) (LxT : Fin n → K)
    (LxxT : Matrix (Fin n) (Fin n) K) (f : Nat → Fin n → K) (s : Arrays K n nu) :
    Option (Arrays K n nu) :=
  backLoop llt preg feas d f T { s with V := Function.update s.V T (termValue preg feas LxT LxxT (f T)) }

/-- `expectedImprovement` of `SolverDDP`, ddp.cpp L157-170: `(d_[0], d_[1])`, with `Quuk_ = Quu_ * k_`. -/
def expectedImprovement {nu : Nat → Nat} (T : Nat) (s : Arrays K n nu) : K × K :=
  (Solve.sumTo (fun t => (s.out t).Q.Qu ⬝ᵥ (s.out t).k) T,
   - Solve.sumTo (fun t => (s.out t).k ⬝ᵥ ((s.out t).Q.Quu *ᵥ (s.out t).k)) T)

/-- `dg_`, `dq_` of `updateExpectedImprovement`, fddp.cpp L149-173. -/
def updateExpectedImprovement {nu : Nat → Nat} (T : Nat) (feas : Bool) (f : Nat → Fin n → K)
    (s : Arrays K n nu) : K × K :=
  let gq := (Solve.sumTo (fun t => (s.out t).Q.Qu ⬝ᵥ (s.out t).k) T,
    - Solve.sumTo (fun t => (s.out t).k ⬝ᵥ ((s.out t).Q.Quu *ᵥ (s.out t).k)) T)
  if feas then gq
  else (gq.1 - Solve.sumTo (fun t => (s.V t).Vx ⬝ᵥ f t) (T + 1),
        gq.2 + Solve.sumTo (fun t => f t ⬝ᵥ ((s.V t).Vxx *ᵥ f t)) (T + 1))

/-- `expectedImprovement` of `SolverFDDP`, fddp.cpp L123-147: `dx t` is `diff(xs_try[t], xs[t])`. -/
def expectedImprovementFddp {nu : Nat → Nat} (T : Nat) (feas : Bool) (f dx : Nat → Fin n → K)
    (s : Arrays K n nu) : K × K :=
  let gq := updateExpectedImprovement T feas f s
  let dv := if feas then 0 else - Solve.sumTo (fun t => f t ⬝ᵥ ((s.V t).Vxx *ᵥ dx t)) (T + 1)
  (gq.1 + dv, gq.2 - 2 * dv)

/-! ### The linear-quadratic action model -/

/-- `ActionModelLQRTpl`: `A`, `B`, `f`, `Q`, `R`, `N`, `q`, `r` (lqr.hpp). -/
structure Lqr (K : Type) (n m : Nat) where
  A : Matrix (Fin n) (Fin n) K
  B : Matrix (Fin n) (Fin m) K
  f : Fin n → K
  Q : Matrix (Fin n) (Fin n) K
  R : Matrix (Fin m) (Fin m) K
  N : Matrix (Fin n) (Fin m) K
  q : Fin n → K
  r : Fin m → K

/-- `calc(data, x, u)`, lqr.hxx L105-115: the next state `A x + B u + f`. -/
def Lqr.next (a : Lqr K n m) (x : Fin n → K) (u : Fin m → K) : Fin n → K := a.A *ᵥ x + a.B *ᵥ u + a.f

/-- `calc(data, x, u)`, lqr.hxx L117-128: the cost `½ xᵀQx + ½ uᵀRu + xᵀNu + qᵀx + rᵀu`. -/
def Lqr.cost (a : Lqr K n m) (x : Fin n → K) (u : Fin m → K) : K :=
  (1 / 2) * (x ⬝ᵥ (a.Q *ᵥ x)) + (1 / 2) * (u ⬝ᵥ (a.R *ᵥ u)) + x ⬝ᵥ (a.N *ᵥ u) + a.q ⬝ᵥ x + a.r ⬝ᵥ u

/-- `calc(data, x)`, lqr.hxx L141-150: the terminal cost `½ xᵀQx + qᵀx`. -/
def Lqr.costT (a : Lqr K n m) (x : Fin n → K) : K := (1 / 2) * (x ⬝ᵥ (a.Q *ᵥ x)) + a.q ⬝ᵥ x

/-- `calcDiff(data, x, u)`, lqr.hxx L158-191 (and the constant blocks set with the data). -/
def Lqr.derivs (a : Lqr K n m) (x : Fin n → K) (u : Fin m → K) : Derivs K n m where
  Fx := a.A
  Fu := a.B
  Lx := a.q + a.Q *ᵥ x + a.N *ᵥ u
  Lu := a.r + a.Nᵀ *ᵥ x + a.R *ᵥ u
  Lxx := a.Q
  Lxu := a.N
  Luu := a.R

end
end Verif.Lq
