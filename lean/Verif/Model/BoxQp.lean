import Verif.Model.Lq
import Mathlib.Algebra.Order.Ring.Abs

/-!
# Model of the box-constrained QP solver and of its use by BoxDDP

Files modelled: `/repo/src/core/solvers/box-qp.cpp` L12-187 and
`/repo/src/core/solvers/box-ddp.cpp` L67-110.

Scalars are exact and finite (an unlimited coordinate has to be given by a finite bound). Vectors and
matrices already have the dimension `nx_`, so the dimension checks of L70-97 pass. Eigen's `LLT` is a
parameter `fac`: `none` when the factorisation fails, otherwise the function computed by `solveInPlace`.
The parameter setters are in `Model/SolverBase.lean`.
-/

namespace Verif.BoxQp
open Verif Matrix

/-- The parameters of a `BoxQP` object: `maxiter_`, `th_acceptstep_`, `th_grad_`, `reg_`, `alphas_`. -/
structure Params (K : Type) where
  maxiter : Nat
  thAccept : K
  thGrad : K
  reg : K
  alphas : List K

/-- `BoxQPSolution` (box-qp.hpp L22-52): `Hff_inv`, `x`, `free_idx`, `clamped_idx`. -/
structure Sol (K : Type) (n : Nat) where
  x : Fin n → K
  free : List (Fin n)
  clamped : List (Fin n)
  Hinv : Matrix (Fin free.length) (Fin free.length) K

/-- A Cholesky factorisation: fails or gives the solution operator of `solveInPlace`. -/
abbrev Fac (K : Type) := ∀ m, Matrix (Fin m) (Fin m) K → Option ((Fin m → K) → (Fin m → K))

/-- The default step lengths, box-qp.cpp L55-59 (and box-ddp.cpp L18-22): `1/2^n` for `n < 10`. -/
def defaultAlphas (K : Type) [Field K] : List K := (List.range 10).map (fun n => 1 / 2 ^ n)

section
variable {K : Type} [Field K] [LinearOrder K] {n : Nat}

/-- `std::max(std::min(v(i), ub(i)), lb(i))`, L101 and L165. -/
def clamp (lb ub v : Fin n → K) : Fin n → K := fun i => max (min (v i) (ub i)) (lb i)

/-- `0.5 * x.dot(H * x) + q.dot(x)`, L158 and L167. -/
def objective (H : Matrix (Fin n) (Fin n) K) (q x : Fin n → K) : K :=
  (1 / 2) * (x ⬝ᵥ (H *ᵥ x)) + q ⬝ᵥ x

/-- `g_ = q; g_ += H * x_`, L109-110. -/
def grad (H : Matrix (Fin n) (Fin n) K) (q x : Fin n → K) : Fin n → K := q + H *ᵥ x

/-- The test of L116: the coordinate is at a bound and the gradient points out of the box. -/
def isClamped (lb ub g x : Fin n → K) (j : Fin n) : Bool :=
  (decide (x j = lb j) && decide (0 < g j)) || (decide (x j = ub j) && decide (g j < 0))

/-- `for i: base(l[i]) = v(i)` (the loop of L152-155). -/
def scatter (l : List (Fin n)) (v : Fin l.length → K) (base : Fin n → K) : Fin n → K :=
  (List.finRange l.length).foldl (fun b i => Function.update b (l.get i) (v i)) base

/-- `lpNorm<Eigen::Infinity>()`: the largest absolute value, zero for an empty vector. -/
def normInf {m : Nat} (v : Fin m → K) : K := (List.finRange m).foldl (fun a i => max a |v i|) 0

/-- The block `Hff`, L131-133 and L140-142. -/
def Hff (H : Matrix (Fin n) (Fin n) K) (reg : K) (free : List (Fin n)) :
    Matrix (Fin free.length) (Fin free.length) K := fun i j =>
  let h := H (free.get i) (free.get j)
  if reg ≠ 0 then (if i = j then h + reg else h) else h

/-- `qf = q_f + Hff * xf` and `qf += Hfc * xc` if there are clamped coordinates, L127-139, L150-153. -/
def qf (H : Matrix (Fin n) (Fin n) K) (q : Fin n → K) (reg : K) (free clamped : List (Fin n))
    (x : Fin n → K) : Fin free.length → K := fun i =>
  let v := q (free.get i) + (Hff H reg free *ᵥ fun j => x (free.get j)) i
  if clamped.length ≠ 0 then
    v + ((fun (i : Fin free.length) (j : Fin clamped.length) => H (free.get i) (clamped.get j) :
      Matrix (Fin free.length) (Fin clamped.length) K) *ᵥ fun j => x (clamped.get j)) i
  else v

/-- The line search, L160-174: the first step length whose decrease passes the test, otherwise the point is
kept. -/
def lineSearch (H : Matrix (Fin n) (Fin n) K) (q lb ub : Fin n → K) (th : K) (g x dx : Fin n → K) :
    List K → Fin n → K
  | [] => x
  | a :: as =>
    let xnew := clamp lb ub (x + a • dx)
    if th * (g ⬝ᵥ (x - xnew)) < objective H q x - objective H q xnew then xnew
    else lineSearch H q lb ub th g x dx as

/-- One pass of the loop of `solve`, L105-180, from the point `x_`: the new solution (with its point) and
whether the convergence test of L177 holds; `none` is `throw_pretty("backward_error")`. -/
def iter (fac : Fac K) (p : Params K) (H : Matrix (Fin n) (Fin n) K) (q lb ub x : Fin n → K) :
    Option (Sol K n × Bool) :=
  let g := grad H q x
  let clamped := (List.finRange n).filter (fun j => isClamped lb ub g x j)
  let free := (List.finRange n).filter (fun j => !isClamped lb ub g x j)
  match fac free.length (Hff H p.reg free) with
  | none => none
  | some sol =>
    let r := qf H q p.reg free clamped x
    let dxf := sol (fun i => - r i)
    let dx := scatter free dxf (fun _ => 0)
    let g' := scatter free (fun i => - r i) g
    let x' := lineSearch H q lb ub p.thAccept g' x dx p.alphas
    some (⟨x', free, clamped, fun i j => sol (fun k => if k = j then 1 else 0) i⟩,
      decide (normInf r ≤ p.thGrad))

/-- The loop of `solve`, L104-184, with `k` passes left, from the point `x` and the stored solution `s`:
the result and whether it stopped on the convergence test. -/
def loop (fac : Fac K) (p : Params K) (H : Matrix (Fin n) (Fin n) K) (q lb ub : Fin n → K) :
    Nat → (Fin n → K) → Sol K n → Option (Sol K n × Bool)
  | 0, x, s => some ({ s with x := x }, false)
  | k + 1, x, _ =>
    match iter fac p H q lb ub x with
    | none => none
    | some (s', true) => some (s', true)
    | some (s', false) => loop fac p H q lb ub k s'.x s'

/-- `BoxQP::solve`, L64-187, on an object whose stored solution is `s`. -/
def solve (fac : Fac K) (p : Params K) (H : Matrix (Fin n) (Fin n) K) (q lb ub xinit : Fin n → K)
    (s : Sol K n) : Option (Sol K n × Bool) :=
  loop fac p H q lb ub p.maxiter (clamp lb ub xinit) s

/-! ### BoxDDP -/

/-- `Quu_inv_[t]`: zero, then the block of the free coordinates, box-ddp.cpp L86-92. -/
def projInv (s : Sol K n) : Matrix (Fin n) (Fin n) K :=
  (List.finRange s.free.length).foldl (fun M i =>
    (List.finRange s.free.length).foldl (fun M j =>
      Function.update M (s.free.get i) (Function.update (M (s.free.get i)) (s.free.get j) (s.Hinv i j))) M)
    (fun _ _ => 0)

/-- `computeGains` of BoxDDP for a node with control limits and a feasible candidate, box-ddp.cpp L77-107:
the feed-forward `k`, the feedback `K` and the projected `Qu`. `k` on entry is the warm start. -/
def boxGains {nx : Nat} (fac : Fac K) (p : Params K) (Q : Lq.QTerms K nx n) (ulb uub us k : Fin n → K)
    (s : Sol K n) : Option ((Fin n → K) × Matrix (Fin n) (Fin nx) K × (Fin n → K) × Sol K n) :=
  match solve fac p Q.Quu Q.Qu (ulb - us) (uub - us) k s with
  | none => none
  | some (s', _) =>
    some (- s'.x, projInv s' * Q.Qxuᵀ, scatter s'.clamped (fun _ => 0) Q.Qu, s')

end
end Verif.BoxQp
