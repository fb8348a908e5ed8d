import Verif.Spec.Lq

/-!
# The DDP solvers on linear-quadratic problems

The solve loop of `Model/Solve.lean` with the derivatives of `ActionModelLQR`, the backward pass and the
expected improvement of `Model/Lq.lean` plugged in. Every node has `m` controls.
-/

namespace Verif.Lq
open Verif Verif.Solve Matrix

variable {K : Type} [Field K] {n m : Nat}

/-- The shooting problem made of the `ActionModelLQR`s of `P` on `StateVector` (euclidean.hxx L30-71). -/
def LqProb.toProb (P : LqProb K n (fun _ => m)) : Prob K (Fin n → K) (Fin n → K) (Fin m → K) where
  T := P.T
  node := fun t =>
    { nuZero := decide (m = 0)
      eval := fun x u => ((P.node t).next x u, (P.node t).cost x u)
      evalT := fun x => (x, (P.node t).costT x)
      diff := fun x y => y - x
      integ := fun x d => x + d
      clamp := fun u => u }
  tcost := P.term.costT
  tdiff := fun x y => y - x
  tinteg := fun x d => x + d
  x0 := P.x0

/-- `problem_->calcDiff`: the derivatives at every node, and the terminal gradient and Hessian. -/
structure Lin (K : Type) (n m : Nat) where
  d : Nat → Derivs K n m
  LxT : Fin n → K
  LxxT : Matrix (Fin n) (Fin n) K

/-- The solver's calls to the problem's derivatives (ddp.cpp L198-210), `backwardPass` (ddp.cpp L212-251)
and `expectedImprovement` (ddp.cpp L157-170, fddp.cpp L123-173). A throwing backward pass is taken to leave
the arrays as they were: the code leaves them partly overwritten, and reads none of them before the next
successful pass has rewritten all. -/
noncomputable def oracle [LinearOrder K] (P : LqProb K n (fun _ => m))
    (llt : ∀ m, Matrix (Fin m) (Fin m) K → Bool) (kind : Kind) :
    Oracle K (Fin n → K) (Fin n → K) (Fin m → K) (Lin K n m) (Arrays K n (fun _ => m)) where
  linearise := fun s =>
    { d := fun t => (P.node t).derivs (s.xs t) (s.us t)
      LxT := P.term.q + P.term.Q *ᵥ s.xs P.T
      LxxT := P.term.Q }
  backward := fun s =>
    match backwardPass llt (some s.preg) s.feas P.T s.lin.d s.lin.LxT s.lin.LxxT s.fs s.dir with
    | some g => (true, fun t => (g.out t).k, fun t dx => (g.out t).Kfb *ᵥ dx, g)
    | none => (false, s.k, s.gain, s.dir)
  updExp := fun s => s.dir
  expImp := fun s =>
    if kind.feasibilityDriven then
      expectedImprovementFddp P.T s.feas s.fs (fun t => s.xs t - s.xsTry t) s.dir
    else expectedImprovement P.T s.dir
  bad := fun _ => false
  badX := fun _ => false

end Verif.Lq
