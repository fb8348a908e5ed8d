import Verif.Spec.Nl

/-!
# The DDP solvers on nonlinear problems

The solve loop of `Model/Solve.lean` on a problem whose nodes are arbitrary functions on `StateVector`
(euclidean.hxx L30-71), with the backward pass and the expected improvement of `Model/Lq.lean`. The
derivatives computed by `problem_->calcDiff` are an arbitrary function `lin` of the candidate. Every node
has `m` controls and no control limits, so that the box solvers do not clamp and compute the gains of
DDP (box-ddp.cpp L67-76, box-fddp.cpp L67-76).
-/

namespace Verif.Nl
open Verif Verif.Solve Verif.Lq Matrix

variable {n m : Nat}

/-- The shooting problem as the solvers see it. -/
def NlProb.toProb (P : NlProb n m) : Prob ℝ (Fin n → ℝ) (Fin n → ℝ) (Fin m → ℝ) where
  T := P.T
  node := fun t =>
    { nuZero := decide (m = 0)
      eval := fun x u => (P.next t x u, P.cost t x u)
      evalT := fun x => (x, P.costT x)
      diff := fun x y => y - x
      integ := fun x d => x + d
      clamp := fun u => u }
  tcost := P.costT
  tdiff := fun x y => y - x
  tinteg := fun x d => x + d
  x0 := P.x0

/-- The calls of the solver to the problem's derivatives (ddp.cpp L198-210), to `backwardPass` (ddp.cpp
L212-251) and to `expectedImprovement` (ddp.cpp L157-170, fddp.cpp L123-173). As in `Lq.oracle`, a throwing
backward pass leaves the arrays as they were. -/
noncomputable def oracle (P : NlProb n m) (lin : (Nat → Fin n → ℝ) → (Nat → Fin m → ℝ) → Lin ℝ n m)
    (llt : ∀ m, Matrix (Fin m) (Fin m) ℝ → Bool) (kind : Kind) :
    Oracle ℝ (Fin n → ℝ) (Fin n → ℝ) (Fin m → ℝ) (Lin ℝ n m) (Arrays ℝ n (fun _ => m)) where
  linearise := fun s => lin s.xs s.us
  backward := fun s =>
    match backwardPass llt (some s.preg) s.feas P.T s.lin.d s.lin.LxT s.lin.LxxT s.fs s.dir with
    | some g => (true, fun t => (g.out t).k, fun t dx => (g.out t).Kfb *ᵥ dx, g)
    | none => (false, s.k, s.gain, s.dir)
  updExp := fun s => s.dir
  expImp := fun s =>
    if kind.feasibilityDriven then
      expectedImprovementFddp P.T s.feas s.fs (fun t => s.xs t - s.xsTry t) s.dir
    else expectedImprovement P.T s.dir
  bad := fun _ => false
  badX := fun _ => false

end Verif.Nl
