import Verif.Model.Intro
import Verif.Model.IntroSolve
import Verif.Model.LqSolve
import Verif.Spec.Intro

/-!
# `SolverIntro` on linear-quadratic problems with affine equality constraints

The solve loop of `Model/IntroSolve.lean` with the derivatives of `ActionModelLQR`, the backward pass of
`Model/Intro.lean` and the expected improvement of `SolverFDDP` (`Model/Lq.lean`) plugged in. Every node has `m` controls,
node `t` has `nh t` equality constraints; the terminal model has none.
-/

namespace Verif.Intro
open Verif Verif.Lq Verif.Solve Matrix

variable {K : Type} [Field K] {n m : Nat} {nh : Nat → Nat}

/-- What `calcDiff` leaves in the data: the derivatives of the costs and the dynamics (ddp.cpp L198-210) and of the
constraints (intro.cpp L226-295). -/
structure ILin (K : Type) (n m : Nat) (nh : Nat → Nat) where
  lin : Lin K n m
  eq : ∀ t, EqDerivs K n m (nh t)

abbrev LqS (K : Type) (n m : Nat) (nh : Nat → Nat) :=
  St K (Fin n → K) (Fin n → K) (Fin m → K) (ILin K n m nh) (Arrays K n (fun _ => m))

abbrev LqI (K : Type) (n m : Nat) (nh : Nat → Nat) :=
  IntroSolve.Ist K (Fin n → K) (Fin n → K) (Fin m → K) (ILin K n m nh) (Arrays K n (fun _ => m))

/-- The residuals `h` of the nodes (lqr.hxx L126-128); the terminal model has no constraints. No step throws here, so
the junk is never used; nor is `hx`, since all nodes have controls. -/
def eqc (cs : ∀ t, Affine K n m (nh t)) : IntroSolve.EqC K (Fin n → K) (Fin m → K) (LqS K n m nh) where
  h := fun t x u => List.ofFn ((cs t).eval x u)
  hx := fun _ _ => []
  ht := fun _ => []
  junk := fun _ _ => []
  junkT := fun _ => []

/-- The solver's calls to the problem's derivatives (ddp.cpp L198-210, intro.cpp L226-295), `backwardPass` (ddp.cpp
L212-251 with the gains of intro.cpp L329-399) and `expectedImprovement` (fddp.cpp L123-173). Undefined behaviour of the
null-space solvers is entered as a throw: the theorems assume independent constraints, for which it does not occur. A
throwing pass is taken to leave the arrays as they were, see `Model/LqSolve.lean`. -/
noncomputable def oracle [LinearOrder K] (P : LqProb K n (fun _ => m)) (cs : ∀ t, Affine K n m (nh t)) (F : Fact K)
    (es : EqSolver) :
    Oracle K (Fin n → K) (Fin n → K) (Fin m → K) (ILin K n m nh) (Arrays K n (fun _ => m)) where
  linearise := fun s =>
    { lin :=
        { d := fun t => (P.node t).derivs (s.xs t) (s.us t)
          LxT := P.term.q + P.term.Q *ᵥ s.xs P.T
          LxxT := P.term.Q }
      eq := fun t => (cs t).derivs (s.xs t) (s.us t) }
  backward := fun s =>
    match backwardPass F es (some s.preg) s.feas P.T s.lin.lin.d s.lin.eq s.lin.lin.LxT s.lin.lin.LxxT s.fs s.dir with
    | .ok g => (true, fun t => (g.out t).k, fun t dx => (g.out t).Kfb *ᵥ dx, g)
    | _ => (false, s.k, s.gain, s.dir)
  updExp := fun s => s.dir
  expImp := fun s => expectedImprovementFddp P.T s.feas s.fs (fun t => s.xs t - s.xsTry t) s.dir
  bad := fun _ => false
  badX := fun _ => false

end Verif.Intro
