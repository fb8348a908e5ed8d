import Verif.Model.IntroLq

/-!
# `SolverIntro` on nonlinear problems with equality constraints

The solve loop of `Model/IntroSolve.lean` with the backward pass of `Model/Intro.lean` and the expected improvement of
`SolverFDDP`, as in `Model/IntroLq.lean`, and derivatives that are any function of the candidate.
-/

namespace Verif.Intro
open Verif Verif.Lq Verif.Solve Matrix

variable {K : Type} [Field K] {n m : Nat} {nh : Nat → Nat}

/-- The solver's calls: the problem's derivatives at the candidate (ddp.cpp L198-210, intro.cpp L226-295; any function `lin` of the
candidate), `backwardPass` (ddp.cpp L212-251 with the gains of intro.cpp L329-399) and `expectedImprovement` (fddp.cpp L123-173).
The simplifications are those of `oracle` (`Model/IntroLq.lean`); in addition no number counts as invalid. -/
noncomputable def oracleNl [LinearOrder K] (T : Nat) (lin : (Nat → Fin n → K) → (Nat → Fin m → K) → ILin K n m nh) (F : Fact K)
    (es : EqSolver) :
    Oracle K (Fin n → K) (Fin n → K) (Fin m → K) (ILin K n m nh) (Arrays K n (fun _ => m)) where
  linearise := fun s => lin s.xs s.us
  backward := fun s =>
    match backwardPass F es (some s.preg) s.feas T s.lin.lin.d s.lin.eq s.lin.lin.LxT s.lin.lin.LxxT s.fs s.dir with
    | .ok g => (true, fun t => (g.out t).k, fun t dx => (g.out t).Kfb *ᵥ dx, g)
    | _ => (false, s.k, s.gain, s.dir)
  updExp := fun s => s.dir
  expImp := fun s => expectedImprovementFddp T s.feas s.fs (fun t => s.xs t - s.xsTry t) s.dir
  bad := fun _ => false
  badX := fun _ => false

/-- On linear-quadratic problems this is the oracle of `Model/IntroLq.lean`. -/
theorem oracle_eq [LinearOrder K] (P : LqProb K n (fun _ => m)) (cs : ∀ t, Affine K n m (nh t)) (F : Fact K) (es : EqSolver) :
    oracle P cs F es = oracleNl P.T (fun xs us => { lin := { d := fun t => (P.node t).derivs (xs t) (us t)
                                                             LxT := P.term.q + P.term.Q *ᵥ xs P.T
                                                             LxxT := P.term.Q }
                                                    eq := fun t => (cs t).derivs (xs t) (us t) }) F es := rfl

end Verif.Intro
