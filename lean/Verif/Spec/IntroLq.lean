import Verif.Spec.Intro
import Verif.Model.IntroSolve

/-! # Specification vocabulary for `SolverIntro::solve` on linear-quadratic problems -/

namespace Verif.Intro
open Verif Verif.Lq Matrix

variable {K : Type} [Field K] [LinearOrder K] {n : Nat} {nu nh : Nat → Nat}

/-- `us` solves the constrained problem: it satisfies the constraints, at the lowest cost among the controls that do. -/
def Best (P : LqProb K n nu) (cs : ∀ t, Affine K n (nu t) (nh t)) (us : ∀ t, Fin (nu t) → K) : Prop :=
  Satisfies P cs us 0 P.x0 ∧ ∀ vs, Satisfies P cs vs 0 P.x0 → total P us ≤ total P vs

/-- The costs of the controls that satisfy the constraints. -/
def costs (P : LqProb K n nu) (cs : ∀ t, Affine K n (nu t) (nh t)) : Set K :=
  {r | ∃ vs, Satisfies P cs vs 0 P.x0 ∧ total P vs = r}

/-- Parameters as the constructors leave them, up to their values: the first step length is 1, the acceptance threshold
is below 1 and that for negative steps above 1, the other thresholds are positive, `th_stepinc` is below 1, and the
regularisation stays between bounds that are a factor apart. -/
structure Sane (c : IntroSolve.ICfg K) : Prop where
  alphas : ∃ as, c.alphas = 1 :: as
  accept : c.thAcceptstep < 1
  acceptNeg : 1 < c.thAcceptnegstep
  grad : 0 < c.thGrad
  stop : 0 < c.thStop
  stepinc : c.thStepinc < 1
  regmin : 0 ≤ c.reg.min
  regmax : c.reg.min < c.reg.max
  reginc : 0 ≤ c.reg.inc
  regfactor : c.reg.min * c.reg.inc < c.reg.max
  regdec : 1 ≤ c.reg.dec

end Verif.Intro
