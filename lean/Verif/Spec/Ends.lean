import Verif.Spec.Nl

/-!
# Parameters with which `solve` ends by itself (C141)
-/

namespace Verif.Nl
open Verif Verif.Solve

/-- Parameters of `solve` as a user sets them. The step lengths of the line search are at least `amin > 0` and the last
of them is at most `th_stepinc`, which is at most `th_stepdec`; `th_acceptstep` and `th_stop` are positive;
`th_grad` is at most `2 th_stop`; the regularisation factors are greater than one and `reg_max` is positive. The
defaults of the library (step lengths `1, 1/2, ..., 1/2^9`, `th_stepdec = 0.5`, `th_stepinc = 0.01`,
`th_acceptstep = 0.1`, `th_stop = 1e-9` or `5e-5`, `th_grad = 1e-12`, factors 10, `reg_max = 1e9`) are an instance. -/
structure Usual (c : Cfg ℝ) (amin : ℝ) : Prop where
  amin_pos : 0 < amin
  amin_le : ∀ a ∈ c.alphas, amin ≤ a
  last : ∃ as a, c.alphas = as ++ [a] ∧ a ≤ c.thStepinc
  stepdec : c.thStepinc ≤ c.thStepdec
  accept : 0 < c.thAcceptstep
  stop : 0 < c.thStop
  grad : c.thGrad ≤ 2 * c.thStop
  inc : 1 < c.reg.inc
  dec : 1 < c.reg.dec
  max : 0 < c.reg.max

/-- `solve` ended by itself: it returned true with the stopping criterion below `th_stop`, or false with the
regularisation at `reg_max`. -/
def EndedItself {K X DX U L D : Type} [LT K] (c : Cfg K) (o : Outcome K X DX U L D) : Prop :=
  (o.ret = true ∧ o.final.stop < c.thStop) ∨ (o.ret = false ∧ o.final.preg = c.reg.max)

end Verif.Nl
