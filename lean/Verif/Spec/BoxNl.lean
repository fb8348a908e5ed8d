import Verif.Spec.BoxLq
import Verif.Spec.Nl

/-! # Specification vocabulary: nonlinear problems with control limits -/

namespace Verif.Nl
open Verif Verif.Lq Matrix

variable {n m : Nat}

/-- `us` is a first-order point of the problem with limits: it is within the limits, and towards every control sequence
within the limits the total cost does not decrease to first order. -/
def StationaryWithin (P : NlProb n m) (lim : CtrlLimits ℝ m) (us : Nat → Fin m → ℝ) : Prop :=
  lim.Within P.T us ∧ ∀ vs, lim.Within P.T vs →
    ∃ d, 0 ≤ d ∧ HasDerivAt (fun a : ℝ => total P fun t => us t + a • (vs t - us t)) d 0

/-- First-order change of the states under the policy `-k - K dx` of the arrays `g`. -/
def closedLoop (L : Lin ℝ n m) (g : Arrays ℝ n (fun _ => m)) : Nat → Fin n → ℝ
  | 0 => 0
  | t + 1 => (L.d t).Fx *ᵥ closedLoop L g t + (L.d t).Fu *ᵥ (-(g.out t).k - (g.out t).Kfb *ᵥ closedLoop L g t)

end Verif.Nl
