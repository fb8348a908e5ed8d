import Verif.Model.LqSolve
import Verif.Spec.Solve
import Verif.Spec.Deriv
import Mathlib.Analysis.Calculus.Deriv.Basic

/-!
# Specification: nonlinear optimal-control problems on vector states

Dynamics and costs are arbitrary functions; every node has `m` controls and no control limits.
-/

namespace Verif.Solve
variable {K X DX U L D : Type}
variable [Field K] [LinearOrder K] [AddCommGroup DX] [Module K DX] [AddCommGroup U] [Module K U]

/-- States reached at the start of an iteration of `solve`. -/
inductive Reached (P : Prob K X DX U) (c : Cfg K) (O : Oracle K X DX U L D) (kind : Kind) (fuel : Nat)
    (s0 : St K X DX U L D) : St K X DX U L D → Prop where
  | init : Reached P c O kind fuel s0 s0
  | next {s s' : St K X DX U L D} {b : Bool} : Reached P c O kind fuel s0 s →
      iteration P c O kind fuel s = some (.continue, b, s') →
      Reached P c O kind fuel s0 { s' with iter := s'.iter + 1 }

/-- `s` is the state at the start of some iteration of some call to `solve` whose initial guess is marked
feasible only if it is a rollout. BoxDDP must be started from a feasible guess (it marks every accepted trial
feasible, also those that keep a gap at the last node, see C35). -/
def AtIteration (P : Prob K X DX U) (c : Cfg K) (O : Oracle K X DX U L D) (kind : Kind) (fuel : Nat)
    (s : St K X DX U L D) : Prop :=
  ∃ xs us feas reg s0, (feas = true → Rollout P xs us) ∧ (kind = .boxDdp → feas = true) ∧
    Reached P c O kind fuel (start P c xs us feas reg s0) s

end Verif.Solve

namespace Verif.Nl
open Verif Verif.Solve Verif.Lq Verif.Deriv Matrix

variable {n m : Nat}

/-- Horizon, next state and cost of each running node, terminal cost, initial state. -/
structure NlProb (n m : Nat) where
  T : Nat
  next : Nat → (Fin n → ℝ) → (Fin m → ℝ) → Fin n → ℝ
  cost : Nat → (Fin n → ℝ) → (Fin m → ℝ) → ℝ
  costT : (Fin n → ℝ) → ℝ
  x0 : Fin n → ℝ

/-- The state trajectory driven by the controls `us` from the initial state. -/
def traj (P : NlProb n m) (us : Nat → Fin m → ℝ) : Nat → Fin n → ℝ
  | 0 => P.x0
  | t + 1 => P.next t (traj P us t) (us t)

/-- The total cost of the trajectory driven by `us`. -/
noncomputable def total (P : NlProb n m) (us : Nat → Fin m → ℝ) : ℝ :=
  (∑ t ∈ Finset.range P.T, P.cost t (traj P us t) (us t)) + P.costT (traj P us P.T)

/-- The first derivatives in `L` are those of the dynamics and of the costs at the candidate `xs, us`. -/
structure Exact (P : NlProb n m) (xs : Nat → Fin n → ℝ) (us : Nat → Fin m → ℝ) (L : Lin ℝ n m) : Prop where
  dyn : ∀ t < P.T, HasJac (P.next t) (L.d t).Fx (L.d t).Fu (xs t) (us t)
  cost : ∀ t < P.T, HasGrad (P.cost t) (L.d t).Lx (L.d t).Lu (xs t) (us t)
  term : HasGrad1 P.costT L.LxT (xs P.T)

/-- The Hessian blocks the backward pass relies on are symmetric (they need not be exact). -/
structure SymmHess (T : Nat) (L : Lin ℝ n m) : Prop where
  Luu : ∀ t < T, (L.d t).Luuᵀ = (L.d t).Luu
  term : L.LxxTᵀ = L.LxxT

/-- `us` is a stationary point of the total cost: in every direction of the space of control sequences the
derivative of the total cost is zero. -/
def Stationary (P : NlProb n m) (us : Nat → Fin m → ℝ) : Prop :=
  ∀ v : Nat → Fin m → ℝ, HasDerivAt (fun a : ℝ => total P fun t => us t + a • v t) 0 0

/-- First-order effect on the states of a step of a feasibility-driven solver: the gaps `f` close while the
controls follow the policy `-k - K dx`. -/
def sens (L : Lin ℝ n m) (g : Arrays ℝ n (fun _ => m)) (f : Nat → Fin n → ℝ) : Nat → Fin n → ℝ
  | 0 => f 0
  | t + 1 => (L.d t).Fx *ᵥ sens L g f t + (L.d t).Fu *ᵥ (-(g.out t).k - (g.out t).Kfb *ᵥ sens L g f t)
      + f (t + 1)

end Verif.Nl
