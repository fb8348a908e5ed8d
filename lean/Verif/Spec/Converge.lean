import Verif.Model.Integrators
import Mathlib.Analysis.Calculus.ContDiff.Basic
import Mathlib.Analysis.Calculus.Deriv.Basic
import Mathlib.Topology.MetricSpace.Basic

/-! Specification vocabulary for C139: the continuous-time problem. -/

namespace Verif.Integrators

open Matrix Set

variable {n nw nu : ℕ}

/-- On `[0, T]`, `φ` is a motion of the differential model driven by the control signal `ω`:
`q' = v`, `v' = xout(x, ω)`; `l` is the cost accumulated along it: `l' = cost(x, ω)`, `l(0) = 0`. -/
structure Motion (D : DiffModel ℝ n nw) (T : ℝ) (ω : ℝ → Fin nw → ℝ) (φ : ℝ → X ℝ n)
    (l : ℝ → ℝ) : Prop where
  pos : ∀ t ∈ Icc 0 T, ∀ i, HasDerivWithinAt (fun s => φ s (Sum.inl i)) (φ t (Sum.inr i))
    (Icc 0 T) t
  vel : ∀ t ∈ Icc 0 T, ∀ i, HasDerivWithinAt (fun s => φ s (Sum.inr i)) (D.xout (φ t) (ω t) i)
    (Icc 0 T) t
  cost : ∀ t ∈ Icc 0 T, HasDerivWithinAt l (D.cost (φ t) (ω t)) (Icc 0 T) t
  start : l 0 = 0

/-- The accelerations and the costs are continuously differentiable functions of the state and of
the control. -/
structure Smooth (D : DiffModel ℝ n nw) : Prop where
  xout : ContDiff ℝ 1 (fun p : X ℝ n × (Fin nw → ℝ) => D.xout p.1 p.2)
  cost : ContDiff ℝ 1 (fun p : X ℝ n × (Fin nw → ℝ) => D.cost p.1 p.2)
  costT : ContDiff ℝ 1 D.costT

/-- The signal is Lipschitz on `[0, T]` with constant `κ`. -/
def Varies (T κ : ℝ) (ω : ℝ → Fin nw → ℝ) : Prop :=
  ∀ s ∈ Icc 0 T, ∀ t ∈ Icc 0 T, ∀ j, |ω s j - ω t j| ≤ κ * |s - t|

/-- The parameters `u` of node `k` (time `t`, step `h`) sample the signal: at the times `c` where
the integrator evaluates the control (fractions of the step), the control is within `κ h` of the
signal at the start of the step. -/
def Samples (C : Ctl ℝ nw nu) (c : ℕ → ℝ) (N : ℕ) (κ h t : ℝ) (ω : ℝ → Fin nw → ℝ)
    (u : Fin nu → ℝ) : Prop :=
  ∀ i < N, ∀ j, |(C (c i) *ᵥ u) j - ω t j| ≤ κ * h

end Verif.Integrators
