import Verif.Model.KktSystem
import Verif.Spec.Lq

/-! # Specification: the local quadratic program of the KKT solver -/

namespace Verif.Kkt
open Verif Verif.Lq Matrix

variable {K : Type} [Field K] {n : ℕ} {nu : ℕ → ℕ}

/-- A change of the candidate that satisfies the linearised dynamics and the initial condition. -/
structure LinFeas (l : Local K n nu) (dx : ℕ → Fin n → K) (du : ∀ t, Fin (nu t) → K) : Prop where
  init : l.xs 0 + dx 0 = l.x0
  step : ∀ t < l.T, l.xs (t + 1) + dx (t + 1) = l.xnext t + (l.d t).Fx *ᵥ dx t + (l.d t).Fu *ᵥ du t

/-- The second-order model of the change of the total cost. -/
def quad (l : Local K n nu) (dx : ℕ → Fin n → K) (du : ∀ t, Fin (nu t) → K) : K :=
  (∑ t ∈ Finset.range l.T, ((l.d t).Lx ⬝ᵥ dx t + (l.d t).Lu ⬝ᵥ du t
    + (1 / 2) * (dx t ⬝ᵥ ((l.d t).Lxx *ᵥ dx t) + 2 * (dx t ⬝ᵥ ((l.d t).Lxu *ᵥ du t))
      + du t ⬝ᵥ ((l.d t).Luu *ᵥ du t))))
  + (l.LxT ⬝ᵥ dx l.T + (1 / 2) * (dx l.T ⬝ᵥ (l.LxxT *ᵥ dx l.T)))

/-- Its linear part: the first-order change of the total cost. -/
def slope (l : Local K n nu) (dx : ℕ → Fin n → K) (du : ∀ t, Fin (nu t) → K) : K :=
  (∑ t ∈ Finset.range l.T, ((l.d t).Lx ⬝ᵥ dx t + (l.d t).Lu ⬝ᵥ du t)) + l.LxT ⬝ᵥ dx l.T

/-- Twice its quadratic part. -/
def curv (l : Local K n nu) (dx : ℕ → Fin n → K) (du : ∀ t, Fin (nu t) → K) : K :=
  (∑ t ∈ Finset.range l.T, (dx t ⬝ᵥ ((l.d t).Lxx *ᵥ dx t) + 2 * (dx t ⬝ᵥ ((l.d t).Lxu *ᵥ du t))
      + du t ⬝ᵥ ((l.d t).Luu *ᵥ du t))) + dx l.T ⬝ᵥ (l.LxxT *ᵥ dx l.T)

/-- Convex local costs, strictly in the controls. -/
structure ConvexLocal [LinearOrder K] (l : Local K n nu) : Prop where
  node : ∀ t < l.T, Convex (l.d t)
  pd : ∀ t < l.T, ∀ v, v ≠ 0 → 0 < v ⬝ᵥ ((l.d t).Luu *ᵥ v)
  symm : l.LxxTᵀ = l.LxxT
  term : ∀ v, 0 ≤ v ⬝ᵥ (l.LxxT *ᵥ v)

/-- The candidate has no gaps. -/
structure NoGaps (l : Local K n nu) : Prop where
  init : l.xs 0 = l.x0
  step : ∀ t < l.T, l.xs (t + 1) = l.xnext t

/-- The candidate is feasible and stationary: the gradient of the Lagrangian vanishes for some multipliers. -/
def FirstOrder (l : Local K n nu) : Prop :=
  NoGaps l ∧ ∃ lam : ℕ → Fin n → K,
    (∀ t < l.T, (l.d t).Lx + lam t - (l.d t).Fxᵀ *ᵥ lam (t + 1) = 0) ∧
    (∀ t < l.T, (l.d t).Lu - (l.d t).Fuᵀ *ᵥ lam (t + 1) = 0) ∧ l.LxT + lam l.T = 0

/-- The linear solver solves every nonsingular system (exact arithmetic). Nothing is asked for singular ones. -/
def LuSound (lu : ℕ → (ℕ → ℕ → K) → (ℕ → K) → ℕ → K) : Prop :=
  ∀ N A b, (∀ z : ℕ → K, (∀ i < N, ∑ j ∈ Finset.range N, A i j * z j = 0) → ∀ j < N, z j = 0) →
    ∀ i < N, ∑ j ∈ Finset.range N, A i j * lu N A b j = b i

end Verif.Kkt
