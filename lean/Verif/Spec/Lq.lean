import Verif.Model.Lq
import Mathlib.Algebra.BigOperators.Group.Finset.Basic

/-! # Specification vocabulary for linear-quadratic problems -/

namespace Verif.Lq
open Verif Matrix

/-- A linear-quadratic optimal-control problem: horizon, stage models, terminal model, initial state. -/
structure LqProb (K : Type) (n : Nat) (nu : Nat → Nat) where
  T : Nat
  node : ∀ t, Lqr K n (nu t)
  term : Lqr K n 0
  x0 : Fin n → K

variable {K : Type} [Field K] {n : Nat} {nu : Nat → Nat}

/-- The state trajectory driven by the controls `us` from state `x` at node `t0`: its value at node
`t0 + i`. -/
def traj (P : LqProb K n nu) (us : ∀ t, Fin (nu t) → K) (t0 : Nat) (x : Fin n → K) : Nat → Fin n → K
  | 0 => x
  | i + 1 => (P.node (t0 + i)).next (traj P us t0 x i) (us (t0 + i))

/-- The cost-to-go from state `x` at node `t0` under the controls `us`: the stage costs of the nodes
`t0, …, T-1` plus the terminal cost. -/
def costToGo (P : LqProb K n nu) (us : ∀ t, Fin (nu t) → K) (t0 : Nat) (x : Fin n → K) : K :=
  (∑ i ∈ Finset.range (P.T - t0), (P.node (t0 + i)).cost (traj P us t0 x i) (us (t0 + i)))
    + P.term.costT (traj P us t0 x (P.T - t0))

/-- The total cost of the trajectory driven by `us` from the initial state. -/
def total (P : LqProb K n nu) (us : ∀ t, Fin (nu t) → K) : K := costToGo P us 0 P.x0

/-- The gaps of a candidate: `xs[0]` against the initial state, `xs[t+1]` against the next state of node
`t`. -/
def gaps (P : LqProb K n nu) (xs : Nat → Fin n → K) (us : ∀ t, Fin (nu t) → K) : Nat → Fin n → K
  | 0 => P.x0 - xs 0
  | t + 1 => (P.node t).next (xs t) (us t) - xs (t + 1)

/-- The Hessian blocks on the diagonal are symmetric. -/
structure Symmetric (P : LqProb K n nu) : Prop where
  Q : ∀ t, (P.node t).Qᵀ = (P.node t).Q
  R : ∀ t, (P.node t).Rᵀ = (P.node t).R
  term : P.term.Qᵀ = P.term.Q

/-- The Cholesky test only accepts positive definite matrices. -/
def LltSound [LinearOrder K] (llt : ∀ m, Matrix (Fin m) (Fin m) K → Bool) : Prop :=
  ∀ m (M : Matrix (Fin m) (Fin m) K), Mᵀ = M → llt m M = true → ∀ v, v ≠ 0 → 0 < v ⬝ᵥ (M *ᵥ v)

/-- `xs`, `us` is what the closed-loop policy `u = us₀ - a k - K (x - xs₀)` around the candidate
`xs₀, us₀` produces from the initial state. -/
structure ClosedLoop (P : LqProb K n nu) (xs0 : Nat → Fin n → K) (us0 : ∀ t, Fin (nu t) → K)
    (g : Arrays K n nu) (a : K) (xs : Nat → Fin n → K) (us : ∀ t, Fin (nu t) → K) : Prop where
  init : xs 0 = P.x0
  control : ∀ t < P.T, us t = us0 t - a • (g.out t).k - (g.out t).Kfb *ᵥ (xs t - xs0 t)
  step : ∀ t < P.T, xs (t + 1) = (P.node t).next (xs t) (us t)

/-- `xs`, `us` is the trial of a feasibility-driven step of length `a` around the candidate `xs₀, us₀`: the
same policy, with every state short of the predicted one by the fraction `1 - a` of the candidate's gap. -/
structure Contracted (P : LqProb K n nu) (xs0 : Nat → Fin n → K) (us0 : ∀ t, Fin (nu t) → K)
    (g : Arrays K n nu) (a : K) (xs : Nat → Fin n → K) (us : ∀ t, Fin (nu t) → K) : Prop where
  init : xs 0 = P.x0 - (1 - a) • gaps P xs0 us0 0
  control : ∀ t < P.T, us t = us0 t - a • (g.out t).k - (g.out t).Kfb *ᵥ (xs t - xs0 t)
  step : ∀ t < P.T, xs (t + 1) = (P.node t).next (xs t) (us t) - (1 - a) • gaps P xs0 us0 (t + 1)

/-- The cost of a candidate, feasible or not: the stage costs at its states and controls plus the terminal
cost at its last state. -/
def costOf (P : LqProb K n nu) (xs : Nat → Fin n → K) (us : ∀ t, Fin (nu t) → K) : K :=
  (∑ t ∈ Finset.range P.T, (P.node t).cost (xs t) (us t)) + P.term.costT (xs P.T)

/-- The Cholesky test accepts every symmetric positive definite matrix. -/
def LltComplete [LinearOrder K] (llt : ∀ m, Matrix (Fin m) (Fin m) K → Bool) : Prop :=
  ∀ m (M : Matrix (Fin m) (Fin m) K), Mᵀ = M → (∀ v, v ≠ 0 → 0 < v ⬝ᵥ (M *ᵥ v)) → llt m M = true

/-- The Hessian of a stage cost is symmetric and positive semidefinite. -/
structure Convex [LinearOrder K] {m : Nat} (d : Derivs K n m) : Prop where
  Lxx : d.Lxxᵀ = d.Lxx
  Luu : d.Luuᵀ = d.Luu
  psd : ∀ x u, 0 ≤ x ⬝ᵥ (d.Lxx *ᵥ x) + 2 * (x ⬝ᵥ (d.Lxu *ᵥ u)) + u ⬝ᵥ (d.Luu *ᵥ u)

/-- Convex linear-quadratic problem: symmetric Hessians, positive semidefinite stage and terminal Hessians,
positive definite `R`. -/
structure ConvexLq [LinearOrder K] {m : Nat} (P : LqProb K n (fun _ => m)) : Prop where
  symm : Symmetric P
  psd : ∀ t x u, 0 ≤ x ⬝ᵥ ((P.node t).Q *ᵥ x) + 2 * (x ⬝ᵥ ((P.node t).N *ᵥ u)) + u ⬝ᵥ ((P.node t).R *ᵥ u)
  pd : ∀ t v, v ≠ 0 → 0 < v ⬝ᵥ ((P.node t).R *ᵥ v)
  term : ∀ v, 0 ≤ v ⬝ᵥ (P.term.Q *ᵥ v)

end Verif.Lq
