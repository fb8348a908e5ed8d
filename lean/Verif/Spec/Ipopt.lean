import Verif.Model.Ipopt
import Mathlib.Analysis.Calculus.Deriv.Basic

/-!
# Specification: variables, constraints and sparse matrices
-/

namespace Verif.Ipopt.Spec

variable {K X : Type*}

/-- A decision variable: component `j` of the state increment of node `t`, or of its control. -/
inductive Slot
  | state (t j : ℕ)
  | ctrl (t j : ℕ)

/-- The variables the problem has. -/
def Slot.Valid (P : Prob) : Slot → Prop
  | .state t j => t ≤ P.T ∧ j < P.ndx t
  | .ctrl t j => t < P.T ∧ j < P.nu t

/-- Where the variables of node `t` begin. -/
def start (P : Prob) (t : ℕ) : ℕ := ∑ s ∈ Finset.range t, (P.ndx s + P.nu s)

/-- The place of a variable: nodes in order, the state increment before the control. -/
def Slot.index (P : Prob) : Slot → ℕ
  | .state t j => start P t + j
  | .ctrl t j => start P t + P.ndx t + j

/-- A scalar constraint: component `r` of the dynamics of node `t`, or of the initial condition. -/
inductive Con
  | dyn (t r : ℕ)
  | init (r : ℕ)

def Con.Valid (P : Prob) : Con → Prop
  | .dyn t r => t < P.T ∧ r < P.ndx t
  | .init r => r < P.ndx 0

/-- Where the constraints of node `t` begin. -/
def rowStart (P : Prob) (t : ℕ) : ℕ := ∑ s ∈ Finset.range t, P.ndx s

/-- The place of a constraint. -/
def Con.row (P : Prob) : Con → ℕ
  | .dyn t r => rowStart P t + r
  | .init r => rowStart P P.T + r

/-- The matrix that a list of triplets represents: entries at the same place add up, all others are
zero (Ipopt's triplet format). -/
def dense [AddCommMonoid K] (pos : List (ℕ × ℕ)) (vals : List K) (r c : ℕ) : K :=
  ((pos.zip vals).map fun e => if e.1 = (r, c) then e.2 else 0).sum

/-- The constraint Jacobian: the dynamics of node `t` depend on the state and control of node `t` and
on the state of node `t+1`; the initial condition on the state of node 0. -/
def jac [Zero K] (J : JacBlocks K) : Con → Slot → K
  | .dyn t r, .state s j => if s = t then J.dx t r j else if s = t + 1 then J.dxnext t r j else 0
  | .dyn t r, .ctrl s j => if s = t then J.u t r j else 0
  | .init r, .state s j => if s = 0 then J.ic r j else 0
  | .init _, .ctrl _ _ => 0

/-- The node of a variable. -/
def Slot.node : Slot → ℕ
  | .state t _ => t
  | .ctrl t _ => t

/-- The Hessian of a sum of node costs from its blocks (the block of control and state is the
transpose of `dxu`). -/
def hess [Zero K] (H : HessBlocks K) : Slot → Slot → K
  | .state t i, .state s j => if s = t then H.dxdx t i j else 0
  | .ctrl t i, .state s j => if s = t then H.dxu t j i else 0
  | .state t i, .ctrl s j => if s = t then H.dxu t i j else 0
  | .ctrl t i, .ctrl s j => if s = t then H.uu t i j else 0

/-- What the derivatives of a node mean, without fixing the kind of state: `vel t γ s w` says that the
curve `γ` of states of node `t` has tangent velocity `w` at parameter `s`. -/
structure Exact (P : Prob) (vel : ℕ → (ℝ → X) → ℝ → (ℕ → ℝ) → Prop) {D : Type*} (N : Nodes ℝ X D)
    (ell : ℕ → X → (ℕ → ℝ) → ℝ) : Prop where
  /-- After `calc`, the cost is the node's cost function, whatever the data held. -/
  cost : ∀ t d x u, N.cost (N.eval t d x u) = ell t x u
  /-- After `calc` and `calcDiff`, `Lx` is the derivative of the cost along every curve. -/
  lx : ∀ t d x u γ s w, vel t γ s w → γ s = x →
    HasDerivAt (fun r => ell t (γ r) u) (∑ i ∈ Finset.range (P.ndx t), N.lx (N.diff t (N.eval t d x u) x u) i * w i) s
  /-- and `Lu` has the partial derivatives with respect to the control. -/
  lu : ∀ t d x u j, t < P.T → j < P.nu t →
    HasDerivAt (fun r => ell t x (Function.update u j r)) (N.lu (N.diff t (N.eval t d x u) x u) j) (u j)
  /-- Column `j` of `Jintegrate` is the velocity of moving component `j` of the increment. -/
  jint : ∀ t x dx j, j < P.ndx t →
    vel t (fun r => N.integrate t x (Function.update dx j r)) (dx j) (fun i => N.jint t x dx i j)
  /-- Only the components below the dimensions matter. -/
  integrate_congr : ∀ t x dx dx', (∀ j, j < P.ndx t → dx j = dx' j) → N.integrate t x dx = N.integrate t x dx'
  ell_congr : ∀ t x u u', (∀ j, t < P.T → j < P.nu t → u j = u' j) → ell t x u = ell t x u'

/-- The state of node `t` that the variables `x` stand for, around the guess `xs`. -/
def stateAt {D : Type*} (P : Prob) (N : Nodes K X D) (xs : ℕ → X) (x : ℕ → K) (t : ℕ) : X :=
  N.integrate t (xs t) fun j => x ((Slot.state t j).index P)

/-- The control of node `t` in the variables `x`. -/
def ctrlAt (P : Prob) (x : ℕ → K) (t : ℕ) : ℕ → K := fun j => x ((Slot.ctrl t j).index P)

/-- The total cost as a function of the variables. -/
def objective [AddCommMonoid K] {D : Type*} (P : Prob) (N : Nodes K X D) (ell : ℕ → X → (ℕ → K) → K) (xs : ℕ → X) (x : ℕ → K) : K :=
  ∑ t ∈ Finset.range (P.T + 1), ell t (stateAt P N xs x t) (ctrlAt P x t)

/-- The value of a constraint as a function of the variables: the difference from the next state
predicted by the dynamics to the next state, and from the first state to the initial one. -/
def constraint {D : Type*} (P : Prob) (N : Nodes K X D) (Dy : Dyn K X D) (f : ℕ → X → (ℕ → K) → X) (xs : ℕ → X) (x0 : X)
    (x : ℕ → K) : Con → K
  | .dyn t r => Dy.diff t (f t (stateAt P N xs x t) (ctrlAt P x t)) (stateAt P N xs x (t + 1)) r
  | .init r => Dy.diff 0 (stateAt P N xs x 0) x0 r

/-- What the derivatives of the dynamics and of the state difference mean (see `Exact`). -/
structure ExactDyn (P : Prob) (vel : ℕ → (ℝ → X) → ℝ → (ℕ → ℝ) → Prop) {D : Type*} (N : Nodes ℝ X D) (Dy : Dyn ℝ X D)
    (f : ℕ → X → (ℕ → ℝ) → X) : Prop where
  /-- After `calc`, the next state is the node's transition function, whatever the data held, and
  `calcDiff` keeps it. -/
  xnext : ∀ t d x u, Dy.xnext (N.eval t d x u) = f t x u
  xnext_diff : ∀ t d x u, Dy.xnext (N.diff t d x u) = Dy.xnext d
  /-- After `calc` and `calcDiff`, `Fx` maps velocities of the state to velocities of the next state, -/
  fx : ∀ t d x u γ s w, vel t γ s w → γ s = x →
    vel t (fun r => f t (γ r) u) s
      (fun i => ∑ k ∈ Finset.range (P.ndx t), Dy.fx (N.diff t (N.eval t d x u) x u) i k * w k)
  /-- and the columns of `Fu` are the velocities of moving one component of the control. -/
  fu : ∀ t d x u j, t < P.T → j < P.nu t →
    vel t (fun r => f t x (Function.update u j r)) (u j) (fun i => Dy.fu (N.diff t (N.eval t d x u) x u) i j)
  /-- `Jdiff` has the derivatives of the difference with respect to its two arguments. -/
  jdiff1 : ∀ t γ s w b i, vel t γ s w →
    HasDerivAt (fun r => Dy.diff t (γ r) b i) (∑ k ∈ Finset.range (P.ndx t), Dy.jdiff1 t (γ s) b i k * w k) s
  jdiff2 : ∀ t γ s w a i, vel (t + 1) γ s w →
    HasDerivAt (fun r => Dy.diff t a (γ r) i) (∑ k ∈ Finset.range (P.ndx (t + 1)), Dy.jdiff2 t a (γ s) i k * w k) s
  f_congr : ∀ t x u u', (∀ j, t < P.T → j < P.nu t → u j = u' j) → f t x u = f t x u'

/-- What the second derivatives of a node mean: after `calc` and `calcDiff` they are the derivatives of
the first derivatives (`d` and `d'` are the data held before the two evaluations). -/
structure Exact2 (P : Prob) (vel : ℕ → (ℝ → X) → ℝ → (ℕ → ℝ) → Prop) {D : Type*} (N : Nodes ℝ X D) : Prop where
  lx_congr : ∀ t d x u u' i, (∀ j, t < P.T → j < P.nu t → u j = u' j) →
    N.lx (N.diff t (N.eval t d x u) x u) i = N.lx (N.diff t (N.eval t d x u') x u') i
  lu_congr : ∀ t d x u u' i, (∀ j, t < P.T → j < P.nu t → u j = u' j) →
    N.lu (N.diff t (N.eval t d x u) x u) i = N.lu (N.diff t (N.eval t d x u') x u') i
  lxx : ∀ t d d' x u i γ s w, vel t γ s w → γ s = x →
    HasDerivAt (fun r => N.lx (N.diff t (N.eval t d (γ r) u) (γ r) u) i)
      (∑ k ∈ Finset.range (P.ndx t), N.lxx (N.diff t (N.eval t d' x u) x u) i k * w k) s
  lxu : ∀ t d d' x u i j, t < P.T → j < P.nu t →
    HasDerivAt (fun r => N.lx (N.diff t (N.eval t d x (Function.update u j r)) x (Function.update u j r)) i)
      (N.lxu (N.diff t (N.eval t d' x u) x u) i j) (u j)
  lux : ∀ t d d' x u j γ s w, t < P.T → j < P.nu t → vel t γ s w → γ s = x →
    HasDerivAt (fun r => N.lu (N.diff t (N.eval t d (γ r) u) (γ r) u) j)
      (∑ k ∈ Finset.range (P.ndx t), N.lxu (N.diff t (N.eval t d' x u) x u) k j * w k) s
  luu : ∀ t d d' x u i j, t < P.T → i < P.nu t → j < P.nu t →
    HasDerivAt (fun r => N.lu (N.diff t (N.eval t d x (Function.update u j r)) x (Function.update u j r)) i)
      (N.luu (N.diff t (N.eval t d' x u) x u) i j) (u j)

end Verif.Ipopt.Spec
