import Verif.Model.Nl
import Mathlib.Algebra.Module.Equiv.Defs

/-!
# Specification: two descriptions of the same problem

A change of description consists of a map of the states, linear changes of coordinates of the tangent vectors and
of the controls of each node, a factor of the costs and a constant added to the cost of each node.
-/

namespace Verif.Solve
open Verif Verif.Solver

/-- A change of description: factor of the costs, constants added to the running costs and to the terminal cost,
map of states, of tangent vectors, of the controls of each node. -/
structure Change (K X DX U X' DX' U' : Type) [Field K] [AddCommGroup DX] [Module K DX] [AddCommGroup U] [Module K U]
    [AddCommGroup DX'] [Module K DX'] [AddCommGroup U'] [Module K U'] where
  lam : K
  sig : Nat → K
  sigT : K
  x : X → X'
  dx : DX ≃ₗ[K] DX'
  u : Nat → U ≃ₗ[K] U'

section
variable {K X DX U L D X' DX' U' L' D' : Type}
variable [Field K] [AddCommGroup DX] [Module K DX] [AddCommGroup U] [Module K U]
variable [AddCommGroup DX'] [Module K DX'] [AddCommGroup U'] [Module K U']

/-- The constants added to the costs of the first `t` nodes. -/
def Change.off (F : Change K X DX U X' DX' U') : Nat → K
  | 0 => 0
  | t + 1 => F.off t + F.sig t

/-- The constants added to the costs of a problem with `T` nodes. -/
def Change.total (F : Change K X DX U X' DX' U') (T : Nat) : K := F.off T + F.sigT

/-- `P'` is the problem `P` described anew: the same dynamics, state space, limits and initial state in the new
coordinates, and every cost multiplied by the factor and shifted by the constant. -/
structure SameProb (F : Change K X DX U X' DX' U') (P : Prob K X DX U) (P' : Prob K X' DX' U') : Prop where
  T : P'.T = P.T
  nuZero : ∀ t, (P'.node t).nuZero = (P.node t).nuZero
  next : ∀ t x u, ((P'.node t).eval (F.x x) (F.u t u)).1 = F.x ((P.node t).eval x u).1
  cost : ∀ t x u, ((P'.node t).eval (F.x x) (F.u t u)).2 = F.lam * ((P.node t).eval x u).2 + F.sig t
  nextT : ∀ t x, (P.node t).nuZero = true → ((P'.node t).evalT (F.x x)).1 = F.x ((P.node t).evalT x).1
  costT : ∀ t x, (P.node t).nuZero = true →
    ((P'.node t).evalT (F.x x)).2 = F.lam * ((P.node t).evalT x).2 + F.sig t
  diff : ∀ t x y, (P'.node t).diff (F.x x) (F.x y) = F.dx ((P.node t).diff x y)
  integ : ∀ t x d, (P'.node t).integ (F.x x) (F.dx d) = F.x ((P.node t).integ x d)
  clamp : ∀ t u, (P'.node t).clamp (F.u t u) = F.u t ((P.node t).clamp u)
  tcost : ∀ x, P'.tcost (F.x x) = F.lam * P.tcost x + F.sigT
  tinteg : ∀ x d, P'.tinteg (F.x x) (F.dx d) = F.x (P.tinteg x d)
  x0 : P'.x0 = F.x P.x0

/-- The parameters of the solver that are compared with costs, gradients and Hessians, multiplied by the factor
of the costs: stopping and gradient thresholds and the limits of the regularisation. -/
def Cfg.scale (lam : K) (c : Cfg K) : Cfg K :=
  { c with thStop := lam * c.thStop, thGrad := lam * c.thGrad,
           reg := { c.reg with min := lam * c.reg.min, max := lam * c.reg.max } }

/-- The state of the solver in the new description; `tau` is what was added to the cost of the trial so far, `T`
the horizon. -/
def St.map (F : Change K X DX U X' DX' U') (fL : L → L') (fD : D → D') (T : Nat) (tau : K)
    (s : St K X DX U L D) : St K X' DX' U' L' D' where
  xs := fun t => F.x (s.xs t)
  us := fun t => F.u t (s.us t)
  xsTry := fun t => F.x (s.xsTry t)
  usTry := fun t => F.u t (s.usTry t)
  datas := fun t => (F.x (s.datas t).1, F.lam * (s.datas t).2 + F.sig t)
  tdata := F.lam * s.tdata + F.sigT
  fs := fun t => F.dx (s.fs t)
  k := fun t => F.u t (s.k t)
  gain := fun t dx => F.u t (s.gain t (F.dx.symm dx))
  lin := fL s.lin
  dir := fD s.dir
  feas := s.feas
  wasFeas := s.wasFeas
  cost := F.lam * s.cost + F.total T
  costTry := F.lam * s.costTry + tau
  dV := F.lam * s.dV
  dVexp := F.lam * s.dVexp
  d0 := F.lam * s.d0
  d1 := F.lam * s.d1
  stop := F.lam * s.stop
  steplength := s.steplength
  preg := F.lam * s.preg
  dreg := F.lam * s.dreg
  iter := s.iter
  xnext := F.x s.xnext
  recalc := s.recalc

/-- The derivatives, the backward pass, the predicted improvement and the tests for invalid numbers commute with
the change of description. `ok` is what is known of the derivatives of the problem (for instance that the Hessians
are symmetric). -/
structure SameOracle (F : Change K X DX U X' DX' U') (fL : L → L') (fD : D → D') (T : Nat) (ok : L → Prop)
    (O : Oracle K X DX U L D) (O' : Oracle K X' DX' U' L' D') : Prop where
  lin_ok : ∀ s, ok (O.linearise s)
  linearise : ∀ s tau, O'.linearise (s.map F fL fD T tau) = fL (O.linearise s)
  backward : ∀ s tau, ok s.lin → O'.backward (s.map F fL fD T tau) =
    ((O.backward s).1, fun t => F.u t ((O.backward s).2.1 t),
      fun t dx => F.u t ((O.backward s).2.2.1 t (F.dx.symm dx)), fD (O.backward s).2.2.2)
  updExp : ∀ s tau, O'.updExp (s.map F fL fD T tau) = fD (O.updExp s)
  expImp : ∀ s tau, O'.expImp (s.map F fL fD T tau) = (F.lam * (O.expImp s).1, F.lam * (O.expImp s).2)
  bad : ∀ t v, O'.bad (F.lam * v + F.off t) = O.bad v
  badT : ∀ v, O'.bad (F.lam * v + F.total T) = O.bad v
  badX : ∀ x, O'.badX (F.x x) = O.badX x

/-- The same result in the two descriptions, at the nodes of the problem: candidate, cost, gaps, regularisation,
number of iterations. -/
structure SameRun (F : Change K X DX U X' DX' U') (P : Prob K X DX U) (s : St K X DX U L D)
    (s' : St K X' DX' U' L' D') : Prop where
  xs : ∀ t ≤ P.T, s'.xs t = F.x (s.xs t)
  us : ∀ t < P.T, (P.node t).nuZero = false → s'.us t = F.u t (s.us t)
  feas : s'.feas = s.feas
  cost : s'.cost = F.lam * s.cost + F.total P.T
  fs : ∀ t ≤ P.T, s'.fs t = F.dx (s.fs t)
  preg : s'.preg = F.lam * s.preg
  iter : s'.iter = s.iter
  steplength : s'.steplength = s.steplength
  stop : s'.stop = F.lam * s.stop

end
end Verif.Solve

namespace Verif.Nl
open Verif Verif.Solve Verif.Lq Matrix

variable {n m : Nat}

/-- `P'` is the nonlinear problem `P` in the coordinates `S x` of the state and `W t u` of the controls of node `t`,
its costs multiplied by `lam` and shifted by the constants `sig t` and `sigT`. -/
structure SameNl (lam : ℝ) (sig : Nat → ℝ) (sigT : ℝ) (S : Matrix (Fin n) (Fin n) ℝ)
    (W : Nat → Matrix (Fin m) (Fin m) ℝ) (P P' : NlProb n m) : Prop where
  T : P'.T = P.T
  next : ∀ t x u, P'.next t (S *ᵥ x) (W t *ᵥ u) = S *ᵥ P.next t x u
  cost : ∀ t x u, P'.cost t (S *ᵥ x) (W t *ᵥ u) = lam * P.cost t x u + sig t
  costT : ∀ x, P'.costT (S *ᵥ x) = lam * P.costT x + sigT
  x0 : P'.x0 = S *ᵥ P.x0

/-- The derivatives of a node in the new description: those of `S f(Sᵀ x', Wᵀ u')` and of `lam ℓ(Sᵀ x', Wᵀ u')`. -/
def changeDerivs (lam : ℝ) (S : Matrix (Fin n) (Fin n) ℝ) (W : Matrix (Fin m) (Fin m) ℝ) (d : Derivs ℝ n m) :
    Derivs ℝ n m where
  Fx := S * d.Fx * Sᵀ
  Fu := S * d.Fu * Wᵀ
  Lx := lam • (S *ᵥ d.Lx)
  Lu := lam • (W *ᵥ d.Lu)
  Lxx := lam • (S * d.Lxx * Sᵀ)
  Lxu := lam • (S * d.Lxu * Wᵀ)
  Luu := lam • (W * d.Luu * Wᵀ)

/-- The derivatives of the problem in the new description. -/
def changeLin (lam : ℝ) (S : Matrix (Fin n) (Fin n) ℝ) (W : Nat → Matrix (Fin m) (Fin m) ℝ) (l : Lin ℝ n m) :
    Lin ℝ n m where
  d := fun t => changeDerivs lam S (W t) (l.d t)
  LxT := lam • (S *ᵥ l.LxT)
  LxxT := lam • (S * l.LxxT * Sᵀ)

end Verif.Nl
