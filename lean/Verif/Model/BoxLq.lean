import Verif.Model.BoxQp
import Verif.Model.LqSolve

/-!
# BoxDDP and BoxFDDP on linear-quadratic problems with control limits

Files modelled: `/repo/src/core/solvers/box-ddp.cpp` L67-110, L134-136 and `/repo/src/core/solvers/box-fddp.cpp` L67-100,
L124-127, L162-165, on top of the backward pass of `Model/Lq.lean` (ddp.cpp L212-251), the box QP of `Model/BoxQp.lean` and the
solve loop of `Model/Solve.lean`. Every node has `m` controls, the dimension the solver's box QP was built with.
-/

namespace Verif.Lq
open Verif Verif.Solve Verif.BoxQp Matrix

/-- Control limits of the running models: `get_has_control_limits()`, `get_u_lb()`, `get_u_ub()`. -/
structure CtrlLimits (K : Type) (m : Nat) where
  has : Nat → Bool
  lb : Nat → Fin m → K
  ub : Nat → Fin m → K

/-- What the backward pass leaves: the arrays, the solution stored in the box QP; `conv` tells whether all box QPs of the pass ended
on their convergence test (not stored in the code). -/
structure BoxDir (K : Type) (n m : Nat) where
  arr : Arrays K n (fun _ => m)
  sol : Sol K m
  conv : Bool

section
variable {K : Type} [Field K] [LinearOrder K] {n m : Nat}

/-- The boxed branch of `computeGains` (box-ddp.cpp L78-107, box-fddp.cpp L77-98) with its place in the body of the loop of
`backwardPass` (ddp.cpp L233-241): the projected `Qu` replaces `Qu` before the value function is computed. `k` is the warm
start `k_[t]`. -/
noncomputable def boxNode (fac : Fac K) (p : Params K) (preg : Option K) (feas : Bool) (lb ub us : Fin m → K) (d : Derivs K n m)
    (V : Value K n) (f : Fin n → K) (k : Fin m → K) (s : Sol K m) : Option (NodeOut K n m × Sol K m × Bool) :=
  let Q := actionValue preg d V
  match boxGains fac p Q lb ub us k s with
  | none => none
  | some (k', Kfb, Qu, s') =>
    let Q' := { Q with Qu := Qu }
    some (⟨Q', k', Kfb, computeValue preg feas Q' Kfb f⟩, s',
      ((BoxQp.solve fac p Q.Quu Q.Qu (lb - us) (ub - us) k s).map (·.2)).getD false)

/-- The loop of `backwardPass`, ddp.cpp L229-250, with `computeGains` of the box solvers: nodes without limits, and all nodes
of an infeasible candidate, use the gains of DDP (box-ddp.cpp L71-76, box-fddp.cpp L70-75). -/
noncomputable def boxBackLoop (llt : ∀ m, Matrix (Fin m) (Fin m) K → Bool) (fac : Fac K) (p : Params K)
    (lim : CtrlLimits K m) (us : Nat → Fin m → K) (preg : Option K) (feas : Bool) (d : Nat → Derivs K n m)
    (f : Nat → Fin n → K) : Nat → BoxDir K n m → Option (BoxDir K n m)
  | 0, s => some s
  | t + 1, s =>
    if lim.has t = true ∧ feas = true ∧ 0 < m then
      match boxNode fac p preg feas (lim.lb t) (lim.ub t) (us t) (d t) (s.arr.V (t + 1)) (f t) (s.arr.out t).k s.sol with
      | none => none
      | some (o, s', c) =>
        boxBackLoop llt fac p lim us preg feas d f t
          ⟨⟨Function.update s.arr.V t o.V, Function.update s.arr.out t o⟩, s', s.conv && c⟩
    else
      match backNode llt preg feas (d t) (s.arr.V (t + 1)) (f t) with
      | none => none
      | some o =>
        boxBackLoop llt fac p lim us preg feas d f t
          { s with arr := ⟨Function.update s.arr.V t o.V, Function.update s.arr.out t o⟩ }

/-- `backwardPass` of the box solvers, on what earlier calls left. -/
noncomputable def boxBackward (llt : ∀ m, Matrix (Fin m) (Fin m) K → Bool) (fac : Fac K) (p : Params K)
    (lim : CtrlLimits K m) (us : Nat → Fin m → K) (preg : Option K) (feas : Bool) (T : Nat) (d : Nat → Derivs K n m)
    (LxT : Fin n → K) (LxxT : Matrix (Fin n) (Fin n) K) (f : Nat → Fin n → K) (s : BoxDir K n m) :
    Option (BoxDir K n m) :=
  boxBackLoop llt fac p lim us preg feas d f T
    { s with
      arr := { s.arr with V := Function.update s.arr.V T (termValue preg feas LxT LxxT (f T)) }
      conv := true }

/-- The shooting problem with control limits: the box solvers clamp the trial controls, `cwiseMax(u_lb).cwiseMin(u_ub)`
(box-ddp.cpp L134-136, box-fddp.cpp L124-127, L162-165). -/
def LqProb.toProbBox (P : LqProb K n (fun _ => m)) (lim : CtrlLimits K m) :
    Prob K (Fin n → K) (Fin n → K) (Fin m → K) :=
  { P.toProb with
    node := fun t => { P.toProb.node t with
      clamp := fun u => if lim.has t then fun i => min (max (u i) (lim.lb t i)) (lim.ub t i) else u } }

/-- The solver's calls to the derivatives, the backward pass and the expected improvement, as in `oracle`. -/
noncomputable def boxOracle (P : LqProb K n (fun _ => m)) (lim : CtrlLimits K m)
    (llt : ∀ m, Matrix (Fin m) (Fin m) K → Bool) (fac : Fac K) (p : Params K) (kind : Kind) :
    Oracle K (Fin n → K) (Fin n → K) (Fin m → K) (Lin K n m) (BoxDir K n m) where
  linearise := fun s =>
    { d := fun t => (P.node t).derivs (s.xs t) (s.us t)
      LxT := P.term.q + P.term.Q *ᵥ s.xs P.T
      LxxT := P.term.Q }
  backward := fun s =>
    match boxBackward llt fac p lim s.us (some s.preg) s.feas P.T s.lin.d s.lin.LxT s.lin.LxxT s.fs s.dir with
    | some g => (true, fun t => (g.arr.out t).k, fun t dx => (g.arr.out t).Kfb *ᵥ dx, g)
    | none => (false, s.k, s.gain, s.dir)
  updExp := fun s => s.dir
  expImp := fun s =>
    if kind.feasibilityDriven then
      expectedImprovementFddp P.T s.feas s.fs (fun t => s.xs t - s.xsTry t) s.dir.arr
    else expectedImprovement P.T s.dir.arr
  bad := fun _ => false
  badX := fun _ => false

end
end Verif.Lq
