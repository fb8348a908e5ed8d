import Verif.Model.BoxLq
import Verif.Model.Nl

/-! # Model: the box solvers on nonlinear problems with control limits -/

namespace Verif.Nl
open Verif Verif.Solve Verif.Lq Matrix

variable {n m : Nat}

/-- The shooting problem with control limits: the box solvers clamp the trial controls, `cwiseMax(u_lb).cwiseMin(u_ub)`
(box-ddp.cpp L134-136, box-fddp.cpp L124-127, L162-165). -/
noncomputable def NlProb.toProbBox (P : NlProb n m) (lim : CtrlLimits ℝ m) : Prob ℝ (Fin n → ℝ) (Fin n → ℝ) (Fin m → ℝ) :=
  { P.toProb with
    node := fun t => { P.toProb.node t with
      clamp := fun u => if lim.has t then fun i => min (max (u i) (lim.lb t i)) (lim.ub t i) else u } }

/-- The calls of the box solvers to the problem's derivatives (ddp.cpp L198-210), to `backwardPass` with the gains of
`computeGains` of the box solvers (ddp.cpp L212-251, box-ddp.cpp L67-110, box-fddp.cpp L67-100) and to `expectedImprovement` (ddp.cpp L157-170, fddp.cpp
L123-173), as in `Lq.boxOracle`. -/
noncomputable def boxOracleNl (P : NlProb n m) (lin : (Nat → Fin n → ℝ) → (Nat → Fin m → ℝ) → Lin ℝ n m) (lim : CtrlLimits ℝ m)
    (llt : ∀ m, Matrix (Fin m) (Fin m) ℝ → Bool) (fac : BoxQp.Fac ℝ) (p : BoxQp.Params ℝ) (kind : Kind) :
    Oracle ℝ (Fin n → ℝ) (Fin n → ℝ) (Fin m → ℝ) (Lin ℝ n m) (BoxDir ℝ n m) where
  linearise := fun s => lin s.xs s.us
  backward := fun s =>
    match boxBackward llt fac p lim s.us (some s.preg) s.feas P.T s.lin.d s.lin.LxT s.lin.LxxT s.fs s.dir with
    | some g => (true, fun t => (g.arr.out t).k, fun t dx => (g.arr.out t).Kfb *ᵥ dx, g)
    | none => (false, s.k, s.gain, s.dir)
  updExp := fun s => s.dir
  expImp := fun s =>
    if kind.feasibilityDriven then
      expectedImprovementFddp P.T s.feas s.fs (fun t => s.xs t - s.xsTry t) s.dir.arr
    else expectedImprovement P.T s.dir.arr
  bad := fun _ => false
  badX := fun _ => false

end Verif.Nl
