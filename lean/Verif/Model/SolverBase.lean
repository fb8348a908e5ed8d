import Verif.Cpp
import Verif.Flt
import Mathlib.Algebra.Order.Field.Basic
import Mathlib.Algebra.Order.Group.Unbundled.Abs

/-!
# Model of `SolverAbstract`: feasibility measures, candidate, parameters

Files modelled: `/repo/src/core/solver-base.cpp`; the parameter setters of
`/repo/src/core/solvers/ddp.cpp`, `fddp.cpp`, `intro.cpp`, `box-qp.cpp`.
-/

namespace Verif.Solver
open Verif

/-! ### Feasibility measures -/

section feas
variable {K X : Type} [Field K] [LinearOrder K]

/-- `FeasibilityNorm`, solver-base.hpp. -/
inductive Norm where
  | linf | l1
deriving DecidableEq

/-- `v.lpNorm<Eigen::Infinity>()` (0 for an empty vector). -/
def lpInf (v : List K) : K := (v.map abs).foldl max 0

/-- `v.lpNorm<1>()`. -/
def lp1 (v : List K) : K := (v.map abs).foldl (· + ·) 0

/-- The gaps written to `fs_` by `computeDynamicFeasibility`, solver-base.cpp L100-110: `fs_[0]` is
the difference from `xs_[0]` to the initial state, `fs_[t+1]` from `xs_[t+1]` to the next state of node
`t`. The node's `diff` is a parameter. The loop is parallel over independent entries. -/
def gaps (diff : X → X → List K) (x0 : X) (xs xnexts : List X) : Option (List (List K)) :=
  match xs with
  | x :: xs => some (diff x x0 :: List.zipWith diff xs xnexts)
  | [] => none

/-- `computeDynamicFeasibility`, solver-base.cpp L91-124. `models[0]` is read, so an empty horizon is
undefined behaviour (`none`). -/
def dynFeas (n : Norm) (diff : X → X → List K) (x0 : X) (xs xnexts : List X) : Option K := do
  if xnexts.length = 0 then none
  let fs ← gaps diff x0 xs xnexts
  match fs with
  | [] => none
  | f0 :: fs =>
    match n with
    | .linf => some (fs.foldl (fun a f => max a (lpInf f)) (max 0 (lpInf f0)))
    | .l1 => some (fs.foldl (fun a f => a + lp1 f) (lp1 f0))

/-- `computeEqualityFeasibility`, solver-base.cpp L177-210. `hs` are the equality residuals of the
running nodes (empty when `get_nh() = 0`), `hT` that of the terminal node. -/
def eqFeas (n : Norm) (hs : List (List K)) (hT : List K) : K :=
  match n with
  | .linf =>
    let r := hs.foldl (fun a h => if 0 < h.length then max a (lpInf h) else a) 0
    if 0 < hT.length then max r (lpInf hT) else r
  | .l1 =>
    let r := hs.foldl (fun a h => if 0 < h.length then a + lp1 h else a) 0
    if 0 < hT.length then r + lp1 hT else r

/-- Inequality constraints of a node: values and bounds. A bound `none` is infinite (`-inf` in the
lower, `+inf` in the upper vector). -/
structure Ineq (K : Type) where
  g : List K
  lb : List (Option K)
  ub : List (Option K)

/-- `cwiseMax(lb)` on one entry. -/
def clampLo (v : K) : Option K → K
  | none => v
  | some l => max v l

/-- `cwiseMin(ub)` on one entry. -/
def clampHi (v : K) : Option K → K
  | none => v
  | some u => min v u

/-- `g_adj_`, solver-base.cpp L138-140: `g.cwiseMax(lb).cwiseMin(ub)`. -/
def Ineq.adj (c : Ineq K) : List K :=
  List.zipWith clampHi (List.zipWith clampLo c.g c.lb) c.ub

/-- `g - g_adj_`. -/
def Ineq.viol (c : Ineq K) : List K := List.zipWith (· - ·) c.g c.adj

/-- `computeInequalityFeasibility`, solver-base.cpp L126-175: as written, the LInf branch *adds* the
terminal term (L152) and the L1 branch takes the *maximum* over running nodes (L162-163). -/
def ineqFeas (n : Norm) (cs : List (Ineq K)) (cT : Ineq K) : K :=
  match n with
  | .linf =>
    let r := cs.foldl (fun a c => if 0 < c.g.length then max a (lpInf c.viol) else a) 0
    if 0 < cT.g.length then r + lpInf cT.viol else r
  | .l1 =>
    let r := cs.foldl (fun a c => if 0 < c.g.length then max a (lp1 c.viol) else a) 0
    if 0 < cT.g.length then r + lp1 cT.viol else r

end feas

/-! ### The candidate -/

/-- A node as `setCandidate` sees it: sizes and the zero state. -/
structure Dims (K : Type) where
  nx : Nat
  nu : Nat
  zero : List K

/-- The candidate: `xs_`, `us_`, `is_feasible_`. -/
structure Cand (K : Type) where
  xs : List (List K)
  us : List (List K)
  feas : Bool
deriving DecidableEq, Repr

/-- First half of `setCandidate`, solver-base.cpp L216-251: the states. `xs_` was sized by `resizeData`;
writing past its end (possible after the problem grew) is undefined behaviour. `xs_.back()` is the last
entry of `xs_`; `std::copy` overwrites the first entries. -/
def candXs {K : Type} (models : List (Dims K)) (term : Dims K) (xsW : List (List K)) :
    Cpp (Cand K) Unit := fun c =>
  let T := models.length
  if xsW.length = 0 then
    if c.xs.length < T ∨ c.xs.length = 0 then .ub
    else .ok () { c with xs := (models.map Dims.zero ++ c.xs.drop T).dropLast ++ [term.zero] }
  else if xsW.length ≠ T + 1 then .throw c
  else if (xsW.zip models).any fun p => p.1.length != p.2.nx then .throw c
  else if (xsW[T]?.map List.length) ≠ some term.nx then .throw c
  else if c.xs.length < T + 1 then .ub
  else .ok () { c with xs := xsW ++ c.xs.drop (T + 1) }

/-- Second half of `setCandidate`, solver-base.cpp L253-280: the controls. -/
def candUs {K : Type} [Zero K] (models : List (Dims K)) (usW : List (List K)) :
    Cpp (Cand K) Unit := fun c =>
  let T := models.length
  if usW.length = 0 then
    if c.us.length < T then .ub
    else .ok () { c with us := (models.map fun m => List.replicate m.nu 0) ++ c.us.drop T }
  else if usW.length ≠ T then .throw c
  else if (usW.zip models).any fun p => p.1.length != p.2.nu then .throw c
  else if c.us.length < T then .ub
  else .ok () { c with us := usW ++ c.us.drop T }

/-- `setCandidate`, solver-base.cpp L212-282. -/
def setCandidate {K : Type} [Zero K] (models : List (Dims K)) (term : Dims K)
    (xsW usW : List (List K)) (feas : Bool) : Cpp (Cand K) Unit := do
  candXs models term xsW
  candUs models usW
  Cpp.modify fun c => { c with feas := feas }

/-- `set_xs`, solver-base.cpp L368-392 (`nx` of the problem for all nodes). -/
def setXs {K : Type} (T nx : Nat) (xs : List (List K)) : Cpp (Cand K) Unit := do
  Cpp.throwIf (xs.length != T + 1)
  Cpp.throwIf ((xs.take T).any fun x => x.length != nx)
  Cpp.throwIf ((xs[T]?.map List.length) != some nx)
  Cpp.modify fun c => { c with xs := xs }

/-- `set_us`, solver-base.cpp L394-414. -/
def setUs {K : Type} (models : List (Dims K)) (us : List (List K)) : Cpp (Cand K) Unit := do
  Cpp.throwIf (us.length != models.length)
  Cpp.throwIf ((us.zip models).any fun p => p.1.length != p.2.nu)
  Cpp.modify fun c => { c with us := us }

/-! ### Parameters -/

/-- The scalar parameters with a public setter. -/
inductive Param where
  | preg | dreg | thAcceptstep | thStop | thGaptol
  | regInc | regDec | regMin | regMax | thStepdec | thStepinc | thGrad
  | thAcceptnegstep | rho
  | qpThAcceptstep | qpThGrad | qpReg
deriving DecidableEq, Repr

/-- The lists of step lengths: of the DDP family and of the box QP. -/
inductive AlphaOwner where
  | ddp | qp
deriving DecidableEq, Repr

/-- All parameters of a solver (with its box QP). -/
structure Params (K : Type) where
  val : Param → Flt K
  alphas : AlphaOwner → List (Flt K)

section params
variable {K : Type} [Field K] [LinearOrder K]

/-- The condition under which the setter of a parameter throws, verbatim: solver-base.cpp
`set_preg` L417, `set_dreg` L424, `set_th_acceptstep` L451, `set_th_stop` L459, `set_th_gaptol` L466;
ddp.cpp `set_reg_incfactor` L514, `set_reg_decfactor` L522, `set_reg_min` L538, `set_reg_max` L552,
`set_th_stepdec` L585, `set_th_stepinc` L593, `set_th_grad` L601; fddp.cpp `set_th_acceptnegstep`
L270; intro.cpp `set_rho` L449; box-qp.cpp `set_th_acceptstep` L219, `set_th_grad` L227, `set_reg`
L234. (`set_regmin`, `set_regmax`, `set_xreg`, `set_ureg` have the same guards.) -/
def rejects : Param → Flt K → Bool
  | .preg, v => v.ltb (.fin 0)
  | .dreg, v => v.ltb (.fin 0)
  | .thAcceptstep, v => v.leb (.fin 0) || (Flt.fin 1).ltb v
  | .thStop, v => v.leb (.fin 0)
  | .thGaptol, v => v.ltb (.fin 0)
  | .regInc, v => v.leb (.fin 1)
  | .regDec, v => v.leb (.fin 1)
  | .regMin, v => v.ltb (.fin 0)
  | .regMax, v => v.ltb (.fin 0)
  | .thStepdec, v => v.leb (.fin 0) || (Flt.fin 1).ltb v
  | .thStepinc, v => v.leb (.fin 0) || (Flt.fin 1).ltb v
  | .thGrad, v => v.ltb (.fin 0)
  | .thAcceptnegstep, v => v.ltb (.fin 0)
  | .rho, v => v.leb (.fin 0) || (Flt.fin 1).ltb v
  | .qpThAcceptstep, v => v.leb (.fin 0) && (Flt.fin (1 / 2)).leb v
  | .qpThGrad, v => v.ltb (.fin 0)
  | .qpReg, v => v.ltb (.fin 0)

/-- A scalar setter. -/
def setParam (p : Param) (v : Flt K) : Cpp (Params K) Unit := do
  Cpp.throwIf (rejects p v)
  Cpp.modify fun s => { s with val := fun q => if q = p then v else s.val q }

/-- `set_regfactor`, ddp.cpp L530-536: both factors. -/
def setRegfactor (v : Flt K) : Cpp (Params K) Unit := do
  Cpp.throwIf (v.leb (.fin 1))
  setParam .regInc v
  setParam .regDec v

/-- Loop of `set_alphas`, ddp.cpp L571-582, box-qp.cpp L246-257, from index 1 with the previous
value: `true` when it throws. -/
def alphasReject (prev : Flt K) : List (Flt K) → Bool
  | [] => false
  | a :: as => a.leb (.fin 0) || prev.leb a || alphasReject a as

/-- `set_alphas`, ddp.cpp L566-583, box-qp.cpp L241-258: `alphas[0]` of an empty vector is undefined
behaviour; the first value is only warned about. -/
def setAlphas (o : AlphaOwner) (as : List (Flt K)) : Cpp (Params K) Unit :=
  match as with
  | [] => Cpp.ub
  | a :: rest => do
    Cpp.throwIf (alphasReject a rest)
    Cpp.modify fun s => { s with alphas := fun q => if q = o then as else s.alphas q }

/-- The public setters. -/
inductive SetOp (K : Type) where
  | scalar (p : Param) (v : Flt K)
  | regfactor (v : Flt K)
  | alphas (o : AlphaOwner) (as : List (Flt K))

/-- Run one setter. -/
def SetOp.run : SetOp K → Cpp (Params K) Unit
  | .scalar p v => setParam p v
  | .regfactor v => setRegfactor v
  | .alphas o as => setAlphas o as

/-- State after one setter, exceptions caught by the client; `none` after undefined behaviour. -/
def SetOp.next (op : SetOp K) (s : Params K) : Option (Params K) :=
  match op.run s with
  | .ok _ s' => some s'
  | .throw s' => some s'
  | .ub => none

/-- State after a history of setter calls. -/
def runSets : List (SetOp K) → Params K → Option (Params K)
  | [], s => some s
  | op :: ops, s => (op.next s).bind (runSets ops)

/-- Constructor values: solver-base.cpp L41-46, ddp.cpp L15-31, fddp.cpp L19, intro.cpp L19, box-ddp.cpp
L15 with box-qp.cpp L15-62. -/
def Params.init : Params K where
  val
    | .preg => .fin 0
    | .dreg => .fin 0
    | .thAcceptstep => .fin (1 / 10)
    | .thStop => .fin (1 / 10 ^ 9)
    | .thGaptol => .fin (1 / 10 ^ 16)
    | .regInc => .fin 10
    | .regDec => .fin 10
    | .regMin => .fin (1 / 10 ^ 9)
    | .regMax => .fin (10 ^ 9)
    | .thStepdec => .fin (1 / 2)
    | .thStepinc => .fin (1 / 100)
    | .thGrad => .fin (1 / 10 ^ 12)
    | .thAcceptnegstep => .fin 2
    | .rho => .fin (3 / 10)
    | .qpThAcceptstep => .fin (1 / 10)
    | .qpThGrad => .fin (1 / 10 ^ 5)
    | .qpReg => .fin 0
  alphas _ := (List.range 10).map fun n => .fin (1 / 2 ^ n)

end params

/-! ### Regularisation -/

section reg
variable {K : Type} [Field K] [LinearOrder K]

/-- Regularisation parameters of `SolverDDP` (finite values). -/
structure Reg (K : Type) where
  inc : K
  dec : K
  min : K
  max : K

/-- `increaseRegularization`, ddp.cpp L398-404, on `preg_` (`dreg_` becomes equal to it). -/
def increase (r : Reg K) (preg : K) : K :=
  let p := preg * r.inc
  if p > r.max then r.max else p

/-- `decreaseRegularization`, ddp.cpp L406-412. -/
def decrease (r : Reg K) (preg : K) : K :=
  let p := preg / r.dec
  if p < r.min then r.min else p

end reg
end Verif.Solver
