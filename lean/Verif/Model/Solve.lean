import Verif.Cpp
import Verif.Model.SolverBase
import Mathlib.Algebra.Module.Defs

/-!
# Model of the DDP solver family: forward passes and `solve`

Files modelled: `/repo/src/core/solvers/ddp.cpp` L41-170, L198-301, `fddp.cpp` L23-266,
`box-ddp.cpp` L112-169, `box-fddp.cpp` L102-193.

Trajectories are functions of the node index (only indices up to `T` are used). The derivatives
(`problem_->calcDiff`), the backward pass and the expected improvement are arbitrary functions of the
solver state here, so the theorems hold for every linearisation, value function and gains; the real
backward pass is modelled in `Model/Lq.lean`. Scalars are exact; the tests `raiseIfNaN` are arbitrary
predicates. Callbacks only observe the solver.
-/

namespace Verif.Solve
open Verif Verif.Solver

/-- Update of one entry. -/
def upd {α : Type} (f : Nat → α) (i : Nat) (v : α) : Nat → α := fun j => if j = i then v else f j

/-- An action model as the solvers use it: `get_nu() == 0`, `calc(d, x, u)` and `calc(d, x)` (next state
and cost left in the data), the state's `diff` and `integrate`, and the clamping of the box solvers
(`cwiseMax(u_lb).cwiseMin(u_ub)` if `get_has_control_limits()`, identity otherwise). -/
structure Node (K X DX U : Type) where
  nuZero : Bool
  eval : X → U → X × K
  evalT : X → X × K
  diff : X → X → DX
  integ : X → DX → X
  clamp : U → U

/-- A shooting problem: horizon, running models, terminal model (`calc(d, x)` cost, `integrate`), initial
state. -/
structure Prob (K X DX U : Type) where
  T : Nat
  node : Nat → Node K X DX U
  tcost : X → K
  tdiff : X → X → DX
  tinteg : X → DX → X
  x0 : X

/-- Which solver. -/
inductive Kind where
  | ddp | boxDdp | fddp | boxFddp
deriving DecidableEq

/-- Solvers that clamp the trial controls. -/
def Kind.box : Kind → Bool
  | .boxDdp | .boxFddp => true
  | _ => false

/-- Solvers that use `SolverFDDP::solve`. -/
def Kind.feasibilityDriven : Kind → Bool
  | .fddp | .boxFddp => true
  | _ => false

/-- State of a solver. `lin` stands for the derivatives, `dir` for the value function and the other
results of the backward pass. -/
structure St (K X DX U L D : Type) where
  xs : Nat → X
  us : Nat → U
  xsTry : Nat → X
  usTry : Nat → U
  datas : Nat → X × K
  tdata : K
  fs : Nat → DX
  k : Nat → U
  gain : Nat → DX → U
  lin : L
  dir : D
  feas : Bool
  wasFeas : Bool
  cost : K
  costTry : K
  dV : K
  dVexp : K
  d0 : K
  d1 : K
  stop : K
  steplength : K
  preg : K
  dreg : K
  iter : Nat
  /-- `xnext_` -/
  xnext : X
  /-- local variable `recalcDiff` of `solve` -/
  recalc : Bool

/-- Parameters. -/
structure Cfg (K : Type) where
  alphas : List K
  thAcceptstep : K
  thAcceptnegstep : K
  thStop : K
  thGrad : K
  thStepdec : K
  thStepinc : K
  reg : Reg K

/-- The arbitrary parts. `backward` returns whether it succeeded (`false`: it threw) and what it left in
the gains and the value function. `bad`, `badX` are the `raiseIfNaN` tests. -/
structure Oracle (K X DX U L D : Type) where
  linearise : St K X DX U L D → L
  backward : St K X DX U L D → Bool × (Nat → U) × (Nat → DX → U) × D
  updExp : St K X DX U L D → D
  expImp : St K X DX U L D → K × K
  bad : K → Bool
  badX : X → Bool

section
variable {K X DX U L D : Type}
variable [Field K] [LinearOrder K] [AddCommGroup DX] [Module K DX] [AddCommGroup U] [Module K U]
variable (P : Prob K X DX U) (c : Cfg K) (O : Oracle K X DX U L D) (kind : Kind)

/-- Evaluation of node `t` at the trial state `xs_try_[t]`: ddp.cpp L269-277, fddp.cpp L195-203 and
L235-243, box-ddp.cpp L133-143, box-fddp.cpp L126-137 and L158-170: the trial control is
`us - k*a - K*dx` (clamped by the box solvers); nodes without controls are evaluated by `calc(d, x)`. -/
def tryNode (a : K) (t : Nat) : Cpp (St K X DX U L D) Unit := fun s =>
  let m := P.node t
  let x := s.xsTry t
  let dx := m.diff (s.xs t) x
  if m.nuZero then .ok () { s with datas := upd s.datas t (m.evalT x) }
  else
    let u := s.us t - a • s.k t - s.gain t dx
    let u := if kind.box then m.clamp u else u
    .ok () { s with usTry := upd s.usTry t u, datas := upd s.datas t (m.eval x u) }

/-- Body of the loop of `forwardPass`: ddp.cpp L265-289; fddp.cpp L188-213 and L227-253; box-ddp.cpp
L124-154; box-fddp.cpp L117-146 and L156-180. In FDDP's gap-contracting branch the trial state is
`integrate(xnext, fs*(a-1))`. -/
def fwdBody (a : K) (contract : Bool) (t : Nat) : Cpp (St K X DX U L D) Unit := do
  match kind with
  | .ddp => pure ()
  | _ => Cpp.modify fun s =>
      let x := if contract then (P.node t).integ s.xnext ((a - 1) • s.fs t) else s.xnext
      { s with xsTry := upd s.xsTry t x }
  tryNode P kind a t
  Cpp.modify fun s => match kind with
    | .ddp => { s with xsTry := upd s.xsTry (t + 1) (s.datas t).1, costTry := s.costTry + (s.datas t).2 }
    | _ => { s with xnext := (s.datas t).1, costTry := s.costTry + (s.datas t).2 }
  let s ← Cpp.get
  Cpp.throwIf (O.bad s.costTry)
  Cpp.throwIf (O.badX (s.datas t).1)

/-- Terminal part of `forwardPass`: ddp.cpp L291-300; fddp.cpp L215-225 and L255-264; box-ddp.cpp
L156-168; box-fddp.cpp L148-155 and L182-191. -/
def fwdTerm (a : K) (contract : Bool) : Cpp (St K X DX U L D) Unit := do
  match kind with
  | .ddp => pure ()
  | _ => Cpp.modify fun s =>
      let x := if contract then P.tinteg s.xnext ((a - 1) • s.fs P.T) else s.xnext
      { s with xsTry := upd s.xsTry P.T x }
  Cpp.modify fun s =>
    { s with tdata := P.tcost (s.xsTry P.T), costTry := s.costTry + P.tcost (s.xsTry P.T) }
  let s ← Cpp.get
  Cpp.throwIf (O.bad s.costTry)

/-- `forwardPass(steplength)` of each solver. BoxDDP rolls the running nodes out exactly but contracts
the last gap (box-ddp.cpp L156-161). -/
def forwardPass (a : K) : Cpp (St K X DX U L D) Unit := do
  Cpp.throwIf (decide (a > 1) || decide (a < 0))
  let s ← Cpp.get
  let open_ := !s.feas && decide (a ≠ 1)
  Cpp.modify fun s => { s with costTry := 0, xnext := if kind = .ddp then s.xnext else P.x0 }
  Cpp.forLoop 0 P.T (fwdBody P O kind a (kind.feasibilityDriven && open_))
  fwdTerm P O kind a (decide (kind ≠ .ddp) && open_)

/-- `tryStep`, ddp.cpp L141-146: forward pass, then `dV_ = cost_ - cost_try_` (assigned in `solve`). -/
def tryStep (a : K) : Cpp (St K X DX U L D) Unit := do
  forwardPass P O kind a
  Cpp.modify fun s => { s with dV := s.cost - s.costTry }

/-- `problem_->calc(xs_, us_)`: every node by `calc(d, x, u)`, the terminal one by `calc(d, x)`
(shooting.hxx L142-175, see `Model/ShootingEval.lean`). -/
def problemCalc (s : St K X DX U L D) : St K X DX U L D :=
  { s with
    datas := fun t => (P.node t).eval (s.xs t) (s.us t)
    tdata := P.tcost (s.xs P.T) }

/-- Sum of `data->cost` over the running nodes, in node order (C04 proves the independence from the
order). -/
def sumTo (f : Nat → K) : Nat → K
  | 0 => 0
  | n + 1 => sumTo f n + f n

/-- `calcDiff`, ddp.cpp L198-210: the problem is evaluated only in iteration 0; otherwise the data left
by the last forward pass are used. `cost_` is the sum of the data's costs; the gaps are the differences
between the candidate states and the data's next states (solver-base.cpp L91-108). -/
def calcDiff (s : St K X DX U L D) : St K X DX U L D :=
  let s := if s.iter = 0 then problemCalc P s else s
  let s := { s with lin := O.linearise s }
  let s := { s with cost := sumTo (fun t => (s.datas t).2) P.T + s.tdata }
  { s with fs := fun t => match t with
      | 0 => (P.node 0).diff (s.xs 0) P.x0
      | t + 1 => (P.node t).diff (s.xs (t + 1)) (s.datas t).1 }

/-- `computeDirection(recalcDiff)`, ddp.cpp L132-139: the boolean is `false` if it threw. -/
def computeDirection (s : St K X DX U L D) : Bool × St K X DX U L D :=
  let s := if s.recalc then calcDiff P O s else s
  let r := O.backward s
  (r.1, { s with k := r.2.1, gain := r.2.2.1, dir := r.2.2.2 })

/-- `increaseRegularization`, ddp.cpp L398-404. -/
def increaseReg (s : St K X DX U L D) : St K X DX U L D :=
  { s with preg := increase c.reg s.preg, dreg := increase c.reg s.preg }

/-- `decreaseRegularization`, ddp.cpp L406-412. -/
def decreaseReg (s : St K X DX U L D) : St K X DX U L D :=
  { s with preg := decrease c.reg s.preg, dreg := decrease c.reg s.preg }

/-- The retry loop `while (true)`, ddp.cpp L65-78, fddp.cpp L47-60. `none`: not finished after `fuel`
rounds; `some (false, s)`: `solve` returns false from here. -/
def dirLoop : Nat → St K X DX U L D → Option (Bool × St K X DX U L D)
  | 0, _ => none
  | fuel + 1, s =>
    let r := computeDirection P O s
    if r.1 then some (true, r.2)
    else
      let s := increaseReg c { r.2 with recalc := false }
      if s.preg = c.reg.max then some (false, s) else dirLoop fuel s

/-- Installing the trial as the candidate, ddp.cpp L96-99, fddp.cpp L79-82. -/
def accept (s : St K X DX U L D) : St K X DX U L D :=
  { s with
    wasFeas := s.feas
    xs := s.xsTry
    us := s.usTry
    feas := if kind.feasibilityDriven then s.feas || decide (s.steplength = 1) else true
    cost := s.costTry
    recalc := true }

/-- Acceptance test, ddp.cpp L91-100 and fddp.cpp L76-96. -/
def accepts (s : St K X DX U L D) : Bool :=
  if kind.feasibilityDriven then
    if 0 ≤ s.dVexp then
      decide (|s.d0| < c.thGrad) || decide (s.dV > c.thAcceptstep * s.dVexp)
    else !s.feas && decide (s.dV > c.thAcceptnegstep * s.dVexp)
  else
    decide (0 ≤ s.dVexp) &&
      (decide (|s.d0| < c.thGrad) || !s.feas || decide (s.dV > c.thAcceptstep * s.dVexp))

/-- Evaluating one step length: ddp.cpp L82-89, fddp.cpp L66-74. `none`: `tryStep` threw; the state
keeps what it wrote. -/
def probe (a : K) (s : St K X DX U L D) : Option Unit × St K X DX U L D :=
  let s := { s with steplength := a }
  match tryStep P O kind a s with
  | .ok _ s =>
    let s := if kind.feasibilityDriven then { s with d0 := (O.expImp s).1, d1 := (O.expImp s).2 } else s
    (some (), { s with dVexp := a * (s.d0 + (1 / 2) * a * s.d1) })
  | .throw s => (none, s)
  | .ub => (none, s)

/-- The line search, ddp.cpp L82-103, fddp.cpp L66-98. -/
def lineSearch : List K → St K X DX U L D → St K X DX U L D
  | [], s => s
  | a :: as, s =>
    match probe P O kind a s with
    | (none, s) => lineSearch as s
    | (some _, s) => if accepts c kind s then accept kind s else lineSearch as s

/-- `stoppingCriteria`, ddp.cpp L148-155. -/
def stopping (s : St K X DX U L D) : St K X DX U L D := { s with stop := |s.d0 + (1 / 2) * s.d1| }

/-- Expected improvement before the line search: `expectedImprovement()` (ddp.cpp L79),
`updateExpectedImprovement()` (fddp.cpp L61). -/
def prepare (s : St K X DX U L D) : St K X DX U L D :=
  let s := if kind.feasibilityDriven then { s with dir := O.updExp s }
    else { s with d0 := (O.expImp s).1, d1 := (O.expImp s).2 }
  { s with recalc := false }

/-- How an iteration ends. -/
inductive Exit where
  /-- `return false` inside the iteration -/
  | giveUp
  /-- `return true` -/
  | converged
  | continue
deriving DecidableEq

/-- One iteration of `solve`, ddp.cpp L64-126, fddp.cpp L46-117. The second component tells whether the
callbacks were run. -/
def iteration (fuel : Nat) (s : St K X DX U L D) : Option (Exit × Bool × St K X DX U L D) :=
  match dirLoop P c O fuel s with
  | none => none
  | some (false, s) => some (.giveUp, false, s)
  | some (true, s) =>
    let s := lineSearch P c O kind c.alphas (prepare O kind s)
    let s := if s.steplength > c.thStepdec then decreaseReg c s else s
    let up := decide (s.steplength ≤ c.thStepinc)
    let s := if up then increaseReg c s else s
    if up && decide (s.preg = c.reg.max) then some (.giveUp, false, s)
    else
      let s := stopping s
      if s.wasFeas && decide (s.stop < c.thStop) then some (.converged, true, s)
      else some (.continue, true, s)

/-- Result of `solve`: returned value, final state, and the states seen by the callbacks. -/
structure Outcome (K X DX U L D : Type) where
  ret : Bool
  final : St K X DX U L D
  trace : List (St K X DX U L D)

/-- The loop `for (iter_ = 0; iter_ < maxiter; ++iter_)`, from the current `iter_` with `n` iterations
left. `none`: some retry loop did not end within `fuel` rounds. -/
def iterLoop (fuel : Nat) : Nat → St K X DX U L D → Option (Outcome K X DX U L D)
  | 0, s => some ⟨false, s, []⟩
  | n + 1, s =>
    match iteration P c O kind fuel s with
    | none => none
    | some (.giveUp, _, s) => some ⟨false, s, []⟩
    | some (.converged, _, s) => some ⟨true, s, [s]⟩
    | some (.continue, _, s) =>
      (iterLoop fuel n { s with iter := s.iter + 1 }).map fun o => { o with trace := s :: o.trace }

/-- Start of `solve`, ddp.cpp L46-62, fddp.cpp L28-44: candidate, regularisation, flags. The initial
candidate is given after `setCandidate` (C21); `regInit = none` is NaN. -/
def start (xs : Nat → X) (us : Nat → U) (feas : Bool) (regInit : Option K) (s : St K X DX U L D) :
    St K X DX U L D :=
  { s with
    xsTry := upd s.xsTry 0 P.x0
    xs := xs
    us := us
    feas := feas
    preg := regInit.getD c.reg.min
    dreg := regInit.getD c.reg.min
    wasFeas := false
    recalc := true
    iter := 0 }

/-- `solve(init_xs, init_us, maxiter, is_feasible, init_reg)`, ddp.cpp L41-130, fddp.cpp L23-121. -/
def solve (fuel maxiter : Nat) (xs : Nat → X) (us : Nat → U) (feas : Bool) (regInit : Option K)
    (s : St K X DX U L D) : Option (Outcome K X DX U L D) :=
  iterLoop P c O kind fuel maxiter (start P c xs us feas regInit s)

end

section box
variable {K : Type} [LinearOrder K]

/-- `update_has_control_limits`, action-base.hxx L242-246: some finite lower bound and some finite upper
bound. `none` is the infinite bound. -/
def hasLimits {n : Nat} (lb ub : Fin n → Option K) : Bool :=
  decide (∃ i, (lb i).isSome) && decide (∃ i, (ub i).isSome)

/-- Clamping of the trial control, box-ddp.cpp L137-139, box-fddp.cpp L132-134:
`cwiseMax(u_lb).cwiseMin(u_ub)` if `get_has_control_limits()`. -/
def clampBox {n : Nat} (lb ub : Fin n → Option K) (u : Fin n → K) : Fin n → K :=
  if hasLimits lb ub then fun i =>
    let v := match lb i with | some l => max (u i) l | none => u i
    match ub i with | some h => min v h | none => v
  else u

end box
end Verif.Solve
