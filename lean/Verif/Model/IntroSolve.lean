import Verif.Model.Solve

/-!
# Model of `SolverIntro::solve`

Files modelled: `/repo/src/core/solvers/intro.cpp` L70-196, on top of the forward pass and the derivatives of
`SolverFDDP`/`SolverDDP` (`Model/Solve.lean`) and of the feasibility norms of `SolverAbstract`
(`Model/SolverBase.lean`).

The equality residuals `data->h` of the nodes are kept beside the base state. As in `Model/Solve.lean` the
derivatives, the backward pass (modelled in `Model/Intro.lean`) and the expected improvement are arbitrary functions of the
solver state. The profiler is not modelled. Scalars are exact; with `rho = 1`, which `set_rho` accepts, the division of the penalty update is by
zero, and the model's value of it is meaningless: theorems on the penalty assume `rho < 1`.
-/

namespace Verif.IntroSolve
open Verif Verif.Solver Verif.Solve

/-- The equality constraints of the nodes: `h` after `calc(d, x, u)`, after `calc(d, x)` (nodes without controls) and
of the terminal model. `junk`: what a forward pass that threw left in the data. -/
structure EqC (K X U S : Type) where
  h : Nat → X → U → List K
  hx : Nat → X → List K
  ht : X → List K
  junk : S → Nat → List K
  junkT : S → List K

/-- State of the solver: the base solver, the data's `h`, and the members of `SolverIntro`. -/
structure Ist (K X DX U L D : Type) where
  base : St K X DX U L D
  hd : Nat → List K
  htd : List K
  hfeas : K
  hfeasTry : K
  upsilon : K
  dfeas : K
  dPhi : K
  dPhiexp : K
  merit : K

/-- Parameters: those of the base, the norm, `th_feas_`, `rho_`, `zero_upsilon_`. -/
structure ICfg (K : Type) extends Cfg K where
  norm : Norm
  thFeas : K
  rho : K
  zeroUpsilon : Bool

section
variable {K X DX U L D : Type}
variable [Field K] [LinearOrder K] [AddCommGroup DX] [Module K DX] [AddCommGroup U] [Module K U]
variable (P : Prob K X DX U) (E : EqC K X U (St K X DX U L D)) (c : ICfg K) (O : Oracle K X DX U L D)

/-- `computeEqualityFeasibility()` on the data. -/
def dataFeas (s : Ist K X DX U L D) : K := eqFeas c.norm ((List.range P.T).map s.hd) s.htd

/-- `calcDiff`, ddp.cpp L198-210 with the part on `h`: in iteration 0 the problem is evaluated at the candidate, later
the data of the last forward pass are used. -/
def calcDiff (s : Ist K X DX U L D) : Ist K X DX U L D :=
  let s := if s.base.iter = 0 then
      { s with hd := fun t => E.h t (s.base.xs t) (s.base.us t), htd := E.ht (s.base.xs P.T) } else s
  let s := { s with base := Solve.calcDiff P O s.base }
  { s with hfeas := dataFeas P c s }

/-- `computeDirection(recalcDiff)`, ddp.cpp L132-139. -/
def computeDirection (s : Ist K X DX U L D) : Bool × Ist K X DX U L D :=
  let s := if s.base.recalc then calcDiff P E c O s else s
  let r := O.backward s.base
  (r.1, { s with base := { s.base with k := r.2.1, gain := r.2.2.1, dir := r.2.2.2 } })

/-- The retry loop, intro.cpp L96-109. -/
def dirLoop : Nat → Ist K X DX U L D → Option (Bool × Ist K X DX U L D)
  | 0, _ => none
  | fuel + 1, s =>
    let r := computeDirection P E c O s
    if r.1 then some (true, r.2)
    else
      let s := { r.2 with base := increaseReg c.toCfg { r.2.base with recalc := false } }
      if s.base.preg = c.reg.max then some (false, s) else dirLoop fuel s

/-- The penalty update, intro.cpp L116-119. -/
def penalty (s : Ist K X DX U L D) : K :=
  if s.hfeas ≠ 0 ∧ s.base.iter ≠ 0 then
    max s.upsilon ((s.base.d0 + (1 / 2) * s.base.d1) / ((1 - c.rho) * s.hfeas))
  else s.upsilon

/-- Between the direction and the line search, intro.cpp L110-122. -/
def prepare (s : Ist K X DX U L D) : Ist K X DX U L D :=
  let s := { s with base := { s.base with dir := O.updExp s.base } }
  let s := { s with base := { s.base with d0 := (O.expImp s.base).1, d1 := (O.expImp s.base).2 } }
  let s := { s with upsilon := penalty c s }
  { s with base := { s.base with recalc := false } }

/-- Evaluating one step length, intro.cpp L125-135, with `tryStep` (L187-191). -/
def probe (a : K) (s : Ist K X DX U L D) : Option Unit × Ist K X DX U L D :=
  match Solve.probe P O .fddp a s.base with
  | (none, b) => (none, { s with base := b, hd := E.junk b, htd := E.junkT b })
  | (some _, b) =>
    let s := { s with
      base := b
      hd := fun t => if (P.node t).nuZero then E.hx t (b.xsTry t) else E.h t (b.xsTry t) (b.usTry t)
      htd := E.ht (b.xsTry P.T) }
    let s := { s with hfeasTry := dataFeas P c s }
    let s := { s with dfeas := s.hfeas - s.hfeasTry }
    let s := { s with dPhi := s.base.dV + s.upsilon * s.dfeas }
    (some (), { s with dPhiexp := s.base.dVexp + a * s.upsilon * s.dfeas })

/-- Acceptance test, intro.cpp L136-137 and L146-148. -/
def accepts (s : Ist K X DX U L D) : Bool :=
  if 0 ≤ s.dPhiexp then
    decide (|s.base.d0| < c.thGrad) || decide (s.dPhi > c.thAcceptstep * s.dPhiexp)
  else decide (s.base.dV > c.thAcceptnegstep * s.base.dVexp)

/-- Installing the trial, intro.cpp L138-144 and L149-155. -/
def accept (s : Ist K X DX U L D) : Ist K X DX U L D :=
  let s := { s with base := Solve.accept .fddp s.base }
  let s := { s with hfeas := s.hfeasTry }
  { s with merit := s.base.cost + s.upsilon * s.hfeas }

/-- The line search, intro.cpp L123-158. -/
def lineSearch : List K → Ist K X DX U L D → Ist K X DX U L D
  | [], s => s
  | a :: as, s =>
    match probe P E c O a s with
    | (none, s) => lineSearch as s
    | (some _, s) => if accepts c s then accept s else lineSearch as s

/-- `stoppingCriteria`, intro.cpp L193-196. -/
def stopping (s : Ist K X DX U L D) : Ist K X DX U L D :=
  { s with base := { s.base with stop := max s.hfeas |s.base.d0 + (1 / 2) * s.base.d1| } }

/-- One iteration, intro.cpp L96-182; the second component is the state seen by the callbacks, if they were
run. -/
def iteration (fuel : Nat) (s : Ist K X DX U L D) :
    Option (Exit × Option (Ist K X DX U L D) × Ist K X DX U L D) :=
  match dirLoop P E c O fuel s with
  | none => none
  | some (false, s) => some (.giveUp, none, s)
  | some (true, s) =>
    let s := stopping (lineSearch P E c O c.alphas (prepare c O s))
    let seen := s
    let s := if s.base.steplength > c.thStepdec ∧ 0 ≤ s.base.dV then
      { s with base := decreaseReg c.toCfg s.base } else s
    let up := decide (s.base.steplength ≤ c.thStepinc) || decide (|s.base.d1| ≤ c.thFeas)
    if up && decide (s.base.preg = c.reg.max) then some (.giveUp, some seen, s)
    else
      let s := if up then { s with base := increaseReg c.toCfg s.base } else s
      if s.base.feas && decide (s.base.stop < c.thStop) then some (.converged, some seen, s)
      else some (.continue, some seen, s)

/-- Result of `solve`: returned value, final state, states seen by the callbacks. -/
structure Outcome (K X DX U L D : Type) where
  ret : Bool
  final : Ist K X DX U L D
  trace : List (Ist K X DX U L D)

/-- The main loop. -/
def iterLoop (fuel : Nat) : Nat → Ist K X DX U L D → Option (Outcome K X DX U L D)
  | 0, s => some ⟨false, s, []⟩
  | n + 1, s =>
    match iteration P E c O fuel s with
    | none => none
    | some (.giveUp, seen, s) => some ⟨false, s, seen.toList⟩
    | some (.converged, seen, s) => some ⟨true, s, seen.toList⟩
    | some (.continue, seen, s) =>
      (iterLoop fuel n { s with base := { s.base with iter := s.base.iter + 1 } }).map
        fun o => { o with trace := seen.toList ++ o.trace }

/-- `solve`, intro.cpp L70-185. -/
def solve (fuel maxiter : Nat) (xs : Nat → X) (us : Nat → U) (feas : Bool) (regInit : Option K)
    (s : Ist K X DX U L D) : Option (Outcome K X DX U L D) :=
  iterLoop P E c O fuel maxiter { s with
    base := start P c.toCfg xs us feas regInit s.base
    upsilon := if c.zeroUpsilon then 0 else s.upsilon }

end
end Verif.IntroSolve
