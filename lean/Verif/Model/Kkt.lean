import Verif.Model.Solve

/-!
# Model of the KKT solver

File modelled: `/repo/src/core/solvers/kkt.cpp` L36-173, L195-270.

The factorisation (`computePrimalDual`) is an arbitrary function of the assembled KKT system `lin`; the
evaluations of the problem may throw, as decided by arbitrary predicates. Trajectories are functions of the
node index. Callbacks only observe the solver.
-/

namespace Verif.Kkt
open Verif Verif.Solve

/-- State of `SolverKKT`. `lin` is the assembled KKT system (`kkt_`, `kktref_`), `dual` the multipliers. -/
structure St (K X DX U L M : Type) where
  xs : Nat → X
  us : Nat → U
  xsTry : Nat → X
  usTry : Nat → U
  dxs : Nat → DX
  dus : Nat → U
  dual : M
  lin : L
  feas : Bool
  wasFeas : Bool
  cost : K
  costTry : K
  dV : K
  dVexp : K
  d0 : K
  d1 : K
  stop : K
  steplength : K
  preg : K
  iter : Nat
  /-- local variable `recalc` of `solve` -/
  recalc : Bool

/-- Parameters. -/
structure Cfg (K : Type) where
  alphas : List K
  thAcceptstep : K
  thStop : K
  thGrad : K
  regMax : K

/-- The arbitrary parts: whether evaluating the problem or its derivatives throws, the KKT system assembled
at a trajectory, what an interrupted assembly leaves, the linear solve (`none`: it threw), the expected
improvement and the stopping criterion. -/
structure Oracle (K X DX U L M : Type) where
  calcThrows : (Nat → X) → (Nat → U) → Bool
  calcDiffThrows : (Nat → X) → (Nat → U) → Bool
  assemble : (Nat → X) → (Nat → U) → L
  interrupted : L → (Nat → X) → (Nat → U) → L
  primalDual : L → Option ((Nat → DX) × (Nat → U) × M)
  expImp : L → (Nat → DX) → (Nat → U) → K × K
  stop : L → M → K

section
variable {K X DX U L M : Type}
variable [Field K] [LinearOrder K] [AddCommGroup DX] [Module K DX] [AddCommGroup U] [Module K U]
variable (P : Prob K X DX U) (c : Cfg K) (O : Oracle K X DX U L M)

/-- `problem_->calc(xs, us)`: the sum of the costs of all nodes, shooting.hxx L142-175. -/
def calcCost (xs : Nat → X) (us : Nat → U) : K :=
  sumTo (fun t => ((P.node t).eval (xs t) (us t)).2) P.T + P.tcost (xs P.T)

/-- `calcDiff`, kkt.cpp L195-246; `false`: threw. -/
def calcDiff (s : St K X DX U L M) : Bool × St K X DX U L M :=
  if O.calcThrows s.xs s.us then (false, { s with lin := O.interrupted s.lin s.xs s.us })
  else
    let s := { s with cost := calcCost P s.xs s.us }
    if O.calcDiffThrows s.xs s.us then (false, { s with lin := O.interrupted s.lin s.xs s.us })
    else (true, { s with lin := O.assemble s.xs s.us })

/-- `computeDirection(recalc)`, kkt.cpp L89-117 with `computePrimalDual` L248-252; `false`: threw. -/
def computeDirection (s : St K X DX U L M) : Bool × St K X DX U L M :=
  let r := if s.recalc then calcDiff P O s else (true, s)
  if r.1 then
    match O.primalDual r.2.lin with
    | none => (false, r.2)
    | some d => (true, { r.2 with dxs := d.1, dus := d.2.1, dual := d.2.2 })
  else (false, r.2)

/-- The retry loop, kkt.cpp L44-56: the regularisation is not increased. -/
def dirLoop : Nat → St K X DX U L M → Option (Bool × St K X DX U L M)
  | 0, _ => none
  | fuel + 1, s =>
    let r := computeDirection P O s
    if r.1 then some (true, r.2)
    else
      let s := { r.2 with recalc := false }
      if s.preg = c.regMax then some (false, s) else dirLoop fuel s

/-- `tryStep`, kkt.cpp L119-136; `false`: threw. -/
def tryStep (a : K) (s : St K X DX U L M) : Bool × St K X DX U L M :=
  let s := { s with
    xsTry := fun t => if t < P.T then (P.node t).integ (s.xs t) (a • s.dxs t)
      else if t = P.T then P.tinteg (s.xs t) (a • s.dxs t) else s.xsTry t
    usTry := fun t => if t < P.T ∧ (P.node t).nuZero = false then s.us t + a • s.dus t else s.usTry t }
  if O.calcThrows s.xsTry s.usTry then (false, s)
  else
    let s := { s with costTry := calcCost P s.xsTry s.usTry }
    (true, { s with dV := s.cost - s.costTry })

/-- The line search, kkt.cpp L59-77: an accepted trial is marked feasible unconditionally. -/
def lineSearch : List K → St K X DX U L M → St K X DX U L M
  | [], s => s
  | a :: as, s =>
    let r := tryStep P O a { s with steplength := a }
    if r.1 then
      let s : St K X DX U L M := { r.2 with dVexp := a * r.2.d0 + (1 / 2) * a * a * r.2.d1 }
      if s.d0 < c.thGrad ∨ s.feas = false ∨ s.dV > c.thAcceptstep * s.dVexp then
        { s with wasFeas := s.feas, xs := s.xsTry, us := s.usTry, feas := true, cost := s.costTry }
      else lineSearch as s
    else lineSearch as r.2

/-- One iteration, kkt.cpp L43-85. -/
def iteration (fuel : Nat) (s : St K X DX U L M) : Option (Exit × St K X DX U L M) :=
  match dirLoop P c O fuel s with
  | none => none
  | some (false, s) => some (.giveUp, s)
  | some (true, s) =>
    let s := { s with d0 := (O.expImp s.lin s.dxs s.dus).1, d1 := (O.expImp s.lin s.dxs s.dus).2 }
    let s := lineSearch P c O c.alphas s
    let s := { s with stop := O.stop s.lin s.dual }
    if s.wasFeas ∧ s.stop < c.thStop then some (.converged, s) else some (.continue, s)

/-- Result of `solve`. -/
structure Outcome (K X DX U L M : Type) where
  ret : Bool
  final : St K X DX U L M
  trace : List (St K X DX U L M)

/-- The main loop, kkt.cpp L43-87. -/
def iterLoop (fuel : Nat) : Nat → St K X DX U L M → Option (Outcome K X DX U L M)
  | 0, s => some ⟨false, s, []⟩
  | n + 1, s =>
    match iteration P c O fuel s with
    | none => none
    | some (.giveUp, s) => some ⟨false, s, []⟩
    | some (.converged, s) => some ⟨true, s, [s]⟩
    | some (.continue, s) =>
      (iterLoop fuel n { s with iter := s.iter + 1 }).map fun o => { o with trace := s :: o.trace }

/-- Start of `solve`, kkt.cpp L36-43; `was_feasible_` keeps its value from an earlier call. -/
def start (xs : Nat → X) (us : Nat → U) (feas : Bool) (s : St K X DX U L M) : St K X DX U L M :=
  { s with xs := xs, us := us, feas := feas, recalc := true, iter := 0 }

/-- `solve`, kkt.cpp L36-87. -/
def solve (fuel maxiter : Nat) (xs : Nat → X) (us : Nat → U) (feas : Bool) (s : St K X DX U L M) :
    Option (Outcome K X DX U L M) :=
  iterLoop P c O fuel maxiter (start xs us feas s)

end
end Verif.Kkt
