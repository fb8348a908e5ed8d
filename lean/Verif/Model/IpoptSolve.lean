import Verif.Model.Ipopt

/-!
# Model of `SolverIpopt`

Files modelled: `/repo/src/core/solvers/ipopt.cpp` and, through `Verif.Model.Ipopt`,
`/repo/src/core/solvers/ipopt/ipopt-iface.cpp`. The Ipopt library is not modelled: a run of it is an
arbitrary list of calls to the interface, a status and an iteration count.
-/

namespace Verif.Ipopt

variable {K X D : Type*}

/-- The calls that Ipopt makes into the interface (the structure queries, bounds and starting point read
the interface only). -/
inductive Call (K : Type*) where
  | evalF (x : ℕ → K) (obj : K)
  | evalGrad (x grad : ℕ → K)
  | evalG (x g : ℕ → K)
  | evalJac (x : ℕ → K)
  | evalH (x : ℕ → K)
  | finalize (x : ℕ → K) (obj : K)

/-- `IpoptInterface`: `xs_`, `us_`, the action data of the problem and `cost_`, which the constructor
leaves uninitialised (`none`; `ipopt-iface.hpp:470`, `ipopt-iface.cpp:15-51`). -/
structure Iface (K X D : Type*) where
  xs : ℕ → X
  us : ℕ → ℕ → K
  ds : ℕ → D
  cost : Option K

/-- One call: the evaluations change the action data only; `finalize_solution` replaces `xs_`, `us_` and
`cost_` (`ipopt-iface.cpp:234-743`). -/
def Iface.call [Semiring K] (P : Prob) (N : Nodes K X D) (Dy : Dyn K X D) (L : Layout) (x0 : X)
    (i : Iface K X D) : Call K → Iface K X D
  | .evalF x obj => { i with ds := (evalF P N L i.xs i.ds x obj).1 }
  | .evalGrad x g => { i with ds := (evalGrad P N L i.xs i.ds x g).1 }
  | .evalG x g => { i with ds := (evalG P N Dy L i.xs x0 i.ds x g).1 }
  | .evalJac x => { i with ds := (evalJBlocks P N Dy L i.xs x0 i.ds x).1 }
  | .evalH x => { i with ds := (evalHBlocks P N L i.xs i.ds x).1 }
  | .finalize x obj =>
    { i with xs := (finalize P N L i.xs i.us x).1, us := (finalize P N L i.xs i.us x).2, cost := some obj }

/-- `Ipopt::ApplicationReturnStatus`. -/
inductive Status where
  | succeeded | acceptable | other
deriving DecidableEq

/-- `SolverIpopt`: the interface, the candidate and its flag, `cost_`, `iter_`, `th_stop_`, the Ipopt
options `tol` and `max_iter`, and how many times a callback was called. -/
structure Sol (K X D : Type*) where
  iface : Iface K X D
  xs : ℕ → X
  us : ℕ → ℕ → K
  feas : Bool
  cost : Option K
  iter : ℕ
  thStop : K
  tol : K
  maxIter : ℕ
  reports : ℕ

/-- What `OptimizeTNLP` did: calls in order, status, iteration count. -/
structure Run (K : Type*) where
  calls : List (Call K)
  status : Status
  iters : ℕ

/-- `SolverIpopt::solve` (`ipopt.cpp:27-48`), with `xs` and `us` the candidate after `setCandidate`
(C21). -/
def Sol.solve [Semiring K] (P : Prob) (N : Nodes K X D) (Dy : Dyn K X D) (L : Layout) (x0 : X) (r : Run K)
    (xs : ℕ → X) (us : ℕ → ℕ → K) (maxiter : ℕ) (feas : Bool) (s : Sol K X D) : Bool × Sol K X D :=
  let i := r.calls.foldl (Iface.call P N Dy L x0) { s.iface with xs := xs, us := us }
  (decide (r.status = .succeeded) || decide (r.status = .acceptable),
   { s with
     iface := i
     xs := i.xs
     us := i.us
     feas := feas
     cost := i.cost
     iter := r.iters
     maxIter := maxiter })

/-- `SolverIpopt::set_th_stop` (`ipopt.cpp:75-81`); `none` is the exception. -/
def Sol.setThStop [Zero K] [LE K] [DecidableRel (α := K) (· ≤ ·)] (v : K) (s : Sol K X D) : Option (Sol K X D) :=
  if v ≤ 0 then none else some { s with thStop := v, tol := v }

/-- `SolverAbstract::set_th_stop` (`solver-base.cpp:458-463`), which is not virtual
(`solver-base.hpp:417`): the one called through a pointer to the base class. -/
def Sol.setThStopBase [Zero K] [LE K] [DecidableRel (α := K) (· ≤ ·)] (v : K) (s : Sol K X D) :
    Option (Sol K X D) :=
  if v ≤ 0 then none else some { s with thStop := v }

end Verif.Ipopt
