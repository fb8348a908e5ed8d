import Verif.Model.IpoptSolve

/-!
# `SolverIpopt::solve` with a deterministic optimiser

`Model/IpoptSolve.lean` takes the calls of a run of Ipopt as given. Here they come from an optimiser: a function from the starting
point, the options and the answers received so far to the next call. The Ipopt library itself is not modelled.
-/

namespace Verif.Ipopt

variable {K X D : Type*}

/-- What a call writes into the arrays of Ipopt: the objective, the gradient, the constraints, the values of the Jacobian, the values
of the Hessian (for any `obj_factor`), nothing. -/
inductive Ans (K : Type*) where
  | obj (v : K)
  | grad (a : ℕ → K)
  | con (a : ℕ → K)
  | jac (l : List K)
  | hess (f : K → List K)
  | nothing

/-- The answer to a call (`ipopt-iface.cpp:234-743`). -/
def Iface.answer [Semiring K] (P : Prob) (N : Nodes K X D) (Dy : Dyn K X D) (L : Layout) (x0 : X)
    (i : Iface K X D) : Call K → Ans K
  | .evalF x obj => .obj (evalF P N L i.xs i.ds x obj).2
  | .evalGrad x g => .grad (evalGrad P N L i.xs i.ds x g).2
  | .evalG x g => .con (evalG P N Dy L i.xs x0 i.ds x g).2
  | .evalJac x => .jac (jacVals P (evalJBlocks P N Dy L i.xs x0 i.ds x).2)
  | .evalH x => .hess fun f => hessVals P (evalHBlocks P N L i.xs i.ds x).2 f
  | .finalize _ _ => .nothing

/-- An optimiser that has been given the starting point and the options: from the answers so far, the next call, or the end of the
run with status and iteration count. -/
abbrev Strategy (K : Type*) := List (Ans K) → Call K ⊕ (Status × ℕ)

/-- `OptimizeTNLP`: the run of the optimiser on an interface; `none` when the fuel is used up. -/
def play [Semiring K] (P : Prob) (N : Nodes K X D) (Dy : Dyn K X D) (L : Layout) (x0 : X) (opt : Strategy K) :
    ℕ → List (Ans K) → Iface K X D → Option (Run K)
  | 0, _, _ => none
  | n + 1, as, i =>
    match opt as with
    | .inr e => some ⟨[], e.1, e.2⟩
    | .inl c => (play P N Dy L x0 opt n (as ++ [i.answer P N Dy L x0 c]) (i.call P N Dy L x0 c)).map
        fun r => ⟨c :: r.calls, r.status, r.iters⟩

/-- `SolverIpopt::solve` (`ipopt.cpp:27-48`) with the optimiser `opt`, which gets the starting point (written over the array `mem`,
`ipopt-iface.cpp:186-232`), the tolerance and `max_iter`. -/
def Sol.optimise [Semiring K] (P : Prob) (N : Nodes K X D) (Dy : Dyn K X D) (L : Layout) (x0 : X)
    (opt : (ℕ → K) → K → ℕ → Strategy K) (mem : ℕ → K) (fuel : ℕ)
    (xs : ℕ → X) (us : ℕ → ℕ → K) (maxiter : ℕ) (feas : Bool) (s : Sol K X D) : Option (Bool × Sol K X D) :=
  (play P N Dy L x0 (opt (startingPoint P L us mem) s.tol maxiter) fuel [] { s.iface with xs := xs, us := us }).map
    fun r => s.solve P N Dy L x0 r xs us maxiter feas

end Verif.Ipopt
