import Verif.Model.Shooting
import Mathlib.Algebra.Group.Defs

/-!
# Evaluation of a shooting problem: `calc`, `calcDiff`, `rollout`

File modelled: `/repo/include/crocoddyl/core/optctrl/shooting.hxx` L142-253.

The content of the data objects lives in a store `Nat → V` (address ↦ content). The virtual
functions `calc(data, x, u)`, `calc(data, x)`, `calcDiff(...)` of an action model are sequences of
micro-steps on the content of the data they receive: a thread can be preempted between any two of
them. Simplification (stated in DESIGN.md): a micro-step reads and writes only the data it was
given, i.e. models are not mutated by evaluating them.
-/

namespace Verif.Shooting
open Verif

/-- What evaluating action models does to a data (`action-base.hpp`, virtual functions). -/
structure Sem (K X U V M : Type) where
  /-- micro-steps of `calc(data, x, u)` -/
  calcF : M → X → U → List (V → V)
  /-- micro-steps of `calc(data, x)` -/
  calcT : M → X → List (V → V)
  /-- `data->cost` -/
  cost : V → K
  /-- `data->xnext` -/
  xnext : V → X

/-- The contents of all data objects. -/
abbrev Store (V : Type) := Nat → V

variable {K X U V M : Type}

/-- Write one location. -/
def Store.upd (σ : Store V) (a : Nat) (v : V) : Store V := fun b => if b = a then v else σ b

/-- Run a program to completion on a data content. -/
def runProg (p : List (V → V)) (v : V) : V := p.foldl (fun v f => f v) v

/-- State of the parallel loop: data contents and, per iteration, how many of its micro-steps are
done. -/
structure ParState (V : Type) where
  store : Store V
  pc : Nat → Nat

/-- One micro-step of iteration `i`: executed by whatever thread owns the iteration. -/
def parStep (addr : Nat → Nat) (prog : Nat → List (V → V)) (s : ParState V) (i : Nat) :
    ParState V :=
  match (prog i)[s.pc i]? with
  | some f =>
    { store := s.store.upd (addr i) (f (s.store (addr i)))
      pc := fun j => if j = i then s.pc i + 1 else s.pc j }
  | none => s

/-- `#pragma omp parallel for num_threads(nthreads_)` over `i < T` (shooting.hxx L157-162,
L193-198): an execution is any interleaving `sched` of the micro-steps of the iterations. Every
assignment of iterations to threads and every preemption pattern gives such a list. -/
def parFor (addr : Nat → Nat) (prog : Nat → List (V → V)) (sched : List Nat) (σ : Store V) :
    Store V :=
  (sched.foldl (parStep addr prog) ⟨σ, fun _ => 0⟩).store

/-- `sched` runs all iterations `i < T` to completion and nothing else. -/
def FullSchedule (T : Nat) (prog : Nat → List (V → V)) (sched : List Nat) : Prop :=
  (∀ i ∈ sched, i < T) ∧ ∀ i < T, sched.count i = (prog i).length

/-- A bracketing of a sum. -/
inductive SumTree (K : Type) where
  | leaf : K → SumTree K
  | node : SumTree K → SumTree K → SumTree K

/-- The leaves from left to right. -/
def SumTree.leaves : SumTree K → List K
  | .leaf k => [k]
  | .node a b => a.leaves ++ b.leaves

/-- The value computed by the additions of the tree. -/
def SumTree.eval [Add K] : SumTree K → K
  | .leaf k => k
  | .node a b => a.eval + b.eval

/-- `cost_ = 0; #pragma omp simd reduction(+ : cost_) for … cost_ += …` (L165-172, L201-217): the
additions may be reassociated and reordered arbitrarily, so a legal reduction is any tree whose
leaves are a permutation of `0` and the summands (vector lanes may add further zeros). -/
def LegalReduction [Zero K] (summands : List K) (t : SumTree K) : Prop :=
  ∃ n : Nat, t.leaves.Perm (List.replicate (n + 1) 0 ++ summands)

/-- Address of the data of node `i` (only used for `i < T`). -/
def dataAddr (p : Problem K M) (i : Nat) : Nat := ((p.datas[i]?).map Data.addr).getD 0

/-- Program of iteration `i`: `running_models_[i]->calc(running_datas_[i], xs[i], us[i])`. Reading
outside a vector cannot happen after the size checks; the model uses the empty program there. -/
def nodeProg (S : Sem K X U V M) (p : Problem K M) (xs : List X) (us : List U) (i : Nat) :
    List (V → V) :=
  match p.models[i]?, xs[i]?, us[i]? with
  | some m, some x, some u => S.calcF m x u
  | _, _, _ => []

/-- Content of the stores after the parallel loop and the terminal evaluation (L157-163). -/
def evalStore (S : Sem K X U V M) (p : Problem K M) (xs : List X) (us : List U)
    (sched : List Nat) (σ : Store V) : Store V :=
  let σ' := parFor (dataAddr p) (nodeProg S p xs us) sched σ
  match xs.getLast? with
  | some x => σ'.upd p.tdata.addr (runProg (S.calcT p.tmodel x) (σ' p.tdata.addr))
  | none => σ'

/-- The summands `running_datas_[i]->cost` of the reduction. -/
def runningCosts (S : Sem K X U V M) (p : Problem K M) (σ : Store V) : List K :=
  p.datas.map fun d => S.cost (σ d.addr)

/-- `calc(xs, us)`, shooting.hxx L142-175 (and `calcDiff`, L177-219, which has the same control flow
with the models' `calcDiff` as the node programs): the size checks, then the possible final stores
and returned values; one for each schedule `sched` and reduction tree `t`. `none` is a throw. -/
def calcProblem [Add K] (S : Sem K X U V M) (p : Problem K M) (xs : List X) (us : List U)
    (sched : List Nat) (t : SumTree K) (σ : Store V) : Option (K × Store V) :=
  if xs.length ≠ p.T + 1 then none
  else if us.length ≠ p.T then none
  else
    let σ' := evalStore S p xs us sched σ
    some (t.eval + S.cost (σ' p.tdata.addr), σ')

/-- Loop of `rollout`, shooting.hxx L236-240, from node `i` with current state `x`: returns the
states written to `xs[i+1], …` and the store. -/
def rolloutLoop (S : Sem K X U V M) : List (M × Data M) → List U → X → Store V → List X × Store V
  | (m, d) :: nodes, u :: us, x, σ =>
    let v := runProg (S.calcF m x u) (σ d.addr)
    let r := rolloutLoop S nodes us (S.xnext v) (σ.upd d.addr v)
    (S.xnext v :: r.1, r.2)
  | _, _, _, σ => ([], σ)

/-- `rollout(us, xs)`, shooting.hxx L221-244; `xs` is only used for its size. `x0` is the initial
state of the problem as an abstract state. `none` is a throw. -/
def rollout (S : Sem K X U V M) (p : Problem K M) (x0 : X) (us : List U) (xs : List X)
    (σ : Store V) : Option (List X × Store V) :=
  if xs.length ≠ p.T + 1 then none
  else if us.length ≠ p.T then none
  else
    let r := rolloutLoop S (p.models.zip p.datas) us x0 σ
    let xs' := x0 :: r.1
    match xs'.getLast? with
    | some x => some (xs', r.2.upd p.tdata.addr (runProg (S.calcT p.tmodel x) (r.2 p.tdata.addr)))
    | none => some (xs', r.2)

end Verif.Shooting
