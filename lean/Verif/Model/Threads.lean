import Mathlib.Data.List.Basic

/-!
# Model of the number of threads of a shooting problem, with models written in Python

Files modelled: `/repo/include/crocoddyl/core/fwd.hpp` L17-20 (`enableMultithreading`, one flag for the whole
process, initially true), `/repo/include/crocoddyl/core/optctrl/shooting.hxx` (constructors, mutators,
`set_nthreads`), `/repo/include/crocoddyl/core/codegen/action.hxx` L519-526, and the classes of
`/repo/bindings/python/crocoddyl/**/*-base.hpp` from which Python classes derive. The build has multithreading
(`CROCODDYL_WITH_MULTITHREADING`); `hw` is `CROCODDYL_WITH_NTHREADS`. Calls that throw for inconsistent dimensions
change nothing and are left out; so is `set_runningModels`, which reads out of bounds (C07).
-/

namespace Verif.Threads

/-- The classes a Python class can derive from. -/
inductive Cls where
  | state | control | actuation | activation | residual | cost | constraint | differential | integrated
  | action | contact | impulse
deriving DecidableEq

/-- A part of a node that has data: written in C++, written in Python, or generated code (whose evaluation
runs compiled C, whatever it was recorded from). -/
inductive Part where
  | cpp
  | py (c : Cls)
  | codegen
deriving DecidableEq

/-- What creating the data of a part does to the flag: the `createData` of the Python classes clears it
(control-base.hpp L75, actuation-base.hpp L117, activation-base.hpp L58, residual-base.hpp L111, cost-base.hpp L126,
diff-action-base.hpp L104, integ-action-base.hpp L95, action-base.hpp L100, contact-base.hpp L69, impulse-base.hpp L71),
except the one of constraints (constraint-base.hpp L113-121); states have no data and clear it when they are built
(state-base.hpp L39-42); generated code sets it (codegen/action.hxx L524). -/
def Part.create : Part → Bool → Bool
  | .cpp, f => f
  | .py .state, f => f
  | .py .constraint, f => f
  | .py _, _ => false
  | .codegen, _ => true

/-- A node: its parts in the order in which their data is created. -/
abbrev Node := List Part

/-- `createData` of a node. -/
def create (n : Node) (f : Bool) : Bool := n.foldl (fun f p => p.create f) f

/-- Evaluating a node runs Python code. -/
def runsPython (n : Node) : Bool := n.any fun p => match p with | .py _ => true | _ => false

/-- A problem; `nthreads = none` is an uninitialised member. -/
structure Problem where
  running : List Node
  term : Node
  nthreads : Option Nat

/-- The flag of the process and the problem of the client. -/
structure World where
  flag : Bool
  prob : Problem

inductive Op where
  | newState
  | createData (n : Node)
  | build (ms : List Node) (t : Node)
  | buildWith (ms : List Node) (t : Node)
  | copy
  | circularAppend (n : Node)
  | circularAppendData (n : Node)
  | updateModel (i : Nat) (n : Node)
  | updateNode (i : Nat) (n : Node)
  | setTerminalModel (n : Node)
  | setNthreads (k : Int)

/-- Shifting the nodes and appending one (shooting.hxx L306-311). -/
def shift (ms : List Node) (n : Node) : List Node := ms.tail ++ [n]

/-- `updateModel`, `updateNode`: node `i` of the horizon, or the terminal one (shooting.hxx L356-363, L384-390). -/
def Problem.replace (p : Problem) (i : Nat) (n : Node) : Problem :=
  if i = p.running.length then { p with term := n } else { p with running := p.running.set i n }

/-- One call. The constructors: shooting.hxx L14-63 (creates the data of the nodes and then looks at the flag),
L65-124 (data given), L126-138 (copy; does not initialise the number of threads). `circularAppend` L287-332,
`updateNode` L334-364, `updateModel` L366-391, `set_terminalModel` L486-500, `set_nthreads` L502-524. -/
def step (hw : Nat) (w : World) : Op → World
  | .newState => { w with flag := false }
  | .createData n => { w with flag := create n w.flag }
  | .build ms t =>
    let f := create t (ms.foldl (fun f n => create n f) w.flag)
    ⟨f, ⟨ms, t, some (if f then hw else 1)⟩⟩
  | .buildWith ms t => { w with prob := ⟨ms, t, some (if w.flag then hw else 1)⟩ }
  | .copy => { w with prob := { w.prob with nthreads := none } }
  | .circularAppend n => ⟨create n w.flag, { w.prob with running := shift w.prob.running n }⟩
  | .circularAppendData n => { w with prob := { w.prob with running := shift w.prob.running n } }
  | .updateModel i n => ⟨create n w.flag, w.prob.replace i n⟩
  | .updateNode i n => { w with prob := w.prob.replace i n }
  | .setTerminalModel n => ⟨create n w.flag, { w.prob with term := n }⟩
  | .setNthreads k =>
    let n := if k < 1 then hw else k.toNat
    { w with prob := { w.prob with nthreads := some (if w.flag then n else 1) } }

/-- A sequence of calls. -/
def run (hw : Nat) (ops : List Op) (w : World) : World := ops.foldl (step hw) w

end Verif.Threads
