# Formal model of crocoddyl in Lean 4 — design

## 1. Approach

The model lives in `lean/Verif/`.  Each area has up to three files:

* `Model/<Area>.lean`  – total functions that follow the C++ function by function.
  Every definition cites the file and lines it models and lists simplifications.
* `Spec/<Area>.lean`   – a small independent vocabulary (no reference to the model's
  helpers) used to state the property. Small areas define the spec at the top of the
  property file instead.
* `Props/<Area>.lean`  – the property theorems (named `Cxx_…`), with non-vacuity
  `example`s beside them. Helper lemmas live in `Lemmas/<Area>.lean` or are `private`/
  in a `Lemmas` namespace.

Conventions

* `Outcome α = ok α | throw | ub`.  `throw` is `throw_pretty`; `ub` is undefined
  behaviour of the C++ program (out-of-bounds access, null dereference).
* `std::vector` → `List`; `std::map<string,_>` → association list strictly sorted by key
  (iteration order of the C++ map); `std::set<string>` → sorted duplicate-free list;
  `std::shared_ptr` identity is modelled by explicit handles/pointers where aliasing matters.
* `std::size_t` counters whose underflow matters are modelled as `UInt64`/`ZMod`-like wrap
  around or as `BitVec 64`; others are `Nat`.
* Scalars. (a) Control-logic theorems (problem bookkeeping, forward passes, solver loops,
  managers) use an arbitrary type with arbitrary operations and no laws, so they hold in
  IEEE arithmetic too. (b) Algebraic theorems use an ordered field `K`; (c) theorems about
  derivatives, square roots, trigonometry use `ℝ`. For (b) and (c) rounding is not modelled.
* External code (Pinocchio, Eigen's factorizations, user-defined models) enters as
  parameters of the model; the assumptions made on it are explicit hypotheses.
* Where the code violates the property, the negation is proved with a concrete reachable
  witness (`..._violation`/`..._counterexample`), and the strongest true part is
  proved with the suffix `_partial`.

## 2. Trusted base

* Lean 4.33.0's kernel, and the three standard axioms `propext`, `Classical.choice`,
  `Quot.sound`. `Verif/Axioms.lean` is part of the build: it collects the axioms of every
  theorem of the project and fails if another axiom occurs; its output lists the axioms of
  each property theorem. No `sorry`, no `native_decide`, no `bv_decide`, no own axioms.
* The hand translation from C++ to Lean (checked by reading; comments cite the lines).
* What is stated of Pinocchio. Pinocchio's source and documentation were not available, so the contracts in `Spec/FwdDyn` and
  `Spec/InvDyn`, the formulas of frame kinematics in `Model/ContactFrame` and the bounds in `Spec/Fresh` were written from
  knowledge of its interface and from how crocoddyl uses it. Contracts and bounds are hypotheses of the theorems, the formulas are
  part of the model; none of them was checked against Pinocchio.
* What is stated of CppAD, likewise not available: a recorded function replays the operations executed when it was recorded, outcomes of
  comparisons included (part of `Model/CodeGen`); Jacobians and Hessians are exact (`Diff.Exact`, a hypothesis of one theorem).
* Real-number (ordered-field) semantics for scalar arithmetic in areas (b) and (c).
* The parts of Python's bindings that are not modelled, the printing functions and the timers have no effect on the modelled state.

### Modelled code

| model file | code |
|---|---|
| `Model/Shooting` | `core/optctrl/shooting.{hpp,hxx}`: constructors, calc, calcDiff, rollout, all mutators |
| `Model/CostSum` | `core/costs/cost-sum.hxx` |
| `Model/Constraints` | `core/constraint-base.hxx`, `core/constraints/constraint-manager.hxx`, `core/constraints/residual.hxx` |
| `Model/Contacts` | `multibody/contacts/multiple-contacts.hxx`, `multibody/impulses/multiple-impulses.hxx` |
| `Model/Cast` | `cast` of the four managers |
| `Model/SolverBase` | `src/core/solver-base.cpp`, setters of the DDP, FDDP and BoxQP solvers |
| `Model/Solve` | `src/core/solvers/{ddp,fddp,box-ddp,box-fddp}.cpp`: solve, tryStep, forward passes, regularisation |
| `Model/Lq` | backward pass of `ddp.cpp`, expected improvement of `ddp.cpp` and `fddp.cpp` |
| `Model/Intro`, `Model/IntroSolve` | `src/core/solvers/intro.cpp`: calcDiff's factorisations, backward pass, gains, value function, solve |
| `Model/NumDiffMore` | `core/numdiff/{residual,cost,constraint,actuation,activation,control,state}.hxx` |
| `Model/FwdDyn` | `multibody/actions/{free,contact,impulse}-fwddyn.hxx` (`calc`, `calcDiff`, `quasiStatic`, setters); Pinocchio, actuation and contact containers are parameters |
| `Model/InvDyn` | `multibody/actions/{free,contact}-invdyn.{hpp,hxx}` (`calc`, `calcDiff`, `quasiStatic`, the residuals "tau", "_acc", "_force"); Pinocchio and the contacts are parameters, actuations are those of `Model/Actuation` |
| `Model/ContactFrame` | `multibody/contacts/contact-{1d,2d,3d,6d}.hxx`, `multibody/impulses/impulse-{3d,6d}.hxx`: `calc`, `calcDiff`, `updateForce`; the kinematics of the joint (placement, velocity, acceleration, Jacobian, partial derivatives) and `log6` are parameters |
| `Model/FrameRes`, `Model/ForceRes` | `multibody/residuals/frame-{translation,rotation,placement,velocity}.hxx`; `multibody/residuals/{contact-force,contact-friction-cone,contact-wrench-cone,contact-cop-position}.hxx`: `calc`, `calcDiff`, `updateJacobians`, setters, and their data objects over a history of calls; `log3`, `log6` and the forces the action model stores are parameters |
| `Model/JointRes` | `core/residuals/joint-{effort,acceleration}.hxx`, `multibody/residuals/{control-gravity,contact-control-gravity,com-position,centroidal-momentum,impulse-com}.hxx`: constructors, `calc`, `calcDiff`, setters; what the action model leaves in the shared data, and Pinocchio's functions, are parameters |
| `Model/Fresh` | `multibody/actions/{free-fwddyn,contact-fwddyn,impulse-fwddyn,free-invdyn,contact-invdyn}.hxx`: the order of the calls of Pinocchio before the costs; what each algorithm writes is a parameter, bounded below and above in `Spec/Fresh.lean` (assumed: Pinocchio is not in the repository, so both bounds were written from knowledge of its interface and not checked) |
| `Model/CodeGen` | `core/codegen/action.{hpp,hxx}`: generating, loading and copying constructors, `update_p`, `calc`, `calcDiff` (analytical and automatic), `quasiStatic`, `checkData`, the data; compiling, file names and the constructors from a model with automatic-differentiation scalars are left out |
| `Model/QuasiStatic` | `core/utils/math.hpp` (`pseudoInverse`), `core/action-base.hxx`, `core/diff-action-base.hxx` (`quasiStatic`, `quasiStatic_x`), `quasiStatic` of the integrators; the singular value decomposition is a parameter; the debug-only check of the velocity is left out |
| `Model/Limits` | limits, setters, copy constructor and call without control of `core/action-base.hxx` and `core/diff-action-base.hxx`; `init`, `set_differential` and the bound getters of `core/integ-action-base.hxx`; clamping in `box-ddp.cpp`, `box-fddp.cpp`; control bounds in `ipopt-iface.cpp`; limits are extended reals, NaN is left out |
| `Model/StateMultibody` | `multibody/states/multibody.hxx` without `rand` and `print`, the functions of `core/state-base.hxx` that return their result; Pinocchio's group operations, derivatives and limits are parameters, their laws are assumed (`Spec/StateMultibody`: `Pin.Group`) |
| `Model/IntegratorsManifold` | `core/integrator/euler.hxx`, `core/integrator/rk.hxx` (`calc`, `calcDiff`, all but `quasiStatic`, second derivatives and constraints) on the states of `Model/StateMultibody`, with typed states and matrices; `C101_state` links them to the buffers |
| `Model/NumDiffDiff` | `core/numdiff/diff-action.hxx`, data of `diff-action.hpp`; the differentiated model is a function of `(x, u)`; row counts are types; real arithmetic |
| `Model/NumDiffContact` | `multibody/numdiff/contact.hxx`, `contact.hpp`; drift, Jacobian and force of the differentiated contact are functions of Pinocchio data, state and force; the derivative fields of the differentiated contact's own data are not modelled |
| `Model/Nl` | `solve`, `calcDiff`, `backwardPass`, `forwardPass`, `expectedImprovement` of `ddp.cpp`, `fddp.cpp`, and their uses in `box-ddp.cpp`, `box-fddp.cpp` on problems without control limits | vector state, all controls of one dimension, real numbers; no action model throws; the numerical checks of `forwardPass` (NaN) never fire |
| `Model/BoxNl` | the same on problems with control limits: the gains of `computeGains` and the clamping in `forwardPass` of `box-ddp.cpp`, `box-fddp.cpp` | as `Model/Nl` and `Model/BoxLq` |
| `Model/Stopwatch` | `stop-watch.hpp`, `stop-watch.cpp`: `take_time`, `start`, `stop`, `pause`, `reset`, `reset_all`, the getters, `Watcher`, the profiler macros | clock readings are inputs; real numbers; reports and output streams left out |
| `Model/PairCollision` | `calc`, `calcDiff` of `pair-collision.hxx`, the data of `pair-collision.hpp` | code disabled by default; nearest points of hpp-fcl are an input; `getJointJacobian` by an assumed contract; constructor checks and `cast` left out |
| `Model/KktSystem`, `Model/KktLq` | `kkt.cpp`: `calcDiff`, `computePrimalDual`, `computeDirection`, `expectedImprovement`, `stoppingCriteria`, `allocateData` | vector states of one dimension; exact scalars; Eigen's `lu().solve` is any function that solves nonsingular systems; at least one running node |
| `Model/IpoptSolve` | `ipopt.cpp` and `finalize_solution` of `ipopt-iface.cpp` | Ipopt is an arbitrary outcome; exact scalars |
| `Model/IpoptPlay` | `ipopt.cpp` with the evaluations of `ipopt-iface.cpp` answered in turn | Ipopt is an arbitrary deterministic function from the answers so far to the next call; exact scalars |
| `Model/IpoptLife` | `ipopt.cpp` L13-53, when the layout of the interface is computed | only the layout; the node objects are their dimensions |
| `Model/IntroNl` | the calls of `intro.cpp`'s `solve` to its own backward pass and expected improvement | derivatives are any function of the candidate; no number counts as invalid |
| `Model/CsvStream` | `file-io.hpp` | characters in a list; one-character separator; file errors not modelled |
| `Model/Version` | `version.hpp`: `checkVersionAtLeast` | unbounded numbers; the string-producing functions are not modelled |
| `Model/Verbose` | `callbacks.cpp` | text as a list of characters; number formatting is a parameter; flushing not modelled |
| `Model/Threads` | `enableMultithreading` in the bindings, `shooting.hxx`, `codegen/action.hxx` | a node is the list of its parts; supplying data for Python nodes is over-approximated (their `checkData` rejects it, see C123) |
| `Model/PyWrap` | the `_wrap` classes of the bindings | the Python methods and the norm of vectors with NaN are parameters |
| `Model/CheckData` | all overrides of `checkData`, the checks of the problem constructor | class and sizes of data only |
| `Model/PyAttrs` | attributes bound to data members in `bindings/python/crocoddyl/**/*.cpp.in` | values opaque; base and derived classes separate |
| `Model/PyContainers` | `utils/{set-converter,set_indexing_suite,map-converter}.hpp` | boost's index checks assumed; only dictionaries are given to the map converter |
| `Model/SolverMem` | sizes of the arrays of all solvers: allocation and `resizeData` of `solver-base.cpp`, `solvers/{ddp,box-ddp,box-fddp,intro,kkt}.cpp`, dimension check of `box-qp.cpp` | values; Eigen factorisations; sizes changed by assignments during the iterations |
| `Model/DataCopy` | memory of action data: members by value, addresses and shared pointers of `free-fwddyn.hpp`, `cost-sum.hpp`, `euler.hpp`; copy constructors as called by `copyable.hpp`; `calc`, `calcDiff` of `free-fwddyn.hxx`, `euler.hxx` up to numerical functions | constraints (same construction); armature; the single cost terms; other action data |
| `Model/ShootingEval`, `Model/LqSolve`, `Dense` | evaluation of a problem node by node; DDP's solve on linear-quadratic problems; dense matrices |
| `Model/Kkt` | `src/core/solvers/kkt.cpp` |
| `Model/BoxQp`, `Model/BoxLq` | `src/core/solvers/box-qp.cpp`, gains, backward pass and clamping of `box-ddp.cpp`, `box-fddp.cpp` |
| `Model/Integrators`, `Model/Controls`, `Model/StateVector` | `core/integrator/{euler,rk}.hxx`, `core/integ-action-base.hxx`, `core/controls/*.hxx`, `core/states/euclidean.hxx` |
| `Model/Activations`, `Model/Bounds` | `core/activations/*.hpp`, `core/activations/quadratic-barrier.hpp` |
| `Model/LqrAction`, `Model/Unicycle`, `Model/NumDiff`, `Model/ResidualCost` | `core/actions/{lqr,diff-lqr,unicycle}.hxx`, `core/numdiff/action.hxx`, `core/costs/residual.hxx`, `core/residual-base.hxx`, `core/residuals/control.hxx`, `multibody/residuals/state.hxx` |
| `Model/Cones` | `multibody/{friction-cone,wrench-cone,cop-support}.hxx` |
| `Model/Actuation` | `core/actuation/*.hpp`, `multibody/actuations/{full,floating-base,floating-base-thrusters}.hpp` |
| `Model/Ipopt` | `src/core/solvers/ipopt/ipopt-iface.cpp` |
| `Model/Gaits` | `src/multibody/utils/quadruped-gaits.cpp` |

### Not modelled

Pinocchio's rigid-body algorithms, hpp-fcl, CppAD and Ipopt (they appear as parameters),
Eigen's numerics (factorisations appear as parameters with explicit hypotheses), Python
bindings other than those listed above (they forward to the modelled methods), compiling
and loading of generated code, printing of models (`print`, `operator<<`) and of the
stopwatch's report, errors of the file system, memory allocation failure, OpenMP beyond
arbitrary interleavings of loop iterations, floating-point rounding in areas (b) and (c).

## 3. Plan per property

| id | what is modelled | how it is proved |
|----|------------------|------------------|
| C01 | ShootingProblem state (x0, models, datas, terminal, T, flags) and all mutators as step function | invariant by induction over operation list |
| C02 | same | case analysis of each mutator: `throw` returns pre-state |
| C03 | circularAppend loop as index-shift | induction over appended list, refinement to `drop k (old ++ new)` |
| C04 | calc as per-node writes into a data store, loop executed in an arbitrary permutation | order-independence lemma for disjoint writes; counterexample for shared datas |
| C05 | rollout loop and calc | induction over nodes |
| C06 | is_updated flag, several consumers | trace induction; two-consumer counterexample |
| C07 | set_runningModels | outcome `ub` proved for every non-empty replacement; `_partial` for rejected calls |
| C08 | both constructors | decision logic outright; missing terminal check counterexample |
| C09 | CostModelSum add/remove/change with 64-bit counters | invariant by induction for admissible histories; counterexamples (remove inactive, duplicate item) |
| C10 | calc/calcDiff of the cost sum | refinement to `Σ` over active items |
| C11 | lock-step iteration over model map and data map | proof for data created after last structural edit; counterexample otherwise |
| C12 | ConstraintModelManager | invariant by induction |
| C13 | stacking loops | induction, layout function |
| C14 | shared constraint object with mutable bounds | counterexample and partial |
| C15 | update_bounds | decision logic; counterexample |
| C16 | Contact/ImpulseModelMultiple | as C09 |
| C17 | stacking loops, updateForce | as C13 |
| C18 | fext writes | counterexample; partial for distinct joints |
| C19 | cast functions | refinement, counterexample |
| C20 | feasibility loops | fold lemmas; counterexamples for inequality |
| C21 | setCandidate | decision logic; counterexample |
| C22 | setters | invariant over setter histories; counterexample for BoxQP::set_th_acceptstep |
| C23 | increase/decreaseRegularization, retry loop | invariant; termination over an Archimedean field; non-termination at 0 |
| C24 | DDP/FDDP::solve as state machine over oracles | loop invariant |
| C25 | same | loop invariant/accept lemma; counterexample below th_grad |
| C26 | solve + forwardPass | loop invariant |
| C27 | forward passes | induction over nodes |
| C28 | FDDP forward pass on vector states | induction over nodes |
| C29 | backward pass on LQ problems with matrices | induction over horizon (completion of squares) |
| C30 | expectedImprovement | corollary of C29's identity |
| C31 | Box forward passes | induction over nodes; counterexample for one-sided limits |
| C32 | BoxQP::solve | loop invariant |
| C33 | BoxQP line search | counterexample + partial |
| C34 | BoxQP exit condition | convexity argument |
| C35 | BoxDDP forward pass | counterexample + partial |
| C36 | KKT solve loop | non-termination proof + partial |
| C37–C40 | integrators on vector states | algebra, `HasFDerivAt` |
| C41–C43 | control parametrisations | algebra over a field |
| C44 | StateVector | algebra |
| C45–C48 | activations | calculus over ℝ, algebra, history model of the weights flag |
| C49 | LQR models with update flag and several data objects | history model, counterexamples, partial |
| C50 | unicycle | calculus |
| C51 | NumDiff | algebra |
| C52 | calcCostDiff | matrix algebra |
| C53–C55 | friction/wrench cones, CoP | trigonometry over ℝ, setters as state machine |
| C56 | smooth saturation | analysis over ℝ |
| C57–C58 | actuation models | algebra, history model |
| C59–C60 | Ipopt interface | induction over nodes; counterexamples |
| C61 | gait generator | induction/arith; counterexample for even knot counts |
| C62 | updateNode/updateModel/set_terminalModel | case analysis of the step function |
| C63–C64 | KKT solve loop with oracles, affine dynamics | algebra; loop invariant; counterexamples |
| C65–C66 | backward pass with matrices and regularisation | induction over the horizon; positive (semi)definiteness |
| C67 | DDP::solve instantiated with the LQ backward and forward passes | composition of C29, C30 and the solve loop |
| C68 | BoxDDP::computeGains on top of BoxQP | corollaries of the BoxQP theorems |
| C69 | LQR constructors and set_LQR | decision logic; counterexample |
| C70 | cast of models | concrete counterexamples |
| C71 | Ipopt start, bounds, solution | index arithmetic |
| C72–C74 | SolverIntro's backward pass; factorisations as parameters with their algebraic specification | null-space/Schur algebra, induction over the horizon, completion of squares; concrete real factorisation shows that the specification is satisfiable |
| C75–C77 | SolverIntro::solve on top of the FDDP forward pass | loop invariants as for C23–C28; concrete runs |
| C78–C80 | finite-difference residual, cost, constraint, actuation, activation, control, state; the shared data is an abstract value changed by every evaluation of the model | loop invariant on the columns; limits of difference quotients; concrete counterexamples |
| C81–C84 | forward dynamics, contacts and impulses; contracts of Pinocchio in `Spec/FwdDyn` (which equations its results solve, which functions its matrices are the derivatives of) | invertibility of the contact matrix; implicit differentiation of a linear system; concrete counterexamples for impulses |
| C85 | inverse dynamics: the loops that write the rows of the joints without actuator, the order of calls on the actuation data, the Jacobian container; contracts in `Spec/InvDyn` | loop lemma (the written rows are the filtered list), induction over the history of the data, derivative of a product with a vanishing factor; equivalence with C81; concrete counterexamples |
| C86 | contact frames as placements, spatial vectors in ℝ³×ℝ³; motions in time are curves of placements (`Spec/ContactFrame`) | derivative of the frame's position twice; energy argument for holding; concrete motions as counterexamples |
| C87 | the same; curves of states with the joint acceleration held (`Along`) | product rule for rotated vectors, identities of cross products, the logarithm's derivative along the curve |
| C88 | `updateForce` of the contacts, transport of forces | principle of virtual work (`Jᵀ` of the frame is `Jᵀ` of the joint on the transported force); derivative of the torques with the force held |
| C89 | impulses of three and six dimensions | the derivative of the contact's velocity, as in C87 |
| C90 | a residual, its data and the frame placements of the shared rigid-body data, over any list of calls | invariants of the list of calls (reference, unused blocks), then derivatives along curves as in C86–C89 |
| C91 | a residual model with any number of data objects, its flag and the stored forces, over any list of calls | invariants of the list of calls; the products of matrices are derivatives because the residuals are linear in the force |
| C92 | each residual class as a machine whose calls may be undefined, over any list of calls that also refresh the shared data | invariants of the list of calls; sums and products of derivatives |
| C93 | the state each quantity of the rigid-body data was computed at, through the calls of each action model | case analysis for every table of writes above the lower bound; counterexamples for every table below the upper bound |
| C94 | recorded functions and flat buffers of code-generated models; out-of-bounds access is undefined | invariant of the inputs over every history of calls, then reads of the written blocks; entries of Jacobian and Hessian located by index arithmetic; counterexamples |
| C95 | the checks of the loading constructor with 64-bit arithmetic; the copy constructor | characterisation of the checks; calls depend only on listed fields; counterexamples |
| C96 | `pseudoInverse` from a given decomposition; the read of the first singular value of an empty matrix is undefined | algebra of the factors, norms of orthonormal factors; the Moore-Penrose inverse is unique; counterexamples |
| C97 | the Newton loop with the data's last control, sizes checked at run time; integrators on top | one step solves an affine model and is a fixed point; orthogonality for closeness; induction over stages; invariant of the cycle for the counterexample |
| C98 | setters as steps of a state machine, the pair of a differential and an integrated model as another | invariants over histories; counterexamples by short histories |
| C99 | the copy constructor member by member, the size of the neutral control | calculation; counterexample for every model with controls |
| C100 | the state on top of an abstract group of configurations; buffers with run-time sizes and old contents | block derivative from the derivative on the group; entrywise comparison of buffers; planar rotations as an instance of the assumptions |
| C101 | Euler on an abstract group of configurations | chain rule through the joint derivative of `integrate`; uniqueness of derivatives for the counterexamples |
| C102 | stages of the schemes on an abstract group of configurations | the true derivative by induction over the stages, compared with the recursion of the code; the Heisenberg group as a group whose increments do not commute |
| C103 | the solve loop of `Model/Solve` with the oracle of `Model/LqSolve`, kinds FDDP and BoxFDDP | full-step prediction is exact (C30), so the full step passes the acceptance test; then as C67 |
| C104 | `expectedImprovementFddp` and the gap-contracting branch of `forwardPass` | the contracted step is the fraction `a` of the full step; the slope by an adjoint (telescoping) sum, the curvature from the full step |
| C105 | `Model/NumDiffDiff`: the loops of `diff-action.hxx` over an arbitrary differentiated model | loops as in C51; limits of the second quotients from Mathlib's second-order Taylor estimate (`Lemmas/SecondDiff`), also used for C51 |
| C106 | `Model/NumDiffContact`: the wrapper with the shared Pinocchio data as explicit state and the re-evaluations as functions on it | invariant of the loop over the directions; a one-dimensional contact for the counterexamples |
| C107–C109 | `Model/Nl`: the solve loop of `Model/Solve` on any nonlinear problem on a vector state, its derivatives an arbitrary function of the candidate, its backward pass that of `Model/Lq` | invariant over the iterations (derivatives, gaps and cost belong to the candidate), chain rule along the curve of trials, telescoping with the backward recursion; adjoint equation for stationarity |
| C110 | as C107 | acceptance test and sign of the quadratic term, summed over the iterations |
| C111 | `Model/Stopwatch`: the records by name, the clock an input of every call, throwing calls in the `Cpp` monad | simulation between the records and the list of measurements made, by induction over the calls |
| C112 | `Model/PairCollision`: the data across calls, nearest points an input, the joint Jacobian writing only the columns of the supporting joints | invariant on the unwritten columns; derivative of a material point; envelope argument (the distance is below the distance of the old material points, with equality at the state) |
| C113 | `Model/KktSystem`: the flat matrix and vector, written block by block at the offsets of the code, over what earlier calls left; the linear solve is any function that solves nonsingular systems | every entry of the assembled matrix by blocks (disjoint ranges, induction over nodes); rows as block equations; an energy identity shows the homogeneous system has only the zero solution, and that a solution is the unique minimiser |
| C114 | `Model/KktSystem`: `expectedImprovement`, `stoppingCriteria` | sums over the flat vector by blocks; expansion of the quadratic model; chain rule along the step; adjoint recursion |
| C115 | `Model/KktLq`: the loop of `Model/Kkt` with the linear system of `Model/KktSystem` and the derivatives of `ActionModelLQR` | the full step is accepted and optimal (C113, C114); at an optimum the direction vanishes, so the second iteration stops |
| C116 | `Model/Solve` (the FDDP loops of C27) | induction over iterations: the gaps and the feasibility flag before an iteration determine them after it |
| C117 | `Model/IpoptSolve`: `solve`, `finalize_solution` and the threshold setters around an arbitrary Ipopt outcome | case analysis over outcomes; the cost is compared with the problem's own total cost; counterexamples for the flag, the stale cost and the threshold |
| C118 | `Model/CsvStream`: escaping and the row state of the stream; `Spec/CsvStream`: a reader of quoted CSV as an automaton | induction over the fields: the reader consumes an escaped field exactly |
| C119 | `Model/Version` | decision logic against the lexicographic order |
| C120 | `Model/Verbose`: header and line as text, number formatting a parameter | positions of blocks in concatenations; the widths of the columns before a position are summed for header and line |
| C121 | `Model/Threads`: the process-wide flag, creation of nodes and data, the number of threads of a problem | invariants over histories of operations; counterexample histories |
| C122 | `Model/PyWrap`: what arrives in Python for a call from C++; NaN as a value | case analysis over classes, induction over the nodes of a problem |
| C123 | `Model/CheckData`: trees of models and of data, the outcome `undefined` | exact characterisation of the three outcomes by cases and induction over stages and nodes |
| C124 | `Model/PyAttrs`: the table of attributes, extracted by a script; objects as stores | induction over histories for every class whose table is in order; the table is checked in full by the kernel |
| C125 | `Model/PyContainers`: `std::set` and `std::map` as ordered lists | refinement to finite sets with ranks; induction over histories; round trips |
| C126 | `Model/Solve`, `Model/Nl`, `Model/BoxQp`, `Model/IntroSolve`, `Model/Kkt`, `Model/IpoptPlay` | relational invariant between two runs from arbitrary solver states, by induction over nodes, step lengths and iterations; for SolverIpopt by induction over the calls of an arbitrary deterministic optimiser; counterexample runs |
| C127 | `Model/SolverMem`, `Model/Shooting`, `Model/Solve`, `Model/IpoptLife` | invariant (notified or all arrays fit; numbers of elements and state dimensions always right) by induction over client histories; counterexample histories |
| C128 | `Model/DataCopy` | refinement of the memory with pointers by objects as values, by induction over client programs; closed forms of the programs that evaluate copies; counterexamples |
| C129 | `Model/Solve`, `Model/LqSolve`, `Model/Lq` | the gains survive the line search; the policy around the full step is that of the backward pass, whose excess cost is zero; induction over iterations; counterexamples |
| C130 | `Model/Solve` | loop invariant of the forward passes with the tests passed so far; an iteration keeps the candidate or installs a tested trial; induction over iterations; counterexamples |
| C131 | `Model/Lq`, `Model/LqSolve` | recursion over the last nodes reproduces the entries of the whole pass; uniqueness of the optimum (C29) and principle of optimality for the complete solves of C67, C103, C129 |
| C132 | `Model/Solve`, `Model/Nl`, `Model/Lq` | simulation: a map between solver states commutes with every step of `solve`; equivariance of the backward pass under orthogonal changes; combined with C126 to forget the earlier solver states; for changes of the axes of the state and added constants also with control limits (`Model/BoxNl`), from corresponding solver states; the same simulation for SolverKKT (`Model/Kkt`) and SolverIntro (`Model/IntroSolve`, with the backward pass and arbitrary derivatives in `Model/IntroNl`); for SolverIpopt (`Model/IpoptPlay`) by induction over the calls of an arbitrary deterministic optimiser that only compares objectives |
| C133 | `Model/Lq`, `Model/Solve` | the regularised backward pass is the plain backward pass of the problem with a quadratic penalty on the distance from the candidate; linear rate from strong convexity (compactness gives the constant); induction over the iterations |
| C134 | `Model/BoxLq`, `Model/BoxQp`, `Model/Solve` | the box QP of each node is solved at its KKT point, which is unique; costates and the gradient of the total cost along the candidate give the equivalence with constrained optimality; the negative prediction of a blocked step by the line-search loop; counterexamples by evaluating single iterations |
| C135 | `Model/IntroLq`, `Model/Intro`, `Model/IntroSolve` | the regularised backward pass is that of the problem with `rho` added to `Q` and `R` at the candidate, so the constrained optimality of C74 gives the proximal step; the line search accepts the full step since its merit is at most that predicted; the rate of the proximal point method along the line to the optimum (generalised from C133) gives convergence |
| C136 | `Model/Solve`, `Model/Nl`, `Model/Kkt`, `Model/IntroSolve` | a coupling of two solver states (same candidate, node data, derivatives, directions up to a relation) preserved by every step of `solve`; trials from a candidate marked feasible are plain rollouts for each solver, so the acceptance tests agree; for BoxFDDP an equality of programs; on linear-quadratic problems the one-iteration theorems of C67, C103, C115, C135 and uniqueness of the optimum |
| C137 | `Model/ContactStack` over `Model/ContactFrame` and `Model/FwdDyn` | the stacked contact classes satisfy what C81 and C82 assume of the contacts: rows from C86/C87, torques from C88, the fold of the assignments of forces to joints as a sum when the joints differ |
| C138 | `Model/ContactStack` over `Model/ContactFrame` and `Model/FwdDyn` | an impulse acts as a contact without gains, so torques follow from C88; velocities from C89; stacking as in C137; the wrong velocity of 6D impulses of type `WORLD` vanishes when their frames are at rest after the impact |
| C139 | `Model/Integrators` | consistency of the increments on balls (mean value inequality for the continuously differentiable model), expansion of the motion, discrete Grönwall inequality that also keeps the states in a tube around the motion; the cost is one more state; the orders from C39, the Taylor remainder and stability of a step |
| C140 | `Model/BoxLq`, `Model/BoxQp`, `Model/Lq` | the node conditions of C134 for arbitrary derivatives, adjoint recursion and chain rule of C107–C109 for the total cost; uniqueness of the KKT point of a strictly convex box QP; telescoping sum for the slope; the counterexample by kernel evaluation of one backward pass and symbolic trial steps; strictly inside the limits (`Model/BoxNl`), continuity of the trial controls in the step length shows that short steps are not clamped |
| C141 | `Model/Solve`, `Model/SolverBase`, `Model/Nl` | induction on the iterations left with two budgets: accepted steps (each decreases the cost by a fixed amount, by C110's lemma and the stopping test) and rejected ones (each multiplies the regularisation by the increase factor, an accepted one divides it at most once) |
| C142 | `Model/Node` (puts together `Model/FwdDyn`, `ContactStack`, `ResidualCost`, `Activations`, `IntegratorsManifold`) | composition of C45, C52, C81, C82, C101, C102, C137; derivatives along all curves are turned into Fréchet derivatives by Hadamard's criterion, proved with compactness of the unit sphere |
| C143 | `Model/Solve`, `Model/Lq` | the quadratic model of the cost along the linearised dynamics telescopes into the terms of the backward pass; Cauchy-Schwarz in the inner products of the `Quu` blocks bounds the slope by the expected improvement; the last iteration of a run that returns true by induction over the loop; the counterexample by running one iteration symbolically |
| C144 | `Model/Solve`, `Model/Lq` | as the regularisation `p` goes to infinity, the blocks of the backward pass, scaled by powers of `p`, converge to those of the backward pass without Hessians and with regularisation 1 (induction from the last node); there positivity is explicit, so the Cholesky test succeeds eventually; `p` times the change of cost of the full step converges to minus twice what the solver expects; then the loop by induction on the number of rejections left |
| C145 | `Model/Solve`, `Model/Lq` | the limits of C144 along an ultrafilter, which also makes bounded derivatives converge: so one regularisation is enough for all bounded derivatives, for the backward pass and for the stopping criterion; invariant of the loop: after a first accepted step the regularisation stays below that value times the factor, since otherwise the stopping test would have ended the run; C141 for the number of iterations |

## 4. Where the code disagrees with the property

Each of these is proved as a `_counterexample` (or violation) theorem unless marked "read".

* **Shooting problem.** `set_runningModels` indexes past the end of the data vector for every
  non-empty list; the constructor with datas does not check the terminal dimensions; the
  update flag is cleared by the first reader, so two solvers on one problem lose updates.
* **Managers.** Removing an *inactive* cost, contact or impulse subtracts its dimension from the
  active total, which wraps to 2⁶⁴ − n; adding an item object under an existing name changes the
  counters but not the map; constraint bounds changed while the constraint is active desynchronise
  the manager; `update_bounds` compares the stored bounds instead of the arguments in its infinity
  checks; only the last contact of a joint contributes to the external force; casts drop
  `compute_all_contacts` and removed bounds.
* **Solvers.** Forward passes call `calc(x)` for nodes without controls, `calc` of the problem calls
  `calc(x,u)`; BoxDDP marks clamped partial steps from infeasible candidates feasible; box solvers
  ignore one-sided limits; a zero initial regularisation never grows, so the retry loop may not end;
  `SolverKKT` never increases its regularisation in its catch block; it marks every accepted
  candidate feasible; l1 and l-infinity inequality feasibility are mixed up; `setCandidate` is not
  atomic; setters accept NaN; `BoxQP::set_th_acceptstep` accepts everything; the box QP's Armijo test
  has the wrong sign; its convergence test uses the regularised gradient.
* **SolverIntro.** Terminal equality constraints do not enter the backward pass; nodes without controls
  ignore theirs; a rank-deficient constraint Jacobian makes the null-space solvers use blocks of the wrong
  size; steps with a negative prediction are accepted on the cost alone and may increase the merit; the
  penalty update has the wrong sign, so it grows when the cost is predicted to *decrease*; a guess wrongly
  marked feasible can be returned as a success. Read: `set_rho(1)` is accepted and divides by zero; `Hu_rank_` is not
  updated by `resizeData`.
* **Integrators and controls.** RK3's Jacobian uses dt/2 where dt/3 is needed; `PolyTwoRK(two)` always
  yields zero; linear and quadratic parametrisations leave the converted bounds; Euler's terminal
  `calcDiff` keeps off-diagonal entries; `Jintegrate` with `setto` writes the diagonal only.
* **Activations.** Hessians of the weighted barrier and of the smooth norms have wrong factors; weight
  changes reach one data object only; casting bounds applies beta twice; +inf lower bounds vanish.
* **Models.** LQR's update flag belongs to the model, not the data; asymmetric Q and R are accepted;
  `set_LQR` does not check columns; casts of unicycle, finite differences and smooth saturation lose
  parameters; finite-difference Hessians are not computed in debug builds; `set_disturbance(0)`
  is accepted.
* **Finite differences.** The residual wrapper's terminal `calcDiff` uses the step of an earlier call, or
  none; the Hessian of an activation is its squared gradient; `calc` of the control wrapper does not
  set the value; `Jintegrate` ignores the assignment operator; `JintegrateTransport` does nothing.
* **Cones.** Friction-cone setters store the raw negative value; `set_nsurf` uses the inverse rotation;
  two facets give an unbounded cone; the wrench-cone constructor keeps a negative box.
  Read: an infinite box gives NaN rows; `CoPSupport` from a wrench cone copies a larger matrix.
* **Actuation.** Squashing bounds are not compared; `commands` of the squashed model is not an inverse;
  `dtau_dx` is not forwarded; thrusters accumulate; the thruster update flag belongs to the model.
* **Ipopt.** Every resize adds the number of constraints again; `eval_f` adds to the value passed in;
  `eval_jac_g`/`eval_h` use data of an earlier point; the terminal Hessian lacks the objective factor.
* **Gaits.** With an even number of knots (or one) the foot does not return to the ground. Read: the
  terminal model is the same object as the last running model.
* **Contact and impulse dynamics.** With two contacts (or impulses) on one joint only the last force reaches the
  derivatives of the torque, so `Fx` is wrong. For impulses `Fx` and the derivatives of the impulses ignore the restitution coefficient; with an
  armature `Fx` multiplies by the mass matrix that `computeRNEADerivatives` rewrote without it. Read: `cast`
  of the forward-dynamics actions drops the armature.
- C85: with an inactive contact the constraint on its force is constantly zero, since the container sets the force to zero
  before the residual reads it, but the reported derivative is the identity; two active contacts on a joint make the
  constraint "tau" fail at possible motions; `quasiStatic` with an inactive contact uses rows of the contact Jacobian left
  by earlier calls and returns forces that do not hold the system; with thrusters the joints marked as driven need not be as many as
  the controls: one thruster off the centre leaves a row of "tau" unwritten (the constraint holds at forces that no command
  produces), two thrusters on one axis make `calc` write beyond the residual.
- C86–C89: a contact of one dimension constrains along the last row of its rotation and announces (and measures its reference along) the
  last column; a contact of two dimensions adds an error in world directions to velocities in frame directions, misses the second
  axis in the derivative of the velocity terms, and reports its force in the directions of the joint; an impulse of six dimensions with type
  WORLD differentiates the velocity of a point at the origin of the world.
- C91: the flag by which `set_reference` asks for new Jacobians belongs to the model, so in inverse dynamics only the first data object
  evaluated afterwards gets them; an inactive contact has force zero but keeps the Jacobian of an active one; the friction cone of a
  contact of two dimensions reads its force in the directions of the joint and differentiates it in those of the cone.
- C92: the joint-effort residual made from state and actuation never sets its flag, which terminal calls read; its other constructors do
  not check the size of the reference; the acceleration residual is zero at terminal nodes but keeps the derivatives of running nodes;
  the control-gravity residuals leave out the derivative of the torques with respect to the state; the one in contact uses the
  external forces its data had at creation, which are zero.
- C93 (subject to the unchecked upper bound on what Pinocchio's algorithms write): before the costs of running nodes, free forward
  dynamics without armature do not compute the centre of mass or the momentum, free inverse dynamics neither, contact inverse dynamics
  not the momentum; impulses compute the derivatives of velocities at the velocity after the impulse and those of the
  momentum at velocity zero; terminal nodes do not compute derivatives of velocities and momentum.
- C94: generating code for a model with constraints writes outside a buffer (`recordCalcDiff_T` uses the numbers of running constraints,
  the terminal ones are never passed on); activating a constraint afterwards makes `calc` read outside. Comparisons are frozen at the
  recording point. The residual is never filled, control limits are not copied, `checkData` rejects the model's own data,
  `quasiStatic` ignores `update_p`. With automatic differentiation, derivatives of states with nx ≠ ndx are read at wrong places.
- C95: a library is accepted for models of another tangent dimension, or with one coordinate less and one constraint more. Copies of
  models with automatic derivatives cannot compute them, copies of loaded models dereference a null pointer.
- C96: singular values below `1e-12 max(rows, cols)` times the largest are dropped, so badly scaled invertible matrices do not get
  their inverse. For a matrix without rows or columns (actuation of a system without actuators) the first singular value is read anyway.
- C97: the Newton loop of `quasiStatic` reports nothing: it returns normally after stopping where `Fu` vanishes, or after `maxiter` steps of
  a cycle, although controls that hold the state exist.
- C98: `has_control_limits` needs a finite lower and a finite upper limit, although its comment says any limit; with limits on one side
  only, the box solvers and Ipopt ignore them. Limits set on a differential model after an integrated model was built on it do not reach the
  integrated model. `set_g_lb` and `set_g_ub` of an integrated model store bounds that no getter returns.
- C99: the copy constructor of `ActionModelAbstractTpl` leaves out `unone_`, so the call without control of the base class passes an empty
  control on a copy, which the size checks of the derived classes reject (Python's `copy` and `deepcopy` use this constructor).
- C100: `Jdiff` and `Jintegrate` with `setto` of the multibody state write the configuration block and one diagonal only, so other entries of
  the buffer stay; the sizes of `x` and `dx` are not checked in `Jintegrate` and `JintegrateTransport`. The constructor takes the entries of
  `root_joint` to be the first ones of the configuration, also when it is not the first joint. `cast` drops limits set by the user.
- C101: `calcDiff(x)` of the Euler action leaves the entries of `Fx` outside the configuration block and the diagonal; after `calcDiff(x, u)` on the
  same data `Fx` is not the identity. `calcDiff(x, u)` reads the increment that the last `calc(x, u)` left.
- C102: in `rk.hxx` L209-213 the derivative of the second stage with respect to the velocity is `dt/2` times that with respect to the
  configuration. The other stages multiply by the derivative of `integrate` with respect to the increment, this one does not. So for floating
  bases and spherical joints `Fx` of RK2, and `Fx` and `Lx` of RK4, are in general wrong when the accelerations depend on the configuration.
- C103: FDDP accepts a step with a non-negative prediction only if the cost decreases by more than a fraction of it (or the slope is below
  `th_grad`). From an infeasible guess whose cost equals the optimal cost the full step, which would reach the optimum, is rejected.
- C104: `SolverFDDP::expectedImprovement` computes `dv` from the trial states of the step being tried. These scale with the step length, and
  the formula `a (d0 + a d1 / 2)` scales it again. The quadratic model requires `dv` of the full step. For `a < 1` from an infeasible
  candidate the prediction is off by exactly `a (1-a)^2` times the sum of `f' Vxx dx` over the nodes, so the line search compares the
  decrease with a wrong number.
- C106: `ContactModelNumDiff::calc` copies only the drift from the differentiated contact's data, so the contact Jacobian the dynamics read
  stays zero; `updateForce` writes only the inner data, so the reported force stays zero; `calcDiff` leaves the shared Pinocchio data at the
  last disturbed state. The class is usable only as a checker of drift derivatives.
- C105: as C51: Hessians are computed only under `NDEBUG`, `set_disturbance(0)` is accepted although every quotient then divides by zero.
- C107: at an infeasible candidate the improvement FDDP predicts is wrong already to first order: it omits `Σ (Vxx f)·δ`
  (`C107_slope_gaps_partial`; `C107_gaps_counterexample`: predicted `-a/2`, actual `o(a)`). This is the nonlinear side of C104.
- C111: `Stopwatch` statistics. With one measurement the reported minimum is the largest number (`C111_min_counterexample`);
  after `reset` it stays zero (`C111_min_reset_counterexample`); a start at clock value zero is dropped
  (`C111_zero_counterexample`); `pause` reads `clock()` in every mode (`C111_pause_counterexample`); watchers ignore
  `turn_off` (`C111_turn_off_counterexample`); enabling the profiler between `START_PROFILER` and `STOP_PROFILER` makes
  the latter throw (`C111_enable_counterexample`).
- C112: `Rx` of the pair-collision residual treats the nearest points as fixed in the bodies, so it is not the Jacobian of `r`
  when they slide (`C112_jacobian_counterexample`); the gradient of half the squared distance is right all the same
  (`C112_gradient`), but not with other activations in general. If the second object is carried by the robot (outside the
  use the header describes) the gradient is wrong too (`C112_moving_counterexample`). By reading: `cast` is defined in the
  `.hxx` with another return type than declared, and `get_pair_id`, `set_pair_id` are declared but not defined.
- C113-C115: `SolverKKT::calcDiff` reads `get_runningModels()[0]` also when there is no running node; the theorems ask for at
  least one. `stoppingCriteria` is evaluated after the line search but on the system of the candidate before the step, so
  `solve` returns true one iteration after the criterion is met by the stored candidate (C115: two iterations on a
  linear-quadratic problem that the first one solves).
- C117: after a successful `SolverIpopt::solve` the flag returned by `get_is_feasible()` is the one passed to `solve`, not that
  of the solution (`C117_flag_counterexample`). If Ipopt stops without calling `finalize_solution` the trajectories and cost are
  those of before (`C117_stale_counterexample`). `set_th_stop` is not virtual: called through `SolverAbstract` it leaves Ipopt's
  tolerance unchanged (`C117_tolerance_counterexample`).
- C118: values that are not `std::string`/`const char*` go through the template and are not escaped
  (`C118_raw_counterexample`).
- C120: a negative cost shifts all later columns of its line (`C120_negative_cost_counterexample`); for precisions below 3 the
  headings of the feasibilities are wider than their columns (`C120_precision_counterexample`).
- C121: creating the data of a code-generated node raises the process-wide flag that a Python model lowered
  (`C121_codegen_counterexample`); `updateModel`, `circularAppend` and `set_terminalModel` put a Python model into a problem with
  many threads (`C121_update_counterexample`); the bindings of constraints do not lower the flag
  (`C121_constraint_counterexample`) and those of states only on construction (`C121_state_counterexample`); the copy constructor
  of problems leaves the number of threads uninitialised (`C121_copy_counterexample`).
- C122: with no controls the terminal call arrives with an empty control (`C122_autonomous_counterexample`); integrated models
  get a zero control at the terminal node and actuations no call (`C122_integrated_counterexample`); a NaN control turns a running
  node into a terminal one (`C122_nan_counterexample`); a quasi-static control of wrong size is read out of range
  (`C122_quasi_static_counterexample`); `cast` of differential models swaps controls and residuals (`C122_cast_counterexample`).
- C123: `checkData` of Euler and Runge-Kutta tests the wrong pointer and dereferences null
  (`C123_integrator_counterexample`), and reads past the stages of other schemes (`C123_stages_counterexample`); sizes are not
  compared (`C123_size_counterexample`); numerical-differentiation and Python models (`C123_base_counterexample`) and
  code-generated models (`C123_codegen_counterexample`) reject their own data.
- C124: `ActivationBounds.ub = v` sets `lb` (`C124_bounds_counterexample`); `Thruster.max_thrust` is `min_thrust`
  (`C124_thrust_counterexample`); `ContactData6D.rMf` is `jMf` (`C124_contact_counterexample`); `nY1_T`, `nY2_T`, `nY3`, `nY3_T` of
  code-generated models are `nY1` and `nY2` (`C124_codegen_counterexample`).
- C125: the converter of Python sets tests the iterator, so only empty sets are accepted
  (`C125_convertible_counterexample`).
- C126: when all trials of an iteration fail, FDDP's stopping criterion is that of an earlier solve
  (`C126_stop_counterexample`); BoxDDP's quadratic programs start from the feed-forward terms of earlier solves and may return other
  gains (`C126_box_counterexample`); SolverIntro keeps the penalty parameter of earlier solves and may reject every step
  (`C126_intro_counterexample`); SolverKKT does not reset `was_feasible_`, so that a solve in which every step is rejected returns true
  or false depending on earlier solves (`C126_kkt_counterexample`); SolverIpopt reports the cost of the
  solve before when Ipopt hands over no solution (`C126_ipopt_cost_counterexample`), and an optimiser that begins with the Jacobian gets
  derivatives at a point of an earlier solve (`C126_ipopt_stale_counterexample`).
- C127: a solver misses node updates that another consumer of the problem asked about first
  (`C127_two_consumers_counterexample`), and changes of the constraints of a model in the problem
  (`C127_constraints_counterexample`); SolverKKT never resizes its arrays (`C127_kkt_counterexample`). The quadratic-program solver of the
  box solvers keeps the number of controls of the first node, so with a node of another number of controls and limits every `solve`
  from a feasible guess fails without an iteration (`C127_box_stuck`). Resized feed-forward terms have coefficients that were never
  written and that the box solvers read (`C127_uninit_counterexample`). SolverIpopt::solve never asks whether the problem
  was updated: after a node got more controls, its first new control is the same variable as the first component of the next state
  (`C127_ipopt_counterexample`), and get_starting_point can write beyond the array (`C127_ipopt_overflow_counterexample`). A client
  cannot repair this with `resizeData`, which counts the constraints again: while the number of controls differs from that at
  construction, every `solve` announces a wrong number of variables or of constraints (`C127_ipopt_no_remedy_counterexample`).
- C128: `copy()` and `deepcopy()` of the data of a differential action copy addresses: evaluating the copy gives the cost of the
  kinematics of the original (`C128_stale`), writes the cost derivatives into the original (`C128_overwrite`), and accesses freed memory
  when the original is gone (`C128_dangling`). Copies of integrated action data share the data of the differential action
  (`C128_shared`).
- C129: the gains and value function left by `solve` belong to the candidate before the last step (`C129_of_last_direction`,
  `C129_stale_counterexample`, `C129_value_counterexample`), and to the regularised problem when `reg_min > 0`, as by default
  (`C129_regularised_counterexample`).
- C130: controls and the initial guess are not tested for invalid numbers (`C130_control_counterexample`,
  `C130_guess_counterexample`); FDDP with open gaps, and BoxDDP at the last node, test the state before they add the remaining gap
  (`C130_gap_counterexample`, `C130_box_counterexample`).
- C131: a sliding window of constant length re-plans differently from the plan it moves along (`C131_sliding_counterexample`);
  only the shrinking rest of a problem is time consistent.
- C132: the primal regularisation is added to `Quu` and to `Vxx` in the coordinates of the user, so the iterates depend on
  the units of the state (`C132_state_unit_counterexample`), on those of the controls
  (`C132_control_unit_counterexample`) and on the scale of the costs (`C132_cost_scale_counterexample`).
  With control limits the gradient threshold of the box QP is fixed to `1e-5`, so the scale of the costs matters even when
  thresholds and regularisation are scaled along (`C132_box_scale_counterexample`).
- C134 (`C134_blocked_prediction`, `C134_blocked_iteration`, `C134_blocked_convergence`, `C134_rejected_counterexample`,
  `C134_false_convergence_counterexample`): at clamped controls both box solvers set the
  stored `Qu` to zero before the expected improvement is computed, but keep `k` and `Quu`. A step that moves every moving control
  onto its limit is therefore predicted to worsen the cost (`d_[0] = 0`, `d_[1] < 0`), and the acceptance tests reject it from a
  feasible candidate, for every step length. The regularisation is then increased until the step no longer reaches the limit.
  The stopping test uses the absolute value of the same prediction, so it can report convergence away from the optimum.
- **C135** (intro.cpp L116-160, L178-181, L193-196). The stopping test compares the improvement of the cost predicted from the
  candidate before the step with the threshold, also when that candidate violates the constraints. The prediction can then be zero by
  cancellation, and `solve` returns true in its first iteration at a point whose cost is not optimal
  (`C135_converged_counterexample`). And a full step to the constrained optimum is rejected when the guess violates the constraints and
  has exactly the optimal merit, which happens with the initial penalty 0 (`C135_one_iteration_counterexample`).
- **C136** (box-ddp.cpp L156-161). Without control limits BoxDDP should be DDP, as BoxFDDP is FDDP. From an infeasible guess it is
  not: with a step length below 1 its last state is not that of the dynamics, the candidate is marked feasible all the same, and its
  cost is computed at that state (`C136_box_ddp_counterexample`).
- **C137** (multiple-contacts.hxx L233-282). `updateForce` assigns the force of a contact to its joint instead of adding it. With two
  contacts on one joint (two feet points of one body) the external forces passed to `computeRNEADerivatives` and reported to the user
  are those of the last contact only, and `Fx` is wrong (`C137_shared_joint_counterexample`).
- **Clamped trial steps can lose at every step length** (C140). The feed-forward terms of the box solvers respect the limits, but the feedback
  terms of free controls do not: they can push a control that is at its limit outwards, and the forward pass clamps it. The clamped
  step is not a descent direction in general. `C140_clamped_counterexample` is a convex linear-quadratic problem with two nodes where
  BoxDDP and BoxFDDP, with default parameters, predict an improvement, while every step length in `(0, 1]` raises the cost.
- **Improving steps can be rejected at every step length** (C140). `computeGains` of the box solvers sets to zero the entries of `Qu` of the clamped
  controls, and the expected improvement is computed from the result. When the full step moves a control onto its limit against its own
  gradient entry (because of the coupling with another control), the prediction exceeds the slope of the cost by any factor. In
  `C140_overshoot_counterexample` (one node, two controls strictly inside their limits, convex cost, default parameters) every step length in
  `(0, 1]` lowers the cost and every one is rejected.
- **A width of zero gives NaN gradients** (C45). `ActivationModelQuadFlatExp` and `ActivationModelQuadFlatLog` refuse a negative `alpha` only, although
  their message asks for a positive one. With `alpha = 0` both gradients are NaN at every residual (`0 · inf` or `0 / 0`), and the values are NaN at
  the zero residual: `C45_flat_zero_counterexample`, in a model with the special values of IEEE 754 (`Model/FlatZero`).
- **`solve` can return true after a step that was never tested** (C143). When the linear term of the expected improvement is below
  `th_grad`, a trial is accepted whatever its cost, and the stopping test that follows looks only at the same expected improvement.
  `C143_worse_counterexample` is a smooth problem with one control, exact derivatives and exact Hessians: from a feasible guess of
  cost 0, every solver with its default parameters takes one full step of 1e-3, returns true, and leaves a trajectory of cost more
  than 999. The near-stationarity that success suggests is proved for the trajectory before that step (`C143_success_partial`).
- **The stopping criterion is small whenever the regularisation is large** (C145). It is half the sum of `Qu . Quu^-1 Qu`, and `Quu`
  contains the regularisation. `C145_premature_counterexample`: for every problem, every feasible guess that is not stationary and
  every `eps`, each solver returns true after its first iteration, having improved the cost by less than `eps`, when the initial
  regularisation is large enough. The same happens without the user asking for it when the regularisation is raised after
  rejected steps: this is why a large `reg_max` makes `solve` return true (`C145_returns_true_partial`).

## 5. Testing against wrong programs

`seeded/LOG.jsonl` has one line per edited model: definition, edit, claim, the theorems that failed,
and, for edits that survived at first, the theorems added or tightened.
