{"id": "C01", "title": "Shooting problem stays well formed", "statement": "After any sequence of successful circularAppend / updateNode / updateModel / set_x0 / set_terminalModel / set_nthreads / is_updated calls on a well-formed problem, the problem still has exactly T running models and T running datas, every node (running and terminal) has the problem's nx and ndx, x0 has size nx, every data was accepted by (or created by) the model at the same node, and T, nx, ndx are unchanged.", "quantifier": "all initial problems accepted by the constructor and all finite sequences of calls with arbitrary arguments", "why_tests_cant": "The history space is infinite; a bad interleaving of window shifts and single-node updates would only show at particular lengths.", "anchors": ["include/crocoddyl/core/optctrl/shooting.hxx:circularAppend,updateNode,updateModel,set_terminalModel,set_x0,set_nthreads"]}
{"id": "C02", "title": "Rejected problem updates change nothing", "statement": "Whenever a mutator of the shooting problem throws, the observable state of the problem (x0, models, datas, T, threads) is exactly what it was before the call.", "quantifier": "all problem states and all argument values that make the call throw", "why_tests_cant": "Needs every reason to reject, at every problem state.", "anchors": ["include/crocoddyl/core/optctrl/shooting.hxx:circularAppend,updateNode,updateModel,set_x0,set_terminalModel"]}
{"id": "C03", "title": "circularAppend is a sliding window", "statement": "After appending models m1..mk one at a time to a problem with running models a1..aT, the running models (and datas) are the last T elements of a1..aT,m1..mk, in order; no node is lost, duplicated or reordered.", "quantifier": "all horizons T>=1 and all finite sequences of accepted appended models", "why_tests_cant": "Off-by-one shift errors depend on T and on the number of appends.", "anchors": ["include/crocoddyl/core/optctrl/shooting.hxx:circularAppend"]}
{"id": "C04", "title": "Problem cost is the sum of node costs for every thread schedule", "statement": "calc(xs,us) returns the sum of the costs of the running nodes and the terminal node, and leaves in each node's data what that node's model computes from its own (x,u); the result is the same for every order in which the parallel loop executes the nodes, provided each node owns its data.", "quantifier": "all problems, trajectories and all execution orders (permutations) of the node loop", "why_tests_cant": "Thread schedules cannot be enumerated; data sharing bugs are intermittent.", "anchors": ["include/crocoddyl/core/optctrl/shooting.hxx:calc,calcDiff"]}
{"id": "C05", "title": "Rollout yields a dynamically feasible trajectory", "statement": "rollout(us) returns T+1 states with xs[0]=x0 and xs[i+1] the next state of node i at (xs[i],us[i]); evaluating calc on (xs,us) afterwards gives next states equal to xs[i+1] at every node, so every gap is zero.", "quantifier": "all problems, all control trajectories of length T", "why_tests_cant": "Must hold at every node of every horizon.", "anchors": ["include/crocoddyl/core/optctrl/shooting.hxx:rollout"]}
{"id": "C06", "title": "Update notifications are delivered exactly once", "statement": "After a structural update of the problem, the next is_updated() query returns true and all later ones return false until another update; a consumer polling the flag never misses an update.", "quantifier": "all interleavings of updates and queries, by any number of consumers", "why_tests_cant": "It is a property of all interleavings of producers and consumers.", "anchors": ["include/crocoddyl/core/optctrl/shooting.hxx:is_updated,circularAppend,updateNode,updateModel,set_x0,set_runningModels", "src/core/solvers/ddp.cpp:resizeData", "src/core/solvers/fddp.cpp:solve"]}
{"id": "C07", "title": "Replacing the running models installs the given list", "statement": "set_runningModels(models) either throws and changes nothing, or makes the running models exactly the given list with one fresh data each and T equal to its length.", "quantifier": "all problems, all replacement lists", "why_tests_cant": "Out-of-bounds accesses depend on the lengths of the old and new lists.", "anchors": ["include/crocoddyl/core/optctrl/shooting.hxx:set_runningModels"]}
{"id": "C08", "title": "Construction accepts exactly dimension-consistent problems", "statement": "The constructors succeed only if x0 has the size of the first model's state and every running and terminal model shares the first model's nx and ndx (and, when datas are given, their number matches and each is valid for its model).", "quantifier": "all lists of models, datas and x0", "why_tests_cant": "Every position of a mismatching model must be detected.", "anchors": ["include/crocoddyl/core/optctrl/shooting.hxx:ShootingProblemTpl"]}
{"id": "C09", "title": "Cost-sum residual dimensions track the items", "statement": "After any sequence of addCost/removeCost/changeCostStatus calls, get_nr() is the sum of the residual dimensions of the active items, get_nr_total() the sum over all items, the active set is exactly the names of active items and the inactive set exactly the names of inactive items.", "quantifier": "all finite histories of add/remove/activate/deactivate calls with arbitrary names", "why_tests_cant": "Counters can drift only after particular histories.", "anchors": ["include/crocoddyl/core/costs/cost-sum.hxx:addCost,removeCost,changeCostStatus,get_nr,get_nr_total"]}
{"id": "C10", "title": "Cost sum value and derivatives are the weighted sum over active items", "statement": "calc returns the sum over active items of weight times item cost, and calcDiff the same weighted sums for Lx, Lu, Lxx, Lxu, Luu; inactive items contribute nothing, so deactivating an item gives the same numbers as removing it.", "quantifier": "all sets of items, weights, statuses and all x,u", "why_tests_cant": "Depends on all subsets of active items.", "anchors": ["include/crocoddyl/core/costs/cost-sum.hxx:calc,calcDiff"]}
{"id": "C11", "title": "Cost-sum evaluation pairs every model with its own data", "statement": "calc/calcDiff evaluate each active cost model with the data created for that same model, or throw.", "quantifier": "all histories of structural edits between createData and calc", "why_tests_cant": "Needs every interleaving of edits and data creation.", "anchors": ["include/crocoddyl/core/costs/cost-sum.hxx:calc,calcDiff", "include/crocoddyl/core/costs/cost-sum.hpp:CostDataSumTpl"]}
{"id": "C12", "title": "Constraint-manager dimensions track the items", "statement": "After any sequence of addConstraint/removeConstraint/changeConstraintStatus calls, get_ng/get_nh are the sums over active constraints, get_ng_T/get_nh_T the sums over active terminal constraints, the active/inactive sets list exactly the active/inactive names, and the bound vectors have size get_ng().", "quantifier": "all finite histories of calls with arbitrary names and dimensions", "why_tests_cant": "Counters can drift only after particular histories.", "anchors": ["include/crocoddyl/core/constraints/constraint-manager.hxx:addConstraint,removeConstraint,changeConstraintStatus"]}
{"id": "C13", "title": "Stacked constraint vector layout", "statement": "calc stacks the active constraints in name order in disjoint contiguous row blocks that exactly cover 0..ng (and 0..nh), and the lower/upper bounds in row k are those of the constraint whose residual is in row k; calcDiff uses the same rows.", "quantifier": "all sets of constraints with any dimensions and statuses", "why_tests_cant": "Layout must be right for every combination of dimensions.", "anchors": ["include/crocoddyl/core/constraints/constraint-manager.hxx:calc,calcDiff"]}
{"id": "C14", "title": "Changing a constraint's bounds keeps the manager consistent", "statement": "Switching a constraint already held by a manager between inequality (update_bounds) and equality (remove_bounds) is reflected in the manager's dimensions.", "quantifier": "all histories mixing manager calls with bound updates on held constraints", "why_tests_cant": "Aliasing through shared pointers: depends on the order of calls on two objects.", "anchors": ["include/crocoddyl/core/constraint-base.hxx:update_bounds,remove_bounds", "include/crocoddyl/core/constraints/constraint-manager.hxx:get_ng,get_nh,removeConstraint"]}
{"id": "C15", "title": "update_bounds accepts only valid bounds", "statement": "update_bounds(lower,upper) throws unless both vectors have the constraint's inequality dimension, lower<upper in every entry, no entry of lower is +inf/NaN-like and no entry of upper is -inf; when it throws the bounds are unchanged.", "quantifier": "all vectors including infinite entries and all previous bounds", "why_tests_cant": "The space of bound vectors is infinite and the bug depends on the previously stored bounds.", "anchors": ["include/crocoddyl/core/constraint-base.hxx:update_bounds"]}
{"id": "C16", "title": "Contact/impulse dimensions track the items", "statement": "After any sequence of add/remove/changeStatus calls on the multi-contact (multi-impulse) model, get_nc() is the sum of the dimensions of active items and get_nc_total() of all items, and the active/inactive sets are exact.", "quantifier": "all finite histories of calls", "why_tests_cant": "Counters can drift only after particular histories.", "anchors": ["include/crocoddyl/multibody/contacts/multiple-contacts.hxx:addContact,removeContact,changeContactStatus", "include/crocoddyl/multibody/impulses/multiple-impulses.hxx:addImpulse,removeImpulse,changeImpulseStatus"]}
{"id": "C17", "title": "Stacked contact Jacobian layout", "statement": "calc stacks Jacobian and drift of active contacts in name order in disjoint contiguous blocks; with compute_all_contacts the blocks of inactive contacts are zero; updateForce gives each contact exactly its own block of the force vector and zero force to inactive contacts.", "quantifier": "all sets of contacts with any dimensions and statuses", "why_tests_cant": "Layout must be right for every combination.", "anchors": ["include/crocoddyl/multibody/contacts/multiple-contacts.hxx:calc,updateForce"]}
{"id": "C18", "title": "External force on a joint is the total of the contacts attached to it", "statement": "After updateForce, the external force of every joint is the sum of the (joint-frame) forces of the active contacts whose frame is attached to that joint.", "quantifier": "all contact sets, attachments and forces", "why_tests_cant": "Depends on which contacts share a joint.", "anchors": ["include/crocoddyl/multibody/contacts/multiple-contacts.hxx:updateForce", "include/crocoddyl/multibody/impulses/multiple-impulses.hxx:updateForce"]}
{"id": "C19", "title": "Casting a manager preserves it", "statement": "cast() of the multi-contact model / cost sum / constraint manager to another scalar type gives a model with the same items, statuses, dimensions and options.", "quantifier": "all managers reachable by any history", "why_tests_cant": "Options set before the cast are easily dropped.", "anchors": ["include/crocoddyl/multibody/contacts/multiple-contacts.hxx:cast", "include/crocoddyl/core/costs/cost-sum.hxx:cast", "include/crocoddyl/core/constraints/constraint-manager.hxx:cast"]}
{"id": "C20", "title": "Feasibility measures are the documented norms", "statement": "The dynamic, equality and inequality feasibility returned by the solver are the l1 (sum) or l-infinity (maximum) norm, as selected, over all running nodes and the terminal node of, respectively, the gaps, the equality residuals and the inequality violations.", "quantifier": "all horizons, all gap/constraint values, both norms", "why_tests_cant": "The terminal and running nodes must be combined identically for every horizon and value.", "anchors": ["src/core/solver-base.cpp:computeDynamicFeasibility,computeEqualityFeasibility,computeInequalityFeasibility"]}
{"id": "C21", "title": "setCandidate installs the given trajectory or nothing", "statement": "setCandidate(xs,us,feasible) either throws leaving the stored candidate unchanged, or stores xs and us with the declared feasibility (defaults: zero states and controls).", "quantifier": "all argument lengths and vector sizes", "why_tests_cant": "Atomicity must hold at every throwing point.", "anchors": ["src/core/solver-base.cpp:setCandidate"]}
{"id": "C22", "title": "Solver parameters stay in their valid range", "statement": "Every sequence of setter calls on a DDP/BoxQP/abstract solver, each accepted or rejected, leaves every parameter inside its documented range; rejected values are not stored.", "quantifier": "all sequences of setter calls with arbitrary values", "why_tests_cant": "All histories of all setters.", "anchors": ["src/core/solver-base.cpp:set_th_acceptstep,set_th_stop,set_th_gaptol,set_reg…", "src/core/solvers/ddp.cpp:set_reg_incfactor,set_reg_decfactor,set_reg_min,set_reg_max,set_alphas,set_th_stepdec,set_th_stepinc", "src/core/solvers/box-qp.cpp:set_th_acceptstep,set_th_grad,set_reg,set_alphas"]}
{"id": "C23", "title": "Regularisation stays within bounds and backs off finitely", "statement": "Along any sequence of increases and decreases the regularisation stays in [reg_min,reg_max]; starting from a positive value, finitely many increases reach reg_max, so the retry loop of solve() always ends.", "quantifier": "all regularisation values, factors and sequences of increases/decreases", "why_tests_cant": "Termination is a statement about an unbounded loop.", "anchors": ["src/core/solvers/ddp.cpp:increaseRegularization,decreaseRegularization,solve"]}
{"id": "C24", "title": "solve() reporting success means converged and feasible", "statement": "If DDP/FDDP solve() returns true then the final candidate is marked dynamically feasible and the stopping criterion is below th_stop; solve() performs at most maxiter iterations.", "quantifier": "all problems (as oracles for direction, line search and stopping criterion), iteration limits and parameters", "why_tests_cant": "It is a property of every execution of a loop with data dependent exits.", "anchors": ["src/core/solvers/ddp.cpp:solve", "src/core/solvers/fddp.cpp:solve"]}
{"id": "C25", "title": "Accepted steps from a feasible candidate decrease the cost", "statement": "In DDP and FDDP solve(), when the current candidate is feasible and the gradient is above th_grad, an accepted step has strictly positive improvement of at least th_acceptstep times the expected one, hence the cost sequence is decreasing.", "quantifier": "all oracle answers, step lengths and histories", "why_tests_cant": "All executions.", "anchors": ["src/core/solvers/ddp.cpp:solve", "src/core/solvers/fddp.cpp:solve"]}
{"id": "C26", "title": "The reported cost is the cost of the stored candidate", "statement": "After every accepted step, the solver's cost equals the total cost of the problem at the stored (xs,us).", "quantifier": "all problems and histories of accepted steps", "why_tests_cant": "All executions.", "anchors": ["src/core/solvers/ddp.cpp:forwardPass,solve", "src/core/solvers/fddp.cpp:forwardPass"]}
{"id": "C27", "title": "Forward pass from zero gaps or with full step is an exact rollout", "statement": "The DDP forward pass returns a trial trajectory starting at x0 whose every state is the next state of the previous node under the trial control, so that marking it feasible is sound; FDDP does so when the candidate is feasible or the step is 1.", "quantifier": "all problems, candidates, gains and step lengths", "why_tests_cant": "Every node of every horizon.", "anchors": ["src/core/solvers/ddp.cpp:forwardPass", "src/core/solvers/fddp.cpp:forwardPass"]}
{"id": "C28", "title": "FDDP contracts gaps by the factor one minus the step length", "statement": "For vector-space states, after an FDDP forward pass with step a the gap at every node equals (1-a) times the previous gap.", "quantifier": "all problems, candidates, gains and a in [0,1]", "why_tests_cant": "Every node, every horizon, every step.", "anchors": ["src/core/solvers/fddp.cpp:forwardPass", "src/core/solver-base.cpp:computeDynamicFeasibility"]}
{"id": "C29", "title": "The backward pass solves linear-quadratic problems exactly", "statement": "For every linear-quadratic problem with positive definite control Hessians and zero regularisation, the policy computed by the backward pass minimises the total cost over all control sequences, and the value function it stores is the optimal cost-to-go.", "quantifier": "all horizons, dimensions, LQ data and competitor control sequences", "why_tests_cant": "Optimality over all control sequences.", "anchors": ["src/core/solvers/ddp.cpp:backwardPass,computeActionValueFunction,computeValueFunction,computeGains"]}
{"id": "C30", "title": "Expected improvement is exact on linear-quadratic problems", "statement": "For LQ problems and a feasible candidate, the predicted improvement a*(d0+0.5*a*d1) is exactly the cost decrease achieved by the forward pass with step a.", "quantifier": "all LQ problems, candidates and steps a in [0,1]", "why_tests_cant": "Equality over all inputs.", "anchors": ["src/core/solvers/ddp.cpp:expectedImprovement,forwardPass"]}
{"id": "C31", "title": "Box solvers respect control limits", "statement": "Every control of a trial trajectory produced by BoxDDP/BoxFDDP lies within the node's [u_lb,u_ub].", "quantifier": "all problems with limits, candidates, gains and steps", "why_tests_cant": "All nodes and all numeric values.", "anchors": ["src/core/solvers/box-ddp.cpp:forwardPass", "src/core/solvers/box-fddp.cpp:forwardPass", "include/crocoddyl/core/action-base.hxx:update_has_control_limits"]}
{"id": "C32", "title": "BoxQP always returns a point inside the box", "statement": "For every Hessian, gradient, bounds lb<=ub, warm start and parameters, BoxQP::solve returns x with lb<=x<=ub, and the free and clamped index sets partition the coordinates.", "quantifier": "all QP data, all iteration counts", "why_tests_cant": "All inputs and all loop iterations.", "anchors": ["src/core/solvers/box-qp.cpp:solve"]}
{"id": "C33", "title": "BoxQP line search never accepts an increase of the objective", "statement": "Each accepted step of BoxQP::solve does not increase 0.5 x'Hx+q'x.", "quantifier": "all QP data", "why_tests_cant": "All inputs.", "anchors": ["src/core/solvers/box-qp.cpp:solve"]}
{"id": "C34", "title": "BoxQP convergence implies optimality", "statement": "If BoxQP::solve stops because the free gradient is zero (th_grad=0) then the returned point satisfies the KKT conditions of the box QP, and is a global minimiser when H is positive semidefinite.", "quantifier": "all QP data", "why_tests_cant": "Global optimality over all feasible points.", "anchors": ["src/core/solvers/box-qp.cpp:solve"]}
{"id": "C35", "title": "BoxDDP candidates marked feasible are feasible", "statement": "When DDP::solve accepts a BoxDDP trial trajectory it marks it feasible; the trajectory has zero gaps.", "quantifier": "all problems, candidates and steps", "why_tests_cant": "All nodes, steps.", "anchors": ["src/core/solvers/box-ddp.cpp:forwardPass", "src/core/solvers/ddp.cpp:solve"]}
{"id": "C36", "title": "KKT solver terminates", "statement": "SolverKKT::solve ends for every problem (every outcome of the direction computation).", "quantifier": "all behaviours of computeDirection", "why_tests_cant": "Non-termination cannot be tested.", "anchors": ["src/core/solvers/kkt.cpp:solve"]}
{"id": "C37", "title": "Euler integration semantics", "statement": "The Euler model with step dt maps (q,v) to (q+dt*v+dt^2*a, v+dt*a) — i.e. the new position uses the new velocity — with cost dt times the running cost; dt=0 gives the identity and zero cost; the stored dt^2 always is dt squared after any sequence of set_dt.", "quantifier": "all differential models, states, controls, dt and histories of set_dt", "why_tests_cant": "All inputs and histories.", "anchors": ["include/crocoddyl/core/integrator/euler.hxx:calc", "include/crocoddyl/core/integ-action-base.hxx:set_dt,init"]}
{"id": "C38", "title": "Euler Jacobians are the derivatives of the Euler step", "statement": "For vector-space states, Fx and Fu returned by calcDiff are the exact derivatives of the next state when the differential model's derivatives are exact, and Lx,Lu those of the cost.", "quantifier": "all differentiable differential models, states, controls and dt", "why_tests_cant": "Derivative at all points.", "anchors": ["include/crocoddyl/core/integrator/euler.hxx:calcDiff"]}
{"id": "C39", "title": "Runge-Kutta steps have their nominal order on linear systems", "statement": "For a linear differential model and a control that is constant over the step the RK2/RK3/RK4 next state equals the Taylor polynomial of order 2/3/4 of the exact flow; constant accelerations are integrated exactly.", "quantifier": "all linear systems, dimensions and dt", "why_tests_cant": "Algebraic identity over all matrices.", "anchors": ["include/crocoddyl/core/integrator/rk.hxx:calc,set_rk_type"]}
{"id": "C40", "title": "Runge-Kutta Jacobians are the derivatives of the Runge-Kutta step", "statement": "For vector-space states, Fx returned by the RK2/RK3/RK4 calcDiff is the derivative of the next state.", "quantifier": "all differential models, states, dt and RK types", "why_tests_cant": "Derivative at all points.", "anchors": ["include/crocoddyl/core/integrator/rk.hxx:calcDiff"]}
{"id": "C41", "title": "Control parametrisations: value and parameters are mutually inverse at nodes", "statement": "For each polynomial parametrisation, params(t,w) gives parameters whose value at time t is w, and the parameters are the control values at the interpolation nodes.", "quantifier": "all parameters, all t", "why_tests_cant": "All inputs.", "anchors": ["include/crocoddyl/core/controls/poly-zero.hxx", "include/crocoddyl/core/controls/poly-one.hxx", "include/crocoddyl/core/controls/poly-two-rk.hxx"]}
{"id": "C42", "title": "Control parametrisations preserve control bounds", "statement": "If the parameters lie within the converted bounds then the control lies within the control bounds at every t in [0,1].", "quantifier": "all parameters within bounds, all t in [0,1]", "why_tests_cant": "All inputs.", "anchors": ["include/crocoddyl/core/controls/poly-one.hxx:convertBounds,calc", "include/crocoddyl/core/controls/poly-two-rk.hxx:convertBounds,calc"]}
{"id": "C43", "title": "Control Jacobian products match the Jacobian", "statement": "multiplyByJacobian and multiplyJacobianTransposeBy equal the products with the derivative of calc with respect to the parameters, for set/add/subtract modes.", "quantifier": "all matrices, parameters, t and modes", "why_tests_cant": "All inputs.", "anchors": ["include/crocoddyl/core/controls/poly-one.hxx", "include/crocoddyl/core/controls/poly-two-rk.hxx"]}
{"id": "C44", "title": "Vector state: integrate and diff are inverse and Jacobians exact", "statement": "For the vector state, integrate(x,diff(x,y))=y, diff(x,integrate(x,dx))=dx, the operations throw exactly on wrong sizes, and Jdiff/Jintegrate write the derivatives for every component selection and assignment mode.", "quantifier": "all sizes and vectors", "why_tests_cant": "All dimensions.", "anchors": ["include/crocoddyl/core/states/euclidean.hxx"]}
{"id": "C45", "title": "Activation gradients are derivatives of the activation values", "statement": "For each activation model, Ar is the gradient of the returned value.", "quantifier": "all residuals and parameters", "why_tests_cant": "Derivative at all points.", "anchors": ["include/crocoddyl/core/activations/*.hpp"]}
{"id": "C46", "title": "Activation Hessians are derivatives of the gradient (or the documented Gauss-Newton part)", "statement": "For each activation model, the stored Arr is the (diagonal of the) derivative of Ar at every smooth point.", "quantifier": "all residuals and parameters", "why_tests_cant": "Derivative at all points.", "anchors": ["include/crocoddyl/core/activations/*.hpp"]}
{"id": "C47", "title": "Activation data reflect the current weights", "statement": "After set_weights on a weighted activation, calcDiff on any data object of that model gives the Hessian of the new weights.", "quantifier": "all histories of set_weights/calcDiff over any number of data objects", "why_tests_cant": "Interleavings over several data objects.", "anchors": ["include/crocoddyl/core/activations/weighted-quadratic.hpp"]}
{"id": "C48", "title": "Barrier activations vanish exactly inside the bounds", "statement": "The quadratic barrier value is zero exactly when lb<=r<=ub componentwise, positive otherwise; shrinking by beta keeps the bounds nested, and copying/casting the bounds keeps them.", "quantifier": "all bounds, beta, residuals", "why_tests_cant": "All inputs.", "anchors": ["include/crocoddyl/core/activations/quadratic-barrier.hpp"]}
{"id": "C49", "title": "LQR model values and derivatives agree", "statement": "For the LQR model the derivatives stored by calcDiff are those of the current matrices, for every data object and history of set_LQR / calcDiff calls (running or terminal).", "quantifier": "all matrices, all histories over any number of datas", "why_tests_cant": "Interleavings over several data objects.", "anchors": ["include/crocoddyl/core/actions/lqr.hxx", "include/crocoddyl/core/actions/diff-lqr.hxx"]}
{"id": "C50", "title": "Unicycle derivatives are exact", "statement": "Fx, Fu, Lx, Lu, Lxx, Luu returned by the unicycle model are the derivatives of its next state and cost.", "quantifier": "all states and controls", "why_tests_cant": "Derivative at all points.", "anchors": ["include/crocoddyl/core/actions/unicycle.hxx"]}
{"id": "C51", "title": "Finite differences are exact on linear-quadratic models", "statement": "In a release build and with a nonzero disturbance, NumDiff returns exactly Fx, Fu (linear dynamics) and Lxx, Lxu, Luu (quadratic cost), and Lx,Lu up to half the step times the diagonal curvature. On any differentiable model over a vector space the Jacobians and gradients, and on any twice differentiable cost the Hessians, converge to the derivatives as the disturbance goes to zero.", "quantifier": "all LQ models, points and step sizes; all differentiable models and points", "why_tests_cant": "All inputs.", "anchors": ["include/crocoddyl/core/numdiff/action.hxx:calcDiff"]}
{"id": "C52", "title": "Residual cost derivatives are the Gauss-Newton ones", "statement": "calcCostDiff writes Lx=Rx'Ar, Lu=Ru'Ar, Lxx=Rx'Arr Rx, Lxu=Rx'Arr Ru, Luu=Ru'Arr Ru, for every declared dependency pattern (q,v,u) consistent with the zero blocks of Rx,Ru.", "quantifier": "all dimensions, matrices and dependency flags", "why_tests_cant": "All flag combinations and dimensions.", "anchors": ["include/crocoddyl/core/residual-base.hxx:calcCostDiff"]}
{"id": "C53", "title": "Friction cone approximation is sound", "statement": "With inner approximation, every force satisfying the linear constraints lies in the Coulomb cone |f_t|<=mu f_n of the surface; without it, every force of the Coulomb cone (within the normal-force limits) satisfies them.", "quantifier": "all numbers of facets, friction coefficients, rotations and forces", "why_tests_cant": "Geometric statement over all reals and all facet counts.", "anchors": ["include/crocoddyl/multibody/friction-cone.hxx:update"]}
{"id": "C54", "title": "Cone parameters are sanitised", "statement": "After construction and any sequence of setter calls, mu>=0, min_nforce>=0 and max_nforce>=0 (negative inputs are replaced by the documented defaults).", "quantifier": "all sequences of setter calls", "why_tests_cant": "All histories.", "anchors": ["include/crocoddyl/multibody/friction-cone.hxx:set_mu,set_min_nforce,set_max_nforce", "include/crocoddyl/multibody/wrench-cone.hxx"]}
{"id": "C55", "title": "Wrench cone encodes friction, centre of pressure and normal force limits", "statement": "The rows of the wrench cone hold iff friction, CoP-in-box and yaw-torque inequalities hold for the local wrench.", "quantifier": "all wrenches, boxes, rotations", "why_tests_cant": "All reals.", "anchors": ["include/crocoddyl/multibody/wrench-cone.hxx:update", "include/crocoddyl/multibody/cop-support.hxx:update"]}
{"id": "C56", "title": "Squashing maps every input inside the actuator limits", "statement": "For limits with u_lb <= u_ub: The smooth saturation output lies in [u_lb,u_ub] for every input, is monotone, and its reported derivative is exact. (the derivative for a positive smoothing parameter)", "quantifier": "all inputs, bounds, smoothness", "why_tests_cant": "All reals.", "anchors": ["include/crocoddyl/core/actuation/squashing/smooth-sat.hpp"]}
{"id": "C57", "title": "Actuation round trip", "statement": "For the floating-base (and full) actuation, commands(calc(u)) returns u, the unactuated components of tau stay zero, and calc is linear with matrix dtau_du.", "quantifier": "all dimensions, all u, all call histories on a data", "why_tests_cant": "All dimensions and histories.", "anchors": ["include/crocoddyl/multibody/actuations/floating-base.hpp"]}
{"id": "C58", "title": "Setting thrusters is idempotent", "statement": "After set_thrusters(ts), the thrust map is the one of ts, whatever the previous thrusters; every data object sees the new map at its next calc.", "quantifier": "all histories of set_thrusters/calc over any number of datas", "why_tests_cant": "Histories.", "anchors": ["include/crocoddyl/multibody/actuations/floating-base-thrusters.hpp:set_thrusters,updateData"]}
{"id": "C59", "title": "Ipopt interface: variable layout and sparsity are consistent", "statement": "The variable index blocks of the nodes are disjoint and cover 0..nvar; the numbers of Jacobian and Hessian entries announced equal the numbers of entries written; dimensions do not change when resizeData is called repeatedly.", "quantifier": "all horizons and node dimensions", "why_tests_cant": "All dimension sequences.", "anchors": ["src/core/solvers/ipopt/ipopt-iface.cpp"]}
{"id": "C60", "title": "Ipopt interface: evaluations are those of the shooting problem", "statement": "eval_f returns the total cost, and eval_h returns obj_factor times the cost Hessian in every entry.", "quantifier": "all problems, points and factors", "why_tests_cant": "All inputs.", "anchors": ["src/core/solvers/ipopt/ipopt-iface.cpp:eval_f,eval_h"]}
{"id": "C61", "title": "Gait generator: phase counts and swing profile", "statement": "createWalkingProblem generates 2*supportknots+4*(stepknots+1) running nodes in the documented phase order; each swing foot advances by steplength, stays between ground and stepheight, and is back on the ground at the last swing knot.", "quantifier": "all step knots, support knots, lengths and heights", "why_tests_cant": "All knot counts.", "anchors": ["src/multibody/utils/quadruped-gaits.cpp:createWalkingProblem,createFootStepModels"]}
{"id": "C62", "title": "Node updates touch exactly the addressed node", "statement": "A successful updateNode(i), updateModel(i) or set_terminalModel replaces the model and data of exactly the addressed node (i = T is the terminal node) and leaves all other nodes, x0 and T unchanged; they succeed exactly when i <= T, the dimensions match and (updateNode) the data belongs to the model.", "quantifier": "all well-formed problems, nodes, models and datas", "why_tests_cant": "Off-by-one between running nodes and the terminal node shows only at particular indices and lengths.", "anchors": ["include/crocoddyl/core/optctrl/shooting.hxx:updateNode,updateModel,set_terminalModel"]}
{"id": "C63", "title": "KKT candidates marked feasible are dynamically feasible", "statement": "When SolverKKT::solve accepts a step it marks the candidate as feasible; the candidate has no gaps.", "quantifier": "all problems, candidates and step lengths", "why_tests_cant": "It ranges over all dynamics and steps; unit tests use linear dynamics with full steps, where it holds.", "anchors": ["src/core/solvers/kkt.cpp:solve,tryStep,calcDiff"]}
{"id": "C64", "title": "KKT directions and costs belong to the current candidate", "statement": "In every iteration of SolverKKT::solve the direction is computed from the derivatives at the stored candidate, and the reported cost is the cost of the stored candidate.", "quantifier": "all problems, including those whose evaluation may throw, and all iterations", "why_tests_cant": "All executions, including exceptional ones.", "anchors": ["src/core/solvers/kkt.cpp:solve,computeDirection"]}
{"id": "C65", "title": "Predicted improvement is non-negative and vanishes only at stationary candidates", "statement": "After any successful computation of a search direction by the DDP solver, on any problem and with any regularisation, d1 = -d0 and d0 >= 0, so the predicted improvement a*(d0+0.5*a*d1) is non-negative for every step in [0,2]; it is zero exactly when the gradient of the action-value function with respect to the controls vanishes at every node.", "quantifier": "all problems, candidates, regularisations, horizons and dimensions", "why_tests_cant": "Statement about all derivatives and horizons; tests only sample problems.", "anchors": ["src/core/solvers/ddp.cpp:expectedImprovement,backwardPass,computeGains"]}
{"id": "C66", "title": "Direction computation never fails on convex problems", "statement": "If every stage-cost Hessian and the terminal Hessian are positive semidefinite and either the control Hessians are positive definite or the regularisation is positive, computing the search direction never throws, for any dynamics, gradients and gaps.", "quantifier": "all dynamics, gradients, gaps, horizons, dimensions and regularisations >= 0", "why_tests_cant": "A failure could appear at any node of any horizon through the propagated value function.", "anchors": ["src/core/solvers/ddp.cpp:backwardPass,computeGains,computeValueFunction"]}
{"id": "C67", "title": "DDP solves linear-quadratic problems in one iteration", "statement": "On every convex linear-quadratic problem, SolverDDP::solve (and SolverBoxDDP::solve without control limits) started from any guess with init_reg = 0 ends its first iteration at the global optimum, and with at least two iterations allowed it returns true there.", "quantifier": "all LQ problems, initial guesses (feasible or not), solver states and parameter values in their documented range", "why_tests_cant": "Composition of derivatives, backward pass, forward pass, line search, regularisation and stopping test over all problems.", "anchors": ["src/core/solvers/ddp.cpp:solve"]}
{"id": "C68", "title": "BoxDDP gains respect the control limits", "statement": "When BoxDDP computes the gains of a node with control limits from a feasible candidate, the full feed-forward step gives a control within the limits; controls at an active limit get a zero feedback row and a zero gradient entry; the feedback of the free controls solves the reduced Newton system; and when the box QP converged the full step minimises the local quadratic model over the limits up to the gradient tolerance.", "quantifier": "all action-value functions, limits, controls and warm starts", "why_tests_cant": "The box QP has infinitely many inputs and active-set patterns.", "anchors": ["src/core/solvers/box-ddp.cpp:computeGains", "src/core/solvers/box-qp.cpp:solve"]}
{"id": "C69", "title": "LQR parameters are stored only if consistent", "statement": "The constructor and set_LQR of the linear-quadratic models accept exactly arguments with mutually consistent sizes whose cost matrix passes the positive-semidefiniteness check; rejected calls change nothing observable.", "quantifier": "all argument sizes", "why_tests_cant": "All size combinations.", "anchors": ["include/crocoddyl/core/actions/lqr.hxx:set_LQR"]}
{"id": "C70", "title": "Casting a model preserves its parameters", "statement": "cast() of an action model, activation bounds, cone or numerical-difference model to another scalar type gives a model with the same parameters as the source.", "quantifier": "all parameter values reachable by setters", "why_tests_cant": "Parameters changed after construction are easily dropped.", "anchors": ["include/crocoddyl/core/actions/unicycle.hxx:cast", "include/crocoddyl/core/actions/lqr.hxx:cast", "include/crocoddyl/core/numdiff/action.hxx:cast", "include/crocoddyl/multibody/friction-cone.hxx:cast"]}
{"id": "C71", "title": "Ipopt warm start, solution and bounds", "statement": "The starting point that SolverIpopt hands to Ipopt represents exactly the candidate states and controls; the states and controls read back from Ipopt's final variables are those the variables represent; the variable bounds are the control limits of each node that has limits and unbounded otherwise.", "quantifier": "all horizons, node dimensions, candidates, control limits and any number of resizes", "why_tests_cant": "the index arithmetic depends on the dimensions of all nodes; a test fixes a few dimensions", "anchors": ["src/core/solvers/ipopt/ipopt-iface.cpp: get_starting_point, get_bounds_info, finalize_solution"]}
{"id": "C72", "title": "Equality-constrained policy: constraint and local optimality", "statement": "When SolverIntro computes a search direction, the control policy of every node with controls and linearly independent constraints follows the linearised equality constraint: for every state increment a step of length a leaves the fraction 1-a of the constraint violation, and the full step is the unique minimiser of the local quadratic model among the increments satisfying the linearised constraint. With convex stages, independent constraints and exact factorisations, computing the direction never fails.", "quantifier": "all horizons, dimensions, derivatives, candidates, regularisations and the three equality solvers", "why_tests_cant": "ranges over all matrices and all state increments", "anchors": ["src/core/solvers/intro.cpp: backwardPass, computePolicy, calcDiff"]}
{"id": "C73", "title": "Equality-constrained value function", "statement": "The value function stored by SolverIntro at every node is exactly the quadratic that the local model takes along the stored policy, also when the policy is not a stationary point of the unconstrained model.", "quantifier": "all horizons, dimensions, derivatives, gaps and regularisations", "why_tests_cant": "ranges over all matrices and all state increments", "anchors": ["src/core/solvers/intro.cpp: computeValueFunction"]}
{"id": "C74", "title": "Full step on linear-quadratic problems with affine equality constraints", "statement": "On a linear-quadratic problem with affine equality constraints, the full step of SolverIntro from any candidate, feasible or not, satisfies the constraints of all nodes and is the unique minimiser of the total cost among all control sequences that do; the improvement it predicts is the actual one.", "quantifier": "all linear-quadratic problems, affine constraints, candidates and competitor control sequences", "why_tests_cant": "optimality is against all control sequences", "anchors": ["src/core/solvers/intro.cpp: backwardPass", "src/core/solvers/fddp.cpp: forwardPass, expectedImprovement"]}
{"id": "C75", "title": "Meaning of success of the equality-constrained solver", "statement": "If SolverIntro::solve returns true, the candidate violates the equality constraints by less than the stopping threshold, the predicted improvement is below it and the states are the rollout of the controls. At every callback and on return the reported cost and feasibility are those of the stored candidate. solve always ends when started with a positive regularisation.", "quantifier": "all problems, initial guesses, parameters, backward passes and numbers of iterations", "why_tests_cant": "ranges over all runs of the solver, including those in which trials and backward passes throw", "anchors": ["src/core/solvers/intro.cpp: solve, tryStep, stoppingCriteria", "src/core/solver-base.cpp: computeEqualityFeasibility"]}
{"id": "C76", "title": "Merit function decrease", "statement": "Every step accepted by SolverIntro with a slope above the gradient threshold decreases the merit function (cost plus penalty times constraint violation) with the penalty in force, and the penalty never decreases during a solve.", "quantifier": "all problems, guesses, parameters and iterations", "why_tests_cant": "ranges over all runs", "anchors": ["src/core/solvers/intro.cpp: solve"]}
{"id": "C77", "title": "Penalty parameter rule", "statement": "After the penalty parameter has been updated, a full step that cancels the constraint violation is predicted to decrease the merit function by at least rho times penalty times violation.", "quantifier": "all states of the solver at the second or a later iteration", "why_tests_cant": "depends on the sign of the predicted cost change, which few test problems vary", "anchors": ["src/core/solvers/intro.cpp: solve (penalty update)"]}
{"id": "C78", "title": "Finite-difference wrappers: first derivatives", "statement": "For the wrappers that differentiate a residual, cost, constraint or actuation numerically: after calc and calcDiff at a point the stored value is that of the wrapped model, the shared data is left as evaluated by the model at that point only, and every entry of the stored derivatives is the forward difference quotient of the wrapped value along that coordinate of the tangent space or control, with a positive step proportional to the disturbance, whatever was evaluated before. The quotients converge to the derivative as the disturbance goes to zero and are exact for affine functions on a vector space. The same holds at terminal nodes.", "quantifier": "all wrapped models and shared data, histories, points, dimensions and disturbances", "why_tests_cant": "ranges over all functions and histories and a limit in the disturbance", "anchors": ["include/crocoddyl/core/numdiff/residual.hxx: calcDiff", "include/crocoddyl/core/numdiff/cost.hxx: calcDiff", "include/crocoddyl/core/numdiff/constraint.hxx: calcDiff", "include/crocoddyl/core/numdiff/actuation.hxx: calcDiff"]}
{"id": "C79", "title": "Finite-difference wrappers: second derivatives", "statement": "The cost wrapper stores the Gauss approximation of the Hessians built from the quotients of the residual and the Hessian of the activation, which for affine residuals is the Hessian. The activation wrapper stores the value, a gradient converging to the derivative and a Hessian converging to the second derivative as the disturbance goes to zero.", "quantifier": "all residuals, activations, points, dimensions and disturbances", "why_tests_cant": "ranges over all functions and a limit in the disturbance", "anchors": ["include/crocoddyl/core/numdiff/cost.hxx: calcDiff", "include/crocoddyl/core/numdiff/activation.hxx: calcDiff"]}
{"id": "C80", "title": "Finite-difference control parametrisation and state", "statement": "The control wrapper reports the value of the wrapped parametrisation after calc, and after calcDiff a Jacobian converging to its derivative, exact if it is linear; products with the Jacobian follow the assignment operator. The state wrapper reports Jacobians of diff and integrate converging to the derivatives, exact on vector states, leaves the argument not asked for alone, follows the assignment operator and transports matrices with the Jacobian of integrate.", "quantifier": "all parametrisations, states, points, dimensions, disturbances and assignment operators", "why_tests_cant": "ranges over all functions and a limit in the disturbance", "anchors": ["include/crocoddyl/core/numdiff/control.hxx: calc, calcDiff, multiplyByJacobian, multiplyJacobianTransposeBy", "include/crocoddyl/core/numdiff/state.hxx: Jdiff, Jintegrate, JintegrateTransport"]}
{"id": "C81", "title": "Forward dynamics solve the equations of motion", "statement": "After calc of the free and contact forward-dynamics actions, whatever the data held before, the acceleration (and contact force) is the only solution of the equations of motion with the armature set last; contacts satisfy the acceleration constraint up to the damping, exactly without damping, and then the acceleration is the feasible one closest to the free acceleration in the inertia norm. The joint data hold acceleration and control. The damping can never be made negative.", "quantifier": "all rigid-body systems, actuations and contacts that meet the stated contracts, states, controls, histories of the data and of the setters", "why_tests_cant": "ranges over all mechanisms, states and call histories", "anchors": ["include/crocoddyl/multibody/actions/free-fwddyn.hxx: calc, set_armature", "include/crocoddyl/multibody/actions/contact-fwddyn.hxx: calc, set_armature, set_damping_factor"]}
{"id": "C82", "title": "Derivatives of forward dynamics are exact", "statement": "Fx and Fu computed by calcDiff after calc are the derivatives of the acceleration with respect to state and control, along every differentiable curve, with and without armature, contacts and damping; with force derivatives enabled so are those of the contact forces, and contacts and joint data receive them.", "quantifier": "all systems, contacts, actuations, curves of states and controls, armatures and dampings", "why_tests_cant": "a statement about limits for every mechanism and direction", "anchors": ["include/crocoddyl/multibody/actions/free-fwddyn.hxx: calcDiff", "include/crocoddyl/multibody/actions/contact-fwddyn.hxx: calcDiff"]}
{"id": "C83", "title": "Impulse dynamics", "statement": "After calc of the impulse action the configuration is unchanged and velocity and impulses are the only solution of the impact equations (momentum balance, restitution with damping); with restitution in [0,1] and no damping kinetic energy does not grow. Fx of calcDiff is the derivative of the next state, and the impulse derivatives those of the impulses.", "quantifier": "all systems, impulses, states, curves, armatures, restitutions and dampings", "why_tests_cant": "a statement about limits and an inequality for every mechanism", "anchors": ["include/crocoddyl/multibody/actions/impulse-fwddyn.hxx: initCalc, initCalcDiff"]}
{"id": "C84", "title": "Quasi-static controls hold the system", "statement": "If some control (and contact forces) balance the system at rest, the control returned by quasiStatic makes calc at rest return zero acceleration.", "quantifier": "all systems, contacts, actuations linear in the control at rest, and pseudo-inverses", "why_tests_cant": "ranges over all mechanisms and configurations", "anchors": ["include/crocoddyl/multibody/actions/free-fwddyn.hxx: quasiStatic", "include/crocoddyl/multibody/actions/contact-fwddyn.hxx: quasiStatic"]}
{"id": "C85", "title": "Inverse dynamics: meaning of the constraints", "statement": "After calc of the inverse-dynamics actions (free and with contacts), whatever was called on the data before, the constraint on the joints without actuator is zero exactly if some command produces the given acceleration together with the given contact forces; this command is unique and is the one in the joint data, and the constraints of active contacts are their accelerations. So with all contacts active the constraints hold exactly for the accelerations and forces that the forward dynamics gives for some command. calcDiff gives the derivatives of acceleration, constraints and commands along every curve of states, accelerations and forces. No call writes outside of the constraint vectors. quasiStatic returns forces for which the constraint holds at rest, if there are any.", "quantifier": "all systems, contacts, sets of active contacts, states, accelerations, forces, curves and histories of the data; all actuation models that drive as many joints as they have controls", "why_tests_cant": "an equivalence and limits for every mechanism, subset of active contacts and history", "anchors": ["include/crocoddyl/multibody/actions/contact-invdyn.hxx: calc, calcDiff, quasiStatic", "include/crocoddyl/multibody/actions/contact-invdyn.hpp: ResidualModelActuation, ResidualModelContact", "include/crocoddyl/multibody/actions/free-invdyn.hxx: calc, calcDiff", "include/crocoddyl/multibody/actions/free-invdyn.hpp: ResidualModelActuation"]}
{"id": "C86", "title": "Contact acceleration is that of the stabilised error", "statement": "Along every motion of the body, the acceleration a contact model computes is e'' + kd e' + kp e, where e is the position error of the contact frame (for six dimensions: velocity error and logarithm of the placement error), in the directions of the contact's reference type. So a motion that keeps the constraint with non-negative gains never lets the error gain energy, and a contact at rest at its reference stays there. The acceleration is affine in the joint acceleration, with the computed contact Jacobian as slope.", "quantifier": "all contact models of one, two, three and six dimensions, contact frames, gains, reference types, motions and earlier contents of the data", "why_tests_cant": "a differential identity along every motion of every mechanism", "anchors": ["include/crocoddyl/multibody/contacts/contact-1d.hxx: calc, calcDiff, updateForce", "include/crocoddyl/multibody/contacts/contact-2d.hxx: calc, calcDiff, updateForce", "include/crocoddyl/multibody/contacts/contact-3d.hxx: calc, calcDiff, updateForce", "include/crocoddyl/multibody/contacts/contact-6d.hxx: calc, calcDiff, updateForce"]}
{"id": "C87", "title": "Contact acceleration derivatives", "statement": "The derivatives of the contact acceleration that calcDiff stores are its derivatives along every curve of states with the joint acceleration held, whatever was in the data before; the contact Jacobian and acceleration left by calc are those calcDiff uses even if the joint acceleration changed in between.", "quantifier": "all contact models, frames, gains, reference types, curves of states and earlier contents of the data", "why_tests_cant": "a limit along every curve of states", "anchors": ["include/crocoddyl/multibody/contacts/contact-1d.hxx: calc, calcDiff, updateForce", "include/crocoddyl/multibody/contacts/contact-2d.hxx: calc, calcDiff, updateForce", "include/crocoddyl/multibody/contacts/contact-3d.hxx: calc, calcDiff, updateForce", "include/crocoddyl/multibody/contacts/contact-6d.hxx: calc, calcDiff, updateForce"]}
{"id": "C88", "title": "Contact forces and their torques", "statement": "The force that updateForce hands to the rigid-body algorithms does the same virtual work as the contact force on the contact Jacobian, for every joint velocity, and the reported force is the contact force in the contact frame. The derivative of the joint torques stored for the force held is the derivative of Jcᵀ λ less that of the torque of the force held at the joint.", "quantifier": "all contact models, frames, reference types, forces and curves of states", "why_tests_cant": "an identity for all velocities and a limit along all curves", "anchors": ["include/crocoddyl/multibody/contacts/contact-1d.hxx: calc, calcDiff, updateForce", "include/crocoddyl/multibody/contacts/contact-2d.hxx: calc, calcDiff, updateForce", "include/crocoddyl/multibody/contacts/contact-3d.hxx: calc, calcDiff, updateForce", "include/crocoddyl/multibody/contacts/contact-6d.hxx: calc, calcDiff, updateForce"]}
{"id": "C89", "title": "Velocity derivative of impulses", "statement": "The derivative of the contact velocity stored by calcDiff of an impulse model is the derivative of Jc u along every curve of configurations with the joint velocity u held, for every reference type.", "quantifier": "all impulse models of three and six dimensions, frames, reference types, curves and earlier contents of the data", "why_tests_cant": "a limit along every curve of configurations", "anchors": ["include/crocoddyl/multibody/impulses/impulse-3d.hxx: calc, calcDiff", "include/crocoddyl/multibody/impulses/impulse-6d.hxx: calc, calcDiff"]}
{"id": "C90", "title": "Residuals of a frame", "statement": "After any history of evaluations, changes of frame, reference and reference type, evaluations of other residuals that share the rigid-body data, one calc and calcDiff at a state give the error of the frame for the last choices: position less reference; logarithm of the rotation or placement seen from the reference, which vanishes exactly at the reference; velocity less reference in the directions of the type. The stored Jacobian is the derivative of that error along every curve of states, and the velocity reported for the world directions is the rate of change of the position.", "quantifier": "all frames, references, reference types, histories of calls and curves of states", "why_tests_cant": "a limit along all curves after all histories", "anchors": ["include/crocoddyl/multibody/residuals/frame-translation.hxx: calc, calcDiff, set_id, set_reference", "include/crocoddyl/multibody/residuals/frame-rotation.hxx: calc, calcDiff, set_id, set_reference", "include/crocoddyl/multibody/residuals/frame-placement.hxx: calc, calcDiff, set_id, set_reference", "include/crocoddyl/multibody/residuals/frame-velocity.hxx: calc, calcDiff, set_id, set_reference"]}
{"id": "C91", "title": "Residuals of a contact force", "statement": "In forward dynamics, for every history of a residual model shared by several nodes (nodes evaluated in any order, references changed, terminal calls), evaluating a node gives the force less the last reference, or the last cone or support matrix times the force, and the stored Jacobians are its derivatives whenever those of the force are right. In inverse dynamics, where the forces are controls, the Jacobians are those of the last reference.", "quantifier": "all contact dimensions, references, matrices, forces, numbers of data objects and histories of calls", "why_tests_cant": "all histories of a model shared by several data objects", "anchors": ["include/crocoddyl/multibody/residuals/contact-force.hxx: calc, calcDiff, updateJacobians, set_reference", "include/crocoddyl/multibody/residuals/contact-friction-cone.hxx: calc, calcDiff, updateJacobians", "include/crocoddyl/multibody/residuals/contact-wrench-cone.hxx: calc, calcDiff, updateJacobians", "include/crocoddyl/multibody/residuals/contact-cop-position.hxx: calc, calcDiff, updateJacobians"]}
{"id": "C92", "title": "Residuals of efforts, accelerations, gravity, centre of mass and momentum", "statement": "After any history of calls (references changed, wrong sizes refused, running and terminal evaluations), evaluating the residual gives: effort or acceleration less the last reference; torque less that of gravity (and of the contact forces); position of the centre of mass or momentum less the last reference; jump of the velocity of the centre of mass at an impulse. The stored Jacobians are its derivatives along every curve of states and controls, no call is undefined, and terminal nodes get the residual that depends on the state alone with its derivative.", "quantifier": "all references, sizes, shared data, histories of calls and curves", "why_tests_cant": "all histories, and limits along all curves", "anchors": ["include/crocoddyl/core/residuals/joint-effort.hxx: constructors, calc, calcDiff, set_reference", "include/crocoddyl/core/residuals/joint-acceleration.hxx: constructors, calc, calcDiff, set_reference", "include/crocoddyl/multibody/residuals/control-gravity.hxx: calc, calcDiff", "include/crocoddyl/multibody/residuals/contact-control-gravity.hxx: calc, calcDiff", "include/crocoddyl/multibody/residuals/com-position.hxx: calc, calcDiff", "include/crocoddyl/multibody/residuals/centroidal-momentum.hxx: calc, calcDiff", "include/crocoddyl/multibody/residuals/impulse-com.hxx: calc, calcDiff"]}
{"id": "C93", "title": "Costs see the current state", "statement": "When an action model of a multibody system evaluates its costs at a state, every kinematic quantity that a residual reads from the rigid-body data (placements, velocities, centre of mass, momentum, and the terms of their derivatives) has been computed at that state, whatever was evaluated before.", "quantifier": "all action models, residuals, states and histories of calls; all rigid-body libraries whose algorithms compute at least an assumed list of quantities", "why_tests_cant": "all histories of calls; a stale value looks right when the history is short", "anchors": ["include/crocoddyl/multibody/actions/free-fwddyn.hxx: calc, calcDiff, quasiStatic", "include/crocoddyl/multibody/actions/contact-fwddyn.hxx: calc, calcDiff, quasiStatic", "include/crocoddyl/multibody/actions/impulse-fwddyn.hxx: calc, calcDiff, quasiStatic", "include/crocoddyl/multibody/actions/free-invdyn.hxx: calc, calcDiff, quasiStatic", "include/crocoddyl/multibody/actions/contact-invdyn.hxx: calc, calcDiff, quasiStatic"]}
{"id": "C94", "title": "Generated code computes what the model computes", "statement": "A code-generated action model gives the same cost, next state, constraints, residual, derivatives and quasi-static control as the model it was generated from, with the parameters that were set last, whatever was called before; with automatic differentiation the derivatives are the partial derivatives of the cost and the next state.", "quantifier": "all action models, numbers of parameters, recording points, histories of calls, states and controls", "why_tests_cant": "all models, inputs and histories; tests compare a few models at random points close to the recorded branch", "anchors": ["include/crocoddyl/core/codegen/action.hxx: ActionModelCodeGenTpl", "include/crocoddyl/core/codegen/action.hpp: ActionDataCodeGenTpl"]}
{"id": "C95", "title": "Saved libraries load for the right model, and copies behave as originals", "statement": "Loading a generated library succeeds for the model it was generated from and throws for a model with other dimensions; the loaded model does the same as the generated one in every history of calls, and so does a copy of either.", "quantifier": "all pairs of models, libraries, histories of calls", "why_tests_cant": "all pairs of dimensions and all histories; tests load a library for the model it came from", "anchors": ["include/crocoddyl/core/codegen/action.hxx: ActionModelCodeGenTpl", "include/crocoddyl/core/codegen/action.hpp: ActionDataCodeGenTpl"]}
{"id": "C96", "title": "Pseudo-inverses are Moore-Penrose inverses", "statement": "pseudoInverse(A) is the Moore-Penrose inverse of A, for every matrix A.", "quantifier": "all matrices, decompositions and cut-offs", "why_tests_cant": "all matrices; tests use well-conditioned ones", "anchors": ["include/crocoddyl/core/utils/math.hpp: pseudoInverse, pseudoInverseAlgo"]}
{"id": "C97", "title": "Quasi-static controls of the base classes hold the state", "statement": "If some control holds the given state (for a differential model: gives no acceleration), quasiStatic of the base classes returns such a control, the closest to the given one; a step of the Euler and Runge-Kutta integrators from a state at rest with the control returned by their quasiStatic returns the same state.", "quantifier": "all models, states, initial controls, numbers of iterations and tolerances", "why_tests_cant": "all models and starting points of a Newton iteration", "anchors": ["include/crocoddyl/core/action-base.hxx: quasiStatic, quasiStatic_x", "include/crocoddyl/core/diff-action-base.hxx: quasiStatic, quasiStatic_x", "include/crocoddyl/core/integrator/euler.hxx: quasiStatic", "include/crocoddyl/core/integrator/rk.hxx: quasiStatic"]}
{"id": "C98", "title": "Limits set by the user are the limits used", "statement": "After any calls of the setters, the control and constraint limits of an action model are those last set with the right size; a wrong size throws and changes nothing; the flag tells whether any control limit is finite; controls of the box solvers and the search box of Ipopt respect the limits; an integrated model uses the limits of its differential model and those set on itself.", "quantifier": "all histories of setter calls on a model, on a differential model and on the integrated model built on it, all limits (finite or not) and all controls", "why_tests_cant": "histories and combinations of finite and infinite limits", "anchors": ["include/crocoddyl/core/action-base.hxx: set_u_lb, set_u_ub, set_g_lb, set_g_ub, update_has_control_limits", "include/crocoddyl/core/diff-action-base.hxx: the same", "include/crocoddyl/core/integ-action-base.hxx: init, set_differential, get_g_lb, get_g_ub", "src/core/solvers/box-ddp.cpp: forwardPass", "src/core/solvers/box-fddp.cpp: forwardPass", "src/core/solvers/ipopt/ipopt-iface.cpp: get_bounds_info"]}
{"id": "C99", "title": "Copies of action models behave like the original", "statement": "A copy of an action model has the same limits, and calls on it, with or without control, do the same as on the original.", "quantifier": "all action models", "why_tests_cant": "all models; tests compare copies on the call with control only", "anchors": ["include/crocoddyl/core/action-base.hxx: copy constructor, calc, calcDiff", "bindings/python/crocoddyl/utils/copyable.hpp: copy"]}
{"id": "C100", "title": "Operations and Jacobians of the multibody state", "statement": "For valid states of a multibody system: integrating the difference from x to y leads to y; the difference to an integration gives the increment back before half a turn; Jdiff, Jintegrate and JintegrateTransport give the Jacobians of these operations with respect to displacements, in every mode; the limits are those of the Pinocchio model except for the root joint; wrong sizes throw and change nothing.", "quantifier": "all Pinocchio models meeting the assumed group laws, all valid states, increments, buffers, modes and histories of the limit setters", "why_tests_cant": "a manifold of configurations and all contents of the output buffers", "anchors": ["include/crocoddyl/multibody/states/multibody.hxx", "include/crocoddyl/core/state-base.hxx: Jdiff_Js, Jintegrate_Js, diff_dx, integrate_x, set_lb, set_ub"]}
{"id": "C101", "title": "Euler integration on multibody states", "statement": "On states whose configurations form a manifold (floating bases, spherical joints), the Euler action moves the velocity by dt times the acceleration and the configuration along the next velocity, and its Fx, Fu, Lx, Lu are the derivatives of that map and of the cost in the tangent space, at running and terminal nodes.", "quantifier": "all Pinocchio models meeting the assumed group laws, valid states, controls, control parametrisations, step sizes and histories of the step setter, all previous contents of the data", "why_tests_cant": "a manifold of configurations and all contents left in the data", "anchors": ["include/crocoddyl/core/integrator/euler.hxx", "include/crocoddyl/multibody/states/multibody.hxx"]}
{"id": "C102", "title": "Runge-Kutta derivatives on multibody states", "statement": "On states whose configurations form a manifold, Fx, Fu, Lx and Lu of the RK2, RK3 and RK4 actions are the derivatives of the next state and of the cost that they compute.", "quantifier": "all Pinocchio models meeting the assumed group laws, valid states, controls, step sizes and differential models with exact derivatives", "why_tests_cant": "derivatives through stages on a manifold, for every dynamics", "anchors": ["include/crocoddyl/core/integrator/rk.hxx", "include/crocoddyl/multibody/states/multibody.hxx"]}
{"id": "C103", "title": "FDDP solves linear-quadratic problems in one iteration", "statement": "On every convex linear-quadratic problem, SolverFDDP::solve (and SolverBoxFDDP::solve without control limits) started with init_reg = 0 from any guess, whose states need not follow the dynamics, ends its first iteration at the global optimum, and with at least two iterations allowed it returns true there.", "quantifier": "all horizons, dimensions, convex linear-quadratic problems, guesses, solver states and parameters in their usual range", "why_tests_cant": "every infeasible guess of every problem", "anchors": ["src/core/solvers/fddp.cpp", "src/core/solvers/box-fddp.cpp", "src/core/solvers/ddp.cpp"]}
{"id": "C104", "title": "FDDP predicts the improvement of every step length", "statement": "On linear-quadratic problems, the improvement that SolverFDDP predicts for a step of length a, a*(d0+0.5*a*d1), is the decrease of the cost obtained by its forward pass with that step, also when the candidate is infeasible.", "quantifier": "all linear-quadratic problems, infeasible candidates and step lengths", "why_tests_cant": "an identity for every problem, candidate and step", "anchors": ["src/core/solvers/fddp.cpp"]}
{"id": "C105", "title": "The finite-difference differential model returns difference quotients of its model", "statement": "After calc(data,x,u) and calcDiff(data,x,u) on a DifferentialActionModelNumDiff, whatever the data held before, cost, acceleration and constraints are those of the differentiated model and every derivative is its forward difference quotient at (x,u). On linear-quadratic models over a vector space the dynamics and constraint Jacobians and the Hessians are exact; on any differentiable model the Jacobians, and on any twice differentiable cost the Hessians, converge to the derivatives as the disturbance goes to zero. The same at terminal nodes.", "quantifier": "all differentiated models, states, points, disturbances and previous data", "why_tests_cant": "every model and point; limits", "anchors": ["include/crocoddyl/core/numdiff/diff-action.hxx", "DifferentialActionModelNumDiffTpl"]}
{"id": "C106", "title": "The finite-difference contact is the contact with an approximated drift Jacobian", "statement": "A ContactModelNumDiff whose re-evaluations refresh the Pinocchio data reports the drift, the Jacobian and the force of the differentiated contact, and as drift derivative its difference quotient (exact for drifts affine in the state, convergent for differentiable ones); it can be called repeatedly.", "quantifier": "all contacts, re-evaluations, states, disturbances and previous data", "why_tests_cant": "every contact and history", "anchors": ["include/crocoddyl/multibody/numdiff/contact.hxx", "ContactModelNumDiffTpl"]}
{"id": "C107", "title": "The predicted improvement is right to first order", "statement": "On every differentiable problem whose models return exact first derivatives, at every iteration of SolverDDP, SolverFDDP, SolverBoxDDP and SolverBoxFDDP (without control limits), whatever the Hessians and the regularisation: the predicted improvement and the actual improvement of a step of length a agree up to terms of smaller order than a.", "quantifier": "all differentiable problems, initial guesses, iterations, Hessian data and step lengths", "why_tests_cant": "a limit over step lengths, for every problem and iteration", "anchors": ["src/core/solvers/ddp.cpp", "src/core/solvers/fddp.cpp", "SolverDDP::solve", "SolverFDDP::solve", "SolverDDP::expectedImprovement", "SolverDDP::tryStep"]}
{"id": "C108", "title": "Away from stationary points short enough steps are accepted and the iteration decreases the cost", "statement": "At every iteration with a feasible candidate at which the linear term of the expected improvement is positive, every short enough step passes the acceptance test (th_acceptstep below one); if the list of step lengths reaches that far, the iteration leaves a dynamically feasible candidate of strictly smaller total cost.", "quantifier": "all differentiable problems, initial guesses, iterations, Hessian data and configurations", "why_tests_cant": "existence of a step length for every problem and iteration", "anchors": ["src/core/solvers/ddp.cpp", "src/core/solvers/fddp.cpp", "SolverDDP::solve", "SolverFDDP::solve", "SolverDDP::expectedImprovement", "SolverDDP::tryStep"]}
{"id": "C109", "title": "The stopping criterion vanishes exactly at stationary points", "statement": "At every iteration with a feasible candidate the quantity solve compares with th_stop is nonnegative, and it is zero if and only if the derivative of the total cost with respect to the whole control sequence is zero in every direction, for every regularisation and every symmetric Hessian.", "quantifier": "all differentiable problems, initial guesses, iterations and Hessian data", "why_tests_cant": "equivalence for every problem and iteration", "anchors": ["src/core/solvers/ddp.cpp", "src/core/solvers/fddp.cpp", "SolverDDP::solve", "SolverFDDP::solve", "SolverDDP::expectedImprovement", "SolverDDP::tryStep", "SolverDDP::stoppingCriteria"]}
{"id": "C110", "title": "The number of accepted steps is bounded by the available decrease of the cost", "statement": "In every run from a feasible guess, while the linear term of the expected improvement stays at or above eps >= th_grad, the number of accepted steps times th_acceptstep * amin * eps / 2 (amin the shortest step length) is at most the decrease of the total cost.", "quantifier": "all problems, derivative data, guesses, configurations and numbers of iterations", "why_tests_cant": "induction over runs of any length", "anchors": ["src/core/solvers/ddp.cpp", "src/core/solvers/fddp.cpp", "SolverDDP::solve", "SolverFDDP::solve", "SolverDDP::expectedImprovement", "SolverDDP::tryStep"]}
{"id": "C111", "title": "Stopwatch statistics are those of the measurements made", "statement": "After every sequence of start, stop, pause, reset and profiler-macro calls on a stopwatch, the total, last, average, maximum and minimum times it reports for a name are those of the lapses measured under that name since its last reset; calls for one name never change what is recorded for another; a disabled profiler and a stopwatch turned off change nothing; stopping a started name never throws.", "quantifier": "all sequences of calls, names, clock values, modes and platforms", "why_tests_cant": "must hold for every history of calls and clock readings", "anchors": ["include/crocoddyl/core/utils/stop-watch.hpp", "src/core/utils/stop-watch.cpp", "Stopwatch", "Watcher", "START_PROFILER", "STOP_PROFILER"]}
{"id": "C112", "title": "The pair-collision residual gives the gradient of the distance", "statement": "After any history of calls, calc returns the difference of the nearest points and calcDiff returns the velocity of the nearest material point of the body; for a fixed second object Rx^T r is the gradient of half the squared distance, however the nearest points slide; Rx is the Jacobian of r.", "quantifier": "all pairs of objects, kinematics, curves of states, joint supports and histories of calls", "why_tests_cant": "a derivative over all directions, for arbitrary object shapes", "anchors": ["include/crocoddyl/multibody/residuals/pair-collision.hxx", "include/crocoddyl/multibody/residuals/pair-collision.hpp", "ResidualModelPairCollisionTpl::calc", "ResidualModelPairCollisionTpl::calcDiff"]}
{"id": "C113", "title": "The KKT direction solves the local quadratic program", "statement": "SolverKKT::computeDirection returns the unique change of states and controls that satisfies the linearised dynamics and the initial condition and minimises the second-order model of the cost, with the multipliers of that program; the result does not depend on the systems assembled by earlier calls.", "quantifier": "all horizons with at least one running node, state dimensions, numbers of controls per node, derivatives with convex costs (strictly in the controls), gaps and histories of calls", "why_tests_cant": "a minimum over all directions, for all sizes and stale contents of the solver's matrices", "anchors": ["src/core/solvers/kkt.cpp", "SolverKKT::calcDiff", "SolverKKT::computePrimalDual", "SolverKKT::computeDirection", "SolverKKT::allocateData"]}
{"id": "C114", "title": "KKT predicted improvement and stopping criterion", "statement": "The improvement SolverKKT predicts for a step is the decrease of the second-order model: exact on linear-quadratic problems for every step length and candidate, first-order accurate on nonlinear ones; without gaps the direction is one of descent. The stopping criterion is zero exactly at candidates without gaps that are stationary points of the total cost.", "quantifier": "all problems, candidates with and without gaps, step lengths, horizons, dimensions and histories of calls", "why_tests_cant": "limits and equivalences over all candidates and problems", "anchors": ["src/core/solvers/kkt.cpp", "SolverKKT::expectedImprovement", "SolverKKT::stoppingCriteria"]}
{"id": "C115", "title": "The KKT solver solves linear-quadratic problems in one iteration", "statement": "On a convex linear-quadratic problem, from any initial guess and whatever the solver did before, every iteration of SolverKKT::solve ends at the global optimum with its cost, and solve returns true after at most two iterations.", "quantifier": "all convex linear-quadratic problems, initial guesses, solver parameters with a full first step, and earlier states of the solver", "why_tests_cant": "global optimality over all control sequences, for all problems and guesses", "anchors": ["src/core/solvers/kkt.cpp", "SolverKKT::solve", "SolverKKT::tryStep"]}
{"id": "C116", "title": "Gaps along a whole FDDP solve", "statement": "Along a whole run of SolverFDDP / SolverBoxFDDP, the gaps of the final candidate are the gaps of the initial guess multiplied by the product of one minus each accepted step length: they never grow, shrink geometrically when every accepted step is at least some a, and a candidate that started unfeasible is marked feasible exactly when some full step was accepted; a wrong feasibility flag of the guess is repaired.", "quantifier": "all problems, guesses, numbers of iterations, sequences of accepted step lengths", "why_tests_cant": "the product ranges over every history of accepted steps of a solve", "anchors": ["src/core/solvers/fddp.cpp", "src/core/solvers/box-fddp.cpp", "SolverFDDP::solve", "SolverFDDP::forwardPass"]}
{"id": "C117", "title": "What SolverIpopt::solve leaves behind", "statement": "After SolverIpopt::solve has succeeded, the states and controls of the solver are those of Ipopt's solution integrated onto the reference trajectory, and the cost is the total cost of that solution; solve returns true exactly for the two successful Ipopt statuses.", "quantifier": "all problems, initial guesses, Ipopt outcomes, earlier states of the solver, and thresholds", "why_tests_cant": "every outcome of an external optimiser and every history of solver calls", "anchors": ["src/core/solvers/ipopt.cpp", "SolverIpopt::solve", "SolverIpopt::set_th_stop", "src/core/solvers/ipopt/ipopt-iface.cpp"]}
{"id": "C118", "title": "CSV output can be read back", "statement": "Strings written with CsvStream are escaped so that a reader of quoted comma-separated files recovers exactly the table of fields that was written, whatever quotes, separators and newlines the strings contain.", "quantifier": "all tables of strings and plain values, and all separators of one character", "why_tests_cant": "all strings over the character set and all table shapes", "anchors": ["include/crocoddyl/core/utils/file-io.hpp", "CsvStream", "CsvStream::escape"]}
{"id": "C119", "title": "Version checks are lexicographic", "statement": "checkVersionAtLeast(major, minor, patch) holds exactly when the version of the library is lexicographically at least the given one; the versions that pass are downward closed and totally ordered.", "quantifier": "all triples of library version and requested version", "why_tests_cant": "all triples of numbers", "anchors": ["include/crocoddyl/core/utils/version.hpp", "checkVersionAtLeast"]}
{"id": "C120", "title": "The table printed by CallbackVerbose is aligned", "statement": "At every verbosity level the heading and the value of every quantity stand in the same columns of the printed table, and the header is printed exactly before every tenth iteration.", "quantifier": "all verbosity levels, precisions, iterations and values", "why_tests_cant": "all values and precisions, and every column", "anchors": ["src/core/utils/callbacks.cpp", "CallbackVerbose::update_header", "CallbackVerbose::operator()"]}
{"id": "C121", "title": "Models written in Python are never evaluated by several threads", "statement": "A shooting problem that contains a model derived in Python is evaluated by one thread, so that Python code is never entered concurrently; a process that uses no Python-derived or code-generated model gets the number of threads it was compiled for.", "quantifier": "all sequences of constructions of problems and models and of set_nthreads, updateModel, updateNode, circularAppend and set_terminalModel calls", "why_tests_cant": "the flag is global to the process and depends on the whole history of objects created", "anchors": ["bindings/python/crocoddyl/core/action-base.hpp", "bindings/python/crocoddyl/core/constraint-base.hpp", "include/crocoddyl/core/optctrl/shooting.hxx", "enableMultithreading", "include/crocoddyl/core/codegen/action.hxx"]}
{"id": "C122", "title": "Python-derived models are called as C++ models are", "statement": "When C++ evaluates a model derived in Python, the method of the same name is entered exactly once, with the given state and control at running nodes and with the state alone at terminal nodes; vectors of wrong size raise before Python is entered; a quasi-static control returned by Python is what the caller gets, and copies in another scalar type keep the dimensions.", "quantifier": "all model classes, dimensions, states, controls (with and without NaN) and problems of any length", "why_tests_cant": "all vectors, including NaN and empty ones, and all classes of models", "anchors": ["bindings/python/crocoddyl/core/action-base.hpp", "bindings/python/crocoddyl/core/diff-action-base.hpp", "bindings/python/crocoddyl/core/integ-action-base.hpp", "bindings/python/crocoddyl/core/actuation-base.hpp", "include/crocoddyl/core/action-base.hxx"]}
{"id": "C123", "title": "checkData recognises the data of a model", "statement": "checkData(data) is true exactly for data that the model can evaluate with: data of the class that its createData makes, at every level of nested models, and of its sizes. It never has undefined behaviour, and a shooting problem can always be built from models and the data they create.", "quantifier": "all nestings of models (own classes, integrators, numerical differentiation, code generation, Python), all data, problems of any length", "why_tests_cant": "models nest without bound and any data object can be passed to any model", "anchors": ["include/crocoddyl/core/integrator/euler.hxx", "include/crocoddyl/core/integrator/rk.hxx", "include/crocoddyl/core/codegen/action.hxx", "include/crocoddyl/core/action-base.hxx", "include/crocoddyl/core/optctrl/shooting.hxx", "checkData"]}
{"id": "C124", "title": "Python attributes are the members of their name", "statement": "Reading an attribute of an exposed object returns the member of that name; after any history of assignments each attribute that can be assigned has the last value assigned to it and the others are unchanged.", "quantifier": "all exposed classes whose attributes are data members, all histories of assignments, all values", "why_tests_cant": "all histories of assignments over all attributes", "anchors": ["bindings/python/crocoddyl/core/activations/quadratic-barrier.cpp.in", "bindings/python/crocoddyl/multibody/actuations/floating-base-propellers.cpp.in", "bindings/python/crocoddyl/core/codegen/action.cpp.in", "bindings/python/crocoddyl/multibody/contacts/contact-6d.cpp.in", "bindings/python/crocoddyl/core/action-base.cpp.in"]}
{"id": "C125", "title": "Sets and maps in Python behave as sets and dictionaries", "statement": "The containers of names and of items exposed to Python behave, over every history of operations, as mathematical sets and dictionaries: membership, indexing and slicing in order, removal with the right exceptions; pickling and conversion to Python containers and back lose nothing; Python sets and dictionaries with elements of the right type are accepted where these containers are expected.", "quantifier": "all containers, elements, indices and histories of operations", "why_tests_cant": "all histories of operations and all contents", "anchors": ["bindings/python/crocoddyl/utils/set-converter.hpp", "bindings/python/crocoddyl/utils/set_indexing_suite.hpp", "bindings/python/crocoddyl/utils/map-converter.hpp"]}
{"id": "C126", "title": "The result of solve does not depend on what the solver did before", "statement": "Solving a problem from a given guess with a solver object that was used before (on this or another problem, successfully or not) gives the same returned value, trajectory, cost, gaps, regularisation and callbacks as with a new solver with the same parameters.", "quantifier": "all pairs of solver states, problems, guesses, parameters and numbers of iterations", "why_tests_cant": "solver objects keep dozens of members between calls; the claim is about every history of earlier solves", "anchors": ["src/core/solvers/ddp.cpp", "src/core/solvers/fddp.cpp", "src/core/solvers/box-ddp.cpp", "src/core/solvers/intro.cpp", "SolverDDP::solve", "SolverFDDP::solve", "SolverIntro::solve", "SolverBoxDDP::computeGains", "src/core/solvers/ipopt.cpp SolverIpopt::solve", "src/core/solvers/ipopt/ipopt-iface.cpp"]}
{"id": "C127", "title": "The arrays of a solver have the dimensions of the problem whenever it iterates", "statement": "After any sequence of changes of the problem (nodes replaced or appended, with other numbers of controls or constraints, rejected changes) and of solves (also with rejected guesses), every array of the solver has, when a solve begins its iterations, the dimensions of the nodes of the problem as it is then.", "quantifier": "all solvers, problems, histories of problem changes and solves", "why_tests_cant": "a stale array is read or written out of range only after particular histories of node updates; the claim is about all of them", "anchors": ["src/core/solver-base.cpp", "src/core/solvers/ddp.cpp", "src/core/solvers/box-ddp.cpp", "src/core/solvers/intro.cpp", "src/core/solvers/kkt.cpp", "SolverAbstract::resizeData", "SolverDDP::resizeData", "SolverBoxDDP::resizeData", "SolverIntro::resizeData", "SolverKKT::solve", "ShootingProblem::is_updated", "src/core/solvers/ipopt.cpp", "SolverIpopt::solve", "SolverIpopt::resizeData"]}
{"id": "C128", "title": "A copy of a data object is an object of its own", "statement": "After any sequence of creating, copying (copy, __copy__, __deepcopy__, the copy constructor), destroying and evaluating the data objects of an action model, each object that exists has the acceleration or next state, Jacobians, cost and cost derivatives that it would have if it shared nothing with the others: a copy keeps the values it was copied with until it is evaluated itself, evaluating it is as good as evaluating a new object and leaves the original as it is, and destroying the original does not harm the copy.", "quantifier": "all programs over data objects, all models (numerical functions), states and controls", "why_tests_cant": "sharing shows only after particular interleavings of copies and evaluations, and use after free only when memory is reused", "anchors": ["bindings/python/crocoddyl/utils/copyable.hpp CopyableVisitor", "include/crocoddyl/multibody/actions/free-fwddyn.hpp DifferentialActionDataFreeFwdDynamicsTpl", "include/crocoddyl/core/costs/cost-sum.hpp CostDataSumTpl", "include/crocoddyl/core/integrator/euler.hpp IntegratedActionDataEulerTpl"]}
{"id": "C129", "title": "The feedback policy left by solve is optimal around the returned trajectory", "statement": "After solve, the policy u = us[t] - K[t] (x - xs[t]) made of the returned trajectory and feedback gains is the optimal one to the order the solver works with: on a convex linear-quadratic problem no control sequence is cheaper than this policy from any state at any node, and in general the gains and the value function are those of the returned trajectory.", "quantifier": "all convex linear-quadratic problems, initial guesses, earlier solver states, solver parameters and numbers of iterations; the four DDP-type solvers", "why_tests_cant": "the gains are used away from the returned trajectory, at states a test of the solution does not visit", "anchors": ["src/core/solvers/ddp.cpp SolverDDP::solve, computeGains, forwardPass, decreaseRegularization", "src/core/solvers/fddp.cpp SolverFDDP::solve", "include/crocoddyl/core/solvers/ddp.hpp get_K, get_k, get_Vx"]}
{"id": "C130", "title": "The solvers do not install invalid trajectories", "statement": "After solve, and whenever a callback runs, the trajectory contains no NaN, infinite or huge (1e30 and above) numbers: states, controls, next states of the nodes, running sums of the costs and the total cost are valid.", "quantifier": "all problems, initial guesses, search directions, parameters, numbers of iterations and earlier solver states; DDP, BoxDDP, FDDP, BoxFDDP", "why_tests_cant": "divergence occurs at particular step lengths and nodes of particular problems", "anchors": ["src/core/solver-base.cpp raiseIfNaN", "src/core/solvers/ddp.cpp SolverDDP::forwardPass, solve", "src/core/solvers/fddp.cpp SolverFDDP::forwardPass, solve", "src/core/solvers/box-ddp.cpp SolverBoxDDP::forwardPass", "src/core/solvers/box-fddp.cpp SolverBoxFDDP::forwardPass"]}
{"id": "C131", "title": "Solving the rest of a problem again agrees with the first solution", "statement": "The gains computed for a node depend only on the nodes from there on and not on the initial state of the problem. On convex linear-quadratic problems, building a new problem from the running models k, ..., T-1, the terminal model and the state the plan reaches at node k, and solving it with any of the DDP solvers, parameters, guesses and solver states, gives the rest of the first plan; started from any other (measured) state it gives what the feedback policy left by the first solve does from that state.", "quantifier": "all derivatives, gaps and regularisations (gains); all convex linear-quadratic problems, nodes k, measured states, guesses, parameters, numbers of iterations and earlier solver states (plans)", "why_tests_cant": "tests solve one problem once; consistency of re-planning concerns every node, measured state and warm start", "anchors": ["src/core/solvers/ddp.cpp SolverDDP::backwardPass, computeGains, forwardPass, solve", "src/core/solvers/fddp.cpp SolverFDDP::solve", "include/crocoddyl/core/actions/lqr.hxx ActionModelLQRTpl"]}
{"id": "C132", "title": "Equivalent descriptions of a problem are solved alike", "statement": "Describing the same problem differently does not change what the DDP solvers do. Adding constants to the costs changes nothing but the reported cost, by their sum. Writing the state and the controls in other orthonormal axes, and multiplying all costs by a positive factor together with the stopping threshold, the gradient threshold, the bounds and the initial value of the regularisation, gives the same returned value, the same number of iterations and the corresponding trajectory and cost, from the corresponding guess and whatever either solver object did before. Changing the units of the state or of the controls, or the scale of the costs alone, should not matter either, but does while the regularisation is positive.", "quantifier": "all nonlinear problems, orthogonal changes of axes (one for the state, one per node for the controls), positive factors, constants, guesses, parameters, numbers of iterations and earlier solver states", "why_tests_cant": "tests solve each problem in one description; invariance is a relation between two runs, for every change of description", "anchors": ["src/core/solvers/ddp.cpp SolverDDP::solve, backwardPass, computeActionValueFunction, forwardPass, expectedImprovement, stoppingCriteria", "src/core/solvers/fddp.cpp SolverFDDP::solve, expectedImprovement, forwardPass", "src/core/solvers/box-ddp.cpp SolverBoxDDP", "src/core/solvers/box-fddp.cpp SolverBoxFDDP", "src/core/solvers/ipopt.cpp SolverIpopt::solve", "src/core/solvers/ipopt/ipopt-iface.cpp IpoptInterface::eval_f, finalize_solution"]}
{"id": "C133", "title": "Regularised solves of convex linear-quadratic problems are proximal and converge", "statement": "On a convex linear-quadratic problem without control limits, the full step computed with a primal regularisation rho gives the trajectory that minimises the cost plus half rho times the squared distance from the candidate. From a feasible candidate the actual improvement of a step of any length exceeds the predicted one by exactly half rho times the squared distance moved, so the prediction is never too high. The DDP and BoxDDP solvers with any initial regularisation, and the FDDP and BoxFDDP solvers with a positive one or a feasible guess, converge from every guess: allowed enough iterations, solve returns true with a feasible trajectory whose cost exceeds the optimal one by at most a constant of the problem times the regularisation times th_stop, and until then the distance to the optimal cost shrinks by a fixed factor per iteration.", "quantifier": "all convex linear-quadratic problems (any horizon, dimensions and time-varying nodes), guesses, initial regularisations, parameters within their sane ranges, earlier solver states and numbers of iterations", "why_tests_cant": "tests solve a few random LQR problems once, mostly with negligible regularisation, and compare with a tolerance; convergence with its rate is a statement about every problem and every regularisation", "anchors": ["src/core/solvers/ddp.cpp SolverDDP::solve, backwardPass, computeActionValueFunction, computeValueFunction, expectedImprovement, stoppingCriteria, decreaseRegularization", "src/core/solvers/fddp.cpp SolverFDDP::solve, expectedImprovement, forwardPass", "src/core/solvers/box-ddp.cpp SolverBoxDDP", "src/core/solvers/box-fddp.cpp SolverBoxFDDP"]}
{"id": "C134", "title": "On linear-quadratic problems with control limits the box solvers stop exactly at the constrained optimum", "statement": "On a convex linear-quadratic problem with control limits, from a feasible candidate within the limits, the direction computed by BoxDDP and BoxFDDP is zero if and only if no control sequence within the limits costs less; away from the optimum the step is predicted to lower the cost, the full step is taken when it reaches the optimum, and solve returns true only near the optimum.", "quantifier": "all convex linear-quadratic problems with control limits (any horizon, dimensions and time-varying nodes and limits), feasible candidates within the limits, regularisations, warm starts and earlier solver states", "why_tests_cant": "tests run a few box problems and check that the final controls lie within the limits; that a vanishing direction is equivalent to constrained optimality, and that the prediction is meaningful at every candidate, are statements about all problems", "anchors": ["src/core/solvers/box-ddp.cpp SolverBoxDDP::computeGains, forwardPass", "src/core/solvers/box-fddp.cpp SolverBoxFDDP::computeGains, forwardPass", "src/core/solvers/box-qp.cpp BoxQP::solve", "src/core/solvers/ddp.cpp SolverDDP::solve, expectedImprovement, stoppingCriteria"]}
{"id": "C135", "title": "SolverIntro solves linear-quadratic problems with affine equality constraints", "statement": "On a convex linear-quadratic problem whose affine equality constraints are independent at every node, SolverIntro ends, with each of its three equality solvers, with controls that satisfy the constraints and whose cost is the lowest among those: in one iteration without regularisation, from every initial guess, and up to the regularisation and the stopping threshold otherwise; an optimal guess is returned unchanged.", "quantifier": "all convex linear-quadratic problems with independent affine equality constraints (any horizon, dimensions and time-varying nodes), initial guesses (also ones that follow neither dynamics nor constraints), equality solvers, regularisations, penalties and earlier solver states", "why_tests_cant": "tests run a few constrained problems from one guess; that the line search accepts the full step, and that the result is optimal among all constrained controls, are statements about every problem and guess", "anchors": ["src/core/solvers/intro.cpp SolverIntro::solve, tryStep, computeGains, stoppingCriteria", "src/core/solvers/fddp.cpp SolverFDDP::expectedImprovement, updateExpectedImprovement, forwardPass", "src/core/solvers/ddp.cpp SolverDDP::backwardPass, increaseRegularization, decreaseRegularization"]}
{"id": "C136", "title": "The solvers agree where their algorithms coincide", "statement": "On a problem without control limits, DDP, FDDP, BoxDDP and BoxFDDP with the same parameters return the same from the same guess if it is marked feasible: the same value, states, controls, cost, regularisation and number of iterations, with the same candidate, step length and stopping criterion after each iteration; BoxFDDP and FDDP do so from every guess. On convex linear-quadratic problems one iteration without regularisation of DDP, FDDP, the KKT solver and SolverIntro without constraints ends with the same trajectory.", "quantifier": "all problems without control limits (any horizon, dimensions, nonlinear dynamics and costs), guesses, step lengths, regularisations, numbers of iterations and earlier states of the solvers; all convex linear-quadratic problems and guesses of each solver", "why_tests_cant": "tests compare two solvers on a few problems and up to a tolerance; that they take the same decisions at every trial step, and hence agree exactly after any number of iterations, is a statement about every problem and guess", "anchors": ["src/core/solvers/ddp.cpp SolverDDP::solve, forwardPass, expectedImprovement", "src/core/solvers/fddp.cpp SolverFDDP::solve, forwardPass, expectedImprovement, updateExpectedImprovement", "src/core/solvers/box-ddp.cpp SolverBoxDDP::forwardPass, computeGains", "src/core/solvers/box-fddp.cpp SolverBoxFDDP::forwardPass, computeGains", "src/core/solvers/kkt.cpp SolverKKT::solve", "src/core/solvers/intro.cpp SolverIntro::solve"]}
{"id": "C137", "title": "Nodes in contact are right end to end", "statement": "For a node with any mix of 1D, 2D, 3D and 6D contacts, the acceleration of calc obeys the equation of motion of the robot under the contact forces it reports on the joints, every contact moving with that acceleration obeys its stabilised constraint, a robot that moves with that acceleration holds its contacts, and Fx, Fu and the derivatives of the forces of calcDiff are the derivatives of calc, given only that the rigid-body library computes the kinematics and the derivatives of the inverse dynamics of the robot without contacts correctly.", "quantifier": "all robots, sets of contacts (any number, classes, types, placements, axes, references, gains), dampings, armatures, actuations, states, controls, directions and earlier contents of the data", "why_tests_cant": "tests compare with finite differences for one or two contacts at random states; whether stacking, force conversion, and the corrections of the derivatives fit together for every set of contacts is a statement about all of them", "anchors": ["include/crocoddyl/multibody/contacts/multiple-contacts.hxx ContactModelMultipleTpl::calc, calcDiff, updateForce, updateRneaDiff", "include/crocoddyl/multibody/contacts/contact-1d.hxx", "include/crocoddyl/multibody/contacts/contact-2d.hxx", "include/crocoddyl/multibody/contacts/contact-3d.hxx", "include/crocoddyl/multibody/contacts/contact-6d.hxx", "include/crocoddyl/multibody/actions/contact-fwddyn.hxx DifferentialActionModelContactFwdDynamicsTpl::calc, calcDiff"]}
{"id": "C138", "title": "Impacts are right end to end", "statement": "For a node with any mix of 3D and 6D impulses, an impact keeps the configuration, changes the momentum of the robot by exactly the impulses it reports on the joints, and leaves the points and frames of the impulses with minus the restitution coefficient times their velocity (at rest without restitution); Fx and the derivatives of the impulses of calcDiff are the derivatives of calc, given only that the rigid-body library computes the kinematics and the derivatives of the inverse dynamics of the robot without impulses correctly.", "quantifier": "all robots, sets of impulses (any number, classes, types, placements), restitution coefficients, dampings, states, directions and earlier contents of the data", "why_tests_cant": "tests compare with finite differences for one or two impulses at random states; whether stacking, conversion of impulses and the corrections of the derivatives fit together for every set of impulses is a statement about all of them", "anchors": ["include/crocoddyl/multibody/impulses/multiple-impulses.hxx ImpulseModelMultipleTpl::calc, calcDiff, updateForce, updateRneaDiff", "include/crocoddyl/multibody/impulses/impulse-3d.hxx ImpulseModel3DTpl::calc, calcDiff, updateForce", "include/crocoddyl/multibody/impulses/impulse-6d.hxx ImpulseModel6DTpl::calc, calcDiff, updateForce", "include/crocoddyl/multibody/actions/impulse-fwddyn.hxx ActionModelImpulseFwdDynamicsTpl::calc, calcDiff"]}
{"id": "C139", "title": "Discretised problems converge to the continuous problem", "statement": "For a continuously differentiable differential model on a vector state and a Lipschitz control signal, the states that a chain of Euler, RK2, RK3 or RK4 nodes of step h computes from the initial state, with controls that sample the signal, stay within a constant times h of the continuous motion over the whole horizon, and the sum of the node costs and the terminal cost is within a constant times h of the integral of the running cost plus the terminal cost; on linear models with controls constant over each node the states computed by RK2, RK3 and RK4 are within a constant times the second, third and fourth power of h.", "quantifier": "all models, motions, signals, horizons, steps below a threshold, numbers of nodes that fit in the horizon, control parametrisations and earlier contents of the datas", "why_tests_cant": "a test compares two step sizes on one model; convergence is a statement about all steps that tend to zero and all numbers of nodes", "anchors": ["include/crocoddyl/core/integrator/euler.hxx IntegratedActionModelEulerTpl::calc", "include/crocoddyl/core/integrator/rk.hxx IntegratedActionModelRKTpl::calc, set_rk_type", "include/crocoddyl/core/integ-action-base.hxx IntegratedActionModelAbstractTpl::init"]}
{"id": "C140", "title": "Box solvers on nonlinear problems with control limits", "statement": "From a feasible candidate within the control limits of a nonlinear problem, with exact first derivatives and box QPs that converge, the feed-forward terms of the box solvers are all zero exactly at the points where no control sequence within the limits improves the cost to first order, and elsewhere the computed policy is a descent direction of the total cost; a short enough step is then accepted.", "quantifier": "all nonlinear problems, control limits, candidates, Hessian approximations, regularisations, warm starts and step lengths", "why_tests_cant": "tests run one problem; the claim ranges over every problem and every active set, and the acceptance of short steps is a limit", "anchors": ["src/core/solvers/box-ddp.cpp SolverBoxDDP::computeGains, forwardPass", "src/core/solvers/box-fddp.cpp SolverBoxFDDP::computeGains, forwardPass", "src/core/solvers/box-qp.cpp BoxQP::solve", "src/core/solvers/ddp.cpp SolverDDP::backwardPass, solve"]}
{"id": "C141", "title": "solve ends by itself on nonlinear problems", "statement": "On every nonlinear problem whose total cost is bounded below, with parameters as users set them and a positive initial regularisation, solve of the DDP family from a feasible guess (DDP: from every guess) ends by itself: there is a number of iterations, computable from the cost of the guess, the thresholds and the regularisation factors, such that with a larger maxiter solve has returned before, either true because the stopping criterion is below th_stop, or false because the regularisation reached reg_max. It never cycles and never creeps until maxiter.", "quantifier": "all problems with a cost bounded below (differentiable or not), derivative data with symmetric Hessians, guesses, parameters, step lengths and initial regularisations", "why_tests_cant": "a test sees one run; the claim bounds the length of every run", "anchors": ["src/core/solvers/ddp.cpp SolverDDP::solve, increaseRegularization, decreaseRegularization, stoppingCriteria", "src/core/solvers/fddp.cpp SolverFDDP::solve", "src/core/solvers/box-ddp.cpp SolverBoxDDP", "src/core/solvers/box-fddp.cpp SolverBoxFDDP"]}
{"id": "C142", "title": "A node of a robot is right end to end", "statement": "The integrated action model (Euler, Runge-Kutta) of a multibody robot, with the contacts, actuation, armature, costs and activations of the library, moves the state with an acceleration that obeys the equation of motion under the reported contact forces and the stabilised contact constraints, and charges the weighted activations of the residuals of the active costs; and after calc and calcDiff its Fx, Fu, Lx and Lu are the derivatives on the manifold of the next state and of that cost, at every state and control and after any earlier calls. A terminal node charges the costs that depend on the state, and its Lx is their gradient.", "quantifier": "all robots, configuration manifolds, contacts, actuations, residuals, activations, weights, control parametrisations, time steps, states, controls and earlier calls", "why_tests_cant": "numerical differentiation samples states of one robot with a tolerance; the claim composes all layers for every robot", "anchors": ["include/crocoddyl/multibody/actions/contact-fwddyn.hxx DifferentialActionModelContactFwdDynamicsTpl", "include/crocoddyl/multibody/actions/free-fwddyn.hxx DifferentialActionModelFreeFwdDynamicsTpl", "include/crocoddyl/core/integrator/euler.hxx IntegratedActionModelEulerTpl", "include/crocoddyl/core/integrator/rk.hxx IntegratedActionModelRKTpl", "include/crocoddyl/core/costs/cost-sum.hxx CostModelSumTpl", "include/crocoddyl/core/costs/residual.hxx CostModelResidualTpl"]}
{"id": "C143", "title": "What success of solve guarantees on nonlinear problems", "statement": "On a nonlinear problem with exact first derivatives, when solve returns true the returned trajectory is a rollout at which the total cost is nearly stationary: the square of its slope in every direction of the space of controls is at most twice th_stop times the size of the direction, as measured by the Hessians and the regularisation of the solver; the norm of the gradient is bounded accordingly.", "quantifier": "all nonlinear problems with exact first derivatives and symmetric Hessians, guesses, regularisations, step-length lists, directions and the four solvers", "why_tests_cant": "tests check the stopping criterion on a few problems; how far it bounds the gradient must hold for every problem and in every direction", "anchors": ["src/core/solvers/ddp.cpp SolverDDP::solve, stoppingCriteria, expectedImprovement, computeActionValueFunction, computeValueFunction", "src/core/solvers/fddp.cpp SolverFDDP::solve, updateExpectedImprovement, expectedImprovement"]}
{"id": "C144", "title": "Raising the regularisation always leads to progress", "statement": "On a nonlinear problem without control limits and with exact first derivatives, at every feasible candidate that is not stationary there is a regularisation from which on the direction is computed at the first attempt and the full step is accepted and decreases the total cost, whatever the Hessians. So, if reg_max is large enough for that candidate, an iteration from it never gives up, and solve with th_grad zero and enough iterations ends with a total cost below that of such a guess.", "quantifier": "all nonlinear problems with exact first derivatives and symmetric Hessians (positive or not), feasible candidates that are not stationary, acceptance thresholds below 2, initial regularisations, step-length lists that begin with 1 and the four solvers", "why_tests_cant": "tests see one regularisation schedule on a few problems; that the fallback of raising the regularisation works must hold for every problem and every candidate", "anchors": ["src/core/solvers/ddp.cpp SolverDDP::solve, increaseRegularization, decreaseRegularization, backwardPass, computeActionValueFunction, computeValueFunction, forwardPass", "src/core/solvers/fddp.cpp SolverFDDP::solve, forwardPass, expectedImprovement"]}
{"id": "C145", "title": "solve succeeds when reg_max leaves room, and success means convergence", "statement": "On a nonlinear problem without control limits, with a total cost that is bounded below and derivatives that are bounded over the rollouts no worse than the guess, if reg_max is large enough and enough iterations are allowed then solve returns true from every feasible guess; and it returns true because it converged, not because the regularisation became large.", "quantifier": "all such nonlinear problems with exact first derivatives at the guess and symmetric Hessians (positive or not), feasible guesses, positive initial regularisations, step-length lists that begin with 1 and the four solvers", "why_tests_cant": "tests run a few problems with one schedule; that no problem makes the solver give up needs a regularisation that is enough at every candidate the run can reach", "anchors": ["src/core/solvers/ddp.cpp SolverDDP::solve, increaseRegularization, decreaseRegularization, backwardPass, stoppingCriteria", "src/core/solvers/fddp.cpp SolverFDDP::solve, expectedImprovement"]}
