import Mathlib.Data.List.Basic

/-!
# Model of the classes from which Python models derive

Files modelled: `/repo/bindings/python/crocoddyl/core/{action,diff-action,residual,cost,constraint,integ-action,
actuation}-base.hpp` with the base classes they complete (`/repo/include/crocoddyl/core/*-base.hxx`). A number is
`some k` or `none` for a NaN. The methods of the Python class are not modelled: the model says how they are
called.
-/

namespace Verif.PyWrap

variable {K : Type}

abbrev Vec (K : Type) := List (Option K)

inductive Cls where
  | action | differential | residual | cost | constraint | integrated | actuation
deriving DecidableEq

inductive Method where
  | calc | calcDiff
deriving DecidableEq

/-- How a Python method is called: with the state, or with state and control. -/
inductive Call (K : Type) where
  | one (f : Method) (x : Vec K)
  | two (f : Method) (x u : Vec K)
deriving DecidableEq

/-- The members used here. -/
structure Model (K : Type) where
  cls : Cls
  nx : Nat
  nu : Nat
  unone : Vec K

/-- The constructors. `unone_` is set to NaN (action-base.hpp L50, diff-action-base.hpp L54, residual-base.hpp L50,
L60, cost-base.hpp L42-77, constraint-base.hpp L48, L57, L64); the integrated model keeps the zeros of
its base class (action-base.hxx L24, integ-action-base.hpp L45-58); the actuation has none. -/
def Model.make [Zero K] (cls : Cls) (nx nu : Nat) : Model K where
  cls := cls
  nx := nx
  nu := nu
  unone := match cls with
    | .integrated => List.replicate nu (some 0)
    | .actuation => []
    | _ => List.replicate nu none

/-- The outcome of a call from C++: an exception before Python is entered, a call of Python, or nothing. -/
inductive Out (K : Type) where
  | raised
  | py (c : Call K)
  | nothing
deriving DecidableEq

/-- `calc(data, x, u)` and `calcDiff(data, x, u)` (action-base.hpp L53-97 and the same text in the other files; without
the test for NaN in integ-action-base.hpp L60-92 and actuation-base.hpp L38-70). `nan u` is
`std::isnan(u.lpNorm<Infinity>())`. -/
def Model.run (nan : Vec K → Bool) (m : Model K) (f : Method) (x u : Vec K) : Out K :=
  if x.length ≠ m.nx then .raised
  else if u.length ≠ m.nu then .raised
  else match m.cls with
    | .integrated => .py (.two f x u)
    | .actuation => .py (.two f x u)
    | _ => if nan u then .py (.one f x) else .py (.two f x u)

/-- `calc(data, x)` and `calcDiff(data, x)` of the base classes: the call with `unone_` (action-base.hxx L51-63,
diff-action-base.hxx L33-45, residual-base.hxx L42-58, cost-base.hxx L80-92, constraint-base.hxx L86-98), or nothing
(actuation-base.hxx L25-33). -/
def Model.runX (nan : Vec K → Bool) (m : Model K) (f : Method) (x : Vec K) : Out K :=
  match m.cls with
  | .actuation => .nothing
  | _ => m.run nan f x m.unone

/-- `ShootingProblem::calc` and `calcDiff` (shooting.hxx L157-163, L192-198): the calls that arrive, node by node. -/
def problemRun (nan : Vec K → Bool) (nodes : List (Model K)) (term : Model K) (f : Method) (xs us : List (Vec K))
    (xT : Vec K) : List (Out K) :=
  (nodes.zip (xs.zip us)).map (fun n => n.1.run nan f n.2.1 n.2.2) ++ [term.runX nan f xT]

/-- Outcome of `quasiStatic`. -/
inductive Qs (K : Type) where
  | raised
  | ub
  | ok (u : Vec K)
deriving DecidableEq

/-- `quasiStatic(data, u, x, maxiter, tol)` with an override in Python that returns `ret` (action-base.hpp L111-126,
diff-action-base.hpp L116-131). `u` is an `Eigen::Ref`: it cannot change its size, and assigning a vector of another
size reads outside of that vector. The size is checked afterwards, on `u`. -/
def quasiStatic (nu : Nat) (ret u : Vec K) : Qs K :=
  if ret.length ≠ u.length then .ub
  else if u.length ≠ nu then .raised
  else .ok ret

/-- The dimensions of an action model. -/
structure Dims where
  nu : Nat
  nr : Nat
  ng : Nat
  nh : Nat
  ngT : Nat
  nhT : Nat
deriving DecidableEq

/-- The constructor of action and differential models, arguments in the order of the code: `(state, nu, nr, ng, nh,
ng_T, nh_T)` (action-base.hpp L42-51, diff-action-base.hpp L45-55). -/
def Dims.ctor (nu nr ng nh ngT nhT : Nat) : Dims := ⟨nu, nr, ng, nh, ngT, nhT⟩

/-- `cast` of the action model (action-base.hpp L171-177). -/
def castAction (d : Dims) : Dims := .ctor d.nu d.nr d.ng d.nh d.ngT d.nhT

/-- `cast` of the differential action model (diff-action-base.hpp L140-146). -/
def castDiff (d : Dims) : Dims := .ctor d.nr d.nu d.ng d.nh d.ngT d.nhT

end Verif.PyWrap
