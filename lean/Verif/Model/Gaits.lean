import Mathlib.Algebra.Order.Field.Basic
import Mathlib.Data.Rat.Cast.Order

/-!
# Model: the quadruped gait generator

`src/multibody/utils/quadruped-gaits.cpp`. A node is described by what the generator puts into it: the
kind of model, its time step, its supporting feet and the tracked references. The gains, weights and
regularisation costs, which are constants, are not modelled. Pinocchio's kinematics enters as the
positions of the feet and the height of the centre of mass at `x0`. `double` is a field `K`.
-/

namespace Verif.Gaits

variable {K : Type*}

/-- The four feet (`lf_foot_id_`, `rf_foot_id_`, `lh_foot_id_`, `rh_foot_id_`). -/
inductive Foot
  | lf | rf | lh | rh
  deriving DecidableEq

/-- `Eigen::Vector3d`. -/
@[ext] structure V3 (K : Type*) where
  x : K
  y : K
  z : K
  deriving DecidableEq

def V3.add [Add K] (a b : V3 K) : V3 K := ⟨a.x + b.x, a.y + b.y, a.z + b.z⟩

/-- An action model made by the generator.
* `swing`: `createSwingFootModel` (`quadruped-gaits.cpp:207-288`), Euler integration with the time step,
  contacts at `support`, a centre-of-mass reference when `com_task` is finite (L233) and one foot
  reference per swing task (L241-252).
* `switch`: `createFootSwitchModel` with its default argument, hence `createImpulseModel`
  (`quadruped-gaits.cpp:290-304, 378-427`), impulses at `support` and one foot reference per task. -/
inductive Node (K : Type*)
  | swing (dt : K) (support : List Foot) (com : Option (V3 K)) (tasks : List (Foot × V3 K))
  | switch (support : List Foot) (tasks : List (Foot × V3 K))
  deriving DecidableEq

/-- The height of a swing foot at knot `k` (`quadruped-gaits.cpp:169-180`), `phaseknots = n >> 1`. -/
def height [Field K] (h : K) (n k : ℕ) : K :=
  let p := n / 2
  if k < p then h * k / p else if k = p then h else h * (1 - ((k : K) - p) / p)

/-- The displacement `dp` (`quadruped-gaits.cpp:169-180`). -/
def dp [Field K] (len h : K) (n k : ℕ) : V3 K := ⟨len * (((k + 1 : ℕ) : K) / n), 0, height h n k⟩

/-- The swing tasks of knot `k` (`quadruped-gaits.cpp:167-186`). -/
def tasksAt [Field K] (len h : K) (n k : ℕ) (swing : List (Foot × V3 K)) : List (Foot × V3 K) :=
  swing.map fun f => (f.1, f.2.add (dp len h n k))

/-- `com_task` (`quadruped-gaits.cpp:189-191`). `_kp1_n` is set inside the loop over the swing feet: it
stays zero when there is none. -/
def comAt [Field K] (com : V3 K) (len : K) (n k : ℕ) (nSwing nLegs : ℕ) : V3 K :=
  let kp1 : K := if nSwing = 0 then 0 else ((k + 1 : ℕ) : K) / n
  V3.add ⟨len * kp1 * ((nSwing : K) / nLegs), 0, 0⟩ com

/-- `createFootStepModels` (`quadruped-gaits.cpp:146-205`): the models, the updated `com_pos0` and the
updated `feet_pos0`. The switch model gets the tasks left by the last iteration of the loop, none when
there was no iteration. -/
def footStep [Field K] (dt : K) (com : V3 K) (swing : List (Foot × V3 K)) (len h : K) (n : ℕ) (support : List Foot) :
    List (Node K) × V3 K × List (Foot × V3 K) :=
  let legs := support.length + swing.length
  let models := (List.range n).map fun k =>
    Node.swing dt support (some (comAt com len n k swing.length legs)) (tasksAt len h n k swing)
  let last := (List.range n).foldl (fun _ k => tasksAt len h n k swing) []
  (models ++ [Node.switch support last],
   com.add ⟨len * ((swing.length : K) / legs), 0, 0⟩,
   swing.map fun f => (f.1, f.2.add ⟨len, 0, 0⟩))

/-- The supporting feet while a foot swings (`quadruped-gaits.cpp:89-92`). -/
def supportOf : Foot → List Foot
  | .rh => [.lf, .rf, .lh]
  | .rf => [.lf, .lh, .rh]
  | .lh => [.lf, .rf, .rh]
  | .lf => [.rf, .lh, .rh]

/-- What the generator reads from the robot at `x0`. -/
structure Robot (K : Type*) where
  foot : Foot → V3 K
  comZ : K

/-- The parameters of a call of `createWalkingProblem`. -/
structure Params (K : Type*) where
  len : K
  h : K
  dt : K
  stepKnots : ℕ
  supportKnots : ℕ

/-- `comRef` (`quadruped-gaits.cpp:68-70`). -/
def comRef [Field K] (R : Robot K) : V3 K :=
  ⟨((R.foot .rf).x + (R.foot .rh).x + (R.foot .lf).x + (R.foot .lh).x) / 4,
   ((R.foot .rf).y + (R.foot .rh).y + (R.foot .lf).y + (R.foot .lh).y) / 4, R.comZ⟩

/-- `createWalkingProblem` (`quadruped-gaits.cpp:49-144`), from the flag `firtstep_`: the flag afterwards,
the running models and the terminal model (`loco3d_model.back()`, `none` if there was no model). -/
def walking [Field K] (first : Bool) (R : Robot K) (P : Params K) : Bool × List (Node K) × Option (Node K) :=
  let double := List.replicate P.supportKnots (Node.swing P.dt [.lf, .rf, .lh, .rh] none [])
  let len1 := if first then (1 / 2 : K) * P.len else P.len
  let s1 := footStep P.dt (comRef R) [(.rh, R.foot .rh)] len1 P.h P.stepKnots (supportOf .rh)
  let s2 := footStep P.dt s1.2.1 [(.rf, R.foot .rf)] len1 P.h P.stepKnots (supportOf .rf)
  let s3 := footStep P.dt s2.2.1 [(.lh, R.foot .lh)] P.len P.h P.stepKnots (supportOf .lh)
  let s4 := footStep P.dt s3.2.1 [(.lf, R.foot .lf)] P.len P.h P.stepKnots (supportOf .lf)
  let models := double ++ s1.1 ++ s2.1 ++ double ++ s3.1 ++ s4.1
  (false, models, models.getLast?)

/-- The generator after some calls: the flag. -/
def genRun [Field K] (calls : List (Robot K × Params K)) : Bool :=
  calls.foldl (fun f c => (walking f c.1 c.2).1) true

end Verif.Gaits
