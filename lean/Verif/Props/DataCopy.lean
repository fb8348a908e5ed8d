import Verif.Lemmas.DataCopy

/-!
# C128: a copy of a data object is an object of its own

`data.copy()`, `copy.copy(data)` and `copy.deepcopy(data)` should give an object whose evaluation does not disturb the one it was copied
from, and which is evaluated as a new one would be. Proved for all histories in which copies are only read
(`C128_history_partial`), and for integrated action data for all histories in which derivatives are only asked from the object
evaluated last among those related by copying (`C128_integrated_partial`). It fails otherwise: the copy's costs read the original's kinematics (`C128_stale`), its
derivatives are written into the original (`C128_overwrite`), and after the original is gone the copy cannot be
evaluated at all (`C128_dangling`); copies of integrated data share the differential data (`C128_shared`).
-/

namespace Verif.DataCopy

section
variable {X U Pin Jt R A F G C : Type}
variable (f : Fns X U Pin Jt R A F G C)

/-- **C128.** For every program that creates, copies, destroys and evaluates data of a differential action model, evaluates only objects made by
`createData` and uses only objects that exist: no freed memory is accessed, and at the end every object, copies included, has
the outputs that it has when each object is a value of its own. Missing: programs that evaluate copies, for which it is false. -/
theorem C128_history_partial (ops : List (Op X U)) (hl : Live f ops Vals.empty) (hc : CopiesRead f ops Vals.empty) :
    ∃ w, run f ops World.empty = some w ∧
      ∀ a, (w.datas a).map Data.out = ((Vals.run f ops Vals.empty).vals a).map fun v => v.2.out := by
  obtain ⟨w, h1, h2⟩ := holds_run f ops holds_empty hl hc
  exact ⟨w, h1, h2.out⟩

/-- **C128**, integrated action data: for every program that uses only objects that exist, and asks derivatives from an object only if it,
and not another one related to it by copying, was evaluated last: copies may be evaluated as well, no freed memory is
accessed, and every object has the outputs that it has when each is a value of its own. (Unrelated objects may be used in
any order.) Missing: other orders, for which it is false. -/
theorem C128_integrated_partial (ops : List (Op X U)) (hl : Live f ops Vals.empty) (hp : Turns ops Families.empty) :
    ∃ w, irun f ops IWorld.empty = some w ∧
      ∀ a, (w.idatas a).map IData.out = ((Vals.run f ops Vals.empty).vals a).map fun v => v.2.out := by
  obtain ⟨w, m, h1, h2⟩ := iholds_run f ops iholds_empty hl hp
  exact ⟨w, h1, h2.out⟩

/-- What is read when a copy is evaluated: the dynamics are right, the cost is that of the kinematics that the *original* had when it was last
evaluated. -/
theorem C128_stale (x x' : X) (u u' : U) :
    ∃ w d, run f [.create, .calc 0 x u, .copy 0, .calc 1 x' u'] World.empty = some w ∧ w.datas 1 = some d ∧
      d.xout = f.acc x' u' ∧ d.cost = f.val (f.res (f.kin x u) (f.jt x' u') x' u') :=
  ⟨_, _, rfl, rfl, rfl, rfl⟩

/-- Derivatives of a copy: those of the cost are written into the original, and those in the copy stay as they were when it was
copied. -/
theorem C128_overwrite (x x' : X) (u u' : U) :
    ∃ w d c, run f [.create, .calc 0 x u, .calcDiff 0 x u, .copy 0, .calc 1 x' u', .calcDiff 1 x' u'] World.empty =
        some w ∧ w.datas 0 = some d ∧ w.datas 1 = some c ∧
      c.l = ((Val.new f).calc f x u |>.calcDiff f x u).l ∧
      d.l = f.grad (f.dres (f.res (f.dkin x u (f.kin x u)) (f.jt x' u') x' u') (f.dkin x u (f.kin x u))
        (f.djt x' u' (f.jt x' u')) x' u') :=
  ⟨_, _, _, rfl, rfl, rfl, rfl, rfl⟩

/-- Once the original is destroyed, evaluating the copy accesses freed memory, whatever the functions and the point. -/
theorem C128_dangling (x : X) (u : U) :
    Live f [.create, .copy 0, .destroy 0, .calc 1 x u] Vals.empty ∧
    run f [.create, .copy 0, .destroy 0, .calc 1 x u] World.empty = none := by
  refine ⟨?_, rfl⟩
  refine ⟨?_, ?_, ?_, ?_, trivial⟩ <;> intro a ha <;> cases ha <;> rfl

/-- Integrated data: an evaluation of the copy between `calc` and `calcDiff` of the original changes the derivatives that the original gets. -/
theorem C128_shared (x x' : X) (u u' : U) :
    ∃ w d, irun f [.create, .copy 0, .calc 0 x u, .calc 1 x' u', .calcDiff 0 x u] IWorld.empty = some w ∧
      w.idatas 0 = some d ∧ d.xout = f.acc x u ∧ d.fx = f.fx x u (f.jt x' u') :=
  ⟨_, _, rfl, rfl, rfl, rfl⟩

end

/-- Functions on numbers: the cost is ten times the kinematics (`x`) plus the joint torque (`u`). -/
def numbers : Fns Nat Nat Nat Nat Nat Nat Nat Nat Nat where
  jt _ u := u
  kin x _ := x
  acc x u := x + u
  djt _ _ j := j
  dkin _ _ p := p
  fx x _ j := x + 2 * j
  res p j _ _ := 10 * p + j
  val r := r
  dres r p _ _ _ := r + 100 * p
  grad r := r + 1
  pin0 := 0
  jt0 := 0
  r0 := 0
  xout0 := 0
  fx0 := 0
  l0 := 0
  cost0 := 0

/-- The property fails for data of differential actions: a live program after which an object has outputs that it should not have. -/
theorem C128_stale_counterexample :
    ∃ ops : List (Op Nat Nat), Live numbers ops Vals.empty ∧ ∃ w, run numbers ops World.empty = some w ∧
      (w.datas 1).map Data.out ≠ ((Vals.run numbers ops Vals.empty).vals 1).map fun v => v.2.out := by
  refine ⟨[.create, .calc 0 1 1, .copy 0, .calc 1 2 2], ?_, _, rfl, by decide +kernel⟩
  refine ⟨?_, ?_, ?_, ?_, trivial⟩ <;> intro a ha <;> cases ha <;> rfl

/-- The original, too: its cost derivatives are changed by evaluating its copy. -/
theorem C128_overwrite_counterexample :
    ∃ ops : List (Op Nat Nat), Live numbers ops Vals.empty ∧ ∃ w, run numbers ops World.empty = some w ∧
      (w.datas 0).map Data.out ≠ ((Vals.run numbers ops Vals.empty).vals 0).map fun v => v.2.out := by
  refine ⟨[.create, .calc 0 1 1, .calcDiff 0 1 1, .copy 0, .calc 1 2 2, .calcDiff 1 2 2], ?_, _, rfl, by decide +kernel⟩
  refine ⟨?_, ?_, ?_, ?_, ?_, ?_, trivial⟩ <;> intro a ha <;> cases ha <;> rfl

/-- And for integrated action data. -/
theorem C128_shared_counterexample :
    ∃ ops : List (Op Nat Nat), Live numbers ops Vals.empty ∧ ∃ w, irun numbers ops IWorld.empty = some w ∧
      (w.idatas 0).map IData.out ≠ ((Vals.run numbers ops Vals.empty).vals 0).map fun v => v.2.out := by
  refine ⟨[.create, .copy 0, .calc 0 1 1, .calc 1 2 2, .calcDiff 0 1 1], ?_, _, rfl, by decide +kernel⟩
  refine ⟨?_, ?_, ?_, ?_, ?_, trivial⟩ <;> intro a ha <;> cases ha <;> rfl

/-! ### The hypotheses are met -/

/-- A program with a copy kept as a snapshot while the original goes on and is destroyed. -/
def snapshot : List (Op Nat Nat) :=
  [.create, .calc 0 1 1, .calcDiff 0 1 1, .copy 0, .create, .calc 0 3 4, .calc 2 5 5, .destroy 0, .copy 1]

example : Live numbers snapshot Vals.empty ∧ CopiesRead numbers snapshot Vals.empty := by
  constructor
  · refine ⟨?_, ?_, ?_, ?_, ?_, ?_, ?_, ?_, ?_, trivial⟩ <;> intro a ha <;> cases ha <;> rfl
  · refine ⟨?_, ?_, ?_, ?_, ?_, ?_, ?_, ?_, ?_, trivial⟩ <;> intro he a ha v hv <;> cases he <;> cases ha <;> cases hv <;> rfl

example : (run numbers snapshot World.empty).map (fun w => (w.datas 1).map Data.out) = some (some ⟨2, 3, 112, 11⟩) := by
  decide +kernel

/-- Copies of integrated data evaluated in turn, an unrelated object evaluated in between, the original destroyed. -/
def turns : List (Op Nat Nat) :=
  [.create, .create, .calc 0 1 1, .calc 1 5 6, .calcDiff 0 1 1, .copy 0, .calc 2 2 2, .calcDiff 1 5 6, .calcDiff 2 2 2,
    .calc 0 3 3, .calcDiff 0 3 3, .destroy 0, .calc 2 4 4]

example : Live numbers turns Vals.empty ∧ Turns turns Families.empty := by
  constructor
  · refine ⟨?_, ?_, ?_, ?_, ?_, ?_, ?_, ?_, ?_, ?_, ?_, ?_, ?_, trivial⟩ <;> intro a ha <;> cases ha <;> rfl
  · refine ⟨?_, ?_, ?_, ?_, ?_, ?_, ?_, ?_, ?_, ?_, ?_, ?_, ?_, trivial⟩ <;> intro a x u ha <;> cases ha <;> decide +kernel

example : (irun numbers turns IWorld.empty).map
    (fun w => ((w.idatas 0).map IData.out, (w.idatas 1).map IData.out, (w.idatas 2).map IData.out)) =
    some (none, some ⟨11, 17, 557, 56⟩, some ⟨8, 6, 223, 44⟩) := by decide +kernel

end Verif.DataCopy
