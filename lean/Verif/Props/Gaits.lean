import Verif.Spec.Gaits
import Mathlib.Tactic.Ring
import Mathlib.Tactic.Linarith
import Mathlib.Tactic.FieldSimp
import Mathlib.Tactic.Positivity
import Mathlib.Tactic.NormNum.Ineq

/-!
# C61: the gait generator
-/

set_option linter.unusedSectionVars false
set_option linter.unusedSimpArgs false

namespace Verif.Gaits

open Spec

variable {K : Type*}

section
variable [Field K]

theorem footStep_length (dt : K) (com : V3 K) (swing : List (Foot × V3 K)) (len h : K) (n : ℕ) (sup : List Foot) :
    (footStep dt com swing len h n sup).1.length = n + 1 := by
  simp [footStep]

theorem footStep_support (dt : K) (com : V3 K) (swing : List (Foot × V3 K)) (len h : K) (n : ℕ) (sup : List Foot) :
    (footStep dt com swing len h n sup).1.map support = List.replicate (n + 1) sup := by
  simp only [footStep, List.map_append, List.map_map, List.map_cons, List.map_nil]
  rw [show (support ∘ fun k => Node.swing dt sup (some (comAt com len n k swing.length (sup.length + swing.length)))
    (tasksAt len h n k swing)) = fun _ => sup from rfl, List.map_const', List.length_range]
  simp [support, List.replicate_succ']

/-- **C61 (count and order).** Whatever the parameters and the calls before, the problem has
`2 * supportKnots + 4 * (stepKnots + 1)` running nodes; the feet on the ground follow the documented
order of phases; the terminal model is the last running model. -/
theorem C61_count_order (calls : List (Robot K × Params K)) (R : Robot K) (P : Params K) :
    let w := walking (genRun calls) R P
    w.2.1.length = 2 * P.supportKnots + 4 * (P.stepKnots + 1)
    ∧ w.2.1.map support = schedule P.stepKnots P.supportKnots
    ∧ ∃ t, w.2.2 = some t ∧ w.2.1[2 * P.supportKnots + 4 * (P.stepKnots + 1) - 1]? = some t := by
  intro w
  have h1 : w.2.1.length = 2 * P.supportKnots + 4 * (P.stepKnots + 1) := by
    simp only [w, walking, List.length_append, footStep_length, List.length_replicate]
    omega
  refine ⟨h1, ?_, ?_⟩
  · simp only [w, walking, List.map_append, footStep_support, List.map_replicate]
    rfl
  · have hne : w.2.1 ≠ [] := by
      intro e
      rw [e] at h1
      simp at h1
    have hl : w.2.2 = w.2.1.getLast? := rfl
    refine ⟨w.2.1.getLast hne, by rw [hl, List.getLast?_eq_getLast_of_ne_nil hne], ?_⟩
    rw [← h1, ← List.getLast?_eq_getElem?, List.getLast?_eq_getLast_of_ne_nil hne]

theorem footStep_com (dt : K) (c : V3 K) (x : Foot × V3 K) (len h : K) (n : ℕ) (f : Foot) :
    (footStep dt c [x] len h n (supportOf f)).2.1 = ⟨c.x + len / 4, c.y, c.z⟩ := by
  cases f <;> simp [footStep, supportOf, V3.add, div_eq_mul_inv]

/-- The steps made before the phase of a foot, along the forward direction. -/
def before (first : Bool) (len : K) : Foot → K
  | .rh => 0
  | .rf => stepLen first len .rh
  | .lh => stepLen first len .rh + stepLen first len .rf
  | .lf => stepLen first len .rh + stepLen first len .rf + len

/-- The centre-of-mass reference at the beginning of the phase of a foot. -/
def comBefore (first : Bool) (R : Robot K) (P : Params K) (f : Foot) : V3 K :=
  ⟨((R.foot .lf).x + (R.foot .rf).x + (R.foot .lh).x + (R.foot .rh).x) / 4 + before first P.len f / 4,
   ((R.foot .lf).y + (R.foot .rf).y + (R.foot .lh).y + (R.foot .rh).y) / 4, R.comZ⟩

theorem fs_congr (dt : K) {c c' : V3 K} (x : List (Foot × V3 K)) {len len' : K} (h : K) (n : ℕ) (sup : List Foot) {k k' : ℕ}
    (hc : c = c') (hl : len = len') (hk : k = k') :
    (footStep dt c x len h n sup).1[k]? = (footStep dt c' x len' h n sup).1[k']? := by
  rw [hc, hl, hk]

/-- Where the nodes of a phase are. -/
theorem phase_node (first : Bool) (R : Robot K) (P : Params K) (f : Foot) (k : ℕ) (hk : k < P.stepKnots + 1) :
    (walking first R P).2.1[phaseStart P.stepKnots P.supportKnots f + k]?
      = (footStep P.dt (comBefore first R P f) [(f, R.foot f)] (stepLen first P.len f) P.h P.stepKnots (supportOf f)).1[k]? := by
  have e : ∀ len : K, (1 / 2 : K) * len = len / 2 := fun len => by ring
  cases f <;> simp only [walking, phaseStart, stepLen, e, footStep_com]
  · rw [List.getElem?_append_right (by simp only [List.length_append, footStep_length, List.length_replicate]; omega)]
    refine fs_congr _ _ _ _ _ ?_ rfl ?_
    · simp only [comBefore, before, comRef, stepLen, V3.mk.injEq]
      refine ⟨by ring, by ring, trivial⟩
    · simp only [List.length_append, footStep_length, List.length_replicate]; omega
  · rw [List.getElem?_append_left (by simp only [List.length_append, footStep_length, List.length_replicate]; omega),
      List.getElem?_append_left (by simp only [List.length_append, footStep_length, List.length_replicate]; omega),
      List.getElem?_append_left (by simp only [List.length_append, footStep_length, List.length_replicate]; omega),
      List.getElem?_append_right (by simp only [List.length_append, footStep_length, List.length_replicate]; omega)]
    refine fs_congr _ _ _ _ _ ?_ rfl ?_
    · simp only [comBefore, before, comRef, stepLen, V3.mk.injEq]
      refine ⟨by ring, by ring, trivial⟩
    · simp only [List.length_append, footStep_length, List.length_replicate]; omega
  · rw [List.getElem?_append_left (by simp only [List.length_append, footStep_length, List.length_replicate]; omega),
      List.getElem?_append_right (by simp only [List.length_append, footStep_length, List.length_replicate]; omega)]
    refine fs_congr _ _ _ _ _ ?_ rfl ?_
    · simp only [comBefore, before, comRef, stepLen, V3.mk.injEq]
      refine ⟨by ring, by ring, trivial⟩
    · simp only [List.length_append, footStep_length, List.length_replicate]; omega
  · rw [List.getElem?_append_left (by simp only [List.length_append, footStep_length, List.length_replicate]; omega),
      List.getElem?_append_left (by simp only [List.length_append, footStep_length, List.length_replicate]; omega),
      List.getElem?_append_left (by simp only [List.length_append, footStep_length, List.length_replicate]; omega),
      List.getElem?_append_left (by simp only [List.length_append, footStep_length, List.length_replicate]; omega),
      List.getElem?_append_right (by simp only [List.length_append, footStep_length, List.length_replicate]; omega)]
    refine fs_congr _ _ _ _ _ ?_ rfl ?_
    · simp only [comBefore, before, comRef, stepLen, V3.mk.injEq]
      refine ⟨by ring, by ring, trivial⟩
    · simp only [List.length_append, footStep_length, List.length_replicate]; omega

theorem footStep_knot (dt : K) (c : V3 K) (sw : List (Foot × V3 K)) (len h : K) (n : ℕ) (sup : List Foot) (k : ℕ) (hk : k < n) :
    (footStep dt c sw len h n sup).1[k]?
      = some (Node.swing dt sup (some (comAt c len n k sw.length (sup.length + sw.length))) (tasksAt len h n k sw)) := by
  simp only [footStep]
  rw [List.getElem?_append_left (by simpa using hk), List.getElem?_map, List.getElem?_range hk]
  rfl

theorem footStep_last (dt : K) (c : V3 K) (sw : List (Foot × V3 K)) (len h : K) (m : ℕ) (sup : List Foot) :
    (footStep dt c sw len h (m + 1) sup).1[m + 1]? = some (Node.switch sup (tasksAt len h (m + 1) m sw)) := by
  simp only [footStep]
  rw [List.getElem?_append_right (by simp)]
  simp only [List.length_map, List.length_range, Nat.sub_self, List.getElem?_cons_zero]
  simp only [List.range_succ, List.foldl_append, List.foldl_cons, List.foldl_nil]

theorem genRun_first (calls : List (Robot K × Params K)) : genRun calls = calls.isEmpty := by
  unfold genRun
  induction calls using List.reverseRecOn with
  | nil => rfl
  | append_singleton l c _ => simp [List.foldl_append, walking]

end

section
variable [Field K] [LinearOrder K] [IsStrictOrderedRing K]

theorem height_mem (h : K) (hh : 0 ≤ h) (n k : ℕ) (hk : k < n) : 0 ≤ height h n k ∧ height h n k ≤ h := by
  unfold height
  simp only
  split
  · rename_i h1
    have hp : (0 : K) < ((n / 2 : ℕ) : K) := by exact_mod_cast (by omega : 0 < n / 2)
    have hkp : (k : K) ≤ ((n / 2 : ℕ) : K) := by exact_mod_cast h1.le
    have hk0 : (0 : K) ≤ k := Nat.cast_nonneg k
    refine ⟨by positivity, ?_⟩
    rw [div_le_iff₀ hp]
    exact mul_le_mul_of_nonneg_left hkp hh
  · split
    · exact ⟨hh, le_rfl⟩
    · rename_i h1 h2
      have hp : (0 : K) < ((n / 2 : ℕ) : K) := by exact_mod_cast (by omega : 0 < n / 2)
      have hkp : ((n / 2 : ℕ) : K) ≤ k := by exact_mod_cast (by omega : n / 2 ≤ k)
      have hk2 : (k : K) ≤ ((n / 2 : ℕ) : K) + ((n / 2 : ℕ) : K) := by exact_mod_cast (by omega : k ≤ n / 2 + n / 2)
      have a1 : ((k : K) - ((n / 2 : ℕ) : K)) / ((n / 2 : ℕ) : K) ≤ 1 := by
        rw [div_le_one hp]; linarith
      have a0 : 0 ≤ ((k : K) - ((n / 2 : ℕ) : K)) / ((n / 2 : ℕ) : K) := div_nonneg (by linarith) hp.le
      constructor
      · exact mul_nonneg hh (by linarith)
      · exact mul_le_of_le_one_right hh (by linarith)

/-- **C61 (swing).** At knot `k` of its phase, the only foot in the air has a reference that is its
initial position moved forward by the fraction `(k+1)/n` of the step, not sideways, and upwards by an
amount between zero and the step height. At the last knot the whole step length is reached, and the
foot-switch node after it keeps that reference. -/
theorem C61_swing (calls : List (Robot K × Params K)) (R : Robot K) (P : Params K) (hh : 0 ≤ P.h) (f : Foot) (k : ℕ)
    (hk : k < P.stepKnots) :
    let w := (walking (genRun calls) R P).2.1
    let a := phaseStart P.stepKnots P.supportKnots f
    ∃ z : K, 0 ≤ z ∧ z ≤ P.h
      ∧ (∃ nd, w[a + k]? = some nd ∧ isSwing nd = true ∧ tasks nd = [(f,
          ⟨(R.foot f).x + stepLen calls.isEmpty P.len f * ((k + 1 : ℕ) / P.stepKnots), (R.foot f).y, (R.foot f).z + z⟩)])
      ∧ (k + 1 = P.stepKnots → ∃ nd, w[a + P.stepKnots]? = some nd ∧ isSwing nd = false ∧ tasks nd = [(f,
          ⟨(R.foot f).x + stepLen calls.isEmpty P.len f, (R.foot f).y, (R.foot f).z + z⟩)]) := by
  intro w a
  refine ⟨height P.h P.stepKnots k, (height_mem P.h hh _ k hk).1, (height_mem P.h hh _ k hk).2, ?_, ?_⟩
  · refine ⟨_, (phase_node (genRun calls) R P f k (by omega)).trans (footStep_knot _ _ _ _ _ _ _ k hk), rfl, ?_⟩
    simp only [tasks, tasksAt, List.map_cons, List.map_nil, V3.add, dp, genRun_first, add_zero]
  · intro hlast
    have e := phase_node (genRun calls) R P f P.stepKnots (by omega)
    have hne : (P.stepKnots : K) ≠ 0 := by exact_mod_cast (by omega : P.stepKnots ≠ 0)
    have hl := footStep_last P.dt (comBefore (genRun calls) R P f) [(f, R.foot f)] (stepLen (genRun calls) P.len f) P.h k (supportOf f)
    rw [hlast] at hl
    refine ⟨_, e.trans hl, rfl, ?_⟩
    simp only [tasks, tasksAt, List.map_cons, List.map_nil, V3.add, dp, genRun_first, add_zero, hlast, div_self hne, mul_one]

/-- **C61 (touch-down, partial).** With an odd number of at least three knots the foot starts and ends
its swing on the ground. Missing, and false: even numbers and one knot
(`C61_touchdown_counterexample`). -/
theorem C61_touchdown_partial (h : K) (p : ℕ) (hp : 0 < p) :
    height h (2 * p + 1) 0 = 0 ∧ height h (2 * p + 1) (2 * p) = 0 := by
  have hp' : (p : K) ≠ 0 := by exact_mod_cast hp.ne'
  have e : (2 * p + 1) / 2 = p := by omega
  constructor
  · simp only [height, e]
    rw [if_pos hp]
    simp
  · simp only [height, e]
    rw [if_neg (by omega), if_neg (by omega)]
    push_cast
    field_simp
    ring

/-- **C61: the swing foot does not always come back to the ground.** With an even number `2p` of knots
the last reference is `h / p` above the ground, and with one knot it is the step height; this is the
reference of the foot-switch node too. -/
theorem C61_touchdown_counterexample (calls : List (Robot K × Params K)) (R : Robot K) (P : Params K) (hh : 0 < P.h)
    (hn : 0 < P.stepKnots) (heven : P.stepKnots % 2 = 0 ∨ P.stepKnots = 1) (f : Foot) :
    ∃ nd q, (walking (genRun calls) R P).2.1[phaseStart P.stepKnots P.supportKnots f + P.stepKnots]? = some nd
      ∧ isSwing nd = false ∧ tasks nd = [(f, q)] ∧ (R.foot f).z < q.z
      ∧ q.z = (R.foot f).z + (if P.stepKnots = 1 then P.h else P.h / ((P.stepKnots / 2 : ℕ) : K)) := by
  have e := phase_node (genRun calls) R P f P.stepKnots (by omega)
  obtain ⟨m, hm⟩ : ∃ m, P.stepKnots = m + 1 := ⟨P.stepKnots - 1, by omega⟩
  have hz : height P.h P.stepKnots m = if P.stepKnots = 1 then P.h else P.h / ((P.stepKnots / 2 : ℕ) : K) := by
    by_cases h1 : P.stepKnots = 1
    · rw [if_pos h1]
      have : m = 0 := by omega
      subst this
      simp only [height, h1]
      norm_num
    · rw [if_neg h1]
      obtain ⟨p, hp⟩ : ∃ p, P.stepKnots = 2 * p := ⟨P.stepKnots / 2, by omega⟩
      have hp0 : 0 < p := by omega
      have hp' : (p : K) ≠ 0 := by exact_mod_cast hp0.ne'
      have e2 : P.stepKnots / 2 = p := by omega
      have hmp : m = 2 * p - 1 := by omega
      simp only [height, e2]
      by_cases h2 : p = 1
      · subst h2
        have : m = 1 := by omega
        subst this
        norm_num
      · rw [if_neg (by omega), if_neg (by omega), hmp, Nat.cast_sub (by omega)]
        push_cast
        field_simp
        ring
  have hpos : 0 < height P.h P.stepKnots m := by
    rw [hz]
    split
    · exact hh
    · have : (0 : K) < ((P.stepKnots / 2 : ℕ) : K) := by exact_mod_cast (by omega : 0 < P.stepKnots / 2)
      exact div_pos hh this
  have hl := footStep_last P.dt (comBefore (genRun calls) R P f) [(f, R.foot f)] (stepLen (genRun calls) P.len f) P.h m (supportOf f)
  rw [← hm] at hl
  refine ⟨_, (R.foot f).add (dp (stepLen (genRun calls) P.len f) P.h P.stepKnots m), e.trans hl, rfl, rfl, ?_, ?_⟩
  · simp only [V3.add, dp]
    linarith
  · simp only [V3.add, dp]
    rw [hz]

end

/-- **C61 (centre of mass).** During the swing of a foot, the centre-of-mass reference moves forward by a
quarter of the foot's progress, at constant height and side position: at the last knot of a phase it has
the forward position of the mean of the feet, those that have already stepped being at their new places. -/
theorem C61_com [Field K] [CharZero K] (calls : List (Robot K × Params K)) (R : Robot K) (P : Params K) (f : Foot) (k : ℕ)
    (hk : k < P.stepKnots) :
    ∃ nd c, (walking (genRun calls) R P).2.1[phaseStart P.stepKnots P.supportKnots f + k]? = some nd
      ∧ com nd = some c ∧ c.z = R.comZ
      ∧ c.y = ((R.foot .lf).y + (R.foot .rf).y + (R.foot .lh).y + (R.foot .rh).y) / 4
      ∧ c.x = ((R.foot .lf).x + (R.foot .rf).x + (R.foot .lh).x + (R.foot .rh).x) / 4
          + ((match f with
              | .rh => 0
              | .rf => stepLen calls.isEmpty P.len .rh
              | .lh => stepLen calls.isEmpty P.len .rh + stepLen calls.isEmpty P.len .rf
              | .lf => stepLen calls.isEmpty P.len .rh + stepLen calls.isEmpty P.len .rf + P.len)
            + stepLen calls.isEmpty P.len f * ((k + 1 : ℕ) / P.stepKnots)) / 4 := by
  refine ⟨_, _, (phase_node (genRun calls) R P f k (by omega)).trans (footStep_knot _ _ _ _ _ _ _ k hk), rfl, ?_, ?_, ?_⟩
  · simp [comAt, V3.add, comBefore]
  · simp [comAt, V3.add, comBefore]
  · rw [← genRun_first]
    have hs : (supportOf f).length = 3 := by cases f <;> rfl
    simp only [comAt, V3.add, comBefore, List.length_cons, List.length_nil, hs]
    rw [if_neg (by norm_num)]
    have h4 : ((0 + 1 : ℕ) : K) / ((3 + (0 + 1) : ℕ) : K) = 1 / 4 := by norm_num
    rw [h4]
    cases f <;> simp only [before] <;> ring

/-! ### Examples -/

def exRobot : Robot ℚ := ⟨fun f => match f with
  | .lf => ⟨1, 1, 0⟩ | .rf => ⟨1, -1, 0⟩ | .lh => ⟨-1, 1, 0⟩ | .rh => ⟨-1, -1, 0⟩, 1 / 2⟩

def exParams : Params ℚ := ⟨1 / 4, 1 / 5, 1 / 100, 3, 2⟩

/-- The second call of a generator: the right hind foot makes a full step and lands. -/
example : (walking (genRun [(exRobot, exParams)]) exRobot exParams).2.1[5]?
    = some (.switch [.lf, .rf, .lh] [(.rh, ⟨-1 + 1 / 4, -1, 0⟩)]) := by decide +kernel

/-- In the first call it makes half a step. -/
example : (walking (genRun ([] : List (Robot ℚ × Params ℚ))) exRobot exParams).2.1[5]?
    = some (.switch [.lf, .rf, .lh] [(.rh, ⟨-1 + 1 / 8, -1, 0⟩)]) := by decide +kernel

/-- With four knots the foot does not land. -/
example : (walking true exRobot { exParams with stepKnots := 4 }).2.1[6]?
    = some (.switch [.lf, .rf, .lh] [(.rh, ⟨-1 + 1 / 8, -1, 1 / 10⟩)]) := by decide +kernel

end Verif.Gaits
