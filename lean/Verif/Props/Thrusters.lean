import Verif.Spec.Actuation
import Mathlib.Algebra.Order.Group.Unbundled.Abs
import Mathlib.Tactic.Ring
import Mathlib.Tactic.Linarith
import Mathlib.Tactic.LinearCombination
import Mathlib.Tactic.FinCases
import Mathlib.Tactic.NormNum.Inv
import Mathlib.Tactic.NormNum.Ineq
import Mathlib.Tactic.NormNum.Pow

/-!
# C58: thrusters
-/

set_option linter.unusedSectionVars false
set_option linter.unusedSimpArgs false

namespace Verif.Act

open Matrix Spec

variable {K : Type*} [Field K] {nj nt ndx : ℕ}

theorem axis_eq (p : Thruster K) : p.rot *ᵥ ![0, 0, 1] = axis p := by
  funext i
  simp [axis, mulVec, dotProduct, Fin.sum_univ_three]

theorem addThruster_apply (W : Matrix (Fin (6 + nj)) (Fin (nj + nt)) K) (p : Thruster K) (i : ℕ)
    (r : Fin (6 + nj)) (c : Fin (nj + nt)) :
    addThruster W p i r c = W r c + if c.val = i then wrench p r.val else 0 := by
  by_cases hc : c.val = i
  · rw [if_pos hc]
    by_cases h3 : r.val < 3
    · have h6 : ¬ (3 ≤ r.val ∧ r.val < 6) := by omega
      simp only [addThruster, axis_eq]
      split <;> simp [addMid, addTop, hc, h3, h6, wrench, not_le.2 h3]
    · by_cases h6 : r.val < 6
      · have h3' : 3 ≤ r.val := not_lt.1 h3
        have h3'' : r.val - 3 < 3 := by omega
        simp only [addThruster, axis_eq]
        split
        · rename_i hcw
          simp [addMid, addTop, hc, h3, h6, h3', wrench, h3'', hcw]
          ring
        · rename_i hcw
          simp [addMid, addTop, hc, h3, h6, h3', wrench, h3'', hcw]
          ring
      · have h3'' : ¬ r.val - 3 < 3 := by omega
        simp only [addThruster, axis_eq]
        split <;> simp [addMid, addTop, hc, h3, h6, wrench, h3'']
  · rw [if_neg hc, add_zero]
    simp only [addThruster, axis_eq]
    split <;> simp [addMid, addTop, hc]

theorem fold_apply (ts : List (Thruster K)) (k : ℕ) (W : Matrix (Fin (6 + nj)) (Fin (nj + nt)) K)
    (r : Fin (6 + nj)) (c : Fin (nj + nt)) :
    (ts.zipIdx k).foldl (fun W p => addThruster W p.1 p.2) W r c
      = W r c + if k ≤ c.val then (match ts[c.val - k]? with
          | some p => wrench p r.val
          | none => 0) else 0 := by
  induction ts generalizing k W with
  | nil => simp
  | cons p ts ih =>
    simp only [List.zipIdx_cons, List.foldl_cons]
    rw [ih, addThruster_apply]
    by_cases h : c.val = k
    · subst h
      simp
    · by_cases h2 : k ≤ c.val
      · have e : c.val - k = (c.val - (k + 1)) + 1 := by omega
        have h3 : k + 1 ≤ c.val := by omega
        rw [if_neg h, if_pos h2, if_pos h3, e, List.getElem?_cons_succ, add_zero]
      · have h3 : ¬ k + 1 ≤ c.val := by omega
        rw [if_neg h, if_neg h2, if_neg h3, add_zero]

theorem fold_eq (ts : List (Thruster K)) (W : Matrix (Fin (6 + nj)) (Fin (nj + nt)) K) :
    ts.zipIdx.foldl (fun W p => addThruster W p.1 p.2) W = W + thrustPart ts := by
  ext r c
  rw [fold_apply]
  simp only [zero_le, if_true, Nat.sub_zero, Matrix.add_apply, thrustPart, of_apply]
  rfl

variable (pinv : Matrix (Fin (6 + nj)) (Fin (nj + nt)) K → Matrix (Fin (nj + nt)) (Fin (6 + nj)) K)

theorem set_W (m : Thr K nj nt) (ts : List (Thruster K)) (h : ts.length = nt) :
    (m.set pinv ts).1.W = m.W + thrustPart ts := by
  simp only [Thr.set, h, ne_eq, not_true, if_false, fold_eq]

/-- **C58 (construction).** A new model has the thrust map of its thrusters. -/
theorem C58_construct (ts : List (Thruster K)) (h : ts.length = nt) :
    (Thr.make pinv ts : Thr K nj nt).W = thrustMap ts ∧ (Thr.make pinv ts : Thr K nj nt).mtau = pinv (thrustMap ts)
    ∧ (Thr.make pinv ts : Thr K nj nt).ts = ts := by
  have e : (Thr.make pinv ts : Thr K nj nt).W = thrustMap ts := by
    rw [Thr.make, set_W pinv _ ts h, thrustMap, add_comm (thrustPart ts)]
    congr 1
    ext r c
    simp only [jointPart, of_apply]
    congr 1
    rw [eq_iff_iff]
    constructor
    · rintro ⟨h1, h2, h3, h4⟩
      exact ⟨⟨r.val - 6, by omega⟩, by simp only; omega, by simp only; omega⟩
    · rintro ⟨k, h1, h2⟩
      omega
  refine ⟨e, ?_, ?_⟩
  · rw [← e]; simp only [Thr.make, Thr.set, h, ne_eq, not_true, if_false]
  · simp only [Thr.make, Thr.set, h, ne_eq, not_true, if_false]

variable [LinearOrder K] (eps : K)

/-- The thruster lists that the calls of a history installed (a list of the wrong length is rejected). -/
def installed (nj nt : ℕ) (ops : List (ThrOp K nj nt)) : List (List (Thruster K)) :=
  ops.filterMap fun o => match o with
    | .setThrusters ts => if ts.length = nt then some ts else none
    | _ => none

theorem step_model (w : ThrWorld K nj nt ndx) (o : ThrOp K nj nt) :
    ((w.step pinv eps o).model.W = w.model.W ∧ (w.step pinv eps o).model.mtau = w.model.mtau
        ∧ (w.step pinv eps o).model.S = w.model.S ∧ installed nj nt [o] = [])
    ∨ ∃ ts, o = .setThrusters ts ∧ ts.length = nt ∧ installed nj nt [o] = [ts]
        ∧ (w.step pinv eps o).model = (w.model.set pinv ts).1 := by
  cases o with
  | setThrusters ts =>
    by_cases h : ts.length = nt
    · exact Or.inr ⟨ts, rfl, h, by simp [installed, h], rfl⟩
    · left
      have e : (w.model.set pinv ts).1 = w.model := by simp [Thr.set, h]
      refine ⟨by simp only [ThrWorld.step, e], by simp only [ThrWorld.step, e], by simp only [ThrWorld.step, e], by simp [installed, h]⟩
  | create => exact Or.inl ⟨rfl, rfl, rfl, rfl⟩
  | eval i u =>
    left
    have e : ∀ d, (w.model.calc eps (ndx := ndx) d u).1.W = w.model.W ∧ (w.model.calc eps (ndx := ndx) d u).1.mtau = w.model.mtau
        ∧ (w.model.calc eps (ndx := ndx) d u).1.S = w.model.S := by
      intro d
      simp only [Thr.calc]
      split <;> exact ⟨rfl, rfl, rfl⟩
    dsimp only [ThrWorld.step]
    cases hi : w.datas[i]? with
    | none => exact ⟨rfl, rfl, rfl, rfl⟩
    | some d => exact ⟨(e d).1, (e d).2.1, (e d).2.2, rfl⟩
  | calcDiff i u => exact Or.inl ⟨rfl, rfl, rfl, rfl⟩
  | commands i tau =>
    left
    dsimp only [ThrWorld.step]
    cases hi : w.datas[i]? <;> exact ⟨rfl, rfl, rfl, rfl⟩

/-- **C58 (what is computed).** After any history the thrust map is the joint part plus the *sum* of
the thrust parts of all the lists ever installed, and the stored inverse and selection are computed
from it. -/
theorem C58_accumulates (ts : List (Thruster K)) (h : ts.length = nt) (ops : List (ThrOp K nj nt)) :
    let m := (ThrWorld.run (ndx := ndx) pinv eps ts ops).model
    m.W = jointPart + thrustPart ts + ((installed nj nt ops).map thrustPart).sum
    ∧ m.mtau = pinv m.W ∧ m.S = m.W * pinv m.W := by
  unfold ThrWorld.run
  induction ops using List.reverseRecOn with
  | nil =>
    obtain ⟨h1, h2, h3⟩ := C58_construct pinv ts h (nj := nj)
    refine ⟨?_, ?_, ?_⟩
    · simp only [List.foldl_nil, h1, thrustMap, installed, List.filterMap_nil, List.map_nil, List.sum_nil, add_zero]
      rw [add_comm (thrustPart ts)]
    · simp only [List.foldl_nil, h1, h2]
    · simp only [List.foldl_nil, Thr.make, Thr.set, h, ne_eq, not_true, if_false]
  | append_singleton ops o ih =>
    simp only [List.foldl_append, List.foldl_cons, List.foldl_nil]
    set w := ops.foldl _ _ with hw
    obtain ⟨h1, h2, h3⟩ := ih
    have hinst : installed nj nt (ops ++ [o]) = installed nj nt ops ++ installed nj nt [o] := by
      simp [installed, List.filterMap_append]
    rw [hinst, List.map_append, List.sum_append]
    rcases step_model pinv eps w o with ⟨e1, e2, e3, e4⟩ | ⟨ts', ho, hl, hi, e⟩
    · rw [e1, e2, e3, e4]
      refine ⟨by rw [h1]; simp, h2, h3⟩
    · rw [e, hi, set_W pinv _ _ hl]
      refine ⟨by rw [h1]; simp [add_assoc], ?_, ?_⟩
      · simp only [Thr.set, hl, ne_eq, not_true, if_false, fold_eq]
      · simp only [Thr.set, hl, ne_eq, not_true, if_false, fold_eq]

/-- **C58 (stored list).** After any history `get_thrusters` returns the list that was installed last, or
the constructor's if none was. -/
theorem C58_stored (ts : List (Thruster K)) (h : ts.length = nt) (ops : List (ThrOp K nj nt)) :
    (ThrWorld.run (ndx := ndx) pinv eps ts ops).model.ts = (installed nj nt ops).getLast?.getD ts := by
  unfold ThrWorld.run
  induction ops using List.reverseRecOn with
  | nil => exact (C58_construct pinv ts h).2.2
  | append_singleton ops o ih =>
    simp only [List.foldl_append, List.foldl_cons, List.foldl_nil]
    set w := ops.foldl _ _ with hw
    have hinst : installed nj nt (ops ++ [o]) = installed nj nt ops ++ installed nj nt [o] := by
      simp [installed, List.filterMap_append]
    rw [hinst]
    cases o with
    | setThrusters ts' =>
      by_cases hl : ts'.length = nt
      · simp [ThrWorld.step, Thr.set, hl, installed]
      · have e : installed nj nt [ThrOp.setThrusters ts'] = [] := by simp [installed, hl]
        rw [e, List.append_nil, ← ih]
        simp [ThrWorld.step, Thr.set, hl]
    | create => simpa [ThrWorld.step, Thr.updateData, installed] using ih
    | eval i u =>
      have e : installed nj nt [ThrOp.eval i u] = ([] : List (List (Thruster K))) := rfl
      rw [e, List.append_nil, ← ih]
      dsimp only [ThrWorld.step]
      cases hi : w.datas[i]? with
      | none => rfl
      | some d =>
        dsimp only [Thr.calc]
        split <;> rfl
    | calcDiff i u => simpa [ThrWorld.step, installed] using ih
    | commands i tau =>
      have e : installed nj nt [ThrOp.commands i tau] = ([] : List (List (Thruster K))) := rfl
      rw [e, List.append_nil, ← ih]
      dsimp only [ThrWorld.step]
      cases hi : w.datas[i]? <;> rfl

/-- **C58 (commands).** In every state, `commands(tau)` on a data object stores as commands the
object's torque transform times `tau`; its other results, the other objects and the model are as
before. -/
theorem C58_commands (w : ThrWorld K nj nt ndx) (i : ℕ) (tau : Fin (6 + nj) → K)
    (d : Data K (6 + nj) (nj + nt) ndx) (hd : w.datas[i]? = some d) :
    let w' := w.step pinv eps (.commands i tau)
    (∃ d', w'.datas[i]? = some d' ∧ d'.u = d.mtau *ᵥ tau ∧ d'.tau = d.tau ∧ d'.dtauDu = d.dtauDu
        ∧ d'.dtauDx = d.dtauDx ∧ d'.mtau = d.mtau ∧ d'.tauSet = d.tauSet)
    ∧ (∀ j, j ≠ i → w'.datas[j]? = w.datas[j]?) ∧ w'.model = w.model := by
  have hlt : i < w.datas.length := (List.getElem?_eq_some_iff.1 hd).1
  have e : w.step pinv eps (.commands i tau) = { w with datas := w.datas.set i { d with u := d.mtau *ᵥ tau } } := by
    simp only [ThrWorld.step, hd]
  rw [e]
  refine ⟨⟨{ d with u := d.mtau *ᵥ tau }, ?_, rfl, rfl, rfl, rfl, rfl, rfl⟩, fun j hj => ?_, rfl⟩
  · simp [hlt]
  · simp [List.getElem?_set, Ne.symm hj]

/-- A data object agrees with the model's current map. -/
def Fresh (m : Thr K nj nt) (d : Data K (6 + nj) (nj + nt) ndx) : Prop :=
  d.dtauDu = m.W ∧ d.mtau = m.mtau ∧ ∀ k, d.tauSet k = true ↔ eps ≤ max (m.S k k) (-(m.S k k))

theorem fresh_update (m : Thr K nj nt) (d : Data K (6 + nj) (nj + nt) ndx) :
    Fresh eps m (m.updateData eps d).2 := by
  refine ⟨rfl, rfl, fun k => ?_⟩
  simp only [Thr.updateData]
  split
  · rename_i hk
    simp [not_le.2 hk]
  · rename_i hk
    simp [not_lt.1 hk]

/-- When no pending update is lost, `calc` works with the model's current map. -/
theorem fresh_calc (m : Thr K nj nt) (d : Data K (6 + nj) (nj + nt) ndx) (u : Fin (nj + nt) → K)
    (h : m.upd = false → Fresh eps m d) :
    Fresh eps m (m.calc eps d u).2 ∧ (m.calc eps d u).2.tau = m.W *ᵥ u := by
  simp only [Thr.calc]
  split
  · exact ⟨fresh_update eps m d, rfl⟩
  · rename_i hu
    have := h (by simpa using hu)
    exact ⟨this, by rw [← this.1]⟩

/-- **C58 (without replacement, partial).** In every history that does not install new thrusters, at
every data object: `calc(u)` gives the thrust map of the thrusters times `u`, the reported derivative is
that map, the transform is its pseudo-inverse, and if that is a left inverse then `commands` recovers
`u`. Missing, and false: the same after `set_thrusters` (`C58_replace_counterexample`,
`C58_stale_counterexample`). -/
theorem C58_constant_partial (ts : List (Thruster K)) (h : ts.length = nt) (ops : List (ThrOp K nj nt))
    (hops : installed nj nt ops = []) (i : ℕ) (d : Data K (6 + nj) (nj + nt) ndx)
    (hd : (ThrWorld.run pinv eps ts ops).datas[i]? = some d) (u : Fin (nj + nt) → K) :
    let d' := ((ThrWorld.run (ndx := ndx) pinv eps ts ops).model.calc eps d u).2
    let W : Matrix (Fin (6 + nj)) (Fin (nj + nt)) K := thrustMap ts
    d'.tau = W *ᵥ u ∧ d'.dtauDu = W ∧ d.dtauDu = W ∧ d'.mtau = pinv W
    ∧ (pinv W * W = 1 → d'.mtau *ᵥ d'.tau = u)
    ∧ ∀ k, d'.tauSet k = true ↔ eps ≤ max ((W * pinv W) k k) (-((W * pinv W) k k)) := by
  obtain ⟨hW, hM, hS⟩ := C58_accumulates (ndx := ndx) pinv eps ts h ops
  rw [hops] at hW
  simp only [List.map_nil, List.sum_nil, add_zero] at hW
  have hW' : (ThrWorld.run (ndx := ndx) pinv eps ts ops).model.W = thrustMap ts := by
    rw [hW, thrustMap, add_comm (thrustPart ts)]
  -- every data object is fresh
  have inv : ∀ ops : List (ThrOp K nj nt), installed nj nt ops = [] →
      ∀ d ∈ (ThrWorld.run (ndx := ndx) pinv eps ts ops).datas, Fresh eps (ThrWorld.run (ndx := ndx) pinv eps ts ops).model d := by
    intro ops
    unfold ThrWorld.run
    induction ops using List.reverseRecOn with
    | nil => intro _ d hd; simp at hd
    | append_singleton ops o ih =>
      intro hops
      have hinst : installed nj nt (ops ++ [o]) = installed nj nt ops ++ installed nj nt [o] := by
        simp [installed, List.filterMap_append]
      rw [hinst, List.append_eq_nil_iff] at hops
      have ih := ih hops.1
      simp only [List.foldl_append, List.foldl_cons, List.foldl_nil]
      set w := ops.foldl _ _ with hw
      have hm : (w.step pinv eps o).model.W = w.model.W ∧ (w.step pinv eps o).model.mtau = w.model.mtau
          ∧ (w.step pinv eps o).model.S = w.model.S := by
        rcases step_model pinv eps w o with ⟨e1, e2, e3, _⟩ | ⟨ts', _, _, hi, _⟩
        · exact ⟨e1, e2, e3⟩
        · rw [hi] at hops; simp at hops
      have tr : ∀ d : Data K (6 + nj) (nj + nt) ndx, Fresh eps w.model d → Fresh eps (w.step pinv eps o).model d := by
        rintro d ⟨f1, f2, f3⟩
        exact ⟨by rw [f1, hm.1], by rw [f2, hm.2.1], by rw [hm.2.2]; exact f3⟩
      intro d hd
      apply tr
      cases o with
      | setThrusters ts' => exact ih d hd
      | create =>
        have hd : d ∈ w.datas ++ [(w.model.updateData eps Data.zero).2] := hd
        rcases List.mem_append.1 hd with h1 | h1
        · exact ih d h1
        · rw [List.mem_singleton.1 h1]; exact fresh_update eps _ _
      | eval i u =>
        dsimp only [ThrWorld.step] at hd
        cases hi : w.datas[i]? with
        | none => rw [hi] at hd; exact ih d hd
        | some e =>
          rw [hi] at hd
          rcases List.mem_or_eq_of_mem_set hd with h1 | h1
          · exact ih d h1
          · rw [h1]
            exact (fresh_calc eps w.model e u fun _ => ih e (List.mem_of_getElem? hi)).1
      | calcDiff i u => exact ih d hd
      | commands i tau =>
        dsimp only [ThrWorld.step] at hd
        cases hi : w.datas[i]? with
        | none => rw [hi] at hd; exact ih d hd
        | some e =>
          rw [hi] at hd
          rcases List.mem_or_eq_of_mem_set hd with h1 | h1
          · exact ih d h1
          · rw [h1]
            exact ih e (List.mem_of_getElem? hi)
  have hf := inv ops hops d (List.mem_of_getElem? hd)
  obtain ⟨⟨f1, f2, f3⟩, ft⟩ := fresh_calc eps _ d u fun _ => hf
  intro d' W
  refine ⟨by rw [ft, hW'], by rw [f1, hW'], by rw [hf.1, hW'], by rw [f2, hM, hW'], ?_, ?_⟩
  · intro hleft
    rw [ft, f2, hM, hW', mulVec_mulVec]
    show (pinv W * W) *ᵥ u = u
    rw [hleft, one_mulVec]
  · intro k
    rw [f3 k, hS, hW']

/-- **C58 (one data object).** Whatever thrusters were installed: if only one data object was ever
created, its next `calc` uses the model's current map. -/
theorem C58_single (ts : List (Thruster K)) (h : ts.length = nt) (ops : List (ThrOp K nj nt))
    (hlen : (ThrWorld.run (ndx := ndx) pinv eps ts ops).datas.length ≤ 1)
    (d : Data K (6 + nj) (nj + nt) ndx) (hd : (ThrWorld.run pinv eps ts ops).datas[0]? = some d)
    (u : Fin (nj + nt) → K) :
    let m := (ThrWorld.run (ndx := ndx) pinv eps ts ops).model
    (m.calc eps d u).2.tau = m.W *ᵥ u ∧ (m.calc eps d u).2.dtauDu = m.W ∧ (m.calc eps d u).2.mtau = pinv m.W := by
  have inv : ∀ ops : List (ThrOp K nj nt), (ThrWorld.run (ndx := ndx) pinv eps ts ops).datas.length ≤ 1 →
      (ThrWorld.run (ndx := ndx) pinv eps ts ops).model.upd = false →
      ∀ d ∈ (ThrWorld.run (ndx := ndx) pinv eps ts ops).datas, Fresh eps (ThrWorld.run (ndx := ndx) pinv eps ts ops).model d := by
    intro ops
    unfold ThrWorld.run
    induction ops using List.reverseRecOn with
    | nil => intro _ _ d hd; simp at hd
    | append_singleton ops o ih =>
      simp only [List.foldl_append, List.foldl_cons, List.foldl_nil]
      set w := ops.foldl _ _ with hw
      intro hlen hupd d hd
      cases o with
      | setThrusters ts' =>
        by_cases hl : ts'.length = nt
        · have e : (w.step pinv eps (.setThrusters ts')).model.upd = true := by
            simp [ThrWorld.step, Thr.set, hl]
          rw [e] at hupd; exact absurd hupd (by simp)
        · have e : w.step pinv eps (.setThrusters ts') = w := by simp [ThrWorld.step, Thr.set, hl]
          rw [e] at hlen hupd hd ⊢
          exact ih hlen hupd d hd
      | create =>
        have hd : d ∈ w.datas ++ [(w.model.updateData eps Data.zero).2] := hd
        have hl : (w.datas ++ [(w.model.updateData eps (Data.zero (ndx := ndx))).2]).length ≤ 1 := hlen
        have hnil : w.datas = [] := by
          rw [List.length_append] at hl
          simp at hl
          exact hl
        rw [hnil, List.nil_append, List.mem_singleton] at hd
        rw [hd]
        exact fresh_update eps _ _
      | eval i u =>
        dsimp only [ThrWorld.step] at hd hlen hupd ⊢
        cases hi : w.datas[i]? with
        | none =>
          rw [hi] at hd hlen hupd
          exact ih hlen hupd d hd
        | some e =>
          rw [hi] at hd hlen hupd
          simp only [List.length_set] at hlen
          have hi0 : i < w.datas.length := (List.getElem?_eq_some_iff.1 hi).1
          have hdat : w.datas = [e] := by
            have : w.datas.length = 1 := by omega
            obtain ⟨e', he'⟩ := List.length_eq_one_iff.1 this
            rw [he'] at hi hi0 ⊢
            simp at hi0
            subst hi0
            simpa using hi
          have hi0' : i = 0 := by omega
          rw [hdat, hi0'] at hd
          simp only [List.set_cons_zero, List.mem_singleton] at hd
          rw [hd]
          have hm : ∀ d' : Data K (6 + nj) (nj + nt) ndx, Fresh eps w.model d' → Fresh eps (w.model.calc eps e u).1 d' := by
            intro d' hf
            simp only [Thr.calc]
            split <;> exact hf
          exact hm _ (fresh_calc eps w.model e u fun hu => ih hlen hu e (List.mem_of_getElem? hi)).1
      | calcDiff i u => exact ih hlen hupd d hd
      | commands i tau =>
        dsimp only [ThrWorld.step] at hd hlen hupd ⊢
        cases hi : w.datas[i]? with
        | none =>
          rw [hi] at hd hlen hupd
          exact ih hlen hupd d hd
        | some e =>
          rw [hi] at hd hlen hupd
          simp only [List.length_set] at hlen
          rcases List.mem_or_eq_of_mem_set hd with h1 | h1
          · exact ih hlen hupd d h1
          · rw [h1]
            exact ih hlen hupd e (List.mem_of_getElem? hi)
  obtain ⟨_, hM, _⟩ := C58_accumulates (ndx := ndx) pinv eps ts h ops
  obtain ⟨⟨f1, f2, _⟩, ft⟩ := fresh_calc eps _ d u fun hu => inv ops hlen hu d (List.mem_of_getElem? hd)
  exact ⟨ft, f1, by rw [f2, hM]⟩

/-- **C58 (first use).** Right after an accepted `set_thrusters`, the first `calc`, on whatever data
object, uses the model's new map. -/
theorem C58_first (w : ThrWorld K nj nt ndx) (ts : List (Thruster K)) (h : ts.length = nt)
    (d : Data K (6 + nj) (nj + nt) ndx) (u : Fin (nj + nt) → K) :
    let m := (w.step pinv eps (.setThrusters ts)).model
    (m.calc eps d u).2.tau = m.W *ᵥ u ∧ (m.calc eps d u).2.dtauDu = m.W := by
  have hu : (w.step pinv eps (.setThrusters ts)).model.upd = true := by
    simp [ThrWorld.step, Thr.set, h]
  obtain ⟨⟨f1, _, _⟩, ft⟩ := fresh_calc eps (w.step pinv eps (.setThrusters ts)).model d u
    fun hn => by rw [hu] at hn; exact absurd hn (by simp)
  exact ⟨ft, f1⟩

/-- **C58 (rejection).** A list of the wrong length changes nothing. -/
theorem C58_reject (w : ThrWorld K nj nt ndx) (ts : List (Thruster K)) (h : ts.length ≠ nt) :
    w.step pinv eps (.setThrusters ts) = w ∧ (w.model.set pinv ts).2 = true := by
  constructor <;> simp [ThrWorld.step, Thr.set, h]

/-! ### Counterexamples -/

/-- A thruster at the origin pointing up, without drag torque. -/
def up : Thruster ℚ := ⟨1, 0, 0, true⟩

/-- The same thruster pointing down. -/
def down : Thruster ℚ := ⟨!![1, 0, 0; 0, -1, 0; 0, 0, -1], 0, 0, true⟩

/-- **C58: installing thrusters adds to the old map.** Installing the same list again doubles every
thrust; installing the reversed thruster cancels it. -/
theorem C58_replace_counterexample (pinv : Matrix (Fin (6 + 0)) (Fin (0 + 1)) ℚ → Matrix (Fin (0 + 1)) (Fin (6 + 0)) ℚ) :
    (ThrWorld.run (ndx := 0) pinv (1 / 1000) [up] [.setThrusters [up]]).model.W 2 0 = 2
    ∧ (thrustMap [up] : Matrix (Fin (6 + 0)) (Fin (0 + 1)) ℚ) 2 0 = 1
    ∧ (ThrWorld.run (ndx := 0) pinv (1 / 1000) [up] [.setThrusters [down]]).model.W 2 0 = 0
    ∧ (thrustMap [down] : Matrix (Fin (6 + 0)) (Fin (0 + 1)) ℚ) 2 0 = -1 := by
  obtain ⟨h1, _⟩ := C58_accumulates (ndx := 0) pinv (1 / 1000) [up] rfl [.setThrusters [up]]
  obtain ⟨h2, _⟩ := C58_accumulates (ndx := 0) pinv (1 / 1000) [up] rfl [.setThrusters [down]]
  rw [h1, h2]
  refine ⟨?_, ?_, ?_, ?_⟩
  · decide +kernel
  · decide +kernel
  · decide +kernel
  · decide +kernel

/-- **C58: other data objects keep the old map.** With two data objects, after `set_thrusters` and a
`calc` on the first, a `calc` on the second still uses the old map. The same happens to the only data
object in use when another one is created after `set_thrusters`. -/
theorem C58_stale_counterexample (pinv : Matrix (Fin (6 + 0)) (Fin (0 + 1)) ℚ → Matrix (Fin (0 + 1)) (Fin (6 + 0)) ℚ) :
    (∃ d, (ThrWorld.run (ndx := 0) pinv (1 / 1000) [up]
        [.create, .create, .setThrusters [up], .eval 0 (fun _ => 1), .eval 1 (fun _ => 1)]).datas[1]? = some d ∧
      d.tau 2 = 1 ∧ d.dtauDu 2 0 = 1)
    ∧ (∃ d, (ThrWorld.run (ndx := 0) pinv (1 / 1000) [up]
        [.create, .setThrusters [up], .create, .eval 0 (fun _ => 1)]).datas[0]? = some d ∧ d.tau 2 = 1 ∧ d.dtauDu 2 0 = 1)
    ∧ (ThrWorld.run (ndx := 0) pinv (1 / 1000) [up]
        [.create, .create, .setThrusters [up], .eval 0 (fun _ => 1), .eval 1 (fun _ => 1)]).model.W 2 0 = 2 := by
  obtain ⟨h1, _⟩ := C58_accumulates (ndx := 0) pinv (1 / 1000) [up] rfl
    [.create, .create, .setThrusters [up], .eval 0 (fun _ => 1), .eval 1 (fun _ => 1)]
  obtain ⟨h0, _⟩ := C58_construct (nj := 0) pinv [up] rfl
  have e2 : (thrustMap [up] : Matrix (Fin (6 + 0)) (Fin (0 + 1)) ℚ) 2 0 = 1 := by decide +kernel
  refine ⟨?_, ?_, ?_⟩
  · obtain ⟨d, hd⟩ : ∃ d, (ThrWorld.run (ndx := 0) pinv (1 / 1000) [up]
        [.create, .create, .setThrusters [up], .eval 0 (fun _ => 1), .eval 1 (fun _ => 1)]).datas[1]? = some d := ⟨_, rfl⟩
    refine ⟨d, hd, ?_⟩
    simp only [ThrWorld.run, List.foldl_cons, List.foldl_nil, ThrWorld.step, Thr.updateData, Thr.set, Thr.calc] at hd
    simp at hd
    rw [← hd]
    simp [h0, e2, mulVec, dotProduct]
  · obtain ⟨d, hd⟩ : ∃ d, (ThrWorld.run (ndx := 0) pinv (1 / 1000) [up]
        [.create, .setThrusters [up], .create, .eval 0 (fun _ => 1)]).datas[0]? = some d := ⟨_, rfl⟩
    refine ⟨d, hd, ?_⟩
    simp only [ThrWorld.run, List.foldl_cons, List.foldl_nil, ThrWorld.step, Thr.updateData, Thr.set, Thr.calc] at hd
    simp at hd
    rw [← hd]
    simp [h0, e2, mulVec, dotProduct]
  · rw [h1]
    decide +kernel

/-- Hypotheses of the theorems: one list of the right length, a data object, no replacement; and a case
with a left inverse. -/
example : installed 0 1 ([.create, .eval 0 (fun _ => 2), .setThrusters []] : List (ThrOp ℚ 0 1)) = [] := by
  decide +kernel

example : (!![0, 0, 1, 0, 0, 0] : Matrix (Fin (0 + 1)) (Fin (6 + 0)) ℚ)
    * (thrustMap [up] : Matrix (Fin (6 + 0)) (Fin (0 + 1)) ℚ) = 1 := by
  decide +kernel

/-- `C58_stored` and `C58_commands`: a history that installs two lists, and a data object to command. -/
example : (installed 0 1 ([.setThrusters [up], .create, .setThrusters [down], .setThrusters []] : List (ThrOp ℚ 0 1))).getLast?.getD [up] = [down]
    ∧ (ThrWorld.run (nj := 0) (nt := 1) (ndx := 0) (fun _ => fun _ _ => 1) (1 / 1000) [up] [.create]).datas.length = 1 := ⟨rfl, rfl⟩

end Verif.Act
