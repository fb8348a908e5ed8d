import Verif.Spec.Limits
import Mathlib.Tactic.NormNum
import Mathlib.Data.List.Basic

/-!
# C98, C99: control limits are the ones set and are respected; copies of action models
-/

set_option linter.unusedSectionVars false

namespace Verif.Limits

open Verif.Dense (Out)

/-! ## Lemmas -/

theorem finite_iff (x : EReal) : finite x = true ↔ ∃ r : ℝ, (r : EReal) = x := by
  classical
  rw [finite, decide_eq_true_iff]
  constructor
  · rintro ⟨h1, h2⟩
    induction x with
    | bot => exact absurd rfl h1
    | top => exact absurd rfl h2
    | coe r => exact ⟨r, rfl⟩
  · rintro ⟨r, rfl⟩
    exact ⟨EReal.coe_ne_bot r, EReal.coe_ne_top r⟩

theorem any_iff (l : List EReal) : l.any finite = true ↔ ∃ r : ℝ, (r : EReal) ∈ l := by
  rw [List.any_eq_true]
  constructor
  · rintro ⟨x, hx, hf⟩
    obtain ⟨r, rfl⟩ := (finite_iff x).1 hf
    exact ⟨r, hx⟩
  · rintro ⟨r, hr⟩
    exact ⟨_, hr, (finite_iff _).2 ⟨r, rfl⟩⟩

/-- What holds of a model in every history. -/
structure Inv (m : Model) : Prop where
  lb : m.ulb.length = m.nu
  ub : m.uub.length = m.nu
  has : m.has = (m.ulb.any finite && m.uub.any finite)

private theorem any_replicate (n : ℕ) {x : EReal} (h : finite x = false) : (List.replicate n x).any finite = false := by
  induction n with
  | zero => rfl
  | succ n ih => simp [List.replicate_succ, h, ih]

private theorem finite_bot : finite ⊥ = false := by
  rw [← Bool.not_eq_true, finite_iff]
  rintro ⟨r, hr⟩
  exact EReal.coe_ne_bot r hr

theorem inv_init (nu ng ngT : ℕ) : Inv (Model.init nu ng ngT) :=
  ⟨by simp [Model.init], by simp [Model.init], by simp [Model.init, any_replicate nu finite_bot]⟩

theorem inv_step {m : Model} (h : Inv m) (o : Op) : Inv (m.step o).2 ∧ (m.step o).2.nu = m.nu := by
  cases o with
  | ulb v =>
    simp only [Model.step, Model.setULb]; split_ifs with hn
    · exact ⟨h, rfl⟩
    · exact ⟨⟨not_not.1 hn, h.ub, rfl⟩, rfl⟩
  | uub v =>
    simp only [Model.step, Model.setUUb]; split_ifs with hn
    · exact ⟨h, rfl⟩
    · exact ⟨⟨h.lb, not_not.1 hn, rfl⟩, rfl⟩
  | glb v =>
    simp only [Model.step, Model.setGLb, apply_ite Prod.snd]
    generalize (if m.ng > m.ngT then m.ng else m.ngT) = n
    split_ifs
    · exact ⟨h, rfl⟩
    · exact ⟨⟨h.lb, h.ub, h.has⟩, rfl⟩
  | gub v =>
    simp only [Model.step, Model.setGUb, apply_ite Prod.snd]
    generalize (if m.ng > m.ngT then m.ng else m.ngT) = n
    split_ifs
    · exact ⟨h, rfl⟩
    · exact ⟨⟨h.lb, h.ub, h.has⟩, rfl⟩

theorem inv_run {m : Model} (h : Inv m) (ops : List Op) : Inv (m.run ops) ∧ (m.run ops).nu = m.nu := by
  induction ops generalizing m with
  | nil => exact ⟨h, rfl⟩
  | cons o ops ih =>
    have h1 := inv_step h o
    have h2 := ih h1.1
    exact ⟨h2.1, h2.2.trans h1.2⟩

private theorem run_limits (m : Model) (ops : List Op) :
    (m.run ops).ulb = lastSet m.nu m.ulb (lows ops) ∧ (m.run ops).uub = lastSet m.nu m.uub (ups ops) := by
  induction ops generalizing m with
  | nil => exact ⟨rfl, rfl⟩
  | cons o ops ih =>
    have hs : m.run (o :: ops) = ((m.step o).2).run ops := rfl
    rw [hs, (ih _).1, (ih _).2]
    cases o with
    | ulb v =>
      by_cases hv : v.length = m.nu <;>
        simp [Model.step, Model.setULb, Model.update, lows, ups, lastSet, hv]
    | uub v =>
      by_cases hv : v.length = m.nu <;>
        simp [Model.step, Model.setUUb, Model.update, lows, ups, lastSet, hv]
    | glb v => simp only [Model.step, Model.setGLb, lows, ups]; split_ifs <;> exact ⟨rfl, rfl⟩
    | gub v => simp only [Model.step, Model.setGUb, lows, ups]; split_ifs <;> exact ⟨rfl, rfl⟩

private theorem max_if (a b : ℕ) : (if a > b then a else b) = max a b := by
  split_ifs with h
  · exact (max_eq_left h.le).symm
  · exact (max_eq_right (not_lt.1 h)).symm

private theorem run_g (m : Model) (ops : List Op) :
    (m.run ops).glb = lastSet (max m.ng m.ngT) m.glb (gLows ops) ∧ (m.run ops).gub = lastSet (max m.ng m.ngT) m.gub (gUps ops)
    ∧ (m.run ops).ng = m.ng ∧ (m.run ops).ngT = m.ngT := by
  induction ops generalizing m with
  | nil => exact ⟨rfl, rfl, rfl, rfl⟩
  | cons o ops ih =>
    have hs : m.run (o :: ops) = ((m.step o).2).run ops := rfl
    obtain ⟨i1, i2, i3, i4⟩ := ih (m.step o).2
    rw [hs, i1, i2, i3, i4]
    cases o with
    | ulb v => simp only [Model.step, Model.setULb, gLows, gUps]; split_ifs <;> exact ⟨rfl, rfl, rfl, rfl⟩
    | uub v => simp only [Model.step, Model.setUUb, gLows, gUps]; split_ifs <;> exact ⟨rfl, rfl, rfl, rfl⟩
    | glb v =>
      by_cases hv : v.length = max m.ng m.ngT <;>
        simp [Model.step, Model.setGLb, max_if, gLows, gUps, lastSet, hv]
    | gub v =>
      by_cases hv : v.length = max m.ng m.ngT <;>
        simp [Model.step, Model.setGUb, max_if, gLows, gUps, lastSet, hv]

/-! ## C98 -/

/-- **C98 (setters).** After every history of calls, the limits are those of the last call with a vector of the right size,
infinite if there was none; a call throws exactly for a wrong size and then changes nothing. -/
theorem C98_setters (nu ng ngT : ℕ) (ops : List Op) (v : List EReal) :
    let m := (Model.init nu ng ngT).run ops
    m.ulb = lastSet nu (List.replicate nu ⊥) (lows ops) ∧ m.uub = lastSet nu (List.replicate nu ⊤) (ups ops)
    ∧ m.ulb.length = nu ∧ m.uub.length = nu
    ∧ ((m.setULb v).1 = .throw ↔ v.length ≠ nu) ∧ ((m.setUUb v).1 = .throw ↔ v.length ≠ nu)
    ∧ (v.length ≠ nu → (m.setULb v).2 = m ∧ (m.setUUb v).2 = m) := by
  intro m
  obtain ⟨hi, hn⟩ := inv_run (inv_init nu ng ngT) ops
  have hn' : m.nu = nu := hn
  obtain ⟨h1, h2⟩ := run_limits (Model.init nu ng ngT) ops
  refine ⟨h1, h2, hi.lb.trans hn', hi.ub.trans hn', ?_, ?_, fun hv => ?_⟩
  · simp only [Model.setULb, hn']; split_ifs with h <;> simp [h]
  · simp only [Model.setUUb, hn']; split_ifs with h <;> simp [h]
  · simp [Model.setULb, Model.setUUb, hn', hv]

/-- **C98 (bounds of the constraints).** The same for the bounds of the inequality constraints, whose size is the larger of the
numbers of running and terminal constraints. -/
theorem C98_constraint_setters (nu ng ngT : ℕ) (ops : List Op) (v : List EReal) :
    let m := (Model.init nu ng ngT).run ops
    m.glb = lastSet (max ng ngT) (List.replicate (max ng ngT) ⊥) (gLows ops)
    ∧ m.gub = lastSet (max ng ngT) (List.replicate (max ng ngT) ⊤) (gUps ops)
    ∧ ((m.setGLb v).1 = .throw ↔ v.length ≠ max ng ngT) ∧ ((m.setGUb v).1 = .throw ↔ v.length ≠ max ng ngT)
    ∧ (v.length ≠ max ng ngT → (m.setGLb v).2 = m ∧ (m.setGUb v).2 = m) := by
  intro m
  obtain ⟨h1, h2, h3, h4⟩ := run_g (Model.init nu ng ngT) ops
  have h3' : m.ng = ng := h3
  have h4' : m.ngT = ngT := h4
  refine ⟨?_, ?_, ?_, ?_, fun hv => ?_⟩
  · rw [h1]; simp only [Model.init, max_if]
  · rw [h2]; simp only [Model.init, max_if]
  · simp only [Model.setGLb, h3', h4', max_if]; split_ifs with h <;> simp [h]
  · simp only [Model.setGUb, h3', h4', max_if]; split_ifs with h <;> simp [h]
  · simp [Model.setGLb, Model.setGUb, h3', h4', max_if, hv]

/-- A history with wrong sizes: the limits are those of the calls with two entries. -/
example : lastSet 2 [⊥, ⊥] (lows [.ulb [0, 1], .uub [2, 2], .ulb [5], .glb [7]]) = [0, 1] := by
  simp [lows, lastSet]

/-- **C98 (flag, partial).** In every history: `get_has_control_limits` is true if some lower and some upper limit is finite,
and only if some limit is. Missing, and false: limits on one side only (`C98_flag_counterexample`). -/
theorem C98_flag_partial (nu ng ngT : ℕ) (ops : List Op) :
    let m := (Model.init nu ng ngT).run ops
    (m.has = true → Limited m.ulb m.uub)
    ∧ ((∃ r : ℝ, (r : EReal) ∈ m.ulb) → (∃ r : ℝ, (r : EReal) ∈ m.uub) → m.has = true)
    ∧ (m.has = true → ∃ r : ℝ, (r : EReal) ∈ m.ulb) ∧ (m.has = true → ∃ r : ℝ, (r : EReal) ∈ m.uub) := by
  intro m
  have hi : m.has = _ := (inv_run (inv_init nu ng ngT) ops).1.has
  refine ⟨fun h => ?_, fun h1 h2 => ?_, fun h => ?_, fun h => ?_⟩
  · rw [hi, Bool.and_eq_true] at h
    exact Or.inl ((any_iff _).1 h.1)
  · rw [hi, Bool.and_eq_true]
    exact ⟨(any_iff _).2 h1, (any_iff _).2 h2⟩
  · rw [hi, Bool.and_eq_true] at h
    exact (any_iff _).1 h.1
  · rw [hi, Bool.and_eq_true] at h
    exact (any_iff _).1 h.2

/-- **C98 (flag, counterexample).** With upper limits only, or lower limits only, the flag stays false, although limits are
defined. -/
theorem C98_flag_counterexample (nu ng ngT : ℕ) (r : ℝ) (hn : 0 < nu) :
    let m := (Model.init nu ng ngT).run [.uub (List.replicate nu (r : EReal))]
    let m' := (Model.init nu ng ngT).run [.ulb (List.replicate nu (r : EReal))]
    Limited m.ulb m.uub ∧ m.has = false ∧ Limited m'.ulb m'.uub ∧ m'.has = false := by
  have hT : finite ⊤ = false := by
    rw [← Bool.not_eq_true, finite_iff]
    rintro ⟨r, hr⟩
    exact EReal.coe_ne_top r hr
  intro m m'
  have hm : m = { (Model.init nu ng ngT) with uub := List.replicate nu (r : EReal) }.update := by
    simp [m, Model.run, Model.step, Model.setUUb, Model.init]
  have hm' : m' = { (Model.init nu ng ngT) with ulb := List.replicate nu (r : EReal) }.update := by
    simp [m', Model.run, Model.step, Model.setULb, Model.init]
  have hmem : (r : EReal) ∈ List.replicate nu (r : EReal) := List.mem_replicate.2 ⟨hn.ne', rfl⟩
  refine ⟨Or.inr ⟨r, by rw [hm]; exact hmem⟩, ?_, Or.inl ⟨r, by rw [hm']; exact hmem⟩, ?_⟩
  · rw [hm]; simp [Model.update, Model.init, any_replicate nu finite_bot]
  · rw [hm']; simp [Model.update, Model.init, any_replicate nu hT]

/-- **C98 (rollouts of the box solvers, partial).** In every history, if some lower and some upper limit is finite and no
lower limit exceeds the upper one, the controls of the rollouts satisfy the limits, and controls that satisfy them are kept. -/
theorem C98_clamp_partial (nu ng ngT : ℕ) (ops : List Op) (u : List ℝ) (hu : u.length = nu) :
    let m := (Model.init nu ng ngT).run ops
    (∃ r : ℝ, (r : EReal) ∈ m.ulb) → (∃ r : ℝ, (r : EReal) ∈ m.uub) →
    (∀ i (h : i < m.ulb.length) (h' : i < m.uub.length), m.ulb[i] ≤ m.uub[i]) →
    (m.clamp u).length = nu ∧ Within (m.clamp u) m.ulb m.uub
    ∧ (Within (u.map fun (r : ℝ) => (r : EReal)) m.ulb m.uub → m.clamp u = u.map fun (r : ℝ) => (r : EReal)) := by
  intro m h1 h2 hle
  obtain ⟨hi, hn⟩ := inv_run (inv_init nu ng ngT) ops
  have hn' : m.nu = nu := hn
  have hlb : m.ulb.length = nu := hi.lb.trans hn'
  have hub : m.uub.length = nu := hi.ub.trans hn'
  have hh : m.has = true := (C98_flag_partial nu ng ngT ops).2.1 h1 h2
  have hc : m.clamp u = List.zipWith min (List.zipWith max (u.map fun (r : ℝ) => (r : EReal)) m.ulb) m.uub := by
    simp [Model.clamp, hh]
  refine ⟨by rw [hc]; simp [hu, hlb, hub], ?_, fun hw => ?_⟩
  · intro i hi'
    have hi'' : i < nu := by rw [hc] at hi'; simpa [hu, hlb, hub] using hi'
    simp only [hc, List.getElem_zipWith, List.getElem_map]
    exact ⟨fun h => le_min (le_max_right _ _) (hle i h (by rw [hub]; exact hi'')), fun h => min_le_right _ _⟩
  · rw [hc]
    refine List.ext_getElem (by simp [hu, hlb, hub]) (fun i hi1 hi2 => ?_)
    have hi'' : i < nu := by simpa [hu, hlb, hub] using hi1
    obtain ⟨w1, w2⟩ := hw i hi2
    have a1 := w1 (by rw [hlb]; exact hi'')
    have a2 := w2 (by rw [hub]; exact hi'')
    simp only [List.getElem_zipWith, List.getElem_map] at a1 a2 ⊢
    rw [max_eq_left a1, min_eq_left a2]

/-- **C98 (rollouts and Ipopt, counterexample).** One control with the upper limit 1: the rollouts of the box solvers use the
control 5, and the box given to Ipopt allows it. -/
theorem C98_clamp_counterexample (big : ℝ) (hb : 5 ≤ big) :
    let m := (Model.init 1 0 0).run [.uub [((1 : ℝ) : EReal)]]
    m.uub = [((1 : ℝ) : EReal)] ∧ m.clamp [5] = [((5 : ℝ) : EReal)] ∧ ¬ Within (m.clamp [5]) m.ulb m.uub
    ∧ Within [((5 : ℝ) : EReal)] (m.ipoptBox big).1 (m.ipoptBox big).2 := by
  have hf := (C98_flag_counterexample 1 0 0 1 one_pos).2.1
  intro m
  have hh : m.has = false := hf
  have hu : m.uub = [((1 : ℝ) : EReal)] := by simp [m, Model.run, Model.step, Model.setUUb, Model.init, Model.update]
  have hn : m.nu = 1 := by simp [m, Model.run, Model.step, Model.setUUb, Model.init, Model.update]
  have hc : m.clamp [5] = [((5 : ℝ) : EReal)] := by simp [Model.clamp, hh]
  refine ⟨hu, hc, fun h => ?_, ?_⟩
  · have := (h 0 (by rw [hc]; simp)).2 (by rw [hu]; simp)
    simp only [hc, hu, List.getElem_cons_zero] at this
    have := EReal.coe_le_coe_iff.1 this
    norm_num at this
  · intro i hi
    obtain rfl : i = 0 := by simpa using hi
    simp only [Model.ipoptBox, hh, hn, Bool.false_eq_true, if_false, List.getElem_replicate, List.getElem_cons_zero]
    exact ⟨fun _ => EReal.coe_le_coe_iff.2 (by linarith), fun _ => EReal.coe_le_coe_iff.2 hb⟩

/-- **C98 (Ipopt, partial).** In every history, if some lower and some upper limit is finite, the box given to Ipopt is the
limits. -/
theorem C98_ipopt_partial (nu ng ngT : ℕ) (ops : List Op) (big : ℝ) :
    let m := (Model.init nu ng ngT).run ops
    (∃ r : ℝ, (r : EReal) ∈ m.ulb) → (∃ r : ℝ, (r : EReal) ∈ m.uub) → m.ipoptBox big = (m.ulb, m.uub) := by
  intro m h1 h2
  have hh : m.has = true := (C98_flag_partial nu ng ngT ops).2.1 h1 h2
  simp [Model.ipoptBox, hh]

/-- The hypotheses are met: limits -2 and 3 on the first of two controls, after a call with a wrong size. -/
example : let m := (Model.init 2 0 0).run [.ulb [((-2 : ℝ) : EReal), ⊥], .uub [⊤], .uub [((3 : ℝ) : EReal), ⊤]]
    m.clamp [7, 9] = [((3 : ℝ) : EReal), ((9 : ℝ) : EReal)] := by
  intro m
  have h1 : m.ulb = [((-2 : ℝ) : EReal), ⊥] := by
    simp [m, Model.run, Model.step, Model.setULb, Model.setUUb, Model.init, Model.update]
  have h2 : m.uub = [((3 : ℝ) : EReal), ⊤] := by
    simp [m, Model.run, Model.step, Model.setULb, Model.setUUb, Model.init, Model.update]
  have hh : m.has = true := (C98_flag_partial 2 0 0 _).2.1 ⟨-2, by rw [h1]; simp⟩ ⟨3, by rw [h2]; simp⟩
  have h3 : max ((7 : ℝ) : EReal) ((-2 : ℝ) : EReal) = ((7 : ℝ) : EReal) :=
    max_eq_left (EReal.coe_le_coe_iff.2 (by norm_num))
  have h4 : min ((7 : ℝ) : EReal) ((3 : ℝ) : EReal) = ((3 : ℝ) : EReal) :=
    min_eq_right (EReal.coe_le_coe_iff.2 (by norm_num))
  simp only [Model.clamp, hh, if_true, h1, h2, List.map_cons, List.map_nil, List.zipWith_cons_cons, List.zipWith_nil_left, h3, h4,
    max_bot_right, min_top_right]

/-! ### Integrated models -/

private theorem convert_length (parts : ℕ) (v : List EReal) : (convert parts v).length = parts * v.length := by
  simp [convert]

private theorem convert_mem {parts : ℕ} (hp : 0 < parts) (v : List EReal) (x : EReal) : x ∈ convert parts v ↔ x ∈ v := by
  simp only [convert, List.mem_flatten, List.mem_replicate]
  constructor
  · rintro ⟨l, ⟨-, rfl⟩, h⟩; exact h
  · exact fun h => ⟨v, ⟨hp.ne', rfl⟩, h⟩

private theorem import_eq {parts : ℕ} {d a : Model} (hd : Inv d) (ha : a.nu = parts * d.nu) :
    (import' parts d a).ulb = convert parts d.ulb ∧ (import' parts d a).uub = convert parts d.uub
    ∧ (import' parts d a).nu = a.nu
    ∧ (import' parts d a).has = ((convert parts d.ulb).any finite && (convert parts d.uub).any finite) := by
  have h1 : (convert parts d.ulb).length = a.nu := by rw [convert_length, hd.lb, ha]
  have h2 : (convert parts d.uub).length = a.nu := by rw [convert_length, hd.ub, ha]
  simp [import', Model.setULb, Model.setUUb, h1, h2, Model.update]

private theorem agree_import {parts : ℕ} (hp : 0 < parts) {d a : Model} (hd : Inv d) (ha : a.nu = parts * d.nu) :
    Agree ⟨d, parts, import' parts d a⟩ := by
  obtain ⟨h1, h2, -, h4⟩ := import_eq hd ha
  refine ⟨h1, h2, ?_⟩
  change (import' parts d a).has = d.has
  rw [h4, hd.has]
  congr 1 <;>
  · rw [Bool.eq_iff_iff, any_iff, any_iff]
    simp only [convert_mem hp]

/-- What holds of a pair of models in every history. -/
structure PairInv (p : Pair) : Prop where
  diff : Inv p.diff
  act : Inv p.act
  nu : p.act.nu = p.parts * p.diff.nu

private theorem pair_step {p : Pair} (h : PairInv p) (o : PairOp) (ho : ∀ d, o = .replace d → Inv d) :
    PairInv (p.step o) ∧ (p.step o).parts = p.parts := by
  cases o with
  | diff o =>
    have := inv_step h.diff o
    exact ⟨⟨this.1, h.act, by change p.act.nu = p.parts * (p.diff.step o).2.nu; rw [this.2]; exact h.nu⟩, rfl⟩
  | act o =>
    have := inv_step h.act o
    exact ⟨⟨h.diff, this.1, by change (p.act.step o).2.nu = _; rw [this.2]; exact h.nu⟩, rfl⟩
  | replace d =>
    simp only [Pair.step]
    split_ifs with hn
    · exact ⟨h, rfl⟩
    · have hd := ho d rfl
      have hn' : p.diff.nu = d.nu := not_not.1 hn
      have ha : p.act.nu = p.parts * d.nu := by rw [h.nu, hn']
      obtain ⟨h1, h2, h3, h4⟩ := import_eq (a := p.act) hd ha
      exact ⟨⟨hd, ⟨by rw [h1, h3, convert_length, hd.lb, ha], by rw [h2, h3, convert_length, hd.ub, ha],
        by rw [h1, h2, h4]⟩, h3.trans ha⟩, rfl⟩

/-- **C98 (integrated models, partial).** A new integrated model has the limits of its differential model, in each block of
parameters, and the same flag, whatever was set on the differential model before; and so it is again after `set_differential`,
whatever happened in between. Missing, and false: limits set on the differential model later
(`C98_integrated_counterexample`). -/
theorem C98_integrated_partial (nu ng ngT parts : ℕ) (hp : 0 < parts) (ops : List Op) :
    Agree (Pair.init parts ((Model.init nu ng ngT).run ops))
    ∧ ∀ hist : List PairOp, (∀ o ∈ hist, ∀ d, o = .replace d → ∃ nu' ng' ngT' ops', d = (Model.init nu' ng' ngT').run ops') →
      ∀ nu' ng' ngT' ops', nu' = nu →
        Agree ((hist.foldl Pair.step (Pair.init parts ((Model.init nu ng ngT).run ops))).step
          (.replace ((Model.init nu' ng' ngT').run ops'))) := by
  obtain ⟨hi, hn⟩ := inv_run (inv_init nu ng ngT) ops
  have h0 : PairInv (Pair.init parts ((Model.init nu ng ngT).run ops)) := by
    obtain ⟨h1, h2, h3, h4⟩ := import_eq (parts := parts) (a := Model.init (parts * ((Model.init nu ng ngT).run ops).nu)
      ((Model.init nu ng ngT).run ops).ng 0) hi rfl
    exact ⟨hi, ⟨by rw [Pair.init, h1, h3, convert_length, hi.lb]; rfl, by rw [Pair.init, h2, h3, convert_length, hi.ub]; rfl,
      by rw [Pair.init, h1, h2, h4]⟩, h3⟩
  refine ⟨agree_import hp hi rfl, fun hist hh nu' ng' ngT' ops' hnu => ?_⟩
  have key : ∀ (hist : List PairOp) (p : Pair), PairInv p → p.diff.nu = nu → p.parts = parts →
      (∀ o ∈ hist, ∀ d, o = .replace d → ∃ nu' ng' ngT' ops', d = (Model.init nu' ng' ngT').run ops') →
      PairInv (hist.foldl Pair.step p) ∧ (hist.foldl Pair.step p).diff.nu = nu ∧ (hist.foldl Pair.step p).parts = parts := by
    intro hist
    induction hist with
    | nil => exact fun p h1 h2 h3 _ => ⟨h1, h2, h3⟩
    | cons o hist ih =>
      intro p h1 h2 h3 h4
      have ho : ∀ d, o = .replace d → Inv d := by
        intro d hd
        obtain ⟨a, b, c, e, rfl⟩ := h4 o (List.mem_cons_self ..) d hd
        exact (inv_run (inv_init a b c) e).1
      have hs := pair_step h1 o ho
      refine ih _ hs.1 ?_ (hs.2.trans h3) (fun o' ho' => h4 o' (List.mem_cons_of_mem _ ho'))
      cases o with
      | diff o => exact (inv_step h1.diff o).2.trans h2
      | act o => exact h2
      | replace d =>
        simp only [Pair.step]
        split_ifs with hn
        · exact h2
        · exact (not_not.1 hn).symm.trans h2
  obtain ⟨k1, k2, k3⟩ := key hist _ h0 hn rfl hh
  set p := hist.foldl Pair.step (Pair.init parts ((Model.init nu ng ngT).run ops))
  obtain ⟨di, dn⟩ := inv_run (inv_init nu' ng' ngT') ops'
  have dn' : ((Model.init nu' ng' ngT').run ops').nu = nu := dn.trans hnu
  have hs : p.step (.replace ((Model.init nu' ng' ngT').run ops'))
      = ⟨(Model.init nu' ng' ngT').run ops', p.parts, import' p.parts ((Model.init nu' ng' ngT').run ops') p.act⟩ := by
    simp only [Pair.step]
    rw [if_neg (by rw [dn', k2]; exact fun h => h rfl)]
  rw [hs]
  exact agree_import (by rw [k3]; exact hp) di (by rw [k1.nu, dn', k2])

/-- A history with a replacement: the two limits of the new differential model are repeated for both blocks. -/
example : ((Pair.init 2 (Model.init 1 0 0)).step (.replace ((Model.init 1 0 0).run [.uub [((3 : ℝ) : EReal)]]))).act.uub
    = [((3 : ℝ) : EReal), ((3 : ℝ) : EReal)] := by
  have h := ((C98_integrated_partial 1 0 0 2 two_pos []).2 [] (by simp) 1 0 0 [.uub [((3 : ℝ) : EReal)]] rfl).ub
  refine h.trans ?_
  simp [Pair.step, Pair.init, Model.run, Model.step, Model.setUUb, Model.init, Model.update, List.replicate_succ]

/-- **C98 (integrated models, counterexample).** Limits set on the differential model after the construction of the integrated
model do not reach it: it keeps infinite limits and the flag false. -/
theorem C98_integrated_counterexample :
    let p := (([.diff (.ulb [((-1 : ℝ) : EReal)]), .diff (.uub [((1 : ℝ) : EReal)])] : List PairOp).foldl Pair.step
      (Pair.init 1 (Model.init 1 0 0)))
    p.diff.has = true ∧ p.diff.uub = [((1 : ℝ) : EReal)] ∧ p.act.has = false ∧ p.act.uub = [⊤] ∧ p.act.ulb = [⊥] := by
  intro p
  have h1 : p.diff = (Model.init 1 0 0).run [.ulb [((-1 : ℝ) : EReal)], .uub [((1 : ℝ) : EReal)]] := rfl
  have h2 : p.act = (Pair.init 1 (Model.init 1 0 0)).act := rfl
  have hl : ((Model.init 1 0 0).run [.ulb [((-1 : ℝ) : EReal)], .uub [((1 : ℝ) : EReal)]]).ulb = [((-1 : ℝ) : EReal)] := by
    simp [Model.run, Model.step, Model.setULb, Model.setUUb, Model.init, Model.update]
  have hu : ((Model.init 1 0 0).run [.ulb [((-1 : ℝ) : EReal)], .uub [((1 : ℝ) : EReal)]]).uub = [((1 : ℝ) : EReal)] := by
    simp [Model.run, Model.step, Model.setULb, Model.setUUb, Model.init, Model.update]
  have hA := (C98_integrated_partial 1 0 0 1 one_pos []).1
  refine ⟨?_, by rw [h1]; exact hu, ?_, ?_, ?_⟩
  · rw [h1]
    exact (C98_flag_partial 1 0 0 _).2.1 ⟨-1, by rw [hl]; simp⟩ ⟨1, by rw [hu]; simp⟩
  · rw [h2]; exact hA.has
  · rw [h2]; exact hA.ub.trans (by simp [convert, Pair.init, Model.run, Model.init])
  · rw [h2]; exact hA.lb.trans (by simp [convert, Pair.init, Model.run, Model.init])

/-- **C98 (constraint bounds of integrated models, counterexample).** `set_g_lb` and `set_g_ub` of an integrated model accept
bounds and change nothing that can be read: the getters go on returning the bounds of the differential model. And if there are
more terminal constraints than running ones, vectors of the size of the bounds are rejected. -/
theorem C98_integrated_bounds_counterexample (nu ng ngT parts : ℕ) (ops : List Op) (v : List EReal) :
    let d := (Model.init nu ng ngT).run ops
    let p := Pair.init parts d
    (v.length = ng → (p.act.setGLb v).1 = .ok ∧ (p.act.setGUb v).1 = .ok
      ∧ (p.step (.act (.glb v))).glb = d.glb ∧ (p.step (.act (.gub v))).gub = d.gub)
    ∧ (ng < ngT → v.length = max ng ngT → (p.act.setGLb v).1 = .throw ∧ (p.act.setGUb v).1 = .throw) := by
  intro d p
  have hng : p.act.ng = ng ∧ p.act.ngT = 0 := by
    have hd : d.ng = ng := (run_g (Model.init nu ng ngT) ops).2.2.1
    simp only [p, Pair.init, import', Model.setULb, Model.setUUb]
    split_ifs <;> exact ⟨hd, rfl⟩
  refine ⟨fun hv => ⟨?_, ?_, rfl, rfl⟩, fun h1 h2 => ⟨?_, ?_⟩⟩
  · simp [Model.setGLb, hng.1, hng.2, max_if, hv]
  · simp [Model.setGUb, hng.1, hng.2, max_if, hv]
  · simp only [Model.setGLb, hng.1, hng.2, max_if]
    rw [if_pos (by rw [h2, max_eq_right h1.le]; simp; omega)]
  · simp only [Model.setGUb, hng.1, hng.2, max_if]
    rw [if_pos (by rw [h2, max_eq_right h1.le]; simp; omega)]

/-! ## C99: copies -/

/-- **C99 (partial).** A copy of an action model has the same limits, and the same call without control if there are no
controls. -/
theorem C99_copy_partial {R : Type*} (m : Model) (body : R) :
    (Copied.init m).copy.lim = m
    ∧ (m.nu = 0 → (Copied.init m).copy.calcT (checked m.nu body) = (Copied.init m).calcT (checked m.nu body)) := by
  refine ⟨rfl, fun h => ?_⟩
  simp [Copied.calcT, Copied.copy, Copied.init, h]

/-- **C99 (counterexample).** For an action model with controls that does not define the call without control itself, that call
works on the original and throws on a copy. -/
theorem C99_copy_counterexample {R : Type*} (m : Model) (hn : 0 < m.nu) (body : R) :
    (Copied.init m).calcT (checked m.nu body) = some body ∧ (Copied.init m).copy.calcT (checked m.nu body) = none := by
  constructor
  · simp [Copied.calcT, Copied.init, checked]
  · simp [Copied.calcT, Copied.copy, checked, hn.ne]

/-- The hypothesis is met: the copy of a model with two controls. -/
example : (Copied.init (Model.init 2 0 0)).copy.calcT (checked 2 "next state") = none :=
  (C99_copy_counterexample (Model.init 2 0 0) (by simp [Model.init]) "next state").2

end Verif.Limits
