import Verif.Spec.SolverBase
import Mathlib.Algebra.Order.Field.Basic
import Mathlib.Algebra.BigOperators.Group.List.Lemmas
import Mathlib.Algebra.Order.BigOperators.Group.List
import Mathlib.Data.List.Zip
import Mathlib.Tactic.Linarith
import Mathlib.Tactic.Ring

/-! # Lemmas about the feasibility measures -/

set_option linter.unusedSectionVars false

namespace Verif.Solver
open Verif

section norms
variable {K : Type} [Field K] [LinearOrder K] [IsStrictOrderedRing K]

omit [Field K] [IsStrictOrderedRing K] in
theorem foldl_max_spec {β : Type} (f : β → K) (l : List β) (a : K) :
    a ≤ l.foldl (fun a x => max a (f x)) a ∧
    (∀ x ∈ l, f x ≤ l.foldl (fun a x => max a (f x)) a) ∧
    (l.foldl (fun a x => max a (f x)) a = a ∨ ∃ x ∈ l, f x = l.foldl (fun a x => max a (f x)) a) := by
  induction l generalizing a with
  | nil => simp
  | cons x l ih =>
    obtain ⟨h1, h2, h3⟩ := ih (max a (f x))
    simp only [List.foldl_cons]
    refine ⟨(le_max_left _ _).trans h1, ?_, ?_⟩
    · intro y hy
      rcases List.mem_cons.1 hy with rfl | hy
      · exact (le_max_right _ _).trans h1
      · exact h2 y hy
    · rcases h3 with h3 | ⟨y, hy, h3⟩
      · rcases le_total a (f x) with h | h
        · right; exact ⟨x, List.mem_cons_self, by rw [h3, max_eq_right h]⟩
        · left; rw [h3, max_eq_left h]
      · right; exact ⟨y, List.mem_cons_of_mem _ hy, h3⟩

omit [LinearOrder K] [IsStrictOrderedRing K] in
theorem foldl_add_spec {β : Type} (f : β → K) (l : List β) (a : K) :
    l.foldl (fun a x => a + f x) a = a + (l.map f).sum := by
  induction l generalizing a with
  | nil => simp
  | cons x l ih => simp [ih, add_assoc]

omit [IsStrictOrderedRing K] in
theorem lpInf_spec (v : List K) : IsMaxAbs v (lpInf v) := by
  have h := foldl_max_spec (fun x : K => |x|) v 0
  have e : lpInf v = v.foldl (fun a x => max a |x|) 0 := by simp [lpInf, List.foldl_map]
  rw [e]
  exact ⟨h.1, h.2.1, h.2.2⟩

omit [IsStrictOrderedRing K] in
theorem lp1_spec (v : List K) : lp1 v = (v.map abs).sum := by
  have := foldl_add_spec (fun x : K => x) (v.map abs) 0
  simp only [List.map_id', zero_add] at this
  exact this

theorem lp1_nonneg (v : List K) : 0 ≤ lp1 v := by
  rw [lp1_spec]
  apply List.sum_nonneg
  intro x hx
  obtain ⟨y, _, rfl⟩ := List.mem_map.1 hx
  exact abs_nonneg y

omit [IsStrictOrderedRing K] in
/-- Maximum of maxima. -/
theorem maxabs_flatten {ls : List (List K)} :
    IsMaxAbs ls.flatten (ls.foldl (fun a f => max a (lpInf f)) 0) := by
  obtain ⟨h1, h2, h3⟩ := foldl_max_spec (fun f : List K => lpInf f) ls 0
  refine ⟨h1, ?_, ?_⟩
  · intro v hv
    obtain ⟨l, hl, hv⟩ := List.mem_flatten.1 hv
    exact ((lpInf_spec l).2.1 v hv).trans (h2 l hl)
  · rcases h3 with h3 | ⟨l, hl, h3⟩
    · exact .inl h3
    · rcases (lpInf_spec l).2.2 with h | ⟨v, hv, h⟩
      · left; rw [← h3, h]
      · right; exact ⟨v, List.mem_flatten.2 ⟨l, hl, hv⟩, h.trans h3⟩

omit [IsStrictOrderedRing K] in
theorem sum_flatten {ls : List (List K)} :
    ls.foldl (fun a f => a + lp1 f) 0 = (ls.flatten.map abs).sum := by
  rw [foldl_add_spec]
  simp only [zero_add]
  induction ls with
  | nil => rfl
  | cons l ls ih => simp [ih, lp1_spec]

omit [IsStrictOrderedRing K] in
/-- Two maxima of the same entries agree. -/
theorem IsMaxAbs.unique [IsStrictOrderedRing K] {l : List K} {r r' : K} (h : IsMaxAbs l r) (h' : IsMaxAbs l r') : r = r' := by
  obtain ⟨a1, a2, a3⟩ := h
  obtain ⟨b1, b2, b3⟩ := h'
  apply le_antisymm
  · rcases a3 with rfl | ⟨v, hv, rfl⟩
    · exact b1
    · exact b2 v hv
  · rcases b3 with rfl | ⟨v, hv, rfl⟩
    · exact a1
    · exact a2 v hv

/-- One entry of `g - g_adj` is, up to sign, its excess. -/
theorem abs_sub_clamp (g : K) (lb ub : Option K) (h : ∀ l ∈ lb, ∀ u ∈ ub, l ≤ u) :
    |g - clampHi (clampLo g lb) ub| = excess g lb ub := by
  rcases lb with _ | l <;> rcases ub with _ | u <;> simp only [clampLo, clampHi, excess]
  · simp
  · rcases le_total g u with h | h
    · rw [min_eq_left h, max_eq_left (by linarith)]; simp
    · rw [min_eq_right h, max_eq_right (by linarith), abs_of_nonneg (by linarith)]
  · rcases le_total g l with h | h
    · rw [max_eq_right h, max_eq_right (by linarith), abs_of_nonpos (by linarith)]; ring
    · rw [max_eq_left h, max_eq_left (by linarith)]; simp
  · have hlu : l ≤ u := h l rfl u rfl
    rcases le_total g l with h | h
    · rw [max_eq_right h, min_eq_left hlu, abs_of_nonpos (by linarith),
        max_eq_left (show g - u ≤ l - g by linarith), max_eq_right (by linarith)]; ring
    · rw [max_eq_left h]
      rcases le_total g u with h' | h'
      · rw [min_eq_left h', max_eq_left (max_le (by linarith) (by linarith))]; simp
      · rw [min_eq_right h', abs_of_nonneg (by linarith),
          max_eq_right (show l - g ≤ g - u by linarith), max_eq_right (by linarith)]

theorem excess_nonneg (g : K) (lb ub : Option K) : 0 ≤ excess g lb ub := by
  rcases lb with _ | l <;> rcases ub with _ | u <;> simp [excess]

/-- The excess vanishes exactly inside the bounds. -/
theorem excess_eq_zero_iff (g : K) (lb ub : Option K) : excess g lb ub = 0 ↔ Within g lb ub := by
  rcases lb with _ | l <;> rcases ub with _ | u <;> simp [excess, Within]

/-- Entries of the violation vector of a well-formed node. -/
theorem Ineq.viol_abs (c : Ineq K) (h : c.WF) : c.viol.map abs = c.excesses := by
  obtain ⟨h1, h2, h3⟩ := h
  obtain ⟨g, lb, ub⟩ := c
  simp only [Ineq.viol, Ineq.adj, Ineq.excesses, Ineq.entries] at *
  induction g generalizing lb ub with
  | nil => simp
  | cons x g ih =>
    cases lb with
    | nil => simp at h1
    | cons l lb =>
      cases ub with
      | nil => simp at h2
      | cons u ub =>
        simp only [List.zipWith_cons_cons, List.map_cons, List.zip_cons_cons]
        rw [ih lb ub (by simpa using h1) (by simpa using h2)
          (fun p hp => h3 p (by simp only [List.zip_cons_cons]; exact List.mem_cons_of_mem _ hp))]
        rw [abs_sub_clamp _ _ _ (h3 (l, u) (by simp))]

theorem Ineq.viol_nil (c : Ineq K) (h : ¬ 0 < c.g.length) : c.viol = [] := by
  have : c.g = [] := List.length_eq_zero_iff.1 (by omega)
  simp [Ineq.viol, this]

end norms
end Verif.Solver
