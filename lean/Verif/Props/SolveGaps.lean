import Verif.Lemmas.SolveGaps
import Verif.Props.Solve

set_option linter.unusedSectionVars false

/-! # Property C116: the gaps of FDDP and BoxFDDP along a whole `solve` -/

namespace Verif.Solve
open Verif Verif.Solver

section
variable {K X DX U L D : Type}
variable [Field K] [LinearOrder K] [AddCommGroup DX] [Module K DX] [AddCommGroup U] [Module K U]
variable {P : Prob K X DX U} {c : Cfg K} {O : Oracle K X DX U L D} {kind : Kind}

/-- C116 (each iteration). Along the candidates seen by the callbacks (first the initial guess, last the
final candidate) of an FDDP or BoxFDDP run, whatever the dynamics and the backward pass: either nothing
changed, or a step length of the list was taken. In that case the gaps of the new candidate are `1 - step`
times those of the old one, or zero if the old one was marked feasible, and the new candidate is marked
feasible exactly if the old one was or the step was 1. Partial as C27: nodes without controls whose two
`calc` disagree, and states where `integrate` is not undone by `diff`, are excluded. -/
theorem C116_step_partial (hA : AutonomousOk P) {diff : X → X → DX} {integ : X → DX → X}
    (hS : SharedState P diff integ) (hk : kind.feasibilityDriven = true) (fuel maxiter : Nat)
    (xs : Nat → X) (us : Nat → U) (feas : Bool) (regInit : Option K) (s : St K X DX U L D)
    {o : Outcome K X DX U L D}
    (hr : solve P c O kind fuel maxiter xs us feas regInit s = some o) :
    List.IsChain (fun s s' : St K X DX U L D =>
      (s'.xs = s.xs ∧ s'.us = s.us ∧ s'.feas = s.feas) ∨
      (s'.steplength ∈ c.alphas ∧ 0 ≤ s'.steplength ∧ s'.steplength ≤ 1 ∧
        (s'.feas = true ↔ s.feas = true ∨ s'.steplength = 1) ∧
        ∀ t ≤ P.T, gap P s'.xs s'.us t =
          if s.feas then 0 else (1 - s'.steplength) • gap P s.xs s.us t))
      (start P c xs us feas regInit s :: o.trace ++ [o.final]) :=
  (iterLoop_gaps hA hS hk fuel maxiter (start_inv xs us feas regInit s)
    (start_fresh xs us feas regInit s) hr).1

/-- C116 (whole run from a guess not marked feasible). There is a list of at most `maxiter` accepted step
lengths such that the gaps of the final candidate are the product of all `1 - step` times the gaps of the
initial guess, and the final candidate is marked feasible exactly if one of the accepted steps was 1. -/
theorem C116_product_partial (hA : AutonomousOk P) {diff : X → X → DX} {integ : X → DX → X}
    (hS : SharedState P diff integ) (hk : kind.feasibilityDriven = true) (fuel maxiter : Nat)
    (xs : Nat → X) (us : Nat → U) (regInit : Option K) (s : St K X DX U L D)
    {o : Outcome K X DX U L D}
    (hr : solve P c O kind fuel maxiter xs us false regInit s = some o) :
    ∃ steps : List K, steps.length ≤ maxiter ∧ (∀ a ∈ steps, a ∈ c.alphas ∧ 0 ≤ a ∧ a ≤ 1) ∧
      (o.final.feas = true ↔ 1 ∈ steps) ∧
      ∀ t ≤ P.T, gap P o.final.xs o.final.us t = (steps.map (1 - ·)).prod • gap P xs us t := by
  obtain ⟨-, as, h1, h2, h3, h4⟩ := iterLoop_gaps hA hS hk fuel maxiter (start_inv xs us false regInit s)
    (start_fresh xs us false regInit s) hr
  have hf : (start P c xs us false regInit s).feas = false := rfl
  rw [hf] at h3
  refine ⟨as, h1, h2, by simpa using h3, fun t ht => ?_⟩
  have := h4 t ht
  rw [hf, if_neg (by simp)] at this
  exact this

/-- C116 (a wrong feasibility flag is repaired). From a guess marked feasible, whatever its gaps, the final
candidate is the guess itself or has no gaps. -/
theorem C116_marked_partial (hA : AutonomousOk P) {diff : X → X → DX} {integ : X → DX → X}
    (hS : SharedState P diff integ) (hk : kind.feasibilityDriven = true) (fuel maxiter : Nat)
    (xs : Nat → X) (us : Nat → U) (regInit : Option K) (s : St K X DX U L D)
    {o : Outcome K X DX U L D}
    (hr : solve P c O kind fuel maxiter xs us true regInit s = some o) :
    o.final.feas = true ∧
    ((∀ t ≤ P.T, gap P o.final.xs o.final.us t = gap P xs us t) ∨
      ∀ t ≤ P.T, gap P o.final.xs o.final.us t = 0) := by
  obtain ⟨-, as, h1, h2, h3, h4⟩ := iterLoop_gaps hA hS hk fuel maxiter (start_inv xs us true regInit s)
    (start_fresh xs us true regInit s) hr
  have hf : (start P c xs us true regInit s).feas = true := rfl
  refine ⟨h3.2 (.inl hf), ?_⟩
  rcases as with _ | ⟨a, as⟩
  · left; intro t ht
    have := h4 t ht
    simp only [ne_eq, not_true_eq_false, and_false, if_false, List.map_nil, List.prod_nil, one_smul] at this
    exact this
  · right; intro t ht
    rw [h4 t ht, hf]; simp

section ordered
variable [IsStrictOrderedRing K]

theorem prod_steps_nonneg (l : List K) (h : ∀ a ∈ l, a ≤ 1) : 0 ≤ (l.map (1 - ·)).prod := by
  induction l with
  | nil => simp
  | cons a l ih =>
    simp only [List.map_cons, List.prod_cons]
    exact mul_nonneg (sub_nonneg.2 (h a List.mem_cons_self)) (ih fun b hb => h b (List.mem_cons_of_mem _ hb))

/-- C116 (the gaps never grow). The gaps of the final candidate are one common factor between 0 and 1
times those of the initial guess. -/
theorem C116_shrink_partial (hA : AutonomousOk P) {diff : X → X → DX} {integ : X → DX → X}
    (hS : SharedState P diff integ) (hk : kind.feasibilityDriven = true) (fuel maxiter : Nat)
    (xs : Nat → X) (us : Nat → U) (feas : Bool) (regInit : Option K) (s : St K X DX U L D)
    {o : Outcome K X DX U L D}
    (hr : solve P c O kind fuel maxiter xs us feas regInit s = some o) :
    ∃ r : K, 0 ≤ r ∧ r ≤ 1 ∧ ∀ t ≤ P.T, gap P o.final.xs o.final.us t = r • gap P xs us t := by
  cases feas with
  | false =>
    obtain ⟨as, -, h2, -, h4⟩ := C116_product_partial hA hS hk fuel maxiter xs us regInit s hr
    refine ⟨_, prod_steps_nonneg _ fun a ha => (h2 a ha).2.2, ?_, h4⟩
    · clear h4 hr
      induction as with
      | nil => simp
      | cons a as ih =>
        have ih' := ih fun b hb => h2 b (List.mem_cons_of_mem _ hb)
        have ha := (h2 a List.mem_cons_self).2
        simp only [List.map_cons, List.prod_cons]
        exact mul_le_one₀ (by linarith) (prod_steps_nonneg _ fun b hb =>
          (h2 b (List.mem_cons_of_mem _ hb)).2.2) ih'
  | true =>
    rcases (C116_marked_partial hA hS hk fuel maxiter xs us regInit s hr).2 with h | h
    · exact ⟨1, zero_le_one, le_rfl, fun t ht => by rw [h t ht, one_smul]⟩
    · exact ⟨0, le_rfl, zero_le_one, fun t ht => by rw [h t ht, zero_smul]⟩

/-- C116 (rate). If every step length of the list is at least `a0`, the factor of a run with `N` accepted
steps is at most `(1 - a0)^N`; the default list goes down to `2⁻⁹`. -/
theorem C116_rate (c : Cfg K) (a0 : K) (h0 : ∀ a ∈ c.alphas, a0 ≤ a) (steps : List K)
    (h : ∀ a ∈ steps, a ∈ c.alphas ∧ 0 ≤ a ∧ a ≤ 1) :
    (steps.map (1 - ·)).prod ≤ (1 - a0) ^ steps.length := by
  induction steps with
  | nil => simp
  | cons a as ih =>
    have ih' := ih fun b hb => h b (List.mem_cons_of_mem _ hb)
    have ha := h a List.mem_cons_self
    have h0a := h0 a ha.1
    simp only [List.map_cons, List.prod_cons, List.length_cons, pow_succ']
    exact mul_le_mul (by linarith) ih' (prod_steps_nonneg _ fun b hb => (h b (List.mem_cons_of_mem _ hb)).2.2)
      (by linarith [ha.2.2])

end ordered
end

/-! ## Non-vacuity -/

namespace GapDemo
open Demo

/-- Only half steps are allowed. -/
def half : Cfg ℚ := { cfg with alphas := [1 / 2] }

/-- Three FDDP iterations with half steps divide the gap `-4` by eight and the candidate stays infeasible:
the hypotheses of C116 are met by a run with several accepted short steps. -/
example : (solve prob half oracle .fddp 1 3 (fun t => if t = 0 then 1 else 5) (fun _ => 0) false none
    init).map (fun o => (o.ret, o.final.feas, gap prob o.final.xs o.final.us 1,
      o.trace.map fun s => gap prob s.xs s.us 1)) =
    some (false, false, -1 / 2, [-2, -1, -1 / 2]) := by decide +kernel

/-- A guess with gaps wrongly marked as feasible: the first accepted step removes them. -/
example : (solve prob half oracle .boxFddp 1 1 (fun t => if t = 0 then 1 else 5) (fun _ => 0) true none
    init).map (fun o => (o.final.feas, gap prob o.final.xs o.final.us 1)) = some (true, 0) := by
  decide +kernel

example : AutonomousOk prob ∧ SharedState prob (fun x y => y - x) (fun x d => x + d) := ⟨ok, shared⟩

end GapDemo
end Verif.Solve
