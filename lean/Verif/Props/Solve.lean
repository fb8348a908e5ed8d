import Verif.Lemmas.SolveLoop
import Mathlib.Algebra.Module.Rat
import Mathlib.Algebra.Order.Ring.Rat
import Mathlib.Data.Rat.Cast.Order
import Mathlib.Tactic.NormNum.Basic
import Mathlib.Tactic.NormNum.Ineq
import Mathlib.Tactic.NormNum.Inv
import Mathlib.Tactic.NormNum.Pow
import Mathlib.Algebra.Module.Pi
import Mathlib.Tactic.FinCases
import Mathlib.Data.Fintype.Basic
import Mathlib.Data.Fintype.Fin
import Mathlib.Tactic.Abel
import Mathlib.Algebra.Order.Archimedean.Basic

/-! # Properties C23–C28, C31, C35 of the DDP solver family -/

set_option linter.unusedSectionVars false

namespace Verif.Solve
open Verif Verif.Solver

section
variable {K X DX U L D : Type}
variable [Field K] [LinearOrder K] [AddCommGroup DX] [Module K DX] [AddCommGroup U] [Module K U]
variable (P : Prob K X DX U) (c : Cfg K) (O : Oracle K X DX U L D) (kind : Kind)

/-! ## C27 the forward pass is an exact rollout -/

/-- C27. A forward pass that returns normally leaves, in the trial trajectory, the exact rollout of its
controls from `x0`, and its cost in `cost_try`, for DDP with any step and for the other solvers when the
candidate is feasible or the step is 1. The DDP pass starts from `xs_try[0]`, which `solve` sets to `x0`.
Missing: nodes without controls whose two `calc` disagree, see `C27_autonomous_counterexample`. -/
theorem C27_rollout_partial (hA : AutonomousOk P) (a : K) (s s' : St K X DX U L D)
    (h0 : kind = .ddp → s.xsTry 0 = P.x0)
    (hex : kind = .ddp ∨ s.feas = true ∨ a = 1)
    (hr : forwardPass P O kind a s = .ok () s') :
    Rollout P s'.xsTry s'.usTry ∧ s'.costTry = totalCost P s'.xsTry s'.usTry := by
  have h := forwardPass_spec (P := P) (O := O) (kind := kind) a s
  rw [hr] at h
  have hc := h.core
  rw [first_eq h0] at hc
  exact ⟨hc.rollout hA hex, (hc.total hA).2⟩

/-- C27 (controls). The trial control of node `t` is `u - a*k - K*(x_try - x)`, clamped by the box
solvers. -/
theorem C27_policy (a : K) (s s' : St K X DX U L D) (hr : forwardPass P O kind a s = .ok () s') (t : Nat)
    (ht : t < P.T) (hn : (P.node t).nuZero = false) :
    s'.usTry t = if kind.box
      then (P.node t).clamp (s.us t - a • s.k t - s.gain t ((P.node t).diff (s.xs t) (s'.xsTry t)))
      else s.us t - a • s.k t - s.gain t ((P.node t).diff (s.xs t) (s'.xsTry t)) := by
  have h := forwardPass_spec (P := P) (O := O) (kind := kind) a s
  rw [hr] at h
  exact h.core.nodes.control t ht hn

/-- The step lengths a forward pass takes: it throws outside `[0, 1]` and changes nothing then. -/
theorem C27_step_range (a : K) (s : St K X DX U L D) (h : a > 1 ∨ a < 0) :
    forwardPass P O kind a s = .throw s := by
  have : (decide (a > 1) || decide (a < 0)) = true := by simpa using h
  simp [forwardPass, Cpp.bind_apply, Cpp.throwIf_apply, this]

/-- A forward pass never touches the candidate, whether it returns or throws. -/
theorem C27_candidate_kept (a : K) (s : St K X DX U L D) :
    (forwardPass P O kind a s).sat
      (fun s' => s'.xs = s.xs ∧ s'.us = s.us ∧ s'.cost = s.cost ∧ s'.feas = s.feas)
      (fun s' => s'.xs = s.xs ∧ s'.us = s.us ∧ s'.cost = s.cost ∧ s'.feas = s.feas) := by
  have h := forwardPass_spec (P := P) (O := O) (kind := kind) a s
  cases hf : forwardPass P O kind a s with
  | ok u s' => rw [hf] at h; have := h.frame; unfold Frame at this; exact ⟨by rw [this], by rw [this], by rw [this], by rw [this]⟩
  | throw s' => rw [hf] at h; have := h.1; unfold Frame at this; exact ⟨by rw [this], by rw [this], by rw [this], by rw [this]⟩
  | ub => rw [hf] at h; exact h

/-! ## C28 gap contraction -/

/-- C28. When the candidate is infeasible and `fs` holds its gaps, after an FDDP or BoxFDDP forward pass
with step `a` the gaps of the trial are `(1 - a)` times the old ones, at every node. Partial as C27. -/
theorem C28_contraction_partial (hA : AutonomousOk P) {diff : X → X → DX} {integ : X → DX → X}
    (hS : SharedState P diff integ) (hk : kind.feasibilityDriven = true) (a : K)
    (s s' : St K X DX U L D) (hfeas : s.feas = false)
    (hfs : ∀ t ≤ P.T, s.fs t = gap P s.xs s.us t)
    (hr : forwardPass P O kind a s = .ok () s') :
    ∀ t ≤ P.T, gap P s'.xsTry s'.usTry t = (1 - a) • gap P s.xs s.us t := by
  have h := forwardPass_spec (P := P) (O := O) (kind := kind) a s
  rw [hr] at h
  have hddp : kind ≠ .ddp := by rintro rfl; simp [Kind.feasibilityDriven] at hk
  have hc := h.core
  rw [first_eq (fun e => absurd e hddp)] at hc
  have hd := (hc.total hA).1
  have hst : ∀ t ≤ P.T, s'.xsTry t = if a = 1 then pred P.x0 s'.datas t
      else integ (pred P.x0 s'.datas t) ((a - 1) • s.fs t) := by
    intro t ht
    rcases Nat.lt_or_eq_of_le ht with h' | rfl
    · have := hc.nodes.state t h'
      rw [this, hk, hfeas, hS.integ_eq]
      by_cases e : a = 1 <;> simp [e]
    · rw [hc.last, hfeas, hS.term_eq]
      by_cases e : a = 1 <;> simp [e, hddp]
  have key : ∀ t ≤ P.T, diff (s'.xsTry t) (pred P.x0 s'.datas t) = (1 - a) • s.fs t := by
    intro t ht
    rw [hst t ht]
    by_cases e : a = 1
    · rw [if_pos e, hS.self, e]; simp
    · rw [if_neg e, hS.back, ← neg_smul, neg_sub]
  intro t ht
  rw [← hfs t ht, ← key t ht]
  cases t with
  | zero => simp [gap, pred, hS.diff_eq]
  | succ t =>
    simp only [gap, pred, hS.diff_eq]
    rw [hd t ht]

/-- C28 (feasible candidates): the trial has no gaps. Partial as C27. -/
theorem C28_feasible_partial (hA : AutonomousOk P) {diff : X → X → DX} {integ : X → DX → X}
    (hS : SharedState P diff integ) (hk : kind.feasibilityDriven = true) (a : K)
    (s s' : St K X DX U L D) (hfeas : s.feas = true)
    (hr : forwardPass P O kind a s = .ok () s') :
    ∀ t ≤ P.T, gap P s'.xsTry s'.usTry t = 0 := by
  have hddp : kind ≠ .ddp := by rintro rfl; simp [Kind.feasibilityDriven] at hk
  obtain ⟨⟨h0, h1⟩, -⟩ := C27_rollout_partial P O kind hA a s s' (fun e => absurd e hddp)
    (.inr (.inl hfeas)) hr
  intro t ht
  cases t with
  | zero => simp [gap, h0, hS.diff_eq, hS.self]
  | succ t => simp only [gap, h1 t ht, hS.diff_eq, hS.self]

/-- The gaps that `computeDirection` leaves are those of the candidate whenever the data it reads are
those of the candidate. -/
theorem C28_gaps_stored (s : St K X DX U L D) (hr : s.recalc = true) (hi : s.iter = 0) :
    (computeDirection P O s).2.fs = gap P s.xs s.us := by
  funext t
  unfold computeDirection calcDiff
  simp only [hr, hi, if_true, problemCalc]
  cases t <;> rfl

/-! ## C24, C25, C26: `solve` -/

variable {P c O kind}

/-- C24. If `solve` returns true, the final candidate is marked feasible, is the exact rollout of its
controls, and the stopping criterion `|d0 + d1/2|` is below `th_stop`. This holds for any initial guess,
even if its feasibility flag was wrong. Partial as C27 (rollout part). -/
theorem C24_success_partial (hA : AutonomousOk P) (fuel maxiter : Nat) (xs : Nat → X) (us : Nat → U)
    (feas : Bool) (regInit : Option K) (s : St K X DX U L D) {o : Outcome K X DX U L D}
    (hr : solve P c O kind fuel maxiter xs us feas regInit s = some o) (ht : o.ret = true) :
    o.final.feas = true ∧ Rollout P o.final.xs o.final.us ∧
    o.final.stop < c.thStop ∧ o.final.stop = |o.final.d0 + (1 / 2) * o.final.d1| := by
  obtain ⟨-, -, -, h4, h5, -⟩ := iterLoop_induct hA fuel maxiter (start_inv xs us feas regInit s) hr
  obtain ⟨a, b, d⟩ := h5 ht
  exact ⟨(h4 a).1, (h4 a).2, b, d⟩

/-- Helper: facts about success and the number of iterations that need no hypothesis on the nodes. -/
theorem iterLoop_basic (fuel n : Nat) (s : St K X DX U L D) {o : Outcome K X DX U L D}
    (hr : iterLoop P c O kind fuel n s = some o) :
    o.trace.length ≤ n ∧ (o.ret = true → o.final.wasFeas = true ∧ o.final.stop < c.thStop) := by
  induction n generalizing s o with
  | zero => simp only [iterLoop, Option.some.injEq] at hr; subst hr; simp
  | succ n ih =>
    simp only [iterLoop] at hr
    split at hr
    · simp at hr
    · simp only [Option.some.injEq] at hr; subst hr; simp
    · rename_i b s' hi
      simp only [Option.some.injEq] at hr; subst hr
      refine ⟨by simp, fun _ => ?_⟩
      rcases iteration_cases fuel s hi with ⟨h, -⟩ | ⟨s1, -, -, h, -⟩
      · simp at h
      · exact h rfl
    · rename_i b s' hi
      cases hl : iterLoop P c O kind fuel n { s' with iter := s'.iter + 1 } with
      | none => rw [hl] at hr; simp at hr
      | some o' =>
        rw [hl] at hr
        simp only [Option.map_some, Option.some.injEq] at hr
        subst hr
        obtain ⟨i1, i2⟩ := ih _ hl
        exact ⟨by simpa using i1, i2⟩

/-- C24 (iteration limit and criterion), for every problem: at most `maxiter` iterations report to the
callbacks, and success means that the previous candidate was marked feasible and the criterion is below
`th_stop`. -/
theorem C24_iterations (fuel maxiter : Nat) (xs : Nat → X) (us : Nat → U) (feas : Bool)
    (regInit : Option K) (s : St K X DX U L D) {o : Outcome K X DX U L D}
    (hr : solve P c O kind fuel maxiter xs us feas regInit s = some o) :
    o.trace.length ≤ maxiter ∧ (o.ret = true → o.final.wasFeas = true ∧ o.final.stop < c.thStop) :=
  iterLoop_basic fuel maxiter _ hr

theorem dirLoop_false (fuel : Nat) (s : St K X DX U L D) {s' : St K X DX U L D}
    (hr : dirLoop P c O fuel s = some (false, s')) : s'.preg = c.reg.max := by
  induction fuel generalizing s with
  | zero => simp [dirLoop] at hr
  | succ fuel ih =>
    simp only [dirLoop] at hr
    split_ifs at hr with h1 h2
    · simp at hr
    · simp only [Option.some.injEq, Prod.mk.injEq, true_and] at hr
      rw [← hr]; exact h2
    · exact ih _ hr

theorem iteration_giveUp (fuel : Nat) (s : St K X DX U L D) {b : Bool} {s' : St K X DX U L D}
    (hr : iteration P c O kind fuel s = some (.giveUp, b, s')) : s'.preg = c.reg.max := by
  unfold iteration at hr
  split at hr
  · simp at hr
  · rename_i s1 hd
    simp only [Option.some.injEq, Prod.mk.injEq, true_and] at hr
    rw [← hr.2]; exact dirLoop_false fuel s hd
  · rename_i s1 hd
    generalize lineSearch P c O kind c.alphas (prepare O kind s1) = s2 at hr
    simp only at hr
    generalize (if s2.steplength > c.thStepdec then decreaseReg c s2 else s2) = s3 at hr
    generalize (if decide (s3.steplength ≤ c.thStepinc) = true then increaseReg c s3 else s3) = s4 at hr
    split at hr
    · rename_i h
      simp only [Option.some.injEq, Prod.mk.injEq, true_and] at hr
      rw [← hr.2]
      exact of_decide_eq_true (Bool.and_eq_true_iff.1 h).2
    · split at hr <;> simp at hr

/-- C24 (failure). `solve` returns false only after running `maxiter` iterations, or with the regularisation at its
maximum. -/
theorem C24_failure (fuel maxiter : Nat) (xs : Nat → X) (us : Nat → U) (feas : Bool)
    (regInit : Option K) (s : St K X DX U L D) {o : Outcome K X DX U L D}
    (hr : solve P c O kind fuel maxiter xs us feas regInit s = some o) (hf : o.ret = false) :
    o.trace.length = maxiter ∨ o.final.preg = c.reg.max := by
  unfold solve at hr
  generalize start P c xs us feas regInit s = s0 at hr
  induction maxiter generalizing s0 o with
  | zero => simp only [iterLoop, Option.some.injEq] at hr; subst hr; exact .inl rfl
  | succ n ih =>
    simp only [iterLoop] at hr
    split at hr
    · simp at hr
    · rename_i b s' hi
      simp only [Option.some.injEq] at hr; subst hr
      exact .inr (iteration_giveUp fuel s0 hi)
    · simp only [Option.some.injEq] at hr; subst hr; simp at hf
    · rename_i b s' hi
      cases hl : iterLoop P c O kind fuel n { s' with iter := s'.iter + 1 } with
      | none => rw [hl] at hr; simp at hr
      | some o' =>
        rw [hl] at hr
        simp only [Option.map_some, Option.some.injEq] at hr
        subst hr
        rcases ih (o := o') hf _ hl with h | h
        · exact .inl (by simp [h])
        · exact .inr h

/-- C26. The cost reported to every callback, and the final one if `maxiter > 0`, is the total cost of the
stored candidate. Partial as C27. -/
theorem C26_cost_partial (hA : AutonomousOk P) (fuel maxiter : Nat) (xs : Nat → X) (us : Nat → U)
    (feas : Bool) (regInit : Option K) (s : St K X DX U L D) {o : Outcome K X DX U L D}
    (hr : solve P c O kind fuel maxiter xs us feas regInit s = some o) :
    (∀ s' ∈ o.trace, s'.cost = totalCost P s'.xs s'.us) ∧
    (0 < maxiter → o.final.cost = totalCost P o.final.xs o.final.us) := by
  obtain ⟨-, h2, h3, -⟩ := iterLoop_induct hA fuel maxiter (start_inv xs us feas regInit s) hr
  exact ⟨fun s' hs => (h2 s' hs).1, h3⟩

/-- C25 (each iteration). Along the candidates seen by the callbacks (first the initial guess, last the
final candidate): feasibility is never lost; from a candidate marked feasible, the next one is the same, or
was accepted with a gradient below `th_grad`, or has a total cost smaller by more than `th_acceptstep`
times the non-negative expected improvement. Partial as C27. -/
theorem C25_step_partial (hA : AutonomousOk P) (fuel maxiter : Nat) (xs : Nat → X) (us : Nat → U)
    (feas : Bool) (regInit : Option K) (s : St K X DX U L D) {o : Outcome K X DX U L D}
    (hr : solve P c O kind fuel maxiter xs us feas regInit s = some o) :
    List.IsChain (fun s s' : St K X DX U L D => s.feas = true → s'.feas = true ∧
      ((s'.xs = s.xs ∧ s'.us = s.us) ∨ |s'.d0| < c.thGrad ∨
        (0 ≤ s'.dVexp ∧
          totalCost P s.xs s.us - totalCost P s'.xs s'.us > c.thAcceptstep * s'.dVexp)))
      (start P c xs us feas regInit s :: o.trace ++ [o.final]) := by
  obtain ⟨-, -, -, -, -, h6⟩ := iterLoop_induct hA fuel maxiter (start_inv xs us feas regInit s) hr
  exact h6.imp fun s s' h hf => ⟨h.mono hf, h.dec hf⟩

section ordered
variable [IsStrictOrderedRing K]

/-- C25 (whole run). If the initial guess is marked feasible, `th_acceptstep ≥ 0` and the gradient is
above `th_grad` in every iteration, the total cost never increases from one candidate to a later one.
Partial as C27. -/
theorem C25_monotone_partial (hA : AutonomousOk P) (fuel maxiter : Nat) (xs : Nat → X) (us : Nat → U)
    (regInit : Option K) (s : St K X DX U L D) {o : Outcome K X DX U L D}
    (hr : solve P c O kind fuel maxiter xs us true regInit s = some o)
    (hacc : 0 ≤ c.thAcceptstep) (hg : ∀ s' ∈ o.trace ++ [o.final], c.thGrad ≤ |s'.d0|) :
    List.Pairwise (fun s s' : St K X DX U L D => totalCost P s'.xs s'.us ≤ totalCost P s.xs s.us)
      (start P c xs us true regInit s :: o.trace ++ [o.final]) := by
  have h := C25_step_partial hA fuel maxiter xs us true regInit s hr
  generalize hs0 : start P c xs us true regInit s = s0 at h
  have hf0 : s0.feas = true := by rw [← hs0]; rfl
  rw [List.cons_append] at h ⊢
  generalize o.trace ++ [o.final] = l at h hg
  have hl : ∀ (l : List (St K X DX U L D)) (s0 : St K X DX U L D), s0.feas = true →
      (∀ s' ∈ l, c.thGrad ≤ |s'.d0|) →
      List.IsChain (fun s s' : St K X DX U L D => s.feas = true → s'.feas = true ∧
      ((s'.xs = s.xs ∧ s'.us = s.us) ∨ |s'.d0| < c.thGrad ∨
        (0 ≤ s'.dVexp ∧
          totalCost P s.xs s.us - totalCost P s'.xs s'.us > c.thAcceptstep * s'.dVexp))) (s0 :: l) →
      List.Pairwise (fun s s' : St K X DX U L D =>
        totalCost P s'.xs s'.us ≤ totalCost P s.xs s.us) (s0 :: l) := by
    intro l
    induction l with
    | nil => intros; simp
    | cons s1 l ih =>
      intro s0 hf0 hg h
      rw [List.isChain_cons_cons] at h
      obtain ⟨h1, h2⟩ := h
      obtain ⟨hf1, hd⟩ := h1 hf0
      have hp := ih s1 hf1 (fun s' hs => hg s' (List.mem_cons_of_mem _ hs)) h2
      have hle : totalCost P s1.xs s1.us ≤ totalCost P s0.xs s0.us := by
        rcases hd with ⟨e1, e2⟩ | h | ⟨h3, h4⟩
        · rw [e1, e2]
        · exact absurd h (not_lt.2 (hg s1 List.mem_cons_self))
        · have := mul_nonneg hacc h3
          linarith
      rw [List.pairwise_cons] at hp ⊢
      refine ⟨?_, List.pairwise_cons.2 hp⟩
      intro s' hs
      rcases List.mem_cons.1 hs with rfl | hs
      · exact hle
      · exact (hp.1 s' hs).trans hle
  exact hl l s0 hf0 hg h

/-! ## C23, C24: termination -/

/-- C23 (retry loop). From a positive regularisation the retry loop ends, whatever the backward pass
does. -/
theorem C23_retry_ends [Archimedean K] (P : Prob K X DX U) (c : Cfg K) (O : Oracle K X DX U L D)
    (hinc : 1 < c.reg.inc) (hmax : 0 < c.reg.max) (s : St K X DX U L D) (hp : 0 < s.preg) :
    ∃ fuel b s', dirLoop P c O fuel s = some (b, s') := by
  obtain ⟨f, b, s', h, -⟩ := dirLoop_ends (P := P) (O := O) hinc hmax s hp
  exact ⟨f, b, s', h⟩

/-- C24 (termination). From a positive initial regularisation (by default `reg_min`) `solve` ends. -/
theorem C24_terminates [Archimedean K] (P : Prob K X DX U) (c : Cfg K) (O : Oracle K X DX U L D)
    (kind : Kind) (hinc : 1 < c.reg.inc) (hdec : 1 < c.reg.dec)
    (hmax : 0 < c.reg.max) (maxiter : Nat) (xs : Nat → X) (us : Nat → U) (feas : Bool)
    (regInit : Option K) (hreg : 0 < regInit.getD c.reg.min) (s : St K X DX U L D) :
    ∃ fuel o, solve P c O kind fuel maxiter xs us feas regInit s = some o :=
  iterLoop_ends hinc hdec hmax maxiter _ hreg

/-- C23/C24 fail from zero: if the backward pass keeps failing, `solve` with `reg_init = 0` never ends. -/
theorem C23_retry_counterexample (P : Prob K X DX U) (c : Cfg K) (O : Oracle K X DX U L D) (kind : Kind)
    (hmax : 0 < c.reg.max) (hfail : ∀ s, (O.backward s).1 = false) (maxiter : Nat) (hm : 0 < maxiter)
    (xs : Nat → X) (us : Nat → U) (feas : Bool) (s : St K X DX U L D) (fuel : Nat) :
    solve P c O kind fuel maxiter xs us feas (some 0) s = none := by
  have hd : ∀ fuel (s : St K X DX U L D), s.preg = 0 → dirLoop P c O fuel s = none := by
    intro fuel
    induction fuel with
    | zero => intros; rfl
    | succ fuel ih =>
      intro s hs
      have hpr : (increaseReg c { (computeDirection P O s).2 with recalc := false }).preg = 0 := by
        simp only [increaseReg, computeDirection_preg, hs, increase, zero_mul]
        rw [if_neg (not_lt.2 hmax.le)]
      have hf : (computeDirection P O s).1 = false := by
        simp only [computeDirection]; exact hfail _
      simp only [dirLoop, hf, Bool.false_eq_true, if_false]
      rw [if_neg (by rw [hpr]; exact hmax.ne)]
      exact ih _ hpr
  obtain ⟨n, rfl⟩ : ∃ n, maxiter = n + 1 := ⟨maxiter - 1, by omega⟩
  have : dirLoop P c O fuel (start P c xs us feas (some 0) s) = none := hd _ _ (by simp [start])
  simp only [solve, iterLoop, iteration, this]

end ordered

/-! ## C35 BoxDDP -/

/-- C35. A BoxDDP trial is an exact rollout when the candidate was feasible or the step is 1. Missing: a
shorter step from an infeasible candidate, see `C35_boxddp_counterexample`. -/
theorem C35_boxddp_partial (hA : AutonomousOk P) (a : K) (s s' : St K X DX U L D)
    (hex : s.feas = true ∨ a = 1) (hr : forwardPass P O .boxDdp a s = .ok () s') :
    Rollout P s'.xsTry s'.usTry :=
  (C27_rollout_partial P O .boxDdp hA a s s' (by simp) (.inr hex) hr).1

/-- C35 (extent of the violation): even then, all nodes but the terminal one are consistent. -/
theorem C35_boxddp_interior (hA : AutonomousOk P) (a : K) (s s' : St K X DX U L D)
    (hr : forwardPass P O .boxDdp a s = .ok () s') :
    (0 < P.T → s'.xsTry 0 = P.x0) ∧
    ∀ t, t + 1 < P.T → s'.xsTry (t + 1) = ((P.node t).eval (s'.xsTry t) (s'.usTry t)).1 := by
  have h := forwardPass_spec (P := P) (O := O) (kind := .boxDdp) a s
  rw [hr] at h
  have hc := h.core
  rw [first_eq (by simp)] at hc
  have hd := (hc.total hA).1
  have hst : ∀ t < P.T, s'.xsTry t = pred P.x0 s'.datas t := by
    intro t ht
    simpa [Kind.feasibilityDriven] using hc.nodes.state t ht
  exact ⟨fun h => hst 0 h, fun t ht => by rw [hst (t + 1) ht, ← hd t (by omega)]; rfl⟩

end

/-! ## C31 control limits -/

section box
variable {K X DX L D : Type} {n : Nat}
variable [Field K] [LinearOrder K] [AddCommGroup DX] [Module K DX]

/-- A control is within the limits. -/
def Within (lb ub : Fin n → Option K) (u : Fin n → K) : Prop :=
  ∀ i, (∀ l, lb i = some l → l ≤ u i) ∧ (∀ h, ub i = some h → u i ≤ h)

omit [Field K] in
theorem clampBox_within {lb ub : Fin n → Option K} (hl : hasLimits lb ub = true)
    (hle : ∀ i l h, lb i = some l → ub i = some h → l ≤ h) (u : Fin n → K) :
    Within lb ub (clampBox lb ub u) := by
  intro i
  simp only [clampBox, hl, if_true]
  cases h1 : lb i <;> cases h2 : ub i <;> simp
  exact hle i _ _ h1 h2

/-- C31. When a node has control limits on both sides, with `lb ≤ ub`, the trial control of BoxDDP and
BoxFDDP at that node is within them. Missing: limits on one side only, see
`C31_one_sided_counterexample`. -/
theorem C31_limits_partial (P : Prob K X DX (Fin n → K)) (O : Oracle K X DX (Fin n → K) L D)
    (kind : Kind) (hk : kind.box = true) (a : K) (s s' : St K X DX (Fin n → K) L D)
    (hr : forwardPass P O kind a s = .ok () s') (t : Nat) (ht : t < P.T)
    (hn : (P.node t).nuZero = false) (lb ub : Fin n → Option K) (hc : (P.node t).clamp = clampBox lb ub)
    (hl : hasLimits lb ub = true) (hle : ∀ i l h, lb i = some l → ub i = some h → l ≤ h) :
    Within lb ub (s'.usTry t) := by
  rw [C27_policy P O kind a s s' hr t ht hn, if_pos hk, hc]
  exact clampBox_within hl hle _

/-- C31 (solve). With limits on both sides at every node, every candidate that `solve` has changed is
within the limits. -/
theorem C31_iteration_partial (P : Prob K X DX (Fin n → K)) (O : Oracle K X DX (Fin n → K) L D)
    (c : Cfg K) (kind : Kind) (hk : kind.box = true) (fuel : Nat) (s s' : St K X DX (Fin n → K) L D)
    (lb ub : Nat → Fin n → Option K) (hn : ∀ t < P.T, (P.node t).nuZero = false)
    (hc : ∀ t < P.T, (P.node t).clamp = clampBox (lb t) (ub t))
    (hl : ∀ t < P.T, hasLimits (lb t) (ub t) = true)
    (hle : ∀ t < P.T, ∀ i l h, lb t i = some l → ub t i = some h → l ≤ h)
    {e : Exit} {b : Bool} (hr : iteration P c O kind fuel s = some (e, b, s')) :
    s'.us = s.us ∨ ∀ t < P.T, Within (lb t) (ub t) (s'.us t) := by
  have hdk : ∀ fuel (s s' : St K X DX (Fin n → K) L D) b, dirLoop P c O fuel s = some (b, s') →
      s'.us = s.us := by
    intro fuel
    induction fuel with
    | zero => intro s s' b h; simp [dirLoop] at h
    | succ fuel ih =>
      intro s s' b h
      have hcd : (computeDirection P O s).2.us = s.us := by
        unfold computeDirection calcDiff problemCalc
        simp only
        split
        · split <;> rfl
        · rfl
      simp only [dirLoop] at h
      split at h
      · simp only [Option.some.injEq, Prod.mk.injEq] at h
        rw [← h.2]; exact hcd
      · split at h
        · simp only [Option.some.injEq, Prod.mk.injEq] at h
          rw [← h.2]; exact hcd
        · rw [ih _ _ _ h]; exact hcd
  rcases iteration_cases fuel s hr with ⟨-, -, hd⟩ | ⟨s1, hd, hs2, -, -⟩
  · exact .inl (hdk _ _ _ _ hd)
  · have h1 := hdk _ _ _ _ hd
    obtain ⟨-, e2, -⟩ := hs2
    obtain ⟨-, p2, -⟩ := prepare_keeps (O := O) (kind := kind) s1
    rcases lineSearch_spec (P := P) (c := c) (O := O) (kind := kind) c.alphas (prepare O kind s1) with
      hl' | ⟨a, ha, sT, hT, -, h3⟩
    · left; rw [e2, hl'.us, p2, h1]
    · right
      intro t ht
      rw [e2, h3]
      show Within _ _ (sT.usTry t)
      rw [hT.core.nodes.control t ht (hn t ht)]
      simp only [hk, if_true, hc t ht]
      exact clampBox_within (hl t ht) (hle t ht) _

end box

/-! ## Concrete instances -/

namespace Demo

/-- One node, `x' = x + u`, costs `u²/2` and `x²/2`, initial state 1. -/
def prob : Prob ℚ ℚ ℚ ℚ where
  T := 1
  node := fun _ => ⟨false, fun x u => (x + u, u * u / 2), fun x => (x, 0), fun x y => y - x,
    fun x d => x + d, fun u => max (-1) (min u 1)⟩
  tcost := fun x => x * x / 2
  tdiff := fun x y => y - x
  tinteg := fun x d => x + d
  x0 := 1

/-- Default parameters, with four step lengths. -/
def cfg : Cfg ℚ where
  alphas := [1, 1 / 2, 1 / 4, 1 / 8]
  thAcceptstep := 1 / 10
  thAcceptnegstep := 2
  thStop := 1 / 10 ^ 9
  thGrad := 1 / 10 ^ 12
  thStepdec := 1 / 2
  thStepinc := 1 / 100
  reg := ⟨10, 10, 1 / 10 ^ 9, 10 ^ 9⟩

/-- The exact backward pass of this problem. -/
def oracle : Oracle ℚ ℚ ℚ ℚ Unit Unit where
  linearise := fun _ => ()
  backward := fun s =>
    let vx := s.xs 1 + (if s.feas then 0 else s.fs 1)
    (true, (fun _ => (s.us 0 + vx) / 2), (fun _ dx => dx / 2), ())
  updExp := fun _ => ()
  expImp := fun s => (2 * s.k 0 * s.k 0, - (2 * s.k 0 * s.k 0))
  bad := fun c => decide (10 ^ 30 ≤ c)
  badX := fun c => decide (10 ^ 30 ≤ |c|)

/-- A freshly constructed solver. -/
def init : St ℚ ℚ ℚ ℚ Unit Unit where
  xs := fun _ => 0
  us := fun _ => 0
  xsTry := fun _ => 0
  usTry := fun _ => 0
  datas := fun _ => (0, 0)
  tdata := 0
  fs := fun _ => 0
  k := fun _ => 0
  gain := fun _ _ => 0
  lin := ()
  dir := ()
  feas := false
  wasFeas := false
  cost := 0
  costTry := 0
  dV := 0
  dVexp := 0
  d0 := 0
  d1 := 0
  stop := 0
  steplength := 1
  preg := 0
  dreg := 0
  iter := 0
  xnext := 0
  recalc := false

/-- What a run shows: result, feasibility, last state, control, cost, and the costs seen by callbacks. -/
def view (o : Option (Outcome ℚ ℚ ℚ ℚ Unit Unit)) : Option (Bool × Bool × List ℚ) :=
  o.map fun o => (o.ret, o.final.feas, o.final.xs 1 :: o.final.us 0 :: o.final.cost :: o.trace.map (·.cost))

/-- A computed run exhibits a result satisfying a decidable property. -/
theorem exists_of_check {α : Type} {o : Option α} (p : α → Bool) (h : o.map p = some true) :
    ∃ x, o = some x ∧ p x = true := by
  cases o with
  | none => simp at h
  | some x => exact ⟨x, rfl, by simpa using h⟩

/-- The same for a C++ call that returns. -/
def okCheck {σ α : Type} (p : σ → Bool) : Res σ α → Bool
  | .ok _ s => p s
  | _ => false

theorem exists_of_okCheck {σ : Type} {r : Res σ Unit} (p : σ → Bool) (h : okCheck p r = true) :
    ∃ s, r = .ok () s ∧ p s = true := by
  cases r with
  | ok u s => exact ⟨s, rfl, h⟩
  | throw s => simp [okCheck] at h
  | ub => simp [okCheck] at h

theorem ok : AutonomousOk prob := by intro t _ h; simp [prob] at h

theorem shared : SharedState prob (fun x y => y - x) (fun x d => x + d) :=
  ⟨fun _ => rfl, fun _ => rfl, rfl, fun x d => by ring, fun x => by ring⟩

/-- DDP and FDDP converge on it from a feasible guess and from an infeasible one: the hypotheses of C24,
C25 and C26 are met, with `ret = true` and candidates that change. -/
example : view (solve prob cfg oracle .ddp 1 10 (fun _ => 1) (fun _ => 0) true none init) =
    some (true, true, [1 / 2, -1 / 2, 1 / 4, 1 / 4, 1 / 4]) := by decide +kernel

example : view (solve prob cfg oracle .fddp 1 10 (fun t => if t = 0 then 1 else 5) (fun _ => 0) false
    none init) = some (true, true, [1 / 2, -1 / 2, 1 / 4, 1 / 4, 1 / 4]) := by decide +kernel

example : view (solve prob cfg oracle .boxFddp 1 10 (fun t => if t = 0 then 1 else 5) (fun _ => 0) false
    none init) = some (true, true, [1 / 2, -1 / 2, 1 / 4, 1 / 4, 1 / 4]) := by decide +kernel

/-- A forward pass with a short step from an infeasible candidate, as C28 assumes, halves the gap 4. -/
example : ∃ s', forwardPass prob oracle .fddp (1 / 2)
      { init with xs := fun t => if t = 0 then 1 else 5, fs := fun t => if t = 0 then 0 else -4 } = .ok () s' ∧
    gap prob (fun t => if t = 0 then (1 : ℚ) else 5) (fun _ => 0) 1 = -4 ∧
    gap prob s'.xsTry s'.usTry 1 = -2 := by
  obtain ⟨s', h1, h2⟩ := exists_of_okCheck (fun s' : St ℚ ℚ ℚ ℚ Unit Unit => decide (gap prob s'.xsTry s'.usTry 1 = -2))
    (show okCheck _ (forwardPass prob oracle .fddp (1 / 2)
      { init with xs := fun t => if t = 0 then 1 else 5, fs := fun t => if t = 0 then 0 else -4 }) = true
      by decide +kernel)
  exact ⟨s', h1, by decide +kernel, by simpa using h2⟩

end Demo

/-! ### C27 and C26 fail for nodes without controls -/

namespace Autonomous

/-- A node without controls whose `calc(d, x)` is the terminal evaluation, as for integrated action
models: `calc(d, x, u)` moves the state and has a cost, `calc(d, x)` does neither. -/
def prob : Prob ℚ ℚ ℚ ℚ := { Demo.prob with
  node := fun _ => ⟨true, fun x _ => (x + 1, 3), fun x => (x, 0), fun x y => y - x, fun x d => x + d, id⟩ }

/-- C27 and C26 fail: DDP marks as feasible a candidate that is not a rollout, and the cost it reports is
not the cost of the candidate. -/
theorem C27_autonomous_counterexample : ∃ o, solve prob Demo.cfg Demo.oracle .ddp 1 1 (fun _ => 1) (fun _ => 0)
      true none Demo.init = some o ∧ o.final.feas = true ∧ ¬ Rollout prob o.final.xs o.final.us ∧
    o.final.cost ≠ totalCost prob o.final.xs o.final.us := by
  obtain ⟨o, h1, h2⟩ := Demo.exists_of_check
    (fun o : Outcome ℚ ℚ ℚ ℚ Unit Unit => o.final.feas && decide (o.final.xs 1 ≠ o.final.xs 0 + 1) &&
      decide (o.final.cost ≠ 3 + o.final.xs 1 * o.final.xs 1 / 2))
    (show (solve prob Demo.cfg Demo.oracle .ddp 1 1 (fun _ => 1) (fun _ => 0) true none
      Demo.init).map _ = some true by decide +kernel)
  simp only [Bool.and_eq_true, decide_eq_true_eq] at h2
  refine ⟨o, h1, h2.1.1, fun h => h2.1.2 (h.2 0 (by decide)), ?_⟩
  simpa [totalCost, prob, Demo.prob] using h2.2

end Autonomous

/-! ### C35 fails for short steps from infeasible guesses -/

namespace BoxGap

/-- One node, `x' = x + u`, cost `M u⁴ + u²/2 + u` with a huge `M`, no terminal cost. -/
def prob : Prob ℚ ℚ ℚ ℚ := { Demo.prob with
  node := fun _ => ⟨false, fun x u => (x + u, 2 * 10 ^ 30 * u ^ 4 + u ^ 2 / 2 + u), fun x => (x, 0),
    fun x y => y - x, fun x d => x + d, fun u => max (-1) (min u 1)⟩
  tcost := fun _ => 0 }

/-- Its backward pass at `u = 0`: `Qu = 1`, `Quu = 1`, `Qux = 0`. -/
def oracle : Oracle ℚ ℚ ℚ ℚ Unit Unit := { Demo.oracle with
  backward := fun _ => (true, (fun _ => 1), (fun _ _ => 0), ())
  expImp := fun _ => (1, -1) }

/-- C35 fails: the full step overflows, the half step is accepted because the candidate is infeasible, and
the result is marked feasible although its terminal gap is not zero. -/
theorem C35_boxddp_counterexample : ∃ o, solve prob Demo.cfg oracle .boxDdp 1 1
      (fun t => if t = 0 then 1 else 5) (fun _ => 0) false none Demo.init = some o ∧
    o.final.feas = true ∧ o.final.steplength = 1 / 2 ∧ ¬ Rollout prob o.final.xs o.final.us := by
  obtain ⟨o, h1, h2⟩ := Demo.exists_of_check
    (fun o : Outcome ℚ ℚ ℚ ℚ Unit Unit => o.final.feas && decide (o.final.steplength = 1 / 2) &&
      decide (o.final.xs 1 ≠ o.final.xs 0 + o.final.us 0))
    (show (solve prob Demo.cfg oracle .boxDdp 1 1 (fun t => if t = 0 then 1 else 5) (fun _ => 0) false none
      Demo.init).map _ = some true by decide +kernel)
  simp only [Bool.and_eq_true, decide_eq_true_eq] at h2
  exact ⟨o, h1, h2.1.1, h2.1.2, fun h => h2.2 (h.2 0 (by decide))⟩

end BoxGap

/-! ### C31 fails for one-sided limits -/

namespace OneSided

/-- A lower limit only. -/
def lb : Fin 1 → Option ℚ := fun _ => some 0
def ub : Fin 1 → Option ℚ := fun _ => none

def prob : Prob ℚ ℚ ℚ (Fin 1 → ℚ) where
  T := 1
  node := fun _ => ⟨false, fun x u => (x + u 0, u 0 * u 0 / 2), fun x => (x, 0), fun x y => y - x,
    fun x d => x + d, clampBox lb ub⟩
  tcost := fun x => x * x / 2
  tdiff := fun x y => y - x
  tinteg := fun x d => x + d
  x0 := 1

def oracle : Oracle ℚ ℚ ℚ (Fin 1 → ℚ) Unit Unit :=
  ⟨fun _ => (), fun _ => (true, fun _ _ => 1 / 2, fun _ _ _ => 0, ()), fun _ => (), fun _ => (1, -1),
    fun _ => false, fun _ => false⟩

def init : St ℚ ℚ ℚ (Fin 1 → ℚ) Unit Unit where
  xs := fun _ => 1
  us := fun _ _ => 0
  xsTry := fun _ => 0
  usTry := fun _ _ => 0
  datas := fun _ => (0, 0)
  tdata := 0
  fs := fun _ => 0
  k := fun _ _ => 1 / 2
  gain := fun _ _ _ => 0
  lin := ()
  dir := ()
  feas := true
  wasFeas := false
  cost := 0
  costTry := 0
  dV := 0
  dVexp := 0
  d0 := 0
  d1 := 0
  stop := 0
  steplength := 1
  preg := 0
  dreg := 0
  iter := 0
  xnext := 0
  recalc := false

/-- C31 fails: with a lower limit 0 and no upper limit, the trial control is -1/2. -/
theorem C31_one_sided_counterexample :
    ∃ s', forwardPass prob oracle .boxDdp 1 init = .ok () s' ∧ lb 0 = some 0 ∧ s'.usTry 0 0 = - 1 / 2 ∧
      ¬ Within lb ub (s'.usTry 0) := by
  obtain ⟨s', h1, h2⟩ := Demo.exists_of_okCheck (fun s' : St ℚ ℚ ℚ (Fin 1 → ℚ) Unit Unit => decide (s'.usTry 0 0 = - 1 / 2))
    (show Demo.okCheck _ (forwardPass prob oracle .boxDdp 1 init) = true by decide +kernel)
  have h3 : s'.usTry 0 0 = - 1 / 2 := by simpa using h2
  refine ⟨s', h1, rfl, h3, fun h => ?_⟩
  have := (h 0).1 0 rfl
  rw [h3] at this
  norm_num at this

/-- With limits on both sides the hypotheses of `C31_limits_partial` are met. -/
example : hasLimits (fun _ : Fin 2 => some (-1 : ℚ)) (fun i => if i = 0 then some 1 else none) = true ∧
    clampBox (fun _ : Fin 2 => some (-1 : ℚ)) (fun i => if i = 0 then some 1 else none) (fun _ => 5) =
      fun i => if i = 0 then 1 else 5 := by
  constructor
  · decide
  · funext i; fin_cases i <;> norm_num [clampBox, hasLimits]

end OneSided
end Verif.Solve
