import Verif.Model.IpoptSolve
import Verif.Props.IpoptEval

set_option linter.unusedSectionVars false

/-!
# C117: what `SolverIpopt` reports after a solve
-/

namespace Verif.Ipopt
open Spec

variable {K X D : Type*}

/-- A call other than `finalize_solution`. -/
def Call.isEval : Call K → Prop
  | .finalize _ _ => False
  | _ => True

theorem calls_keep [Semiring K] (P : Prob) (N : Nodes K X D) (Dy : Dyn K X D) (L : Layout) (x0 : X)
    (cs : List (Call K)) (hc : ∀ c ∈ cs, c.isEval) (i : Iface K X D) :
    (cs.foldl (Iface.call P N Dy L x0) i).xs = i.xs ∧ (cs.foldl (Iface.call P N Dy L x0) i).us = i.us
      ∧ (cs.foldl (Iface.call P N Dy L x0) i).cost = i.cost := by
  induction cs generalizing i with
  | nil => exact ⟨rfl, rfl, rfl⟩
  | cons c cs ih =>
    obtain ⟨h1, h2, h3⟩ := ih (fun c' h => hc c' (List.mem_cons_of_mem _ h)) (Iface.call P N Dy L x0 i c)
    have h0 := hc c List.mem_cons_self
    simp only [List.foldl_cons]
    rw [h1, h2, h3]
    cases c with
    | finalize x o => exact h0.elim
    | _ => exact ⟨rfl, rfl, rfl⟩

/-- **C117 (result).** Whatever Ipopt evaluates, if it ends by handing over its solution `x` once, the
candidate afterwards is the trajectory that `x` stands for around the guess, the cost is the objective
value that Ipopt handed over, the iteration count is Ipopt's, and `solve` returns true exactly for the two
successful statuses. The feasibility flag is the argument of `solve` and no callback was called. -/
theorem C117_result [Semiring K] (P0 : Prob) (Ps : List Prob) (N : Nodes K X D) (Dy : Dyn K X D) (x0 : X)
    (evals : List (Call K)) (he : ∀ c ∈ evals, c.isEval) (x : ℕ → K) (obj : K) (st : Status) (n : ℕ)
    (xs : ℕ → X) (us : ℕ → ℕ → K) (maxiter : ℕ) (feas : Bool) (s : Sol K X D) :
    let P := (history P0 Ps).1
    let L := (history P0 Ps).2
    let o := s.solve P N Dy L x0 ⟨evals ++ [.finalize x obj], st, n⟩ xs us maxiter feas
    (∀ t ≤ P.T, o.2.xs t = stateAt P N xs x t) ∧ (∀ t < P.T, o.2.us t = ctrlAt P x t) ∧
    o.2.cost = some obj ∧ o.2.iter = n ∧ o.2.maxIter = maxiter ∧
    (o.1 = true ↔ st = .succeeded ∨ st = .acceptable) ∧
    o.2.feas = feas ∧ o.2.reports = s.reports := by
  intro P L
  have hL : Good P L := history_good P0 Ps
  obtain ⟨h1, h2, -⟩ := calls_keep P N Dy L x0 evals he { s.iface with xs := xs, us := us }
  simp only [Sol.solve, List.foldl_append, List.foldl_cons, List.foldl_nil, Iface.call]
  refine ⟨fun t ht => ?_, fun t ht => ?_, trivial, trivial, trivial, ?_, trivial, trivial⟩
  · simp only [finalize, if_pos ht]
    rw [h1, pointOf_eq P L N hL xs x t ht]
  · simp only [finalize, if_pos ht]
    rw [uOf_eq P L hL x t ht.le]
  · simp

/-- **C117 (cost).** If the objective value that Ipopt hands over is the one that `eval_f` reports for the
solution when started from zero, the cost of the solver is the total cost of the stored candidate. -/
theorem C117_cost_partial [Field K] (P0 : Prob) (Ps : List Prob) (N : Nodes K X D) (Dy : Dyn K X D)
    (ell : ℕ → X → (ℕ → K) → K) (hcost : ∀ t d x u, N.cost (N.eval t d x u) = ell t x u)
    (hterm : ∀ x u u', ell (history P0 Ps).1.T x u = ell (history P0 Ps).1.T x u') (x0 : X)
    (evals : List (Call K)) (he : ∀ c ∈ evals, c.isEval) (x : ℕ → K) (obj : K) (st : Status) (n : ℕ)
    (xs : ℕ → X) (us : ℕ → ℕ → K) (maxiter : ℕ) (feas : Bool) (s : Sol K X D) (ds : ℕ → D)
    (hobj : obj = (evalF (history P0 Ps).1 N (history P0 Ps).2 xs ds x 0).2) :
    let P := (history P0 Ps).1
    let L := (history P0 Ps).2
    let o := s.solve P N Dy L x0 ⟨evals ++ [.finalize x obj], st, n⟩ xs us maxiter feas
    o.2.cost = some (∑ t ∈ Finset.range (P.T + 1), ell t (o.2.xs t) (o.2.us t)) := by
  intro P L o
  obtain ⟨h1, h2, h3, -⟩ := C117_result P0 Ps N Dy x0 evals he x obj st n xs us maxiter feas s
  rw [show o.2.cost = some obj from h3, hobj,
    (C60_objective_partial P0 Ps N ell hcost xs ds x 0).1, zero_add]
  congr 1
  unfold objective
  refine Finset.sum_congr rfl fun t ht => ?_
  have ht' : t ≤ P.T := Nat.lt_succ_iff.1 (Finset.mem_range.1 ht)
  rw [show o.2.xs t = stateAt P N xs x t from h1 t ht']
  rcases Nat.lt_or_eq_of_le ht' with h | h
  · rw [show o.2.us t = ctrlAt P x t from h2 t h]
  · rw [h]; exact hterm _ _ _

/-- **C117 (feasibility).** If all constraint values that `eval_g` reports for the solution are zero, the
stored candidate is an exact rollout from the initial state, whatever its flag says. -/
theorem C117_rollout [Semiring K] (P0 : Prob) (Ps : List Prob) (N : Nodes K X D) (Dy : Dyn K X D)
    (f : ℕ → X → (ℕ → K) → X)
    (hint : ∀ t x dx dx', (∀ j, j < (history P0 Ps).1.ndx t → dx j = dx' j) → N.integrate t x dx = N.integrate t x dx')
    (hf : ∀ t d x u, Dy.xnext (N.eval t d x u) = f t x u)
    (hdiff : ∀ t a b, (∀ r < (history P0 Ps).1.ndx t, Dy.diff t a b r = 0) → a = b) (x0 : X)
    (evals : List (Call K)) (he : ∀ c ∈ evals, c.isEval) (x : ℕ → K) (obj : K) (st : Status) (n : ℕ)
    (xs : ℕ → X) (us : ℕ → ℕ → K) (maxiter : ℕ) (feas : Bool) (s : Sol K X D) (ds : ℕ → D) (g : ℕ → K)
    (hg : ∀ c : Con, c.Valid (history P0 Ps).1 →
      (evalG (history P0 Ps).1 N Dy (history P0 Ps).2 xs x0 ds x g).2 (c.row (history P0 Ps).1) = 0) :
    let P := (history P0 Ps).1
    let L := (history P0 Ps).2
    let o := s.solve P N Dy L x0 ⟨evals ++ [.finalize x obj], st, n⟩ xs us maxiter feas
    o.2.xs 0 = x0 ∧ ∀ t < P.T, o.2.xs (t + 1) = f t (o.2.xs t) (o.2.us t) := by
  intro P L o
  obtain ⟨h1, h2, -⟩ := C117_result P0 Ps N Dy x0 evals he x obj st n xs us maxiter feas s
  have hc : ∀ c : Con, c.Valid P → constraint P N Dy f xs x0 x c = 0 := fun c hv => by
    rw [← C60_constraints P0 Ps N Dy f hint hf xs x0 ds x g c hv]; exact hg c hv
  refine ⟨?_, fun t ht => ?_⟩
  · rw [show o.2.xs 0 = stateAt P N xs x 0 from h1 0 (Nat.zero_le _)]
    exact hdiff 0 _ _ fun r hr => hc (.init r) hr
  · rw [show o.2.xs (t + 1) = stateAt P N xs x (t + 1) from h1 (t + 1) ht,
      show o.2.xs t = stateAt P N xs x t from h1 t (le_of_lt ht), show o.2.us t = ctrlAt P x t from h2 t ht]
    exact (hdiff t _ _ fun r hr => hc (.dyn t r) ⟨ht, hr⟩).symm

/-- **C117 (no solution handed over).** If Ipopt stops without handing over a solution, the candidate is
the guess, and the cost is the one of the previous solve, or undefined after construction. -/
theorem C117_no_solution [Semiring K] (P : Prob) (N : Nodes K X D) (Dy : Dyn K X D) (L : Layout) (x0 : X)
    (evals : List (Call K)) (he : ∀ c ∈ evals, c.isEval) (st : Status) (n : ℕ)
    (xs : ℕ → X) (us : ℕ → ℕ → K) (maxiter : ℕ) (feas : Bool) (s : Sol K X D) :
    let o := s.solve P N Dy L x0 ⟨evals, st, n⟩ xs us maxiter feas
    o.2.xs = xs ∧ o.2.us = us ∧ o.2.feas = feas ∧ o.2.cost = s.iface.cost := by
  obtain ⟨h1, h2, h3⟩ := calls_keep P N Dy L x0 evals he { s.iface with xs := xs, us := us }
  exact ⟨h1, h2, rfl, h3⟩

/-- What may happen to the tolerance: `solve` and the setter of the class. -/
inductive Op (K X : Type*)
  | solve (P : Prob) (r : Run K) (xs : ℕ → X) (us : ℕ → ℕ → K) (maxiter : ℕ) (feas : Bool)
  | setThStop (v : K)

/-- The solver after an operation; an exception leaves it unchanged. -/
def Sol.op [Field K] [LinearOrder K] (N : Nodes K X D) (Dy : Dyn K X D) (L : Layout) (x0 : X) (s : Sol K X D) :
    Op K X → Sol K X D
  | .solve P r xs us m f => (s.solve P N Dy L x0 r xs us m f).2
  | .setThStop v => (s.setThStop v).getD s

/-- **C117 (tolerance).** Over every history of solves and calls of the class's `set_th_stop`, Ipopt's
tolerance is the solver's `th_stop`, and it is positive. -/
theorem C117_tolerance_partial [Field K] [LinearOrder K] (N : Nodes K X D) (Dy : Dyn K X D) (L : Layout) (x0 : X)
    (s : Sol K X D) (h0 : s.tol = s.thStop) (h1 : 0 < s.thStop) (ops : List (Op K X)) :
    (ops.foldl (Sol.op N Dy L x0) s).tol = (ops.foldl (Sol.op N Dy L x0) s).thStop ∧
    0 < (ops.foldl (Sol.op N Dy L x0) s).thStop := by
  induction ops generalizing s with
  | nil => exact ⟨h0, h1⟩
  | cons o ops ih =>
    refine ih _ ?_ ?_ <;> cases o with
    | solve P r xs us m f => first | exact h0 | exact h1
    | setThStop v =>
      simp only [Sol.op, Sol.setThStop]
      split
      · first | exact h0 | exact h1
      · rename_i h; first | rfl | exact not_le.1 h

/-! ### The violations, and non-vacuity -/

/-- A solver just constructed. -/
noncomputable def exSol : Sol ℝ ℝ ExData :=
  ⟨⟨fun _ => 0, fun _ _ => 0, fun _ => ⟨0, 0, 0, 0, 0, 0, 0, 0, 0⟩, none⟩, fun _ => 0, fun _ _ => 0, false, none, 0,
    1, 1, 0, 0⟩

/-- The run hands over the solution `x₀ = 1, u₀ = 1, x₁ = 2` of the example problem with initial state 1
around the zero guess; its cost is `1 + 1 + 16`. -/
noncomputable def exRun : Run ℝ :=
  ⟨[.evalF (fun _ => 0) 0, .evalG (fun _ => 0) (fun _ => 0)] ++
    [.finalize (fun v => if v = 2 then 2 else 1) 18], .succeeded, 5⟩

/-- **C117: the flag.** A successful solve, whose candidate is an exact rollout with the right cost, leaves
the candidate marked infeasible (the default argument), although it is feasible. -/
theorem C117_flag_counterexample :
    let o := exSol.solve exProb exNodes exDyn (make exProb) 1 exRun (fun _ => 0) (fun _ _ => 0) 100 false
    o.1 = true ∧ o.2.feas = false ∧ o.2.cost = some 18 ∧ o.2.xs 0 = 1 ∧ o.2.us 0 0 = 1 ∧
    o.2.xs 1 = o.2.xs 0 ^ 2 * o.2.xs 0 + o.2.us 0 0 ∧ o.2.xs 1 = 2 := by
  intro o
  obtain ⟨h1, h2, h3, -, -, h6, h7, -⟩ := C117_result exProb [] exNodes exDyn 1
    [.evalF (fun _ => 0) 0, .evalG (fun _ => 0) (fun _ => 0)]
    (fun c hc => by
      simp only [List.mem_cons, List.not_mem_nil, or_false] at hc
      rcases hc with rfl | rfl <;> trivial)
    (fun v => if v = 2 then 2 else 1) 18 .succeeded 5 (fun _ => 0) (fun _ _ => 0) 100 false exSol
  have e0 : o.2.xs 0 = 1 := by
    refine (h1 0 (Nat.zero_le _)).trans ?_
    simp [stateAt, exNodes, Slot.index, Spec.start]
  have e1 : o.2.xs 1 = 2 := by
    refine (h1 1 le_rfl).trans ?_
    simp [stateAt, exNodes, Slot.index, Spec.start, history, exProb]
  have e2 : o.2.us 0 0 = 1 := by
    refine (congrFun (h2 0 (show 0 < 1 from Nat.one_pos)) 0).trans ?_
    simp [ctrlAt, Slot.index, Spec.start, history, exProb]
  exact ⟨h6.2 (.inl rfl), h7, h3, e0, e2, by rw [e0, e1, e2]; norm_num, e1⟩

/-- **C117: stale cost.** A solve in which Ipopt hands over no solution leaves the cost of the previous
solve beside the new guess. -/
theorem C117_stale_counterexample :
    let s := (exSol.solve exProb exNodes exDyn (make exProb) 1 exRun (fun _ => 0) (fun _ _ => 0) 100 false).2
    let o := s.solve exProb exNodes exDyn (make exProb) 1 ⟨[], .other, 0⟩ (fun _ => 3) (fun _ _ => 0) 100 false
    o.2.xs 0 = 3 ∧ o.2.cost = some 18 ∧
    o.2.cost ≠ some (∑ t ∈ Finset.range 2, ((o.2.xs t ^ 2) ^ 2 + (if t = 0 then o.2.us t 0 ^ 2 else 0))) := by
  intro s o
  obtain ⟨h1, h2, -, h4⟩ := C117_no_solution exProb exNodes exDyn (make exProb) 1 [] (by simp) .other 0
    (fun _ => 3) (fun _ _ => 0) 100 false s
  have hs : s.iface.cost = some 18 := rfl
  have h1' : o.2.xs = fun _ => 3 := h1
  have h2' : o.2.us = fun _ _ => 0 := h2
  have h4' : o.2.cost = some 18 := h4.trans hs
  refine ⟨by rw [h1'], h4', ?_⟩
  rw [h4', h1', h2']
  intro h
  have := Option.some.inj h
  norm_num [Finset.sum_range_succ] at this

/-- **C117: tolerance through the base class.** `set_th_stop` called on the base class changes `th_stop`
and leaves Ipopt's tolerance. -/
theorem C117_tolerance_counterexample :
    ∃ s, exSol.setThStopBase 2 = some s ∧ s.thStop = 2 ∧ s.tol = 1 := by
  refine ⟨{ exSol with thStop := 2 }, ?_, rfl, rfl⟩
  unfold Sol.setThStopBase
  rw [if_neg (by norm_num)]

/-- The hypotheses of `C117_cost_partial` and `C117_rollout` hold for the example run: the objective value
is what `eval_f` reports and the constraints vanish. -/
example : (18 : ℝ) = (evalF exProb exNodes (make exProb) (fun _ => 0) (fun _ => ⟨0, 0, 0, 0, 0, 0, 0, 0, 0⟩)
      (fun v => if v = 2 then 2 else 1) 0).2 ∧
    (∀ c : Con, c.Valid exProb → (evalG exProb exNodes exDyn (make exProb) (fun _ => 0) 1
      (fun _ => ⟨0, 0, 0, 0, 0, 0, 0, 0, 0⟩) (fun v => if v = 2 then 2 else 1) (fun _ => 7)).2 (c.row exProb) = 0) ∧
    (∀ t a b, (∀ r < exProb.ndx t, exDyn.diff t a b r = 0) → a = b) := by
  refine ⟨?_, ?_, ?_⟩
  · refine Eq.trans ?_ (C60_objective_partial exProb [] exNodes
      (fun t x u => (x ^ 2) ^ 2 + (if t = 0 then u 0 ^ 2 else 0)) (fun _ _ _ _ => rfl) (fun _ => 0) _ _ 0).1.symm
    simp [objective, stateAt, ctrlAt, Slot.index, Spec.start, history, exProb, exNodes, Finset.sum_range_succ]
    norm_num
  · intro c hc
    refine (C60_constraints exProb [] exNodes exDyn (fun t x u => x ^ 2 * x + (if t = 0 then u 0 else 0)) (fun t x dx dx' h => by
      simp only [exNodes, h 0 (by simp [history, exProb])]) (fun _ _ _ _ => rfl) _ _ _ _ _ c hc).trans ?_
    cases c with
    | dyn t r =>
      have ht : t = 0 := by have := hc.1; simp only [exProb] at this; omega
      subst ht
      simp [constraint, stateAt, ctrlAt, Slot.index, Spec.start, history, exProb, exNodes, exDyn]
      norm_num
    | init r =>
      simp [constraint, stateAt, Slot.index, Spec.start, history, exProb, exNodes, exDyn]
  · intro t a b h
    have := h 0 (by simp [exProb])
    simp only [exDyn] at this
    linarith

end Verif.Ipopt
