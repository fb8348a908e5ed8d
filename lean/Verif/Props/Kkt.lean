import Verif.Model.Kkt
import Verif.Lemmas.Solve
import Verif.Props.Solve
import Mathlib.Algebra.Module.LinearMap.Basic

/-! # Properties C36, C63, C64 of the KKT solver -/

set_option linter.unusedSectionVars false

namespace Verif.Kkt
open Verif Verif.Solve

section
variable {K X DX U L M : Type}
variable [Field K] [LinearOrder K] [AddCommGroup DX] [Module K DX] [AddCommGroup U] [Module K U]
variable {P : Prob K X DX U} {c : Cfg K} {O : Oracle K X DX U L M}

theorem calcCost_eq (xs : Nat → X) (us : Nat → U) : calcCost P xs us = totalCost P xs us := by
  rw [calcCost, sumTo_eq]; rfl

/-! ## C36 termination -/

/-- If the linear solve never throws, the second round of the retry loop succeeds at the latest. -/
theorem dirLoop_two (hO : ∀ l, O.primalDual l ≠ none) (s : St K X DX U L M) :
    ∃ b s', dirLoop P c O 2 s = some (b, s') := by
  simp only [dirLoop]
  split
  · exact ⟨_, _, rfl⟩
  · split
    · exact ⟨_, _, rfl⟩
    · generalize (computeDirection P O s).2 = s1
      have : (computeDirection P O { s1 with recalc := false }).1 = true := by
        cases h : O.primalDual s1.lin with
        | none => exact absurd h (hO _)
        | some d => simp [computeDirection, h]
      rw [if_pos this]
      exact ⟨_, _, rfl⟩

/-- C36. `solve` ends, whatever the problem does, provided the linear solve itself never throws. Missing:
a linear solve that keeps throwing, see `C36_counterexample`. -/
theorem C36_terminates_partial (hO : ∀ l, O.primalDual l ≠ none) (maxiter : Nat) (xs : Nat → X)
    (us : Nat → U) (feas : Bool) (s : St K X DX U L M) :
    ∃ o, solve P c O 2 maxiter xs us feas s = some o := by
  unfold solve
  generalize start xs us feas s = s
  induction maxiter generalizing s with
  | zero => exact ⟨_, rfl⟩
  | succ n ih =>
    obtain ⟨b, s1, hd⟩ := dirLoop_two (P := P) (c := c) hO s
    simp only [iterLoop, iteration, hd]
    cases b
    · exact ⟨_, rfl⟩
    · simp only
      generalize lineSearch P c O c.alphas _ = s2
      by_cases hc : s2.wasFeas = true ∧ O.stop s2.lin s2.dual < c.thStop
      · simp only [hc, and_self, if_true]
        exact ⟨_, rfl⟩
      · simp only [hc, if_false]
        obtain ⟨o, ho⟩ := ih { s2 with stop := O.stop s2.lin s2.dual, iter := s2.iter + 1 }
        rw [ho]
        exact ⟨_, rfl⟩

/-- C36 fails: if the linear solve keeps throwing, `solve` never ends, unless the regularisation happens to
equal `reg_max`: it is never increased. -/
theorem C36_counterexample (hO : ∀ l, O.primalDual l = none) (s : St K X DX U L M)
    (hp : s.preg ≠ c.regMax) (fuel maxiter : Nat) (xs : Nat → X) (us : Nat → U) (feas : Bool) :
    solve P c O fuel (maxiter + 1) xs us feas s = none := by
  have hd : ∀ (fuel : Nat) (s : St K X DX U L M), s.preg ≠ c.regMax → dirLoop P c O fuel s = none := by
    intro fuel
    induction fuel with
    | zero => intros; rfl
    | succ fuel ih =>
      intro s hs
      have h1 : (computeDirection P O s).1 = false ∧ (computeDirection P O s).2.preg = s.preg := by
        unfold computeDirection calcDiff
        simp only [hO]
        cases s.recalc <;> simp
        split
        · simp
        · split <;> simp
      simp only [dirLoop, h1.1, Bool.false_eq_true, if_false, h1.2, hs]
      exact ih _ (by simpa [h1.2] using hs)
  have : dirLoop P c O fuel (start xs us feas s) = none := hd _ _ (by simpa [start] using hp)
  simp only [solve, iterLoop, iteration, this]

/-- The number of iterations and the meaning of success. -/
theorem iterLoop_basic (fuel n : Nat) (s : St K X DX U L M) {o : Outcome K X DX U L M}
    (hr : iterLoop P c O fuel n s = some o) :
    o.trace.length ≤ n ∧ (o.ret = true → o.final.wasFeas = true ∧ o.final.stop < c.thStop) := by
  induction n generalizing s o with
  | zero => simp only [iterLoop, Option.some.injEq] at hr; subst hr; simp
  | succ n ih =>
    simp only [iterLoop] at hr
    split at hr
    · simp at hr
    · simp only [Option.some.injEq] at hr; subst hr; simp
    · rename_i s' hi
      simp only [Option.some.injEq] at hr; subst hr
      refine ⟨by simp, fun _ => ?_⟩
      unfold iteration at hi
      split at hi
      · simp at hi
      · simp at hi
      · simp only at hi
        split at hi
        · rename_i hc
          simp only [Option.some.injEq, Prod.mk.injEq, true_and] at hi
          rw [← hi]; exact hc
        · simp at hi
    · rename_i s' hi
      cases hl : iterLoop P c O fuel n { s' with iter := s'.iter + 1 } with
      | none => rw [hl] at hr; simp at hr
      | some o' =>
        rw [hl] at hr
        simp only [Option.map_some, Option.some.injEq] at hr
        subst hr
        obtain ⟨i1, i2⟩ := ih _ hl
        exact ⟨by simpa using i1, i2⟩

/-- C36 (iterations). At most `maxiter` iterations; success means that the criterion is below `th_stop`. -/
theorem C36_iterations (fuel maxiter : Nat) (xs : Nat → X) (us : Nat → U) (feas : Bool)
    (s : St K X DX U L M) {o : Outcome K X DX U L M}
    (hr : solve P c O fuel maxiter xs us feas s = some o) :
    o.trace.length ≤ maxiter ∧ (o.ret = true → o.final.wasFeas = true ∧ o.final.stop < c.thStop) :=
  iterLoop_basic fuel maxiter _ hr

/-! ## C64 directions and costs are those of the current candidate -/

/-- What holds while no evaluation of derivatives has thrown: `recalc` stays set. -/
theorem computeDirection_fresh (hO : ∀ l, O.primalDual l ≠ none)
    (hd : ∀ xs us, O.calcThrows xs us = false ∧ O.calcDiffThrows xs us = false)
    (s : St K X DX U L M) (hr : s.recalc = true) :
    (computeDirection P O s).1 = true ∧
    (computeDirection P O s).2.lin = O.assemble s.xs s.us ∧
    (computeDirection P O s).2.cost = totalCost P s.xs s.us ∧
    (computeDirection P O s).2.xs = s.xs ∧ (computeDirection P O s).2.us = s.us ∧
    (computeDirection P O s).2.recalc = true := by
  unfold computeDirection calcDiff
  simp only [hr, if_true, (hd _ _).1, (hd _ _).2, Bool.false_eq_true, if_false]
  cases h : O.primalDual (O.assemble s.xs s.us) with
  | none => exact absurd h (hO _)
  | some d => simp [calcCost_eq, hr]

theorem lineSearch_spec (as : List K) (s : St K X DX U L M) (hc : s.cost = totalCost P s.xs s.us) :
    (lineSearch P c O as s).cost = totalCost P (lineSearch P c O as s).xs (lineSearch P c O as s).us ∧
    (lineSearch P c O as s).recalc = s.recalc ∧ (lineSearch P c O as s).lin = s.lin := by
  induction as generalizing s with
  | nil => exact ⟨hc, rfl, rfl⟩
  | cons a as ih =>
    simp only [lineSearch]
    have hk : ∀ b (s' : St K X DX U L M), tryStep P O a { s with steplength := a } = (b, s') →
        s'.xs = s.xs ∧ s'.us = s.us ∧ s'.cost = s.cost ∧ s'.recalc = s.recalc ∧ s'.lin = s.lin ∧
        (b = true → s'.costTry = totalCost P s'.xsTry s'.usTry) := by
      intro b s' h
      unfold tryStep at h
      simp only at h
      split at h
      · simp only [Prod.mk.injEq] at h
        obtain ⟨rfl, rfl⟩ := h
        simp
      · simp only [Prod.mk.injEq] at h
        obtain ⟨rfl, rfl⟩ := h
        simp [calcCost_eq]
    rcases ht : tryStep P O a { s with steplength := a } with ⟨b, s'⟩
    obtain ⟨h1, h2, h3, h4, h5, h6⟩ := hk b s' ht
    cases b
    · simp only [Bool.false_eq_true, if_false]
      obtain ⟨i1, i2, i3⟩ := ih s' (by rw [h3, h1, h2]; exact hc)
      exact ⟨i1, i2.trans h4, i3.trans h5⟩
    · simp only [if_true]
      split
      · exact ⟨h6 rfl, h4, h5⟩
      · obtain ⟨i1, i2, i3⟩ := ih { s' with dVexp := a * s'.d0 + (1 / 2) * a * a * s'.d1 }
          (by show s'.cost = _; rw [h3]; show _ = totalCost P s'.xs s'.us; rw [h1, h2]; exact hc)
        exact ⟨i1, i2.trans h4, i3.trans h5⟩

/-- One iteration without exceptions: the KKT system is that of the candidate it started from, and the
cost is that of the candidate it leaves. -/
theorem iteration_fresh (hO : ∀ l, O.primalDual l ≠ none)
    (hd : ∀ xs us, O.calcThrows xs us = false ∧ O.calcDiffThrows xs us = false)
    (fuel : Nat) (s s' : St K X DX U L M) (hr : s.recalc = true) {e : Exit}
    (h : iteration P c O fuel s = some (e, s')) :
    s'.lin = O.assemble s.xs s.us ∧ s'.cost = totalCost P s'.xs s'.us ∧ s'.recalc = true := by
  obtain ⟨h1, h2, h3, h4, h5, h6⟩ := computeDirection_fresh (P := P) hO hd s hr
  unfold iteration at h
  cases fuel with
  | zero => simp [dirLoop] at h
  | succ fuel =>
    simp only [dirLoop, h1, if_true] at h
    generalize (computeDirection P O s).2 = s1 at h h2 h3 h4 h5 h6
    obtain ⟨i1, i2, i3⟩ := lineSearch_spec (P := P) (c := c) (O := O) c.alphas
      { s1 with d0 := (O.expImp s1.lin s1.dxs s1.dus).1, d1 := (O.expImp s1.lin s1.dxs s1.dus).2 }
      (by show s1.cost = totalCost P s1.xs s1.us; rw [h3, h4, h5])
    generalize lineSearch P c O c.alphas _ = s2 at h i1 i2 i3
    have : s' = { s2 with stop := O.stop s2.lin s2.dual } := by
      split at h <;> simp only [Option.some.injEq, Prod.mk.injEq] at h <;> exact h.2.symm
    rw [this]
    exact ⟨i3.trans h2, i1, i2.trans h6⟩

/-- C64. If evaluating the problem and the linear solve never throw, then in every iteration the KKT system
used is that of the candidate left by the previous one, and the reported cost is the total cost of the
stored candidate. Missing: exceptions, see `C64_stale_counterexample`. -/
theorem C64_fresh_partial (hO : ∀ l, O.primalDual l ≠ none)
    (hd : ∀ xs us, O.calcThrows xs us = false ∧ O.calcDiffThrows xs us = false)
    (fuel maxiter : Nat) (xs : Nat → X) (us : Nat → U) (feas : Bool) (s : St K X DX U L M)
    {o : Outcome K X DX U L M} (hr : solve P c O fuel maxiter xs us feas s = some o) :
    List.IsChain (fun s s' : St K X DX U L M =>
      s'.lin = O.assemble s.xs s.us ∧ s'.cost = totalCost P s'.xs s'.us)
      (start xs us feas s :: o.trace) := by
  unfold solve at hr
  have : (start xs us feas s).recalc = true := rfl
  generalize start xs us feas s = s at hr this
  induction maxiter generalizing s o with
  | zero => simp only [iterLoop, Option.some.injEq] at hr; subst hr; simp
  | succ n ih =>
    simp only [iterLoop] at hr
    split at hr
    · simp at hr
    · simp only [Option.some.injEq] at hr; subst hr; simp
    · rename_i s' hi
      simp only [Option.some.injEq] at hr; subst hr
      obtain ⟨h1, h2, -⟩ := iteration_fresh hO hd fuel s s' this hi
      simp [h1, h2]
    · rename_i s' hi
      obtain ⟨h1, h2, h3⟩ := iteration_fresh hO hd fuel s s' this hi
      cases hl : iterLoop P c O fuel n { s' with iter := s'.iter + 1 } with
      | none => rw [hl] at hr; simp at hr
      | some o' =>
        rw [hl] at hr
        simp only [Option.map_some, Option.some.injEq] at hr
        subst hr
        have h4 := ih (o := o') { s' with iter := s'.iter + 1 } hl h3
        rw [List.isChain_cons_cons]
        refine ⟨⟨h1, h2⟩, ?_⟩
        rcases htr : o'.trace with _ | ⟨s2, tr⟩
        · simp
        · rw [htr, List.isChain_cons_cons] at h4
          rw [List.isChain_cons_cons]
          exact ⟨⟨h4.1.1, h4.1.2⟩, h4.2⟩

end

/-! ## C63 feasibility of the candidates marked feasible -/

section linear
variable {K V U L M : Type}
variable [Field K] [LinearOrder K] [AddCommGroup V] [Module K V] [AddCommGroup U] [Module K U]

/-- The constraint rows of the KKT system at `(xs, us)`, kkt.cpp L213-237: `dx_0` cancels the initial gap
and `dx_{t+1} - Fx dx_t - Fu du_t` cancels the gap after node `t`. -/
def SolvesConstraints (P : Prob K V V U) (Fx : Nat → V →ₗ[K] V) (Fu : Nat → U →ₗ[K] V)
    (xs : Nat → V) (us : Nat → U) (dxs : Nat → V) (dus : Nat → U) : Prop :=
  dxs 0 = -(xs 0 - P.x0) ∧
  ∀ t < P.T, dxs (t + 1) - Fx t (dxs t) - Fu t (dus t) =
    -(xs (t + 1) - ((P.node t).eval (xs t) (us t)).1)

/-- C63. For vector states and affine dynamics, a step `a` along a direction solving the constraint rows
scales every gap by `1 - a`; so a full step gives an exact rollout. Missing: nonlinear dynamics or shorter
steps, see `C63_feasibility_counterexample`. -/
theorem C63_affine_partial (P : Prob K V V U) (O : Oracle K V V U L M) (Fx : Nat → V →ₗ[K] V)
    (Fu : Nat → U →ₗ[K] V)
    (hinteg : ∀ t x d, (P.node t).integ x d = x + d) (ht : ∀ x d, P.tinteg x d = x + d)
    (hnu : ∀ t < P.T, (P.node t).nuZero = false)
    (haff : ∀ t < P.T, ∀ x u dx du,
      ((P.node t).eval (x + dx) (u + du)).1 = ((P.node t).eval x u).1 + Fx t dx + Fu t du)
    (a : K) (s s' : St K V V U L M)
    (hdir : SolvesConstraints P Fx Fu s.xs s.us s.dxs s.dus)
    (hr : tryStep P O a s = (true, s')) :
    s'.xsTry 0 - P.x0 = (1 - a) • (s.xs 0 - P.x0) ∧
    ∀ t < P.T, s'.xsTry (t + 1) - ((P.node t).eval (s'.xsTry t) (s'.usTry t)).1 =
      (1 - a) • (s.xs (t + 1) - ((P.node t).eval (s.xs t) (s.us t)).1) := by
  have hs : (∀ t ≤ P.T, s'.xsTry t = s.xs t + a • s.dxs t) ∧
      ∀ t < P.T, s'.usTry t = s.us t + a • s.dus t := by
    unfold tryStep at hr
    simp only at hr
    split at hr
    · simp at hr
    · simp only [Prod.mk.injEq, true_and] at hr
      subst hr
      constructor
      · intro t h
        rcases Nat.lt_or_eq_of_le h with h | rfl
        · simp [h, hinteg]
        · simp [ht]
      · intro t h
        simp [h, hnu t h]
  obtain ⟨hx, hu⟩ := hs
  constructor
  · rw [hx 0 (Nat.zero_le _), hdir.1]
    rw [sub_smul, one_smul, smul_neg]
    abel
  · intro t h
    rw [hx t h.le, hx (t + 1) h, hu t h, haff t h, map_smul, map_smul]
    have hd := hdir.2 t h
    have : s.dxs (t + 1) = Fx t (s.dxs t) + Fu t (s.dus t) -
        (s.xs (t + 1) - ((P.node t).eval (s.xs t) (s.us t)).1) := by
      rw [sub_sub, sub_eq_iff_eq_add] at hd
      rw [hd]; abel
    rw [this, sub_smul, one_smul]
    simp only [smul_sub, smul_add]
    abel

end linear

/-! ## Concrete instances -/

namespace Demo

/-- One node, `x' = x + u + u²`, costs `u²/2` and `0`, initial state 0. -/
def prob : Prob ℚ ℚ ℚ ℚ where
  T := 1
  node := fun _ => ⟨false, fun x u => (x + u + u * u, u * u / 2), fun x => (x, 0), fun x y => y - x,
    fun x d => x + d, id⟩
  tcost := fun _ => 0
  tdiff := fun x y => y - x
  tinteg := fun x d => x + d
  x0 := 0

def cfg : Cfg ℚ := ⟨[1, 1 / 2, 1 / 4], 1 / 10, 1 / 10 ^ 9, 1 / 10 ^ 12, 10 ^ 9⟩

/-- With a terminal cost `x²/2 - 2x`, whose minimiser is away from zero. -/
def probT : Prob ℚ ℚ ℚ ℚ := { prob with tcost := fun x => x * x / 2 - 2 * x }

/-- The exact direction at `u = 0`, `x = 0`: minimise `du²/2 + dx²/2 - 2 dx` with `dx = du`, so
`du = dx = 1`; `throws` says at which controls evaluating the derivatives throws. -/
def oracle (throws : ℚ → Bool) : Oracle ℚ ℚ ℚ ℚ ℚ Unit where
  calcThrows := fun _ _ => false
  calcDiffThrows := fun _ us => throws (us 0)
  assemble := fun _ us => us 0
  interrupted := fun l _ _ => l
  primalDual := fun l => some (fun t => if t = 0 then 0 else 1 - l, fun _ => 1 - l, ())
  expImp := fun l _ _ => (2 * (1 - l), - 2 * (1 - l) * (1 - l))
  stop := fun _ _ => 1

def init : St ℚ ℚ ℚ ℚ ℚ Unit where
  xs := fun _ => 0
  us := fun _ => 0
  xsTry := fun _ => 0
  usTry := fun _ => 0
  dxs := fun _ => 0
  dus := fun _ => 0
  dual := ()
  lin := 7
  feas := false
  wasFeas := false
  cost := 0
  costTry := 0
  dV := 0
  dVexp := 0
  d0 := 0
  d1 := 0
  stop := 0
  steplength := 1
  preg := 0
  iter := 0
  recalc := false

/-- C63 fails for nonlinear dynamics: from a feasible candidate one iteration yields a candidate marked
feasible whose terminal gap is not zero. -/
theorem C63_feasibility_counterexample :
    Rollout probT (fun _ => 0) (fun _ => 0) ∧
    ∃ o, solve probT cfg (oracle fun _ => false) 1 1 (fun _ => 0) (fun _ => 0) true init = some o ∧
      o.final.feas = true ∧ o.final.us 0 = 1 ∧ ¬ Rollout probT o.final.xs o.final.us := by
  refine ⟨⟨rfl, fun t ht => by simp [probT, prob]⟩, ?_⟩
  obtain ⟨o, h1, h2⟩ := Solve.Demo.exists_of_check
    (fun o : Outcome ℚ ℚ ℚ ℚ ℚ Unit => o.final.feas && decide (o.final.us 0 = 1) &&
      decide (o.final.xs 1 ≠ o.final.xs 0 + o.final.us 0 + o.final.us 0 * o.final.us 0))
    (show (solve probT cfg (oracle fun _ => false) 1 1 (fun _ => 0) (fun _ => 0) true init).map _ =
      some true by decide +kernel)
  simp only [Bool.and_eq_true, decide_eq_true_eq] at h2
  exact ⟨o, h1, h2.1.1, h2.1.2, fun h => h2.2 (h.2 0 (by decide))⟩

/-- C64 fails after an exception: if evaluating the derivatives throws at the initial guess only, the
system of an earlier use of the solver (`lin = 7`) serves all later iterations. -/
theorem C64_stale_counterexample :
    ∃ o, solve probT cfg (oracle fun u => decide (u = 0)) 2 2 (fun _ => 0) (fun _ => 0) false init = some o ∧
      o.trace.length = 2 ∧ o.final.us 0 ≠ 0 ∧ o.final.lin = 7 := by
  obtain ⟨o, h1, h2⟩ := Solve.Demo.exists_of_check
    (fun o : Outcome ℚ ℚ ℚ ℚ ℚ Unit => decide (o.trace.length = 2) && decide (o.final.us 0 ≠ 0) &&
      decide (o.final.lin = 7))
    (show (solve probT cfg (oracle fun u => decide (u = 0)) 2 2 (fun _ => 0) (fun _ => 0) false init).map _ =
      some true by decide +kernel)
  simp only [Bool.and_eq_true, decide_eq_true_eq] at h2
  exact ⟨o, h1, h2.1.1, h2.1.2, h2.2⟩

/-- The hypotheses of `C36_terminates_partial` and `C64_fresh_partial` are met by this oracle, and by its
run of two iterations. -/
example : (∀ l, (oracle fun _ => false).primalDual l ≠ none) ∧
    (∀ xs us, (oracle fun _ => false).calcThrows xs us = false ∧
      (oracle fun _ => false).calcDiffThrows xs us = false) ∧
    (solve probT cfg (oracle fun _ => false) 1 2 (fun _ => 0) (fun _ => 0) true init).map
      (fun o => o.trace.length) = some 2 := by
  refine ⟨by simp [oracle], by simp [oracle], by decide +kernel⟩

/-- The hypotheses of `C63_affine_partial` are met by affine dynamics with a non-zero gap. -/
example : SolvesConstraints
    (P := { prob with node := fun _ => ⟨false, fun x u => (x + u, u * u / 2), fun x => (x, 0),
      fun x y => y - x, fun x d => x + d, id⟩ })
    (fun _ => LinearMap.id) (fun _ => LinearMap.id)
    (fun t => if t = 0 then 0 else 5) (fun _ => 0) (fun t => if t = 0 then 0 else -2) (fun _ => 3) := by
  refine ⟨by simp [prob], fun t ht => ?_⟩
  have : t = 0 := by simpa [prob] using ht
  subst this
  norm_num

end Demo
end Verif.Kkt
