import Verif.Props.Kkt

/-!
# Property C126 for `SolverKKT`: the result of `solve` does not depend on what the solver did before
-/

set_option linter.unusedSectionVars false

namespace Verif.Kkt
open Verif Verif.Solve

section
variable {K X DX U L M : Type}
variable [Field K] [LinearOrder K] [AddCommGroup DX] [Module K DX] [AddCommGroup U] [Module K U]
variable {P : Prob K X DX U} {c : Cfg K} {O : Oracle K X DX U L M}

/-- No evaluation of the problem and no linear solve throws. -/
structure NoThrow (O : Oracle K X DX U L M) : Prop where
  calc_ : ∀ xs us, O.calcThrows xs us = false
  calcDiff : ∀ xs us, O.calcDiffThrows xs us = false
  primalDual : ∀ l, O.primalDual l ≠ none

/-- The entries of the trial arrays that do not exist in the program agree: states after the last node, controls
of the last node and of nodes without controls (empty vectors). -/
structure SameShape (P : Prob K X DX U) (s s' : St K X DX U L M) : Prop where
  xs : ∀ t, P.T < t → s.xsTry t = s'.xsTry t
  us : ∀ t, (P.T ≤ t ∨ (P.node t).nuZero = true) → s.usTry t = s'.usTry t

/-- The trial of a step does not depend on the trial before. -/
theorem tryStep_forget (hO : NoThrow O) (a z w : K) (b : Bool) (s s' : St K X DX U L M) (hs : SameShape P s s')
    (he : { s with xsTry := s'.xsTry, usTry := s'.usTry, costTry := s'.costTry, dV := s'.dV, dVexp := w, stop := z, wasFeas := b }
      = { s' with dVexp := w, stop := z, wasFeas := b }) :
    (tryStep P O a s).1 = true ∧ (tryStep P O a s').1 = true ∧
      { (tryStep P O a s).2 with dVexp := w, stop := z, wasFeas := b }
        = { (tryStep P O a s').2 with dVexp := w, stop := z, wasFeas := b } ∧
      SameShape P (tryStep P O a s).2 (tryStep P O a s').2 ∧
      (tryStep P O a s).2.wasFeas = s.wasFeas ∧ (tryStep P O a s).2.feas = s.feas ∧
      (tryStep P O a s').2.wasFeas = s'.wasFeas ∧ (tryStep P O a s').2.feas = s'.feas := by
  obtain ⟨xs, us, xsT, usT, dxs, dus, dual, lin, feas, wf, cost, cT, dV, dVe, d0, d1, st, sl, pr, it, re⟩ := s
  obtain ⟨xs', us', xsT', usT', dxs', dus', dual', lin', feas', wf', cost', cT', dV', dVe', d0', d1', st', sl', pr',
    it', re'⟩ := s'
  simp only [St.mk.injEq] at he
  obtain ⟨rfl, rfl, -, -, rfl, rfl, rfl, rfl, rfl, -, rfl, -, -, -, rfl, rfl, -, rfl, rfl, rfl, rfl⟩ := he
  have hx : (fun t => if t < P.T then (P.node t).integ (xs t) (a • dxs t)
        else if t = P.T then P.tinteg (xs t) (a • dxs t) else xsT t)
      = (fun t => if t < P.T then (P.node t).integ (xs t) (a • dxs t)
        else if t = P.T then P.tinteg (xs t) (a • dxs t) else xsT' t) := by
    funext t
    by_cases h1 : t < P.T
    · simp only [h1, if_true]
    · by_cases h2 : t = P.T
      · simp only [h1, h2, if_true, if_false, lt_irrefl]
      · simp only [h1, h2, if_false]
        exact hs.xs t (by omega)
  have hu : (fun t => if t < P.T ∧ (P.node t).nuZero = false then us t + a • dus t else usT t)
      = (fun t => if t < P.T ∧ (P.node t).nuZero = false then us t + a • dus t else usT' t) := by
    funext t
    by_cases h1 : t < P.T ∧ (P.node t).nuZero = false
    · simp only [h1, and_self, if_true]
    · simp only [h1, if_false]
      refine hs.us t ?_
      by_cases h2 : t < P.T
      · exact .inr (by cases h3 : (P.node t).nuZero with
          | true => rfl
          | false => exact absurd ⟨h2, h3⟩ h1)
      · exact .inl (by omega)
  unfold tryStep
  simp only [hO.calc_, Bool.false_eq_true, if_false, hx, hu]
  exact ⟨trivial, trivial, trivial, ⟨fun _ _ => rfl, fun _ _ => rfl⟩, trivial, trivial, trivial, trivial⟩

/-- The line search neither reads nor writes the stopping criterion, and overwrites what earlier line searches
left, if one of its trials is evaluated. -/
theorem lineSearch_forget (hO : NoThrow O) (z : K) (as : List K) (s s' : St K X DX U L M) (hs : SameShape P s s')
    (hw : s.wasFeas = s'.wasFeas ∨ s.feas = false)
    (he : ∀ w : K, { s with xsTry := s'.xsTry, usTry := s'.usTry, costTry := s'.costTry, dV := s'.dV, dVexp := w, stop := z, wasFeas := true, steplength := w }
      = { s' with dVexp := w, stop := z, wasFeas := true, steplength := w }) (hne : as ≠ []) :
    { lineSearch P c O as s with stop := z } = { lineSearch P c O as s' with stop := z } := by
  induction as generalizing s s' with
  | nil => exact absurd rfl hne
  | cons a as ih =>
    have h1 : { ({ s with steplength := a } : St K X DX U L M) with xsTry := s'.xsTry, usTry := s'.usTry, costTry := s'.costTry, dV := s'.dV, dVexp := a, stop := z, wasFeas := true }
        = { ({ s' with steplength := a } : St K X DX U L M) with dVexp := a, stop := z, wasFeas := true } := he a
    obtain ⟨t1, t2, t3, t4, t5, t6, t7, t8⟩ := tryStep_forget hO a z a true { s with steplength := a }
      { s' with steplength := a } ⟨hs.xs, hs.us⟩ h1
    rw [lineSearch, lineSearch]
    simp only [t1, t2, if_true]
    generalize (tryStep P O a { s with steplength := a }).2 = r at *
    generalize (tryStep P O a { s' with steplength := a }).2 = r' at *
    obtain ⟨xs, us, xsT, usT, dxs, dus, dual, lin, feas, wf, cost, cT, dV, dVe, d0, d1, st, sl, pr, it, re⟩ := r
    obtain ⟨xs', us', xsT', usT', dxs', dus', dual', lin', feas', wf', cost', cT', dV', dVe', d0', d1', st', sl', pr',
      it', re'⟩ := r'
    simp only [St.mk.injEq] at t3
    obtain ⟨rfl, rfl, rfl, rfl, rfl, rfl, rfl, rfl, rfl, -, rfl, rfl, rfl, -, rfl, rfl, -, rfl, rfl, rfl, rfl⟩ := t3
    simp only at t5 t6 t7 t8
    subst t5; subst t7
    by_cases hc : d0 < c.thGrad ∨ feas = false ∨ dV > c.thAcceptstep * (a * d0 + 1 / 2 * a * a * d1)
    · simp only [hc, if_true]
    · simp only [hc, if_false]
      have hw' : s.wasFeas = s'.wasFeas := by
        rcases hw with hw | hw
        · exact hw
        · rw [← t6] at hw
          exact absurd (.inr (.inl hw)) hc
      cases as with
      | nil => simp only [lineSearch, hw']
      | cons b as =>
        refine ih _ _ ⟨t4.xs, t4.us⟩ (.inl hw') (fun w => ?_) (by simp)
        simp only

/-- The first iteration overwrites everything earlier calls left. -/
theorem iteration_forget (hO : NoThrow O) (hne : c.alphas ≠ []) (fuel : Nat) (s s' : St K X DX U L M)
    (hs : SameShape P s s') (hw : s.wasFeas = s'.wasFeas ∨ s.feas = false) (hx : s.xs = s'.xs) (hu : s.us = s'.us)
    (hf : s.feas = s'.feas) (hp : s.preg = s'.preg) (hi : s.iter = s'.iter) (hr : s.recalc = true)
    (hr' : s'.recalc = true) : iteration P c O (fuel + 1) s = iteration P c O (fuel + 1) s' := by
  obtain ⟨xs, us, xsT, usT, dxs, dus, dual, lin, feas, wf, cost, cT, dV, dVe, d0, d1, st, sl, pr, it, re⟩ := s
  obtain ⟨xs', us', xsT', usT', dxs', dus', dual', lin', feas', wf', cost', cT', dV', dVe', d0', d1', st', sl', pr',
    it', re'⟩ := s'
  simp only at hx hu hf hp hi hr hr' hw
  subst hx hu hf hp hi hr hr'
  cases hd : O.primalDual (O.assemble xs us) with
  | none => exact absurd hd (hO.primalDual _)
  | some d =>
    unfold iteration
    simp only [dirLoop, computeDirection, calcDiff, hO.calc_, hO.calcDiff, if_true, Bool.false_eq_true, if_false, hd]
    have key := lineSearch_forget (c := c) hO st c.alphas
      (⟨xs, us, xsT, usT, d.1, d.2.1, d.2.2, O.assemble xs us, feas, wf, calcCost P xs us, cT, dV, dVe,
        (O.expImp (O.assemble xs us) d.1 d.2.1).1, (O.expImp (O.assemble xs us) d.1 d.2.1).2, st, sl, pr, it, true⟩ :
        St K X DX U L M)
      ⟨xs, us, xsT', usT', d.1, d.2.1, d.2.2, O.assemble xs us, feas, wf', calcCost P xs us, cT', dV', dVe',
        (O.expImp (O.assemble xs us) d.1 d.2.1).1, (O.expImp (O.assemble xs us) d.1 d.2.1).2, st', sl', pr, it, true⟩
      ⟨hs.xs, hs.us⟩ hw (fun w => rfl) hne
    generalize lineSearch P c O c.alphas _ = l at key ⊢
    generalize lineSearch P c O c.alphas _ = l' at key ⊢
    obtain ⟨xs, us, xsT, usT, dxs, dus, dual, lin, feas, wf, cost, cT, dV, dVe, d0, d1, st, sl, pr, it, re⟩ := l
    obtain ⟨xs', us', xsT', usT', dxs', dus', dual', lin', feas', wf', cost', cT', dV', dVe', d0', d1', st', sl', pr',
      it', re'⟩ := l'
    simp only [St.mk.injEq] at key
    obtain ⟨rfl, rfl, rfl, rfl, rfl, rfl, rfl, rfl, rfl, rfl, rfl, rfl, rfl, rfl, rfl, rfl, -, rfl, rfl, rfl, rfl⟩ := key
    rfl

/-- C126 for SolverKKT: if nothing throws, two solvers with the same regularisation return the same value and end
in the same state after the same iterations, whatever they did before, provided the guess is not marked
feasible, or the flag `was_feasible_` left by the earlier solves is the same. Missing: evaluations that throw
(C64), and feasible guesses with different flags (`C126_kkt_counterexample`). -/
theorem C126_kkt_partial (hO : NoThrow O) (hne : c.alphas ≠ []) (fuel maxiter : Nat) (xs : Nat → X) (us : Nat → U)
    (feas : Bool) (s s' : St K X DX U L M) (hs : SameShape P s s') (hp : s.preg = s'.preg)
    (hw : feas = false ∨ s.wasFeas = s'.wasFeas) :
    solve P c O (fuel + 1) (maxiter + 1) xs us feas s = solve P c O (fuel + 1) (maxiter + 1) xs us feas s' := by
  unfold solve
  rw [iterLoop, iterLoop]
  have := iteration_forget (c := c) hO hne fuel (start xs us feas s) (start xs us feas s') ⟨hs.xs, hs.us⟩ hw.symm rfl
    rfl rfl hp rfl rfl rfl
  rw [this]

end

namespace ForgetDemo

/-- One node, `x' = x + u`, no running cost, terminal cost `x²`. -/
def prob (x0 : ℚ) : Prob ℚ ℚ ℚ ℚ where
  T := 1
  node := fun _ =>
    { nuZero := false
      eval := fun x u => (x + u, 0)
      evalT := fun x => (x, 0)
      diff := fun x y => y - x
      integ := fun x d => x + d
      clamp := fun u => u }
  tcost := fun x => x * x
  tdiff := fun x y => y - x
  tinteg := fun x d => x + d
  x0 := x0

/-- The KKT system of `prob` at a feasible trajectory with last state `l`, for a model that gives the terminal
gradient `2l` and the approximate Hessian `1/4`: its solution is `dx1 = du = -8l`, the expected improvement
`-2l·dx1`, `-¼dx1²`, and the stopping criterion `(¼dx1)²`. -/
def orc : Oracle ℚ ℚ ℚ ℚ ℚ Unit where
  calcThrows := fun _ _ => false
  calcDiffThrows := fun _ _ => false
  assemble := fun xs _ => xs 1
  interrupted := fun l _ _ => l
  primalDual := fun l => some (fun t => if t = 1 then -8 * l else 0, fun _ => -8 * l, ())
  expImp := fun l dx _ => (-(2 * l * dx 1), -(1/4 * dx 1 * dx 1))
  stop := fun l _ => 2 * l * (2 * l)

/-- One step length, stopping threshold 5. -/
def cfg : Cfg ℚ := ⟨[1], 1/10, 5, 1/100, 1000⟩

/-- A new solver. -/
def new : St ℚ ℚ ℚ ℚ ℚ Unit := ⟨fun _ => 0, fun _ => 0, fun _ => 0, fun _ => 0, fun _ => 0, fun _ => 0, (), 0, false,
  false, 0, 0, 0, 0, 0, 0, 0, 1, 0, 0, true⟩

/-- Non-vacuity of `C126_kkt_partial`: a solver in another state, and a guess marked infeasible. -/
example : NoThrow orc ∧ cfg.alphas ≠ [] ∧ SameShape (prob 1) new { new with lin := 7, wasFeas := true, cost := 3 } ∧
    (solve (prob 1) cfg orc 1 2 (fun _ => 1) (fun _ => 0) false new).map (fun o => (o.final.xs 1, o.trace.length))
      = some (-7, 2) := by
  refine ⟨⟨fun _ _ => rfl, fun _ _ => rfl, fun _ h => by cases h⟩, by simp [cfg], ⟨fun _ _ => rfl, fun _ _ => rfl⟩, ?_⟩
  decide +kernel

/-- C126 fails for SolverKKT: `was_feasible_` is not reset by `solve`, and is written only when a step is
accepted. A new solver rejects the only step from the feasible guess `x = 1` and returns false; the same solver,
if it has solved the problem with initial state 0 before, rejects it too and returns true. -/
theorem C126_kkt_counterexample :
    ∃ o1 o2 o2', solve (prob 0) cfg orc 1 1 (fun _ => 0) (fun _ => 0) true new = some o1 ∧ o1.ret = true ∧
      solve (prob 1) cfg orc 1 1 (fun _ => 1) (fun _ => 0) true o1.final = some o2 ∧
      solve (prob 1) cfg orc 1 1 (fun _ => 1) (fun _ => 0) true new = some o2' ∧
      o2.ret = true ∧ o2'.ret = false ∧ o2.final.xs 1 = 1 ∧ o2'.final.xs 1 = 1 := by
  have h1 : ((solve (prob 0) cfg orc 1 1 (fun _ => 0) (fun _ => 0) true new).bind fun o =>
      (solve (prob 1) cfg orc 1 1 (fun _ => 1) (fun _ => 0) true o.final).map fun o' =>
      (o.ret, o'.ret, o'.final.xs 1)) = some (true, true, 1) := by decide +kernel
  have h2 : (solve (prob 1) cfg orc 1 1 (fun _ => 1) (fun _ => 0) true new).map
      (fun o => (o.ret, o.final.xs 1)) = some (false, 1) := by decide +kernel
  obtain ⟨o1, ho1, h1⟩ := Option.bind_eq_some_iff.mp h1
  obtain ⟨o2, ho2, h1⟩ := Option.map_eq_some_iff.mp h1
  obtain ⟨o2', ho2', h2⟩ := Option.map_eq_some_iff.mp h2
  simp only [Prod.mk.injEq] at h1 h2
  exact ⟨o1, o2, o2', ho1, h1.1, ho2, ho2', h1.2.1, h2.1, h1.2.2, h2.2⟩

end ForgetDemo
end Verif.Kkt
