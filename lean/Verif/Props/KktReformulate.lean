import Verif.Props.KktSystem
import Verif.Spec.Reformulate
import Mathlib.Algebra.BigOperators.Group.Finset.Basic

/-! # C132 for the KKT solver: factors and constants of the costs -/

set_option linter.unusedSectionVars false

namespace Verif.Kkt
open Verif Verif.Solve

section
variable {K X DX U L M L' M' : Type}
variable [Field K] [LinearOrder K] [IsStrictOrderedRing K] [AddCommGroup DX] [Module K DX] [AddCommGroup U] [Module K U]

/-- The same problem with its costs multiplied by `lam` and shifted by the constants `sig t` and `sigT`. -/
structure Rescaled (lam : K) (sig : Nat → K) (sigT : K) (P P' : Prob K X DX U) : Prop where
  T : P'.T = P.T
  nuZero : ∀ t, (P'.node t).nuZero = (P.node t).nuZero
  next : ∀ t x u, ((P'.node t).eval x u).1 = ((P.node t).eval x u).1
  cost : ∀ t x u, ((P'.node t).eval x u).2 = lam * ((P.node t).eval x u).2 + sig t
  tcost : ∀ x, P'.tcost x = lam * P.tcost x + sigT
  integ : ∀ t x d, (P'.node t).integ x d = (P.node t).integ x d
  tinteg : ∀ x d, P'.tinteg x d = P.tinteg x d

/-- The KKT systems of the two descriptions correspond (`fL`): same step, corresponding multipliers (`fM`), predicted improvement
multiplied by `lam`, stopping criterion multiplied by `mu`. -/
structure RescaledOracle (lam mu : K) (fL : L → L') (fM : M → M') (O : Oracle K X DX U L M) (O' : Oracle K X DX U L' M') : Prop where
  calcThrows : ∀ xs us, O'.calcThrows xs us = O.calcThrows xs us
  calcDiffThrows : ∀ xs us, O'.calcDiffThrows xs us = O.calcDiffThrows xs us
  assemble : ∀ xs us, O'.assemble xs us = fL (O.assemble xs us)
  interrupted : ∀ l xs us, O'.interrupted (fL l) xs us = fL (O.interrupted l xs us)
  primalDual : ∀ l, O'.primalDual (fL l) = (O.primalDual l).map fun d => (d.1, d.2.1, fM d.2.2)
  expImp : ∀ l dxs dus, O'.expImp (fL l) dxs dus = (lam * (O.expImp l dxs dus).1, lam * (O.expImp l dxs dus).2)
  stop : ∀ l m, O'.stop (fL l) (fM m) = mu * O.stop l m

/-- The state of the solver in the new description; `k` is the sum of the constants. -/
def St.rescale (lam mu k : K) (fL : L → L') (fM : M → M') (s : St K X DX U L M) : St K X DX U L' M' where
  xs := s.xs
  us := s.us
  xsTry := s.xsTry
  usTry := s.usTry
  dxs := s.dxs
  dus := s.dus
  dual := fM s.dual
  lin := fL s.lin
  feas := s.feas
  wasFeas := s.wasFeas
  cost := lam * s.cost + k
  costTry := lam * s.costTry + k
  dV := lam * s.dV
  dVexp := lam * s.dVexp
  d0 := lam * s.d0
  d1 := lam * s.d1
  stop := mu * s.stop
  steplength := s.steplength
  preg := s.preg
  iter := s.iter
  recalc := s.recalc

/-- Gradient threshold multiplied by the factor of the costs, stopping threshold by the one of the criterion. -/
def Cfg.rescale (lam mu : K) (c : Cfg K) : Cfg K := { c with thStop := mu * c.thStop, thGrad := lam * c.thGrad }

variable {lam mu : K} {sig : Nat → K} {sigT : K} {P P' : Prob K X DX U} {c : Cfg K} {fL : L → L'} {fM : M → M'}
  {O : Oracle K X DX U L M} {O' : Oracle K X DX U L' M'}

/-- The sum of the constants. -/
def constants (sig : Nat → K) (sigT : K) (T : Nat) : K := sumTo sig T + sigT

theorem sumTo_rescale (f : Nat → K) (T : Nat) : sumTo (fun t => lam * f t + sig t) T = lam * sumTo f T + sumTo sig T := by
  induction T with
  | zero => simp [sumTo]
  | succ T ih => simp only [sumTo, ih]; ring

theorem calcCost_rescale (hP : Rescaled lam sig sigT P P') (xs : Nat → X) (us : Nat → U) :
    calcCost P' xs us = lam * calcCost P xs us + constants sig sigT P.T := by
  unfold calcCost constants
  simp only [hP.T, hP.cost, hP.tcost, sumTo_rescale]
  ring

theorem calcDiff_rescale (hP : Rescaled lam sig sigT P P') (hO : RescaledOracle lam mu fL fM O O') (s : St K X DX U L M) :
    calcDiff P' O' (s.rescale lam mu (constants sig sigT P.T) fL fM) =
      ((calcDiff P O s).1, (calcDiff P O s).2.rescale lam mu (constants sig sigT P.T) fL fM) := by
  unfold calcDiff
  simp only [St.rescale, hO.calcThrows, hO.calcDiffThrows, hO.assemble, hO.interrupted, calcCost_rescale hP]
  split_ifs <;> rfl

theorem computeDirection_rescale (hP : Rescaled lam sig sigT P P') (hO : RescaledOracle lam mu fL fM O O') (s : St K X DX U L M) :
    computeDirection P' O' (s.rescale lam mu (constants sig sigT P.T) fL fM) =
      ((computeDirection P O s).1, (computeDirection P O s).2.rescale lam mu (constants sig sigT P.T) fL fM) := by
  have key : ∀ r : Bool × St K X DX U L M,
      (if r.1 then
        match O'.primalDual (r.2.rescale lam mu (constants sig sigT P.T) fL fM).lin with
        | none => (false, r.2.rescale lam mu (constants sig sigT P.T) fL fM)
        | some d => (true, { r.2.rescale lam mu (constants sig sigT P.T) fL fM with dxs := d.1, dus := d.2.1, dual := d.2.2 })
      else (false, r.2.rescale lam mu (constants sig sigT P.T) fL fM)) =
      (fun q : Bool × St K X DX U L M => (q.1, q.2.rescale lam mu (constants sig sigT P.T) fL fM))
      (if r.1 then
        match O.primalDual r.2.lin with
        | none => (false, r.2)
        | some d => (true, { r.2 with dxs := d.1, dus := d.2.1, dual := d.2.2 })
      else (false, r.2)) := by
    intro r
    have h : (r.2.rescale lam mu (constants sig sigT P.T) fL fM).lin = fL r.2.lin := rfl
    rw [h, hO.primalDual]
    cases r.1
    · rfl
    · cases O.primalDual r.2.lin <;> rfl
  unfold computeDirection
  have hr : (s.rescale lam mu (constants sig sigT P.T) fL fM).recalc = s.recalc := rfl
  simp only [hr]
  cases s.recalc
  · exact key (true, s)
  · simp only [if_true, calcDiff_rescale hP hO]
    exact key (calcDiff P O s)

theorem dirLoop_rescale (hP : Rescaled lam sig sigT P P') (hO : RescaledOracle lam mu fL fM O O') (fuel : Nat) (s : St K X DX U L M) :
    dirLoop P' (c.rescale lam mu) O' fuel (s.rescale lam mu (constants sig sigT P.T) fL fM) =
      (dirLoop P c O fuel s).map fun r => (r.1, r.2.rescale lam mu (constants sig sigT P.T) fL fM) := by
  induction fuel generalizing s with
  | zero => rfl
  | succ fuel ih =>
    unfold dirLoop
    simp only [computeDirection_rescale hP hO]
    obtain ⟨b, s2⟩ := computeDirection P O s
    cases b
    · simp only [Bool.false_eq_true, if_false]
      show (if s2.preg = c.regMax then
          some (false, ({ s2 with recalc := false } : St K X DX U L M).rescale lam mu (constants sig sigT P.T) fL fM)
        else dirLoop P' (c.rescale lam mu) O' fuel
          (({ s2 with recalc := false } : St K X DX U L M).rescale lam mu (constants sig sigT P.T) fL fM)) = _
      by_cases h : s2.preg = c.regMax
      · simp [h]
      · simp only [h, if_false]
        exact ih _
    · rfl

theorem tryStep_rescale (hP : Rescaled lam sig sigT P P') (hO : RescaledOracle lam mu fL fM O O') (a : K) (s : St K X DX U L M) :
    tryStep P' O' a (s.rescale lam mu (constants sig sigT P.T) fL fM) =
      ((tryStep P O a s).1, (tryStep P O a s).2.rescale lam mu (constants sig sigT P.T) fL fM) := by
  unfold tryStep
  simp only [St.rescale, hP.T, hP.nuZero, hP.integ, hP.tinteg, hO.calcThrows, calcCost_rescale hP]
  split_ifs
  · rfl
  · simp only [Prod.mk.injEq, true_and]
    congr 1
    ring

theorem lineSearch_rescale (hl : 0 < lam) (hP : Rescaled lam sig sigT P P') (hO : RescaledOracle lam mu fL fM O O') (as : List K)
    (s : St K X DX U L M) :
    lineSearch P' (c.rescale lam mu) O' as (s.rescale lam mu (constants sig sigT P.T) fL fM) =
      (lineSearch P c O as s).rescale lam mu (constants sig sigT P.T) fL fM := by
  induction as generalizing s with
  | nil => rfl
  | cons a as ih =>
    unfold lineSearch
    have e : ({ s.rescale lam mu (constants sig sigT P.T) fL fM with steplength := a } : St K X DX U L' M') =
        ({ s with steplength := a } : St K X DX U L M).rescale lam mu (constants sig sigT P.T) fL fM := rfl
    rw [e, tryStep_rescale hP hO]
    obtain ⟨b, s2⟩ := tryStep P O a { s with steplength := a }
    cases b
    · simp only [Bool.false_eq_true, if_false]
      exact ih s2
    · simp only [if_true]
      have e1 : ({ s2.rescale lam mu (constants sig sigT P.T) fL fM with
          dVexp := a * (s2.rescale lam mu (constants sig sigT P.T) fL fM).d0 +
            (1 / 2) * a * a * (s2.rescale lam mu (constants sig sigT P.T) fL fM).d1 } : St K X DX U L' M') =
          ({ s2 with dVexp := a * s2.d0 + (1 / 2) * a * a * s2.d1 } : St K X DX U L M).rescale lam mu (constants sig sigT P.T) fL fM := by
        simp only [St.rescale]
        congr 1
        ring
      suffices key : ∀ v : St K X DX U L M,
          (if (v.rescale lam mu (constants sig sigT P.T) fL fM).d0 < (c.rescale lam mu).thGrad ∨
              (v.rescale lam mu (constants sig sigT P.T) fL fM).feas = false ∨
              (v.rescale lam mu (constants sig sigT P.T) fL fM).dV >
                (c.rescale lam mu).thAcceptstep * (v.rescale lam mu (constants sig sigT P.T) fL fM).dVexp then
            ({ v with wasFeas := v.feas, xs := v.xsTry, us := v.usTry, feas := true, cost := v.costTry } : St K X DX U L M).rescale
              lam mu (constants sig sigT P.T) fL fM
          else lineSearch P' (c.rescale lam mu) O' as (v.rescale lam mu (constants sig sigT P.T) fL fM)) =
          (if v.d0 < c.thGrad ∨ v.feas = false ∨ v.dV > c.thAcceptstep * v.dVexp then
            { v with wasFeas := v.feas, xs := v.xsTry, us := v.usTry, feas := true, cost := v.costTry }
          else lineSearch P c O as v).rescale lam mu (constants sig sigT P.T) fL fM by
        refine Eq.trans ?_ (key { s2 with dVexp := a * s2.d0 + (1 / 2) * a * a * s2.d1 })
        rw [← e1]
        congr 1
        rw [show ({ ({ s2 with dVexp := a * s2.d0 + (1 / 2) * a * a * s2.d1 } : St K X DX U L M) with
            wasFeas := s2.feas, xs := s2.xsTry, us := s2.usTry, feas := true, cost := s2.costTry } : St K X DX U L M).rescale
              lam mu (constants sig sigT P.T) fL fM =
            { ({ s2 with dVexp := a * s2.d0 + (1 / 2) * a * a * s2.d1 } : St K X DX U L M).rescale lam mu (constants sig sigT P.T) fL fM with
              wasFeas := s2.feas, xs := s2.xsTry, us := s2.usTry, feas := true,
              cost := lam * s2.costTry + constants sig sigT P.T } from rfl, ← e1]
        rfl
      intro v
      have i1 : (v.rescale lam mu (constants sig sigT P.T) fL fM).d0 < (c.rescale lam mu).thGrad ↔ v.d0 < c.thGrad :=
        mul_lt_mul_iff_right₀ hl
      have i2 : (v.rescale lam mu (constants sig sigT P.T) fL fM).dV >
          (c.rescale lam mu).thAcceptstep * (v.rescale lam mu (constants sig sigT P.T) fL fM).dVexp ↔
          v.dV > c.thAcceptstep * v.dVexp := by
        show c.thAcceptstep * (lam * v.dVexp) < lam * v.dV ↔ _
        rw [mul_left_comm]
        exact mul_lt_mul_iff_right₀ hl
      have i3 : (v.rescale lam mu (constants sig sigT P.T) fL fM).feas = v.feas := rfl
      by_cases h : v.d0 < c.thGrad ∨ v.feas = false ∨ v.dV > c.thAcceptstep * v.dVexp
      · rw [if_pos h, if_pos (by rw [i1, i2, i3]; exact h)]
      · rw [if_neg h, if_neg (by rw [i1, i2, i3]; exact h)]
        exact ih v

theorem iteration_rescale (hl : 0 < lam) (hmu : 0 < mu) (hP : Rescaled lam sig sigT P P') (hO : RescaledOracle lam mu fL fM O O')
    (fuel : Nat) (s : St K X DX U L M) :
    iteration P' (c.rescale lam mu) O' fuel (s.rescale lam mu (constants sig sigT P.T) fL fM) =
      (iteration P c O fuel s).map fun r => (r.1, r.2.rescale lam mu (constants sig sigT P.T) fL fM) := by
  unfold iteration
  rw [dirLoop_rescale hP hO]
  cases dirLoop P c O fuel s with
  | none => rfl
  | some r =>
    obtain ⟨b, s2⟩ := r
    cases b
    · rfl
    · simp only [Option.map_some]
      have e : ({ s2.rescale lam mu (constants sig sigT P.T) fL fM with
          d0 := (O'.expImp (s2.rescale lam mu (constants sig sigT P.T) fL fM).lin (s2.rescale lam mu (constants sig sigT P.T) fL fM).dxs
            (s2.rescale lam mu (constants sig sigT P.T) fL fM).dus).1
          d1 := (O'.expImp (s2.rescale lam mu (constants sig sigT P.T) fL fM).lin (s2.rescale lam mu (constants sig sigT P.T) fL fM).dxs
            (s2.rescale lam mu (constants sig sigT P.T) fL fM).dus).2 } : St K X DX U L' M') =
          ({ s2 with d0 := (O.expImp s2.lin s2.dxs s2.dus).1, d1 := (O.expImp s2.lin s2.dxs s2.dus).2 } : St K X DX U L M).rescale
            lam mu (constants sig sigT P.T) fL fM := by
        simp only [St.rescale, hO.expImp]
      have ha : (c.rescale lam mu).alphas = c.alphas := rfl
      rw [e, ha, lineSearch_rescale hl hP hO]
      generalize lineSearch P c O c.alphas _ = v
      have e2 : ({ v.rescale lam mu (constants sig sigT P.T) fL fM with
          stop := O'.stop (v.rescale lam mu (constants sig sigT P.T) fL fM).lin (v.rescale lam mu (constants sig sigT P.T) fL fM).dual }
            : St K X DX U L' M') =
          ({ v with stop := O.stop v.lin v.dual } : St K X DX U L M).rescale lam mu (constants sig sigT P.T) fL fM := by
        simp only [St.rescale, hO.stop]
      have hst : O'.stop (v.rescale lam mu (constants sig sigT P.T) fL fM).lin (v.rescale lam mu (constants sig sigT P.T) fL fM).dual <
          (c.rescale lam mu).thStop ↔ O.stop v.lin v.dual < c.thStop := by
        show O'.stop (fL v.lin) (fM v.dual) < mu * c.thStop ↔ _
        rw [hO.stop]
        exact mul_lt_mul_iff_right₀ hmu
      by_cases h : v.wasFeas = true ∧ O.stop v.lin v.dual < c.thStop
      · rw [if_pos h, if_pos ⟨h.1, hst.mpr h.2⟩, e2]
        rfl
      · rw [if_neg h, if_neg (fun h' => h ⟨h'.1, hst.mp h'.2⟩), e2]
        rfl

theorem iterLoop_rescale (hl : 0 < lam) (hmu : 0 < mu) (hP : Rescaled lam sig sigT P P') (hO : RescaledOracle lam mu fL fM O O')
    (fuel n : Nat) (s : St K X DX U L M) :
    iterLoop P' (c.rescale lam mu) O' fuel n (s.rescale lam mu (constants sig sigT P.T) fL fM) =
      (iterLoop P c O fuel n s).map fun o => ⟨o.ret, o.final.rescale lam mu (constants sig sigT P.T) fL fM,
        o.trace.map fun s => s.rescale lam mu (constants sig sigT P.T) fL fM⟩ := by
  induction n generalizing s with
  | zero => rfl
  | succ n ih =>
    unfold iterLoop
    rw [iteration_rescale hl hmu hP hO]
    cases iteration P c O fuel s with
    | none => rfl
    | some r =>
      obtain ⟨e, s2⟩ := r
      cases e
      all_goals try rfl
      simp only [Option.map_some]
      have e : ({ s2.rescale lam mu (constants sig sigT P.T) fL fM with
          iter := (s2.rescale lam mu (constants sig sigT P.T) fL fM).iter + 1 } : St K X DX U L' M') =
          ({ s2 with iter := s2.iter + 1 } : St K X DX U L M).rescale lam mu (constants sig sigT P.T) fL fM := rfl
      rw [e, ih]
      cases iterLoop P c O fuel n { s2 with iter := s2.iter + 1 } <;> rfl

/-- C132 for the KKT solver. If the KKT systems correspond, so do the runs: with the gradient threshold multiplied by the factor of the
costs and the stopping threshold by the one of the criterion, `solve` returns the same value with the same trajectory after the same
number of iterations, and its cost corresponds. -/
theorem C132_kkt (hl : 0 < lam) (hmu : 0 < mu) (hP : Rescaled lam sig sigT P P') (hO : RescaledOracle lam mu fL fM O O')
    (fuel maxiter : Nat) (xs : Nat → X) (us : Nat → U) (feas : Bool) (s : St K X DX U L M) {o : Outcome K X DX U L M}
    (hr : solve P c O fuel maxiter xs us feas s = some o) :
    ∃ o', solve P' (c.rescale lam mu) O' fuel maxiter xs us feas
        (s.rescale lam mu ((∑ t ∈ Finset.range P.T, sig t) + sigT) fL fM) = some o' ∧
      o'.ret = o.ret ∧ o'.final.xs = o.final.xs ∧ o'.final.us = o.final.us ∧ o'.final.feas = o.final.feas ∧
      o'.final.cost = lam * o.final.cost + ((∑ t ∈ Finset.range P.T, sig t) + sigT) ∧ o'.final.stop = mu * o.final.stop ∧
      o'.final.iter = o.final.iter ∧ o'.trace.length = o.trace.length := by
  have hs : ∀ T, sumTo sig T = ∑ t ∈ Finset.range T, sig t := by
    intro T
    induction T with
    | zero => rfl
    | succ T ih => rw [Finset.sum_range_succ, ← ih]; rfl
  have hk : constants sig sigT P.T = (∑ t ∈ Finset.range P.T, sig t) + sigT := by unfold constants; rw [hs]
  unfold solve at hr ⊢
  have h := iterLoop_rescale (c := c) hl hmu hP hO fuel maxiter (start xs us feas s)
  rw [hr, hk] at h
  exact ⟨_, h, rfl, rfl, rfl, rfl, rfl, rfl, rfl, List.length_map _⟩

/-- C132 for the KKT solver: constants added to the costs change nothing but the cost, by their sum, whatever the linear solver and the
derivatives are, whether or not evaluations throw. -/
theorem C132_constants_kkt (hP : Rescaled 1 sig sigT P P') (O : Oracle K X DX U L M) (fuel maxiter : Nat) (xs : Nat → X) (us : Nat → U)
    (feas : Bool) (s : St K X DX U L M) {o : Outcome K X DX U L M} (hr : solve P c O fuel maxiter xs us feas s = some o) :
    ∃ o', solve P' c O fuel maxiter xs us feas
        { s with
          cost := s.cost + ((∑ t ∈ Finset.range P.T, sig t) + sigT)
          costTry := s.costTry + ((∑ t ∈ Finset.range P.T, sig t) + sigT) } = some o' ∧
      o'.ret = o.ret ∧ o'.final.xs = o.final.xs ∧ o'.final.us = o.final.us ∧ o'.final.feas = o.final.feas ∧
      o'.final.cost = o.final.cost + ((∑ t ∈ Finset.range P.T, sig t) + sigT) ∧ o'.final.stop = o.final.stop ∧
      o'.final.iter = o.final.iter ∧ o'.trace.length = o.trace.length := by
  have hO : RescaledOracle (1 : K) 1 id id O O :=
    ⟨fun _ _ => rfl, fun _ _ => rfl, fun _ _ => rfl, fun _ _ _ => rfl, fun l => by cases h : O.primalDual l <;> simp [h],
      fun _ _ _ => by simp, fun _ _ => by simp⟩
  obtain ⟨o', r1, r2, r3, r4, r5, r6, r7, r8, r9⟩ := C132_kkt (c := c) one_pos one_pos hP hO fuel maxiter xs us feas s hr
  have hc : c.rescale 1 1 = c := by simp [Cfg.rescale]
  have hs : s.rescale 1 1 ((∑ t ∈ Finset.range P.T, sig t) + sigT) id id = { s with
      cost := s.cost + ((∑ t ∈ Finset.range P.T, sig t) + sigT)
      costTry := s.costTry + ((∑ t ∈ Finset.range P.T, sig t) + sigT) } := by
    simp [St.rescale]
  rw [hc, hs] at r1
  rw [one_mul] at r6 r7
  exact ⟨o', r1, r2, r3, r4, r5, r6, r7, r8, r9⟩

end

/-- The hypotheses of `C132_constants_kkt` are met: `SysDemo.prob` from a guess with gaps, and with `3` added to the cost of its two
nodes and `5` to the terminal cost. -/
example (s : LqSt ℚ 1 1) : ∃ lu, LuSound lu ∧ ∃ o o',
    solve SysDemo.prob.toProb ⟨[1, 1 / 2], 1 / 10, 1 / 10 ^ 9, 1 / 10 ^ 12, 10 ^ 9⟩ (lqOracle SysDemo.prob lu (fun _ _ => []) fun _ => 0)
      1 2 SysDemo.xs SysDemo.us false s = some o ∧
    solve { SysDemo.prob.toProb with
        node := fun t => { SysDemo.prob.toProb.node t with
          eval := fun x u => (((SysDemo.prob.toProb.node t).eval x u).1, ((SysDemo.prob.toProb.node t).eval x u).2 + 3) }
        tcost := fun x => SysDemo.prob.toProb.tcost x + 5 }
      ⟨[1, 1 / 2], 1 / 10, 1 / 10 ^ 9, 1 / 10 ^ 12, 10 ^ 9⟩ (lqOracle SysDemo.prob lu (fun _ _ => []) fun _ => 0)
      1 2 SysDemo.xs SysDemo.us false
      { s with
        cost := s.cost + ((∑ t ∈ Finset.range SysDemo.prob.toProb.T, (3 : ℚ)) + 5)
        costTry := s.costTry + ((∑ t ∈ Finset.range SysDemo.prob.toProb.T, (3 : ℚ)) + 5) } = some o' ∧
    o'.ret = true ∧ o'.final.us = o.final.us ∧ o'.final.cost = o.final.cost + 11 := by
  obtain ⟨lu, hlu⟩ := exists_luSound (K := ℚ)
  obtain ⟨o, h1, h2, -⟩ := C115_solve_lq (P := SysDemo.prob) (lu := lu) (hist := fun _ _ => []) (dF := fun _ => 0)
    (c := ⟨[1, 1 / 2], 1 / 10, 1 / 10 ^ 9, 1 / 10 ^ 12, 10 ^ 9⟩) SysDemo.convex (by decide) hlu rfl (by norm_num) (by norm_num)
    (by norm_num) 0 0 s SysDemo.xs SysDemo.us false (by simp)
  obtain ⟨o', r1, r2, -, r4, -, r6, -⟩ := C132_constants_kkt (P := SysDemo.prob.toProb) (sig := fun _ => 3) (sigT := 5)
    (P' := { SysDemo.prob.toProb with
        node := fun t => { SysDemo.prob.toProb.node t with
          eval := fun x u => (((SysDemo.prob.toProb.node t).eval x u).1, ((SysDemo.prob.toProb.node t).eval x u).2 + 3) }
        tcost := fun x => SysDemo.prob.toProb.tcost x + 5 })
    ⟨rfl, fun _ => rfl, fun _ _ _ => rfl, fun _ _ _ => by simp, fun _ => by simp, fun _ _ _ => rfl, fun _ _ => rfl⟩ _ 1 2 _ _ false s h1
  refine ⟨lu, hlu, o, o', h1, r1, r2.trans h2, r4, ?_⟩
  have hT : SysDemo.prob.toProb.T = 2 := rfl
  rw [r6, hT]
  norm_num

end Verif.Kkt
