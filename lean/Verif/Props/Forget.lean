import Verif.Lemmas.ForgetIntro
import Verif.Model.Nl
import Verif.Props.Nl
import Verif.Props.BoxQp

set_option linter.unusedSectionVars false

/-!
# Property C126: the result of `solve` does not depend on what the solver did before
-/

namespace Verif.Solve
open Verif Verif.Solver

section
variable {K X DX U L D : Type}
variable [Field K] [LinearOrder K] [AddCommGroup DX] [Module K DX] [AddCommGroup U] [Module K U]
variable {P : Prob K X DX U} {c : Cfg K} {O : Oracle K X DX U L D} {kind : Kind} {R : D → D → Prop}

/-- C126. Two solver objects with the same parameters, whatever they computed before (`s` and `s'` are
arbitrary: new solvers, solvers used on other problems, solvers left by an exception), solve the same problem
from the same guess: if one returns, so does the other, with the same value, candidate, cost, gaps,
regularisation and number of iterations, and the callbacks see the same iterations. Partial: the backward pass
must not use what earlier solves left behind (BoxDDP and BoxFDDP with control limits do, see the
counterexample), at least one iteration is allowed, and nothing is said of the stopping criterion of iterations
before the first accepted step from a feasible candidate (see the counterexample). -/
theorem C126_solve_partial (hO : ReadsFresh P O kind R) (hne : c.alphas ≠ []) (fuel : Nat) {maxiter : Nat}
    (hm : maxiter ≠ 0) (xs : Nat → X) (us : Nat → U) (feas : Bool) (regInit : Option K)
    (s s' : St K X DX U L D) {o : Outcome K X DX U L D}
    (hr : solve P c O kind fuel maxiter xs us feas regInit s = some o) :
    ∃ o', solve P c O kind fuel maxiter xs us feas regInit s' = some o' ∧ o'.ret = o.ret ∧
      SameResult P o.final o'.final ∧ List.Forall₂ (SameSeen P) o.trace o'.trace :=
  iterLoop_same hO hne fuel maxiter (.inl (start_in P c xs us feas regInit s s')) (.inl hm) hr

/-- C126. Without an iteration the candidate is the guess, for every solver. -/
theorem C126_no_iteration (fuel : Nat) (xs : Nat → X) (us : Nat → U) (feas : Bool) (regInit : Option K)
    (s : St K X DX U L D) :
    ∃ o, solve P c O kind fuel 0 xs us feas regInit s = some o ∧ o.ret = false ∧ o.final.xs = xs ∧
      o.final.us = us ∧ o.final.feas = feas ∧ o.final.cost = s.cost ∧ o.trace = [] :=
  ⟨_, rfl, rfl, rfl, rfl, rfl, rfl, rfl⟩

end
end Verif.Solve

namespace Verif.Nl
open Verif Verif.Solve Verif.Solver Verif.Lq Matrix

variable {n m : Nat}

/-- The arrays of the backward pass agree at the nodes of the problem. -/
structure SameArrays (T : Nat) (g g' : Arrays ℝ n (fun _ => m)) : Prop where
  V : ∀ t ≤ T, g.V t = g'.V t
  out : ∀ t < T, g.out t = g'.out t

theorem backLoop_same (llt : ∀ m, Matrix (Fin m) (Fin m) ℝ → Bool) (preg : Option ℝ) (feas : Bool)
    (d : ∀ _ : Nat, Derivs ℝ n m) {T : Nat} {f f' : Nat → Fin n → ℝ} (hf : ∀ t ≤ T, f t = f' t) (t : Nat) (ht : t ≤ T)
    (g g' : Arrays ℝ n (fun _ => m)) (hV : ∀ i, t ≤ i → i ≤ T → g.V i = g'.V i)
    (ho : ∀ i, t ≤ i → i < T → g.out i = g'.out i) :
    (backLoop llt preg feas d f t g = none ∧ backLoop llt preg feas d f' t g' = none) ∨
    ∃ y y', backLoop llt preg feas d f t g = some y ∧ backLoop llt preg feas d f' t g' = some y' ∧
      SameArrays T y y' := by
  induction t generalizing g g' with
  | zero => exact .inr ⟨g, g', rfl, rfl, fun t h => hV t (Nat.zero_le _) h, fun t h => ho t (Nat.zero_le _) h⟩
  | succ t ih =>
    unfold backLoop
    rw [← hV (t + 1) le_rfl ht, ← hf t (by omega)]
    cases hb : backNode llt preg feas (d t) (g.V (t + 1)) (f t) with
    | none => exact .inl ⟨rfl, rfl⟩
    | some o =>
      refine ih (by omega) _ _ (fun i hi hT => ?_) (fun i hi hT => ?_)
      · by_cases e : i = t
        · subst e; simp
        · simp only [Function.update_of_ne e]; exact hV i (by omega) hT
      · by_cases e : i = t
        · subst e; simp
        · simp only [Function.update_of_ne e]; exact ho i (by omega) hT

theorem backwardPass_same (llt : ∀ m, Matrix (Fin m) (Fin m) ℝ → Bool) (preg : Option ℝ) (feas : Bool)
    (d : ∀ _ : Nat, Derivs ℝ n m) (LxT : Fin n → ℝ) (LxxT : Matrix (Fin n) (Fin n) ℝ) {T : Nat}
    {f f' : Nat → Fin n → ℝ} (hf : ∀ t ≤ T, f t = f' t) (g g' : Arrays ℝ n (fun _ => m)) :
    (backwardPass llt preg feas T d LxT LxxT f g = none ∧ backwardPass llt preg feas T d LxT LxxT f' g' = none) ∨
    ∃ y y', backwardPass llt preg feas T d LxT LxxT f g = some y ∧
      backwardPass llt preg feas T d LxT LxxT f' g' = some y' ∧ SameArrays T y y' := by
  unfold backwardPass
  rw [← hf T le_rfl]
  refine backLoop_same llt preg feas d hf T le_rfl _ _ (fun i h1 h2 => ?_) (fun i h1 h2 => by omega)
  obtain rfl := le_antisymm h1 h2
  simp

theorem sumTo_same {f f' : Nat → ℝ} (T : Nat) (h : ∀ t < T, f t = f' t) : sumTo f T = sumTo f' T := by
  induction T with
  | zero => rfl
  | succ T ih => simp only [sumTo, h T (Nat.lt_succ_self T), ih fun t ht => h t (Nat.lt_succ_of_lt ht)]

/-- The backward pass and the predicted improvement of `ddp.cpp` and `fddp.cpp` use nothing old, if the
derivatives of the problem are a function of its states and controls. -/
theorem oracle_readsFresh (P : NlProb n m) {lin : (Nat → Fin n → ℝ) → (Nat → Fin m → ℝ) → Lin ℝ n m}
    (hl : ∀ xs xs' us us', (∀ t ≤ P.T, xs t = xs' t) → (∀ t < P.T, us t = us' t) → lin xs us = lin xs' us')
    (llt : ∀ m, Matrix (Fin m) (Fin m) ℝ → Bool) (kind : Kind) :
    ReadsFresh P.toProb (oracle P lin llt kind) kind (SameArrays P.T) := by
  refine ⟨fun s s' h => ?_, fun s s' h e1 e2 e3 e4 => ?_, fun s s' _ _ h => h, fun s s' h e1 e2 e3 => ?_⟩
  · refine hl _ _ _ _ h.xs fun t ht => ?_
    by_cases hm : m = 0
    · subst hm; exact Subsingleton.elim _ _
    · exact h.us t ht (by simp [NlProb.toProb, hm])
  · have hb := backwardPass_same llt (some s.preg) s.feas s.lin.d s.lin.LxT s.lin.LxxT (T := P.T) e2 s.dir s'.dir
    have e5 : backwardPass llt (some s'.preg) s'.feas P.T s'.lin.d s'.lin.LxT s'.lin.LxxT s'.fs s'.dir =
        backwardPass llt (some s.preg) s.feas P.T s.lin.d s.lin.LxT s.lin.LxxT s'.fs s'.dir := by
      rw [← e1, ← e3, ← h.feas]
    rcases hb with ⟨h1, h2⟩ | ⟨y, y', h1, h2, hy⟩
    · simp only [oracle, e5, h1, h2]
      exact ⟨trivial, by simp⟩
    · simp only [oracle, e5, h1, h2]
      refine ⟨trivial, fun _ => ⟨fun t ht _ => ?_, fun t ht => ?_, hy⟩⟩
      · rw [hy.out t ht]
      · rw [hy.out t ht]
  · have e1 : ∀ t ≤ P.T, s.fs t = s'.fs t := e1
    have hx : ∀ t ≤ P.T, s.xs t = s'.xs t := h.xs
    have hg : ∀ feas, updateExpectedImprovement P.T feas s.fs s.dir = updateExpectedImprovement P.T feas s'.fs s'.dir := by
      intro feas
      unfold updateExpectedImprovement
      rw [sumTo_same P.T (fun t ht => by rw [e2.out t ht]),
        sumTo_same (f := fun t => (s.dir.out t).k ⬝ᵥ ((s.dir.out t).Q.Quu *ᵥ (s.dir.out t).k)) P.T
          (fun t ht => by rw [e2.out t ht]),
        sumTo_same (f := fun t => (s.dir.V t).Vx ⬝ᵥ s.fs t) (P.T + 1)
          (fun t ht => by rw [e2.V t (by omega), e1 t (by omega)]),
        sumTo_same (f := fun t => s.fs t ⬝ᵥ ((s.dir.V t).Vxx *ᵥ s.fs t)) (P.T + 1)
          (fun t ht => by rw [e2.V t (by omega), e1 t (by omega)])]
    simp only [oracle]
    cases hk : kind.feasibilityDriven with
    | false =>
      simp only [Bool.false_eq_true, if_false]
      exact hg true
    | true =>
      simp only [if_true]
      unfold expectedImprovementFddp
      rw [hg s.feas, h.feas, sumTo_same (f := fun t => s.fs t ⬝ᵥ ((s.dir.V t).Vxx *ᵥ (s.xs t - s.xsTry t))) (P.T + 1)
        (fun t ht => by rw [e2.V t (by omega), e1 t (by omega), hx t (by omega), show s.xsTry t = s'.xsTry t from e3 hk t (show t ≤ P.T by omega)])]

/-- C126, for the solvers as they are: DDP and FDDP on every nonlinear problem (and BoxDDP, BoxFDDP on problems
without control limits) return the same result from the same guess, whatever the solver object was used for
before. -/
theorem C126_nonlinear (P : NlProb n m) {lin : (Nat → Fin n → ℝ) → (Nat → Fin m → ℝ) → Lin ℝ n m}
    (hl : ∀ xs xs' us us', (∀ t ≤ P.T, xs t = xs' t) → (∀ t < P.T, us t = us' t) → lin xs us = lin xs' us')
    (llt : ∀ m, Matrix (Fin m) (Fin m) ℝ → Bool) (kind : Kind) {c : Cfg ℝ} (hne : c.alphas ≠ []) (fuel : Nat)
    {maxiter : Nat} (hm : maxiter ≠ 0) (xs : Nat → Fin n → ℝ) (us : Nat → Fin m → ℝ) (feas : Bool)
    (regInit : Option ℝ) (s s' : NlSt n m)
    {o : Outcome ℝ (Fin n → ℝ) (Fin n → ℝ) (Fin m → ℝ) (Lin ℝ n m) (Arrays ℝ n (fun _ => m))}
    (hr : solve P.toProb c (oracle P lin llt kind) kind fuel maxiter xs us feas regInit s = some o) :
    ∃ o', solve P.toProb c (oracle P lin llt kind) kind fuel maxiter xs us feas regInit s' = some o' ∧
      o'.ret = o.ret ∧ (∀ t ≤ P.T, o'.final.xs t = o.final.xs t) ∧ (∀ t < P.T, o'.final.us t = o.final.us t) ∧
      o'.final.feas = o.final.feas ∧ o'.final.cost = o.final.cost ∧ o'.trace.length = o.trace.length := by
  obtain ⟨o', h1, h2, h3, h4⟩ := C126_solve_partial (oracle_readsFresh P hl llt kind) hne fuel hm xs us feas regInit
    s s' hr
  refine ⟨o', h1, h2, fun t ht => (h3.xs t ht).symm, fun t ht => ?_, h3.feas.symm, h3.cost.symm, h4.length_eq.symm⟩
  by_cases hm : m = 0
  · subst hm; exact Subsingleton.elim _ _
  · exact (h3.us t ht (by simp [NlProb.toProb, hm])).symm

end Verif.Nl

namespace Verif.Solve.ForgetDemo
open Verif Verif.Solve Verif.Solver

/-- One node `x' = x + u` without cost, terminal cost `x²`. -/
def prob (x0 : ℚ) : Prob ℚ ℚ ℚ ℚ where
  T := 1
  node := fun _ =>
    { nuZero := false, eval := fun x u => (x + u, 0), evalT := fun x => (x, 0), diff := fun x y => y - x,
      integ := fun x d => x + d, clamp := fun u => u }
  tcost := fun x => x * x
  tdiff := fun x y => y - x
  tinteg := fun x d => x + d
  x0 := x0

/-- The Newton direction of this problem; states above 100 overflow. -/
def orc : Oracle ℚ ℚ ℚ ℚ Unit Unit where
  linearise := fun _ => ()
  backward := fun s => (true, fun _ => s.xs 1, fun _ _ => 0, ())
  updExp := fun _ => ()
  expImp := fun s => (2 * s.xs 1 * s.xs 1, - (2 * s.xs 1 * s.xs 1))
  bad := fun _ => false
  badX := fun x => decide (100 < x)

def cfg : Cfg ℚ where
  alphas := [1, 1 / 2]
  thAcceptstep := 1 / 10
  thAcceptnegstep := 2
  thStop := 1 / 10 ^ 9
  thGrad := 1 / 10 ^ 12
  thStepdec := 1 / 2
  thStepinc := 1 / 100
  reg := { min := 1 / 10 ^ 9, max := 10 ^ 9, inc := 10, dec := 10 }

/-- A new solver. -/
def new : St ℚ ℚ ℚ ℚ Unit Unit where
  xs := fun _ => 0
  us := fun _ => 0
  xsTry := fun _ => 0
  usTry := fun _ => 0
  datas := fun _ => (0, 0)
  tdata := 0
  fs := fun _ => 0
  k := fun _ => 0
  gain := fun _ _ => 0
  lin := ()
  dir := ()
  feas := false
  wasFeas := false
  cost := 0
  costTry := 0
  dV := 0
  dVexp := 0
  d0 := 0
  d1 := 0
  stop := 0
  steplength := 1
  preg := 0
  dreg := 0
  iter := 0
  xnext := 0
  recalc := true

theorem orc_fresh (x0 : ℚ) (kind : Kind) : ReadsFresh (prob x0) orc kind (fun _ _ => True) := by
  refine ⟨fun _ _ _ => rfl, fun s s' h _ _ _ _ => ⟨rfl, fun _ => ⟨fun _ _ _ => ?_, fun _ _ => rfl, trivial⟩⟩,
    fun _ _ _ _ _ => trivial, fun s s' h _ _ _ => ?_⟩
  · exact h.xs 1 le_rfl
  · have : s.xs 1 = s'.xs 1 := h.xs 1 le_rfl
    simp only [orc, this]

/-- Non-vacuity of C126: FDDP solves the problem in two iterations; so does a solver in any other state. -/
example (s' : St ℚ ℚ ℚ ℚ Unit Unit) :
    ∃ o o', solve (prob 4) cfg orc .fddp 1 100 (fun _ => 4) (fun _ => 0) true none new = some o ∧
      solve (prob 4) cfg orc .fddp 1 100 (fun _ => 4) (fun _ => 0) true none s' = some o' ∧
      o'.ret = true ∧ o'.final.cost = 0 ∧ o'.final.us 0 = -4 ∧ o'.trace.length = 2 := by
  have h : (solve (prob 4) cfg orc .fddp 1 100 (fun _ => 4) (fun _ => 0) true none new).map
      (fun o => (o.ret, o.final.cost, o.final.us 0, o.trace.length)) = some (true, 0, -4, 2) := by decide +kernel
  obtain ⟨o, ho, he⟩ := Option.map_eq_some_iff.mp h
  obtain ⟨o', h1, h2, h3, h4⟩ := C126_solve_partial (orc_fresh 4 .fddp) (by simp [cfg]) 1 (by simp) (fun _ => 4)
    (fun _ => 0) true none new s' ho
  simp only [Prod.mk.injEq] at he
  exact ⟨o, o', ho, h1, h2.trans he.1, h3.cost.symm.trans he.2.1,
    (h3.us 0 (by simp [prob]) rfl).symm.trans he.2.2.1, h4.length_eq.symm.trans he.2.2.2⟩

/-- C126, counterexample for the stopping criterion: FDDP computes the predicted improvement only after a
successful trial. In a solve whose trials all overflow, the callback of a new solver sees the stopping
criterion 0, that of a solver used before sees the one of the earlier solve, 16. -/
theorem C126_stop_counterexample :
    ∃ o1 o2 o2', solve (prob 4) cfg orc .fddp 1 1 (fun _ => 4) (fun _ => 0) true none new = some o1 ∧
      solve (prob 1000) cfg orc .fddp 1 1 (fun _ => 0) (fun _ => 0) false none o1.final = some o2 ∧
      solve (prob 1000) cfg orc .fddp 1 1 (fun _ => 0) (fun _ => 0) false none new = some o2' ∧
      o2.trace.map (·.stop) = [16] ∧ o2'.trace.map (·.stop) = [0] := by
  have h1 : ((solve (prob 4) cfg orc .fddp 1 1 (fun _ => 4) (fun _ => 0) true none new).bind fun o =>
      (solve (prob 1000) cfg orc .fddp 1 1 (fun _ => 0) (fun _ => 0) false none o.final).map fun o =>
      o.trace.map (·.stop)) = some [16] := by decide +kernel
  have h2 : (solve (prob 1000) cfg orc .fddp 1 1 (fun _ => 0) (fun _ => 0) false none new).map
      (fun o => o.trace.map (·.stop)) = some [0] := by decide +kernel
  obtain ⟨o1, ho1, h1⟩ := Option.bind_eq_some_iff.mp h1
  obtain ⟨o2, ho2, h1⟩ := Option.map_eq_some_iff.mp h1
  obtain ⟨o2', ho2', h2⟩ := Option.map_eq_some_iff.mp h2
  exact ⟨o1, o2, o2', ho1, ho2, ho2', h1, h2⟩

end Verif.Solve.ForgetDemo

namespace Verif.BoxQp.Demo
open Verif Verif.BoxQp Matrix

/-- Two controls, the first at its lower bound 0. -/
def Qw : Lq.QTerms ℚ 1 2 := ⟨![0], ![-1 / 2 - 4 / 10 ^ 6, -1], !![1], !![1, 1], !![1, 1 / 2; 1 / 2, 1]⟩

/-- C126, counterexample for BoxDDP with control limits: the gains of a node are computed by a quadratic program
that starts from the feed-forward term of the last computation, which survives from one `solve` to the next.
With BoxDDP's parameters, the same action-value function, limits and candidate: a new solver (whose
feed-forward terms are zero) uses the state feedback `2/3` for the first control, a solver that computed
`(0, 1 + 10⁻⁵)` before uses no feedback at all for it. -/
theorem C126_box_counterexample :
    ∃ k Kfb Qu s k' Kfb' Qu' s',
      boxGains fac (params 100 (1 / 10 ^ 5) 0) Qw ![0, -10] ![10, 10] ![0, 0] ![0, 0] (sol0 2) =
        some (k, Kfb, Qu, s) ∧
      boxGains fac (params 100 (1 / 10 ^ 5) 0) Qw ![0, -10] ![10, 10] ![0, 0] ![0, 1 + 1 / 10 ^ 5] (sol0 2) =
        some (k', Kfb', Qu', s') ∧
      Kfb 0 0 = 2 / 3 ∧ Kfb' 0 0 = 0 ∧ k 0 = -16 / (3 * 10 ^ 6) ∧ k' 0 = 0 := by
  have h : (boxGains fac (params 100 (1 / 10 ^ 5) 0) Qw ![0, -10] ![10, 10] ![0, 0] ![0, 0] (sol0 2)).map
      (fun r => (r.2.1 0 0, r.1 0)) = some (2 / 3, -16 / (3 * 10 ^ 6)) := by decide +kernel
  have h' : (boxGains fac (params 100 (1 / 10 ^ 5) 0) Qw ![0, -10] ![10, 10] ![0, 0] ![0, 1 + 1 / 10 ^ 5]
      (sol0 2)).map (fun r => (r.2.1 0 0, r.1 0)) = some (0, 0) := by decide +kernel
  obtain ⟨⟨k, Kfb, Qu, s⟩, h1, h2⟩ := Option.map_eq_some_iff.mp h
  obtain ⟨⟨k', Kfb', Qu', s'⟩, h1', h2'⟩ := Option.map_eq_some_iff.mp h'
  simp only [Prod.mk.injEq] at h2 h2'
  exact ⟨k, Kfb, Qu, s, k', Kfb', Qu', s', h1, h1', h2.1, h2'.1, h2.2, h2'.2⟩

end Verif.BoxQp.Demo

namespace Verif.IntroSolve
open Verif Verif.Solver Verif.Solve

section
variable {K X DX U L D : Type}
variable [Field K] [LinearOrder K] [AddCommGroup DX] [Module K DX] [AddCommGroup U] [Module K U]
variable {P : Prob K X DX U} {E : EqC K X U (St K X DX U L D)} {c : ICfg K} {O : Oracle K X DX U L D}
  {R : D → D → Prop}

/-- C126 for SolverIntro: told to reset the penalty parameter at every `solve`, and if no trial fails, it returns
the same value, candidate, cost, constraint violation, penalty and stopping criterion whatever it did before.
Partial: by default the penalty parameter is not reset (see the counterexample), and after a failed trial the
predicted improvement may be that of an earlier solve. -/
theorem C126_intro_partial (hO : ReadsFresh P O .fddp R) (hz : c.zeroUpsilon = true) (hne : c.alphas ≠ [])
    (ha : ∀ a ∈ c.alphas, 0 ≤ a ∧ a ≤ 1) (hb : ∀ v, O.bad v = false) (hbx : ∀ v, O.badX v = false) (fuel : Nat)
    {maxiter : Nat} (hm : maxiter ≠ 0) (xs : Nat → X) (us : Nat → U) (feas : Bool) (regInit : Option K)
    (s s' : Ist K X DX U L D) {o : Outcome K X DX U L D}
    (hr : solve P E c O fuel maxiter xs us feas regInit s = some o) :
    ∃ o', solve P E c O fuel maxiter xs us feas regInit s' = some o' ∧ o'.ret = o.ret ∧
      SameResult P o.final.base o'.final.base ∧ o.final.hfeas = o'.final.hfeas ∧ o.final.upsilon = o'.final.upsilon ∧
      List.Forall₂ (fun p p' => SameResult P p.base p'.base ∧ p.base.stop = p'.base.stop ∧
        p.base.steplength = p'.base.steplength ∧ p.hfeas = p'.hfeas ∧ p.upsilon = p'.upsilon) o.trace o'.trace := by
  obtain ⟨o', h1, h2, h3, h4⟩ := iterLoop_same hO hne ⟨hb, hbx, ha⟩ fuel maxiter
    (s' := { s' with
      base := start P c.toCfg xs us feas regInit s'.base
      upsilon := if c.zeroUpsilon then 0 else s'.upsilon })
    (.inl ⟨start_in P c.toCfg xs us feas regInit s.base s'.base, by simp [hz]⟩) (.inl hm) hr
  exact ⟨o', h1, h2, h3.base.toSameResult, h3.hfeas, h3.upsilon,
    h4.imp fun p p' h => ⟨h.1.fr.base.toSameResult, h.2, h.1.steplength, h.1.fr.hfeas, h.1.fr.upsilon⟩⟩

end

namespace ForgetDemo
open Verif.Solve.ForgetDemo (prob cfg new)

/-- Half of the Newton step; the node's equality constraint is `u = 0`. -/
def orc : Oracle ℚ ℚ ℚ ℚ Unit Unit :=
  { Verif.Solve.ForgetDemo.orc with
    backward := fun s => (true, fun _ => s.xs 1 / 2, fun _ _ => 0, ()), badX := fun _ => false }

def eqc : EqC ℚ ℚ ℚ (St ℚ ℚ ℚ ℚ Unit Unit) := ⟨fun _ _ u => [u], fun _ _ => [], fun _ => [], fun _ _ => [], fun _ => []⟩

/-- SolverIntro's parameters. -/
def icfg (zero : Bool) : ICfg ℚ := { cfg with norm := .linf, thFeas := 1 / 10 ^ 4, rho := 3 / 10, zeroUpsilon := zero }

def inew : Ist ℚ ℚ ℚ ℚ Unit Unit := ⟨new, fun _ => [], [], 0, 0, 0, 0, 0, 0, 0⟩

theorem orc_fresh (x0 : ℚ) : ReadsFresh (prob x0) orc .fddp (fun _ _ => True) := by
  refine ⟨fun _ _ _ => rfl, fun s s' h _ _ _ _ => ⟨rfl, fun _ => ⟨fun _ _ _ => ?_, fun _ _ => rfl, trivial⟩⟩,
    fun _ _ _ _ _ => trivial, fun s s' h _ _ _ => ?_⟩
  · have : s.xs 1 = s'.xs 1 := h.xs 1 le_rfl
    simp only [orc, this]
  · have : s.xs 1 = s'.xs 1 := h.xs 1 le_rfl
    simp only [orc, Verif.Solve.ForgetDemo.orc, this]

/-- Non-vacuity of C126 for SolverIntro: with the penalty reset, a solver in any state takes the steps a new one
takes. -/
example (s' : Ist ℚ ℚ ℚ ℚ Unit Unit) :
    ∃ o', solve (prob 4) eqc (icfg true) orc 1 2 (fun _ => 4) (fun _ => 0) true none s' = some o' ∧
      o'.final.base.us 0 = -3 ∧ o'.final.hfeas = 3 ∧ o'.final.upsilon = 20 / 7 ∧ o'.trace.length = 2 := by
  have h : (solve (prob 4) eqc (icfg true) orc 1 2 (fun _ => 4) (fun _ => 0) true none inew).map
      (fun o => (o.final.base.us 0, o.final.hfeas, o.final.upsilon, o.trace.length)) =
      some (-3, 3, 20 / 7, 2) := by decide +kernel
  obtain ⟨o, ho, he⟩ := Option.map_eq_some_iff.mp h
  obtain ⟨o', h1, -, h3, h4, h5, h6⟩ := C126_intro_partial (orc_fresh 4) rfl (by simp [icfg, cfg])
    (by intro a ha; simp only [icfg, cfg, List.mem_cons, List.not_mem_nil, or_false] at ha; rcases ha with rfl | rfl <;> norm_num)
    (fun _ => rfl) (fun _ => rfl) 1 (by simp) (fun _ => 4) (fun _ => 0) true none inew s' ho
  simp only [Prod.mk.injEq] at he
  exact ⟨o', h1, (h3.us 0 (by simp [prob]) rfl).symm.trans he.1, h4.symm.trans he.2.1, h5.symm.trans he.2.2.1,
    h6.length_eq.symm.trans he.2.2.2⟩

/-- C126, counterexample for SolverIntro with its default settings: the penalty parameter only grows and is kept
from one `solve` to the next. A new solver moves the control from 0 to `-2` (the cost falls from 16 to 4); after a
solve from the initial state 100, the same solve rejects every step and returns the guess. -/
theorem C126_intro_counterexample :
    ∃ o1 o2 o2',
      solve (prob 100) eqc (icfg false) orc 1 2 (fun _ => 100) (fun _ => 0) true none inew = some o1 ∧
      solve (prob 4) eqc (icfg false) orc 1 1 (fun _ => 4) (fun _ => 0) true none o1.final = some o2 ∧
      solve (prob 4) eqc (icfg false) orc 1 1 (fun _ => 4) (fun _ => 0) true none inew = some o2' ∧
      o2.final.base.us 0 = 0 ∧ o2.final.base.cost = 16 ∧ o2'.final.base.us 0 = -2 ∧ o2'.final.base.cost = 4 := by
  have h1 : ((solve (prob 100) eqc (icfg false) orc 1 2 (fun _ => 100) (fun _ => 0) true none inew).bind fun o =>
      (solve (prob 4) eqc (icfg false) orc 1 1 (fun _ => 4) (fun _ => 0) true none o.final).map fun o =>
      (o.final.base.us 0, o.final.base.cost)) = some (0, 16) := by decide +kernel
  have h2 : (solve (prob 4) eqc (icfg false) orc 1 1 (fun _ => 4) (fun _ => 0) true none inew).map
      (fun o => (o.final.base.us 0, o.final.base.cost)) = some (-2, 4) := by decide +kernel
  obtain ⟨o1, ho1, h1⟩ := Option.bind_eq_some_iff.mp h1
  obtain ⟨o2, ho2, h1⟩ := Option.map_eq_some_iff.mp h1
  obtain ⟨o2', ho2', h2⟩ := Option.map_eq_some_iff.mp h2
  simp only [Prod.mk.injEq] at h1 h2
  exact ⟨o1, o2, o2', ho1, ho2, ho2', h1.1, h1.2, h2.1, h2.2⟩

end ForgetDemo
end Verif.IntroSolve
