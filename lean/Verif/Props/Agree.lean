import Verif.Lemmas.Agree
import Verif.Lemmas.Tail
import Verif.Props.Forget
import Verif.Props.LqFddp
import Verif.Props.KktSystem
import Verif.Props.IntroLq

set_option linter.unusedSectionVars false

/-!
# Property C136: the solvers agree where their algorithms coincide
-/

namespace Verif.Solve
open Verif Verif.Solver

section
variable {K X DX U L D : Type}
variable [Field K] [LinearOrder K] [AddCommGroup DX] [Module K DX] [AddCommGroup U] [Module K U]
variable {P : Prob K X DX U} {c : Cfg K} {O O' : Oracle K X DX U L D} {kind kind' : Kind} {R : D → D → Prop}

/-- C136. Two of the solvers DDP, FDDP, BoxDDP and BoxFDDP with the same parameters, whatever they computed before, are
given the same guess, marked feasible, for a problem without control limits: if one returns, so does the other, with the
same value, candidate, cost, gaps, regularisation and number of iterations, and after each iteration the callbacks see the
same candidate, step length and stopping criterion. -/
theorem C136_feasible (hO : Agree P O O' R) (hU : Unlimited P) (hne : c.alphas ≠ []) (has : ∀ a ∈ c.alphas, 0 ≤ a ∧ a ≤ 1)
    (fuel : Nat) {maxiter : Nat} (hm : maxiter ≠ 0) (xs : Nat → X) (us : Nat → U) (regInit : Option K)
    (s s' : St K X DX U L D) {o : Outcome K X DX U L D}
    (hr : solve P c O kind fuel maxiter xs us true regInit s = some o) :
    ∃ o', solve P c O' kind' fuel maxiter xs us true regInit s' = some o' ∧ o'.ret = o.ret ∧
      SameResult P o.final o'.final ∧ List.Forall₂ (SameView P) o.trace o'.trace :=
  iterLoop_agree (s := start P c xs us true regInit s) (s' := start P c xs us true regInit s') hO hU hne has fuel maxiter
    (.inl ⟨rfl, rfl, rfl, rfl, rfl, rfl, rfl, rfl, rfl, rfl, rfl, rfl, by simp [start, upd], by simp [start, upd]⟩)
    (.inl hm) hr

/-! ### BoxFDDP and FDDP -/

theorem forLoop_congr {σ : Type} (n : Nat) {f g : Nat → Cpp σ Unit} (i : Nat) (h : ∀ t, i ≤ t → t < i + n → f t = g t) :
    Cpp.forLoop i n f = Cpp.forLoop i n g := by
  induction n generalizing i with
  | zero => rfl
  | succ n ih =>
    simp only [Cpp.forLoop, h i le_rfl (by omega)]
    rw [ih (i + 1) fun t h1 h2 => h t (by omega) (by omega)]

theorem tryStep_box (hU : Unlimited P) (a : K) : tryStep P O .boxFddp a = tryStep P O .fddp a := by
  have hn : ∀ t, 0 ≤ t → t < 0 + P.T → ∀ b, fwdBody P O .boxFddp a b t = fwdBody P O .fddp a b t := by
    intro t _ ht b
    have : tryNode P .boxFddp a t = (tryNode P .fddp a t : Cpp (St K X DX U L D) Unit) := by
      funext s
      simp only [tryNode, hU t (by omega), ite_self]
    unfold fwdBody
    rw [this]
  have hl : ∀ b, Cpp.forLoop 0 P.T (fwdBody P O .boxFddp a b) = Cpp.forLoop 0 P.T (fwdBody P O .fddp a b) := fun b =>
    forLoop_congr _ _ fun t h1 h2 => hn t h1 h2 b
  unfold tryStep forwardPass
  simp only [hl]
  rfl

theorem lineSearch_box (hU : Unlimited P) (as : List K) (s : St K X DX U L D) :
    lineSearch P c O .boxFddp as s = lineSearch P c O .fddp as s := by
  induction as generalizing s with
  | nil => rfl
  | cons a as ih =>
    have hp : probe P O .boxFddp a s = probe P O .fddp a s := by
      unfold probe
      simp only [tryStep_box hU]
      rfl
    unfold lineSearch
    simp only [hp, ih]
    rfl

/-- C136. Without control limits BoxFDDP is FDDP: with the same parameters, from every guess, feasible or not, and every
earlier state of the solver, `solve` computes the same, to the last field. -/
theorem C136_box_fddp (hU : Unlimited P) (fuel maxiter : Nat) (xs : Nat → X) (us : Nat → U) (feas : Bool)
    (regInit : Option K) (s : St K X DX U L D) :
    solve P c O .boxFddp fuel maxiter xs us feas regInit s = solve P c O .fddp fuel maxiter xs us feas regInit s := by
  have hi : ∀ s : St K X DX U L D, iteration P c O .boxFddp fuel s = iteration P c O .fddp fuel s := by
    intro s
    unfold iteration
    simp only [lineSearch_box hU]
    rfl
  have hl : ∀ (n : Nat) (s : St K X DX U L D), iterLoop P c O .boxFddp fuel n s = iterLoop P c O .fddp fuel n s := by
    intro n
    induction n with
    | zero => intro s; rfl
    | succ n ih => intro s; unfold iterLoop; simp only [hi, ih]
  exact hl _ _

end
end Verif.Solve

namespace Verif.Nl
open Verif Verif.Solve Verif.Solver Verif.Lq Matrix

variable {n m : Nat}

/-- Without control limits, the solvers agree at candidates marked feasible: the derivatives are a function of the
candidate, the backward pass of `ddp.cpp` is shared, and the predicted improvement of `fddp.cpp` is that of `ddp.cpp`. -/
theorem oracle_agree (P : NlProb n m) {lin : (Nat → Fin n → ℝ) → (Nat → Fin m → ℝ) → Lin ℝ n m}
    (hl : ∀ xs xs' us us', (∀ t ≤ P.T, xs t = xs' t) → (∀ t < P.T, us t = us' t) → lin xs us = lin xs' us')
    (llt : ∀ m, Matrix (Fin m) (Fin m) ℝ → Bool) (kind kind' : Kind) :
    Agree P.toProb (oracle P lin llt kind) (oracle P lin llt kind') (SameArrays P.T) := by
  have hr := oracle_readsFresh P hl llt kind
  refine ⟨hr.lin, fun s s' h _ => hr.backward s s' h, fun s d h => h, fun s d h => h, fun s s' h hf hR => ?_,
    fun _ => rfl, fun _ => rfl, fun _ => rfl, fun _ => rfl⟩
  have hf' : s'.feas = true := h.feas ▸ hf
  have key : ∀ (kind : Kind) (s : NlSt n m), s.feas = true →
      (oracle P lin llt kind).expImp s = expectedImprovement P.T s.dir := by
    intro kind s hs
    cases hk : kind.feasibilityDriven <;>
    simp [oracle, hk, hs, expectedImprovementFddp, updateExpectedImprovement, expectedImprovement]
  rw [key kind s hf, key kind' s' hf']
  unfold expectedImprovement
  rw [sumTo_same P.T (fun t ht => by rw [hR.out t ht]),
    sumTo_same (f := fun t => (s.dir.out t).k ⬝ᵥ ((s.dir.out t).Q.Quu *ᵥ (s.dir.out t).k)) P.T
      (fun t ht => by rw [hR.out t ht])]

theorem toProb_unlimited (P : NlProb n m) : Unlimited P.toProb := fun _ _ _ => rfl

/-- C136, for the solvers as they are: on every nonlinear problem without control limits, DDP, FDDP, BoxDDP and BoxFDDP
with the same parameters return the same from the same guess, if it is marked feasible. -/
theorem C136_nonlinear (P : NlProb n m) {lin : (Nat → Fin n → ℝ) → (Nat → Fin m → ℝ) → Lin ℝ n m}
    (hl : ∀ xs xs' us us', (∀ t ≤ P.T, xs t = xs' t) → (∀ t < P.T, us t = us' t) → lin xs us = lin xs' us')
    (llt : ∀ m, Matrix (Fin m) (Fin m) ℝ → Bool) (kind kind' : Kind) {c : Cfg ℝ} (hne : c.alphas ≠ [])
    (has : ∀ a ∈ c.alphas, 0 ≤ a ∧ a ≤ 1) (fuel : Nat)
    {maxiter : Nat} (hm : maxiter ≠ 0) (xs : Nat → Fin n → ℝ) (us : Nat → Fin m → ℝ) (regInit : Option ℝ) (s s' : NlSt n m)
    {o : Outcome ℝ (Fin n → ℝ) (Fin n → ℝ) (Fin m → ℝ) (Lin ℝ n m) (Arrays ℝ n (fun _ => m))}
    (hr : solve P.toProb c (oracle P lin llt kind) kind fuel maxiter xs us true regInit s = some o) :
    ∃ o', solve P.toProb c (oracle P lin llt kind') kind' fuel maxiter xs us true regInit s' = some o' ∧
      o'.ret = o.ret ∧ (∀ t ≤ P.T, o'.final.xs t = o.final.xs t) ∧ (∀ t < P.T, o'.final.us t = o.final.us t) ∧
      o'.final.feas = o.final.feas ∧ o'.final.cost = o.final.cost ∧ o'.trace.map (·.cost) = o.trace.map (·.cost) ∧
      o'.trace.map (·.steplength) = o.trace.map (·.steplength) ∧ o'.trace.map (·.stop) = o.trace.map (·.stop) := by
  obtain ⟨o', h1, h2, h3, h4⟩ := C136_feasible (oracle_agree P hl llt kind kind') (toProb_unlimited P) hne has fuel hm
    xs us regInit s s' hr
  refine ⟨o', h1, h2, fun t ht => (h3.xs t ht).symm, fun t ht => ?_, h3.feas.symm, h3.cost.symm, ?_, ?_, ?_⟩
  · by_cases hm : m = 0
    · subst hm; exact Subsingleton.elim _ _
    · exact (h3.us t ht (by simp [NlProb.toProb, hm])).symm
  all_goals
    generalize o.trace = l at h4 ⊢
    generalize o'.trace = l' at h4 ⊢
    induction h4 with
    | nil => rfl
    | cons h _ ih => simp only [List.map_cons, ih, h.cost, h.steplength, h.stop]

end Verif.Nl

namespace Verif.Solve.AgreeDemo
open Verif Verif.Solve Verif.Solver
open Verif.Solve.ForgetDemo (prob cfg new)

/-- The Newton direction of the problem of C126; nothing overflows. -/
def orc : Oracle ℚ ℚ ℚ ℚ Unit Unit := { ForgetDemo.orc with badX := fun _ => false }

theorem orc_agree (x0 : ℚ) : Agree (prob x0) orc orc (fun _ _ => True) := by
  refine ⟨fun _ _ _ => rfl, fun s s' h _ _ _ _ _ => ⟨rfl, fun _ => ⟨fun _ _ _ => ?_, fun _ _ => rfl, trivial⟩⟩,
    fun _ _ _ => trivial, fun _ _ _ => trivial, fun s s' h _ _ => ?_, fun _ => rfl, fun _ => rfl, fun _ => rfl, fun _ => rfl⟩
  · exact h.xs 1 le_rfl
  · have : s.xs 1 = s'.xs 1 := h.xs 1 le_rfl
    simp only [orc, ForgetDemo.orc, this]

/-- Non-vacuity of C136: DDP solves the problem in two iterations; so does each of the others, from any state. -/
example (kind : Kind) (s' : St ℚ ℚ ℚ ℚ Unit Unit) :
    ∃ o o', solve (prob 4) cfg orc .ddp 1 100 (fun _ => 4) (fun _ => 0) true none new = some o ∧
      solve (prob 4) cfg orc kind 1 100 (fun _ => 4) (fun _ => 0) true none s' = some o' ∧
      o'.ret = true ∧ o'.final.cost = 0 ∧ o'.final.us 0 = -4 ∧ o'.trace.length = 2 := by
  have h : (solve (prob 4) cfg orc .ddp 1 100 (fun _ => 4) (fun _ => 0) true none new).map
      (fun o => (o.ret, o.final.cost, o.final.us 0, o.trace.length)) = some (true, 0, -4, 2) := by decide +kernel
  obtain ⟨o, ho, he⟩ := Option.map_eq_some_iff.mp h
  obtain ⟨o', h1, h2, h3, h4⟩ := C136_feasible (kind' := kind) (orc_agree 4) (fun _ _ _ => rfl) (by simp [cfg])
    (by simp [cfg]; norm_num) 1 (by simp) (fun _ => 4) (fun _ => 0) none new s' ho
  simp only [Prod.mk.injEq] at he
  exact ⟨o, o', ho, h1, h2.trans he.1, h3.cost.symm.trans he.2.1,
    (h3.us 0 (by simp [prob]) rfl).symm.trans he.2.2.1, h4.length_eq.symm.trans he.2.2.2⟩

/-- C136 needs the guess to be feasible for DDP and BoxDDP: from the infeasible guess `x = (4, -120)`, `u = 0` the full
step overflows and both accept the half step `u = 60`. DDP's last state is then `64`, that of the dynamics; BoxDDP's is
`2`, because it closes only half of the last gap (box-ddp.cpp L156-161), and both candidates are marked feasible. -/
theorem C136_box_ddp_counterexample :
    ∃ o o', solve (prob 4) cfg ForgetDemo.orc .ddp 1 1 (fun t => if t = 0 then 4 else -120) (fun _ => 0) false none new = some o ∧
      solve (prob 4) cfg ForgetDemo.orc .boxDdp 1 1 (fun t => if t = 0 then 4 else -120) (fun _ => 0) false none new = some o' ∧
      Unlimited (prob 4) ∧ o.final.us 0 = 60 ∧ o'.final.us 0 = 60 ∧ o.final.feas = true ∧ o'.final.feas = true ∧
      o.final.xs 1 = 64 ∧ o'.final.xs 1 = 2 ∧ o.final.cost = 64 ^ 2 ∧ o'.final.cost = 2 ^ 2 := by
  have h1 : (solve (prob 4) cfg ForgetDemo.orc .ddp 1 1 (fun t => if t = 0 then 4 else -120) (fun _ => 0) false none new).map
      (fun o => (o.final.us 0, o.final.feas, o.final.xs 1, o.final.cost)) = some (60, true, 64, 64 ^ 2) := by decide +kernel
  have h2 : (solve (prob 4) cfg ForgetDemo.orc .boxDdp 1 1 (fun t => if t = 0 then 4 else -120) (fun _ => 0) false none new).map
      (fun o => (o.final.us 0, o.final.feas, o.final.xs 1, o.final.cost)) = some (60, true, 2, 2 ^ 2) := by decide +kernel
  obtain ⟨o, ho, e⟩ := Option.map_eq_some_iff.mp h1
  obtain ⟨o', ho', e'⟩ := Option.map_eq_some_iff.mp h2
  simp only [Prod.mk.injEq] at e e'
  exact ⟨o, o', ho, ho', fun _ _ _ => rfl, e.1, e'.1, e.2.1, e'.2.1, e.2.2.1, e'.2.2.1, e.2.2.2, e'.2.2.2⟩

end Verif.Solve.AgreeDemo

namespace Verif.Lq
open Verif Verif.Solve Matrix

variable {K : Type} [Field K] [LinearOrder K] [IsStrictOrderedRing K] {n m : Nat} {P : LqProb K n (fun _ => m)}

/-- The state trajectory of the rollout of some controls. -/
theorem rollout_same {xs xs' : Nat → Fin n → K} {us us' : Nat → Fin m → K} (h : Rollout P.toProb xs us)
    (h' : Rollout P.toProb xs' us') (e : ∀ t < P.T, us t = us' t) : ∀ t ≤ P.T, xs t = xs' t := by
  intro t
  induction t with
  | zero => intro _; exact h.1.trans h'.1.symm
  | succ t ih =>
    intro ht
    have e1 := h.2 t ht
    have e2 := h'.2 t ht
    rw [ih (by omega), e t ht] at e1
    exact e1.trans e2.symm

/-- Two trajectories with the same states and controls. -/
def SameTraj (P : LqProb K n (fun _ => m)) (xs xs' : Nat → Fin n → K) (us us' : Nat → Fin m → K) : Prop :=
  (∀ t ≤ P.T, xs t = xs' t) ∧ ∀ t < P.T, us t = us' t

/-- C136, on convex linear-quadratic problems: one iteration of DDP (or BoxDDP), of FDDP (or BoxFDDP), of the KKT solver
and of SolverIntro without constraints, each with its own parameters, from its own guess (whose states need not follow
the dynamics) and after any history, with `init_reg = 0`, end with the same states and controls. Left out for FDDP and
SolverIntro are the infeasible guesses whose cost (merit) happens to be the optimal cost. -/
theorem C136_lq_partial (hm : 0 < m) (hT : 0 < P.T) (h : ConvexLq P)
    -- DDP or BoxDDP
    {llt : ∀ m, Matrix (Fin m) (Fin m) K → Bool} (hl : LltComplete llt) (hls : LltSound llt)
    {k1 : Kind} (hk1 : k1.feasibilityDriven = false) {c1 : Cfg K} (hc1 : Sane c1)
    (x1 : Nat → Fin n → K) (u1 : Nat → Fin m → K) (f1 : Bool) (hf1 : f1 = true → Rollout P.toProb x1 u1) (s1 : LqSt K n m)
    -- FDDP or BoxFDDP
    {k2 : Kind} (hk2 : k2.feasibilityDriven = true) {c2 : Cfg K} (hc2 : Sane c2) (hneg : 1 < c2.thAcceptnegstep)
    (x2 : Nat → Fin n → K) (u2 : Nat → Fin m → K) (f2 : Bool) (hf2 : f2 = true → Rollout P.toProb x2 u2)
    (hne2 : f2 = true ∨ ¬ IsLeast (Set.range (total P)) (costOf P x2 u2)) (s2 : LqSt K n m)
    -- KKT
    {lu : ℕ → (ℕ → ℕ → K) → (ℕ → K) → ℕ → K} (hlu : Kkt.LuSound lu)
    {hist : (ℕ → Fin n → K) → (ℕ → Fin m → K) → List (Kkt.Local K n (fun _ => m))} {dF : ℕ → K}
    {c3 : Kkt.Cfg K} (hc3 : (∃ as, c3.alphas = 1 :: as) ∧ c3.thAcceptstep < 1 ∧ 0 < c3.thGrad)
    (x3 : Nat → Fin n → K) (u3 : Nat → Fin m → K) (f3 : Bool) (hf3 : f3 = true → Rollout P.toProb x3 u3)
    (s3 : Kkt.LqSt K n m)
    -- SolverIntro
    {F : Intro.Fact K} (hF : Intro.FactOk F) (hC : Intro.FactComplete F) (es : Intro.EqSolver)
    (cs : ∀ _ : ℕ, Intro.Affine K n m 0) {c4 : IntroSolve.ICfg K} (hc4 : Intro.Sane c4)
    (x4 : Nat → Fin n → K) (u4 : Nat → Fin m → K) (f4 : Bool) (hf4 : f4 = true → Rollout P.toProb x4 u4)
    (s4 : Intro.LqI K n m fun _ => 0) (hups : 0 ≤ Intro.upsilon0 c4 s4)
    (hne4 : Rollout P.toProb x4 u4 ∨
      ¬ IsLeast (Set.range (total P)) (IntroSolve.merit c4.norm P.toProb (Intro.eqc cs) (Intro.upsilon0 c4 s4) x4 u4))
    (fuel : Nat) :
    ∃ o1 o2 o3 o4,
      solve P.toProb c1 (oracle P llt k1) k1 (fuel + 1) 1 x1 u1 f1 (some 0) s1 = some o1 ∧
      solve P.toProb c2 (oracle P llt k2) k2 (fuel + 1) 1 x2 u2 f2 (some 0) s2 = some o2 ∧
      Kkt.solve P.toProb c3 (Kkt.lqOracle P lu hist dF) (fuel + 1) 1 x3 u3 f3 s3 = some o3 ∧
      IntroSolve.solve P.toProb (Intro.eqc cs) c4 (Intro.oracle P cs F es) (fuel + 1) 1 x4 u4 f4 (some 0) s4 = some o4 ∧
      SameTraj P o1.final.xs o2.final.xs o1.final.us o2.final.us ∧
      SameTraj P o1.final.xs o3.final.xs o1.final.us o3.final.us ∧
      SameTraj P o1.final.xs o4.final.base.xs o1.final.us o4.final.base.us := by
  have hsat : ∀ vs, Intro.Satisfies P cs vs 0 P.x0 := fun vs i _ _ => Subsingleton.elim _ _
  have hcosts : Intro.costs P cs = Set.range (total P) := by
    ext r
    exact ⟨fun ⟨vs, _, e⟩ => ⟨vs, e⟩, fun ⟨vs, e⟩ => ⟨vs, hsat vs, e⟩⟩
  obtain ⟨as, ha⟩ := hc3.1
  obtain ⟨o1, a1, b1, -, d1⟩ := C67_one_iteration hk1 hm h hl hls hc1 x1 u1 f1 hf1 s1 fuel
  obtain ⟨o2, a2, b2, -, d2⟩ := C103_one_iteration_partial hk2 hm h hl hls hc2 hneg x2 u2 f2 hf2 hne2 s2 fuel
  obtain ⟨o3, a3, ⟨b3, d3⟩, -⟩ := Kkt.C115_one_iteration (hist := hist) (dF := dF) h hT hlu ha hc3.2.1 hc3.2.2 fuel s3 x3 u3 f3 hf3
  obtain ⟨o4, a4, b4, -, -, d4⟩ := Intro.C135_one_iteration_partial (nh := fun _ => 0) (cs := cs) (es := es) hm h hF hC
    (fun t _ v _ => Subsingleton.elim _ _) hc4 x4 u4 f4 hf4 s4 hups
    (hne4.imp (fun hr => ⟨hr, hsat _⟩) (fun hr => by rw [hcosts]; exact hr)) fuel
  have q2 := optimal_unique h hl hls d1 d2
  have q3 := optimal_unique h hl hls d1 d3
  have q4 := optimal_unique h hl hls d1 fun vs => d4.2 vs (hsat vs)
  exact ⟨o1, o2, o3, o4, a1, a2, a3, a4, ⟨rollout_same b1 b2 q2, q2⟩, ⟨rollout_same b1 b3 q3, q3⟩,
    ⟨rollout_same b1 b4 q4, q4⟩⟩

namespace AgreeDemo
open Verif.Intro.Demo (prob2 fact fact_ok)

/-- The default parameters of DDP and FDDP, with the first three of the ten default step lengths. -/
noncomputable def cfg : Cfg ℝ where
  alphas := [1, 1/2, 1/4]
  thAcceptstep := 1/10
  thAcceptnegstep := 2
  thStop := 1/10^9
  thGrad := 1/10^12
  thStepdec := 1/2
  thStepinc := 1/100
  reg := ⟨10, 10, 1/10^9, 10^9⟩

theorem cfg_sane : Sane cfg :=
  ⟨⟨_, rfl⟩, by norm_num [cfg], by norm_num [cfg], by norm_num [cfg], by norm_num [cfg], by norm_num [cfg]⟩

/-- The infeasible guess `x = (3, 3, 3)`, `u = (1, 1)` costs more than controls that are zero. -/
theorem guess : ¬ IsLeast (Set.range (total prob2)) (costOf prob2 (fun _ => ![3]) (fun _ => ![1, 1])) := by
  intro h
  have h1 := h.2 ⟨fun _ => ![0, 0], rfl⟩
  simp [total, costToGo, costOf, Intro.Demo.prob2, Intro.Demo.stage, Lqr.cost, Lqr.costT, Lqr.next, traj, Finset.sum_range_succ,
    dotProduct, mulVec, Fin.sum_univ_succ] at h1
  norm_num at h1

/-- Non-vacuity of `C136_lq_partial`: the two-stage problem of C74, each solver with its default parameters, DDP, FDDP and
the KKT solver from an infeasible guess, SolverIntro from zero controls. -/
example (es : Intro.EqSolver) (s1 s2 : LqSt ℝ 1 2) (s3 : Kkt.LqSt ℝ 1 2) (s4 : Intro.LqI ℝ 1 2 fun _ => 0)
    (hs : s4.upsilon = 0) :
    ∃ lu o1 o2 o3 o4,
      solve prob2.toProb cfg (oracle prob2 fact.llt .ddp) .ddp 1 1 (fun _ => ![3]) (fun _ => ![1, 1]) false (some 0) s1 = some o1 ∧
      solve prob2.toProb cfg (oracle prob2 fact.llt .fddp) .fddp 1 1 (fun _ => ![3]) (fun _ => ![1, 1]) false (some 0) s2 =
        some o2 ∧
      Kkt.solve prob2.toProb ⟨[1, 1 / 2], 1 / 10, 1 / 10 ^ 9, 1 / 10 ^ 12, 10 ^ 9⟩
        (Kkt.lqOracle prob2 lu (fun _ _ => []) fun _ => 0) 1 1 (fun _ => ![3]) (fun _ => ![1, 1]) false s3 = some o3 ∧
      IntroSolve.solve prob2.toProb (Intro.eqc fun _ => (⟨0, 0, 0⟩ : Intro.Affine ℝ 1 2 0)) Intro.LqDemo.cfg
        (Intro.oracle prob2 (fun _ => (⟨0, 0, 0⟩ : Intro.Affine ℝ 1 2 0)) fact es) 1 1 (traj prob2 (fun _ => 0) 0 prob2.x0)
        (fun _ => 0) true (some 0) s4 = some o4 ∧
      SameTraj prob2 o1.final.xs o2.final.xs o1.final.us o2.final.us ∧
      SameTraj prob2 o1.final.xs o3.final.xs o1.final.us o3.final.us ∧
      SameTraj prob2 o1.final.xs o4.final.base.xs o1.final.us o4.final.base.us := by
  obtain ⟨lu, hlu⟩ := Kkt.exists_luSound (K := ℝ)
  exact ⟨lu, C136_lq_partial (P := prob2) two_pos (by simp [Intro.Demo.prob2]) Intro.LqDemo.prob2_convex fact_ok.2.llt
    fact_ok.1.llt (k1 := .ddp) rfl cfg_sane _ _ false (fun e => by cases e) s1 (k2 := .fddp) rfl cfg_sane
    (by norm_num [cfg]) _ _ false (fun e => by cases e) (.inr guess) s2 hlu
    ⟨⟨_, rfl⟩, by norm_num, by norm_num⟩ _ _ false (fun e => by cases e) s3 fact_ok.1 fact_ok.2 es _
    Intro.LqDemo.cfg_sane _ _ true (fun _ => Kkt.traj_rollout _) s4 (by simp [Intro.upsilon0, Intro.LqDemo.cfg, hs])
    (.inl (Kkt.traj_rollout _)) 0⟩

end AgreeDemo
end Verif.Lq

namespace Verif.Nl
open Verif Verif.Solve Verif.Lq

/-- The derivatives of the problem of C108, whose horizon is one node. -/
noncomputable def alin (xs us : Nat → Fin 1 → ℝ) : Lin ℝ 1 1 := Demo.dlin xs fun _ => us 0

/-- Non-vacuity of `C136_nonlinear`: on the problem of C108, with the default parameters, DDP ends from every guess, and so
do the others, with the same result. -/
example (kind : Kind) (xs us : Nat → Fin 1 → ℝ) (s s' : NlSt 1 1) : ∃ fuel o o',
    solve Demo.prob.toProb Lq.AgreeDemo.cfg (oracle Demo.prob alin Demo.chol .ddp) .ddp fuel 100 xs us true none s =
      some o ∧
    solve Demo.prob.toProb Lq.AgreeDemo.cfg (oracle Demo.prob alin Demo.chol kind) kind fuel 100 xs us true none s' =
      some o' ∧ o'.ret = o.ret ∧ o'.final.cost = o.final.cost := by
  obtain ⟨fuel, o, ho⟩ := C24_terminates Demo.prob.toProb Lq.AgreeDemo.cfg (oracle Demo.prob alin Demo.chol .ddp) .ddp
    (by norm_num [Lq.AgreeDemo.cfg]) (by norm_num [Lq.AgreeDemo.cfg]) (by norm_num [Lq.AgreeDemo.cfg]) 100 xs us true none
    (by norm_num [Lq.AgreeDemo.cfg]) s
  obtain ⟨o', h1, h2, -, -, -, h3, -⟩ := C136_nonlinear Demo.prob (fun xs xs' us us' hx hu => by
      have e1 := hx 1 le_rfl
      have e2 := hu 0 (by simp [Demo.prob])
      simp only [alin, Demo.dlin, e1, e2]) Demo.chol .ddp kind
    (by simp [Lq.AgreeDemo.cfg]) (by simp [Lq.AgreeDemo.cfg]; norm_num) fuel (by simp) xs us none s s' ho
  exact ⟨fuel, o, o', ho, h1, h2, h3⟩

end Verif.Nl
