import Verif.Lemmas.Policy
import Verif.Props.LqFddp

set_option linter.unusedSectionVars false

/-!
# The feedback policy left by `solve` (C129)

After `solve`, `xs`, `us` and the gains `K` are used as the policy `u = us[t] - K[t] (x - xs[t])`.
-/

namespace Verif.Solve
section
variable {K X DX U L D : Type}
variable [Field K] [LinearOrder K] [AddCommGroup DX] [Module K DX] [AddCommGroup U] [Module K U]
variable {P : Prob K X DX U} {c : Cfg K} {O : Oracle K X DX U L D} {kind : Kind}

theorem computeDirection_backward (s : St K X DX U L D) : ∃ s0 : St K X DX U L D, s0.xs = s.xs ∧ s0.us = s.us ∧
    s0.feas = s.feas ∧ computeDirection P O s = ((O.backward s0).1,
      { s0 with k := (O.backward s0).2.1, gain := (O.backward s0).2.2.1, dir := (O.backward s0).2.2.2 }) := by
  refine ⟨if s.recalc then calcDiff P O s else s, ?_, ?_, ?_, rfl⟩ <;>
  · by_cases hr : s.recalc = true
    · rw [if_pos hr]
      unfold calcDiff
      by_cases h0 : s.iter = 0 <;> simp [h0, problemCalc]
    · rw [if_neg hr]

theorem dirLoop_backward {fuel : Nat} {s s1 : St K X DX U L D}
    (h : dirLoop P c O fuel s = some (true, s1)) :
    ∃ s0 : St K X DX U L D, s0.xs = s.xs ∧ s0.us = s.us ∧ s0.feas = s.feas ∧
      (O.backward s0).1 = true ∧ s1.k = (O.backward s0).2.1 ∧ s1.gain = (O.backward s0).2.2.1 := by
  induction fuel generalizing s with
  | zero => simp [dirLoop] at h
  | succ fuel ih =>
    obtain ⟨s0, a1, a2, a3, hc⟩ := computeDirection_backward (P := P) (O := O) s
    simp only [dirLoop, hc] at h
    split at h
    · rename_i hb
      simp only [Option.some.injEq, Prod.mk.injEq, true_and] at h
      subst h
      exact ⟨s0, a1, a2, a3, hb, rfl, rfl⟩
    · split at h
      · simp at h
      · obtain ⟨z, z1, z2, z3, z4⟩ := ih h
        exact ⟨z, z1.trans a1, z2.trans a2, z3.trans a3, z4⟩

/-- C129. Whatever the problem: the gains left by an iteration that reaches the callbacks are those of a
successful backward pass at the candidate from which the iteration started, not at the one it leaves. -/
theorem C129_of_last_direction {fuel : Nat} {s s' : St K X DX U L D} {e : Exit}
    (h : iteration P c O kind fuel s = some (e, true, s')) :
    ∃ s0 : St K X DX U L D, s0.xs = s.xs ∧ s0.us = s.us ∧ s0.feas = s.feas ∧
      (O.backward s0).1 = true ∧ s'.k = (O.backward s0).2.1 ∧ s'.gain = (O.backward s0).2.2.1 := by
  obtain ⟨ok, s1, hd, hg, hk, -⟩ := iteration_after h
  cases ok with
  | false =>
    unfold iteration at h
    rw [hd] at h
    simp at h
  | true =>
    obtain ⟨s0, a1, a2, a3, a4, a5, a6⟩ := dirLoop_backward hd
    exact ⟨s0, a1, a2, a3, a4, hk.trans a5, hg.trans a6⟩

end

/-! ### A nonlinear problem -/

namespace PolicyDemo

/-- One node `x' = x + u` with cost `½u²`, terminal cost `x⁴/4`, initial state 0. -/
def quartic : Prob ℚ ℚ ℚ ℚ where
  T := 1
  node := fun _ =>
    { nuZero := false, eval := fun x u => (x + u, u ^ 2 / 2), evalT := fun x => (x, 0)
      diff := fun x y => y - x, integ := fun x d => x + d, clamp := fun u => u }
  tcost := fun x => x ^ 4 / 4
  tdiff := fun x y => y - x
  tinteg := fun x d => x + d
  x0 := 0

/-- Its backward pass (ddp.cpp L212-251) written out: `Vx = x³ (+ Vxx f)`, `Vxx = 3x² + preg`,
`Qu = u + Vx`, `Qxu = Vxx`, `Quu = 1 + Vxx + preg`. `lin` is the terminal state. -/
def quarticOracle : Oracle ℚ ℚ ℚ ℚ ℚ (ℚ × ℚ) where
  linearise := fun s => s.xs 1
  backward := fun s =>
    let Vxx := 3 * s.lin ^ 2 + s.preg
    let Vx := s.lin ^ 3 + if s.feas then 0 else Vxx * s.fs 1
    let Qu := s.us 0 + Vx
    let Quu := 1 + Vxx + s.preg
    (true, fun _ => Qu / Quu, fun _ dx => Vxx / Quu * dx, (Qu, Quu))
  updExp := fun s => s.dir
  expImp := fun s => (s.dir.1 * s.k 0, -(s.k 0 * s.dir.2 * s.k 0))
  bad := fun _ => false
  badX := fun _ => false

def cfg : Cfg ℚ := ⟨[1, 1/2, 1/4], 1/10, 2, 1/100, 1/100, 1/2, 1/100, ⟨10, 10, 0, 1000⟩⟩

def zero : St ℚ ℚ ℚ ℚ ℚ (ℚ × ℚ) :=
  ⟨fun _ => 0, fun _ => 0, fun _ => 0, fun _ => 0, fun _ => (0, 0), 0, fun _ => 0, fun _ => 0,
   fun _ _ => 0, 0, (0, 0), false, false, 0, 0, 0, 0, 0, 0, 0, 0, 0, 0, 0, 0, false⟩

/-- The feasible guess `u = 1`. -/
def guess : Nat → ℚ := fun t => if t = 0 then 0 else 1

/-- The final state of `solve` with one iteration. -/
def after : Option (Outcome ℚ ℚ ℚ ℚ ℚ (ℚ × ℚ)) :=
  solve quartic cfg quarticOracle .ddp 1 1 guess (fun _ => 1) true (some 0) zero

/-- The hypothesis of `C129_of_last_direction`. -/
example : (iteration quartic cfg quarticOracle .ddp 1
    (start quartic cfg guess (fun _ => 1) true (some 0) zero)).map (fun r => r.2.1) = some true := by
  decide +kernel

/-- C129 fails on nonlinear problems: `solve` accepts a full step and returns the trajectory with `u = 1/2`
and the gain 3/4 of the guess; the backward pass at the returned trajectory gives 3/7. -/
theorem C129_stale_counterexample : ∃ o, after = some o ∧
    o.final.us 0 = 1/2 ∧ o.final.xs 0 = 0 ∧ o.final.xs 1 = 1/2 ∧ o.final.feas = true ∧
    (∀ dx, o.final.gain 0 dx = 3/4 * dx) ∧
    ∀ dx, (quarticOracle.backward { o.final with lin := quarticOracle.linearise o.final }).2.2.1 0 dx =
      3/7 * dx := by
  have h : (after.map fun o => (o.final.us 0, o.final.xs 0, o.final.xs 1, o.final.feas, o.final.gain 0 1,
      o.final.preg)) = some (1/2, 0, 1/2, true, 3/4, 0) := by decide +kernel
  cases ha : after with
  | none => rw [ha] at h; cases h
  | some o =>
    rw [ha] at h
    simp only [Option.map_some, Option.some.injEq, Prod.mk.injEq] at h
    obtain ⟨h1, h2, h3, h4, h5, h6⟩ := h
    refine ⟨o, rfl, h1, h2, h3, h4, ?_, fun dx => ?_⟩
    · have hit : ∃ e b s', iteration quartic cfg quarticOracle .ddp 1
          (start quartic cfg guess (fun _ => 1) true (some 0) zero) = some (e, b, s') ∧
          o.final.gain = s'.gain := by
        unfold after solve iterLoop at ha
        cases hi : iteration quartic cfg quarticOracle .ddp 1
          (start quartic cfg guess (fun _ => 1) true (some 0) zero) with
        | none => rw [hi] at ha; cases ha
        | some r =>
          rcases r with ⟨e, b, s'⟩
          rw [hi] at ha
          refine ⟨e, b, s', rfl, ?_⟩
          cases e <;> simp [iterLoop] at ha <;> rw [← ha]
      obtain ⟨e, b, s', hi, hg⟩ := hit
      obtain ⟨ok, s1, hd, hg1, -⟩ := iteration_after hi
      have hlin : ∃ q : ℚ, s1.gain 0 = fun dx => q * dx := by
        simp only [dirLoop, computeDirection, quarticOracle] at hd
        simp only [if_true, Option.some.injEq, Prod.mk.injEq] at hd
        rw [← hd.2]
        exact ⟨_, rfl⟩
      obtain ⟨q, hq⟩ := hlin
      rw [hg, hg1, hq] at h5 ⊢
      intro dx
      simp only at h5 ⊢
      rw [mul_one] at h5
      rw [h5]
    · simp only [quarticOracle, h3, h6]
      norm_num

end PolicyDemo
end Verif.Solve

namespace Verif.Lq
open Verif Verif.Solve Matrix

variable {K : Type} [Field K] [LinearOrder K] [IsStrictOrderedRing K] {n m : Nat}
variable {P : LqProb K n (fun _ => m)} {llt : ∀ m, Matrix (Fin m) (Fin m) K → Bool} {kind : Kind}

/-- C129. After one iteration on a convex linear-quadratic problem with `init_reg = 0`, from any guess and
solver state, the policy left by the solver is optimal from every state at every node. Missing: the
infeasible guesses of C103 for FDDP, several iterations with `reg_min > 0`, and nonlinear problems. -/
theorem C129_one_iteration_partial (hm : 0 < m) (h : ConvexLq P) (hl : LltComplete llt) (hls : LltSound llt)
    {c : Cfg K} (hc : Sane c) (hneg : kind.feasibilityDriven = true → 1 < c.thAcceptnegstep)
    (xs : Nat → Fin n → K) (us : Nat → Fin m → K) (feas : Bool) (hf : feas = true → Rollout P.toProb xs us)
    (hne : kind.feasibilityDriven = true → feas = true ∨ ¬ IsLeast (Set.range (total P)) (costOf P xs us))
    (s : LqSt K n m) (fuel : Nat) :
    ∃ o, solve P.toProb c (oracle P llt kind) kind (fuel + 1) 1 xs us feas (some 0) s = some o ∧
      Rollout P.toProb o.final.xs o.final.us ∧ PolicyOptimal P o.final.xs o.final.us o.final.gain := by
  obtain ⟨as, hal⟩ := hc.alphas
  obtain ⟨e, s', g, hit, -, -, hro, -, -, -, -, he, -, -, -, hpo⟩ :=
    iteration_lq (s := start P.toProb c xs us feas (some 0) s) hm h hl hls hal hc.accept hneg hc.grad
      hc.stepinc hc.regmin rfl rfl (.inl rfl) (fun _ => by simp [start, LqProb.toProb, upd]) hf hne fuel
  unfold solve iterLoop
  rw [hit]
  cases e with
  | giveUp => exact absurd rfl he
  | converged => exact ⟨_, rfl, hro, hpo⟩
  | «continue» => exact ⟨_, rfl, hro, hpo⟩

/-- C129. The same for any number of iterations when `reg_min = 0`. -/
theorem C129_optimal_policy_partial (hm : 0 < m) (h : ConvexLq P) (hl : LltComplete llt) (hls : LltSound llt)
    {c : Cfg K} (hc : Sane c) (hmin : c.reg.min = 0) (hmax : 0 ≤ c.reg.max)
    (hneg : kind.feasibilityDriven = true → 1 < c.thAcceptnegstep)
    (xs : Nat → Fin n → K) (us : Nat → Fin m → K) (feas : Bool) (hf : feas = true → Rollout P.toProb xs us)
    (hne : kind.feasibilityDriven = true → feas = true ∨ ¬ IsLeast (Set.range (total P)) (costOf P xs us))
    (s : LqSt K n m) (fuel maxiter : Nat) :
    ∃ o, solve P.toProb c (oracle P llt kind) kind (fuel + 1) (maxiter + 1) xs us feas (some 0) s = some o ∧
      Rollout P.toProb o.final.xs o.final.us ∧ PolicyOptimal P o.final.xs o.final.us o.final.gain := by
  obtain ⟨as, hal⟩ := hc.alphas
  have key : ∀ k (s : LqSt K n m), s.preg = 0 → s.recalc = true → (s.iter = 0 ∨ Matches P.toProb s) →
      (kind.feasibilityDriven = false → s.xsTry 0 = P.x0) →
      (s.feas = true → Rollout P.toProb s.xs s.us) →
      (kind.feasibilityDriven = true → s.feas = true ∨
        ¬ IsLeast (Set.range (total P)) (totalCost P.toProb s.xs s.us)) →
      ∃ o, iterLoop P.toProb c (oracle P llt kind) kind (fuel + 1) (k + 1) s = some o ∧
        Rollout P.toProb o.final.xs o.final.us ∧ PolicyOptimal P o.final.xs o.final.us o.final.gain := by
    intro k
    induction k with
    | zero =>
      intro s h1 h2 h3 h4 h5 h6
      obtain ⟨e, s', g, hit, -, -, hro, -, -, -, -, he, -, -, -, hpo⟩ :=
        iteration_lq hm h hl hls hal hc.accept hneg hc.grad hc.stepinc hc.regmin h1 h2 h3 h4 h5 h6 fuel
      unfold iterLoop
      rw [hit]
      cases e with
      | giveUp => exact absurd rfl he
      | converged => exact ⟨_, rfl, hro, hpo⟩
      | «continue» => exact ⟨_, rfl, hro, hpo⟩
    | succ k ih =>
      intro s h1 h2 h3 h4 h5 h6
      obtain ⟨e, s', g, hit, -, -, hro, hfe, hrec, hmt, hx0, he, -, -, hpr, hpo⟩ :=
        iteration_lq hm h hl hls hal hc.accept hneg hc.grad hc.stepinc hc.regmin h1 h2 h3 h4 h5 h6 fuel
      rw [iterLoop, hit]
      cases e with
      | giveUp => exact absurd rfl he
      | converged => exact ⟨_, rfl, hro, hpo⟩
      | «continue» =>
        obtain ⟨o, ho, r1, r2⟩ := ih { s' with iter := s'.iter + 1 } (hpr hmin hmax) hrec (.inr hmt) hx0
          (fun _ => hro) (fun _ => .inl hfe)
        simp only
        rw [ho]
        exact ⟨_, rfl, r1, r2⟩
  exact key maxiter _ rfl rfl (.inl rfl) (fun _ => by simp [start, LqProb.toProb, upd]) hf hne

namespace PolicyDemo

/-- `x' = x + u`, cost `u²`, terminal cost `½x²`. -/
def scalar (x0 : ℚ) : LqProb ℚ 1 (fun _ => 1) where
  T := 1
  node := fun _ => { A := !![1], B := !![1], f := 0, Q := 0, R := !![2], N := 0, q := 0, r := 0 }
  term := { A := 0, B := 0, f := 0, Q := !![1], R := 0, N := 0, q := 0, r := 0 }
  x0 := ![x0]

theorem scalar_convex (x0 : ℚ) : ConvexLq (scalar x0) where
  symm := ⟨fun _ => by simp [scalar], fun _ => by simp only [scalar]; decide, by simp only [scalar]; decide⟩
  psd := fun t x u => by
    simp [scalar, dotProduct, mulVec]
    nlinarith [sq_nonneg (u 0)]
  pd := fun t v hv => by
    have h : 0 < v 0 * v 0 := by simpa [dotProduct] using dot_self_pos hv
    simp [scalar, dotProduct, mulVec]
    linarith
  term := fun v => by
    simp [scalar, dotProduct, mulVec]
    nlinarith [sq_nonneg (v 0)]

theorem scalar_togo (x0 x : ℚ) (ws : Nat → Fin 1 → ℚ) :
    costToGo (scalar x0) ws 0 ![x] = ws 0 0 * ws 0 0 + 1/2 * ((x + ws 0 0) * (x + ws 0 0)) := by
  simp [costToGo, scalar, traj, Lqr.cost, Lqr.costT, Lqr.next, dotProduct, mulVec, vecHead]
  ring

/-- Parameters with minimal regularisation `r`. -/
def cfg (r : ℚ) : Cfg ℚ := ⟨[1, 1/2, 1/4], 1/10, 2, 1/100, 1/100, 1/2, 1/100, ⟨10, 10, r, 1000⟩⟩

theorem cfg_sane {r : ℚ} (h : 0 ≤ r) : Sane (cfg r) :=
  ⟨⟨_, rfl⟩, by norm_num [cfg], by norm_num [cfg], by norm_num [cfg], by norm_num [cfg], h⟩

/-- The hypotheses of `C129_one_iteration_partial` and `C129_optimal_policy_partial`. -/
example : ConvexLq (scalar 3) ∧ LltComplete Demo.chol ∧ LltSound Demo.chol ∧ Sane (cfg 0) ∧
    (cfg 0).reg.min = 0 ∧ 0 ≤ (cfg 0).reg.max ∧ 1 < (cfg 0).thAcceptnegstep :=
  ⟨scalar_convex 3, Demo.chol_complete, Demo.chol_sound, cfg_sane le_rfl, rfl, by norm_num [cfg],
    by norm_num [cfg]⟩

/-- A policy has exactly the runs it should: from every state at every node there is one. -/
example (xs : Nat → Fin 1 → ℚ) (us : Nat → Fin 1 → ℚ) (G : Nat → (Fin 1 → ℚ) → Fin 1 → ℚ) (x : Fin 1 → ℚ) :
    ∃ ys vs, FromPolicy (scalar 3) xs us G 0 x ys vs := by
  refine ⟨fun j => if j = 0 then x else ((scalar 3).node 0).next x (us 0 - G 0 (x - xs 0)),
    fun _ => us 0 - G 0 (x - xs 0), rfl, fun j _ hj => ?_, fun j _ hj => ?_⟩ <;>
  · have : j = 0 := by simp only [scalar] at hj; omega
    subst this
    rfl

/-- C129 fails with a minimal regularisation above 0 (1 here, 1e-9 by default): DDP started at the optimum
returns true, at the optimum, but with a policy that is not optimal away from it. -/
theorem C129_regularised_counterexample (s : LqSt ℚ 1 1) (fuel maxiter : Nat) :
    ∃ o, solve (scalar 0).toProb (cfg 1) (oracle (scalar 0) Demo.chol .ddp) .ddp (fuel + 1) (maxiter + 1)
        (fun _ => 0) (fun _ => 0) true none s = some o ∧
      o.ret = true ∧ (∀ vs, total (scalar 0) o.final.us ≤ total (scalar 0) vs) ∧
      ¬ PolicyOptimal (scalar 0) o.final.xs o.final.us o.final.gain := by
  have hcv := scalar_convex 0
  have hro0 : Rollout (scalar 0).toProb (fun _ => 0) (fun _ => 0) := by
    refine ⟨?_, fun t _ => ?_⟩
    · funext i; fin_cases i; rfl
    · funext i; fin_cases i; simp [scalar, LqProb.toProb, Lqr.next]
  have hopt0 : ∀ vs, total (scalar 0) (fun _ => 0) ≤ total (scalar 0) vs := fun vs => by
    unfold total
    show costToGo (scalar 0) _ 0 ![0] ≤ costToGo (scalar 0) _ 0 ![0]
    rw [scalar_togo, scalar_togo]
    simp
    nlinarith [sq_nonneg (vs 0 0)]
  have hsane := cfg_sane (r := 1) zero_le_one
  have hstart : (start (scalar 0).toProb (cfg 1) (fun _ => 0) (fun _ => 0) true none s).preg = 1 := rfl
  have hp : 0 ≤ (start (scalar 0).toProb (cfg 1) (fun _ => 0) (fun _ => 0) true none s).preg := by
    rw [hstart]; norm_num
  obtain ⟨e, s', g, hit, hb, hcl, hro, -, -, -, -, -, -, he⟩ :=
    iteration_ddp (kind := .ddp) rfl (s := start (scalar 0).toProb (cfg 1) (fun _ => 0) (fun _ => 0) true none s)
      one_pos hcv Demo.chol_complete Demo.chol_sound (as := [1/2, 1/4]) rfl hsane.accept hsane.grad hsane.stepinc hsane.regmin
      hp rfl (.inl rfl) (by simp [start, LqProb.toProb, upd]) (fun _ => hro0) (.inr (.inr hopt0)) fuel
  obtain ⟨hz, hk⟩ := stationary_of_optimal hcv Demo.chol_complete Demo.chol_sound hb hro0 hopt0
  obtain ⟨hG, -, -⟩ := iteration_gain hcv Demo.chol_complete hit hp rfl (.inl rfl) hb
  have he' : e = .converged := by
    rw [he, hz]
    simp [start, hsane.stop]
  subst he'
  have hx0 : s'.xs 0 = 0 := by
    rw [hcl.init]; funext i; fin_cases i; rfl
  have hu0 : s'.us 0 = 0 := by
    rw [hcl.control 0 one_pos, hk 0 one_pos, hx0]
    simp [start]
  have hsolve : solve (scalar 0).toProb (cfg 1) (oracle (scalar 0) Demo.chol .ddp) .ddp (fuel + 1) (maxiter + 1)
      (fun _ => 0) (fun _ => 0) true none s = some ⟨true, s', [s']⟩ := by
    unfold solve
    rw [iterLoop, hit]
  refine ⟨_, hsolve, rfl, fun vs => ?_, ?_⟩
  · refine le_trans (le_of_eq ?_) (hopt0 vs)
    unfold total
    show costToGo (scalar 0) _ 0 ![0] = costToGo (scalar 0) _ 0 ![0]
    rw [scalar_togo, scalar_togo]
    simp only [hu0]
  -- the gain
  obtain ⟨f1, -, -, -, -, f6, -⟩ := Back.facts (backwardPass_spec hb) Demo.chol_sound hcv.symm.term 0 one_pos
    (hcv.symm.R 0)
  have hV : (g.V 1).Vxx = !![2] := by
    have hT := (backwardPass_spec hb).term
    change g.V 1 = _ at hT
    rw [hT, hstart]
    ext i j
    fin_cases i; fin_cases j
    simp [termValue, addDiag, scalar]
    norm_num
  have hK : (g.out 0).Kfb 0 0 = 2/5 := by
    have := congrFun (congrFun f6 0) 0
    have hV0 : (g.V 1).Vxx 0 0 = 2 := by rw [hV]; rfl
    rw [f1, hstart] at this
    simp [actionValue, addDiag, Lqr.derivs, scalar, Matrix.mul_apply] at this
    rw [hV0] at this
    linarith
  intro hpo
  have := hpo 0 (Nat.zero_le _) ![1]
    (fun j => if j = 0 then ![1] else ((scalar 0).node 0).next ![1] (s'.us 0 - s'.gain 0 (![1] - s'.xs 0)))
    (fun _ => s'.us 0 - s'.gain 0 (![1] - s'.xs 0))
    ⟨rfl, fun j _ hj => by
        have : j = 0 := by simp only [scalar] at hj; omega
        subst this; rfl, fun j _ hj => by
        have : j = 0 := by simp only [scalar] at hj; omega
        subst this; rfl⟩ (fun _ => ![-1/3])
  rw [scalar_togo, scalar_togo, hu0, hx0, hG] at this
  simp [mulVec, dotProduct, hK] at this
  norm_num at this

/-- C129: the value function may be older than the trajectory. After one iteration from the guess `u = 0` the
gradient `Vx` of the last node is that of the guess, not of the returned trajectory. -/
theorem C129_value_counterexample (s : LqSt ℚ 1 1) (fuel : Nat) :
    ∃ o, solve (scalar 3).toProb (cfg 0) (oracle (scalar 3) Demo.chol .ddp) .ddp (fuel + 1) 1
        (fun _ => ![3]) (fun _ => 0) true (some 0) s = some o ∧
      o.final.xs 1 = ![2] ∧ (o.final.dir.V 1).Vx = ![3] ∧
      (scalar 3).term.q + (scalar 3).term.Q *ᵥ o.final.xs 1 = ![2] := by
  have hcv := scalar_convex 3
  have hro0 : Rollout (scalar 3).toProb (fun _ => ![3]) (fun _ => 0) := by
    refine ⟨?_, fun t _ => ?_⟩
    · funext i; fin_cases i; rfl
    · funext i; fin_cases i; simp [scalar, LqProb.toProb, Lqr.next, mulVec, dotProduct]
  have hsane := cfg_sane (r := 0) le_rfl
  obtain ⟨e, s', g, hit, hb, hcl, hro, -, -, -, -, he, -, hd, -, hpo⟩ :=
    iteration_lq (kind := .ddp) (s := start (scalar 3).toProb (cfg 0) (fun _ => ![3]) (fun _ => 0) true (some 0) s)
      one_pos hcv Demo.chol_complete Demo.chol_sound (as := [1/2, 1/4]) rfl hsane.accept (fun h => by cases h) hsane.grad hsane.stepinc
      hsane.regmin rfl rfl (.inl rfl) (fun _ => by simp [start, LqProb.toProb, upd]) (fun _ => hro0)
      (fun h => by cases h) fuel
  have hu : s'.us 0 0 = -1 := by
    have := C29_optimal hb hcv.symm Demo.chol_sound (.inr rfl) (fun _ => gaps_of_rollout hro0) _ _ hcl (fun _ => ![-1])
    unfold total at this
    change costToGo (scalar 3) _ 0 ![3] ≤ costToGo (scalar 3) _ 0 ![3] at this
    rw [scalar_togo, scalar_togo] at this
    simp at this
    nlinarith [sq_nonneg (s'.us 0 0 + 1)]
  have hx1 : s'.xs 1 = ![2] := by
    have := hcl.step 0 one_pos
    rw [this, hcl.init]
    funext i
    fin_cases i
    simp [scalar, Lqr.next, mulVec, dotProduct, vecHead, hu]
    norm_num
  have hV : (s'.dir.V 1).Vx = ![3] := by
    have hT := (backwardPass_spec hb).term
    change g.V 1 = _ at hT
    rw [hd, hT]
    funext i
    fin_cases i
    simp [termValue, scalar, start, mulVec, dotProduct]
  have hlast : (scalar 3).term.q + (scalar 3).term.Q *ᵥ s'.xs 1 = ![2] := by
    rw [hx1]
    funext i
    fin_cases i
    simp [scalar, mulVec, dotProduct]
  unfold solve iterLoop
  rw [hit]
  cases e with
  | giveUp => exact absurd rfl he
  | converged => exact ⟨_, rfl, hx1, hV, hlast⟩
  | «continue» => exact ⟨_, rfl, hx1, hV, hlast⟩

end PolicyDemo
end Verif.Lq
