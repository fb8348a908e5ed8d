import Verif.Lemmas.IntroLq

set_option linter.unusedSectionVars false

/-!
# `SolverIntro::solve` on linear-quadratic problems with equality constraints (C135)

The complete solve loop of intro.cpp L70-185 with the derivatives, the gains of each of the three equality solvers, the
forward pass, the penalty, the line search on the merit function, the regularisation updates and the stopping test.
-/

namespace Verif.Intro
open Verif Verif.Lq Verif.Solve Matrix

section step
variable {K : Type} [Field K] [LinearOrder K] [IsStrictOrderedRing K] {n : Nat} {nu nh : Nat → Nat}
variable {P : LqProb K n nu} {cs : ∀ t, Affine K n (nu t) (nh t)} {F : Fact K} {es : EqSolver} {rho : K} {feas : Bool}
variable {xs : Nat → Fin n → K} {us : ∀ t, Fin (nu t) → K} {s g : Arrays K n nu}

/-- C135. The trajectory of the full step with regularisation `rho` satisfies the constraints and minimises, among the
controls that do, the cost plus `½ rho` times the squared distance from the candidate. -/
theorem C135_proximal (h : backwardOn P cs F es (some rho) feas xs us s = .ok g) (hs : Symmetric P) (hF : FactOk F)
    (hf : feas = true → ∀ t ≤ P.T, gaps P xs us t = 0)
    (xs' : Nat → Fin n → K) (us' : ∀ t, Fin (nu t) → K) (hc : ClosedLoop P xs us g 1 xs' us') :
    Satisfies P cs us' 0 P.x0 ∧ ∀ vs, Satisfies P cs vs 0 P.x0 →
      total P us' + (1 / 2) * rho * moved P xs us us' ≤ total P vs + (1 / 2) * rho * moved P xs us vs :=
  ⟨satisfies_full h hs hF xs' us' hc, fun vs hv => prox_optimal h hs hF hf xs' us' hc vs hv⟩

/-- C135. The improvement of the cost that is predicted for the full step falls short of the actual one by exactly
`½ rho` times the squared distance moved, from every candidate. -/
theorem C135_improvement (h : backwardOn P cs F es (some rho) feas xs us s = .ok g) (hs : Symmetric P) (hF : FactOk F)
    (hf : feas = true → ∀ t ≤ P.T, gaps P xs us t = 0) (dx : Nat → Fin n → K)
    (xs' : Nat → Fin n → K) (us' : ∀ t, Fin (nu t) → K) (hc : ClosedLoop P xs us g 1 xs' us') :
    costOf P xs us - total P us' =
      (expectedImprovementFddp P.T feas (gaps P xs us) dx g).1
        + (1 / 2) * (expectedImprovementFddp P.T feas (gaps P xs us) dx g).2 + (1 / 2) * rho * moved P xs us us' :=
  prox_full_step h hs hF hf dx xs' us' hc

end step

section solve
variable {K : Type} [Field K] [LinearOrder K] [IsStrictOrderedRing K] {n m : Nat} {nh : Nat → Nat}
variable {P : LqProb K n (fun _ => m)} {cs : ∀ t, Affine K n m (nh t)} {F : Fact K} {es : EqSolver}

/-- The penalty with which a solve starts (intro.cpp L90-92). -/
def upsilon0 (c : IntroSolve.ICfg K) (s : LqI K n m nh) : K := if c.zeroUpsilon then 0 else s.upsilon

/-- C135. On every convex linear-quadratic problem with independent affine constraints, with each of the three equality
solvers, from every initial guess (its states need not follow the dynamics, its controls need not satisfy the
constraints), `solve` with `init_reg = 0` and one iteration ends with the constrained optimum and its rollout. Left out
are the guesses that violate the dynamics or the constraints and whose merit happens to be exactly the optimal cost. -/
theorem C135_one_iteration_partial (hm : 0 < m) (h : ConvexLq P) (hF : FactOk F) (hC : FactComplete F)
    (hR : ∀ t < P.T, FullRank (cs t).D) {c : IntroSolve.ICfg K} (hc : Sane c)
    (xs : Nat → Fin n → K) (us : Nat → Fin m → K) (feas : Bool) (hf : feas = true → Rollout P.toProb xs us)
    (s : LqI K n m nh) (hups : 0 ≤ upsilon0 c s)
    (hne : (Rollout P.toProb xs us ∧ Satisfies P cs us 0 P.x0) ∨
      ¬ IsLeast (costs P cs) (IntroSolve.merit c.norm P.toProb (eqc cs) (upsilon0 c s) xs us)) (fuel : Nat) :
    ∃ o, IntroSolve.solve P.toProb (eqc cs) c (oracle P cs F es) (fuel + 1) 1 xs us feas (some 0) s = some o ∧
      Rollout P.toProb o.final.base.xs o.final.base.us ∧ o.final.base.feas = true ∧ o.final.hfeas = 0 ∧
      Best P cs o.final.base.us := by
  obtain ⟨e, q, s', g, a1, a2, a3, a4, a5, a6, a7, a8, a9, a10, a11, a12, a13, a14, a15, a16⟩ :=
    iteration_reg (c := c) (es := es)
      (s := { s with base := start P.toProb c.toCfg xs us feas (some 0) s.base, upsilon := upsilon0 c s })
      hm h hF hC hR hc le_rfl (hc.regmin.trans_lt hc.regmax) rfl (.inl rfl) (.inl rfl) hups hf (.inr hne) fuel
  have hopt : Best P cs s'.base.us :=
    C74_optimal_partial a2 h.symm hF (.inr rfl) (fun e => gaps_of_rollout (hf e)) _ _ a3
  show ∃ o, IntroSolve.iterLoop P.toProb (eqc cs) c (oracle P cs F es) (fuel + 1) 1
    { s with base := start P.toProb c.toCfg xs us feas (some 0) s.base, upsilon := upsilon0 c s } = some o ∧ _
  rw [IntroSolve.iterLoop, a1]
  cases e with
  | giveUp => split at a16 <;> cases a16
  | converged => exact ⟨_, rfl, a4, a5, a7, hopt⟩
  | «continue» => exact ⟨_, rfl, a4, a5, a7, hopt⟩

/-- An iteration from the solution stays there and converges. -/
theorem iteration_stay (hm : 0 < m) (h : ConvexLq P) (hF : FactOk F) (hC : FactComplete F)
    (hR : ∀ t < P.T, FullRank (cs t).D) {c : IntroSolve.ICfg K} (hc : Sane c) {s : LqI K n m nh}
    (hp : 0 ≤ s.base.preg) (hpm : s.base.preg < c.reg.max) (hr : s.base.recalc = true)
    (hmt : s.base.iter = 0 ∨ Matches P.toProb s.base ∧ IntroSolve.HMatches P.toProb (eqc cs) s)
    (hups : 0 ≤ s.upsilon) (hro : Rollout P.toProb s.base.xs s.base.us) (hbest : Best P cs s.base.us) (fuel : Nat) :
    ∃ q s', IntroSolve.iteration P.toProb (eqc cs) c (oracle P cs F es) (fuel + 1) s = some (.converged, q, s') ∧
      s'.base.iter = s.base.iter ∧ s'.base.feas = true ∧ s'.hfeas = 0 ∧ (∀ t ≤ P.T, s'.base.xs t = s.base.xs t) ∧
      (∀ t < P.T, s'.base.us t = s.base.us t) ∧ Rollout P.toProb s'.base.xs s'.base.us := by
  obtain ⟨e, q, s', g, a1, a2, a3, a4, a5, a6, a7, a8, a9, a10, a11, a12, a13, a14, a15, a16⟩ :=
    iteration_reg (c := c) (es := es) hm h hF hC hR hc hp hpm hr hmt
      (.inr ((satisfies_iff hro hm).mp hbest.1)) hups (fun _ => hro) (.inr (.inl ⟨hro, hbest.1⟩)) fuel
  have hmv := stay_of_best h.symm hF hp a2 hro hbest a3
  obtain ⟨k1, k2⟩ := zero_of_moved a3 hmv
  obtain ⟨m1, m2⟩ := moved_eq_zero hmv
  have hpr : pred P s.base.feas s.base.xs s.base.us g s'.base.xs = (0, 0) := by
    unfold pred
    rw [fddp_no_gaps g k2, improvement_of_k k1]
  rw [hpr] at a16
  have he : e = .converged := by
    rw [a16]
    simp [hc.stop]
  rw [he] at a1
  exact ⟨q, s', a1, a10, a5, a7, fun t ht => (a3.traj_eq t ht).symm.trans (m2 t ht), m1, a4⟩

/-- C135. With two or more iterations it also reports success: `solve` returns true, at the constrained optimum. -/
theorem C135_converges_partial (hm : 0 < m) (h : ConvexLq P) (hF : FactOk F) (hC : FactComplete F)
    (hR : ∀ t < P.T, FullRank (cs t).D) {c : IntroSolve.ICfg K} (hc : Sane c)
    (xs : Nat → Fin n → K) (us : Nat → Fin m → K) (feas : Bool) (hf : feas = true → Rollout P.toProb xs us)
    (s : LqI K n m nh) (hups : 0 ≤ upsilon0 c s)
    (hne : (Rollout P.toProb xs us ∧ Satisfies P cs us 0 P.x0) ∨
      ¬ IsLeast (costs P cs) (IntroSolve.merit c.norm P.toProb (eqc cs) (upsilon0 c s) xs us)) (fuel maxiter : Nat) :
    ∃ o, IntroSolve.solve P.toProb (eqc cs) c (oracle P cs F es) (fuel + 1) (maxiter + 2) xs us feas (some 0) s = some o ∧
      o.ret = true ∧ o.final.base.iter ≤ 1 ∧ Rollout P.toProb o.final.base.xs o.final.base.us ∧
      o.final.base.feas = true ∧ o.final.hfeas = 0 ∧ Best P cs o.final.base.us := by
  obtain ⟨e, q, s', g, a1, a2, a3, a4, a5, a6, a7, a8, a9, a10, a11, a12, a13, a14, a15, a16⟩ :=
    iteration_reg (c := c) (es := es)
      (s := { s with base := start P.toProb c.toCfg xs us feas (some 0) s.base, upsilon := upsilon0 c s })
      hm h hF hC hR hc le_rfl (hc.regmin.trans_lt hc.regmax) rfl (.inl rfl) (.inl rfl) hups hf (.inr hne) fuel
  have hopt : Best P cs s'.base.us :=
    C74_optimal_partial a2 h.symm hF (.inr rfl) (fun e => gaps_of_rollout (hf e)) _ _ a3
  have hiter0 : s'.base.iter = 0 := a10
  show ∃ o, IntroSolve.iterLoop P.toProb (eqc cs) c (oracle P cs F es) (fuel + 1) (maxiter + 2)
    { s with base := start P.toProb c.toCfg xs us feas (some 0) s.base, upsilon := upsilon0 c s } = some o ∧ _
  rw [IntroSolve.iterLoop, a1]
  cases e with
  | giveUp => split at a16 <;> cases a16
  | converged => exact ⟨_, rfl, rfl, by rw [hiter0]; exact Nat.zero_le _, a4, a5, a7, hopt⟩
  | «continue» =>
    have hmx : 0 < c.reg.max := hc.regmin.trans_lt hc.regmax
    have hplt : s'.base.preg < c.reg.max := by
      obtain ⟨r, hr, hq⟩ := a14
      have hr' : r ≤ c.reg.min ∧ 0 ≤ r := by
        rcases hr with ⟨rfl, -⟩ | rfl
        · exact ⟨hc.regmin, le_rfl⟩
        · show Solver.decrease c.reg (0 : K) ≤ _ ∧ 0 ≤ Solver.decrease c.reg (0 : K)
          refine ⟨?_, decrease_nonneg hc.regmin _⟩
          unfold Solver.decrease
          simp only [zero_div]
          split
          · exact le_rfl
          · exact hc.regmin
      rcases hq with hq | hq <;> rw [hq]
      · exact hr'.1.trans_lt hc.regmax
      · exact (increase_le r).trans_lt ((mul_le_mul_of_nonneg_right hr'.1 hc.reginc).trans_lt hc.regfactor)
    obtain ⟨q2, s2, b1, b2, b3, b4, b5, b6, b7⟩ := iteration_stay (es := es)
      (s := { s' with base := { s'.base with iter := s'.base.iter + 1 } }) hm h hF hC hR hc a13 hplt a9
      (.inr ⟨a11, a12⟩) (by show 0 ≤ s'.upsilon; rw [a8]; exact hups) a4 hopt fuel
    have htot : total P s2.base.us = total P s'.base.us := by
      rw [← rollout_total b7, ← rollout_total a4]
      unfold totalCost
      show _ + P.term.costT (s2.base.xs P.T) = _ + P.term.costT (s'.base.xs P.T)
      rw [b5 P.T le_rfl]
      congr 1
      refine Finset.sum_congr rfl fun t ht => ?_
      have ht := Finset.mem_range.mp ht
      rw [b5 t ht.le, b6 t ht]
    have hsat2 : Satisfies P cs s2.base.us 0 P.x0 := by
      rw [satisfies_of_rollout b7 hm]
      intro t ht
      rw [b5 t ht.le, b6 t ht]
      exact (satisfies_of_rollout a4 hm).mp a6 t ht
    simp only
    rw [IntroSolve.iterLoop, b1]
    refine ⟨_, rfl, rfl, ?_, b7, b3, b4, hsat2, fun vs hv => ?_⟩
    · show s2.base.iter ≤ 1
      rw [b2]
      show s'.base.iter + 1 ≤ 1
      omega
    · show total P s2.base.us ≤ _
      rw [htot]; exact hopt.2 vs hv

/-- C135. The constrained optimum is a fixed point: started there, with any initial regularisation below the maximum,
`solve` returns true in its first iteration and has not moved. -/
theorem C135_fixed_point (hm : 0 < m) (h : ConvexLq P) (hF : FactOk F) (hC : FactComplete F)
    (hR : ∀ t < P.T, FullRank (cs t).D) {c : IntroSolve.ICfg K} (hc : Sane c)
    (xs : Nat → Fin n → K) (us : Nat → Fin m → K) (feas : Bool) (hro : Rollout P.toProb xs us) (hbest : Best P cs us)
    (regInit : Option K) (hp : 0 ≤ regInit.getD c.reg.min) (hpm : regInit.getD c.reg.min < c.reg.max)
    (s : LqI K n m nh) (hups : 0 ≤ upsilon0 c s) (fuel maxiter : Nat) :
    ∃ o, IntroSolve.solve P.toProb (eqc cs) c (oracle P cs F es) (fuel + 1) (maxiter + 1) xs us feas regInit s = some o ∧
      o.ret = true ∧ o.final.base.iter = 0 ∧ o.final.base.feas = true ∧ o.final.hfeas = 0 ∧
      (∀ t ≤ P.T, o.final.base.xs t = xs t) ∧ ∀ t < P.T, o.final.base.us t = us t := by
  obtain ⟨q, s', b1, b2, b3, b4, b5, b6, -⟩ := iteration_stay (es := es)
    (s := { s with base := start P.toProb c.toCfg xs us feas regInit s.base, upsilon := upsilon0 c s })
    hm h hF hC hR hc hp hpm rfl (.inl rfl) hups hro hbest fuel
  show ∃ o, IntroSolve.iterLoop P.toProb (eqc cs) c (oracle P cs F es) (fuel + 1) (maxiter + 1)
    { s with base := start P.toProb c.toCfg xs us feas regInit s.base, upsilon := upsilon0 c s } = some o ∧ _
  rw [IntroSolve.iterLoop, b1]
  exact ⟨_, rfl, rfl, b2, b3, b4, b5, b6⟩

end solve

section real
variable {n m : Nat} {nh : Nat → Nat} {P : LqProb ℝ n (fun _ => m)} {cs : ∀ t, Affine ℝ n m (nh t)}

/-- C135. With regularisation: on every convex linear-quadratic problem with independent affine constraints there is a
constant with which, for all sane parameters and guesses, allowed enough iterations, `solve` returns true with a
trajectory that follows the dynamics and satisfies the constraints exactly, and whose cost exceeds that of any other
such trajectory `vs` by at most the larger of `½ rho con th_stop`, where `rho` bounds the regularisation, and
`½ init_reg` times the squared distance from the guess to `vs`. -/
theorem C135_regularised (hm : 0 < m) (h : ConvexLq P) (hR : ∀ t < P.T, FullRank (cs t).D) :
    ∃ con, 0 ≤ con ∧ ∀ {F : Fact ℝ}, FactOk F → FactComplete F → ∀ (es : EqSolver) {c : IntroSolve.ICfg ℝ}, Sane c →
      c.thStepdec < 1 → 1 ≤ c.reg.inc → c.reg.inc ≤ c.reg.dec →
      ∀ (xs : Nat → Fin n → ℝ) (us : Nat → Fin m → ℝ) (feas : Bool), (feas = true → Rollout P.toProb xs us) →
      ∀ (regInit : Option ℝ), 0 < regInit.getD c.reg.min → regInit.getD c.reg.min * c.reg.inc < c.reg.max →
      ∀ (s : LqI ℝ n m nh), 0 ≤ upsilon0 c s → ∀ fuel, ∃ N0, ∀ N ≥ N0,
      ∃ o, IntroSolve.solve P.toProb (eqc cs) c (oracle P cs F es) (fuel + 1) N xs us feas regInit s = some o ∧
        o.ret = true ∧ Rollout P.toProb o.final.base.xs o.final.base.us ∧ o.final.base.feas = true ∧
        Satisfies P cs o.final.base.us 0 P.x0 ∧
        ∀ vs, Satisfies P cs vs 0 P.x0 → total P o.final.base.us ≤ total P vs +
          max ((1 / 2) * (max (regInit.getD c.reg.min) c.reg.min * c.reg.inc) * con * c.thStop)
            ((1 / 2) * regInit.getD c.reg.min * moved P xs us vs) := by
  obtain ⟨con, hcon0, hcon⟩ := exists_const h
  refine ⟨con, hcon0, ?_⟩
  intro F hF hC es c hc hsd hi1 hid xs us feas hf regInit hreg hregx s hups fuel
  -- an optimum
  obtain ⟨g0, hb0⟩ := back_ok (es := es) h hF hC hR (le_refl (0 : ℝ)) false (fun _ => 0) (fun _ => 0) s.base.dir
  have ho : Best P cs _ := C74_optimal_partial hb0 h.symm hF (.inr rfl) (fun e => by cases e) _ _
    (closedLoop_exists P (fun _ => 0) (fun _ => 0) g0 1)
  generalize (fun t => (0 : Fin m → ℝ) - (1 : ℝ) • (g0.out t).k - (g0.out t).Kfb *ᵥ
    (policyTraj P (fun _ => 0) (fun _ => 0) g0 1 t - 0)) = ustar at ho
  generalize hp0 : regInit.getD c.reg.min = p0 at *
  generalize hrho : max p0 c.reg.min * c.reg.inc = rho
  have hi0 : 0 ≤ c.reg.inc := by linarith
  have hmxn : 0 ≤ max p0 c.reg.min := hreg.le.trans (le_max_left _ _)
  have hr1 : p0 * c.reg.inc ≤ rho := hrho ▸ mul_le_mul_of_nonneg_right (le_max_left _ _) hi0
  have hr2 : c.reg.min * c.reg.inc ≤ rho := hrho ▸ mul_le_mul_of_nonneg_right (le_max_right _ _) hi0
  have hrx : rho < c.reg.max := by
    rw [← hrho]
    rcases max_choice p0 c.reg.min with e | e <;> rw [e]
    · exact hregx
    · exact hc.regfactor
  have hp0r : p0 ≤ rho := (le_mul_of_one_le_right hreg.le hi1).trans hr1
  have hr0 : 0 ≤ rho := hreg.le.trans hp0r
  have hk0 : 0 ≤ (1 / 2) * rho * con := by positivity
  have hq1 : (1 / 2) * rho * con / (1 + (1 / 2) * rho * con) < 1 := (div_lt_one (by linarith)).mpr (by linarith)
  have hpS : (start P.toProb c.toCfg xs us feas regInit s.base).preg = p0 := hp0
  -- the first iteration
  obtain ⟨e, q, s', g, a1, a2, a3, a4, a5, a6, a7, a8, a9, a10, a11, a12, a13, a14, a15, a16⟩ :=
    iteration_reg (c := c) (es := es)
      (s := { s with base := start P.toProb c.toCfg xs us feas regInit s.base, upsilon := upsilon0 c s })
      hm h hF hC hR hc (by rw [hpS]; exact hreg.le) (by rw [hpS]; exact hp0r.trans_lt hrx) rfl (.inl rfl) (.inl rfl)
      hups hf (.inl (by rw [hpS]; exact hreg)) fuel
  rw [hpS] at a2 a14
  have hprox := prox_optimal a2 h.symm hF (fun e => gaps_of_rollout (hf e)) _ _ a3
  have hgap' : 0 ≤ total P s'.base.us - total P ustar := sub_nonneg.mpr (ho.2 _ a6)
  obtain ⟨j, hj⟩ : ∃ j : Nat, ((1 / 2) * rho * con / (1 + (1 / 2) * rho * con)) ^ j *
      (total P s'.base.us - total P ustar) < c.thStop := by
    rcases eq_or_lt_of_le hgap' with hz | hpos
    · exact ⟨0, by rw [← hz, mul_zero]; exact hc.stop⟩
    · obtain ⟨j, hj⟩ := exists_pow_lt_of_lt_one (div_pos hc.stop hpos) hq1
      exact ⟨j, (lt_div_iff₀ hpos).mp hj⟩
  refine ⟨j + 2, fun N hN => ?_⟩
  obtain ⟨N, rfl⟩ : ∃ N', N = N' + 1 := ⟨N - 1, by omega⟩
  show ∃ o, IntroSolve.iterLoop P.toProb (eqc cs) c (oracle P cs F es) (fuel + 1) (N + 1)
    { s with base := start P.toProb c.toCfg xs us feas regInit s.base, upsilon := upsilon0 c s } = some o ∧ _
  rw [IntroSolve.iterLoop, a1]
  cases e with
  | giveUp => split at a16 <;> cases a16
  | converged =>
    refine ⟨_, rfl, rfl, a4, a5, a6, fun vs hv => ?_⟩
    have h1 : 0 ≤ (1 / 2) * p0 * moved P xs us s'.base.us := mul_nonneg (by linarith) (moved_nonneg _)
    have h2 := hprox vs hv
    change total P s'.base.us + (1 / 2) * p0 * moved P xs us s'.base.us ≤ total P vs + (1 / 2) * p0 * moved P xs us vs at h2
    have h3 := le_max_right ((1 / 2) * rho * con * c.thStop) ((1 / 2) * p0 * moved P xs us vs)
    show total P s'.base.us ≤ _
    linarith
  | «continue» =>
    have hpr' : s'.base.preg ≤ rho := by
      obtain ⟨r, ⟨rfl, -⟩ | rfl, hq⟩ := a14
      · rcases hq with hq | hq <;> rw [hq]
        · exact hp0r
        · exact (increase_le _).trans hr1
      · exact cycle_le hi1 hid hc.regmin hreg.le hr2 hp0r hq
    obtain ⟨o, b1, b2, b3, b4, b5⟩ := loop_reg (es := es) hm h hF hC hR hc hsd hi1 hid hcon0 hcon hr2 hrx ho fuel N
      (s := { s' with base := { s'.base with iter := s'.base.iter + 1 } })
      a13 hpr' a9 (.inr ⟨a11, a12⟩) (by show 0 ≤ s'.upsilon; rw [a8]; exact hups) a4 a6 a5
    simp only [b1, Option.map_some]
    refine ⟨_, rfl, ?_⟩
    rcases b5 with ⟨c1, c2⟩ | ⟨-, -, c3⟩
    · refine ⟨c1, b2, b4, b3, fun vs hv => ?_⟩
      have h1 := ho.2 vs hv
      have h3 := le_max_left ((1 / 2) * rho * con * c.thStop) ((1 / 2) * p0 * moved P xs us vs)
      show total P o.final.base.us ≤ _
      linarith
    · exact absurd (c3 j (by omega)) (not_le.mpr hj)

end real

namespace LqDemo

/-- The default parameters, with the first three of the ten default step lengths. -/
noncomputable def cfg : IntroSolve.ICfg ℝ where
  alphas := [1, 1/2, 1/4]
  thAcceptstep := 1/10
  thAcceptnegstep := 2
  thStop := 1/10^9
  thGrad := 1/10^12
  thStepdec := 1/2
  thStepinc := 1/100
  reg := ⟨10, 10, 1/10^9, 10^9⟩
  norm := .linf
  thFeas := 1/10^4
  rho := 3/10
  zeroUpsilon := false

theorem cfg_sane : Sane cfg :=
  ⟨⟨_, rfl⟩, by norm_num [cfg], by norm_num [cfg], by norm_num [cfg], by norm_num [cfg], by norm_num [cfg],
    by norm_num [cfg], by norm_num [cfg], by norm_num [cfg], by norm_num [cfg], by norm_num [cfg]⟩

theorem prob2_convex : ConvexLq Demo.prob2 where
  symm := Demo.prob2_symm
  psd := fun _ x u => (Demo.stage_convex 0 0).psd x u
  pd := fun _ v hv => Demo.stage_pd 0 0 v hv
  term := fun v => by
    have := dot_self_nonneg v
    simpa [Demo.prob2] using this

/-- The hypotheses of `C135_regularised` are met by the default parameters on the two-stage problem of C74, from a guess
that violates dynamics and constraints. -/
example (es : EqSolver) (s : LqI ℝ 1 2 fun _ => 1) (hs : s.upsilon = 0) (fuel : Nat) : ∃ N0, ∀ N ≥ N0,
    ∃ o, IntroSolve.solve Demo.prob2.toProb (eqc fun _ => Demo.con) cfg (oracle Demo.prob2 (fun _ => Demo.con) Demo.fact es)
      (fuel + 1) N (fun _ => ![3]) (fun _ => ![1, 1]) false none s = some o ∧ o.ret = true ∧
      Satisfies (nh := fun _ => 1) Demo.prob2 (fun _ => Demo.con) o.final.base.us 0 Demo.prob2.x0 := by
  obtain ⟨con, -, hcon⟩ := C135_regularised (nh := fun _ => 1) (cs := fun _ => Demo.con) two_pos prob2_convex
    fun _ _ => Demo.con_rank
  obtain ⟨N0, hN⟩ := hcon Demo.fact_ok.1 Demo.fact_ok.2 es cfg_sane (by norm_num [cfg]) (by norm_num [cfg])
    (by norm_num [cfg]) (fun _ => ![3]) (fun _ => ![1, 1]) false (fun e => by cases e) none (by norm_num [cfg])
    (by norm_num [cfg]) s (by simp [upsilon0, cfg, hs]) fuel
  refine ⟨N0, fun N h => ?_⟩
  obtain ⟨o, h1, h2, -, -, h3, -⟩ := hN N h
  exact ⟨o, h1, h2, h3⟩

/-- `x' = x`, cost `½ u₀² + ½ u₁² - 2 u₁`. -/
noncomputable def prob : LqProb ℝ 1 (fun _ => 2) where
  T := 1
  node := fun _ => { A := 1, B := 0, f := 0, Q := 0, R := 1, N := 0, q := 0, r := ![0, -2] }
  term := { A := 0, B := 0, f := 0, Q := 0, R := 0, N := 0, q := 0, r := 0 }
  x0 := ![0]

/-- The constraint `u₀ = 1`. -/
noncomputable def con : Affine ℝ 1 2 1 where
  C := 0
  D := !![1, 0]
  c := ![-1]

theorem con_rank : FullRank con.D := fun v hv => by
  have := congrFun hv 0
  simp [con, mulVec, dotProduct] at this
  ext i
  fin_cases i
  exact this

theorem convex : ConvexLq prob where
  symm := ⟨fun _ => transpose_zero, fun _ => transpose_one, transpose_zero⟩
  psd := fun _ x u => by
    have := dot_self_nonneg u
    simpa [prob] using this
  pd := fun _ v hv => by
    have := dot_self_pos hv
    simpa [prob] using this
  term := fun v => by simp [prob]

theorem total_prob (vs : Nat → Fin 2 → ℝ) : total prob vs = (1/2) * vs 0 0 ^ 2 + (1/2) * vs 0 1 ^ 2 - 2 * vs 0 1 := by
  have hT : prob.T - 0 = 1 := rfl
  simp [total, costToGo, hT, prob, Lqr.cost, Lqr.costT, traj, dotProduct, vecHead, vecTail]
  ring

theorem traj_prob (vs : Nat → Fin 2 → ℝ) (t : Nat) : traj prob vs 0 prob.x0 t = ![0] := by
  induction t with
  | zero => rfl
  | succ t ih => rw [traj, ih]; simp [prob, Lqr.next]

theorem satisfies_prob (vs : Nat → Fin 2 → ℝ) :
    Satisfies (nh := fun _ => 1) prob (fun _ => con) vs 0 prob.x0 ↔ vs 0 0 = 1 := by
  constructor
  · intro h
    have := congrFun (h 0 (by simp [prob]) two_pos) 0
    simp [Affine.eval, con, mulVec, dotProduct] at this
    linarith
  · intro h i hi _
    obtain rfl : i = 0 := by simp [prob] at hi; exact hi
    funext j
    fin_cases j
    simp [Affine.eval, con, mulVec, dotProduct, h]

theorem rollout_prob (us : Nat → Fin 2 → ℝ) : Rollout prob.toProb (fun _ => ![0]) us := by
  refine rollout_of_gaps fun t ht => ?_
  cases t with
  | zero => simp [gaps, prob]
  | succ t => simp [gaps, prob, Lqr.next]

theorem best (ustar : Nat → Fin 2 → ℝ) (h : ustar 0 = ![1, 2]) : Best (nh := fun _ => 1) prob (fun _ => con) ustar := by
  refine ⟨(satisfies_prob _).mpr (by simp [h]), fun vs hv => ?_⟩
  rw [satisfies_prob] at hv
  rw [total_prob, total_prob, h, hv]
  simp
  nlinarith [sq_nonneg (vs 0 1 - 2)]

/-- The hypotheses of `C135_fixed_point` are met at the optimum `u = (1, 2)`, those of `C135_one_iteration_partial` and
`C135_converges_partial` at the guess `u = (0, 0)`, which violates the constraint. -/
example : Best (nh := fun _ => 1) prob (fun _ => con) (fun _ => ![1, 2]) ∧ FullRank con.D ∧ ConvexLq prob ∧ Sane cfg ∧
    ¬ Satisfies (nh := fun _ => 1) prob (fun _ => con) (fun _ => ![0, 0]) 0 prob.x0 ∧
    ¬ IsLeast (costs (nh := fun _ => 1) prob fun _ => con)
      (IntroSolve.merit .linf prob.toProb (eqc (nh := fun _ => 1) fun _ => con) 0 (fun _ => ![0]) (fun _ => ![0, 0])) := by
  refine ⟨best _ rfl, con_rank, convex, cfg_sane, by rw [satisfies_prob]; simp, fun hl => ?_⟩
  unfold IntroSolve.merit at hl
  rw [zero_mul, add_zero, rollout_total (rollout_prob _), total_prob] at hl
  have := hl.2 ⟨fun _ => ![1, 2], (best _ rfl).1, rfl⟩
  rw [total_prob] at this
  norm_num at this

theorem moved_prob (us vs : Nat → Fin 2 → ℝ) :
    moved prob (fun _ => ![0]) us vs = (vs 0 0 - us 0 0) ^ 2 + (vs 0 1 - us 0 1) ^ 2 := by
  have hT : prob.T = 1 := rfl
  unfold moved
  simp only [traj_prob, hT, Finset.sum_range_one, sub_self, zero_dotProduct, Finset.sum_const_zero, add_zero]
  simp [dotProduct, Fin.sum_univ_succ]
  ring

end LqDemo

open LqDemo in
/-- C135, and what `true` is worth: the stopping test uses the predicted improvement of the cost, which says nothing about
optimality when the candidate it is predicted from violates the constraints. On this problem, with `init_reg = 1`, from
the guess `u = (0, 0)`, `solve` reports success in its first iteration, whatever the thresholds, with a trajectory
whose cost is `½` above the constrained optimum: in the prediction, the decrease of one term of the cost cancels with the
increase of the other that the constraint requires. -/
theorem C135_converged_counterexample {F : Fact ℝ} (hF : FactOk F) (hC : FactComplete F) (es : EqSolver)
    {c : IntroSolve.ICfg ℝ} (hc : Sane c) (hmax : 1 < c.reg.max) (s : LqI ℝ 1 2 fun _ => 1) (hups : 0 ≤ upsilon0 c s)
    (fuel maxiter : Nat) :
    ∃ o, IntroSolve.solve prob.toProb (eqc fun _ => con) c (oracle prob (fun _ => con) F es) (fuel + 1) (maxiter + 1)
        (fun _ => ![0]) (fun _ => ![0, 0]) true (some 1) s = some o ∧
      o.ret = true ∧ o.final.base.iter = 0 ∧
      ∀ ustar, Best (nh := fun _ => 1) prob (fun _ => con) ustar → total prob o.final.base.us = total prob ustar + 1/2 := by
  obtain ⟨e, q, s', g, a1, a2, a3, a4, a5, a6, a7, a8, a9, a10, a11, a12, a13, a14, a15, a16⟩ :=
    iteration_reg (c := c) (es := es) (cs := fun _ => con) (P := prob)
      (s := { s with
        base := start prob.toProb c.toCfg (fun _ => ![0]) (fun _ => ![0, 0]) true (some 1) s.base
        upsilon := upsilon0 c s })
      two_pos convex hF hC (fun _ _ => con_rank) hc (show (0 : ℝ) ≤ 1 from zero_le_one) hmax rfl (.inl rfl) (.inl rfl) hups
      (fun _ => rollout_prob _) (.inl (show (0 : ℝ) < 1 from one_pos)) fuel
  have hg := gaps_of_rollout (rollout_prob fun _ => ![0, 0])
  have hprox := prox_optimal a2 convex.symm hF (fun _ => hg) _ _ a3 (fun _ => ![1, 1])
    ((satisfies_prob _).mpr (by simp))
  have hu0 := (satisfies_prob _).mp a6
  change total prob s'.base.us + 1 / 2 * 1 * moved prob (fun _ => ![0]) (fun _ => ![0, 0]) s'.base.us ≤
    total prob (fun _ => ![1, 1]) + 1 / 2 * 1 * moved prob (fun _ => ![0]) (fun _ => ![0, 0]) (fun _ => ![1, 1]) at hprox
  rw [moved_prob, moved_prob, total_prob, total_prob, hu0] at hprox
  simp at hprox
  have hu1 : s'.base.us 0 1 = 1 := by
    have : (s'.base.us 0 1 - 1) ^ 2 ≤ 0 := by nlinarith
    have := pow_eq_zero_iff (two_ne_zero) |>.mp (le_antisymm this (sq_nonneg _))
    linarith
  have himp := prox_full_step a2 convex.symm hF (fun _ => hg)
    (fun t => (start prob.toProb c.toCfg (fun _ => ![0]) (fun _ => ![0, 0]) true (some 1) s.base).xs t - s'.base.xs t) _ _ a3
  have hcost : costOf prob (fun _ => ![0]) (fun _ => ![0, 0]) = total prob (fun _ => ![0, 0]) :=
    rollout_total (rollout_prob _)
  change costOf prob (fun _ => ![0]) (fun _ => ![0, 0]) - total prob s'.base.us =
    (pred prob true (fun _ => ![0]) (fun _ => ![0, 0]) g s'.base.xs).1 +
      1 / 2 * (pred prob true (fun _ => ![0]) (fun _ => ![0, 0]) g s'.base.xs).2 +
      1 / 2 * 1 * moved prob (fun _ => ![0]) (fun _ => ![0, 0]) s'.base.us at himp
  rw [hcost, moved_prob, total_prob, total_prob, hu0, hu1] at himp
  have hz : (pred prob true (fun _ => ![0]) (fun _ => ![0, 0]) g s'.base.xs).1 +
      1 / 2 * (pred prob true (fun _ => ![0]) (fun _ => ![0, 0]) g s'.base.xs).2 = 0 := by
    simp at himp
    linarith
  have he : e = .converged := by
    rw [a16]
    change (if |(pred prob true (fun _ => ![0]) (fun _ => ![0, 0]) g s'.base.xs).1 +
      1 / 2 * (pred prob true (fun _ => ![0]) (fun _ => ![0, 0]) g s'.base.xs).2| < c.thStop then Exit.converged
      else Exit.continue) = Exit.converged
    rw [hz, abs_zero, if_pos hc.stop]
  show ∃ o, IntroSolve.iterLoop prob.toProb (eqc fun _ => con) c (oracle prob (fun _ => con) F es) (fuel + 1) (maxiter + 1)
    { s with
      base := start prob.toProb c.toCfg (fun _ => ![0]) (fun _ => ![0, 0]) true (some 1) s.base
      upsilon := upsilon0 c s } = some o ∧ _
  rw [IntroSolve.iterLoop, a1, he]
  refine ⟨_, rfl, rfl, a10, fun ustar hstar => ?_⟩
  have hopt : total prob ustar = -3/2 := by
    have h1 := hstar.2 _ (best (fun _ => ![1, 2]) rfl).1
    have h2 := (best (fun _ => ![1, 2]) rfl).2 _ hstar.1
    have h3 : total prob (fun _ => ![1, 2]) = -3/2 := by rw [total_prob]; norm_num
    linarith
  show total prob s'.base.us = _
  rw [hopt, total_prob, hu0, hu1]
  norm_num

open LqDemo in
/-- C135 has an exception: the guess `u = (-1, 2)` violates the constraint `u₀ = 1`, and has exactly the optimal cost. With
penalty 0, the constructor's value, one iteration does not lead to controls that satisfy the constraint: the full step does,
but since it does not change the merit and `d0 = 2` is not below the gradient threshold, it is rejected. -/
theorem C135_one_iteration_counterexample {F : Fact ℝ} (hF : FactOk F) (hC : FactComplete F) (es : EqSolver)
    {c : IntroSolve.ICfg ℝ} (hal : ∃ as, c.alphas = 1 :: as ∧ (1 : ℝ) ∉ as) (hgr : c.thGrad ≤ 2)
    (s : LqI ℝ 1 2 fun _ => 1) (hups : upsilon0 c s = 0) (fuel : Nat) :
    Rollout prob.toProb (fun _ => ![0]) (fun _ => ![-1, 2]) ∧
    IsLeast (costs (nh := fun _ => 1) prob fun _ => con) (total prob fun _ => ![-1, 2]) ∧
    ∀ o, IntroSolve.solve prob.toProb (eqc fun _ => con) c (oracle prob (fun _ => con) F es) (fuel + 1) 1
        (fun _ => ![0]) (fun _ => ![-1, 2]) true (some 0) s = some o →
      ¬ Satisfies (nh := fun _ => 1) prob (fun _ => con) o.final.base.us 0 prob.x0 := by
  have hco : total prob (fun _ => ![-1, 2]) = total prob (fun _ => ![1, 2]) := by rw [total_prob, total_prob]; norm_num
  refine ⟨rollout_prob _, ?_, fun o ho => ?_⟩
  · rw [hco]
    refine ⟨⟨_, (best (fun _ => ![1, 2]) rfl).1, rfl⟩, ?_⟩
    rintro _ ⟨vs, hvs, rfl⟩
    exact (best (fun _ => ![1, 2]) rfl).2 vs hvs
  obtain ⟨as, hal, has⟩ := hal
  let s0 : LqI ℝ 1 2 fun _ => 1 := { s with
    base := start prob.toProb c.toCfg (fun _ => ![0]) (fun _ => ![-1, 2]) true (some 0) s.base
    upsilon := upsilon0 c s }
  have ho : IntroSolve.iterLoop prob.toProb (eqc fun _ => con) c (oracle prob (fun _ => con) F es) (fuel + 1) 1 s0 = some o := ho
  obtain ⟨s1, g, hdir, hrd⟩ := direction_ready (c := c) (es := es) (cs := fun _ => con) (P := prob) (s := s0) convex hF hC
    (fun _ _ => con_rank) le_rfl rfl (.inl rfl) (.inl rfl) fuel
  generalize hs2 : IntroSolve.prepare c (oracle prob (fun _ => con) F es) s1 = s2 at hrd
  have hback : backwardOn (nh := fun _ => 1) prob (fun _ => con) F es (some 0) true (fun _ => ![0]) (fun _ => ![-1, 2])
      s.base.dir = .ok g := hrd.back
  have hg := gaps_of_rollout (rollout_prob fun _ => ![-1, 2])
  -- the gains
  have hcl0 := closedLoop_exists prob (fun _ => ![0]) (fun _ => ![-1, 2]) g 1
  have hopt := C74_unique_partial hback convex.symm hF (.inr rfl) (fun _ => hg) _ _ hcl0 (fun _ => ![1, 2])
    (best _ rfl).1 ((best (fun _ => ![1, 2]) rfl).2 _ (satisfies_full hback convex.symm hF _ _ hcl0)) 0 (by simp [prob])
  have hk : (g.out 0).k = ![-2, 0] := by
    have hx : policyTraj prob (fun _ => ![0]) (fun _ => ![-1, 2]) g 1 0 - ![0] = 0 := by
      have := hcl0.init
      rw [this]; simp [prob]
    simp only [hx, mulVec_zero, sub_zero, one_smul] at hopt
    ext i
    have h := congrFun hopt i
    fin_cases i <;> simp at h ⊢ <;> linarith
  have hQu : (g.out 0).Q.Qu = ![-1, 0] := by
    have hb : BackLq (nh := fun _ => 1) prob (fun _ => con) F es (some 0) true (fun _ => ![0]) (fun _ => ![-1, 2]) g :=
      backwardPass_spec hback
    obtain ⟨hQ, -, -⟩ := backNode_ok (hb.node 0 (by simp [prob]))
    rw [hQ]
    ext i
    fin_cases i <;> simp [actionValue, Lqr.derivs, prob]
  -- every step
  have hstep : ∀ a (sT : LqI ℝ 1 2 fun _ => 1), IntroSolve.IProbed prob.toProb (eqc fun _ => con) c a s2 sT →
      sT.base.usTry 0 0 = -1 + 2 * a ∧ sT.base.usTry 0 1 = 2 := by
    intro a sT hpd
    have hcore := hpd.base.core
    have hctl := hcore.nodes.control 0 (by simp [prob, LqProb.toProb]) (by simp [LqProb.toProb])
    have hst := hcore.nodes.state 0 (by simp [prob, LqProb.toProb])
    have hfe : s2.base.feas = true := hrd.feas
    rw [hfe] at hst
    simp only [Bool.not_true, Bool.false_and, Bool.and_false, Bool.false_eq_true, if_false] at hst
    have hx0 : sT.base.xsTry 0 = ![0] := hst
    have hxs : s2.base.xs = fun _ => ![0] := hrd.xs
    have hus : s2.base.us = fun _ => ![-1, 2] := hrd.us
    have hctl' : sT.base.usTry 0 = s2.base.us 0 - a • s2.base.k 0 - s2.base.gain 0 (sT.base.xsTry 0 - s2.base.xs 0) := hctl
    rw [hxs, hus, hrd.k, hrd.gain, hx0, sub_self] at hctl'
    simp only [mulVec_zero, sub_zero, hk] at hctl'
    rw [hctl']
    constructor
    · simp; ring
    · simp
  -- the full step is rejected
  have hfull : ∀ sT : LqI ℝ 1 2 fun _ => 1,
      IntroSolve.probe prob.toProb (eqc fun _ => con) c (oracle prob (fun _ => con) F es) 1 s2 = (some (), sT) →
      IntroSolve.accepts c sT = false := by
    intro sT hprobe
    have hpd := IntroSolve.probe_spec (P := prob.toProb) (E := eqc fun _ => con) (c := c) (O := oracle prob (fun _ => con) F es) 1 s2
    rw [hprobe] at hpd
    replace hpd : IntroSolve.IProbed prob.toProb (eqc fun _ => con) c 1 s2 sT := hpd
    have himp := probe_imp 1 s2 sT hprobe
    rw [hrd.feas, hrd.dir, sum_fddp_congr hrd.fs] at himp
    have hgs : ∀ t ≤ prob.T, gaps prob s0.base.xs s0.base.us t = 0 := hg
    rw [fddp_no_gaps g hgs] at himp
    have hQuu : (g.out 0).Q.Quu *ᵥ ![-2, 0] = ![-2, 0] := by
      have hb : BackLq (nh := fun _ => 1) prob (fun _ => con) F es (some 0) true (fun _ => ![0]) (fun _ => ![-1, 2]) g :=
        backwardPass_spec hback
      obtain ⟨hQ, -, -⟩ := backNode_ok (hb.node 0 (by simp [prob]))
      rw [hQ]
      ext i
      fin_cases i <;> simp [actionValue, Lqr.derivs, prob, addDiag]
    have hei : expectedImprovement prob.T g = (2, -4) := by
      have hT : prob.T = 1 := rfl
      simp only [expectedImprovement, hT, sumTo, zero_add, hQu, hk, hQuu, Prod.mk.injEq]
      constructor <;> simp [vecHead, vecTail] <;> norm_num
    rw [hei] at himp
    have d0 : sT.base.d0 = 2 := congrArg Prod.fst himp
    have d1 : sT.base.d1 = -4 := congrArg Prod.snd himp
    have hexp : sT.base.dVexp = 0 := by rw [hpd.base.dVexp, d0, d1]; norm_num
    have hu2 : s2.upsilon = 0 := hrd.upsilon.trans hups
    have hdPe : sT.dPhiexp = 0 := by rw [hpd.dPhiexp, hexp, hu2]; ring
    have hcore := hpd.base.core
    have hfirst : first prob.toProb .fddp s2.base = prob.x0 := rfl
    rw [hfirst] at hcore
    obtain ⟨hcl, hro, hct⟩ := closedLoop_of_core two_pos hrd.k hrd.gain hcore
    have hdV : sT.base.dV = 0 := by
      rw [hpd.base.dV, hrd.cost, hct, rollout_total hro]
      have e : totalCost prob.toProb s0.base.xs s0.base.us = total prob (fun _ => ![-1, 2]) := rollout_total (rollout_prob _)
      obtain ⟨u0, u1⟩ := hstep 1 sT hpd
      rw [e, total_prob, total_prob, u0, u1]
      norm_num
    have hdP : sT.dPhi = 0 := by rw [hpd.dPhi, hdV, hu2]; ring
    unfold IntroSolve.accepts
    rw [if_pos hdPe.ge, d0, hdP, hdPe]
    simp
    linarith
  have hline : ∀ sL, IntroSolve.lineSearch prob.toProb (eqc fun _ => con) c (oracle prob (fun _ => con) F es) c.alphas s2 = sL →
      sL.base.us 0 0 ≠ 1 := by
    rintro _ rfl
    rw [hal]
    simp only [IntroSolve.lineSearch]
    have hus2 : s2.base.us 0 0 = -1 := by
      have : s2.base.us = fun _ => ![-1, 2] := hrd.us
      rw [this]; rfl
    have hgen : ∀ s3 : LqI ℝ 1 2 fun _ => 1, IntroSolve.IKeeps s2 s3 →
        (IntroSolve.lineSearch prob.toProb (eqc fun _ => con) c (oracle prob (fun _ => con) F es) as s3).base.us 0 0 ≠ 1 := by
      intro s3 hk3
      rcases IntroSolve.lineSearch_spec (P := prob.toProb) (E := eqc fun _ => con) (c := c)
        (O := oracle prob (fun _ => con) F es) as s3 with h | ⟨a, ha, sT, h1, -, h3⟩
      · rw [(hk3.trans h).base.us, hus2]; norm_num
      · rw [h3]
        show sT.base.usTry 0 0 ≠ 1
        rw [(hstep a sT (h1.of_keeps hk3)).1]
        intro e
        exact has (by have : a = 1 := by linarith
                      rwa [this] at ha)
    have hp := IntroSolve.probe_spec (P := prob.toProb) (E := eqc fun _ => con) (c := c) (O := oracle prob (fun _ => con) F es) 1 s2
    rcases hpe : IntroSolve.probe prob.toProb (eqc fun _ => con) c (oracle prob (fun _ => con) F es) 1 s2 with ⟨_ | u, sT⟩
    · rw [hpe] at hp
      exact hgen sT hp
    · rw [hpe] at hp
      replace hp : IntroSolve.IProbed prob.toProb (eqc fun _ => con) c 1 s2 sT := hp
      simp only [hfull sT hpe, Bool.false_eq_true, if_false]
      exact hgen sT hp.keeps
  -- the loop
  rw [satisfies_prob]
  have hfin : ∀ e q s', IntroSolve.iteration prob.toProb (eqc fun _ => con) c (oracle prob (fun _ => con) F es) (fuel + 1) s0 =
      some (e, q, s') → s'.base.us 0 0 ≠ 1 := by
    intro e q s' hit
    rcases IntroSolve.iteration_cases (fuel + 1) s0 hit with ⟨-, -, hd⟩ | ⟨s1', hd, -, ⟨p, r, rfl⟩, -⟩
    · rw [hdir] at hd; simp at hd
    · rw [hdir] at hd
      obtain ⟨-, rfl⟩ := Prod.mk.inj (Option.some.inj hd)
      rw [hs2]
      have := hline _ rfl
      exact this
  rw [IntroSolve.iterLoop] at ho
  rcases hit : IntroSolve.iteration prob.toProb (eqc fun _ => con) c (oracle prob (fun _ => con) F es) (fuel + 1) s0 with
    _ | ⟨e, q, s'⟩
  · rw [hit] at ho; simp at ho
  · rw [hit] at ho
    have := hfin e q s' hit
    cases e with
    | giveUp => obtain rfl := Option.some.inj ho; exact this
    | converged => obtain rfl := Option.some.inj ho; exact this
    | «continue» =>
      simp only [IntroSolve.iterLoop, Option.map_some] at ho
      obtain rfl := Option.some.inj ho; exact this

end Verif.Intro
