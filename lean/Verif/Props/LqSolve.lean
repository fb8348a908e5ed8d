import Verif.Lemmas.LqSolve

set_option linter.unusedSectionVars false

/-!
# `SolverDDP::solve` on linear-quadratic problems (C67)

The complete solve loop, with the derivatives, the backward pass, the forward pass, the line search, the
regularisation updates and the stopping test. `kind` is DDP or BoxDDP: the models have no control
limits, without which `SolverBoxDDP::computeGains` is that of DDP (box-ddp.cpp L67-76) and its forward pass
does not clamp.
-/

namespace Verif.Lq
open Verif Verif.Solve Matrix

variable {K : Type} [Field K] [LinearOrder K] [IsStrictOrderedRing K] {n m : Nat}
variable {P : LqProb K n (fun _ => m)} {llt : ∀ m, Matrix (Fin m) (Fin m) K → Bool} {kind : Kind}

/-- Parameters as the constructors leave them, up to their values: the first step length is 1, the
acceptance threshold is below 1, the other thresholds are positive, `th_stepinc` is below 1. -/
structure Sane (c : Cfg K) : Prop where
  alphas : ∃ as, c.alphas = 1 :: as
  accept : c.thAcceptstep < 1
  grad : 0 < c.thGrad
  stop : 0 < c.thStop
  stepinc : c.thStepinc < 1
  regmin : 0 ≤ c.reg.min

/-- C67. On every convex linear-quadratic problem, from every initial guess (feasible or not) and solver
state, `solve` with `init_reg = 0` and one iteration ends with the optimal controls and their rollout. -/
theorem C67_one_iteration (hkf : kind.feasibilityDriven = false) (hm : 0 < m) (h : ConvexLq P) (hl : LltComplete llt) (hls : LltSound llt)
    {c : Cfg K} (hc : Sane c) (xs : Nat → Fin n → K) (us : Nat → Fin m → K) (feas : Bool)
    (hf : feas = true → Rollout P.toProb xs us) (s : LqSt K n m) (fuel : Nat) :
    ∃ o, solve P.toProb c (oracle P llt kind) kind (fuel + 1) 1 xs us feas (some 0) s = some o ∧
      Rollout P.toProb o.final.xs o.final.us ∧ o.final.feas = true ∧
      ∀ vs, total P o.final.us ≤ total P vs := by
  obtain ⟨as, hal⟩ := hc.alphas
  obtain ⟨e, s', g, hit, hb, hcl, hro, hfe, -, -, -, -, -, he⟩ :=
    iteration_ddp hkf (s := start P.toProb c xs us feas (some 0) s) hm h hl hls hal hc.accept hc.grad
      hc.stepinc hc.regmin le_rfl rfl (.inl rfl) (by simp [start, LqProb.toProb]) hf (.inr (.inl rfl)) fuel
  have hopt : ∀ vs, total P s'.us ≤ total P vs := fun vs =>
    C29_optimal hb h.symm hls (.inr rfl) (fun e => gaps_of_rollout (hf e)) _ _ hcl vs
  unfold solve iterLoop
  rw [hit]
  cases e with
  | giveUp => exfalso; split at he <;> cases he
  | converged => exact ⟨_, rfl, hro, hfe, hopt⟩
  | «continue» => exact ⟨_, rfl, hro, hfe, hopt⟩

/-- C67. With two or more iterations it also reports success: `solve` returns true, at the optimum. -/
theorem C67_converges (hkf : kind.feasibilityDriven = false) (hm : 0 < m) (h : ConvexLq P) (hl : LltComplete llt) (hls : LltSound llt)
    {c : Cfg K} (hc : Sane c) (xs : Nat → Fin n → K) (us : Nat → Fin m → K) (feas : Bool)
    (hf : feas = true → Rollout P.toProb xs us) (s : LqSt K n m) (fuel maxiter : Nat) :
    ∃ o, solve P.toProb c (oracle P llt kind) kind (fuel + 1) (maxiter + 2) xs us feas (some 0) s = some o ∧
      o.ret = true ∧ o.final.iter ≤ 1 ∧ Rollout P.toProb o.final.xs o.final.us ∧ o.final.feas = true ∧
      ∀ vs, total P o.final.us ≤ total P vs := by
  obtain ⟨as, hal⟩ := hc.alphas
  obtain ⟨e, s', g, hit, hb, hcl, hro, hfe, hrec, hiter, hmt, hx0, hpr, he⟩ :=
    iteration_ddp hkf (s := start P.toProb c xs us feas (some 0) s) hm h hl hls hal hc.accept hc.grad
      hc.stepinc hc.regmin le_rfl rfl (.inl rfl) (by simp [start, LqProb.toProb]) hf (.inr (.inl rfl)) fuel
  have hopt : ∀ vs, total P s'.us ≤ total P vs := fun vs =>
    C29_optimal hb h.symm hls (.inr rfl) (fun e => gaps_of_rollout (hf e)) _ _ hcl vs
  have hiter0 : s'.iter = 0 := hiter
  unfold solve
  rw [iterLoop, hit]
  cases e with
  | giveUp => exfalso; split at he <;> cases he
  | converged => exact ⟨_, rfl, rfl, by rw [hiter0]; exact Nat.zero_le _, hro, hfe, hopt⟩
  | «continue» =>
    obtain ⟨e2, s2, g2, hit2, hb2, hcl2, hro2, hfe2, -, hiter2, -, -, -, he2⟩ :=
      iteration_ddp hkf (s := { s' with iter := s'.iter + 1 }) hm h hl hls hal hc.accept hc.grad
        hc.stepinc hc.regmin hpr hrec (.inr hmt) hx0 (fun _ => hro) (.inr (.inr hopt)) fuel
    obtain ⟨hz, hk⟩ := stationary_of_optimal h hl hls hb2 hro hopt
    have he2' : e2 = .converged := by
      rw [he2, hz]
      simp [hfe, hc.stop]
    -- the second step does not move
    have hstay : ∀ t, (t ≤ P.T → s2.xs t = s'.xs t) ∧ (t < P.T → s2.us t = s'.us t) := by
      have hu : ∀ t < P.T, s2.xs t = s'.xs t → s2.us t = s'.us t := fun t ht hx => by
        rw [hcl2.control t ht, hk t ht]
        show s'.us t - (1 : K) • (0 : Fin m → K) - (g2.out t).Kfb *ᵥ (s2.xs t - s'.xs t) = s'.us t
        rw [hx]; simp
      intro t
      induction t with
      | zero =>
        have hx : s2.xs 0 = s'.xs 0 := hcl2.init.trans hro.1.symm
        exact ⟨fun _ => hx, fun ht => hu 0 ht hx⟩
      | succ t ih =>
        have hx : t + 1 ≤ P.T → s2.xs (t + 1) = s'.xs (t + 1) := fun ht => by
          rw [hcl2.step t ht, ih.1 (by omega), ih.2 ht]
          exact (hro.2 t ht).symm
        exact ⟨hx, fun ht => hu _ ht (hx ht.le)⟩
    have htot : total P s2.us = total P s'.us := by
      rw [← rollout_total hro2, ← rollout_total hro]
      unfold totalCost
      show _ + P.term.costT (s2.xs P.T) = _ + P.term.costT (s'.xs P.T)
      rw [(hstay P.T).1 le_rfl]
      congr 1
      refine Finset.sum_congr rfl fun t ht => ?_
      have ht := Finset.mem_range.mp ht
      rw [(hstay t).1 ht.le, (hstay t).2 ht]
    simp only
    rw [iterLoop, hit2, he2']
    refine ⟨_, rfl, rfl, ?_, hro2, hfe2, fun vs => ?_⟩
    · show s2.iter ≤ 1
      rw [hiter2]
      show s'.iter + 1 ≤ 1
      omega
    · show total P s2.us ≤ _
      rw [htot]; exact hopt vs

namespace Demo

/-- The demonstration problem of `Props/Lq.lean` meets the hypotheses. -/
example : ConvexLq prob ∧ LltComplete chol ∧ LltSound chol ∧
    Sane (⟨[1, 1/2, 1/4], 1/10, 2, 1/100, 1/100, 1/2, 1/100, ⟨10, 10, 0, 1000⟩⟩ : Cfg ℚ) := by
  refine ⟨⟨symm, fun t x u => ?_, fun t v hv => stage_pd 0 0 v hv, term_psd⟩, chol_complete, chol_sound,
    ⟨⟨_, rfl⟩, ?_, ?_, ?_, ?_, ?_⟩⟩
  · exact (stage_convex 0 0).psd x u
  all_goals norm_num

end Demo
end Verif.Lq
