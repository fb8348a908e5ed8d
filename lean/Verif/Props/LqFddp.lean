import Verif.Lemmas.LqFddp
import Verif.Props.LqSolve
import Mathlib.Tactic.LinearCombination

set_option linter.unusedSectionVars false

/-!
# `SolverFDDP::solve` on linear-quadratic problems (C103), and its predicted improvement (C104)

`kind` is FDDP or BoxFDDP: the models have no control limits, without which
`SolverBoxFDDP::computeGains` is that of DDP (box-fddp.cpp L67-75) and its forward pass does not clamp.
-/

namespace Verif.Lq
open Verif Verif.Solve Matrix

section solve
variable {K : Type} [Field K] [LinearOrder K] [IsStrictOrderedRing K] {n m : Nat}
variable {P : LqProb K n (fun _ => m)} {llt : ∀ m, Matrix (Fin m) (Fin m) K → Bool} {kind : Kind}

/-- C103. On every convex linear-quadratic problem, from every initial guess whose states need not follow the
dynamics, `solve` with `init_reg = 0` and one iteration ends with the optimal controls and their rollout.
The only guesses left out are infeasible ones whose cost happens to be exactly the optimal cost. -/
theorem C103_one_iteration_partial (hkf : kind.feasibilityDriven = true) (hm : 0 < m) (h : ConvexLq P)
    (hl : LltComplete llt) (hls : LltSound llt) {c : Cfg K} (hc : Sane c) (hneg : 1 < c.thAcceptnegstep)
    (xs : Nat → Fin n → K) (us : Nat → Fin m → K) (feas : Bool)
    (hf : feas = true → Rollout P.toProb xs us)
    (hne : feas = true ∨ ¬ IsLeast (Set.range (total P)) (costOf P xs us)) (s : LqSt K n m) (fuel : Nat) :
    ∃ o, solve P.toProb c (oracle P llt kind) kind (fuel + 1) 1 xs us feas (some 0) s = some o ∧
      Rollout P.toProb o.final.xs o.final.us ∧ o.final.feas = true ∧
      ∀ vs, total P o.final.us ≤ total P vs := by
  obtain ⟨as, hal⟩ := hc.alphas
  obtain ⟨e, s', g, hit, hb, hcl, hro, hfe, -, -, -, -, he, -⟩ :=
    iteration_fddp (s := start P.toProb c xs us feas (some 0) s) hkf hm h hl hls hal hc.accept hneg hc.grad
      hc.stepinc hc.regmin le_rfl rfl (.inl rfl) hf (.inl ⟨rfl, hne⟩) fuel
  have hopt : ∀ vs, total P s'.us ≤ total P vs := fun vs =>
    C29_optimal hb h.symm hls (.inr rfl) (fun e => gaps_of_rollout (hf e)) _ _ hcl vs
  unfold solve iterLoop
  rw [hit]
  cases e with
  | giveUp => exact absurd rfl he
  | converged => exact ⟨_, rfl, hro, hfe, hopt⟩
  | «continue» => exact ⟨_, rfl, hro, hfe, hopt⟩

/-- C103. With two or more iterations it also reports success: `solve` returns true, at the optimum. -/
theorem C103_converges_partial (hkf : kind.feasibilityDriven = true) (hm : 0 < m) (h : ConvexLq P)
    (hl : LltComplete llt) (hls : LltSound llt) {c : Cfg K} (hc : Sane c) (hneg : 1 < c.thAcceptnegstep)
    (xs : Nat → Fin n → K) (us : Nat → Fin m → K) (feas : Bool)
    (hf : feas = true → Rollout P.toProb xs us)
    (hne : feas = true ∨ ¬ IsLeast (Set.range (total P)) (costOf P xs us)) (s : LqSt K n m)
    (fuel maxiter : Nat) :
    ∃ o, solve P.toProb c (oracle P llt kind) kind (fuel + 1) (maxiter + 2) xs us feas (some 0) s = some o ∧
      o.ret = true ∧ o.final.iter ≤ 1 ∧ Rollout P.toProb o.final.xs o.final.us ∧ o.final.feas = true ∧
      ∀ vs, total P o.final.us ≤ total P vs := by
  obtain ⟨as, hal⟩ := hc.alphas
  obtain ⟨e, s', g, hit, hb, hcl, hro, hfe, hrec, hiter, hmt, hpr, he, -⟩ :=
    iteration_fddp (s := start P.toProb c xs us feas (some 0) s) hkf hm h hl hls hal hc.accept hneg hc.grad
      hc.stepinc hc.regmin le_rfl rfl (.inl rfl) hf (.inl ⟨rfl, hne⟩) fuel
  have hopt : ∀ vs, total P s'.us ≤ total P vs := fun vs =>
    C29_optimal hb h.symm hls (.inr rfl) (fun e => gaps_of_rollout (hf e)) _ _ hcl vs
  have hiter0 : s'.iter = 0 := hiter
  unfold solve
  rw [iterLoop, hit]
  cases e with
  | giveUp => exact absurd rfl he
  | converged => exact ⟨_, rfl, rfl, by rw [hiter0]; exact Nat.zero_le _, hro, hfe, hopt⟩
  | «continue» =>
    obtain ⟨e2, s2, g2, hit2, hb2, hcl2, hro2, hfe2, -, hiter2, -, -, -, -, he2⟩ :=
      iteration_fddp (s := { s' with iter := s'.iter + 1 }) hkf hm h hl hls hal hc.accept hneg hc.grad
        hc.stepinc hc.regmin hpr hrec (.inr hmt) (fun _ => hro) (.inr ⟨hfe, hopt⟩) fuel
    obtain ⟨hz, hk⟩ := stationary_of_optimal h hl hls hb2 hro hopt
    have he2' : e2 = .converged := by
      rw [he2 hfe, hz]
      simp [hc.stop]
    -- the second step does not move
    have hstay : ∀ t, (t ≤ P.T → s2.xs t = s'.xs t) ∧ (t < P.T → s2.us t = s'.us t) := by
      have hu : ∀ t < P.T, s2.xs t = s'.xs t → s2.us t = s'.us t := fun t ht hx => by
        rw [hcl2.control t ht, hk t ht]
        show s'.us t - (1 : K) • (0 : Fin m → K) - (g2.out t).Kfb *ᵥ (s2.xs t - s'.xs t) = s'.us t
        rw [hx]; simp
      intro t
      induction t with
      | zero =>
        have hx : s2.xs 0 = s'.xs 0 := hcl2.init.trans hro.1.symm
        exact ⟨fun _ => hx, fun ht => hu 0 ht hx⟩
      | succ t ih =>
        have hx : t + 1 ≤ P.T → s2.xs (t + 1) = s'.xs (t + 1) := fun ht => by
          rw [hcl2.step t ht, ih.1 (by omega), ih.2 ht]
          exact (hro.2 t ht).symm
        exact ⟨hx, fun ht => hu _ ht (hx ht.le)⟩
    have htot : total P s2.us = total P s'.us := by
      rw [← rollout_total hro2, ← rollout_total hro]
      unfold totalCost
      show _ + P.term.costT (s2.xs P.T) = _ + P.term.costT (s'.xs P.T)
      rw [(hstay P.T).1 le_rfl]
      congr 1
      refine Finset.sum_congr rfl fun t ht => ?_
      have ht := Finset.mem_range.mp ht
      rw [(hstay t).1 ht.le, (hstay t).2 ht]
    simp only
    rw [iterLoop, hit2, he2']
    refine ⟨_, rfl, rfl, ?_, hro2, hfe2, fun vs => ?_⟩
    · show s2.iter ≤ 1
      rw [hiter2]
      show s'.iter + 1 ≤ 1
      omega
    · show total P s2.us ≤ _
      rw [htot]; exact hopt vs

end solve

section predict
variable {K : Type} [Field K] [LinearOrder K] [IsStrictOrderedRing K] {n : Nat} {nu : Nat → Nat}
variable {P : LqProb K n nu} {llt : ∀ m, Matrix (Fin m) (Fin m) K → Bool} {preg : Option K}
variable {xs : Nat → Fin n → K} {us : ∀ t, Fin (nu t) → K} {s g : Arrays K n nu}

/-- A contracted step is the fraction `a` of the full step. -/
theorem Contracted.scaled {a : K} {xs1 xs' : Nat → Fin n → K} {us1 us' : ∀ t, Fin (nu t) → K}
    (h1 : ClosedLoop P xs us g 1 xs1 us1) (h : Contracted P xs us g a xs' us') :
    ∀ t, (t ≤ P.T → xs' t = xs t + a • (xs1 t - xs t)) ∧ (t < P.T → us' t = us t + a • (us1 t - us t)) := by
  have hu : ∀ t < P.T, xs' t = xs t + a • (xs1 t - xs t) → us' t = us t + a • (us1 t - us t) := by
    intro t ht hx
    rw [h.control t ht, h1.control t ht, hx, add_sub_cancel_left, mulVec_smul, one_smul]
    simp only [smul_sub]
    abel
  intro t
  induction t with
  | zero =>
    have hx : xs' 0 = xs 0 + a • (xs1 0 - xs 0) := by
      rw [h.init, h1.init, gaps, sub_smul, one_smul]
      abel
    exact ⟨fun _ => hx, fun ht => hu 0 ht hx⟩
  | succ t ih =>
    have hx : t + 1 ≤ P.T → xs' (t + 1) = xs (t + 1) + a • (xs1 (t + 1) - xs (t + 1)) := fun ht => by
      rw [h.step t ht, h1.step t ht, ih.1 (by omega), ih.2 ht, Lqr.next_expand]
      have e := (P.node t).next_expand (xs t) (xs1 t - xs t) (us t) (us1 t - us t)
      rw [add_sub_cancel, add_sub_cancel] at e
      rw [e, gaps, mulVec_smul, mulVec_smul]
      generalize (P.node t).A *ᵥ (xs1 t - xs t) = p
      generalize (P.node t).B *ᵥ (us1 t - us t) = q
      simp only [sub_smul, smul_sub, smul_add, one_smul]
      abel
    exact ⟨hx, fun ht => hu _ ht (hx ht.le)⟩

/-- The slope of the cost along the full step. -/
theorem slope_eq (h : BackLq P llt preg false xs us g) (hs : Symmetric P)
    {xs1 : Nat → Fin n → K} {us1 : ∀ t, Fin (nu t) → K} (h1 : ClosedLoop P xs us g 1 xs1 us1) :
    (∑ t ∈ Finset.range P.T, (((P.node t).derivs (xs t) (us t)).Lx ⬝ᵥ (xs1 t - xs t)
        + ((P.node t).derivs (xs t) (us t)).Lu ⬝ᵥ (us1 t - us t)))
      + (P.term.q + P.term.Q *ᵥ xs P.T) ⬝ᵥ (xs1 P.T - xs P.T)
    = (∑ t ∈ Finset.range (P.T + 1), (g.V t).Vx ⬝ᵥ gaps P xs us t)
      - (∑ t ∈ Finset.range (P.T + 1), gaps P xs us t ⬝ᵥ ((g.V t).Vxx *ᵥ (xs1 t - xs t)))
      - ∑ t ∈ Finset.range P.T, (g.out t).Q.Qu ⬝ᵥ (g.out t).k := by
  have hsym := fun t ht => Back.symm h hs.term t ht
  -- one node
  have hnode : ∀ t < P.T, ((P.node t).derivs (xs t) (us t)).Lx ⬝ᵥ (xs1 t - xs t)
        + ((P.node t).derivs (xs t) (us t)).Lu ⬝ᵥ (us1 t - us t) =
      ((g.V t).Vx ⬝ᵥ (xs1 t - xs t) - (g.V (t+1)).Vx ⬝ᵥ (xs1 (t+1) - xs (t+1)))
      + (g.V (t+1)).Vx ⬝ᵥ gaps P xs us (t+1)
      - gaps P xs us t ⬝ᵥ ((g.V t).Vxx *ᵥ (xs1 t - xs t)) - (g.out t).Q.Qu ⬝ᵥ (g.out t).k := by
    intro t ht
    obtain ⟨hQ, -, -, -, hV⟩ := backNode_some (h.node t ht)
    have hx : xs1 (t+1) - xs (t+1) = gaps P xs us (t+1) +
        ((P.node t).A *ᵥ (xs1 t - xs t) + (P.node t).B *ᵥ (us1 t - us t)) := by
      have e := (P.node t).next_expand (xs t) (xs1 t - xs t) (us t) (us1 t - us t)
      rw [add_sub_cancel, add_sub_cancel] at e
      rw [h1.step t ht, e, gaps]
      abel
    have hu : us1 t - us t = -(g.out t).k - (g.out t).Kfb *ᵥ (xs1 t - xs t) := by
      rw [h1.control t ht, one_smul]; abel
    have hVx : (g.V t).Vx = (g.out t).Q.Qx - (g.out t).Kfbᵀ *ᵥ (g.out t).Q.Qu
        + (g.V t).Vxx *ᵥ gaps P xs us t := by
      rw [h.val t ht, hV]
      simp only [computeValue, Bool.false_eq_true, if_false]
    have hQx : (g.out t).Q.Qx = ((P.node t).derivs (xs t) (us t)).Lx + (P.node t).Aᵀ *ᵥ (g.V (t+1)).Vx := by
      rw [hQ]; rfl
    have hQu : (g.out t).Q.Qu = ((P.node t).derivs (xs t) (us t)).Lu + (P.node t).Bᵀ *ᵥ (g.V (t+1)).Vx := by
      rw [hQ]; rfl
    have hquad : ((g.V t).Vxx *ᵥ gaps P xs us t) ⬝ᵥ (xs1 t - xs t) =
        gaps P xs us t ⬝ᵥ ((g.V t).Vxx *ᵥ (xs1 t - xs t)) := by
      rw [dotProduct_comm, dot_symm (hsym t ht.le)]
    have hL : ((P.node t).derivs (xs t) (us t)).Lx = (g.out t).Q.Qx - (P.node t).Aᵀ *ᵥ (g.V (t+1)).Vx := by
      rw [hQx]; abel
    have hLu : ((P.node t).derivs (xs t) (us t)).Lu = (g.out t).Q.Qu - (P.node t).Bᵀ *ᵥ (g.V (t+1)).Vx := by
      rw [hQu]; abel
    have hk : (g.out t).Q.Qu ⬝ᵥ (us1 t - us t) =
        -((g.out t).Q.Qu ⬝ᵥ (g.out t).k) - ((g.out t).Kfbᵀ *ᵥ (g.out t).Q.Qu) ⬝ᵥ (xs1 t - xs t) := by
      rw [hu, dotProduct_sub, dotProduct_neg, dot_tr]
    rw [hL, hLu, hx, sub_dotProduct, sub_dotProduct, hk, dot_tr (P.node t).A,
      dot_tr (P.node t).B, dotProduct_add, dotProduct_add]
    have := congrArg (· ⬝ᵥ (xs1 t - xs t)) hVx
    simp only [add_dotProduct, sub_dotProduct] at this
    rw [hquad] at this
    linear_combination -this
  have hterm : (P.term.q + P.term.Q *ᵥ xs P.T) ⬝ᵥ (xs1 P.T - xs P.T) =
      (g.V P.T).Vx ⬝ᵥ (xs1 P.T - xs P.T)
        - gaps P xs us P.T ⬝ᵥ ((g.V P.T).Vxx *ᵥ (xs1 P.T - xs P.T)) := by
    have hVx : (g.V P.T).Vx = (P.term.q + P.term.Q *ᵥ xs P.T) + (g.V P.T).Vxx *ᵥ gaps P xs us P.T := by
      rw [h.term]
      simp only [termValue, Bool.false_eq_true, if_false]
    rw [hVx, add_dotProduct _ ((g.V P.T).Vxx *ᵥ gaps P xs us P.T),
      dotProduct_comm ((g.V P.T).Vxx *ᵥ gaps P xs us P.T), dot_symm (hsym P.T le_rfl)]
    ring
  have h0 : xs1 0 - xs 0 = gaps P xs us 0 := by rw [h1.init, gaps]
  rw [Finset.sum_congr rfl (fun t ht => hnode t (Finset.mem_range.mp ht)), hterm,
    Finset.sum_sub_distrib, Finset.sum_sub_distrib, Finset.sum_add_distrib,
    Finset.sum_range_sub' (fun t => (g.V t).Vx ⬝ᵥ (xs1 t - xs t)), h0]
  rw [Finset.sum_range_succ' (fun t => (g.V t).Vx ⬝ᵥ gaps P xs us t),
    Finset.sum_range_succ (fun t => gaps P xs us t ⬝ᵥ ((g.V t).Vxx *ᵥ (xs1 t - xs t)))]
  ring

/-- C104. From an infeasible candidate, the improvement FDDP predicts for a step of length `a` differs from
the actual decrease of the cost by exactly `a (1 - a)²` times `∑ f · Vxx (x¹ - x)`, where `f` are the gaps
and `x¹ - x` is the full step. -/
theorem C104_error (h : backwardOn P llt preg false xs us s = some g) (hs : Symmetric P)
    (hl : LltSound llt) (hp : preg = none ∨ preg = some 0) (a : K)
    {xs1 xs' : Nat → Fin n → K} {us1 us' : ∀ t, Fin (nu t) → K}
    (h1 : ClosedLoop P xs us g 1 xs1 us1) (hc : Contracted P xs us g a xs' us') :
    let d := expectedImprovementFddp P.T false (gaps P xs us) (fun t => xs t - xs' t) g
    costOf P xs us - costOf P xs' us' = a * (d.1 + (1/2) * a * d.2)
      + a * (1 - a) ^ 2 *
        ∑ t ∈ Finset.range (P.T + 1), gaps P xs us t ⬝ᵥ ((g.V t).Vxx *ᵥ (xs1 t - xs t)) := by
  intro d
  have hb : BackLq P llt preg false xs us g := backwardPass_spec h
  have hsl := slope_eq hb hs h1
  have hfull := C30_fddp_full_step h hs hl hp (fun t => xs t - xs' t) _ _ h1
  have htot : total P us1 = costOf P xs1 us1 := by
    unfold total costToGo costOf
    rw [Nat.sub_zero, h1.traj_eq P.T le_rfl]
    congr 1
    refine Finset.sum_congr rfl fun t ht => ?_
    rw [Nat.zero_add, h1.traj_eq t (Finset.mem_range.mp ht).le]
  have hsc := hc.scaled h1
  -- the cost along the segment is a quadratic polynomial in the step
  have hpoly : ∀ b : K, ∀ (ys : Nat → Fin n → K) (vs : ∀ t, Fin (nu t) → K),
      (∀ t, (t ≤ P.T → ys t = xs t + b • (xs1 t - xs t)) ∧ (t < P.T → vs t = us t + b • (us1 t - us t))) →
      costOf P ys vs = costOf P xs us
        + b * ((∑ t ∈ Finset.range P.T, (((P.node t).derivs (xs t) (us t)).Lx ⬝ᵥ (xs1 t - xs t)
            + ((P.node t).derivs (xs t) (us t)).Lu ⬝ᵥ (us1 t - us t)))
          + (P.term.q + P.term.Q *ᵥ xs P.T) ⬝ᵥ (xs1 P.T - xs P.T))
        + b ^ 2 * ((∑ t ∈ Finset.range P.T, ((1/2) * ((xs1 t - xs t) ⬝ᵥ ((P.node t).Q *ᵥ (xs1 t - xs t)))
            + (xs1 t - xs t) ⬝ᵥ ((P.node t).N *ᵥ (us1 t - us t))
            + (1/2) * ((us1 t - us t) ⬝ᵥ ((P.node t).R *ᵥ (us1 t - us t)))))
          + (1/2) * ((xs1 P.T - xs P.T) ⬝ᵥ (P.term.Q *ᵥ (xs1 P.T - xs P.T)))) := by
    intro b ys vs hy
    have hn : ∀ t ∈ Finset.range P.T, (P.node t).cost (ys t) (vs t) = (P.node t).cost (xs t) (us t)
        + b * (((P.node t).derivs (xs t) (us t)).Lx ⬝ᵥ (xs1 t - xs t)
            + ((P.node t).derivs (xs t) (us t)).Lu ⬝ᵥ (us1 t - us t))
        + b ^ 2 * ((1/2) * ((xs1 t - xs t) ⬝ᵥ ((P.node t).Q *ᵥ (xs1 t - xs t)))
            + (xs1 t - xs t) ⬝ᵥ ((P.node t).N *ᵥ (us1 t - us t))
            + (1/2) * ((us1 t - us t) ⬝ᵥ ((P.node t).R *ᵥ (us1 t - us t)))) := fun t ht => by
      have ht := Finset.mem_range.mp ht
      rw [(hy t).1 ht.le, (hy t).2 ht, Lqr.cost_expand _ (hs.Q t) (hs.R t)]
      simp only [mulVec_smul, dotProduct_smul, smul_dotProduct, smul_eq_mul]
      ring
    unfold costOf
    rw [Finset.sum_congr rfl hn, (hy P.T).1 le_rfl, Lqr.costT_expand _ hs.term, Finset.sum_add_distrib,
      Finset.sum_add_distrib, ← Finset.mul_sum, ← Finset.mul_sum]
    simp only [mulVec_smul, dotProduct_smul, smul_dotProduct, smul_eq_mul]
    ring
  have ha := hpoly a xs' us' hsc
  have h1' := hpoly 1 xs1 us1 (fun t => ⟨fun _ => by rw [one_smul]; abel, fun _ => by rw [one_smul]; abel⟩)
  rw [hsl] at ha h1'
  rw [htot] at hfull
  have hcand : ((∑ t ∈ Finset.range P.T, (P.node t).cost (xs t) (us t)) + P.term.costT (xs P.T)) =
      costOf P xs us := rfl
  rw [hcand] at hfull
  -- `dv` at the step `a`
  have hdv : ∑ t ∈ Finset.range (P.T + 1), gaps P xs us t ⬝ᵥ ((g.V t).Vxx *ᵥ (xs t - xs' t)) =
      -(a * ∑ t ∈ Finset.range (P.T + 1), gaps P xs us t ⬝ᵥ ((g.V t).Vxx *ᵥ (xs1 t - xs t))) := by
    rw [Finset.mul_sum, ← Finset.sum_neg_distrib]
    refine Finset.sum_congr rfl fun t ht => ?_
    have ht := Finset.mem_range.mp ht
    rw [(hsc t).1 (by omega), sub_add_cancel_left, mulVec_neg, dotProduct_neg, mulVec_smul,
      dotProduct_smul, smul_eq_mul]
  simp only [d, expectedImprovementFddp, updateExpectedImprovement, sumTo_eq, Bool.false_eq_true,
    if_false, hdv] at hfull ⊢
  rw [ha]
  rw [h1'] at hfull
  linear_combination a ^ 2 * hfull

end predict

section forward
variable {K : Type} [Field K] [LinearOrder K] [IsStrictOrderedRing K] {n m : Nat}
variable {P : LqProb K n (fun _ => m)} {llt : ∀ m, Matrix (Fin m) (Fin m) K → Bool} {kind : Kind}

/-- C104. The trial of a successful forward pass from an infeasible candidate with a step `a ≠ 1` is the
contracted step of `C104_error`, and the trial cost is its cost. -/
theorem C104_forward (hkf : kind.feasibilityDriven = true) (hm : 0 < m) (s s' : LqSt K n m) (a : K)
    (g : Arrays K n (fun _ => m)) (hfe : s.feas = false) (ha : a ≠ 1)
    (hfs : ∀ t ≤ P.T, s.fs t = gaps P s.xs s.us t) (hk : s.k = fun t => (g.out t).k)
    (hg : s.gain = fun t dx => (g.out t).Kfb *ᵥ dx)
    (h : forwardPass P.toProb (oracle P llt kind) kind a s = .ok () s') :
    Contracted P s.xs s.us g a s'.xsTry s'.usTry ∧ s'.costTry = costOf P s'.xsTry s'.usTry := by
  have hsp := forwardPass_spec (P := P.toProb) (O := oracle P llt kind) (kind := kind) a s
  rw [h] at hsp
  have hcore : Core P.toProb kind a s.feas (first P.toProb kind s) s.xs s.us s.k s.gain s.fs
    s'.xsTry s'.usTry s'.datas s'.tdata s'.costTry := hsp.core
  have hkd : kind ≠ .ddp := by rintro rfl; cases hkf
  have hfirst : first P.toProb kind s = P.x0 := by unfold first; rw [if_neg hkd]; rfl
  rw [hfirst, hfe] at hcore
  have hn : ∀ t, (P.toProb.node t).nuZero = false := fun t => by
    show decide (m = 0) = false
    simp; omega
  have hdat := (hcore.total (autonomousOk hm)).1
  have hopen : (kind.feasibilityDriven && (!false && decide (a ≠ 1))) = true := by simp [hkf, ha]
  have hopen' : (decide (kind ≠ .ddp) && (!false && decide (a ≠ 1))) = true := by simp [hkd, ha]
  have hstate : ∀ t ≤ P.T, s'.xsTry t = pred P.x0 s'.datas t - (1 - a) • gaps P s.xs s.us t := by
    intro t ht
    rcases Nat.lt_or_eq_of_le ht with hlt | rfl
    · have := hcore.nodes.state t hlt
      rw [hopen] at this
      simp only [if_true] at this
      rw [this, ← hfs t ht]
      show pred P.x0 s'.datas t + (a - 1) • s.fs t = _
      rw [sub_smul, sub_smul]; abel
    · have := hcore.last
      rw [hopen'] at this
      simp only [if_true] at this
      have e : P.toProb.T = P.T := rfl
      rw [e] at this
      rw [this, ← hfs P.T ht]
      show pred P.x0 s'.datas P.T + (a - 1) • s.fs P.T = _
      rw [sub_smul, sub_smul]; abel
  refine ⟨⟨hstate 0 (Nat.zero_le _), fun t ht => ?_, fun t ht => ?_⟩, ?_⟩
  · rw [hcore.nodes.control t ht (hn t), hk, hg]
    cases kind <;> rfl
  · rw [hstate (t + 1) ht]
    show (s'.datas t).1 - _ = _
    rw [hdat t ht]
    rfl
  · exact (hcore.total (autonomousOk hm)).2

end forward

namespace Toy

/-- One step of `x' = x + u` from 1, stage cost `½u²`, terminal cost `½x²`. -/
def prob : LqProb ℚ 1 (fun _ => 1) where
  T := 1
  node := fun _ => { A := 1, B := 1, f := 0, Q := 0, R := 1, N := 0, q := 0, r := 0 }
  term := { A := 0, B := 0, f := 0, Q := 1, R := 0, N := 0, q := 0, r := 0 }
  x0 := fun _ => 1

theorem convex : ConvexLq prob where
  symm := ⟨fun _ => by simp [prob], fun _ => by simp [prob], by simp [prob]⟩
  psd := fun _ _ u => by
    simp only [prob, zero_mulVec, one_mulVec, dotProduct_zero, mul_zero, zero_add, add_zero]
    exact dot_self_nonneg u
  pd := fun _ v hv => by
    simp only [prob, one_mulVec]
    exact dot_self_pos hv
  term := fun v => by
    simp only [prob, one_mulVec]
    exact dot_self_nonneg v

/-- What the backward pass leaves at the candidate `(1, y), v`. -/
theorem back {y v : ℚ} {xs : Nat → Fin 1 → ℚ} {us : Nat → Fin 1 → ℚ} (h0 : xs 0 = fun _ => 1)
    (h1 : xs 1 = fun _ => y) (hv : us 0 = fun _ => v) {s g : Arrays ℚ 1 (fun _ => 1)}
    (h : backwardOn prob Demo.chol (some 0) false xs us s = some g) :
    gaps prob xs us 0 = 0 ∧ gaps prob xs us 1 = (fun _ => 1 + v - y) ∧
    (g.V 1).Vxx = 1 ∧ (g.V 1).Vx = (fun _ => 1 + v) ∧
    (g.out 0).Q.Qu = (fun _ => 1 + 2 * v) ∧ (g.out 0).Q.Quu = (2 : ℚ) • (1 : Matrix (Fin 1) (Fin 1) ℚ) ∧
    (g.out 0).k = (fun _ => (1 + 2 * v) / 2) := by
  have hb : BackLq prob Demo.chol (some 0) false xs us g := backwardPass_spec h
  obtain ⟨hQ, -, -, -, hk, -⟩ := Back.facts hb Demo.chol_sound convex.symm.term 0 (by simp [prob])
    (convex.symm.R 0)
  have hgap : gaps prob xs us 1 = fun _ => 1 + v - y := by
    funext i
    simp only [gaps, prob, Lqr.next, one_mulVec, h0, h1, hv, Pi.add_apply, Pi.sub_apply, Pi.zero_apply]
    ring
  have hT : g.V 1 = termValue (some 0) false (prob.term.q + prob.term.Q *ᵥ xs 1) prob.term.Q
      (gaps prob xs us 1) := hb.term
  have hVxx : (g.V 1).Vxx = 1 := by
    rw [hT]
    simp [termValue, addDiag, prob]
  have hVx : (g.V 1).Vx = fun _ => 1 + v := by
    rw [hT, hgap]
    funext i
    simp [termValue, addDiag, prob, h1]
  have hQu : (g.out 0).Q.Qu = fun _ => 1 + 2 * v := by
    rw [hQ]
    funext i
    simp [actionValue, Lqr.derivs, prob, hVx, hv]
    ring
  have hQuu : (g.out 0).Q.Quu = (2 : ℚ) • (1 : Matrix (Fin 1) (Fin 1) ℚ) := by
    rw [hQ]
    simp [actionValue, addDiag, Lqr.derivs, prob, hVxx]
    ext i j
    simp [Subsingleton.elim i j]
    norm_num
  refine ⟨?_, hgap, hVxx, hVx, hQu, hQuu, ?_⟩
  · funext i
    simp [gaps, prob, h0]
  · rw [hQu, hQuu] at hk
    funext i
    have := congrFun hk i
    simp only [smul_mulVec, one_mulVec, Pi.smul_apply, smul_eq_mul] at this
    linarith

/-- The improvement FDDP predicts, in terms of the trial state `z` reached after the step. -/
theorem predicted {y v z : ℚ} {xs xs' : Nat → Fin 1 → ℚ} {us : Nat → Fin 1 → ℚ} (h0 : xs 0 = fun _ => 1)
    (h1 : xs 1 = fun _ => y) (hv : us 0 = fun _ => v) (hz : xs' 1 = fun _ => z)
    {s g : Arrays ℚ 1 (fun _ => 1)} (h : backwardOn prob Demo.chol (some 0) false xs us s = some g) :
    expectedImprovementFddp 1 false (gaps prob xs us) (fun t => xs t - xs' t) g =
      ((1 + 2 * v) ^ 2 / 2 - (1 + v) * (1 + v - y) - (1 + v - y) * (y - z),
       -(1 + 2 * v) ^ 2 / 2 + (1 + v - y) ^ 2 + 2 * ((1 + v - y) * (y - z))) := by
  obtain ⟨g0, g1, a, b, c, d, e⟩ := back h0 h1 hv h
  simp only [expectedImprovementFddp, updateExpectedImprovement, sumTo, Bool.false_eq_true, if_false,
    Nat.reduceAdd, zero_add, g0, g1, a, b, c, d, e, h1, hz, dotProduct_zero, zero_dotProduct, one_mulVec,
    smul_mulVec, dotProduct, Finset.univ_unique, Finset.sum_singleton, Pi.smul_apply, Pi.sub_apply,
    Pi.zero_apply, smul_eq_mul, Prod.mk.injEq]
  constructor <;> ring

/-- C104 is not exactness: from an infeasible candidate, the half step on the one-step problem increases the
cost by 1/16 while FDDP predicts an increase of 1/8. (With `dv` computed from the full step, as the quadratic
model requires, the prediction would be 1/16.) -/
theorem C104_exact_counterexample (s : Arrays ℚ 1 (fun _ => 1)) :
    ∃ (xs xs' : Nat → Fin 1 → ℚ) (us us' : Nat → Fin 1 → ℚ) (g : Arrays ℚ 1 (fun _ => 1)),
      backwardOn prob Demo.chol (some 0) false xs us s = some g ∧
      Contracted prob xs us g (1/2) xs' us' ∧
      costOf prob xs us - costOf prob xs' us' = -1/16 ∧
      let d := expectedImprovementFddp 1 false (gaps prob xs us) (fun t => xs t - xs' t) g
      (1/2) * (d.1 + (1/2) * (1/2) * d.2) = (-1/8 : ℚ) := by
  let xs : Nat → Fin 1 → ℚ := fun t _ => if t = 0 then 1 else 0
  let us : Nat → Fin 1 → ℚ := fun _ _ => 0
  let xs' : Nat → Fin 1 → ℚ := fun t _ => if t = 0 then 1 else 1/4
  let us' : Nat → Fin 1 → ℚ := fun _ _ => -1/4
  obtain ⟨g, hg⟩ := convex.back Demo.chol_complete (le_refl (0 : ℚ)) false xs us s
  have h0 : xs 0 = fun _ => 1 := rfl
  have h1 : xs 1 = fun _ => 0 := rfl
  have hv : us 0 = fun _ => 0 := rfl
  obtain ⟨g0, g1, -, -, -, -, hk⟩ := back h0 h1 hv hg
  refine ⟨xs, xs', us, us', g, hg, ⟨?_, ?_, ?_⟩, ?_, ?_⟩
  · rw [g0]; simp [prob, xs']
  · intro t ht
    obtain rfl : t = 0 := by simp [prob] at ht; exact ht
    have e : xs' 0 - xs 0 = 0 := by funext i; simp [xs, xs']
    rw [e, hk, mulVec_zero]
    funext i
    simp [us, us']
    norm_num
  · intro t ht
    obtain rfl : t = 0 := by simp [prob] at ht; exact ht
    rw [zero_add, g1]
    funext i
    simp [prob, Lqr.next, xs', us']
    norm_num
  · simp [costOf, prob, Lqr.cost, Lqr.costT, xs, xs', us, us', dotProduct]
    norm_num
  · rw [predicted h0 h1 hv (show xs' 1 = fun _ => 1/4 from rfl) hg]
    norm_num

/-- C103 has an exception: the infeasible guess `x = (1, ½)`, `u = ½` of the one-step problem has exactly the
optimal cost, and one iteration of FDDP does not reach the optimum. The full step does reach it, but since it
neither increases nor decreases the cost and `d0 = ½` is not below the gradient threshold, it is rejected; a
shorter step, if accepted, leaves the candidate infeasible. -/
theorem C103_one_iteration_counterexample {c : Cfg ℚ} (hal : ∃ as, c.alphas = 1 :: as ∧ (1 : ℚ) ∉ as)
    (hgr : c.thGrad ≤ 1/2) (s : LqSt ℚ 1 1) (fuel : Nat) :
    ∃ (xs us : Nat → Fin 1 → ℚ), ConvexLq prob ∧ IsLeast (Set.range (total prob)) (costOf prob xs us) ∧
      ∀ o, solve prob.toProb c (oracle prob Demo.chol .fddp) .fddp (fuel + 1) 1 xs us false (some 0) s = some o →
        o.final.feas = false := by
  let xs : Nat → Fin 1 → ℚ := fun t _ => if t = 0 then 1 else 1/2
  let us : Nat → Fin 1 → ℚ := fun _ _ => 1/2
  have h0 : xs 0 = fun _ => 1 := rfl
  have h1 : xs 1 = fun _ => 1/2 := rfl
  have hv : us 0 = fun _ => 1/2 := rfl
  refine ⟨xs, us, convex, ⟨⟨fun _ _ => -1/2, ?_⟩, ?_⟩, ?_⟩
  · simp [total, costToGo, costOf, traj, prob, Lqr.next, Lqr.cost, Lqr.costT, xs, us, dotProduct]
    norm_num
  · rintro _ ⟨vs, rfl⟩
    simp [total, costToGo, costOf, traj, prob, Lqr.next, Lqr.cost, Lqr.costT, xs, us, dotProduct]
    nlinarith [sq_nonneg (vs 0 0 + 1/2)]
  · intro o ho
    obtain ⟨as, hal, has⟩ := hal
    obtain ⟨s1, g, hdir, hrd⟩ := direction_readyF (kind := .fddp) (c := c)
      (s := start prob.toProb c xs us false (some 0) s) rfl convex Demo.chol_complete le_rfl rfl (.inl rfl) fuel
    generalize hs2 : prepare (oracle prob Demo.chol .fddp) .fddp s1 = s2 at hrd
    obtain ⟨sT, hprobe, hpd⟩ := probe_some (P := prob.toProb) (O := oracle prob Demo.chol .fddp) (kind := .fddp)
      (fun _ => rfl) (fun _ => rfl) 1 zero_le_one le_rfl s2
    have himp := probe_fddp (kind := .fddp) rfl 1 s2 sT hprobe
    rw [hrd.feas, hrd.dir, sum_fddp_congr hrd.fs] at himp
    have hcore := hpd.core
    have hfirst : first prob.toProb .fddp s2 = prob.x0 := rfl
    rw [hfirst] at hcore
    obtain ⟨hcl, hro, hct⟩ := closedLoop_of_core one_pos hrd.k hrd.gain hcore
    have hxs : s2.xs = xs := hrd.xs
    have hus : s2.us = us := hrd.us
    rw [hxs, hus] at hcl
    have hback : backwardOn prob Demo.chol (some 0) false xs us s.dir = some g := hrd.back
    obtain ⟨-, -, -, -, -, -, hk⟩ := back h0 h1 hv hback
    have hu : sT.usTry 0 = fun _ => -1/2 := by
      have hz : sT.xsTry 0 - xs 0 = 0 := by rw [hcl.init, h0]; funext i; simp [prob]
      rw [hcl.control 0 (by simp [prob]), hk, hz, mulVec_zero]
      funext i
      simp [us]
      norm_num
    have hx : sT.xsTry 1 = fun _ => 1/2 := by
      have e := hcl.step 0 (by simp [prob])
      rw [zero_add, hu, hcl.init] at e
      rw [e]
      funext i
      simp [prob, Lqr.next]
      norm_num
    have hpre := predicted h0 h1 hv hx hback
    rw [hxs] at himp
    have himp2 : (sT.d0, sT.d1) = ((1/2 : ℚ), (-1 : ℚ)) :=
      himp.trans (hpre.trans (by norm_num))
    have d0 : sT.d0 = 1/2 := congrArg Prod.fst himp2
    have d1 : sT.d1 = -1 := congrArg Prod.snd himp2
    have hexp : sT.dVexp = 0 := by rw [hpd.dVexp, d0, d1]; norm_num
    have hdV : sT.dV = 0 := by
      rw [hpd.dV, hrd.cost, hct]
      show totalCost prob.toProb xs us - _ = 0
      simp [totalCost, LqProb.toProb, prob, Lqr.cost, Lqr.costT, xs, us, hu, hx, dotProduct]
      norm_num
    have hrej : accepts c .fddp sT = false := by
      unfold accepts
      simp only [Kind.feasibilityDriven, if_true, hexp, hdV, d0, le_refl, mul_zero, gt_iff_lt,
        lt_irrefl, decide_false, Bool.or_false, decide_eq_false_iff_not, not_lt]
      rw [abs_of_pos (by norm_num)]
      exact hgr
    have hls : lineSearch prob.toProb c (oracle prob Demo.chol .fddp) .fddp c.alphas s2 =
        lineSearch prob.toProb c (oracle prob Demo.chol .fddp) .fddp as sT := by
      rw [hal]
      simp only [lineSearch, hprobe, hrej, Bool.false_eq_true, if_false]
    have hfT : sT.feas = false := by rw [hpd.keeps.feas, hrd.feas]; rfl
    have hfe : (lineSearch prob.toProb c (oracle prob Demo.chol .fddp) .fddp as sT).feas = false := by
      rcases lineSearch_spec (P := prob.toProb) (c := c) (O := oracle prob Demo.chol .fddp) (kind := .fddp)
        as sT with h | ⟨a, ha, sU, hU, -, hacc⟩
      · rw [h.feas, hfT]
      · rw [hacc]
        have h1 : a ≠ 1 := fun e => has (e ▸ ha)
        simp [accept, Kind.feasibilityDriven, hU.keeps.feas, hfT, hU.steplength, h1]
    unfold solve iterLoop at ho
    have key : ∀ e b s', iteration prob.toProb c (oracle prob Demo.chol .fddp) .fddp (fuel + 1)
        (start prob.toProb c xs us false (some 0) s) = some (e, b, s') → s'.feas = false := by
      intro e b s' hit
      unfold iteration at hit
      rw [hdir] at hit
      simp only [hs2, hls] at hit
      generalize lineSearch prob.toProb c (oracle prob Demo.chol .fddp) .fddp as sT = w at hit hfe
      split_ifs at hit <;>
        simp only [Option.some.injEq, Prod.mk.injEq] at hit <;> obtain ⟨-, -, rfl⟩ := hit <;>
        first | exact hfe | (simp only [stopping, increaseReg, decreaseReg]; exact hfe)
    cases hit : iteration prob.toProb c (oracle prob Demo.chol .fddp) .fddp (fuel + 1)
        (start prob.toProb c xs us false (some 0) s) with
    | none => rw [hit] at ho; cases ho
    | some r =>
      obtain ⟨e, b, s'⟩ := r
      have hfin := key e b s' hit
      rw [hit] at ho
      cases e <;> simp only [iterLoop, Option.map_some, Option.some.injEq] at ho <;> subst ho <;> exact hfin

/-- The hypotheses of C103: the problem of `Props/Lq.lean`, the default parameters up to scaling, and an
infeasible guess whose cost is not the optimal one. -/
example : ConvexLq prob ∧ Sane (⟨[1, 1/2, 1/4], 1/10, 2, 1/100, 1/100, 1/2, 1/100, ⟨10, 10, 0, 1000⟩⟩ : Cfg ℚ) ∧
    gaps prob (fun _ _ => 1) (fun _ _ => 1) 1 ≠ 0 ∧
    ¬ IsLeast (Set.range (total prob)) (costOf prob (fun _ _ => 1) (fun _ _ => 1)) := by
  refine ⟨convex, ⟨⟨_, rfl⟩, ?_, ?_, ?_, ?_, ?_⟩, ?_, ?_⟩
  · norm_num
  · norm_num
  · norm_num
  · norm_num
  · norm_num
  · intro h
    have := congrFun h 0
    simp [gaps, prob, Lqr.next] at this
  · rintro ⟨-, h⟩
    have := h ⟨fun _ _ => -1/2, rfl⟩
    simp [total, costToGo, costOf, traj, prob, Lqr.next, Lqr.cost, Lqr.costT, dotProduct] at this
    norm_num at this

end Toy
end Verif.Lq
