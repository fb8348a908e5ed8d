import Verif.Lemmas.LqSolve
import Mathlib.Order.Bounds.Basic

set_option linter.unusedSectionVars false

/-! # Lemmas: the feasibility-driven solve loop on linear-quadratic problems -/

namespace Verif.Lq
open Verif Verif.Solve Matrix

variable {K : Type} [Field K] [LinearOrder K] [IsStrictOrderedRing K] {n m : Nat}
variable {P : LqProb K n (fun _ => m)} {llt : ∀ m, Matrix (Fin m) (Fin m) K → Bool} {kind : Kind}

/-- The expected improvement that FDDP attaches to a probed step. -/
theorem probe_fddp (hk : kind.feasibilityDriven = true) (a : K) (s sT : LqSt K n m)
    (h : probe P.toProb (oracle P llt kind) kind a s = (some (), sT)) :
    (sT.d0, sT.d1) = expectedImprovementFddp P.T s.feas s.fs (fun t => s.xs t - sT.xsTry t) s.dir := by
  have ht := tryStep_spec (P := P.toProb) (O := oracle P llt kind) (kind := kind) a { s with steplength := a }
  unfold probe at h
  simp only at h
  cases hf : tryStep P.toProb (oracle P llt kind) kind a { s with steplength := a } with
  | ub => rw [hf] at ht; exact ht.elim
  | throw s' => rw [hf] at h; simp at h
  | ok u s' =>
    rw [hf] at h ht
    obtain ⟨s1, htr, rfl⟩ := ht
    simp only [hk, if_true, Prod.mk.injEq, true_and] at h
    have hfr := htr.frame
    have e1 : s1.feas = s.feas := by rw [hfr]
    have e2 : s1.fs = s.fs := by rw [hfr]
    have e3 : s1.xs = s.xs := by rw [hfr]
    have e4 : s1.dir = s.dir := by rw [hfr]
    subst h
    simp only [oracle, hk, if_true, e1, e2, e3, e4]

/-- The state of a feasibility-driven solver when the line search starts. -/
structure ReadyF (P : LqProb K n (fun _ => m)) (llt : ∀ m, Matrix (Fin m) (Fin m) K → Bool)
    (s0 s : LqSt K n m) (g : Arrays K n (fun _ => m)) : Prop where
  xs : s.xs = s0.xs
  us : s.us = s0.us
  feas : s.feas = s0.feas
  preg : s.preg = s0.preg
  iter : s.iter = s0.iter
  back : backwardOn P llt (some s0.preg) s0.feas s0.xs s0.us s0.dir = some g
  k : s.k = fun t => (g.out t).k
  gain : s.gain = fun t dx => (g.out t).Kfb *ᵥ dx
  dir : s.dir = g
  fs : ∀ t ≤ P.T, s.fs t = gaps P s0.xs s0.us t
  cost : s.cost = totalCost P.toProb s0.xs s0.us

theorem direction_readyF (hk : kind.feasibilityDriven = true) (h : ConvexLq P) (hl : LltComplete llt)
    {c : Cfg K} {s : LqSt K n m}
    (hp : 0 ≤ s.preg) (hr : s.recalc = true) (hm : s.iter = 0 ∨ Matches P.toProb s) (fuel : Nat) :
    ∃ s1 g, dirLoop P.toProb c (oracle P llt kind) (fuel + 1) s = some (true, s1) ∧
      ReadyF P llt s (prepare (oracle P llt kind) kind s1) g := by
  obtain ⟨g, hg⟩ := h.back hl hp s.feas s.xs s.us s.dir
  have hcost := calcDiff_cost (O := oracle P llt kind) hm
  have hcd : (calcDiff P.toProb (oracle P llt kind) s).xs = s.xs ∧
      (calcDiff P.toProb (oracle P llt kind) s).us = s.us ∧
      (calcDiff P.toProb (oracle P llt kind) s).feas = s.feas ∧
      (calcDiff P.toProb (oracle P llt kind) s).preg = s.preg ∧
      (calcDiff P.toProb (oracle P llt kind) s).dir = s.dir ∧
      (calcDiff P.toProb (oracle P llt kind) s).iter = s.iter ∧
      (calcDiff P.toProb (oracle P llt kind) s).lin =
        ⟨fun t => (P.node t).derivs (s.xs t) (s.us t), P.term.q + P.term.Q *ᵥ s.xs P.T, P.term.Q⟩ := by
    unfold calcDiff
    by_cases h0 : s.iter = 0 <;> simp [h0, problemCalc, oracle]
  have hfs : ∀ t ≤ P.T, (calcDiff P.toProb (oracle P llt kind) s).fs t = gaps P s.xs s.us t := by
    intro t ht
    unfold calcDiff
    rcases hm with h0 | hm
    · simp only [h0, if_true, problemCalc]
      cases t <;> rfl
    · by_cases h0 : s.iter = 0
      · simp only [h0, if_true, problemCalc]
        cases t <;> rfl
      · simp only [h0, if_false]
        cases t with
        | zero => rfl
        | succ t =>
          simp only [hm.1 t ht]
          rfl
  have hback : backwardPass llt (some s.preg) s.feas P.T (fun t => (P.node t).derivs (s.xs t) (s.us t))
      (P.term.q + P.term.Q *ᵥ s.xs P.T) P.term.Q (calcDiff P.toProb (oracle P llt kind) s).fs s.dir =
      some g := by
    rw [backwardPass_congr hfs]; exact hg
  obtain ⟨h1, h2, h3, h4, h5, h6, h8⟩ := hcd
  have hO : (oracle P llt kind).backward (calcDiff P.toProb (oracle P llt kind) s) =
      (true, fun t => (g.out t).k, fun t dx => (g.out t).Kfb *ᵥ dx, g) := by
    show (match backwardPass llt (some (calcDiff P.toProb (oracle P llt kind) s).preg)
      (calcDiff P.toProb (oracle P llt kind) s).feas P.T (calcDiff P.toProb (oracle P llt kind) s).lin.d
      (calcDiff P.toProb (oracle P llt kind) s).lin.LxT (calcDiff P.toProb (oracle P llt kind) s).lin.LxxT
      (calcDiff P.toProb (oracle P llt kind) s).fs (calcDiff P.toProb (oracle P llt kind) s).dir with
      | some g => (true, fun t => (g.out t).k, fun t dx => (g.out t).Kfb *ᵥ dx, g)
      | none => _) = _
    rw [h8, h3, h4, h5, hback]
  refine ⟨{ calcDiff P.toProb (oracle P llt kind) s with
      k := fun t => (g.out t).k, gain := fun t dx => (g.out t).Kfb *ᵥ dx, dir := g }, g, ?_, ?_⟩
  · simp only [dirLoop, computeDirection, hr, if_true, hO]
  · have hprep : prepare (oracle P llt kind) kind { calcDiff P.toProb (oracle P llt kind) s with
        k := fun t => (g.out t).k, gain := fun t dx => (g.out t).Kfb *ᵥ dx, dir := g } =
        { calcDiff P.toProb (oracle P llt kind) s with
          k := fun t => (g.out t).k, gain := fun t dx => (g.out t).Kfb *ᵥ dx, dir := g, recalc := false } := by
      simp [prepare, hk, oracle]
    rw [hprep]
    exact ⟨h1, h2, h3, h4, h6, hg, rfl, rfl, rfl, hfs, by
      unfold CostOk at hcost
      rw [h1, h2] at hcost
      exact hcost⟩

theorem sum_fddp_congr {nu : Nat → Nat} {T : Nat} {feas : Bool} {f f' dx : Nat → Fin n → K}
    {g : Arrays K n nu} (h : ∀ t ≤ T, f t = f' t) :
    expectedImprovementFddp T feas f dx g = expectedImprovementFddp T feas f' dx g := by
  have e : ∀ (F F' : Nat → K), (∀ t ∈ Finset.range (T + 1), F t = F' t) →
      sumTo F (T + 1) = sumTo F' (T + 1) := fun F F' hF => by
    rw [sumTo_eq, sumTo_eq]; exact Finset.sum_congr rfl hF
  have e1 := e (fun t => (g.V t).Vx ⬝ᵥ f t) (fun t => (g.V t).Vx ⬝ᵥ f' t) fun t ht => by
    simp only [h t (by have := Finset.mem_range.mp ht; omega)]
  have e2 := e (fun t => f t ⬝ᵥ ((g.V t).Vxx *ᵥ f t)) (fun t => f' t ⬝ᵥ ((g.V t).Vxx *ᵥ f' t)) fun t ht => by
    simp only [h t (by have := Finset.mem_range.mp ht; omega)]
  have e3 := e (fun t => f t ⬝ᵥ ((g.V t).Vxx *ᵥ dx t)) (fun t => f' t ⬝ᵥ ((g.V t).Vxx *ᵥ dx t)) fun t ht => by
    simp only [h t (by have := Finset.mem_range.mp ht; omega)]
  simp only [expectedImprovementFddp, updateExpectedImprovement, e1, e2, e3]

/-- One iteration of FDDP or BoxFDDP (without limits), with any regularisation: the full step is taken. -/
theorem iteration_fddp_reg (hkf : kind.feasibilityDriven = true) (hm : 0 < m) (h : ConvexLq P)
    (hl : LltComplete llt) (hls : LltSound llt)
    {c : Cfg K} {as : List K} (hal : c.alphas = 1 :: as) (hacc : c.thAcceptstep < 1)
    (hneg : 1 < c.thAcceptnegstep) (hgr : 0 < c.thGrad)
    (hinc : c.thStepinc < 1) (hmin : 0 ≤ c.reg.min) {s : LqSt K n m} (hp : 0 ≤ s.preg)
    (hr : s.recalc = true) (hmt : s.iter = 0 ∨ Matches P.toProb s)
    (hf : s.feas = true → Rollout P.toProb s.xs s.us)
    (hgood : s.feas = true ∨ 0 < s.preg ∨ ¬ IsLeast (Set.range (total P)) (totalCost P.toProb s.xs s.us)) (fuel : Nat) :
    ∃ e s' g, iteration P.toProb c (oracle P llt kind) kind (fuel + 1) s = some (e, true, s') ∧
      backwardOn P llt (some s.preg) s.feas s.xs s.us s.dir = some g ∧
      ClosedLoop P s.xs s.us g 1 s'.xs s'.us ∧ Rollout P.toProb s'.xs s'.us ∧ s'.feas = true ∧
      s'.recalc = true ∧ s'.iter = s.iter ∧ Matches P.toProb s' ∧ 0 ≤ s'.preg ∧
      (s'.preg = s.preg ∨ s'.preg = Solver.decrease c.reg s.preg) ∧
      e ≠ .giveUp ∧ (s.feas = false → e = .continue) ∧
      (s.feas = true → e = if (1/2) * (expectedImprovement P.T g).1 < c.thStop then .converged
        else .continue) := by
  obtain ⟨s1, g, hdir, hrd⟩ := direction_readyF (c := c) hkf h hl hp hr hmt fuel
  generalize hs2 : prepare (oracle P llt kind) kind s1 = s2 at hrd
  obtain ⟨sT, hprobe, hpd⟩ := probe_some (P := P.toProb) (O := oracle P llt kind) (kind := kind)
    (fun _ => rfl) (fun _ => rfl) 1 zero_le_one le_rfl s2
  have himp := probe_fddp hkf 1 s2 sT hprobe
  rw [hrd.feas, hrd.dir, sum_fddp_congr hrd.fs] at himp
  have hkd : kind ≠ .ddp := by rintro rfl; cases hkf
  have hfirst : first P.toProb kind s2 = P.x0 := by
    unfold first; rw [if_neg hkd]; rfl
  have hcore := hpd.core
  rw [hfirst] at hcore
  obtain ⟨hcl, hro, hct⟩ := closedLoop_of_core hm hrd.k hrd.gain hcore
  rw [hrd.xs, hrd.us] at hcl
  have hfe : sT.feas = s.feas := by rw [hpd.keeps.feas, hrd.feas]
  have hdV : sT.dV = totalCost P.toProb s.xs s.us - total P sT.usTry := by
    rw [hpd.dV, hrd.cost, hct, rollout_total hro]
  -- what a feasible candidate predicts
  have hfeas : s.feas = true → sT.d0 = (expectedImprovement P.T g).1 ∧
      sT.d1 = -(expectedImprovement P.T g).1 ∧ 0 ≤ (expectedImprovement P.T g).1 := fun hfs => by
    obtain ⟨hnn, hd1, -⟩ := C65_descent hrd.back hls h.symm.term (fun t _ => h.symm.R t)
    rw [hfs, C30_fddp_feasible] at himp
    have h0 := congrArg Prod.fst himp
    have h1 := congrArg Prod.snd himp
    simp only at h0 h1
    exact ⟨h0, by rw [h1, hd1], hnn⟩
  have hacc' : accepts c kind sT = true := by
    unfold accepts
    rw [if_pos hkf]
    cases hfs : s.feas with
    | true =>
      obtain ⟨e0, e1, hnn⟩ := hfeas hfs
      have hexp : sT.dVexp = (1/2) * (expectedImprovement P.T g).1 := by rw [hpd.dVexp, e0, e1]; ring
      have hroll := hf hfs
      rw [if_pos (by rw [hexp]; linarith)]
      simp only [Bool.or_eq_true, decide_eq_true_eq]
      have hz' : (expectedImprovement P.T g).1 = 0 → |sT.d0| < c.thGrad := fun hz => by
        rw [e0, hz, abs_zero]; exact hgr
      by_cases hz : (expectedImprovement P.T g).1 = 0
      · exact .inl (hz' hz)
      · right
        have hex := prox_improvement hrd.back h.symm hls (gaps_of_rollout hroll) (rollout_traj hroll) 1 _ _ hcl
        obtain ⟨-, hd1, -⟩ := C65_descent hrd.back hls h.symm.term (fun t _ => h.symm.R t)
        have hpos : 0 < (expectedImprovement P.T g).1 := lt_of_le_of_ne hnn (Ne.symm hz)
        have hmv : 0 ≤ (1 / 2) * s.preg * moved P s.xs s.us sT.usTry :=
          mul_nonneg (by linarith) (moved_nonneg _)
        rw [hdV, rollout_total hroll, hex, hexp, hd1]
        nlinarith
    | false =>
      have hgood' : 0 < s.preg ∨ ¬ IsLeast (Set.range (total P)) (totalCost P.toProb s.xs s.us) :=
        hgood.resolve_left (by simp [hfs])
      have hb := hrd.back
      rw [hfs] at hb himp
      have hfull := prox_improvement_fddp hb h.symm hls (fun t => s2.xs t - sT.xsTry t) _ _ hcl
      rw [← himp] at hfull
      have hexp : sT.dV = sT.dVexp + (1 / 2) * s.preg * moved P s.xs s.us sT.usTry := by
        rw [hpd.dVexp, hdV]
        have : totalCost P.toProb s.xs s.us = costOf P s.xs s.us := rfl
        rw [this, hfull]; ring
      have hmv : 0 ≤ (1 / 2) * s.preg * moved P s.xs s.us sT.usTry :=
        mul_nonneg (by linarith) (moved_nonneg _)
      by_cases h0 : 0 ≤ sT.dVexp
      · simp only [if_pos h0, Bool.or_eq_true, decide_eq_true_eq]
        rcases eq_or_lt_of_le h0 with hz | hpos
        · -- no improvement is predicted: either something moves, or the candidate is a rollout
          rcases eq_or_lt_of_le hmv with hm0 | hm0
          · left
            have hp0 : s.preg = 0 ∨ moved P s.xs s.us sT.usTry = 0 := by
              rcases mul_eq_zero.mp hm0.symm with e | e
              · rcases mul_eq_zero.mp e with e | e
                · norm_num at e
                · exact .inl e
              · exact .inr e
            rcases hp0 with hp0 | hp0
            · exfalso
              refine hgood'.resolve_left (by rw [hp0]; exact lt_irrefl _) ?_
              have e : totalCost P.toProb s.xs s.us = total P sT.usTry := by
                rw [← sub_eq_zero, ← hdV, hexp, ← hz, ← hm0, add_zero]
              rw [e]
              refine ⟨⟨_, rfl⟩, ?_⟩
              rintro _ ⟨vs, rfl⟩
              exact C29_optimal hb h.symm hls (.inr (by rw [hp0])) (fun e => by cases e) _ _ hcl vs
            · obtain ⟨m1, m2⟩ := moved_eq_zero hp0
              have hg0 : ∀ t ≤ P.T, gaps P s.xs s.us t = 0 := by
                intro t ht
                cases t with
                | zero => rw [gaps, sub_eq_zero]; exact m2 0 ht
                | succ t =>
                  rw [gaps, sub_eq_zero, ← m2 t (by omega), ← m1 t ht, ← m2 (t + 1) ht, traj, Nat.zero_add]
              have hs0 : ∀ F : Nat → K, (∀ t ≤ P.T, F t = 0) → sumTo F (P.T + 1) = 0 := fun F hF => by
                rw [sumTo_eq]
                exact Finset.sum_eq_zero fun t ht => hF t (by have := Finset.mem_range.mp ht; omega)
              have himp0 : expectedImprovementFddp P.T false (gaps P s.xs s.us) (fun t => s2.xs t - sT.xsTry t) g =
                  expectedImprovement P.T g := by
                have e1 := hs0 (fun t => (g.V t).Vx ⬝ᵥ gaps P s.xs s.us t) fun t ht => by
                  simp only [hg0 t ht, dotProduct_zero]
                have e2 := hs0 (fun t => gaps P s.xs s.us t ⬝ᵥ ((g.V t).Vxx *ᵥ gaps P s.xs s.us t)) fun t ht => by
                  simp only [hg0 t ht, zero_dotProduct]
                have e3 := hs0 (fun t => gaps P s.xs s.us t ⬝ᵥ ((g.V t).Vxx *ᵥ (s2.xs t - sT.xsTry t))) fun t ht => by
                  simp only [hg0 t ht, zero_dotProduct]
                simp [expectedImprovementFddp, updateExpectedImprovement, expectedImprovement, e1, e2, e3]
              obtain ⟨-, hd1, -⟩ := C65_descent hb hls h.symm.term (fun t _ => h.symm.R t)
              rw [himp0] at himp
              have h0' := congrArg Prod.fst himp
              have h1' := congrArg Prod.snd himp
              simp only at h0' h1'
              have : sT.dVexp = (1 / 2) * sT.d0 := by rw [hpd.dVexp, h1', hd1, ← h0']; ring
              have hd0 : sT.d0 = 0 := by linarith
              rw [hd0, abs_zero]; exact hgr
          · right
            rw [hexp, ← hz]; linarith
        · right
          rw [hexp]; nlinarith
      · have hlt : sT.dVexp < 0 := not_le.mp h0
        simp only [if_neg h0, hfe, hfs, Bool.not_false, Bool.true_and, decide_eq_true_eq]
        rw [hexp]; nlinarith
  have hls' : lineSearch P.toProb c (oracle P llt kind) kind c.alphas s2 = accept kind sT := by
    rw [hal]; exact lineSearch_first hprobe hacc'
  have hstep : (accept kind sT).steplength = 1 := hpd.steplength
  have hmatch : Matches P.toProb (accept kind sT) :=
    ⟨fun t ht => (hcore.total (autonomousOk hm)).1 t ht, hcore.tdata_eq⟩
  have hpregT : (accept kind sT).preg = s.preg := by
    show sT.preg = _; rw [hpd.keeps.preg, hrd.preg]
  have hfeT : (accept kind sT).feas = true := by
    simp [accept, hkf, hpd.steplength]
  generalize hs3 : (if (accept kind sT).steplength > c.thStepdec then decreaseReg c (accept kind sT)
    else accept kind sT) = s3
  have h3 : s3.xs = sT.xsTry ∧ s3.us = sT.usTry ∧ s3.feas = true ∧ s3.recalc = true ∧ s3.iter = s.iter ∧
      Matches P.toProb s3 ∧ 0 ≤ s3.preg ∧ s3.wasFeas = s.feas ∧ s3.d0 = sT.d0 ∧
      s3.d1 = sT.d1 ∧ s3.steplength = 1 ∧ (s3.preg = s.preg ∨ s3.preg = Solver.decrease c.reg s.preg) := by
    have hit : sT.iter = s.iter := by rw [hpd.keeps.iter, hrd.iter]
    rw [← hs3]
    split
    · refine ⟨rfl, rfl, hfeT, rfl, hit, hmatch, ?_, hfe, rfl, rfl, hstep, .inr ?_⟩
      swap
      · show Solver.decrease c.reg (accept kind sT).preg = _
        rw [hpregT]
      show 0 ≤ Solver.decrease c.reg (accept kind sT).preg
      exact decrease_nonneg hmin _
    · exact ⟨rfl, rfl, hfeT, rfl, hit, hmatch, hpregT ▸ hp, hfe, rfl, rfl, hstep, .inl hpregT⟩
  obtain ⟨x1, x2, x3, x4, x5, x6, x8, x9, x10, x11, x12, x13⟩ := h3
  have hup : decide (s3.steplength ≤ c.thStepinc) = false := by
    rw [x12]; simp [hinc]
  refine ⟨if (stopping s3).wasFeas && decide ((stopping s3).stop < c.thStop) then .converged
        else .continue, stopping s3, g, ?_, hrd.back, ?_, ?_, x3, x4, x5, x6, x8, x13, ?_, ?_, ?_⟩
  · unfold iteration
    rw [hdir]
    simp only [hs2, hls', hs3, hup, Bool.false_eq_true, if_false, Bool.false_and]
    by_cases hc : ((stopping s3).wasFeas && decide ((stopping s3).stop < c.thStop)) = true
    · rw [if_pos hc, if_pos hc]
    · rw [if_neg hc, if_neg hc]
  · show ClosedLoop P s.xs s.us g 1 s3.xs s3.us
    rw [x1, x2]; exact hcl
  · show Rollout P.toProb s3.xs s3.us
    rw [x1, x2]; exact hro
  · split <;> simp
  · intro hfs
    have : (stopping s3).wasFeas = false := by show s3.wasFeas = false; rw [x9, hfs]
    rw [this]; rfl
  · intro hfs
    obtain ⟨e0, e1, hnn⟩ := hfeas hfs
    have h1 : (stopping s3).wasFeas = true := by show s3.wasFeas = true; rw [x9, hfs]
    have hst : (stopping s3).stop = (1/2) * (expectedImprovement P.T g).1 := by
      show |s3.d0 + (1/2) * s3.d1| = _
      rw [x10, x11, e0, e1]
      have : (expectedImprovement P.T g).1 + 1 / 2 * -(expectedImprovement P.T g).1 =
          (1/2) * (expectedImprovement P.T g).1 := by ring
      rw [this, abs_of_nonneg (by linarith)]
    rw [h1, hst]
    simp

/-- One iteration of FDDP or BoxFDDP (without limits). -/
theorem iteration_fddp (hkf : kind.feasibilityDriven = true) (hm : 0 < m) (h : ConvexLq P)
    (hl : LltComplete llt) (hls : LltSound llt)
    {c : Cfg K} {as : List K} (hal : c.alphas = 1 :: as) (hacc : c.thAcceptstep < 1)
    (hneg : 1 < c.thAcceptnegstep) (hgr : 0 < c.thGrad)
    (hinc : c.thStepinc < 1) (hmin : 0 ≤ c.reg.min) {s : LqSt K n m} (hp : 0 ≤ s.preg)
    (hr : s.recalc = true) (hmt : s.iter = 0 ∨ Matches P.toProb s)
    (hf : s.feas = true → Rollout P.toProb s.xs s.us)
    (hgood : (s.preg = 0 ∧ (s.feas = true ∨
        ¬ IsLeast (Set.range (total P)) (totalCost P.toProb s.xs s.us))) ∨
      (s.feas = true ∧ ∀ vs, total P s.us ≤ total P vs)) (fuel : Nat) :
    ∃ e s' g, iteration P.toProb c (oracle P llt kind) kind (fuel + 1) s = some (e, true, s') ∧
      backwardOn P llt (some s.preg) s.feas s.xs s.us s.dir = some g ∧
      ClosedLoop P s.xs s.us g 1 s'.xs s'.us ∧ Rollout P.toProb s'.xs s'.us ∧ s'.feas = true ∧
      s'.recalc = true ∧ s'.iter = s.iter ∧ Matches P.toProb s' ∧ 0 ≤ s'.preg ∧
      e ≠ .giveUp ∧ (s.feas = false → e = .continue) ∧
      (s.feas = true → e = if (1/2) * (expectedImprovement P.T g).1 < c.thStop then .converged
        else .continue) := by
  obtain ⟨e, s', g, h1, h2, h3, h4, h5, h6, h7, h8, h9, -, h10⟩ :=
    iteration_fddp_reg hkf hm h hl hls hal hacc hneg hgr hinc hmin hp hr hmt hf
      (hgood.elim (fun a => a.2.imp id .inr) (fun a => .inl a.1)) fuel
  exact ⟨e, s', g, h1, h2, h3, h4, h5, h6, h7, h8, h9, h10⟩

end Verif.Lq
