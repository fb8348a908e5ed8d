import Verif.Lemmas.UnifReg
import Verif.Props.BigReg

set_option linter.unusedSectionVars false

/-!
# When `solve` returns true on nonlinear problems (C145)

With `reg_max` large enough and enough iterations, `solve` returns true from every feasible guess. But large
regularisations alone make the stopping criterion small: with a large initial regularisation `solve` returns true after one
iteration from every guess, whatever the slope of the cost there.
-/

namespace Verif.Solve
open Verif Verif.Solver
variable {K X DX U L D : Type}
variable [Field K] [LinearOrder K] [IsStrictOrderedRing K] [AddCommGroup DX] [Module K DX] [AddCommGroup U] [Module K U]
variable {P : Prob K X DX U} {c : Cfg K} {O : Oracle K X DX U L D} {kind : Kind}

/-- An iteration raises the regularisation of its direction at most once. -/
theorem iteration_preg_le (hinc : 1 < c.reg.inc) (hdec : 1 < c.reg.dec) (hsd : c.thStepinc ≤ c.thStepdec) {fuel : Nat}
    {s s' : St K X DX U L D} {b : Bool} (hp : 0 < s.preg) (h : iteration P c O kind fuel s = some (.continue, b, s')) :
    ∃ s1, dirLoop P c O fuel s = some (true, s1) ∧ s'.preg ≤ max (s1.preg * c.reg.inc) c.reg.min := by
  unfold iteration at h
  split at h
  · cases h
  · simp at h
  · rename_i s1 hd
    refine ⟨s1, hd, ?_⟩
    have q1 := ((dirLoop_preg hinc.le hp.le hd).1 rfl).1
    have hk : (lineSearch P c O kind c.alphas (prepare O kind s1)).preg = s1.preg := by
      obtain ⟨-, -, -, -, -, -, p7, -⟩ := prepare_keeps (O := O) (kind := kind) s1
      rcases lineSearch_spec (P := P) (c := c) (O := O) (kind := kind) c.alphas (prepare O kind s1) with
        hl | ⟨a, ha, sT, h1, h2, h3⟩
      · rw [hl.preg, p7]
      · rw [h3]; show sT.preg = _
        rw [h1.keeps.preg, p7]
    have h0 : 0 < s1.preg := hp.trans_le q1
    have hle1 : s1.preg ≤ s1.preg * c.reg.inc := le_mul_of_one_le_right h0.le hinc.le
    generalize lineSearch P c O kind c.alphas (prepare O kind s1) = s2 at h hk
    simp only at h
    generalize h3 : (if s2.steplength > c.thStepdec then decreaseReg c s2 else s2) = s3 at h
    have k3 : s3.steplength = s2.steplength ∧ s3.preg ≤ max (s1.preg * c.reg.inc) c.reg.min ∧
        (s2.steplength ≤ c.thStepdec → s3.preg = s1.preg) := by
      rw [← h3]
      split
      · rename_i hgt
        refine ⟨rfl, ?_, fun hle => absurd hgt (not_lt.mpr hle)⟩
        simp only [decreaseReg, decrease, hk]
        split
        · exact le_max_right _ _
        · exact ((div_le_self h0.le hdec.le).trans hle1).trans (le_max_left _ _)
      · exact ⟨rfl, by rw [hk]; exact hle1.trans (le_max_left _ _), fun _ => hk⟩
    obtain ⟨a1, a2, a3⟩ := k3
    generalize h4 : (if decide (s3.steplength ≤ c.thStepinc) = true then increaseReg c s3 else s3) = s4 at h
    have key : s4.preg ≤ max (s1.preg * c.reg.inc) c.reg.min := by
      rw [← h4]
      split
      · rename_i hle
        have hle := of_decide_eq_true hle
        simp only [increaseReg, increase, a3 ((a1 ▸ hle).trans hsd)]
        split
        · rename_i hlt
          exact (show c.reg.max ≤ s1.preg * c.reg.inc from hlt.le).trans (le_max_left _ _)
        · exact le_max_left _ _
      · exact a2
    split at h
    · simp at h
    · split at h
      · simp at h
      · simp only [Option.some.injEq, Prod.mk.injEq, true_and] at h
        rw [← h.2]
        exact key

end Verif.Solve

namespace Verif.Nl
open Verif Verif.Solve Verif.Solver Verif.Lq Verif.Deriv Matrix

variable {n m : Nat} {P : NlProb n m} {kind : Kind} {c : Cfg ℝ} {fuel : Nat} {s s1 s' : NlSt n m} {amin : ℝ}
variable {lin : (Nat → Fin n → ℝ) → (Nat → Fin m → ℝ) → Lin ℝ n m}
variable {llt : ∀ m, Matrix (Fin m) (Fin m) ℝ → Bool}

/-- The stopping criterion after an iteration from a feasible candidate. -/
theorem iteration_stop (hm : 0 < m) (hv : Valid P lin kind s) (hfe : s.feas = true) (hl : LltSound llt)
    (hH : SymmHess P.T (lin s.xs s.us)) (hne : c.alphas ≠ []) (h01 : ∀ a ∈ c.alphas, 0 ≤ a ∧ a ≤ 1)
    (hd : dirLoop P.toProb c (oracle P lin llt kind) fuel s = some (true, s1)) {e : Exit} {b : Bool} (he : e ≠ .giveUp)
    (hi : iteration P.toProb c (oracle P lin llt kind) kind fuel s = some (e, b, s')) :
    s'.stop = (1 / 2) * ∑ t ∈ Finset.range P.T, (s1.dir.out t).Q.Qu ⬝ᵥ (s1.dir.out t).k := by
  rcases iteration_cases fuel s hi with ⟨he', -⟩ | ⟨s1', hd', hs2, -, hst⟩
  · exact absurd he' he
  rw [hd] at hd'
  obtain rfl : s1 = s1' := by simpa using hd'
  have hD := hv.directed hd
  have hR := hD.ready (kind := kind) hv.inv.zero
  obtain ⟨-, -, -, -, -, -, -, -, -, -, e11, e12, -⟩ := hs2
  have hdd := lineSearch_d (c := c) (lin := lin) (llt := llt) hm hfe c.alphas h01 _ hR (.inl hne)
  rw [← e11, ← e12] at hdd
  obtain ⟨hd0, hd1, -⟩ := hD.d1 hl hH
  have f0 : s'.d0 = (expectedImprovement P.T s1.dir).1 := congrArg Prod.fst hdd
  have f1 : s'.d1 = (expectedImprovement P.T s1.dir).2 := congrArg Prod.snd hdd
  rw [hst he, f0, f1, hd1, show (expectedImprovement P.T s1.dir).1 + 1 / 2 * -(expectedImprovement P.T s1.dir).1 =
        (1 / 2) * (expectedImprovement P.T s1.dir).1 by ring, abs_of_nonneg (by linarith)]
  simp only [expectedImprovement, sumTo_eq]

/-- An iteration from a feasible candidate keeps it, or makes the next one feasible for the stopping test. -/
theorem iteration_was (hv : Valid P lin kind s) (hfe : s.feas = true) {e : Exit} {b : Bool} (he : e ≠ .giveUp)
    (hi : iteration P.toProb c (oracle P lin llt kind) kind fuel s = some (e, b, s')) :
    (s'.recalc = false ∧ s'.xs = s.xs ∧ s'.us = s.us ∧ s'.wasFeas = s.wasFeas) ∨ (s'.recalc = true ∧ s'.wasFeas = true) := by
  rcases iteration_cases fuel s hi with ⟨he', -⟩ | ⟨s1, hd, hs2, -, -⟩
  · exact absurd he' he
  have hD := hv.directed hd
  have hR := hD.ready (kind := kind) hv.inv.zero
  have prec : (prepare (oracle P lin llt kind) kind s1).recalc = false := by
    unfold prepare; cases kind.feasibilityDriven <;> simp
  have pwas : (prepare (oracle P lin llt kind) kind s1).wasFeas = s1.wasFeas := by
    unfold prepare; cases kind.feasibilityDriven <;> simp
  obtain ⟨e1, e2, -, e4, -, e6, -⟩ := hs2
  rcases lineSearch_ready (c := c) (lin := lin) (llt := llt) c.alphas _ hR prec with
    ⟨h1, h2⟩ | ⟨s3, sT, a, ha, hR3, hp, hac, hls⟩
  · exact .inl ⟨e6.trans h1, by rw [e1, h2.xs, hR.xs], by rw [e2, h2.us, hR.us], by rw [e4, h2.wasFeas, pwas, hD.keeps.wasFeas]⟩
  · refine .inr ⟨by rw [e6, hls]; rfl, ?_⟩
    have hpr := probe_spec (P := P.toProb) (O := oracle P lin llt kind) (kind := kind) a s3
    rw [hp] at hpr
    rw [e4, hls]
    show sT.feas = true
    exact hpr.keeps.feas.trans (hR3.feas.trans hfe)

/-- While the backward pass only fails below `R`, the retry loop does not go beyond `R * inc`. -/
theorem dirLoop_lt {R : ℝ} (hinc : 1 < c.reg.inc) (hR0 : 0 < R) (hmax : R * c.reg.inc ≤ c.reg.max) (fuel : Nat) {s s1 : NlSt n m} {b : Bool}
    (hR : ∀ p ≥ R, ∃ g, Back llt (some p) true P.T (lin s.xs s.us).d (lin s.xs s.us).LxT (lin s.xs s.us).LxxT (fun _ => 0) g)
    (hpre : DirPre P.toProb s)
    (hfr : s.recalc = false → s.lin = lin s.xs s.us ∧ ∀ t ≤ P.T, s.fs t = gapsOf P s.xs s.us t) (hfe : s.feas = true)
    (hp : s.preg < R * c.reg.inc)
    (hd : dirLoop P.toProb c (oracle P lin llt kind) fuel s = some (b, s1)) : s1.preg < R * c.reg.inc := by
  induction fuel generalizing s with
  | zero => simp [dirLoop] at hd
  | succ fuel ih =>
    simp only [dirLoop] at hd
    have hpr : (computeDirection P.toProb (oracle P lin llt kind) s).2.preg = s.preg := computeDirection_preg s
    split at hd
    · simp only [Option.some.injEq, Prod.mk.injEq] at hd
      rw [← hd.2, hpr]; exact hp
    · rename_i hno
      have hinc0 : 0 < c.reg.inc := one_pos.trans hinc
      have hlt : s.preg < R := by
        by_contra hge
        exact hno (computeDirection_ok hpre hfr hfe (hR _ (not_lt.mp hge)))
      obtain ⟨hk, hcst, -⟩ := computeDirection_spec (O := oracle P lin llt kind) hpre
      have hfresh : (computeDirection P.toProb (oracle P lin llt kind) s).2.lin = lin s.xs s.us ∧
          ∀ t ≤ P.T, (computeDirection P.toProb (oracle P lin llt kind) s).2.fs t = gapsOf P s.xs s.us t := by
        unfold computeDirection
        unfold DirPre at hpre
        rcases Bool.eq_false_or_eq_true s.recalc with hr | hr
        · rw [hr] at hpre ⊢
          simp only [if_true] at hpre ⊢
          exact calcDiff_fresh (lin := lin) (llt := llt) (kind := kind) hpre
        · rw [hr]
          simp only [Bool.false_eq_true, if_false]
          exact hfr hr
      have hmul : s.preg * c.reg.inc < R * c.reg.inc := mul_lt_mul_of_pos_right hlt hinc0
      have hin : increase c.reg s.preg = s.preg * c.reg.inc := by
        simp only [increase]; rw [if_neg (not_lt.mpr (hmul.trans_le hmax).le)]
      generalize computeDirection P.toProb (oracle P lin llt kind) s = r at *
      have hpi : (increaseReg c { r.2 with recalc := false }).preg = s.preg * c.reg.inc := by
        rw [← hin]; simp only [increaseReg, hpr]
      split at hd
      · simp only [Option.some.injEq, Prod.mk.injEq] at hd
        rw [← hd.2, hpi]; exact hmul
      · have x1 : (increaseReg c { r.2 with recalc := false }).xs = s.xs := hk.xs
        have x2 : (increaseReg c { r.2 with recalc := false }).us = s.us := hk.us
        have x3 : (increaseReg c { r.2 with recalc := false }).feas = s.feas := hk.feas
        refine ih (s := increaseReg c { r.2 with recalc := false }) (by rw [x1, x2]; exact hR) ?_ (fun _ => ?_) (x3.trans hfe)
          (by rw [hpi]; exact hmul) hd
        · unfold DirPre
          simp only [increaseReg, Bool.false_eq_true, if_false]
          exact hcst
        · rw [x1, x2]; exact hfresh

/-- From a feasible guess, every large regularisation makes the first step length pass. -/
theorem guess_full (hm : 0 < m) {xs : Nat → Fin n → ℝ} {us : Nat → Fin m → ℝ} (hro : Rollout P.toProb xs us)
    (hE : Exact P xs us (lin xs us)) (hH : SymmHess P.T (lin xs us)) (hl : LltSound llt) (hlc : LltComplete llt)
    {th : ℝ} (hth : th < 2) :
    ∃ R > 0, ∀ (c : Cfg ℝ) kind fuel (s s1 : NlSt n m), c.thAcceptstep ≤ th → 0 < c.thGrad → Valid P lin kind s → s.feas = true →
      s.xs = xs → s.us = us → dirLoop P.toProb c (oracle P lin llt kind) fuel s = some (true, s1) → R ≤ s1.preg →
      ∃ sT, probe P.toProb (oracle P lin llt kind) kind 1 (prepare (oracle P lin llt kind) kind s1) = (some (), sT) ∧
        accepts c kind sT = true := by
  by_cases hns : Stationary P us
  · refine ⟨1, one_pos, fun c kind fuel s s1 _ hgr hv hfe hx hu hd _ => ?_⟩
    subst hx hu
    have hD := hv.directed hd
    have hRd := hD.ready (kind := kind) hv.inv.zero
    obtain ⟨-, hd1, h3⟩ := hD.d1 hl hH
    obtain ⟨p, hb⟩ := hD.back
    have hz : (expectedImprovement P.T s1.dir).1 = 0 := by
      rw [h3, qu_zero_iff hb fun t ht => by rw [hD.fs t ht, gaps_zero hro t ht], ← stationary_iff (hE.of_rollout hro)]
      exact hns
    obtain ⟨sT, hpT, hfT, hdV, hx, -, hdd⟩ := hRd.trial (lin := lin) (llt := llt) hm (f := fun _ => 0) (a := 1) zero_le_one le_rfl
      (.inl ⟨hfe, fun _ _ => rfl⟩)
    rw [hfe, expectedImprovementFddp_feas, ite_self] at hdd
    have e0 : sT.d0 = 0 := (congrArg Prod.fst hdd).trans hz
    have e1 : sT.d1 = 0 := (congrArg Prod.snd hdd).trans (by rw [hd1, hz, neg_zero])
    refine ⟨sT, hpT, ?_⟩
    have hx0 : sT.dVexp = 0 := by rw [hx, e0, e1]; ring
    unfold accepts
    cases kind.feasibilityDriven <;> simp [hx0, e0, hgr]
  · obtain ⟨R, hR0, hR⟩ := big_reg hE hro hl hlc hH hns hth
    refine ⟨R, hR0, fun c kind fuel s s1 hacc _ hv hfe hx hu hd hp => ?_⟩
    subst hx hu
    obtain ⟨sT, h1, h2, -⟩ := full_step hm hv hfe hl hH hR hacc hd hp
    exact ⟨sT, h1, h2⟩

/-- The loop never gives up. -/
theorem iterLoop_true (hm : 0 < m) (hl : LltSound llt) (hH : ∀ xs us, SymmHess P.T (lin xs us)) (hc : Usual c amin)
    (h01 : ∀ a ∈ c.alphas, 0 ≤ a ∧ a ≤ 1) {as : List ℝ} (has : c.alphas = 1 :: as) (hsi : c.thStepinc < 1)
    {R J : ℝ} (hR0 : 0 < R) (hRmin : c.reg.min ≤ R) (hmax : R * c.reg.inc * c.reg.inc ≤ c.reg.max)
    {xs0 : Nat → Fin n → ℝ} {us0 : Nat → Fin m → ℝ}
    (hb : ∀ xs us, Rollout P.toProb xs us → total P us ≤ J → ∀ p ≥ R,
      (∃ g, Back llt (some p) true P.T (lin xs us).d (lin xs us).LxT (lin xs us).LxxT (fun _ => 0) g) ∧
      ∀ f g, Back llt (some p) true P.T (lin xs us).d (lin xs us).LxT (lin xs us).LxxT f g →
        ∑ t ∈ Finset.range P.T, (g.out t).Q.Qu ⬝ᵥ (g.out t).k < 2 * c.thStop)
    (hfull : ∀ s s1 : NlSt n m, Valid P lin kind s → s.feas = true → s.xs = xs0 → s.us = us0 →
      dirLoop P.toProb c (oracle P lin llt kind) fuel s = some (true, s1) → R ≤ s1.preg →
      ∃ sT, probe P.toProb (oracle P lin llt kind) kind 1 (prepare (oracle P lin llt kind) kind s1) = (some (), sT) ∧
        accepts c kind sT = true)
    (N : Nat) (s : NlSt n m) (hv : Valid P lin kind s) (hfe : s.feas = true) (hp : 0 < s.preg) (hJ : total P s.us ≤ J)
    (hI : (s.wasFeas = true ∧ s.preg < R * c.reg.inc) ∨ (s.wasFeas = false ∧ s.xs = xs0 ∧ s.us = us0))
    {o : Outcome ℝ (Fin n → ℝ) (Fin n → ℝ) (Fin m → ℝ) (Lin ℝ n m) _}
    (ho : iterLoop P.toProb c (oracle P lin llt kind) kind fuel N s = some o) : o.ret = true ∨ o.trace.length = N := by
  induction N generalizing s o with
  | zero =>
    simp only [iterLoop, Option.some.injEq] at ho
    subst ho; exact .inr rfl
  | succ N ih =>
    simp only [iterLoop] at ho
    have hinc0 : 0 < c.reg.inc := one_pos.trans hc.inc
    have hRR : R ≤ R * c.reg.inc := le_mul_of_one_le_right hR0.le hc.inc.le
    have hmax1 : R * c.reg.inc ≤ c.reg.max := (le_mul_of_one_le_right (mul_pos hR0 hinc0).le hc.inc.le).trans hmax
    have hbs := hb _ _ (hv.ro hfe) hJ
    cases hi : iteration P.toProb c (oracle P lin llt kind) kind fuel s with
    | none => rw [hi] at ho; simp at ho
    | some r =>
      obtain ⟨e, b, s'⟩ := r
      rw [hi] at ho
      have hne : e ≠ .giveUp := by
        refine not_giveUp hc.stepdec (fun s1 hd => ?_) (fun s1 hd => ?_) hi
        · exact absurd (dirLoop_never hinc0 hmax1 fuel (fun p hp => (hbs p hp).1) hv.inv.pre hv.fresh hfe hd) (by simp)
        · rcases hI with ⟨-, hlt⟩ | ⟨-, hx, hu⟩
          · have := dirLoop_lt hc.inc hR0 hmax1 fuel (fun p hp => (hbs p hp).1) hv.inv.pre hv.fresh hfe hlt hd
            exact .inl ((mul_lt_mul_of_pos_right this hinc0).trans_le hmax)
          · by_cases hge : R ≤ s1.preg
            · obtain ⟨sT, h1, h2⟩ := hfull s s1 hv hfe hx hu hd hge
              rw [lineSearch_one has h1 h2]
              exact .inr hsi
            · exact .inl ((mul_lt_mul_of_pos_right (not_le.mp hge) hinc0).trans_le hmax1)
      cases e with
      | giveUp => exact absurd rfl hne
      | converged => simp only [Option.some.injEq] at ho; subst ho; exact .inl rfl
      | «continue» =>
        simp only at ho
        cases hl' : iterLoop P.toProb c (oracle P lin llt kind) kind fuel N { s' with iter := s'.iter + 1 } with
        | none => rw [hl'] at ho; simp at ho
        | some o' =>
          rw [hl'] at ho
          simp only [Option.map_some, Option.some.injEq] at ho
          subst ho
          obtain ⟨g1, g2, -, g4⟩ := (iteration_preg hc.inc hc.dec hc.last hc.stepdec hp hi).2 rfl
          obtain ⟨hf', hor⟩ := iteration_feasible hm hv hfe hl (hH _ _) hc hp hi
          have hdecr : 0 < c.thAcceptstep * (amin * c.thStop) := mul_pos hc.accept (mul_pos hc.amin_pos hc.stop)
          have hJ' : total P s'.us ≤ J := by
            rcases hor with ⟨-, h⟩ | ⟨-, h⟩ <;> linarith
          have hp' : 0 < s'.preg := by
            rcases hor with ⟨h, -⟩ | ⟨h, -⟩
            · exact (mul_pos hp hinc0).trans_le (g2 h)
            · by_contra hneg
              have h3 := g1 h
              have := mul_nonpos_of_nonpos_of_nonneg (not_lt.mp hneg) (one_pos.trans hc.dec).le
              linarith
          have hw : s'.wasFeas = true → s'.preg < R * c.reg.inc := by
            intro hw
            obtain ⟨s1, hd, hle⟩ := iteration_preg_le hc.inc hc.dec hc.stepdec hp hi
            have hst := iteration_stop hm hv hfe hl (hH _ _) (by rw [has]; simp) h01 hd hne hi
            have hge := g4 hw
            have hlt : s1.preg < R := by
              by_contra hcon
              have hD := hv.directed hd
              have hbk := dirLoop_back fuel hd
              rw [hD.keeps.feas, hfe, hD.lin_eq] at hbk
              have := (hbs _ (not_lt.mp hcon)).2 _ _ hbk
              rw [hst] at hge
              linarith
            refine hle.trans_lt (max_lt (mul_lt_mul_of_pos_right hlt hinc0) (hRmin.trans_lt ?_))
            exact lt_mul_of_one_lt_right hR0 hc.inc
          have := ih { s' with iter := s'.iter + 1 } (hv.next hm hi) hf' hp' hJ' (by
            rcases iteration_was hv hfe hne hi with ⟨-, hx, hu, hw'⟩ | ⟨-, hw'⟩
            · rcases hI with ⟨h, -⟩ | ⟨h, hx0, hu0⟩
              · exact .inl ⟨hw'.trans h, hw (hw'.trans h)⟩
              · exact .inr ⟨hw'.trans h, hx.trans hx0, hu.trans hu0⟩
            · exact .inl ⟨hw', hw hw'⟩) hl'
          rcases this with h | h
          · exact .inl h
          · exact .inr (by simpa using h)

/-- C145. For every problem with exact first derivatives at the guess, symmetric Hessians, a total cost that is bounded below and
derivatives that are bounded over the rollouts that are no worse than the guess, with parameters as users set them
(`th_grad` positive, the first step length 1): there is an `M` such that with every `reg_max` of at least `M`, every
positive initial regularisation and enough iterations, each of the four solvers returns true from that guess. What is
missing: that the returned trajectory is then nearly stationary (`C145_premature_counterexample`). -/
theorem C145_returns_true_partial (hm : 0 < m) (hl : LltSound llt) (hlc : LltComplete llt) (hH : ∀ xs us, SymmHess P.T (lin xs us))
    (hc : Usual c amin) (hgr : 0 < c.thGrad) {as : List ℝ} (has : c.alphas = 1 :: as) (h1 : ∀ a ∈ c.alphas, a ≤ 1)
    (hacc : c.thAcceptstep < 2) (hsi : c.thStepinc < 1) (hJ : ∃ Jlow, ∀ us, Jlow ≤ total P us)
    (xs : Nat → Fin n → ℝ) (us : Nat → Fin m → ℝ) (hro : Rollout P.toProb xs us) (hE : Exact P xs us (lin xs us))
    (hB : ∃ B, ∀ xs' us', Rollout P.toProb xs' us' → total P us' ≤ total P us → Bounded P.T B (lin xs' us')) :
    ∃ M, ∀ mx ≥ M, ∀ (regInit : Option ℝ), 0 < regInit.getD c.reg.min → ∀ kind (s : NlSt n m),
      ∃ N, ∀ maxiter ≥ N, ∃ fuel0, ∀ fuel ≥ fuel0, ∃ o,
        solve P.toProb (withMax c mx) (oracle P lin llt kind) kind fuel maxiter xs us true regInit s = some o ∧
        o.ret = true ∧ o.final.stop < c.thStop ∧ o.trace.length ≤ N := by
  obtain ⟨B, hB⟩ := hB
  obtain ⟨R1, hR1, hb⟩ := unif_reg (n := n) (m := m) hl hlc P.T B (mul_pos two_pos hc.stop)
  obtain ⟨R2, hR2, hf⟩ := guess_full hm hro hE (hH _ _) hl hlc hacc
  set R := max (max R1 R2) c.reg.min with hR
  have hle1 : R1 ≤ R := (le_max_left _ _).trans (le_max_left _ _)
  have hle2 : R2 ≤ R := (le_max_right _ _).trans (le_max_left _ _)
  have hR0 : 0 < R := hR1.trans_le hle1
  have hinc0 : 0 < c.reg.inc := one_pos.trans hc.inc
  refine ⟨R * c.reg.inc * c.reg.inc, fun mx hmx regInit hreg kind s => ?_⟩
  have hmx0 : 0 < mx := (mul_pos (mul_pos hR0 hinc0) hinc0).trans_le hmx
  have hc' : Usual (withMax c mx) amin :=
    ⟨hc.amin_pos, hc.amin_le, hc.last, hc.stepdec, hc.accept, hc.stop, hc.grad, hc.inc, hc.dec, hmx0⟩
  obtain ⟨N, hN⟩ := C141_ends hm hl hH hc' hJ kind xs us true (fun _ => hro) (.inl rfl) regInit hreg s
  refine ⟨N + 1, fun maxiter hmi => ?_⟩
  obtain ⟨fuel0, hfu⟩ := hN maxiter (by omega)
  refine ⟨fuel0, fun fuel hfuel => ?_⟩
  obtain ⟨o, ho, hend, hlen⟩ := hfu fuel hfuel
  refine ⟨o, ho, ?_⟩
  have hret : o.ret = true := by
    have := iterLoop_true (c := withMax c mx) (fuel := fuel) (J := total P us) (R := R) hm hl hH hc'
      (fun a ha => ⟨(hc.amin_pos.trans_le (hc.amin_le a ha)).le, h1 a ha⟩) has hsi hR0 (le_max_right _ _) hmx
      (xs0 := xs) (us0 := us) (fun xs' us' hro' hle p hp => hb _ (hB xs' us' hro' hle) (hH _ _) p (hle1.trans hp))
      (fun s s1 hv hfe hx hu hd hp => hf (withMax c mx) kind fuel s s1 le_rfl hgr hv hfe hx hu hd (hle2.trans hp))
      maxiter _ (valid_start (fun _ => hro) (fun _ => rfl) regInit s) rfl hreg le_rfl (.inr ⟨rfl, rfl, rfl⟩) ho
    exact this.resolve_right (by omega)
  rcases hend with ⟨-, h⟩ | ⟨h, -⟩
  · exact ⟨hret, h, by omega⟩
  · rw [hret] at h; cases h

/-- C145. But success says nothing about the guess when the regularisation is large: from every feasible guess that is not
stationary and for every `eps > 0` there is an `R` such that with every initial regularisation of at least `R` each of the four
solvers returns true after its first iteration, having decreased the total cost by less than `eps`. -/
theorem C145_premature_counterexample (hm : 0 < m) (xs : Nat → Fin n → ℝ) (us : Nat → Fin m → ℝ) (hro : Rollout P.toProb xs us)
    (hE : Exact P xs us (lin xs us)) (hH : SymmHess P.T (lin xs us)) (hl : LltSound llt) (hlc : LltComplete llt)
    (hns : ¬ Stationary P us) (hc : Usual c amin) {as : List ℝ} (has : c.alphas = 1 :: as) (h1 : ∀ a ∈ c.alphas, a ≤ 1)
    (hacc : c.thAcceptstep < 2) (hsi : c.thStepinc < 1) (eps : ℝ) (heps : 0 < eps) :
    ∃ R, ∀ reg ≥ R, ∀ kind (s : NlSt n m) fuel maxiter, 0 < fuel → 0 < maxiter → ∃ o,
      solve P.toProb c (oracle P lin llt kind) kind fuel maxiter xs us true (some reg) s = some o ∧
      o.ret = true ∧ o.trace.length = 1 ∧ 0 < total P us - total P o.final.us ∧ total P us - total P o.final.us < eps := by
  obtain ⟨R, hR0, hR⟩ := big_reg_eps hE hro hl hlc hH hns hacc (lt_min (mul_pos two_pos hc.stop) (half_pos heps))
  refine ⟨max R c.reg.min, fun reg hreg kind s fuel maxiter hfu hmi => ?_⟩
  obtain ⟨fuel, rfl⟩ : ∃ k, fuel = k + 1 := ⟨fuel - 1, by omega⟩
  obtain ⟨maxiter, rfl⟩ : ∃ k, maxiter = k + 1 := ⟨maxiter - 1, by omega⟩
  have hregR : R ≤ reg := (le_max_left _ _).trans hreg
  have hv : Valid P lin kind (start P.toProb c xs us true (some reg) s) := valid_start (fun _ => hro) (fun _ => rfl) (some reg) s
  have hen : Enough P llt (lin xs us) xs us c.thAcceptstep R :=
    fun p hp => ⟨(hR p hp).1, fun f g hg => ⟨((hR p hp).2 f g hg).1, ((hR p hp).2 f g hg).2.1⟩⟩
  have hpreg : (start P.toProb c xs us true (some reg) s).preg = reg := rfl
  have hok : (computeDirection P.toProb (oracle P lin llt kind) (start P.toProb c xs us true (some reg) s)).1 = true :=
    computeDirection_ok hv.inv.pre hv.fresh rfl (hR _ hregR).1
  have hd : dirLoop P.toProb c (oracle P lin llt kind) (fuel + 1) (start P.toProb c xs us true (some reg) s) =
      some (true, (computeDirection P.toProb (oracle P lin llt kind) (start P.toProb c xs us true (some reg) s)).2) := by
    simp only [dirLoop, hok, if_true]
  have hpr : (computeDirection P.toProb (oracle P lin llt kind) (start P.toProb c xs us true (some reg) s)).2.preg = reg :=
    computeDirection_preg _
  generalize (computeDirection P.toProb (oracle P lin llt kind) (start P.toProb c xs us true (some reg) s)).2 = s1 at hd hpr
  obtain ⟨sT, p1, p2, p3, p4, p5, p6, p7, p8⟩ := full_step (c := c) hm hv rfl hl hH hen le_rfl hd (by rw [hpr]; exact hregR)
  rw [hpr] at p8
  obtain ⟨e, s', hi, he, -, -⟩ := iteration_first has hsi hd p1 p2 hc.dec.le (by rw [p8]; linarith)
    (by rw [p8]; exact (le_max_right _ _).trans hreg)
  have hst := iteration_stop hm hv rfl hl hH (by rw [has]; simp)
    (fun a ha => ⟨(hc.amin_pos.trans_le (hc.amin_le a ha)).le, h1 a ha⟩) hd he hi
  have hD := hv.directed hd
  have hbk := dirLoop_back (fuel + 1) hd
  rw [hD.keeps.feas, hD.lin_eq, hpr] at hbk
  have hall := (hR reg hregR).2 _ _ hbk
  have hlt : s'.stop < c.thStop := by
    have := hall.2.2.1.trans_le (min_le_left _ _)
    rw [hst]; linarith
  have hus : s'.us = sT.usTry := by
    rcases iteration_cases (fuel + 1) _ hi with ⟨he', -⟩ | ⟨s1', hd', hs2, -, -⟩
    · exact absurd he' he
    rw [hd] at hd'
    obtain rfl : s1 = s1' := by simpa using hd'
    rw [has, lineSearch_first p1 p2] at hs2
    exact hs2.2.1
  have hconv : e = .converged := by
    cases e with
    | giveUp => exact absurd rfl he
    | converged => rfl
    | «continue» =>
      have hreg0 : 0 < (start P.toProb c xs us true (some reg) s).preg := hR0.trans_le hregR
      have g4 := ((iteration_preg hc.inc hc.dec hc.last hc.stepdec hreg0 hi).2 rfl).2.2.2
      exfalso
      have hw : s'.wasFeas = true := by
        rcases iteration_cases (fuel + 1) _ hi with ⟨he', -⟩ | ⟨s1', hd', hs2, -, -⟩
        · cases he'
        rw [hd] at hd'
        obtain rfl : s1 = s1' := by simpa using hd'
        rw [has, lineSearch_first p1 p2] at hs2
        rw [hs2.2.2.2.1]
        exact p7
      linarith [g4 hw]
  subst hconv
  refine ⟨_, by unfold solve; simp only [iterLoop, hi]; rfl, rfl, rfl, ?_, ?_⟩
  · show 0 < total P us - total P s'.us
    have h0 := mul_pos hc.accept p5
    have h4 : sT.dV = total P us - total P sT.usTry := p4
    rw [hus]; linarith
  · show total P us - total P s'.us < eps
    obtain ⟨sT', q1, -, q2, -⟩ := (hD.ready (kind := kind) hv.inv.zero).trial (lin := lin) (llt := llt) hm (f := fun _ => 0) (a := 1)
      zero_le_one le_rfl (.inl ⟨rfl, fun _ _ => rfl⟩)
    rw [p1] at q1
    obtain rfl : sT = sT' := by simpa using q1
    have h4 : sT.dV = total P us - total P sT.usTry := p4
    have h5 : sT.dV = totalCost P.toProb xs us - polyCost P xs us s1.dir (fun _ => 0) 1 := q2
    have h6 := hall.2.2.1.trans_le (min_le_right _ _)
    have h7 := hall.2.2.2
    rw [hus]
    linarith

/-! ### Non-vacuity: the nonlinear problem `Demo.prob` with the defaults of the library -/
namespace ReturnsDemo

/-- The derivatives are bounded over the rollouts that are no worse than the one with zero controls. -/
theorem bounded (xs us : Nat → Fin 1 → ℝ) (hro : Rollout Demo.prob.toProb xs us)
    (h : total Demo.prob us ≤ total Demo.prob fun _ _ => 0) : Bounded Demo.prob.T 3 (Demo.dlin xs us) := by
  rw [EndsDemo.guess_cost] at h
  have h0 : xs 0 0 = 1 := congrFun hro.1 0
  have h1 : xs 1 0 = xs 0 0 + us 0 0 + us 0 0 * us 0 0 := congrFun (hro.2 0 (by norm_num [Demo.prob, NlProb.toProb])) 0
  have e : total Demo.prob us = 1 / 2 * (us 0 0 * us 0 0) + 1 / 2 * (xs 1 0 * xs 1 0) := by
    rw [h1, h0]; simp [total, Demo.prob, traj]
  rw [e] at h
  have hu : |us 0 0| ≤ 1 := (sq_le_one_iff_abs_le_one _).mp (by nlinarith [mul_self_nonneg (xs 1 0)])
  have hx : |xs 1 0| ≤ 1 := (sq_le_one_iff_abs_le_one _).mp (by nlinarith [mul_self_nonneg (us 0 0)])
  refine ⟨fun t ht => ?_, fun i => ?_, fun i j => ?_⟩
  · obtain rfl : t = 0 := by simpa [Demo.prob] using ht
    have hf : |1 + 2 * us 0 0| ≤ 3 := by
      obtain ⟨a, b⟩ := abs_le.mp hu
      rw [abs_le]; constructor <;> linarith
    constructor <;> intros <;> simp [Demo.dlin, Fin.fin_one_eq_zero] <;> linarith
  · obtain rfl : i = 0 := Subsingleton.elim _ _
    exact hx.trans (by norm_num)
  · simp [Demo.dlin]

theorem le_one : ∀ a ∈ EndsDemo.dflt.alphas, a ≤ 1 := by simp [EndsDemo.dflt]; norm_num

/-- With `reg_max` large enough `solve` returns true. -/
example : ∃ M, ∀ mx ≥ M, ∀ kind (s : NlSt 1 1), ∃ N, ∀ maxiter ≥ N, ∃ fuel0, ∀ fuel ≥ fuel0, ∃ o,
    solve Demo.prob.toProb (withMax EndsDemo.dflt mx) (oracle Demo.prob Demo.dlin Demo.chol kind) kind fuel maxiter
      (fun _ _ => 1) (fun _ _ => 0) true none s = some o ∧ o.ret = true := by
  obtain ⟨M, hM⟩ := C145_returns_true_partial (lin := Demo.dlin) (by norm_num) Demo.chol_sound Demo.chol_complete Demo.symmHess
    EndsDemo.dflt_usual (by norm_num [EndsDemo.dflt]) rfl le_one (by norm_num [EndsDemo.dflt]) (by norm_num [EndsDemo.dflt])
    ⟨0, EndsDemo.low⟩ _ _ Demo.rollout (Demo.exact _ _) ⟨3, bounded⟩
  refine ⟨M, fun mx hmx kind s => ?_⟩
  obtain ⟨N, hN⟩ := hM mx hmx none (by norm_num [EndsDemo.dflt]) kind s
  refine ⟨N, fun maxiter h => ?_⟩
  obtain ⟨f0, hf⟩ := hN maxiter h
  refine ⟨f0, fun fuel h => ?_⟩
  obtain ⟨o, h1, h2, -⟩ := hf fuel h
  exact ⟨o, h1, h2⟩

/-- With the defaults and a large initial regularisation `solve` returns true after one iteration with a total cost above 0.49,
while other controls cost less than 0.41. -/
example : ∃ reg, ∀ kind (s : NlSt 1 1), ∃ o,
    solve Demo.prob.toProb EndsDemo.dflt (oracle Demo.prob Demo.dlin Demo.chol kind) kind 1 100
      (fun _ _ => 1) (fun _ _ => 0) true (some reg) s = some o ∧ o.ret = true ∧ o.trace.length = 1 ∧
    49 / 100 < total Demo.prob o.final.us := by
  obtain ⟨R, hR⟩ := C145_premature_counterexample (lin := Demo.dlin) (by norm_num) _ _ Demo.rollout (Demo.exact _ _)
    (Demo.symmHess _ _) Demo.chol_sound Demo.chol_complete BigRegDemo.not_stationary EndsDemo.dflt_usual rfl le_one
    (by norm_num [EndsDemo.dflt]) (by norm_num [EndsDemo.dflt]) (1 / 100) (by norm_num)
  refine ⟨R, fun kind s => ?_⟩
  obtain ⟨o, h1, h2, h3, -, h4⟩ := hR R le_rfl kind s 1 100 (by norm_num) (by norm_num)
  rw [EndsDemo.guess_cost] at h4
  exact ⟨o, h1, h2, h3, by linarith⟩

example : total Demo.prob (fun _ _ => -1 / 2) < 41 / 100 := by
  simp [total, Demo.prob, traj]; norm_num

end ReturnsDemo
end Verif.Nl
