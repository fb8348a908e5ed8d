import Verif.Spec.Ends
import Verif.Props.Nl

set_option linter.unusedSectionVars false

/-! Lemmas for C141. -/

namespace Verif.Solve
open Verif Verif.Solver
variable {K X DX U L D : Type}
variable [Field K] [LinearOrder K] [IsStrictOrderedRing K] [AddCommGroup DX] [Module K DX] [AddCommGroup U] [Module K U]
variable {P : Prob K X DX U} {c : Cfg K} {O : Oracle K X DX U L D} {kind : Kind}

theorem probe_steplength (a : K) (s : St K X DX U L D) : (probe P O kind a s).2.steplength = a := by
  have h := tryStep_spec (P := P) (O := O) (kind := kind) a { s with steplength := a }
  unfold probe
  simp only
  cases hf : tryStep P O kind a { s with steplength := a } with
  | ub => rfl
  | throw s' =>
    rw [hf] at h
    simp only
    rw [h.1]
  | ok u s' =>
    rw [hf] at h
    obtain ⟨s1, ht, rfl⟩ := h
    simp only
    have : s1.steplength = a := by rw [ht.frame]
    split <;> exact this

/-- A line search that accepts nothing leaves the last step length. -/
theorem lineSearch_stuck (as : List K) (s : St K X DX U L D) :
    (lineSearch P c O kind as s).steplength = as.getLastD s.steplength ∨
    (lineSearch P c O kind as s).recalc = true := by
  induction as generalizing s with
  | nil => exact .inl rfl
  | cons a as ih =>
    have h := probe_steplength (P := P) (O := O) (kind := kind) a s
    simp only [lineSearch]
    rcases hp : probe P O kind a s with ⟨o, s'⟩
    rw [hp] at h
    simp only at h
    rw [List.getLastD_cons]
    have := ih s'
    rw [h] at this
    cases o with
    | none => exact this
    | some u =>
      simp only
      split
      · exact .inr rfl
      · exact this

/-- The regularisation after the retry loop. -/
theorem dirLoop_preg (hinc : 1 ≤ c.reg.inc) {fuel : Nat} {s s1 : St K X DX U L D} {b : Bool} (hp : 0 ≤ s.preg)
    (h : dirLoop P c O fuel s = some (b, s1)) :
    (b = true → s.preg ≤ s1.preg ∧ s1.preg ≤ max s.preg c.reg.max) ∧ (b = false → s1.preg = c.reg.max) := by
  induction fuel generalizing s with
  | zero => simp [dirLoop] at h
  | succ fuel ih =>
    simp only [dirLoop] at h
    split at h
    · simp only [Option.some.injEq, Prod.mk.injEq] at h
      obtain ⟨rfl, rfl⟩ := h
      rw [computeDirection_preg]
      exact ⟨fun _ => ⟨le_rfl, le_max_left _ _⟩, by simp⟩
    · have hpr : (increaseReg c { (computeDirection P O s).2 with recalc := false }).preg = increase c.reg s.preg := by
        simp only [increaseReg, computeDirection_preg]
      generalize increaseReg c { (computeDirection P O s).2 with recalc := false } = s2 at h hpr
      split at h
      · rename_i hm
        simp only [Option.some.injEq, Prod.mk.injEq] at h
        obtain ⟨rfl, rfl⟩ := h
        exact ⟨by simp, fun _ => hm⟩
      · rename_i hm
        have h1 : s2.preg = s.preg * c.reg.inc ∧ s2.preg ≤ c.reg.max := by
          rw [hpr] at hm ⊢
          simp only [increase] at hm ⊢
          split at hm
          · exact absurd rfl hm
          · rename_i hle
            rw [if_neg hle]
            exact ⟨rfl, not_lt.mp hle⟩
        have h2 : s.preg ≤ s2.preg := by rw [h1.1]; exact le_mul_of_one_le_right hp hinc
        obtain ⟨i1, i2⟩ := ih (hp.trans h2) h
        refine ⟨fun e => ⟨h2.trans (i1 e).1, (i1 e).2.trans (max_le (h1.2.trans (le_max_right _ _)) (le_max_right _ _))⟩, i2⟩

/-- The regularisation after one iteration: it is `reg_max` when `solve` gives up; otherwise it went up by the factor
unless a step was accepted, in which case it went down at most once. -/
theorem iteration_preg (hinc : 1 < c.reg.inc) (hdec : 1 < c.reg.dec) (hlast : ∃ as a, c.alphas = as ++ [a] ∧ a ≤ c.thStepinc)
    (hsd : c.thStepinc ≤ c.thStepdec) {fuel : Nat} {s s' : St K X DX U L D} {e : Exit} {b : Bool} (hp : 0 < s.preg)
    (h : iteration P c O kind fuel s = some (e, b, s')) :
    (e = .giveUp → s'.preg = c.reg.max) ∧
    (e = .continue → (s'.recalc = true → s.preg ≤ s'.preg * c.reg.dec) ∧ (s'.recalc = false → s.preg * c.reg.inc ≤ s'.preg) ∧
      s'.preg ≤ max (max s.preg c.reg.min) c.reg.max ∧ (s'.wasFeas = true → c.thStop ≤ s'.stop)) := by
  have hc := iteration_cases fuel s h
  unfold iteration at h
  split at h
  · cases h
  · rename_i s1 hd
    simp only [Option.some.injEq, Prod.mk.injEq] at h
    obtain ⟨rfl, -, rfl⟩ := h
    exact ⟨fun _ => (dirLoop_preg hinc.le hp.le hd).2 rfl, by simp⟩
  · rename_i s1 hd
    obtain ⟨q1, q2⟩ := (dirLoop_preg hinc.le hp.le hd).1 rfl
    have hk : (lineSearch P c O kind c.alphas (prepare O kind s1)).preg = s1.preg := by
      obtain ⟨-, -, -, -, -, -, p7, -⟩ := prepare_keeps (O := O) (kind := kind) s1
      rcases lineSearch_spec (P := P) (c := c) (O := O) (kind := kind) c.alphas (prepare O kind s1) with
        hl | ⟨a, ha, sT, h1, h2, h3⟩
      · rw [hl.preg, p7]
      · rw [h3]; show sT.preg = _
        rw [h1.keeps.preg, p7]
    have hst := lineSearch_stuck (P := P) (c := c) (O := O) (kind := kind) c.alphas (prepare O kind s1)
    generalize lineSearch P c O kind c.alphas (prepare O kind s1) = s2 at h hk hst
    have hst' : s2.recalc = false → s2.steplength ≤ c.thStepinc := by
      intro hr
      obtain ⟨as, a, e1, e2⟩ := hlast
      rcases hst with hst | hst
      · rw [hst, e1]; simpa using e2
      · rw [hst] at hr; cases hr
    have h0 : 0 < s2.preg := by rw [hk]; exact hp.trans_le q1
    simp only at h
    generalize h3 : (if s2.steplength > c.thStepdec then decreaseReg c s2 else s2) = s3 at h
    have k3 : s3.steplength = s2.steplength ∧ s3.recalc = s2.recalc ∧ s2.preg ≤ s3.preg * c.reg.dec ∧
        (s2.steplength ≤ c.thStepdec → s3.preg = s2.preg) ∧ s3.preg ≤ max s2.preg c.reg.min ∧ 0 < s3.preg := by
      rw [← h3]
      have hd0 : 0 < c.reg.dec := one_pos.trans hdec
      split
      · rename_i hgt
        refine ⟨rfl, rfl, ?_, fun hle => absurd hgt (not_lt.mpr hle), ?_, ?_⟩
        · simp only [decreaseReg, decrease]
          split
          · rename_i hlt
            have := (div_lt_iff₀ hd0).mp hlt
            exact this.le
          · rw [div_mul_cancel₀ _ hd0.ne']
        · simp only [decreaseReg, decrease]
          split
          · exact le_max_right _ _
          · exact (div_le_self h0.le hdec.le).trans (le_max_left _ _)
        · exact decrease_pos hdec h0
      · exact ⟨rfl, rfl, le_mul_of_one_le_right h0.le hdec.le, fun _ => rfl, le_max_left _ _, h0⟩
    obtain ⟨a1, a2, a3, a4, a5, a6⟩ := k3
    generalize h4 : (if decide (s3.steplength ≤ c.thStepinc) = true then increaseReg c s3 else s3) = s4 at h
    split at h
    · rename_i hg
      simp only [Option.some.injEq, Prod.mk.injEq] at h
      obtain ⟨rfl, -, rfl⟩ := h
      simp only [Bool.and_eq_true, decide_eq_true_eq] at hg
      exact ⟨fun _ => hg.2, by simp⟩
    · rename_i hg
      split at h
      · simp only [Option.some.injEq, Prod.mk.injEq] at h
        obtain ⟨rfl, -, rfl⟩ := h
        exact ⟨by simp, by simp⟩
      · rename_i hcv
        simp only [Option.some.injEq, Prod.mk.injEq] at h
        obtain ⟨rfl, -, rfl⟩ := h
        refine ⟨by simp, fun _ => ?_⟩
        simp only [Bool.and_eq_true, decide_eq_true_eq, not_and, not_lt] at hcv hg
        have k4 : s4.recalc = s2.recalc ∧ s3.preg ≤ s4.preg ∧ s4.preg ≤ max s3.preg c.reg.max ∧
            (s2.steplength ≤ c.thStepinc → s4.preg = s3.preg * c.reg.inc) := by
          by_cases hle : s3.steplength ≤ c.thStepinc
          · have hne := hg hle
            rw [← h4] at hne ⊢
            simp only [hle, decide_true, if_true, increaseReg, increase] at hne ⊢
            split at hne
            · exact absurd rfl hne
            · rename_i hn
              rw [if_neg hn]
              exact ⟨a2, le_mul_of_one_le_right a6.le hinc.le, (not_lt.mp hn).trans (le_max_right _ _), fun _ => rfl⟩
          · rw [← h4]
            simp only [hle, decide_false, Bool.false_eq_true, if_false]
            exact ⟨a2, le_rfl, le_max_left _ _, fun h' => absurd (a1 ▸ h') hle⟩
        obtain ⟨b1, b2, b3, b4⟩ := k4
        refine ⟨fun _ => ?_, fun hr => ?_, ?_, fun hw => hcv hw⟩
        · calc s.preg ≤ s2.preg := by rw [hk]; exact q1
            _ ≤ s3.preg * c.reg.dec := a3
            _ ≤ s4.preg * c.reg.dec := mul_le_mul_of_nonneg_right b2 (one_pos.trans hdec).le
        · have hle := hst' (b1 ▸ hr)
          show s.preg * c.reg.inc ≤ s4.preg
          rw [b4 hle, a4 (hle.trans hsd), hk]
          exact mul_le_mul_of_nonneg_right q1 (one_pos.trans hinc).le
        · refine b3.trans (max_le (a5.trans (max_le ?_ ?_)) (le_max_right _ _))
          · rw [hk]
            exact q2.trans (max_le ((le_max_left _ _).trans (le_max_left _ _)) (le_max_right _ _))
          · exact (le_max_right _ _).trans (le_max_left _ _)

end Verif.Solve

namespace Verif.Nl
open Verif Verif.Solve Verif.Lq Verif.Deriv Matrix

variable {n m : Nat} {P : NlProb n m} {kind : Kind} {c : Cfg ℝ} {fuel : Nat} {s s1 s' : NlSt n m} {amin : ℝ}
variable {lin : (Nat → Fin n → ℝ) → (Nat → Fin m → ℝ) → Lin ℝ n m}
variable {llt : ∀ m, Matrix (Fin m) (Fin m) ℝ → Bool}

/-- One iteration from a feasible candidate that goes on: the candidate was kept, or an accepted step decreased the cost
by at least `th_acceptstep * amin * th_stop`. -/
theorem iteration_feasible (hm : 0 < m) (hv : Valid P lin kind s) (hfe : s.feas = true) (hl : LltSound llt)
    (hH : SymmHess P.T (lin s.xs s.us)) (hc : Usual c amin) (hp : 0 < s.preg) {b : Bool}
    (hi : iteration P.toProb c (oracle P lin llt kind) kind fuel s = some (.continue, b, s')) :
    s'.feas = true ∧
    ((s'.recalc = false ∧ total P s'.us = total P s.us) ∨
     (s'.recalc = true ∧ c.thAcceptstep * (amin * c.thStop) ≤ total P s.us - total P s'.us)) := by
  have hA := autonomousOk (P := P) hm
  have hrel := (iteration_rel hA fuel hv.inv hi).mono hfe
  refine ⟨hrel, ?_⟩
  have hpg := ((iteration_preg hc.inc hc.dec hc.last hc.stepdec hp hi).2 rfl).2.2.2
  cases hr : s'.recalc
  · left
    refine ⟨rfl, ?_⟩
    rcases iteration_cases fuel s hi with ⟨he, -⟩ | ⟨s1, hd, hs2, -, -⟩
    · cases he
    have hD := hv.directed hd
    have hR := hD.ready (kind := kind) hv.inv.zero
    have prec : (prepare (oracle P lin llt kind) kind s1).recalc = false := by
      unfold prepare; cases kind.feasibilityDriven <;> simp
    obtain ⟨-, e2, -, -, -, e6, -⟩ := hs2
    rcases lineSearch_ready (c := c) (lin := lin) (llt := llt) c.alphas _ hR prec with
      ⟨h1, h2⟩ | ⟨s3, sT, a, ha, hR3, hp, hac, hls⟩
    · rw [e2, h2.us, hR.us]
    · rw [hls] at e6; rw [e6] at hr; cases hr
  · right
    refine ⟨rfl, ?_⟩
    -- the linear term is at least twice the threshold
    have hd0 : 2 * c.thStop ≤ s'.d0 := by
      rcases iteration_cases fuel s hi with ⟨he, -⟩ | ⟨s1, hd, hs2, -, hstop⟩
      · cases he
      have hD := hv.directed hd
      have hR := hD.ready (kind := kind) hv.inv.zero
      have prec : (prepare (oracle P lin llt kind) kind s1).recalc = false := by
        unfold prepare; cases kind.feasibilityDriven <;> simp
      obtain ⟨-, -, -, e4, -, e6, -, -, -, -, e11, e12, -⟩ := hs2
      rcases lineSearch_ready (c := c) (lin := lin) (llt := llt) c.alphas _ hR prec with
        ⟨h1, h2⟩ | ⟨s3, sT, a, ha, hR3, hp, hac, hls⟩
      · rw [h1] at e6; rw [e6] at hr; cases hr
      rw [hls] at e4 e11 e12
      have hpr := probe_spec (P := P.toProb) (O := oracle P lin llt kind) (kind := kind) a s3
      rw [hp] at hpr
      have hcore := hpr.core
      obtain ⟨sT', hp', hfT, -, hx, -, hdd⟩ := hR3.trial (lin := lin) (llt := llt) hm (f := fun _ => 0)
        hcore.step.1 hcore.step.2 (.inl ⟨hfe, fun _ _ => rfl⟩)
      rw [hp] at hp'
      obtain rfl : sT = sT' := by simpa using hp'
      rw [hfe, expectedImprovementFddp_feas, ite_self] at hdd
      obtain ⟨hd0, hd1, -⟩ := hD.d1 hl hH
      have e0 : sT.d0 = (expectedImprovement P.T s1.dir).1 := congrArg Prod.fst hdd
      have e1 : sT.d1 = (expectedImprovement P.T s1.dir).2 := congrArg Prod.snd hdd
      have hw : s'.wasFeas = true := by
        rw [e4]; show sT.feas = true
        rw [hfT, hfe]
      have hge := hpg hw
      rw [hstop (by simp), e11, e12] at hge
      have hge' : c.thStop ≤ |sT.d0 + 1 / 2 * sT.d1| := hge
      rw [e1, hd1, e0, show (expectedImprovement P.T s1.dir).1 + 1 / 2 * -(expectedImprovement P.T s1.dir).1 =
        (1 / 2) * (expectedImprovement P.T s1.dir).1 by ring, abs_of_nonneg (by linarith)] at hge'
      rw [e11]
      show _ ≤ sT.d0
      rw [e0]
      linarith
    have := (iteration_decrease hm hv hfe hl hH hc.amin_le hc.amin_pos (by have := hc.stop; linarith) hc.grad hc.accept hi hd0).2
    rcases this with ⟨h1, -⟩ | ⟨-, h2⟩
    · rw [h1] at hr; cases hr
    · rwa [show amin / 2 * (2 * c.thStop) = amin * c.thStop by ring] at h2

/-- The loop from a feasible candidate, with `A` accepted and `R` rejected steps left. -/
theorem iterLoop_feasible (hm : 0 < m) (hl : LltSound llt) (hH : ∀ xs us, SymmHess P.T (lin xs us)) (hc : Usual c amin)
    {Jlow M : ℝ} (hJ : ∀ us, Jlow ≤ total P us) (hMmin : c.reg.min ≤ M) (hMmax : c.reg.max ≤ M) (N A R : Nat)
    (hN : A + R + 1 ≤ N) (s : NlSt n m)
    (hv : Valid P lin kind s) (hfe : s.feas = true) (hp : 0 < s.preg) (hpM : s.preg ≤ M)
    (hA : total P s.us - Jlow < (A + 1) * (c.thAcceptstep * (amin * c.thStop)))
    (hR : M * c.reg.dec ^ A < s.preg * c.reg.inc ^ (R + 1)) {o : Outcome ℝ (Fin n → ℝ) (Fin n → ℝ) (Fin m → ℝ) (Lin ℝ n m) _}
    (ho : iterLoop P.toProb c (oracle P lin llt kind) kind fuel N s = some o) :
    EndedItself c o ∧ o.trace.length ≤ A + R + 1 := by
  induction N generalizing A R s o with
  | zero => omega
  | succ N ih =>
    have hdec0 : 0 < c.reg.dec := one_pos.trans hc.dec
    have hinc0 : 0 < c.reg.inc := one_pos.trans hc.inc
    have hM0 : 0 < M := hp.trans_le hpM
    simp only [iterLoop] at ho
    cases hi : iteration P.toProb c (oracle P lin llt kind) kind fuel s with
    | none => rw [hi] at ho; simp at ho
    | some r =>
      obtain ⟨e, b, s'⟩ := r
      rw [hi] at ho
      have hpg := iteration_preg hc.inc hc.dec hc.last hc.stepdec hp hi
      cases e with
      | giveUp =>
        simp only [Option.some.injEq] at ho
        subst ho
        exact ⟨.inr ⟨rfl, hpg.1 rfl⟩, by simp⟩
      | converged =>
        simp only [Option.some.injEq] at ho
        subst ho
        rcases iteration_cases fuel s hi with ⟨he, -⟩ | ⟨s1, -, -, h3, -⟩
        · cases he
        · exact ⟨.inl ⟨rfl, (h3 rfl).2⟩, by simp⟩
      | «continue» =>
        simp only at ho
        obtain ⟨g1, g2, g3, -⟩ := hpg.2 rfl
        obtain ⟨hf', hor⟩ := iteration_feasible hm hv hfe hl (hH _ _) hc hp hi
        have hv' := hv.next hm hi
        have hpM' : s'.preg ≤ M := g3.trans (max_le (max_le hpM hMmin) hMmax)
        cases hl' : iterLoop P.toProb c (oracle P lin llt kind) kind fuel N { s' with iter := s'.iter + 1 } with
        | none => rw [hl'] at ho; simp at ho
        | some o' =>
          rw [hl'] at ho
          simp only [Option.map_some, Option.some.injEq] at ho
          subst ho
          suffices h : EndedItself c o' ∧ o'.trace.length ≤ A + R by
            exact ⟨h.1, by simpa using h.2⟩
          rcases hor with ⟨hr, ht⟩ | ⟨hr, ht⟩
          · -- rejected
            have hge := g2 hr
            cases R with
            | zero =>
              exfalso
              have h1 : M ≤ M * c.reg.dec ^ A := le_mul_of_one_le_right hM0.le (one_le_pow₀ hc.dec.le)
              rw [zero_add, pow_one] at hR
              linarith
            | succ R =>
              have := ih A R (by omega) { s' with iter := s'.iter + 1 } hv' hf'
                (lt_of_lt_of_le (mul_pos hp hinc0) hge) hpM'
                (by show total P s'.us - Jlow < _; rw [ht]; exact hA)
                (by
                  show _ < s'.preg * _
                  refine hR.trans_le ?_
                  rw [pow_succ' _ (R + 1), ← mul_assoc]
                  exact mul_le_mul_of_nonneg_right hge (pow_nonneg hinc0.le _)) hl'
              exact ⟨this.1, by omega⟩
          · -- accepted
            have hge := g1 hr
            cases A with
            | zero =>
              exfalso
              have h1 := hJ s'.us
              simp at hA
              linarith
            | succ A =>
              have hp' : 0 < s'.preg := by
                by_contra hneg
                have := mul_nonpos_of_nonpos_of_nonneg (not_lt.mp hneg) hdec0.le
                linarith
              have := ih A R (by omega) { s' with iter := s'.iter + 1 } hv' hf' hp' hpM'
                (by show total P s'.us - Jlow < _; push_cast at hA ⊢; linarith)
                (by
                  show _ < s'.preg * _
                  rw [pow_succ, ← mul_assoc] at hR
                  have h1 : s.preg * c.reg.inc ^ (R + 1) ≤ s'.preg * c.reg.dec * c.reg.inc ^ (R + 1) :=
                    mul_le_mul_of_nonneg_right hge (pow_nonneg hinc0.le _)
                  have h2 : M * c.reg.dec ^ A * c.reg.dec < s'.preg * c.reg.inc ^ (R + 1) * c.reg.dec := by
                    linarith [show s'.preg * c.reg.dec * c.reg.inc ^ (R + 1) = s'.preg * c.reg.inc ^ (R + 1) * c.reg.dec by ring]
                  exact lt_of_mul_lt_mul_right h2 hdec0.le) hl'
              exact ⟨this.1, by omega⟩

end Verif.Nl
