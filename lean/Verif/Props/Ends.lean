import Verif.Lemmas.Ends

set_option linter.unusedSectionVars false

/-!
# `solve` ends by itself on nonlinear problems (C141)

With a cost that is bounded below and enough iterations allowed, `solve` never runs until `maxiter`: it returns true
because its stopping criterion fell below `th_stop`, or false because the regularisation reached `reg_max`.
-/

namespace Verif.Nl
open Verif Verif.Solve Verif.Lq Verif.Deriv Matrix

variable {n m : Nat} {P : NlProb n m} {c : Cfg ℝ} {amin : ℝ}
variable {lin : (Nat → Fin n → ℝ) → (Nat → Fin m → ℝ) → Lin ℝ n m}
variable {llt : ∀ m, Matrix (Fin m) (Fin m) ℝ → Bool}

/-- C141. From a feasible guess, for every problem whose total cost is at least `Jlow` (differentiable or not, with every
derivative data), each of the four solvers: if the decrease still available allows at most `A` accepted steps of
`th_acceptstep * amin * th_stop` each, and if `R` further increases of the regularisation exceed what `A` decreases can
undo, then `solve` with any larger `maxiter` ends by itself after at most `A + R + 1` iterations. -/
theorem C141_bound (hm : 0 < m) (hl : LltSound llt) (hH : ∀ xs us, SymmHess P.T (lin xs us)) (hc : Usual c amin)
    {Jlow : ℝ} (hJ : ∀ us, Jlow ≤ total P us) (kind : Kind) (xs : Nat → Fin n → ℝ) (us : Nat → Fin m → ℝ)
    (hro : Rollout P.toProb xs us) (regInit : Option ℝ) (hreg : 0 < regInit.getD c.reg.min) (s : NlSt n m)
    (A R : Nat) (hA : total P us - Jlow < (A + 1) * (c.thAcceptstep * (amin * c.thStop)))
    (hR : max (max (regInit.getD c.reg.min) c.reg.min) c.reg.max * c.reg.dec ^ A <
      regInit.getD c.reg.min * c.reg.inc ^ (R + 1)) (maxiter fuel : Nat) (hmax : A + R + 1 ≤ maxiter) {o : Outcome ℝ _ _ _ _ _}
    (ho : solve P.toProb c (oracle P lin llt kind) kind fuel maxiter xs us true regInit s = some o) :
    EndedItself c o ∧ o.trace.length ≤ A + R + 1 :=
  iterLoop_feasible hm hl hH hc hJ ((le_max_right _ _).trans (le_max_left _ _)) (le_max_right _ _) maxiter A R hmax _
    (valid_start (fun _ => hro) (fun _ => rfl) regInit s) rfl hreg ((le_max_left _ _).trans (le_max_left _ _)) hA hR ho

/-- Enough iterations from a feasible candidate. -/
theorem exists_enough (hm : 0 < m) (hl : LltSound llt) (hH : ∀ xs us, SymmHess P.T (lin xs us)) (hc : Usual c amin)
    {Jlow : ℝ} (hJ : ∀ us, Jlow ≤ total P us) {kind : Kind} {s : NlSt n m} (hv : Valid P lin kind s) (hfe : s.feas = true)
    (hp : 0 < s.preg) :
    ∃ N, ∀ maxiter ≥ N, ∀ fuel o, iterLoop P.toProb c (oracle P lin llt kind) kind fuel maxiter s = some o →
      EndedItself c o ∧ o.trace.length ≤ N := by
  have hpos : 0 < c.thAcceptstep * (amin * c.thStop) := mul_pos hc.accept (mul_pos hc.amin_pos hc.stop)
  obtain ⟨A, hA⟩ := exists_nat_gt ((total P s.us - Jlow) / (c.thAcceptstep * (amin * c.thStop)))
  rw [div_lt_iff₀ hpos] at hA
  obtain ⟨R, hR⟩ := pow_unbounded_of_one_lt (max (max s.preg c.reg.min) c.reg.max * c.reg.dec ^ A / s.preg) hc.inc
  rw [div_lt_iff₀ hp] at hR
  refine ⟨A + R + 1, fun maxiter hN fuel o ho => ?_⟩
  refine iterLoop_feasible hm hl hH hc hJ ((le_max_right _ _).trans (le_max_left _ _)) (le_max_right _ _) maxiter A R hN s
    hv hfe hp ((le_max_left _ _).trans (le_max_left _ _)) (by linarith) ?_ ho
  rw [pow_succ]
  have h1 : 0 < c.reg.inc ^ R := pow_pos (one_pos.trans hc.inc) R
  have h2 : s.preg * c.reg.inc ^ R ≤ s.preg * (c.reg.inc ^ R * c.reg.inc) :=
    mul_le_mul_of_nonneg_left (le_mul_of_one_le_right h1.le hc.inc.le) hp.le
  linarith

/-- One iteration followed by a loop that ends. -/
theorem exists_enough_step (hc : Usual c amin) {kind : Kind} {s : NlSt n m} (hp : 0 < s.preg)
    (hrec : ∀ fuel b s', iteration P.toProb c (oracle P lin llt kind) kind fuel s = some (.continue, b, s') →
      ∃ N, ∀ maxiter ≥ N, ∀ fuel o, iterLoop P.toProb c (oracle P lin llt kind) kind fuel maxiter
        { s' with iter := s'.iter + 1 } = some o → EndedItself c o ∧ o.trace.length ≤ N) :
    ∃ N, ∀ maxiter ≥ N, ∀ fuel o, iterLoop P.toProb c (oracle P lin llt kind) kind fuel maxiter s = some o →
      EndedItself c o ∧ o.trace.length ≤ N := by
  obtain ⟨f1, e, b, s', hi, hp'⟩ := iteration_ends (P := P.toProb) (O := oracle P lin llt kind) (kind := kind)
    hc.inc hc.dec hc.max s hp
  have hdet : ∀ fuel r, iteration P.toProb c (oracle P lin llt kind) kind fuel s = some r → r = (e, b, s') := by
    intro fuel r hr
    have h1 := iteration_mono (le_max_left fuel f1) hr
    have h2 := iteration_mono (le_max_right fuel f1) hi
    rw [h1] at h2
    exact Option.some.inj h2
  have hpg := iteration_preg hc.inc hc.dec hc.last hc.stepdec hp hi
  have hrec' : ∃ N, e = .continue → ∀ maxiter ≥ N, ∀ fuel o, iterLoop P.toProb c (oracle P lin llt kind) kind fuel maxiter
      { s' with iter := s'.iter + 1 } = some o → EndedItself c o ∧ o.trace.length ≤ N := by
    by_cases he : e = .continue
    · subst he
      obtain ⟨N, hN⟩ := hrec f1 b s' hi
      exact ⟨N, fun _ => hN⟩
    · exact ⟨0, fun h => absurd h he⟩
  obtain ⟨N, hN⟩ := hrec'
  refine ⟨N + 1, fun maxiter hmx fuel o ho => ?_⟩
  obtain ⟨k, rfl⟩ : ∃ k, maxiter = k + 1 := ⟨maxiter - 1, by omega⟩
  simp only [iterLoop] at ho
  cases hit : iteration P.toProb c (oracle P lin llt kind) kind fuel s with
  | none => rw [hit] at ho; simp at ho
  | some r =>
    rw [hdet fuel r hit] at hit
    rw [hit] at ho
    cases e with
    | giveUp =>
      simp only [Option.some.injEq] at ho
      subst ho
      exact ⟨.inr ⟨rfl, hpg.1 rfl⟩, by simp⟩
    | converged =>
      simp only [Option.some.injEq] at ho
      subst ho
      rcases iteration_cases fuel s hit with ⟨he, -⟩ | ⟨s1, -, -, h3, -⟩
      · cases he
      · exact ⟨.inl ⟨rfl, (h3 rfl).2⟩, by simp⟩
    | «continue» =>
      simp only at ho
      cases hl' : iterLoop P.toProb c (oracle P lin llt kind) kind fuel k { s' with iter := s'.iter + 1 } with
      | none => rw [hl'] at ho; simp at ho
      | some o' =>
        rw [hl'] at ho
        simp only [Option.map_some, Option.some.injEq] at ho
        subst ho
        have := hN rfl k (by omega) fuel o' hl'
        exact ⟨this.1, by simpa using this.2⟩

/-- Enough iterations for DDP from any candidate: its first accepted step is feasible. -/
theorem exists_enough_ddp (hm : 0 < m) (hl : LltSound llt) (hH : ∀ xs us, SymmHess P.T (lin xs us)) (hc : Usual c amin)
    {Jlow M : ℝ} (hJ : ∀ us, Jlow ≤ total P us) (hMmin : c.reg.min ≤ M) (hMmax : c.reg.max ≤ M) (R : Nat) {s : NlSt n m}
    (hv : Valid P lin .ddp s) (hp : 0 < s.preg) (hpM : s.preg ≤ M) (hR : M < s.preg * c.reg.inc ^ R) :
    ∃ N, ∀ maxiter ≥ N, ∀ fuel o, iterLoop P.toProb c (oracle P lin llt .ddp) .ddp fuel maxiter s = some o →
      EndedItself c o ∧ o.trace.length ≤ N := by
  have hinc0 : 0 < c.reg.inc := one_pos.trans hc.inc
  induction R generalizing s with
  | zero => rw [pow_zero, mul_one] at hR; linarith
  | succ R ih =>
    refine exists_enough_step hc hp fun fuel b s' hi => ?_
    obtain ⟨g1, g2, g3, -⟩ := (iteration_preg hc.inc hc.dec hc.last hc.stepdec hp hi).2 rfl
    have hv' := hv.next hm hi
    rcases Bool.eq_false_or_eq_true s'.recalc with hr | hr
    rotate_left
    · have hge := g2 hr
      refine ih hv' (lt_of_lt_of_le (mul_pos hp hinc0) hge) (g3.trans (max_le (max_le hpM hMmin) hMmax)) ?_
      refine hR.trans_le ?_
      show _ ≤ s'.preg * _
      rw [pow_succ', ← mul_assoc]
      exact mul_le_mul_of_nonneg_right hge (pow_nonneg hinc0.le _)
    · have hge := g1 hr
      have hp' : 0 < s'.preg := by
        by_contra hneg
        have := mul_nonpos_of_nonpos_of_nonneg (not_lt.mp hneg) (one_pos.trans hc.dec).le
        linarith
      refine exists_enough hm hl hH hc hJ hv' ?_ hp'
      show s'.feas = true
      rcases iteration_cases fuel s hi with ⟨he, -⟩ | ⟨s1, hd, hs2, -, -⟩
      · cases he
      obtain ⟨-, -, e3, -, -, e6, -⟩ := hs2
      rcases lineSearch_spec (P := P.toProb) (c := c) (O := oracle P lin llt .ddp) (kind := .ddp) c.alphas
        (prepare (oracle P lin llt .ddp) .ddp s1) with hk | ⟨a, ha, sT, h1, h2, h3⟩
      · rw [hk.recalc] at e6
        rw [e6] at hr
        simp [prepare] at hr
      · rw [e3, h3]; rfl

/-- C141. For every problem whose total cost is bounded below, with parameters as users set them and every positive
initial regularisation, each of the four solvers from every feasible guess, and DDP from every guess: there is a number of
iterations such that, allowed at least that many, `solve` has ended by itself before. It never cycles or creeps. -/
theorem C141_ends (hm : 0 < m) (hl : LltSound llt) (hH : ∀ xs us, SymmHess P.T (lin xs us)) (hc : Usual c amin)
    (hJ : ∃ Jlow, ∀ us, Jlow ≤ total P us) (kind : Kind) (xs : Nat → Fin n → ℝ) (us : Nat → Fin m → ℝ) (feas : Bool)
    (hro : feas = true → Rollout P.toProb xs us) (hk : feas = true ∨ kind = .ddp)
    (regInit : Option ℝ) (hreg : 0 < regInit.getD c.reg.min) (s : NlSt n m) :
    ∃ N, ∀ maxiter ≥ N, ∃ fuel0, ∀ fuel ≥ fuel0, ∃ o,
      solve P.toProb c (oracle P lin llt kind) kind fuel maxiter xs us feas regInit s = some o ∧
      EndedItself c o ∧ o.trace.length ≤ N := by
  obtain ⟨Jlow, hJ⟩ := hJ
  have hv : Valid P lin kind (start P.toProb c xs us feas regInit s) :=
    valid_start hro (fun h => hk.resolve_right (by rw [h]; simp)) regInit s
  suffices h : ∃ N, ∀ maxiter ≥ N, ∀ fuel o, iterLoop P.toProb c (oracle P lin llt kind) kind fuel maxiter
      (start P.toProb c xs us feas regInit s) = some o → EndedItself c o ∧ o.trace.length ≤ N by
    obtain ⟨N, hN⟩ := h
    refine ⟨N, fun maxiter hmx => ?_⟩
    obtain ⟨f0, o, ho⟩ := iterLoop_ends (P := P.toProb) (O := oracle P lin llt kind) (kind := kind) hc.inc hc.dec hc.max
      maxiter (start P.toProb c xs us feas regInit s) hreg
    refine ⟨f0, fun fuel hf => ⟨o, iterLoop_mono hf maxiter ho, hN maxiter hmx f0 o ho⟩⟩
  by_cases hf : feas = true
  · exact exists_enough hm hl hH hc hJ hv hf hreg
  · obtain rfl := hk.resolve_left hf
    obtain ⟨R, hR⟩ := pow_unbounded_of_one_lt
      (max (max (regInit.getD c.reg.min) c.reg.min) c.reg.max / regInit.getD c.reg.min) hc.inc
    rw [div_lt_iff₀ hreg] at hR
    exact exists_enough_ddp hm hl hH hc hJ ((le_max_right _ _).trans (le_max_left _ _)) (le_max_right _ _) R hv hreg
      ((le_max_left _ _).trans (le_max_left _ _)) (hR.trans_eq (mul_comm _ _))

/-! ### Non-vacuity -/
namespace EndsDemo

/-- The defaults of the library (with `th_stop` of `SolverAbstract`). -/
noncomputable def dflt : Cfg ℝ where
  alphas := [1, 1 / 2, 1 / 4, 1 / 8, 1 / 16, 1 / 32, 1 / 64, 1 / 128, 1 / 256, 1 / 512]
  thAcceptstep := 1 / 10
  thAcceptnegstep := 2
  thStop := 1 / 10 ^ 9
  thGrad := 1 / 10 ^ 12
  thStepdec := 1 / 2
  thStepinc := 1 / 100
  reg := { inc := 10, dec := 10, min := 1 / 10 ^ 9, max := 10 ^ 9 }

theorem dflt_usual : Usual dflt (1 / 512) where
  amin_pos := by norm_num
  amin_le := by simp [dflt]; norm_num
  last := ⟨[1, 1 / 2, 1 / 4, 1 / 8, 1 / 16, 1 / 32, 1 / 64, 1 / 128, 1 / 256], 1 / 512, rfl, by norm_num [dflt]⟩
  stepdec := by norm_num [dflt]
  accept := by norm_num [dflt]
  stop := by norm_num [dflt]
  grad := by norm_num [dflt]
  inc := by norm_num [dflt]
  dec := by norm_num [dflt]
  max := by norm_num [dflt]

/-- Coarse parameters. -/
noncomputable def coarse : Cfg ℝ where
  alphas := [1, 1 / 2]
  thAcceptstep := 1 / 2
  thAcceptnegstep := 2
  thStop := 1 / 2
  thGrad := 1 / 100
  thStepdec := 1 / 2
  thStepinc := 1 / 2
  reg := { inc := 10, dec := 10, min := 1, max := 1000 }

theorem coarse_usual : Usual coarse (1 / 2) where
  amin_pos := by norm_num
  amin_le := by simp [coarse]; norm_num
  last := ⟨[1], 1 / 2, rfl, by norm_num [coarse]⟩
  stepdec := by norm_num [coarse]
  accept := by norm_num [coarse]
  stop := by norm_num [coarse]
  grad := by norm_num [coarse]
  inc := by norm_num [coarse]
  dec := by norm_num [coarse]
  max := by norm_num [coarse]

/-- The cost of the nonlinear problem `Demo.prob` is at least zero. -/
theorem low (us : Nat → Fin 1 → ℝ) : 0 ≤ total Demo.prob us := by
  simp only [total, Demo.prob, Finset.sum_range_one]
  have h1 := mul_self_nonneg (us 0 0)
  have h2 := mul_self_nonneg (traj Demo.prob us 1 0)
  simp only [Demo.prob] at h2
  linarith

theorem guess_cost : total Demo.prob (fun _ _ => 0) = 1 / 2 := by
  simp [total, Demo.prob, traj]

/-- `C141_ends` applies to it with the defaults of the library, from a feasible guess for each solver and from an
infeasible one for DDP. -/
example (kind : Kind) (s : NlSt 1 1) :
    ∃ N, ∀ maxiter ≥ N, ∃ fuel0, ∀ fuel ≥ fuel0, ∃ o,
      solve Demo.prob.toProb dflt (oracle Demo.prob Demo.dlin Demo.chol kind) kind fuel maxiter (fun _ _ => 1) (fun _ _ => 0)
        true none s = some o ∧ EndedItself dflt o ∧ o.trace.length ≤ N :=
  C141_ends (by norm_num) Demo.chol_sound Demo.symmHess dflt_usual ⟨0, low⟩ kind _ _ true (fun _ => Demo.rollout) (.inl rfl)
    none (by norm_num [dflt]) s

example (s : NlSt 1 1) :
    ∃ N, ∀ maxiter ≥ N, ∃ fuel0, ∀ fuel ≥ fuel0, ∃ o,
      solve Demo.prob.toProb dflt (oracle Demo.prob Demo.dlin Demo.chol .ddp) .ddp fuel maxiter (fun _ _ => 5) (fun _ _ => 3)
        false (some 1) s = some o ∧ EndedItself dflt o ∧ o.trace.length ≤ N :=
  C141_ends (by norm_num) Demo.chol_sound Demo.symmHess dflt_usual ⟨0, low⟩ .ddp _ _ false (by simp) (.inr rfl)
    (some 1) (by norm_num) s

/-- With the coarse parameters at most 12 iterations are made: 4 accepted, 7 rejected, and the last one. -/
example (kind : Kind) (s : NlSt 1 1) (maxiter fuel : Nat) (h : 12 ≤ maxiter) (o : Outcome ℝ _ _ _ _ _)
    (ho : solve Demo.prob.toProb coarse (oracle Demo.prob Demo.dlin Demo.chol kind) kind fuel maxiter (fun _ _ => 1)
      (fun _ _ => 0) true none s = some o) : EndedItself coarse o ∧ o.trace.length ≤ 12 := by
  refine C141_bound (by norm_num) Demo.chol_sound Demo.symmHess coarse_usual low kind _ _ Demo.rollout none
    (by norm_num [coarse]) s 4 7 ?_ ?_ maxiter fuel h ho
  · rw [guess_cost]; norm_num [coarse]
  · norm_num [coarse]

end EndsDemo
end Verif.Nl
