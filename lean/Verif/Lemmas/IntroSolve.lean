import Verif.Spec.IntroSolve
import Verif.Lemmas.SolveLoop

/-! # Lemmas about the iterations of `SolverIntro::solve` -/

set_option linter.unusedSectionVars false
set_option linter.unusedSimpArgs false

namespace Verif.IntroSolve
open Verif Verif.Solver Verif.Solve

section
variable {K X DX U L D : Type}
variable [Field K] [LinearOrder K] [AddCommGroup DX] [Module K DX] [AddCommGroup U] [Module K U]
variable {P : Prob K X DX U} {E : EqC K X U (St K X DX U L D)} {c : ICfg K} {O : Oracle K X DX U L D}

/-- The data's `h` are those of the candidate. -/
def HMatches (P : Prob K X DX U) (E : EqC K X U (St K X DX U L D)) (s : Ist K X DX U L D) : Prop :=
  (∀ t < P.T, s.hd t = E.h t (s.base.xs t) (s.base.us t)) ∧ s.htd = E.ht (s.base.xs P.T)

/-- The stored feasibility is that of the candidate. -/
def HOk (P : Prob K X DX U) (E : EqC K X U (St K X DX U L D)) (c : ICfg K) (s : Ist K X DX U L D) : Prop :=
  s.hfeas = violation c.norm P E s.base.xs s.base.us

theorem dataFeas_of_matches {s : Ist K X DX U L D} (h : HMatches P E s) :
    dataFeas P c s = violation c.norm P E s.base.xs s.base.us := by
  unfold dataFeas violation
  rw [h.2]
  congr 1
  exact List.map_congr_left fun t ht => h.1 t (List.mem_range.1 ht)

/-- Precondition of `computeDirection`. -/
structure IPre (P : Prob K X DX U) (E : EqC K X U (St K X DX U L D)) (c : ICfg K) (s : Ist K X DX U L D) :
    Prop where
  base : DirPre P s.base
  h : if s.base.recalc then s.base.iter = 0 ∨ HMatches P E s else HOk P E c s

theorem computeDirection_base (s : Ist K X DX U L D) :
    (computeDirection P E c O s).1 = (Solve.computeDirection P O s.base).1 ∧
    (computeDirection P E c O s).2.base = (Solve.computeDirection P O s.base).2 ∧
    (computeDirection P E c O s).2.upsilon = s.upsilon := by
  unfold computeDirection Solve.computeDirection
  cases hr : s.base.recalc
  · simp
  · simp only [if_true]
    have hb : (calcDiff P E c O s).base = Solve.calcDiff P O s.base ∧
        (calcDiff P E c O s).upsilon = s.upsilon := by
      unfold calcDiff
      by_cases h0 : s.base.iter = 0 <;> simp [h0]
    rw [hb.1]
    exact ⟨rfl, rfl, hb.2⟩

theorem computeDirection_hok {s : Ist K X DX U L D} (h : IPre P E c s) :
    HOk P E c (computeDirection P E c O s).2 := by
  have hh := h.h
  unfold computeDirection
  cases hr : s.base.recalc
  · rw [hr] at hh
    simpa [HOk] using hh
  · rw [hr] at hh
    simp only [if_true] at hh ⊢
    unfold HOk calcDiff
    have hcd : ∀ b : St K X DX U L D, (Solve.calcDiff P O b).xs = b.xs ∧ (Solve.calcDiff P O b).us = b.us := by
      intro b
      unfold Solve.calcDiff
      by_cases h0 : b.iter = 0 <;> simp [h0, problemCalc]
    by_cases h0 : s.base.iter = 0
    · simp only [h0, if_true]
      rw [(hcd _).1, (hcd _).2]
      rfl
    · simp only [h0, if_false]
      rw [(hcd _).1, (hcd _).2]
      exact dataFeas_of_matches (hh.resolve_left h0)

theorem dirLoop_spec (fuel : Nat) {s : Ist K X DX U L D} (h : IPre P E c s) {b : Bool}
    {s' : Ist K X DX U L D} (hr : dirLoop P E c O fuel s = some (b, s')) :
    DirKeeps s.base s'.base ∧ CostOk P s'.base ∧ HOk P E c s' ∧ s'.upsilon = s.upsilon := by
  induction fuel generalizing s with
  | zero => simp [dirLoop] at hr
  | succ fuel ih =>
    obtain ⟨h1, h2, -⟩ := computeDirection_spec (O := O) h.base
    obtain ⟨-, b2, b3⟩ := computeDirection_base (P := P) (E := E) (c := c) (O := O) s
    have hok := computeDirection_hok (O := O) h
    rw [← b2] at h1 h2
    simp only [dirLoop] at hr
    split at hr
    · simp only [Option.some.injEq, Prod.mk.injEq] at hr
      obtain ⟨-, rfl⟩ := hr
      exact ⟨h1, h2, hok, b3⟩
    · generalize hs2 : ({ (computeDirection P E c O s).2 with base := (increaseReg c.toCfg
        { (computeDirection P E c O s).2.base with recalc := false }) } : Ist K X DX U L D) = s2 at hr
      have e1 : DirKeeps s.base s2.base := by
        rw [← hs2]; exact ⟨h1.xs, h1.us, h1.feas, h1.wasFeas, h1.iter, h1.xsTry⟩
      have e2 : CostOk P s2.base := by rw [← hs2]; exact h2
      have e3 : HOk P E c s2 := by rw [← hs2]; exact hok
      have e4 : s2.upsilon = s.upsilon := by rw [← hs2]; exact b3
      have e5 : s2.base.recalc = false := by rw [← hs2]; rfl
      split at hr
      · simp only [Option.some.injEq, Prod.mk.injEq] at hr
        obtain ⟨-, rfl⟩ := hr
        exact ⟨e1, e2, e3, e4⟩
      · obtain ⟨i1, i2, i3, i4⟩ := ih ⟨by unfold DirPre; rw [e5]; simpa using e2, by rw [e5]; simpa using e3⟩ hr
        exact ⟨e1.trans i1, i2, i3, i4.trans e4⟩

/-- What a step that is not accepted preserves. -/
structure IKeeps (s s' : Ist K X DX U L D) : Prop where
  base : Keeps .fddp s.base s'.base
  hfeas : s'.hfeas = s.hfeas
  upsilon : s'.upsilon = s.upsilon

theorem IKeeps.refl (s : Ist K X DX U L D) : IKeeps s s := ⟨Keeps.refl _, rfl, rfl⟩

theorem IKeeps.trans {s s' s'' : Ist K X DX U L D} (h : IKeeps s s') (h' : IKeeps s' s'') : IKeeps s s'' :=
  ⟨h.base.trans h'.base, h'.hfeas.trans h.hfeas, h'.upsilon.trans h.upsilon⟩

/-- A step length whose trial is available. -/
structure IProbed (P : Prob K X DX U) (E : EqC K X U (St K X DX U L D)) (c : ICfg K) (a : K)
    (s sT : Ist K X DX U L D) : Prop where
  keeps : IKeeps s sT
  base : Probed P .fddp a s.base sT.base
  hd : ∀ t, sT.hd t = if (P.node t).nuZero then E.hx t (sT.base.xsTry t)
    else E.h t (sT.base.xsTry t) (sT.base.usTry t)
  htd : sT.htd = E.ht (sT.base.xsTry P.T)
  hfeasTry : sT.hfeasTry = dataFeas P c sT
  dPhi : sT.dPhi = sT.base.dV + s.upsilon * (s.hfeas - sT.hfeasTry)
  dPhiexp : sT.dPhiexp = sT.base.dVexp + a * s.upsilon * (s.hfeas - sT.hfeasTry)

theorem probe_spec (a : K) (s : Ist K X DX U L D) :
    match probe P E c O a s with
    | (none, s') => IKeeps s s'
    | (some _, s') => IProbed P E c a s s' := by
  have h := Solve.probe_spec (P := P) (O := O) (kind := .fddp) a s.base
  unfold probe
  rcases hp : Solve.probe P O .fddp a s.base with ⟨o, b⟩
  rw [hp] at h
  cases o with
  | none => exact ⟨h, rfl, rfl⟩
  | some u => exact ⟨⟨h.keeps, rfl, rfl⟩, h, fun _ => rfl, rfl, rfl, rfl, rfl⟩

theorem IProbed.of_keeps {a : K} {s s' sT : Ist K X DX U L D} (hk : IKeeps s s') (h : IProbed P E c a s' sT) :
    IProbed P E c a s sT := by
  refine ⟨hk.trans h.keeps, h.base.of_keeps hk.base, h.hd, h.htd, h.hfeasTry, ?_, ?_⟩
  · rw [h.dPhi, hk.hfeas, hk.upsilon]
  · rw [h.dPhiexp, hk.hfeas, hk.upsilon]

theorem lineSearch_spec (as : List K) (s : Ist K X DX U L D) :
    IKeeps s (lineSearch P E c O as s) ∨
    ∃ a ∈ as, ∃ sT, IProbed P E c a s sT ∧ accepts c sT = true ∧ lineSearch P E c O as s = accept sT := by
  induction as generalizing s with
  | nil => exact .inl (IKeeps.refl s)
  | cons a as ih =>
    have h := probe_spec (P := P) (E := E) (c := c) (O := O) a s
    simp only [lineSearch]
    rcases hp : probe P E c O a s with ⟨o, s'⟩
    rw [hp] at h
    cases o with
    | none =>
      simp only at h ⊢
      rcases ih s' with h' | ⟨b, hb, sT, h1, h2, h3⟩
      · exact .inl (h.trans h')
      · exact .inr ⟨b, List.mem_cons_of_mem _ hb, sT, h1.of_keeps h, h2, h3⟩
    | some u =>
      simp only at h ⊢
      by_cases hacc : accepts c s' = true
      · rw [if_pos hacc]
        exact .inr ⟨a, List.mem_cons_self, s', h, hacc, rfl⟩
      · rw [if_neg hacc]
        rcases ih s' with h' | ⟨b, hb, sT, h1, h2, h3⟩
        · exact .inl (h.keeps.trans h')
        · exact .inr ⟨b, List.mem_cons_of_mem _ hb, sT, h1.of_keeps h.keeps, h2, h3⟩

/-- Known about the state after a line search. `R` is the candidate's exactness, tracked when the initial flag is
honest. -/
structure IPost (P : Prob K X DX U) (E : EqC K X U (St K X DX U L D)) (c : ICfg K) (s : Ist K X DX U L D) :
    Prop where
  cost : CostOk P s.base
  data : s.base.recalc = true → Matches P s.base
  h : HOk P E c s
  hdata : s.base.recalc = true → HMatches P E s

/-- The candidate marked feasible is a rollout. -/
def Honest (P : Prob K X DX U) (s : St K X DX U L D) : Prop := s.feas = true → Rollout P s.xs s.us

/-- Relation between the states before and after an iteration. -/
structure IRel (P : Prob K X DX U) (E : EqC K X U (St K X DX U L D)) (c : ICfg K) (s s' : Ist K X DX U L D) :
    Prop where
  honest : Honest P s.base → Honest P s'.base
  mono : s.upsilon ≤ s'.upsilon
  dec : (s'.base.xs = s.base.xs ∧ s'.base.us = s.base.us) ∨ |s'.base.d0| < c.thGrad ∨
    (0 ≤ s'.dPhiexp ∧ merit c.norm P E s'.upsilon s.base.xs s.base.us -
      merit c.norm P E s'.upsilon s'.base.xs s'.base.us > c.thAcceptstep * s'.dPhiexp) ∨
    (s'.dPhiexp < 0 ∧ totalCost P s.base.xs s.base.us - totalCost P s'.base.xs s'.base.us >
      c.thAcceptnegstep * s'.base.dVexp)
  rep : (s'.base.xs = s.base.xs ∧ s'.base.us = s.base.us) ∨
    s'.merit = merit c.norm P E s'.upsilon s'.base.xs s'.base.us

theorem prepare_base (s : Ist K X DX U L D) :
    (prepare c O s).base.xs = s.base.xs ∧ (prepare c O s).base.us = s.base.us ∧
    (prepare c O s).base.cost = s.base.cost ∧ (prepare c O s).base.feas = s.base.feas ∧
    (prepare c O s).base.iter = s.base.iter ∧ (prepare c O s).base.recalc = false ∧
    (prepare c O s).hfeas = s.hfeas ∧ s.upsilon ≤ (prepare c O s).upsilon ∧
    (prepare c O s).base.preg = s.base.preg := by
  refine ⟨rfl, rfl, rfl, rfl, rfl, rfl, rfl, ?_, rfl⟩
  unfold prepare penalty
  simp only
  split
  · exact le_max_left _ _
  · exact le_rfl

/-- The line search from a state with right cost and feasibility. -/
theorem lineSearch_post (hA : AutonomousOk P) (hE : EqAutonomous P E) (as : List K) {s : Ist K X DX U L D}
    (hc : CostOk P s.base) (hh : HOk P E c s) (hr : s.base.recalc = false) :
    IPost P E c (lineSearch P E c O as s) ∧ IRel P E c s (lineSearch P E c O as s) ∧
    (lineSearch P E c O as s).base.iter = s.base.iter ∧ (lineSearch P E c O as s).base.preg = s.base.preg := by
  rcases lineSearch_spec (P := P) (E := E) (c := c) (O := O) as s with h | ⟨a, ha, sT, h1, h2, h3⟩
  · have hb := h.base
    refine ⟨⟨?_, ?_, ?_, ?_⟩, ⟨?_, ?_, .inl ⟨hb.xs, hb.us⟩, .inl ⟨hb.xs, hb.us⟩⟩, hb.iter, hb.preg⟩
    · unfold CostOk; rw [hb.cost, hb.xs, hb.us]; exact hc
    · intro e; rw [hb.recalc, hr] at e; simp at e
    · unfold HOk; rw [h.hfeas, hb.xs, hb.us]; exact hh
    · intro e; rw [hb.recalc, hr] at e; simp at e
    · unfold Honest; rw [hb.feas, hb.xs, hb.us]; exact id
    · rw [h.upsilon]
  · rw [h3]
    have hcore := h1.base.core
    rw [first_eq (by simp)] at hcore
    obtain ⟨hd, htot⟩ := hcore.total hA
    have hHM : HMatches P E (accept sT) := by
      refine ⟨fun t ht => ?_, h1.htd⟩
      show sT.hd t = E.h t (sT.base.xsTry t) (sT.base.usTry t)
      rw [h1.hd]
      split
      · rename_i hz; exact hE t ht hz _ _
      · rfl
    have hv : sT.hfeasTry = violation c.norm P E sT.base.xsTry sT.base.usTry := by
      rw [h1.hfeasTry]
      exact dataFeas_of_matches (c := c) hHM
    refine ⟨⟨htot, fun _ => ⟨hd, hcore.tdata_eq⟩, hv, fun _ => hHM⟩, ⟨?_, ?_, .inr ?_, .inr ?_⟩,
      h1.keeps.base.iter, h1.keeps.base.preg⟩
    · intro hon hf
      have hf' : (sT.base.feas || decide (sT.base.steplength = 1)) = true := hf
      rw [h1.keeps.base.feas, h1.base.steplength] at hf'
      simp only [Bool.or_eq_true, decide_eq_true_eq] at hf'
      exact hcore.rollout hA (.inr hf')
    · show s.upsilon ≤ sT.upsilon
      rw [h1.keeps.upsilon]
    · have hdV : sT.base.dV = totalCost P s.base.xs s.base.us - totalCost P sT.base.xsTry sT.base.usTry := by
        rw [h1.base.dV, hc, htot]
      have hdP : sT.dPhi = merit c.norm P E sT.upsilon s.base.xs s.base.us -
          merit c.norm P E sT.upsilon sT.base.xsTry sT.base.usTry := by
        rw [h1.dPhi, hdV, hh, hv, h1.keeps.upsilon]
        unfold merit
        ring
      show |sT.base.d0| < c.thGrad ∨ (0 ≤ sT.dPhiexp ∧ merit c.norm P E sT.upsilon s.base.xs s.base.us -
        merit c.norm P E sT.upsilon sT.base.xsTry sT.base.usTry > c.thAcceptstep * sT.dPhiexp) ∨
        (sT.dPhiexp < 0 ∧ totalCost P s.base.xs s.base.us - totalCost P sT.base.xsTry sT.base.usTry >
          c.thAcceptnegstep * sT.base.dVexp)
      rw [← hdP, ← hdV]
      unfold accepts at h2
      split at h2
      · rename_i h0
        simp only [Bool.or_eq_true, decide_eq_true_eq] at h2
        exact h2.imp id fun h => .inl ⟨h0, h⟩
      · rename_i h0
        simp only [decide_eq_true_eq] at h2
        exact .inr (.inr ⟨not_le.1 h0, h2⟩)
    · show sT.base.costTry + sT.upsilon * sT.hfeasTry = totalCost P sT.base.xsTry sT.base.usTry + sT.upsilon *
        violation c.norm P E sT.base.xsTry sT.base.usTry
      rw [hv, htot]

/-- What happens in one iteration. -/
theorem iteration_cases (fuel : Nat) (s : Ist K X DX U L D) {e : Exit} {b : Option (Ist K X DX U L D)}
    {s' : Ist K X DX U L D} (hr : iteration P E c O fuel s = some (e, b, s')) :
    (e = .giveUp ∧ b = none ∧ dirLoop P E c O fuel s = some (false, s')) ∨
    ∃ s1, dirLoop P E c O fuel s = some (true, s1) ∧
      b = some (stopping (lineSearch P E c O c.alphas (prepare c O s1))) ∧
      (∃ p q, s' = { stopping (lineSearch P E c O c.alphas (prepare c O s1)) with
        base := { (stopping (lineSearch P E c O c.alphas (prepare c O s1))).base with preg := p, dreg := q } }) ∧
      (e = .converged → s'.base.feas = true ∧ s'.base.stop < c.thStop) := by
  unfold iteration at hr
  split at hr
  · simp at hr
  · rename_i s1 hd
    simp only [Option.some.injEq, Prod.mk.injEq] at hr
    obtain ⟨rfl, rfl, rfl⟩ := hr
    exact .inl ⟨rfl, rfl, hd⟩
  · rename_i s1 hd
    right
    refine ⟨s1, hd, ?_⟩
    generalize stopping (lineSearch P E c O c.alphas (prepare c O s1)) = s2 at hr ⊢
    simp only at hr ⊢
    generalize h3 : (if s2.base.steplength > c.thStepdec ∧ 0 ≤ s2.base.dV then
      { s2 with base := decreaseReg c.toCfg s2.base } else s2) = s3 at hr
    have k3 : ∃ p q, s3 = { s2 with base := { s2.base with preg := p, dreg := q } } := by
      rw [← h3]; split
      · exact ⟨_, _, rfl⟩
      · exact ⟨s2.base.preg, s2.base.dreg, rfl⟩
    generalize hup : (decide (s3.base.steplength ≤ c.thStepinc) || decide (|s3.base.d1| ≤ c.thFeas)) = up at hr
    split at hr
    · simp only [Option.some.injEq, Prod.mk.injEq] at hr
      obtain ⟨rfl, rfl, rfl⟩ := hr
      exact ⟨rfl, k3, by simp⟩
    · generalize h4 : (if up = true then { s3 with base := increaseReg c.toCfg s3.base } else s3) = s4 at hr
      have k4 : ∃ p q, s4 = { s2 with base := { s2.base with preg := p, dreg := q } } := by
        obtain ⟨p, q, k3⟩ := k3
        rw [← h4]; split
        · exact ⟨_, _, by rw [k3]; rfl⟩
        · exact ⟨p, q, k3⟩
      split at hr
      · rename_i hcv
        simp only [Option.some.injEq, Prod.mk.injEq] at hr
        obtain ⟨rfl, rfl, rfl⟩ := hr
        simp only [Bool.and_eq_true, decide_eq_true_eq] at hcv
        exact ⟨rfl, k4, fun _ => hcv⟩
      · simp only [Option.some.injEq, Prod.mk.injEq] at hr
        obtain ⟨rfl, rfl, rfl⟩ := hr
        exact ⟨rfl, k4, by simp⟩

/-- Good states: what callbacks and callers may rely on. -/
structure Good (P : Prob K X DX U) (E : EqC K X U (St K X DX U L D)) (c : ICfg K) (s : Ist K X DX U L D) :
    Prop where
  cost : CostOk P s.base
  h : HOk P E c s

theorem iteration_post (hA : AutonomousOk P) (hE : EqAutonomous P E) (fuel : Nat) {s : Ist K X DX U L D}
    (h : IPre P E c s) {e : Exit} {b : Option (Ist K X DX U L D)} {s' : Ist K X DX U L D}
    (hr : iteration P E c O fuel s = some (e, b, s')) :
    Good P E c s' ∧ IRel P E c s s' ∧ s'.base.iter = s.base.iter ∧
    (∀ q ∈ b, Good P E c q ∧ IRel P E c s q ∧ q.base.stop = max q.hfeas |q.base.d0 + (1 / 2) * q.base.d1| ∧
      ∃ p r, s' = { q with base := { q.base with preg := p, dreg := r } }) ∧
    (e ≠ .giveUp → (∀ n, IPre P E c { s' with base := { s'.base with iter := n } }) ∧ b.isSome) ∧
    (e = .converged → s'.base.feas = true ∧ s'.base.stop < c.thStop ∧
      s'.base.stop = max s'.hfeas |s'.base.d0 + (1 / 2) * s'.base.d1|) := by
  rcases iteration_cases fuel s hr with ⟨rfl, rfl, hd⟩ | ⟨s1, hd, hb, ⟨p, q, hs'⟩, hcv⟩
  · obtain ⟨hk, hc, hh, hu⟩ := dirLoop_spec fuel h hd
    refine ⟨⟨hc, hh⟩, ⟨?_, hu.ge, .inl ⟨hk.xs, hk.us⟩, .inl ⟨hk.xs, hk.us⟩⟩, hk.iter, by simp, by simp, by simp⟩
    unfold Honest; rw [hk.feas, hk.xs, hk.us]; exact id
  · obtain ⟨hk, hc, hh, hu⟩ := dirLoop_spec fuel h hd
    obtain ⟨p1, p2, p3, p4, p5, p6, p7, p8, -⟩ := prepare_base (c := c) (O := O) s1
    obtain ⟨hp, hrel, hit, -⟩ := lineSearch_post (O := O) hA hE c.alphas (s := prepare c O s1)
      (by unfold CostOk; rw [p3, p1, p2]; exact hc) (by unfold HOk; rw [p7, p1, p2]; exact hh) p6
    have hrel' : IRel P E c s (lineSearch P E c O c.alphas (prepare c O s1)) := by
      refine ⟨fun ho => hrel.honest ?_, ?_, ?_, ?_⟩
      · unfold Honest; rw [p4, p1, p2, hk.feas, hk.xs, hk.us]; exact ho
      · rw [← hu]; exact p8.trans hrel.mono
      · have := hrel.dec
        rw [p1, p2, hk.xs, hk.us] at this
        exact this
      · have := hrel.rep
        rw [p1, p2, hk.xs, hk.us] at this
        exact this
    have hit' : (lineSearch P E c O c.alphas (prepare c O s1)).base.iter = s.base.iter := by
      rw [hit, p5, hk.iter]
    generalize lineSearch P E c O c.alphas (prepare c O s1) = s2 at *
    subst hs'
    refine ⟨⟨hp.cost, hp.h⟩, ⟨hrel'.honest, hrel'.mono, hrel'.dec, hrel'.rep⟩, hit', ?_, fun _ => ⟨fun n => ⟨?_, ?_⟩, by simp [hb]⟩,
      fun e => ⟨(hcv e).1, (hcv e).2, rfl⟩⟩
    · intro r hr
      rw [hb] at hr
      simp only [Option.mem_def, Option.some.injEq] at hr
      subst hr
      exact ⟨⟨hp.cost, hp.h⟩, ⟨hrel'.honest, hrel'.mono, hrel'.dec, hrel'.rep⟩, rfl, p, q, rfl⟩
    · show DirPre P _
      unfold DirPre
      split
      · rename_i hrc; exact .inr (hp.data hrc)
      · exact hp.cost
    · split
      · rename_i hrc; exact .inr (hp.hdata hrc)
      · exact hp.h

/-- Induction principle for the main loop. -/
theorem iterLoop_induct (hA : AutonomousOk P) (hE : EqAutonomous P E) (fuel n : Nat) {s : Ist K X DX U L D}
    (h : IPre P E c s) {o : Outcome K X DX U L D} (hr : iterLoop P E c O fuel n s = some o) :
    o.trace.length ≤ n ∧
    (∀ q ∈ o.trace, Good P E c q ∧ q.base.stop = max q.hfeas |q.base.d0 + (1 / 2) * q.base.d1|) ∧
    (0 < n → Good P E c o.final) ∧
    (o.ret = true → o.final.base.feas = true ∧ o.final.base.stop < c.thStop ∧
      o.final.base.stop = max o.final.hfeas |o.final.base.d0 + (1 / 2) * o.final.base.d1|) ∧
    List.IsChain (IRel P E c) (s :: o.trace) ∧
    (Honest P s.base → Honest P o.final.base) ∧ s.upsilon ≤ o.final.upsilon := by
  induction n generalizing s o with
  | zero =>
    simp only [iterLoop, Option.some.injEq] at hr
    subst hr
    exact ⟨le_rfl, by simp, by simp, by simp, by simp, id, le_rfl⟩
  | succ n ih =>
    have hlist : ∀ {b : Option (Ist K X DX U L D)}, (∀ q ∈ b, IRel P E c s q) →
        List.IsChain (IRel P E c) (s :: b.toList) := by
      intro b hb
      cases b with
      | none => simp
      | some q => simpa using hb q rfl
    have hmem : ∀ {b : Option (Ist K X DX U L D)} {Q : Ist K X DX U L D → Prop}, (∀ q ∈ b, Q q) →
        ∀ q ∈ b.toList, Q q := by
      intro b Q hb q hq; exact hb q (by simpa using hq)
    simp only [iterLoop] at hr
    split at hr
    · simp at hr
    · rename_i b s' hi
      simp only [Option.some.injEq] at hr
      subst hr
      obtain ⟨h1, h2, -, h4, -, -⟩ := iteration_post hA hE fuel h hi
      refine ⟨by simp only; cases b <;> simp, ?_, fun _ => h1, by simp, hlist fun q hq => (h4 q hq).2.1, h2.honest, h2.mono⟩
      exact hmem fun q hq => ⟨(h4 q hq).1, (h4 q hq).2.2.1⟩
    · rename_i b s' hi
      simp only [Option.some.injEq] at hr
      subst hr
      obtain ⟨h1, h2, -, h4, -, h6⟩ := iteration_post hA hE fuel h hi
      refine ⟨by simp only; cases b <;> simp, ?_, fun _ => h1, fun _ => h6 rfl, hlist fun q hq => (h4 q hq).2.1, h2.honest, h2.mono⟩
      exact hmem fun q hq => ⟨(h4 q hq).1, (h4 q hq).2.2.1⟩
    · rename_i b s' hi
      obtain ⟨h1, h2, -, h4, h5, -⟩ := iteration_post hA hE fuel h hi
      cases hl : iterLoop P E c O fuel n { s' with base := { s'.base with iter := s'.base.iter + 1 } } with
      | none => rw [hl] at hr; simp at hr
      | some o' =>
        rw [hl] at hr
        simp only [Option.map_some, Option.some.injEq] at hr
        subst hr
        obtain ⟨i1, i2, i3, i4, i5, i6, i7⟩ := ih ((h5 (by simp)).1 _) hl
        have hbs := (h5 (by simp)).2
        obtain ⟨q, rfl⟩ := Option.isSome_iff_exists.1 hbs
        obtain ⟨q1, q2, q3, p, r, hq⟩ := h4 q rfl
        refine ⟨by simpa using i1, ?_, ?_, i4, ?_, fun ho => i6 (h2.honest ho), h2.mono.trans i7⟩
        · intro s'' hs
          simp only [Option.toList_some, List.cons_append, List.nil_append, List.mem_cons] at hs
          rcases hs with rfl | hs
          · exact ⟨q1, q3⟩
          · exact i2 s'' hs
        · intro _
          cases n with
          | zero =>
            simp only [iterLoop, Option.some.injEq] at hl
            subst hl; exact ⟨h1.cost, h1.h⟩
          | succ n => exact i3 (Nat.succ_pos _)
        · simp only [Option.toList_some, List.cons_append, List.nil_append, List.isChain_cons_cons]
          refine ⟨q2, ?_⟩
          rcases htr : o'.trace with _ | ⟨s2, tr⟩
          · simp
          · rw [htr] at i5
            simp only [List.isChain_cons_cons] at i5 ⊢
            subst hq
            exact ⟨⟨i5.1.honest, i5.1.mono, i5.1.dec, i5.1.rep⟩, i5.2⟩

theorem start_pre (xs : Nat → X) (us : Nat → U) (feas : Bool) (regInit : Option K) (s : Ist K X DX U L D) :
    IPre P E c { s with
      base := start P c.toCfg xs us feas regInit s.base
      upsilon := if c.zeroUpsilon then 0 else s.upsilon } := by
  constructor <;> simp [DirPre, start]

end

section termination
variable {K X DX U L D : Type}
variable [Field K] [LinearOrder K] [IsStrictOrderedRing K] [AddCommGroup DX] [Module K DX]
variable [AddCommGroup U] [Module K U]
variable {P : Prob K X DX U} {E : EqC K X U (St K X DX U L D)} {c : ICfg K} {O : Oracle K X DX U L D}

/-- The retry loop acts on the base state as that of DDP. -/
theorem dirLoop_base (fuel : Nat) (s : Ist K X DX U L D) :
    (dirLoop P E c O fuel s).map (fun r => (r.1, r.2.base)) = Solve.dirLoop P c.toCfg O fuel s.base := by
  induction fuel generalizing s with
  | zero => rfl
  | succ fuel ih =>
    obtain ⟨b1, b2, -⟩ := computeDirection_base (P := P) (E := E) (c := c) (O := O) s
    simp only [dirLoop, Solve.dirLoop]
    rw [← b1, ← b2]
    split
    · rfl
    · split
      · rfl
      · rw [ih]

theorem dirLoop_mono {fuel fuel' : Nat} (hf : fuel ≤ fuel') {s : Ist K X DX U L D}
    {r : Bool × Ist K X DX U L D} (h : dirLoop P E c O fuel s = some r) : dirLoop P E c O fuel' s = some r := by
  induction fuel generalizing s fuel' with
  | zero => simp [dirLoop] at h
  | succ fuel ih =>
    obtain ⟨f, rfl⟩ : ∃ f, fuel' = f + 1 := ⟨fuel' - 1, by omega⟩
    simp only [dirLoop] at h ⊢
    split at h
    · rename_i e; rw [if_pos e]; exact h
    · rename_i e; rw [if_neg e]
      split at h
      · rename_i e'; rw [if_pos e']; exact h
      · rename_i e'; rw [if_neg e']; exact ih (by omega) h

theorem iteration_mono {fuel fuel' : Nat} (hf : fuel ≤ fuel') {s : Ist K X DX U L D}
    {r : Exit × Option (Ist K X DX U L D) × Ist K X DX U L D} (h : iteration P E c O fuel s = some r) :
    iteration P E c O fuel' s = some r := by
  unfold iteration at h ⊢
  cases hd : dirLoop P E c O fuel s with
  | none => rw [hd] at h; simp at h
  | some r' => rw [hd] at h; rw [dirLoop_mono hf hd]; exact h

theorem iterLoop_mono {fuel fuel' : Nat} (hf : fuel ≤ fuel') (n : Nat) {s : Ist K X DX U L D}
    {o : Outcome K X DX U L D} (h : iterLoop P E c O fuel n s = some o) :
    iterLoop P E c O fuel' n s = some o := by
  induction n generalizing s o with
  | zero => exact h
  | succ n ih =>
    simp only [iterLoop] at h ⊢
    cases hi : iteration P E c O fuel s with
    | none => rw [hi] at h; simp at h
    | some r =>
      rw [hi] at h; rw [iteration_mono hf hi]
      obtain ⟨e, b, s'⟩ := r
      cases e <;> simp only at h ⊢
      · exact h
      · exact h
      · cases hl : iterLoop P E c O fuel n { s' with base := { s'.base with iter := s'.base.iter + 1 } } with
        | none => rw [hl] at h; simp at h
        | some o' => rw [hl] at h; rw [ih hl]; exact h

theorem iteration_ends [Archimedean K] (hinc : 1 < c.reg.inc) (hdec : 1 < c.reg.dec) (hmax : 0 < c.reg.max)
    (s : Ist K X DX U L D) (hp : 0 < s.base.preg) :
    ∃ fuel e b s', iteration P E c O fuel s = some (e, b, s') ∧ 0 < s'.base.preg := by
  obtain ⟨fuel, b, s1, hd, hp1⟩ := dirLoop_ends (P := P) (c := c.toCfg) (O := O) hinc hmax s.base hp
  rw [← dirLoop_base (E := E)] at hd
  cases hdl : dirLoop P E c O fuel s with
  | none => rw [hdl] at hd; simp at hd
  | some r =>
    rw [hdl] at hd
    obtain ⟨b', s1'⟩ := r
    simp only [Option.map_some, Option.some.injEq, Prod.mk.injEq] at hd
    obtain ⟨rfl, rfl⟩ := hd
    refine ⟨fuel, ?_⟩
    unfold iteration
    rw [hdl]
    cases b'
    · exact ⟨_, _, _, rfl, hp1⟩
    · simp only
      have hls : 0 < (stopping (lineSearch P E c O c.alphas (prepare c O s1'))).base.preg := by
        show 0 < (lineSearch P E c O c.alphas (prepare c O s1')).base.preg
        rcases lineSearch_spec (P := P) (E := E) (c := c) (O := O) c.alphas (prepare c O s1') with
          hl | ⟨a, ha, sT, h1, h2, h3⟩
        · rw [hl.base.preg]; exact hp1
        · rw [h3]; show 0 < sT.base.preg
          rw [h1.keeps.base.preg]; exact hp1
      generalize stopping (lineSearch P E c O c.alphas (prepare c O s1')) = s2 at hls
      generalize h3 : (if s2.base.steplength > c.thStepdec ∧ 0 ≤ s2.base.dV then
        { s2 with base := decreaseReg c.toCfg s2.base } else s2) = s3
      have hp3 : 0 < s3.base.preg := by
        rw [← h3]; split
        · exact decrease_pos hdec hls
        · exact hls
      generalize (decide (s3.base.steplength ≤ c.thStepinc) || decide (|s3.base.d1| ≤ c.thFeas)) = up
      split
      · exact ⟨_, _, _, rfl, hp3⟩
      · generalize h4 : (if up = true then { s3 with base := increaseReg c.toCfg s3.base } else s3) = s4
        have hp4 : 0 < s4.base.preg := by
          rw [← h4]; split
          · exact increase_pos hinc hmax hp3
          · exact hp3
        split
        · exact ⟨_, _, _, rfl, hp4⟩
        · exact ⟨_, _, _, rfl, hp4⟩

theorem iterLoop_ends [Archimedean K] (hinc : 1 < c.reg.inc) (hdec : 1 < c.reg.dec) (hmax : 0 < c.reg.max)
    (n : Nat) (s : Ist K X DX U L D) (hp : 0 < s.base.preg) :
    ∃ fuel o, iterLoop P E c O fuel n s = some o := by
  induction n generalizing s with
  | zero => exact ⟨0, _, rfl⟩
  | succ n ih =>
    obtain ⟨f1, e, b, s', hi, hp'⟩ := iteration_ends (P := P) (E := E) (O := O) hinc hdec hmax s hp
    obtain ⟨f2, o, ho⟩ := ih { s' with base := { s'.base with iter := s'.base.iter + 1 } } hp'
    refine ⟨max f1 f2, ?_⟩
    simp only [iterLoop]
    rw [iteration_mono (le_max_left f1 f2) hi]
    cases e
    · exact ⟨_, rfl⟩
    · exact ⟨_, rfl⟩
    · simp only
      rw [iterLoop_mono (le_max_right f1 f2) n ho]
      exact ⟨_, rfl⟩

end termination
end Verif.IntroSolve
