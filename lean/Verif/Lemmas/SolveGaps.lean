import Verif.Lemmas.SolveLoop
import Mathlib.Algebra.BigOperators.Ring.List

set_option linter.unusedSectionVars false

/-! # Lemmas: the gaps of the candidates along a run -/

namespace Verif.Solve
open Verif Verif.Solver

section
variable {K X DX U L D : Type}
variable [Field K] [LinearOrder K] [AddCommGroup DX] [Module K DX] [AddCommGroup U] [Module K U]
variable {P : Prob K X DX U} {c : Cfg K} {O : Oracle K X DX U L D} {kind : Kind}

/-- The stored gaps are those of the candidate unless they are about to be recomputed. -/
def FreshGaps (P : Prob K X DX U) (s : St K X DX U L D) : Prop :=
  s.recalc = false → ∀ t ≤ P.T, s.fs t = gap P s.xs s.us t

theorem calcDiff_gaps {s : St K X DX U L D} (h : s.iter = 0 ∨ Matches P s) :
    ∀ t ≤ P.T, (calcDiff P O s).fs t = gap P s.xs s.us t := by
  intro t ht
  unfold calcDiff
  by_cases h0 : s.iter = 0
  · simp only [h0, if_true, problemCalc]
    cases t <;> rfl
  · simp only [h0, if_false]
    cases t with
    | zero => rfl
    | succ t => simp only [(h.resolve_left h0).1 t ht]; rfl

theorem computeDirection_gaps {s : St K X DX U L D} (hpre : DirPre P s) (hf : FreshGaps P s) :
    ∀ t ≤ P.T, (computeDirection P O s).2.fs t = gap P s.xs s.us t := by
  unfold DirPre at hpre
  unfold computeDirection
  simp only
  cases hr : s.recalc
  · simp only [Bool.false_eq_true, if_false]
    exact hf hr
  · rw [hr] at hpre
    simp only [if_true] at hpre ⊢
    exact calcDiff_gaps hpre

theorem dirLoop_gaps (fuel : Nat) {s s1 : St K X DX U L D} {b : Bool} (hpre : DirPre P s)
    (hf : FreshGaps P s) (hd : dirLoop P c O fuel s = some (b, s1)) :
    ∀ t ≤ P.T, s1.fs t = gap P s.xs s.us t := by
  induction fuel generalizing s with
  | zero => simp [dirLoop] at hd
  | succ fuel ih =>
    obtain ⟨hk, hc, -⟩ := computeDirection_spec (O := O) hpre
    have hg := computeDirection_gaps (O := O) hpre hf
    simp only [dirLoop] at hd
    split at hd
    · simp only [Option.some.injEq, Prod.mk.injEq] at hd
      rw [← hd.2]; exact hg
    · split at hd
      · simp only [Option.some.injEq, Prod.mk.injEq] at hd
        rw [← hd.2]; exact hg
      · have := ih (s := increaseReg c { (computeDirection P O s).2 with recalc := false })
          (by
            unfold DirPre
            simp only [increaseReg, Bool.false_eq_true, if_false]
            exact hc)
          (fun _ => by
            show ∀ t ≤ P.T, (computeDirection P O s).2.fs t =
              gap P (computeDirection P O s).2.xs (computeDirection P O s).2.us t
            rw [hk.xs, hk.us]; exact hg) hd
        have x1 : (increaseReg c { (computeDirection P O s).2 with recalc := false }).xs = s.xs := hk.xs
        have x2 : (increaseReg c { (computeDirection P O s).2 with recalc := false }).us = s.us := hk.us
        rwa [x1, x2] at this

/-- The gaps of a trial, from its description. -/
theorem Core.gaps {a : K} {feas : Bool} {xs xsTry : Nat → X} {us k usTry : Nat → U}
    {gain : Nat → DX → U} {fs : Nat → DX} {datas : Nat → X × K} {tdata costTry : K}
    (hA : AutonomousOk P) {diff : X → X → DX} {integ : X → DX → X}
    (hS : SharedState P diff integ) (hk : kind.feasibilityDriven = true)
    (h : Core P kind a feas P.x0 xs us k gain fs xsTry usTry datas tdata costTry) :
    ∀ t ≤ P.T, gap P xsTry usTry t = if feas then 0 else (1 - a) • fs t := by
  have hddp : kind ≠ .ddp := by rintro rfl; simp [Kind.feasibilityDriven] at hk
  have hd := (h.total hA).1
  have hst : ∀ t ≤ P.T, xsTry t = if feas = true ∨ a = 1 then pred P.x0 datas t
      else integ (pred P.x0 datas t) ((a - 1) • fs t) := by
    intro t ht
    rcases Nat.lt_or_eq_of_le ht with h' | rfl
    · have := h.nodes.state t h'
      rw [this, hk, hS.integ_eq]
      cases feas <;> by_cases e : a = 1 <;> simp [e]
    · rw [h.last, hS.term_eq]
      cases feas <;> by_cases e : a = 1 <;> simp [e, hddp]
  have key : ∀ t ≤ P.T, diff (xsTry t) (pred P.x0 datas t) = if feas then 0 else (1 - a) • fs t := by
    intro t ht
    rw [hst t ht]
    cases feas with
    | true => simp [hS.self]
    | false =>
      by_cases e : a = 1
      · simp [e, hS.self]
      · simp only [e, Bool.false_eq_true, or_self, if_false]
        rw [hS.back, ← neg_smul, neg_sub]
  intro t ht
  rw [← key t ht]
  cases t with
  | zero => simp [gap, pred, hS.diff_eq]
  | succ t =>
    simp only [gap, pred, hS.diff_eq]
    rw [hd t ht]

/-- What one iteration does to the gaps. -/
def GapStep (P : Prob K X DX U) (c : Cfg K) (s s' : St K X DX U L D) : Prop :=
  (s'.xs = s.xs ∧ s'.us = s.us ∧ s'.feas = s.feas) ∨
  (s'.steplength ∈ c.alphas ∧ 0 ≤ s'.steplength ∧ s'.steplength ≤ 1 ∧
    (s'.feas = true ↔ s.feas = true ∨ s'.steplength = 1) ∧
    ∀ t ≤ P.T, gap P s'.xs s'.us t =
      if s.feas then 0 else (1 - s'.steplength) • gap P s.xs s.us t)

theorem lineSearch_kept (as : List K) (s : St K X DX U L D) :
    (lineSearch P c O kind as s).fs = s.fs := by
  rcases lineSearch_spec (P := P) (c := c) (O := O) (kind := kind) as s with h | ⟨a, -, sT, h1, -, h3⟩
  · exact h.fs
  · rw [h3]; exact h1.keeps.fs

theorem iteration_fs (fuel : Nat) {s s1 s' : St K X DX U L D} {e : Exit} {b : Bool}
    (hd : dirLoop P c O fuel s = some (true, s1))
    (hi : iteration P c O kind fuel s = some (e, b, s')) : s'.fs = s1.fs := by
  have hl : (lineSearch P c O kind c.alphas (prepare O kind s1)).fs = s1.fs := by
    rw [lineSearch_kept]; exact (prepare_keeps s1).2.2.2.2.2.2.2
  unfold iteration at hi
  rw [hd] at hi
  simp only at hi
  generalize lineSearch P c O kind c.alphas (prepare O kind s1) = s2 at hi hl
  rw [← hl]
  generalize h3 : (if s2.steplength > c.thStepdec then decreaseReg c s2 else s2) = s3 at hi
  have k3 : s3 = { s2 with preg := s3.preg, dreg := s3.dreg } := by
    rw [← h3]; split <;> rfl
  generalize h4 : (if decide (s3.steplength ≤ c.thStepinc) = true then increaseReg c s3 else s3) = s4 at hi
  have k4 : s4 = { s2 with preg := s4.preg, dreg := s4.dreg } := by
    rw [← h4]; split
    · simp only [increaseReg]; rw [k3]
    · exact k3
  split at hi
  · simp only [Option.some.injEq, Prod.mk.injEq] at hi
    rw [← hi.2.2, k4]
  · split at hi <;>
    · simp only [Option.some.injEq, Prod.mk.injEq] at hi
      rw [← hi.2.2]
      simp only [stopping]; rw [k4]

theorem iteration_gap (hA : AutonomousOk P) {diff : X → X → DX} {integ : X → DX → X}
    (hS : SharedState P diff integ) (hk : kind.feasibilityDriven = true) (fuel : Nat)
    {s s' : St K X DX U L D} (h : Inv P kind s) (hf : FreshGaps P s) {e : Exit} {b : Bool}
    (hi : iteration P c O kind fuel s = some (e, b, s')) :
    GapStep P c s s' ∧ (e ≠ .giveUp → FreshGaps P s') := by
  have hddp : kind ≠ .ddp := by rintro rfl; simp [Kind.feasibilityDriven] at hk
  rcases iteration_cases fuel s hi with ⟨rfl, rfl, hd⟩ | ⟨s1, hd, hs2, -, -⟩
  · obtain ⟨hkp, -⟩ := dirLoop_spec fuel h.pre hd
    exact ⟨.inl ⟨hkp.xs, hkp.us, hkp.feas⟩, by simp⟩
  · obtain ⟨hkp, hc⟩ := dirLoop_spec fuel h.pre hd
    have hg := dirLoop_gaps fuel h.pre hf hd
    have hfs := iteration_fs fuel hd hi
    obtain ⟨e1, e2, e3, -, -, e6, -, -, -, -, -, -, -, -, e15⟩ := hs2
    obtain ⟨p1, p2, p3, p4, p5, p6, p7, p8⟩ := prepare_keeps (O := O) (kind := kind) s1
    rcases lineSearch_spec (P := P) (c := c) (O := O) (kind := kind) c.alphas (prepare O kind s1) with
      hl | ⟨a, ha, sT, h1, h2, h3⟩
    · have x1 : s'.xs = s.xs := by rw [e1, hl.xs, p1, hkp.xs]
      have x2 : s'.us = s.us := by rw [e2, hl.us, p2, hkp.us]
      refine ⟨.inl ⟨x1, x2, by rw [e3, hl.feas, p3, hkp.feas]⟩, fun _ _ => ?_⟩
      rw [hfs, x1, x2]; exact hg
    · rw [h3] at e1 e2 e3 e6 e15
      have hfT : sT.feas = s.feas := by rw [h1.keeps.feas, p3, hkp.feas]
      have hsl : s'.steplength = a := by rw [e15]; exact h1.steplength
      have hcore := h1.core
      rw [first_eq (by intro e; exact absurd e hddp), p3, p1, p2, p8, hkp.feas] at hcore
      refine ⟨.inr ⟨by rw [hsl]; exact ha, by rw [hsl]; exact hcore.step.1,
        by rw [hsl]; exact hcore.step.2, ?_, ?_⟩, fun _ hr => ?_⟩
      · rw [e3, hsl]
        show (if kind.feasibilityDriven then sT.feas || decide (sT.steplength = 1) else true) = true ↔ _
        rw [hk, hfT, h1.steplength]; simp
      · intro t ht
        have := hcore.gaps hA hS hk t ht
        rw [hg t ht] at this
        rw [e1, e2, hsl]; exact this
      · rw [e6] at hr; simp [accept] at hr

theorem start_fresh (xs : Nat → X) (us : Nat → U) (feas : Bool) (regInit : Option K)
    (s : St K X DX U L D) : FreshGaps P (start P c xs us feas regInit s) := by
  intro h; simp [start] at h

/-- Accepted step lengths of a run and the gaps at its end. -/
theorem iterLoop_gaps (hA : AutonomousOk P) {diff : X → X → DX} {integ : X → DX → X}
    (hS : SharedState P diff integ) (hk : kind.feasibilityDriven = true) (fuel n : Nat)
    {s : St K X DX U L D} (h : Inv P kind s) (hf : FreshGaps P s)
    {o : Outcome K X DX U L D} (hr : iterLoop P c O kind fuel n s = some o) :
    List.IsChain (GapStep P c) (s :: o.trace ++ [o.final]) ∧
    ∃ as : List K, as.length ≤ n ∧ (∀ a ∈ as, a ∈ c.alphas ∧ 0 ≤ a ∧ a ≤ 1) ∧
      (o.final.feas = true ↔ s.feas = true ∨ 1 ∈ as) ∧
      (∀ t ≤ P.T, gap P o.final.xs o.final.us t =
        (if s.feas = true ∧ as ≠ [] then 0 else (as.map (1 - ·)).prod) • gap P s.xs s.us t) := by
  have hrefl : ∀ s : St K X DX U L D, GapStep P c s s := fun s => .inl ⟨rfl, rfl, rfl⟩
  -- one iteration as a list of at most one accepted step
  have one : ∀ {s s' : St K X DX U L D}, GapStep P c s s' →
      ∃ as : List K, as.length ≤ 1 ∧ (∀ a ∈ as, a ∈ c.alphas ∧ 0 ≤ a ∧ a ≤ 1) ∧
      (s'.feas = true ↔ s.feas = true ∨ 1 ∈ as) ∧
      (∀ t ≤ P.T, gap P s'.xs s'.us t =
        (if s.feas = true ∧ as ≠ [] then 0 else (as.map (1 - ·)).prod) • gap P s.xs s.us t) := by
    rintro s s' (⟨e1, e2, e3⟩ | ⟨g1, g2, g3, g4, g5⟩)
    · exact ⟨[], by simp, by simp, by simp [e3], fun t ht => by simp [e1, e2]⟩
    · refine ⟨[s'.steplength], by simp, ?_, ?_, fun t ht => ?_⟩
      · intro a ha
        rw [List.mem_singleton] at ha
        subst ha; exact ⟨g1, g2, g3⟩
      · rw [g4, List.mem_singleton]
        exact or_congr_right eq_comm
      · rw [g5 t ht]
        cases s.feas <;> simp
  induction n generalizing s o with
  | zero =>
    simp only [iterLoop, Option.some.injEq] at hr
    subst hr
    refine ⟨?_, [], by simp, by simp, by simp, by simp⟩
    simp only [List.cons_append, List.nil_append, List.isChain_cons_cons, List.isChain_singleton, and_true]
    exact hrefl s
  | succ n ih =>
    simp only [iterLoop] at hr
    split at hr
    · simp at hr
    · rename_i b s' hi
      simp only [Option.some.injEq] at hr
      subst hr
      obtain ⟨h1, -⟩ := iteration_gap hA hS hk fuel h hf hi
      refine ⟨?_, ?_⟩
      · simp only [List.cons_append, List.nil_append, List.isChain_cons_cons, List.isChain_singleton, and_true]
        exact h1
      · obtain ⟨as, a1, a2⟩ := one h1
        exact ⟨as, by omega, a2⟩
    · rename_i b s' hi
      simp only [Option.some.injEq] at hr
      subst hr
      obtain ⟨h1, -⟩ := iteration_gap hA hS hk fuel h hf hi
      refine ⟨?_, ?_⟩
      · simp only [List.cons_append, List.nil_append, List.isChain_cons_cons, List.isChain_singleton, and_true]
        exact ⟨h1, hrefl _⟩
      · obtain ⟨as, a1, a2⟩ := one h1
        exact ⟨as, by omega, a2⟩
    · rename_i b s' hi
      obtain ⟨-, -, -, h4, -⟩ := iteration_post hA fuel h hi
      obtain ⟨h1, h2⟩ := iteration_gap hA hS hk fuel h hf hi
      cases hl : iterLoop P c O kind fuel n { s' with iter := s'.iter + 1 } with
      | none => rw [hl] at hr; simp at hr
      | some o' =>
        rw [hl] at hr
        simp only [Option.map_some, Option.some.injEq] at hr
        subst hr
        obtain ⟨i1, as, i2, i3, i4, i5⟩ := ih (s := { s' with iter := s'.iter + 1 })
          ((h4 (by simp)).1.inv _) (h2 (by simp)) hl
        refine ⟨?_, ?_⟩
        · simp only [List.cons_append, List.isChain_cons_cons] at i1 ⊢
          refine ⟨h1, ?_⟩
          rcases htr : o'.trace with _ | ⟨s2, tr⟩
          · rw [htr] at i1
            simp only [List.nil_append, List.isChain_cons_cons, List.isChain_singleton, and_true] at i1 ⊢
            exact i1
          · rw [htr] at i1
            simp only [List.cons_append, List.isChain_cons_cons] at i1 ⊢
            exact ⟨i1.1, i1.2⟩
        · obtain ⟨bs, b1, b2, b3, b4⟩ := one h1
          refine ⟨bs ++ as, by simp only [List.length_append]; omega, ?_, ?_, fun t ht => ?_⟩
          · intro a ha
            rcases List.mem_append.1 ha with ha | ha
            · exact b2 a ha
            · exact i3 a ha
          · show o'.final.feas = true ↔ _
            rw [i4]
            show s'.feas = true ∨ 1 ∈ as ↔ _
            rw [b3, List.mem_append, or_assoc]
          · show gap P o'.final.xs o'.final.us t = _
            rw [i5 t ht]
            show (if s'.feas = true ∧ as ≠ [] then (0 : K) else (as.map (1 - ·)).prod) • gap P s'.xs s'.us t = _
            rw [b4 t ht, smul_smul]
            congr 1
            by_cases hs : s.feas = true
            · have hs' : s'.feas = true := b3.2 (.inl hs)
              rcases as with _ | ⟨a, as⟩
              · simp
              · simp [hs, hs']
            · have e1 : (if s.feas = true ∧ bs ≠ [] then (0 : K) else (bs.map (1 - ·)).prod) =
                  (bs.map (1 - ·)).prod := if_neg (fun h => hs h.1)
              have e2 : (if s.feas = true ∧ bs ++ as ≠ [] then (0 : K) else ((bs ++ as).map (1 - ·)).prod) =
                  (bs.map (1 - ·)).prod * (as.map (1 - ·)).prod := by
                rw [if_neg (fun h => hs h.1), List.map_append, List.prod_append]
              rw [e1, e2]
              by_cases h1' : (1 : K) ∈ bs
              · have : (bs.map (1 - ·)).prod = (0 : K) := by
                  rw [List.prod_eq_zero_iff]; exact List.mem_map.2 ⟨1, h1', by simp⟩
                rw [this]; simp
              · have hs' : ¬ s'.feas = true := by
                  rw [b3]; rintro (h | h)
                  · exact hs h
                  · exact h1' h
                have e3 : (if s'.feas = true ∧ as ≠ [] then (0 : K) else (as.map (1 - ·)).prod) =
                  (as.map (1 - ·)).prod := if_neg (fun h => hs' h.1)
                rw [e3, mul_comm]

end
end Verif.Solve
