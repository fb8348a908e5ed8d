import Verif.Spec.Finite
import Verif.Lemmas.SolveLoop

set_option linter.unusedSectionVars false

/-! # Lemmas: the NaN tests of the forward passes -/

namespace Verif.Solve
open Verif Verif.Solver

section
variable {K X DX U L D : Type}
variable [Field K] [LinearOrder K] [AddCommGroup DX] [Module K DX] [AddCommGroup U] [Module K U]
variable {P : Prob K X DX U} {c : Cfg K} {O : Oracle K X DX U L D} {kind : Kind}

/-- A round of the loop that does not throw has passed its tests and has written only its own data. -/
theorem fwdBody_tests {a : K} {contract : Bool} {t : Nat} {s s' : St K X DX U L D}
    (h : fwdBody P O kind a contract t s = .ok () s') :
    O.bad s'.costTry = false ∧ O.badX (s'.datas t).1 = false ∧ ∀ j, j ≠ t → s'.datas j = s.datas j := by
  by_cases hddp : kind = .ddp
  · subst hddp
    obtain ⟨u, hu, -⟩ := tryNode_spec (P := P) (kind := .ddp) a t s
    simp only [fwdBody, Cpp.bind_apply, Cpp.pure_apply, hu, Cpp.modify_apply, Cpp.get_apply,
      Cpp.throwIf_apply] at h
    by_cases h1 : O.bad (s.costTry + (upd s.datas t (nodeEval P t (s.xsTry t) u) t).2) = true
    · simp only [h1, if_true] at h
      cases h
    · simp only [h1, if_false] at h
      by_cases h2 : O.badX (upd s.datas t (nodeEval P t (s.xsTry t) u) t).1 = true
      · simp only [h2, if_true] at h
        cases h
      · simp only [h2, if_false] at h
        cases h
        exact ⟨by simpa using h1, by simpa using h2, fun j hj => upd_of_ne _ _ hj⟩
  · generalize hxt : (if contract then (P.node t).integ s.xnext ((a - 1) • s.fs t) else s.xnext) = x
    obtain ⟨u, hu, -⟩ := tryNode_spec (P := P) (kind := kind) a t { s with xsTry := upd s.xsTry t x }
    simp only [upd_same] at hu
    have hstep : fwdBody P O kind a contract t s =
        (fun s' : St K X DX U L D => if O.bad s'.costTry then .throw s' else
          if O.badX (s'.datas t).1 then .throw s' else .ok () s')
        { s with xsTry := upd s.xsTry t x, usTry := upd s.usTry t u,
                 datas := upd s.datas t (nodeEval P t x u), xnext := (nodeEval P t x u).1,
                 costTry := s.costTry + (nodeEval P t x u).2 } := by
      cases kind <;> first | exact absurd rfl hddp | skip
      all_goals
        simp only [fwdBody, Cpp.bind_apply, Cpp.modify_apply, hxt, hu, Cpp.get_apply,
          Cpp.throwIf_apply, upd_same]
        by_cases h1 : O.bad (s.costTry + (nodeEval P t x u).2) = true
        · simp only [h1, if_true]
        · simp only [h1, if_false, Bool.false_eq_true]
    rw [hstep] at h
    dsimp only at h
    by_cases h1 : O.bad (s.costTry + (nodeEval P t x u).2) = true
    · rw [if_pos h1] at h
      cases h
    · rw [if_neg h1] at h
      by_cases h2 : O.badX (upd s.datas t (nodeEval P t x u) t).1 = true
      · rw [if_pos h2] at h
        cases h
      · rw [if_neg h2] at h
        cases h
        exact ⟨by simpa using h1, by simpa using h2, fun j hj => upd_of_ne _ _ hj⟩

/-- The loop invariant with the tests. -/
structure TestInv (P : Prob K X DX U) (O : Oracle K X DX U L D) (kind : Kind) (a : K) (contract : Bool)
    (s0 : St K X DX U L D) (i : Nat) (s : St K X DX U L D) : Prop where
  fwd : FwdInv P kind a contract s0 i s
  next : ∀ t < i, O.badX (s.datas t).1 = false
  sums : ∀ t < i, O.bad (sumTo (fun j => (s.datas j).2) (t + 1)) = false

theorem fwdBody_testInv (a : K) (contract : Bool) (hk : kind = .ddp → contract = false)
    (s0 : St K X DX U L D) (t : Nat) (s : St K X DX U L D) (h : TestInv P O kind a contract s0 t s) :
    (fwdBody P O kind a contract t s).sat (TestInv P O kind a contract s0 (t + 1)) (fun _ => True) := by
  have h1 := fwdBody_inv (O := O) a contract hk s0 t s h.fwd
  cases hb : fwdBody P O kind a contract t s with
  | ub => rw [hb] at h1; exact h1.elim
  | throw s' => trivial
  | ok u s' =>
    rw [hb] at h1
    have h1 : FwdInv P kind a contract s0 (t + 1) s' := h1
    obtain ⟨t1, t2, t3⟩ := fwdBody_tests hb
    refine ⟨h1, fun j hj => ?_, fun j hj => ?_⟩
    · rcases Nat.lt_succ_iff_lt_or_eq.1 hj with hj | rfl
      · rw [t3 j hj.ne]; exact h.next j hj
      · exact t2
    · rcases Nat.lt_succ_iff_lt_or_eq.1 hj with hj | rfl
      · have e : sumTo (fun j => (s'.datas j).2) (j + 1) = sumTo (fun j => (s.datas j).2) (j + 1) :=
          sumTo_congr fun i hi => by rw [t3 i (by omega)]
        rw [e]; exact h.sums j hj
      · rw [← h1.cost]; exact t1

/-- What a forward pass that does not throw has tested. -/
structure Tested (P : Prob K X DX U) (O : Oracle K X DX U L D) (s : St K X DX U L D) : Prop where
  next : ∀ t < P.T, O.badX (s.datas t).1 = false
  sums : ∀ t < P.T, O.bad (sumTo (fun j => (s.datas j).2) (t + 1)) = false
  total : O.bad s.costTry = false

theorem fwdTerm_tests {a : K} {contract : Bool} {s s' : St K X DX U L D}
    (h : fwdTerm P O kind a contract s = .ok () s') : O.bad s'.costTry = false ∧ s'.datas = s.datas := by
  by_cases hddp : kind = .ddp
  · subst hddp
    simp only [fwdTerm, Cpp.bind_apply, Cpp.pure_apply, Cpp.modify_apply, Cpp.get_apply,
      Cpp.throwIf_apply] at h
    by_cases h1 : O.bad (s.costTry + P.tcost (s.xsTry P.T)) = true
    · simp only [h1, if_true] at h
      cases h
    · simp only [h1, if_false] at h
      cases h
      exact ⟨by simpa using h1, rfl⟩
  · generalize hx : (if contract = true then P.tinteg s.xnext ((a - 1) • s.fs P.T) else s.xnext) = x
    have hstep : fwdTerm P O kind a contract s =
      (fun s' : St K X DX U L D => if O.bad s'.costTry then .throw s' else .ok () s')
      { s with xsTry := upd s.xsTry P.T x, tdata := P.tcost x, costTry := s.costTry + P.tcost x } := by
      cases kind <;> first | exact absurd rfl hddp | skip
      all_goals
        simp only [fwdTerm, Cpp.bind_apply, Cpp.modify_apply, hx, Cpp.get_apply,
          Cpp.throwIf_apply, upd_same]
    rw [hstep] at h
    dsimp only at h
    by_cases h1 : O.bad (s.costTry + P.tcost x) = true
    · rw [if_pos h1] at h
      cases h
    · rw [if_neg h1] at h
      cases h
      exact ⟨by simpa using h1, rfl⟩

theorem forwardPass_tests {a : K} {s0 s : St K X DX U L D} (h : forwardPass P O kind a s0 = .ok () s) :
    Tested P O s := by
  simp only [forwardPass, Cpp.bind_apply, Cpp.throwIf_apply] at h
  by_cases hr : (decide (a > 1) || decide (a < 0)) = true
  · simp only [hr, if_true] at h
    cases h
  · simp only [hr, if_false, Cpp.get_apply, Cpp.modify_apply, Bool.false_eq_true] at h
    generalize (!s0.feas && decide (a ≠ 1)) = opn at h
    generalize hs1 : ({ s0 with costTry := 0, xnext := if kind = .ddp then s0.xnext else P.x0 } : St K X DX U L D) = s1 at h
    have hinv0 : TestInv P O kind a (kind.feasibilityDriven && opn) s1 0 s1 := by
      refine ⟨⟨Frame.refl _, ⟨by simp, by simp, by simp⟩, by rw [← hs1]; rfl, ?_, fun _ => rfl⟩, by simp, by simp⟩
      rw [← hs1]
      by_cases e : kind = .ddp <;> simp [e, first, pred]
    have hl := Cpp.forLoop_inv (TestInv P O kind a (kind.feasibilityDriven && opn) s1) (fun _ => True)
      (fwdBody P O kind a (kind.feasibilityDriven && opn)) 0 P.T
      (fun t s _ _ h => fwdBody_testInv (O := O) a _ (by rintro rfl; rfl) s1 t s h) s1 hinv0
    cases hloop : Cpp.forLoop 0 P.T (fwdBody P O kind a (kind.feasibilityDriven && opn)) s1 with
    | ub => rw [hloop] at hl; exact hl.elim
    | throw s' => simp only [hloop] at h; cases h
    | ok u s' =>
      rw [hloop] at hl
      simp only [hloop] at h
      have hl : TestInv P O kind a (kind.feasibilityDriven && opn) s1 P.T s' := by
        simpa [Res.sat] using hl
      obtain ⟨t1, t2⟩ := fwdTerm_tests h
      exact ⟨by rw [t2]; exact hl.next, by rw [t2]; exact hl.sums, t1⟩

/-- A probed step length whose trial is available has passed the tests. -/
theorem probe_tests {a : K} {s sT : St K X DX U L D} {u : Unit} (h : probe P O kind a s = (some u, sT)) :
    Tested P O sT := by
  unfold probe at h
  simp only [tryStep, Cpp.bind_apply] at h
  cases hf : forwardPass P O kind a { s with steplength := a } with
  | ub => simp only [hf] at h; cases h
  | throw s' => simp only [hf] at h; cases h
  | ok u s' =>
    have ht := forwardPass_tests hf
    simp only [hf, Cpp.modify_apply] at h
    split at h <;>
    · simp only [Prod.mk.injEq] at h
      obtain ⟨-, rfl⟩ := h
      exact ⟨ht.next, ht.sums, ht.total⟩

/-- The two ways a line search ends, with the tests. -/
theorem lineSearch_tests (as : List K) (s : St K X DX U L D) :
    Keeps kind s (lineSearch P c O kind as s) ∨
    ∃ a ∈ as, ∃ sT, Probed P kind a s sT ∧ Tested P O sT ∧
      lineSearch P c O kind as s = accept kind sT := by
  induction as generalizing s with
  | nil => exact .inl (Keeps.refl s)
  | cons a as ih =>
    have h := probe_spec (P := P) (O := O) (kind := kind) a s
    simp only [lineSearch]
    rcases hp : probe P O kind a s with ⟨o, s'⟩
    rw [hp] at h
    cases o with
    | none =>
      simp only at h ⊢
      rcases ih s' with h' | ⟨b, hb, sT, h1, h2, h3⟩
      · exact .inl (h.trans h')
      · exact .inr ⟨b, List.mem_cons_of_mem _ hb, sT, h1.of_keeps h, h2, h3⟩
    | some u =>
      simp only at h ⊢
      by_cases hacc : accepts c kind s' = true
      · rw [if_pos hacc]
        exact .inr ⟨a, List.mem_cons_self, s', h, probe_tests hp, rfl⟩
      · rw [if_neg hacc]
        rcases ih s' with h' | ⟨b, hb, sT, h1, h2, h3⟩
        · exact .inl (h.keeps.trans h')
        · exact .inr ⟨b, List.mem_cons_of_mem _ hb, sT, h1.of_keeps h.keeps, h2, h3⟩

/-- Candidates that passed the tests. -/
def Good (P : Prob K X DX U) (O : Oracle K X DX U L D) (kind : Kind) (s : St K X DX U L D) : Prop :=
  Valid P O.bad O.badX s.xs s.us ∧ (s.feas = true → kind ≠ .boxDdp → ValidStates P O.badX s.xs)

theorem accept_good {a : K} {s sT : St K X DX U L D} (hp : Probed P kind a s sT) (ht : Tested P O sT) :
    Good P O kind (accept kind sT) := by
  have hd : ∀ t < P.T, sT.datas t = evalNode P t (sT.xsTry t) (sT.usTry t) := hp.core.nodes.data
  have hsum : ∀ n ≤ P.T, sumTo (fun j => (sT.datas j).2) n =
      ∑ j ∈ Finset.range n, (evalNode P j (sT.xsTry j) (sT.usTry j)).2 := fun n hn => by
    rw [sumTo_eq]
    exact Finset.sum_congr rfl fun j hj => by rw [hd j (by have := Finset.mem_range.1 hj; omega)]
  refine ⟨⟨fun t h => ?_, fun t h => ?_, ?_⟩, fun hf hb t h => ?_⟩
  · show O.badX (evalNode P t (sT.xsTry t) (sT.usTry t)).1 = false
    rw [← hd t h]; exact ht.next t h
  · show O.bad (∑ j ∈ Finset.range (t + 1), (evalNode P j (sT.xsTry j) (sT.usTry j)).2) = false
    rw [← hsum (t + 1) h]; exact ht.sums t h
  · show O.bad ((∑ j ∈ Finset.range P.T, (evalNode P j (sT.xsTry j) (sT.usTry j)).2) + P.tcost (sT.xsTry P.T)) = false
    rw [← hsum P.T le_rfl, ← hp.core.tdata_eq, ← hp.core.cost]; exact ht.total
  · have hc : kind = .ddp ∨ (!s.feas && decide (a ≠ 1)) = false := by
      have hf' : (if kind.feasibilityDriven then sT.feas || decide (sT.steplength = 1) else true) = true := hf
      rw [hp.keeps.feas, hp.steplength] at hf'
      cases kind with
      | ddp => exact .inl rfl
      | boxDdp => exact absurd rfl hb
      | fddp => right; revert hf'; cases s.feas <;> simp [Kind.feasibilityDriven]
      | boxFddp => right; revert hf'; cases s.feas <;> simp [Kind.feasibilityDriven]
    show O.badX (sT.xsTry (t + 1)) = false
    have hx : sT.xsTry (t + 1) = (sT.datas t).1 := by
      have h1 : (kind.feasibilityDriven && (!s.feas && decide (a ≠ 1))) = false := by
        rcases hc with rfl | h
        · rfl
        · rw [h]; simp
      have h2 : (decide (kind ≠ .ddp) && (!s.feas && decide (a ≠ 1))) = false := by
        rcases hc with rfl | h
        · rfl
        · rw [h]; simp
      have hn := hp.core.nodes.state
      have hl := hp.core.last
      rw [h1] at hn
      rw [h2] at hl
      rcases Nat.lt_or_eq_of_le (show t + 1 ≤ P.T from h) with h | h
      · simpa [pred] using hn (t + 1) h
      · rw [h, hl, ← h]; rfl
    rw [hx]; exact ht.next t h

theorem dirLoop_keeps {fuel : Nat} {s s' : St K X DX U L D} {b : Bool}
    (h : dirLoop P c O fuel s = some (b, s')) : s'.xs = s.xs ∧ s'.us = s.us ∧ s'.feas = s.feas := by
  induction fuel generalizing s with
  | zero => simp [dirLoop] at h
  | succ fuel ih =>
    have hd : (computeDirection P O s).2.xs = s.xs ∧ (computeDirection P O s).2.us = s.us ∧
        (computeDirection P O s).2.feas = s.feas := by
      unfold computeDirection
      by_cases hr : s.recalc = true
      · simp only [hr, if_true]
        unfold calcDiff
        by_cases h0 : s.iter = 0 <;> simp [h0, problemCalc]
      · simp [hr]
    simp only [dirLoop] at h
    split at h
    · simp only [Option.some.injEq, Prod.mk.injEq] at h
      obtain ⟨-, rfl⟩ := h
      exact hd
    · split at h
      · simp only [Option.some.injEq, Prod.mk.injEq] at h
        obtain ⟨-, rfl⟩ := h
        exact hd
      · obtain ⟨h1, h2, h3⟩ := ih h
        exact ⟨h1.trans hd.1, h2.trans hd.2.1, h3.trans hd.2.2⟩

/-- An iteration keeps the candidate or installs one that passed the tests. -/
theorem iteration_good {fuel : Nat} {s s' : St K X DX U L D} {e : Exit} {b : Bool}
    (h : iteration P c O kind fuel s = some (e, b, s')) :
    (s'.xs = s.xs ∧ s'.us = s.us ∧ s'.feas = s.feas) ∨ Good P O kind s' := by
  unfold iteration at h
  cases hd : dirLoop P c O fuel s with
  | none => rw [hd] at h; cases h
  | some r =>
    rcases r with ⟨ok, s1⟩
    have hk := dirLoop_keeps hd
    rw [hd] at h
    cases ok with
    | false =>
      simp only [Option.some.injEq, Prod.mk.injEq] at h
      obtain ⟨-, -, rfl⟩ := h
      exact .inl hk
    | true =>
      have hp : (prepare O kind s1).xs = s1.xs ∧ (prepare O kind s1).us = s1.us ∧
          (prepare O kind s1).feas = s1.feas := by
        unfold prepare
        split <;> exact ⟨rfl, rfl, rfl⟩
      have hls := lineSearch_tests (P := P) (c := c) (O := O) (kind := kind) c.alphas (prepare O kind s1)
      simp only at h
      generalize lineSearch P c O kind c.alphas (prepare O kind s1) = sl at h hls
      have key : s'.xs = sl.xs ∧ s'.us = sl.us ∧ s'.feas = sl.feas := by
        by_cases h1 : sl.steplength > c.thStepdec <;> simp only [h1, if_true, if_false] at h <;>
          repeat' split at h
        all_goals
          simp only [Option.some.injEq, Prod.mk.injEq] at h
          obtain ⟨-, -, rfl⟩ := h
          simp [stopping, increaseReg, decreaseReg]
      rcases hls with hls | ⟨a, -, sT, h1, h2, h3⟩
      · exact .inl ⟨key.1.trans (hls.xs.trans (hp.1.trans hk.1)), key.2.1.trans (hls.us.trans (hp.2.1.trans hk.2.1)),
          key.2.2.trans (hls.feas.trans (hp.2.2.trans hk.2.2))⟩
      · right
        have := accept_good h1 h2
        rw [← h3] at this
        unfold Good at this ⊢
        rw [key.1, key.2.1, key.2.2]; exact this

/-- A property of the candidate that iterations keep. -/
theorem iterLoop_keeps {Q : (Nat → X) → (Nat → U) → Bool → Prop} {fuel : Nat}
    (hQ : ∀ s e b s', iteration P c O kind fuel s = some (e, b, s') → Q s.xs s.us s.feas → Q s'.xs s'.us s'.feas)
    (n : Nat) (s : St K X DX U L D) (h : Q s.xs s.us s.feas) {o : Outcome K X DX U L D}
    (ho : iterLoop P c O kind fuel n s = some o) :
    Q o.final.xs o.final.us o.final.feas ∧ ∀ z ∈ o.trace, Q z.xs z.us z.feas := by
  induction n generalizing s o with
  | zero =>
    simp only [iterLoop, Option.some.injEq] at ho
    subst ho
    exact ⟨h, by simp⟩
  | succ n ih =>
    rw [iterLoop] at ho
    cases hi : iteration P c O kind fuel s with
    | none => rw [hi] at ho; cases ho
    | some r =>
      rcases r with ⟨e, b, s'⟩
      have hs' := hQ s e b s' hi h
      rw [hi] at ho
      cases e with
      | giveUp =>
        simp only [Option.some.injEq] at ho
        subst ho
        exact ⟨hs', by simp⟩
      | converged =>
        simp only [Option.some.injEq] at ho
        subst ho
        exact ⟨hs', by simpa using hs'⟩
      | «continue» =>
        simp only [Option.map_eq_some_iff] at ho
        obtain ⟨o', ho', rfl⟩ := ho
        obtain ⟨h1, h2⟩ := ih { s' with iter := s'.iter + 1 } hs' ho'
        refine ⟨h1, fun z hz => ?_⟩
        rcases List.mem_cons.1 hz with rfl | hz
        · exact hs'
        · exact h2 z hz

end
end Verif.Solve
