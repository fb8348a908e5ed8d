import Verif.Lemmas.Solve
import Mathlib.Algebra.Order.Archimedean.Basic
import Mathlib.Tactic.Linarith
import Mathlib.Tactic.Ring

/-! # Lemmas about the line search, the retry loop and the iterations of `solve` -/

set_option linter.unusedSectionVars false

namespace Verif.Solve
open Verif Verif.Solver

section
variable {K X DX U L D : Type}
variable [Field K] [LinearOrder K] [AddCommGroup DX] [Module K DX] [AddCommGroup U] [Module K U]
variable {P : Prob K X DX U} {c : Cfg K} {O : Oracle K X DX U L D} {kind : Kind}

/-- What a step that is not (yet) accepted preserves. -/
structure Keeps (kind : Kind) (s s' : St K X DX U L D) : Prop where
  xs : s'.xs = s.xs
  us : s'.us = s.us
  k : s'.k = s.k
  gain : s'.gain = s.gain
  fs : s'.fs = s.fs
  feas : s'.feas = s.feas
  wasFeas : s'.wasFeas = s.wasFeas
  cost : s'.cost = s.cost
  preg : s'.preg = s.preg
  iter : s'.iter = s.iter
  recalc : s'.recalc = s.recalc
  zero : kind = .ddp → s'.xsTry 0 = s.xsTry 0
  grad : kind.feasibilityDriven = false → s'.d0 = s.d0 ∧ s'.d1 = s.d1

theorem Keeps.refl (s : St K X DX U L D) : Keeps kind s s := by constructor <;> intros <;> simp

theorem Keeps.trans {s s' s'' : St K X DX U L D} (h : Keeps kind s s') (h' : Keeps kind s' s'') :
    Keeps kind s s'' where
  xs := h'.xs.trans h.xs
  us := h'.us.trans h.us
  k := h'.k.trans h.k
  gain := h'.gain.trans h.gain
  fs := h'.fs.trans h.fs
  feas := h'.feas.trans h.feas
  wasFeas := h'.wasFeas.trans h.wasFeas
  cost := h'.cost.trans h.cost
  preg := h'.preg.trans h.preg
  iter := h'.iter.trans h.iter
  recalc := h'.recalc.trans h.recalc
  zero e := (h'.zero e).trans (h.zero e)
  grad e := ⟨(h'.grad e).1.trans (h.grad e).1, (h'.grad e).2.trans (h.grad e).2⟩

theorem Frame.keeps {s s' : St K X DX U L D} (h : Frame s s')
    (h0 : kind = .ddp → s'.xsTry 0 = s.xsTry 0) : Keeps kind s s' := by
  unfold Frame at h
  constructor <;> first | exact h0 | (intro _; rw [h]; exact ⟨rfl, rfl⟩) | (rw [h])

/-- A probed step length whose trial is available in `sT`. -/
structure Probed (P : Prob K X DX U) (kind : Kind) (a : K) (s sT : St K X DX U L D) : Prop where
  keeps : Keeps kind s sT
  core : Core P kind a s.feas (first P kind s) s.xs s.us s.k s.gain s.fs
    sT.xsTry sT.usTry sT.datas sT.tdata sT.costTry
  steplength : sT.steplength = a
  dV : sT.dV = s.cost - sT.costTry
  dVexp : sT.dVexp = a * (sT.d0 + (1 / 2) * a * sT.d1)

theorem probe_spec (a : K) (s : St K X DX U L D) :
    match probe P O kind a s with
    | (none, s') => Keeps kind s s'
    | (some _, s') => Probed P kind a s s' := by
  have h := tryStep_spec (P := P) (O := O) (kind := kind) a { s with steplength := a }
  unfold probe
  simp only
  cases hf : tryStep P O kind a { s with steplength := a } with
  | ub => rw [hf] at h; exact h.elim
  | throw s' =>
    rw [hf] at h
    have hk := h.1.keeps h.2
    simp only
    exact ⟨hk.xs, hk.us, hk.k, hk.gain, hk.fs, hk.feas, hk.wasFeas, hk.cost, hk.preg, hk.iter, hk.recalc,
      hk.zero, hk.grad⟩
  | ok u s' =>
    rw [hf] at h
    obtain ⟨s1, ht, rfl⟩ := h
    have hk := ht.frame.keeps ht.zero
    have hst : s1.steplength = a := by rw [ht.frame]
    have hc : s1.cost = s.cost := hk.cost
    simp only
    cases hfd : kind.feasibilityDriven
    · simp only [Bool.false_eq_true, if_false]
      exact ⟨⟨hk.xs, hk.us, hk.k, hk.gain, hk.fs, hk.feas, hk.wasFeas, hk.cost, hk.preg, hk.iter, hk.recalc,
        hk.zero, hk.grad⟩, ht.core, hst, by rw [← hc], rfl⟩
    · simp only [if_true]
      exact ⟨⟨hk.xs, hk.us, hk.k, hk.gain, hk.fs, hk.feas, hk.wasFeas, hk.cost, hk.preg, hk.iter, hk.recalc,
        hk.zero, fun e => by simp [hfd] at e⟩, ht.core, hst, by rw [← hc], rfl⟩

/-- The trial does not depend on what `Keeps` preserves. -/
theorem Probed.of_keeps {a : K} {s s' sT : St K X DX U L D} (hk : Keeps kind s s')
    (h : Probed P kind a s' sT) : Probed P kind a s sT := by
  have hfirst : first P kind s' = first P kind s := by
    unfold first
    by_cases e : kind = .ddp
    · rw [if_pos e, if_pos e, hk.zero e]
    · rw [if_neg e, if_neg e]
  refine ⟨hk.trans h.keeps, ?_, h.steplength, ?_, h.dVexp⟩
  · have := h.core
    rw [hfirst, hk.feas, hk.xs, hk.us, hk.k, hk.gain, hk.fs] at this
    exact this
  · rw [h.dV, hk.cost]

/-- The two ways a line search ends. -/
theorem lineSearch_spec (as : List K) (s : St K X DX U L D) :
    Keeps kind s (lineSearch P c O kind as s) ∨
    ∃ a ∈ as, ∃ sT, Probed P kind a s sT ∧ accepts c kind sT = true ∧
      lineSearch P c O kind as s = accept kind sT := by
  induction as generalizing s with
  | nil => exact .inl (Keeps.refl s)
  | cons a as ih =>
    have h := probe_spec (P := P) (O := O) (kind := kind) a s
    simp only [lineSearch]
    rcases hp : probe P O kind a s with ⟨o, s'⟩
    rw [hp] at h
    cases o with
    | none =>
      simp only at h ⊢
      rcases ih s' with h' | ⟨b, hb, sT, h1, h2, h3⟩
      · exact .inl (h.trans h')
      · exact .inr ⟨b, List.mem_cons_of_mem _ hb, sT, h1.of_keeps h, h2, h3⟩
    | some u =>
      simp only at h ⊢
      by_cases hacc : accepts c kind s' = true
      · rw [if_pos hacc]
        exact .inr ⟨a, List.mem_cons_self, s', h, hacc, rfl⟩
      · rw [if_neg hacc]
        rcases ih s' with h' | ⟨b, hb, sT, h1, h2, h3⟩
        · exact .inl (h.keeps.trans h')
        · exact .inr ⟨b, List.mem_cons_of_mem _ hb, sT, h1.of_keeps h.keeps, h2, h3⟩

/-- The data hold the evaluation of the candidate. -/
def Matches (P : Prob K X DX U) (s : St K X DX U L D) : Prop :=
  (∀ t < P.T, s.datas t = (P.node t).eval (s.xs t) (s.us t)) ∧ s.tdata = P.tcost (s.xs P.T)

/-- The stored cost is that of the candidate. -/
def CostOk (P : Prob K X DX U) (s : St K X DX U L D) : Prop := s.cost = totalCost P s.xs s.us

/-- Precondition of `computeDirection`: either the data are going to be read and are right, or they are
not going to be read and the cost is right. -/
def DirPre (P : Prob K X DX U) (s : St K X DX U L D) : Prop :=
  if s.recalc then s.iter = 0 ∨ Matches P s else CostOk P s

theorem totalCost_of_matches {s : St K X DX U L D} (h : Matches P s) :
    sumTo (fun t => (s.datas t).2) P.T + s.tdata = totalCost P s.xs s.us := by
  rw [sumTo_eq, totalCost, h.2]
  congr 1
  exact Finset.sum_congr rfl fun t ht => by rw [h.1 t (Finset.mem_range.1 ht)]

theorem calcDiff_cost {s : St K X DX U L D} (h : s.iter = 0 ∨ Matches P s) : CostOk P (calcDiff P O s) := by
  unfold CostOk calcDiff
  by_cases h0 : s.iter = 0
  · simp only [h0, if_true]
    exact totalCost_of_matches (s := problemCalc P s) ⟨fun _ _ => rfl, rfl⟩
  · simp only [h0, if_false]
    exact totalCost_of_matches (h.resolve_left h0)

/-- What computing a direction keeps. -/
structure DirKeeps (s s' : St K X DX U L D) : Prop where
  xs : s'.xs = s.xs
  us : s'.us = s.us
  feas : s'.feas = s.feas
  wasFeas : s'.wasFeas = s.wasFeas
  iter : s'.iter = s.iter
  xsTry : s'.xsTry = s.xsTry

theorem DirKeeps.trans {s s' s'' : St K X DX U L D} (h : DirKeeps s s') (h' : DirKeeps s' s'') :
    DirKeeps s s'' :=
  ⟨h'.xs.trans h.xs, h'.us.trans h.us, h'.feas.trans h.feas, h'.wasFeas.trans h.wasFeas,
    h'.iter.trans h.iter, h'.xsTry.trans h.xsTry⟩

theorem computeDirection_spec {s : St K X DX U L D} (h : DirPre P s) :
    DirKeeps s (computeDirection P O s).2 ∧ CostOk P (computeDirection P O s).2 ∧
    (computeDirection P O s).2.preg = s.preg := by
  unfold DirPre at h
  unfold computeDirection
  simp only
  cases hr : s.recalc
  · rw [hr] at h
    simp only [Bool.false_eq_true, if_false] at h ⊢
    exact ⟨⟨rfl, rfl, rfl, rfl, rfl, rfl⟩, h, by trivial⟩
  · rw [hr] at h
    simp only [if_true] at h ⊢
    have hx : (calcDiff P O s).xs = s.xs ∧ (calcDiff P O s).us = s.us ∧ (calcDiff P O s).feas = s.feas ∧
        (calcDiff P O s).wasFeas = s.wasFeas ∧ (calcDiff P O s).iter = s.iter ∧
        (calcDiff P O s).xsTry = s.xsTry ∧ (calcDiff P O s).preg = s.preg := by
      unfold calcDiff
      by_cases h0 : s.iter = 0 <;> simp [h0, problemCalc]
    refine ⟨⟨hx.1, hx.2.1, hx.2.2.1, hx.2.2.2.1, hx.2.2.2.2.1, hx.2.2.2.2.2.1⟩, ?_, hx.2.2.2.2.2.2⟩
    exact calcDiff_cost h

theorem dirLoop_spec (fuel : Nat) {s : St K X DX U L D} (h : DirPre P s) {b : Bool}
    {s' : St K X DX U L D} (hr : dirLoop P c O fuel s = some (b, s')) :
    DirKeeps s s' ∧ CostOk P s' := by
  induction fuel generalizing s with
  | zero => simp [dirLoop] at hr
  | succ fuel ih =>
    obtain ⟨h1, h2, -⟩ := computeDirection_spec (O := O) h
    simp only [dirLoop] at hr
    split at hr
    · simp only [Option.some.injEq, Prod.mk.injEq] at hr
      obtain ⟨-, rfl⟩ := hr
      exact ⟨h1, h2⟩
    · have hk : DirKeeps s (increaseReg c { (computeDirection P O s).2 with recalc := false }) :=
        ⟨h1.xs, h1.us, h1.feas, h1.wasFeas, h1.iter, h1.xsTry⟩
      have hc : CostOk P (increaseReg c { (computeDirection P O s).2 with recalc := false }) := h2
      split at hr
      · simp only [Option.some.injEq, Prod.mk.injEq] at hr
        obtain ⟨-, rfl⟩ := hr
        exact ⟨hk, hc⟩
      · obtain ⟨h3, h4⟩ := ih (s := increaseReg c { (computeDirection P O s).2 with recalc := false })
          (by simpa [DirPre, increaseReg] using hc) hr
        exact ⟨hk.trans h3, h4⟩

/-- Exactness of an accepted trial: the solver marks it exact when it starts from `x0` and contracts no
gap. -/
theorem Core.rollout {a : K} {feas : Bool} {xs xsTry : Nat → X} {us k usTry : Nat → U}
    {gain : Nat → DX → U} {fs : Nat → DX} {datas : Nat → X × K} {tdata costTry : K}
    (hA : AutonomousOk P)
    (h : Core P kind a feas P.x0 xs us k gain fs xsTry usTry datas tdata costTry)
    (hex : kind = .ddp ∨ feas = true ∨ a = 1) : Rollout P xsTry usTry := by
  have hn : (kind.feasibilityDriven && (!feas && decide (a ≠ 1))) = false := by
    rcases hex with rfl | rfl | rfl <;> simp [Kind.feasibilityDriven]
  have hl : (decide (kind ≠ .ddp) && (!feas && decide (a ≠ 1))) = false := by
    rcases hex with rfl | rfl | rfl <;> simp
  have hnodes := h.nodes
  rw [hn] at hnodes
  have hlast := h.last
  rw [hl] at hlast
  simp only [Bool.false_eq_true, if_false] at hlast
  have hst : ∀ t ≤ P.T, xsTry t = pred P.x0 datas t := by
    intro t ht
    rcases Nat.lt_or_eq_of_le ht with ht | rfl
    · simpa using hnodes.state t ht
    · exact hlast
  refine ⟨by simpa [pred] using hst 0 (Nat.zero_le _), fun t ht => ?_⟩
  rw [hst (t + 1) ht]
  show (datas t).1 = _
  rw [hnodes.data t ht, nodeEval]
  split
  · rename_i hz; rw [hA t ht hz (xsTry t) (usTry t)]
  · rfl

/-- The data of a trial are its evaluation, and its cost is the total cost. -/
theorem Core.total {a : K} {feas : Bool} {x0 : X} {xs xsTry : Nat → X} {us k usTry : Nat → U}
    {gain : Nat → DX → U} {fs : Nat → DX} {datas : Nat → X × K} {tdata costTry : K}
    (hA : AutonomousOk P)
    (h : Core P kind a feas x0 xs us k gain fs xsTry usTry datas tdata costTry) :
    (∀ t < P.T, datas t = (P.node t).eval (xsTry t) (usTry t)) ∧ costTry = totalCost P xsTry usTry := by
  have hd : ∀ t < P.T, datas t = (P.node t).eval (xsTry t) (usTry t) := by
    intro t ht
    rw [h.nodes.data t ht, nodeEval]
    split
    · rename_i hz; exact hA t ht hz _ _
    · rfl
  refine ⟨hd, ?_⟩
  rw [h.cost, sumTo_eq, totalCost, h.tdata_eq]
  congr 1
  exact Finset.sum_congr rfl fun t ht => by rw [hd t (Finset.mem_range.1 ht)]

/-- Invariant between the iterations of `solve`; `exact?` is the assumption that the initial guess's
feasibility flag is honest. -/
structure Inv (P : Prob K X DX U) (kind : Kind) (s : St K X DX U L D) : Prop where
  pre : DirPre P s
  zero : kind = .ddp → s.xsTry 0 = P.x0
  was : s.wasFeas = true → s.feas = true ∧ Rollout P s.xs s.us

/-- After an iteration's line search. -/
structure Post (P : Prob K X DX U) (kind : Kind) (s : St K X DX U L D) : Prop where
  cost : CostOk P s
  data : s.recalc = true → Matches P s
  zero : kind = .ddp → s.xsTry 0 = P.x0
  was : s.wasFeas = true → s.feas = true ∧ Rollout P s.xs s.us

theorem Post.inv {s : St K X DX U L D} (h : Post P kind s) (n : Nat) : Inv P kind { s with iter := n } := by
  refine ⟨?_, h.zero, h.was⟩
  unfold DirPre
  cases hr : s.recalc
  · simp [hr]; exact h.cost
  · simp [hr]; exact .inr (h.data hr)

theorem first_eq {s : St K X DX U L D} (h : kind = .ddp → s.xsTry 0 = P.x0) : first P kind s = P.x0 := by
  unfold first
  by_cases e : kind = .ddp
  · rw [if_pos e, h e]
  · rw [if_neg e]

/-- The line search establishes the postcondition. -/
theorem lineSearch_post (hA : AutonomousOk P) (as : List K) {s : St K X DX U L D} (hc : CostOk P s)
    (hz : kind = .ddp → s.xsTry 0 = P.x0) (hr : s.recalc = false)
    (hw : s.wasFeas = true → s.feas = true ∧ Rollout P s.xs s.us) :
    Post P kind (lineSearch P c O kind as s) := by
  rcases lineSearch_spec (P := P) (c := c) (O := O) (kind := kind) as s with h | ⟨a, ha, sT, h1, h2, h3⟩
  · refine ⟨?_, ?_, ?_, ?_⟩
    · unfold CostOk; rw [h.cost, h.xs, h.us]; exact hc
    · intro e; rw [h.recalc, hr] at e; simp at e
    · intro e; rw [h.zero e]; exact hz e
    · rw [h.wasFeas, h.feas, h.xs, h.us]; exact hw
  · rw [h3]
    have hcore := h1.core
    rw [first_eq hz] at hcore
    obtain ⟨hd, htot⟩ := hcore.total hA
    refine ⟨htot, fun _ => ⟨hd, hcore.tdata_eq⟩, ?_, ?_⟩
    · intro e
      show sT.xsTry 0 = _
      rw [h1.keeps.zero e]; exact hz e
    · intro hwas
      have hf : s.feas = true := by
        have : sT.feas = true := hwas
        rwa [h1.keeps.feas] at this
      constructor
      · show (if kind.feasibilityDriven then sT.feas || decide (sT.steplength = 1) else true) = true
        rw [h1.keeps.feas, hf]; simp
      · exact hcore.rollout hA (.inr (.inl hf))

theorem Post.of_reg {s s' : St K X DX U L D} (h : Post P kind s) (e1 : s'.xs = s.xs) (e2 : s'.us = s.us)
    (e3 : s'.feas = s.feas) (e4 : s'.wasFeas = s.wasFeas) (e5 : s'.cost = s.cost)
    (e6 : s'.recalc = s.recalc) (e7 : s'.datas = s.datas) (e8 : s'.tdata = s.tdata)
    (e9 : s'.xsTry = s.xsTry) : Post P kind s' := by
  refine ⟨?_, ?_, ?_, ?_⟩
  · unfold CostOk; rw [e5, e1, e2]; exact h.cost
  · unfold Matches; rw [e6, e7, e1, e2, e8]; exact h.data
  · rw [e9]; exact h.zero
  · rw [e4, e3, e1, e2]; exact h.was

/-- What happens in one iteration. -/
theorem iteration_cases (fuel : Nat) (s : St K X DX U L D) {e : Exit} {b : Bool} {s' : St K X DX U L D}
    (hr : iteration P c O kind fuel s = some (e, b, s')) :
    (e = .giveUp ∧ b = false ∧ dirLoop P c O fuel s = some (false, s')) ∨
    ∃ s1, dirLoop P c O fuel s = some (true, s1) ∧
      let s2 := lineSearch P c O kind c.alphas (prepare O kind s1)
      (s'.xs = s2.xs ∧ s'.us = s2.us ∧ s'.feas = s2.feas ∧ s'.wasFeas = s2.wasFeas ∧ s'.cost = s2.cost ∧
        s'.recalc = s2.recalc ∧ s'.datas = s2.datas ∧ s'.tdata = s2.tdata ∧ s'.xsTry = s2.xsTry ∧
        s'.iter = s2.iter ∧ s'.d0 = s2.d0 ∧ s'.d1 = s2.d1 ∧ s'.dV = s2.dV ∧ s'.dVexp = s2.dVexp ∧
        s'.steplength = s2.steplength) ∧
      (e = .converged → s'.wasFeas = true ∧ s'.stop < c.thStop) ∧
      (e ≠ .giveUp → s'.stop = |s'.d0 + (1 / 2) * s'.d1|) := by
  unfold iteration at hr
  split at hr
  · simp at hr
  · rename_i s1 hd
    simp only [Option.some.injEq, Prod.mk.injEq] at hr
    obtain ⟨rfl, rfl, rfl⟩ := hr
    exact .inl ⟨rfl, rfl, hd⟩
  · rename_i s1 hd
    right
    refine ⟨s1, hd, ?_⟩
    generalize hls : lineSearch P c O kind c.alphas (prepare O kind s1) = s2 at hr ⊢
    simp only at hr ⊢
    generalize h3 : (if s2.steplength > c.thStepdec then decreaseReg c s2 else s2) = s3 at hr
    have k3 : s3 = { s2 with preg := s3.preg, dreg := s3.dreg } := by
      rw [← h3]; split <;> rfl
    generalize h4 : (if decide (s3.steplength ≤ c.thStepinc) = true then increaseReg c s3 else s3) = s4 at hr
    have k4 : s4 = { s2 with preg := s4.preg, dreg := s4.dreg } := by
      rw [← h4]; split
      · simp only [increaseReg]; rw [k3]
      · exact k3
    split at hr
    · simp only [Option.some.injEq, Prod.mk.injEq] at hr
      obtain ⟨rfl, -, rfl⟩ := hr
      rw [k4]
      simp
    · split at hr
      · rename_i hcv
        simp only [Option.some.injEq, Prod.mk.injEq] at hr
        obtain ⟨rfl, -, rfl⟩ := hr
        simp only [Bool.and_eq_true, decide_eq_true_eq] at hcv
        refine ⟨?_, fun _ => hcv, fun _ => rfl⟩
        simp only [stopping]; rw [k4]; simp
      · simp only [Option.some.injEq, Prod.mk.injEq] at hr
        obtain ⟨rfl, -, rfl⟩ := hr
        refine ⟨?_, by simp, fun _ => rfl⟩
        simp only [stopping]; rw [k4]; simp

/-- One iteration: invariant to postcondition. On an early exit from the retry loop only the cost is
known. -/
theorem iteration_post (hA : AutonomousOk P) (fuel : Nat) {s : St K X DX U L D} (h : Inv P kind s)
    {e : Exit} {b : Bool} {s' : St K X DX U L D}
    (hr : iteration P c O kind fuel s = some (e, b, s')) :
    CostOk P s' ∧ (s'.wasFeas = true → s'.feas = true ∧ Rollout P s'.xs s'.us) ∧ s'.iter = s.iter ∧
    (e ≠ .giveUp → Post P kind s' ∧ s'.stop = |s'.d0 + (1 / 2) * s'.d1|) ∧
    (e = .converged → s'.wasFeas = true ∧ s'.stop < c.thStop) := by
  rcases iteration_cases fuel s hr with ⟨rfl, rfl, hd⟩ | ⟨s1, hd, hs2, hcv, hst⟩
  · obtain ⟨hk, hc⟩ := dirLoop_spec fuel h.pre hd
    refine ⟨hc, ?_, hk.iter, by simp, by simp⟩
    rw [hk.wasFeas, hk.feas, hk.xs, hk.us]; exact h.was
  · obtain ⟨hk, hc⟩ := dirLoop_spec fuel h.pre hd
    have hp : Post P kind (lineSearch P c O kind c.alphas (prepare O kind s1)) := by
      have e1 : (prepare O kind s1).xs = s1.xs ∧ (prepare O kind s1).us = s1.us ∧
          (prepare O kind s1).cost = s1.cost ∧ (prepare O kind s1).xsTry = s1.xsTry ∧
          (prepare O kind s1).wasFeas = s1.wasFeas ∧ (prepare O kind s1).feas = s1.feas ∧
          (prepare O kind s1).recalc = false := by
        unfold prepare; cases kind.feasibilityDriven <;> simp
      obtain ⟨a1, a2, a3, a4, a5, a6, a7⟩ := e1
      apply lineSearch_post hA
      · unfold CostOk; rw [a3, a1, a2]; exact hc
      · intro e; rw [a4, hk.xsTry]; exact h.zero e
      · exact a7
      · rw [a5, a6, a1, a2, hk.wasFeas, hk.feas, hk.xs, hk.us]; exact h.was
    obtain ⟨e1, e2, e3, e4, e5, e6, e7, e8, e9, e10, -⟩ := hs2
    have hp' := hp.of_reg e1 e2 e3 e4 e5 e6 e7 e8 e9
    refine ⟨hp'.cost, hp'.was, ?_, fun hg => ⟨hp', hst hg⟩, hcv⟩
    rw [e10]
    have hit : (prepare O kind s1).iter = s1.iter := by
      unfold prepare; cases kind.feasibilityDriven <;> simp
    rcases lineSearch_spec (P := P) (c := c) (O := O) (kind := kind) c.alphas (prepare O kind s1) with
      hl | ⟨a, ha, sT, h1, h2, h3⟩
    · rw [hl.iter, hit, hk.iter]
    · rw [h3]; show sT.iter = _
      rw [h1.keeps.iter, hit, hk.iter]

/-- Relation between the candidates before and after an iteration. -/
structure StepRel (P : Prob K X DX U) (c : Cfg K) (kind : Kind) (s s' : St K X DX U L D) : Prop where
  /-- feasibility is never lost -/
  mono : s.feas = true → s'.feas = true
  /-- from a feasible candidate: nothing changed, or the gradient is small, or sufficient decrease -/
  dec : s.feas = true → (s'.xs = s.xs ∧ s'.us = s.us) ∨ |s'.d0| < c.thGrad ∨
    (0 ≤ s'.dVexp ∧ totalCost P s.xs s.us - totalCost P s'.xs s'.us > c.thAcceptstep * s'.dVexp)

theorem prepare_keeps (s : St K X DX U L D) :
    (prepare O kind s).xs = s.xs ∧ (prepare O kind s).us = s.us ∧ (prepare O kind s).feas = s.feas ∧
    (prepare O kind s).cost = s.cost ∧ (prepare O kind s).xsTry = s.xsTry ∧
    (prepare O kind s).iter = s.iter ∧ (prepare O kind s).preg = s.preg ∧
    (prepare O kind s).fs = s.fs := by
  unfold prepare; cases kind.feasibilityDriven <;> simp

theorem iteration_rel (hA : AutonomousOk P) (fuel : Nat) {s : St K X DX U L D} (h : Inv P kind s)
    {e : Exit} {b : Bool} {s' : St K X DX U L D}
    (hr : iteration P c O kind fuel s = some (e, b, s')) : StepRel P c kind s s' := by
  rcases iteration_cases fuel s hr with ⟨rfl, rfl, hd⟩ | ⟨s1, hd, hs2, -, -⟩
  · obtain ⟨hk, -⟩ := dirLoop_spec fuel h.pre hd
    exact ⟨fun e => by rw [hk.feas, e], fun _ => .inl ⟨hk.xs, hk.us⟩⟩
  · obtain ⟨hk, hc⟩ := dirLoop_spec fuel h.pre hd
    obtain ⟨e1, e2, e3, -, -, -, -, -, -, -, e4, e5, e6, e7, -⟩ := hs2
    obtain ⟨p1, p2, p3, p4, p5, p6, p7, -⟩ := prepare_keeps (O := O) (kind := kind) s1
    rcases lineSearch_spec (P := P) (c := c) (O := O) (kind := kind) c.alphas (prepare O kind s1) with
      hl | ⟨a, ha, sT, h1, h2, h3⟩
    · refine ⟨fun e => by rw [e3, hl.feas, p3, hk.feas, e], fun _ => .inl ⟨?_, ?_⟩⟩
      · rw [e1, hl.xs, p1, hk.xs]
      · rw [e2, hl.us, p2, hk.us]
    · rw [h3] at e1 e2 e3 e4 e5 e6 e7
      have hfT : sT.feas = s.feas := by rw [h1.keeps.feas, p3, hk.feas]
      refine ⟨fun e => ?_, fun hf => .inr ?_⟩
      · rw [e3]
        show (if kind.feasibilityDriven then sT.feas || decide (sT.steplength = 1) else true) = true
        rw [hfT, e]; simp
      · have hcore := h1.core
        rw [first_eq (by intro e; rw [p5, hk.xsTry]; exact h.zero e)] at hcore
        have htot := (hcore.total hA).2
        have hdV : sT.dV = totalCost P s.xs s.us - totalCost P s'.xs s'.us := by
          rw [h1.dV, p4, hc, hk.xs, hk.us, htot, e1, e2]; rfl
        have e4' : s'.d0 = sT.d0 := e4
        have e7' : s'.dVexp = sT.dVexp := e7
        rw [e4', e7', ← hdV]
        unfold accepts at h2
        rw [hfT, hf] at h2
        cases hkd : kind.feasibilityDriven
        · simp only [hkd, Bool.false_eq_true, if_false, Bool.and_eq_true, Bool.or_eq_true,
            decide_eq_true_eq, Bool.not_true, or_false] at h2
          exact h2.2.imp id fun h => ⟨h2.1, h⟩
        · simp only [hkd, if_true] at h2
          split at h2
          · rename_i h0
            simp only [Bool.or_eq_true, decide_eq_true_eq] at h2
            exact h2.imp id fun h => ⟨h0, h⟩
          · simp at h2

/-- Induction principle for the main loop. -/
theorem iterLoop_induct (hA : AutonomousOk P) (fuel n : Nat) {s : St K X DX U L D} (h : Inv P kind s)
    {o : Outcome K X DX U L D} (hr : iterLoop P c O kind fuel n s = some o) :
    o.trace.length ≤ n ∧
    (∀ s' ∈ o.trace, CostOk P s' ∧ (s'.wasFeas = true → s'.feas = true ∧ Rollout P s'.xs s'.us)) ∧
    (0 < n → CostOk P o.final) ∧
    (o.final.wasFeas = true → o.final.feas = true ∧ Rollout P o.final.xs o.final.us) ∧
    (o.ret = true → o.final.wasFeas = true ∧ o.final.stop < c.thStop ∧
      o.final.stop = |o.final.d0 + (1 / 2) * o.final.d1|) ∧
    List.IsChain (StepRel P c kind) (s :: o.trace ++ [o.final]) := by
  induction n generalizing s o with
  | zero =>
    simp only [iterLoop, Option.some.injEq] at hr
    subst hr
    refine ⟨le_rfl, by simp, by simp, h.was, by simp, ?_⟩
    simp only [List.cons_append, List.nil_append, List.isChain_cons_cons, List.isChain_singleton, and_true]
    exact ⟨id, fun _ => .inl ⟨rfl, rfl⟩⟩
  | succ n ih =>
    simp only [iterLoop] at hr
    split at hr
    · simp at hr
    · rename_i b s' hi
      simp only [Option.some.injEq] at hr
      subst hr
      obtain ⟨h1, h2, -⟩ := iteration_post hA fuel h hi
      refine ⟨by simp, by simp, fun _ => h1, h2, by simp, ?_⟩
      simp only [List.cons_append, List.nil_append, List.isChain_cons_cons, List.isChain_singleton, and_true]
      exact iteration_rel hA fuel h hi
    · rename_i b s' hi
      simp only [Option.some.injEq] at hr
      subst hr
      obtain ⟨h1, h2, -, h4, h5⟩ := iteration_post hA fuel h hi
      refine ⟨by simp, ?_, fun _ => h1, h2, fun _ => ⟨(h5 rfl).1, (h5 rfl).2, (h4 (by simp)).2⟩, ?_⟩
      · intro s'' hs; simp only [List.mem_singleton] at hs; subst hs; exact ⟨h1, h2⟩
      · simp only [List.cons_append, List.nil_append, List.isChain_cons_cons, List.isChain_singleton, and_true]
        exact ⟨iteration_rel hA fuel h hi, ⟨id, fun _ => .inl ⟨rfl, rfl⟩⟩⟩
    · rename_i b s' hi
      obtain ⟨h1, h2, -, h4, -⟩ := iteration_post hA fuel h hi
      cases hl : iterLoop P c O kind fuel n { s' with iter := s'.iter + 1 } with
      | none => rw [hl] at hr; simp at hr
      | some o' =>
        rw [hl] at hr
        simp only [Option.map_some, Option.some.injEq] at hr
        subst hr
        have hrel := iteration_rel hA fuel h hi
        obtain ⟨i1, i2, i3, i4, i5, i6⟩ := ih ((h4 (by simp)).1.inv _) hl
        refine ⟨by simpa using i1, ?_, ?_, i4, i5, ?_⟩
        · intro s'' hs
          rcases List.mem_cons.1 hs with rfl | hs
          · exact ⟨h1, h2⟩
          · exact i2 s'' hs
        · intro _
          cases n with
          | zero =>
            simp only [iterLoop, Option.some.injEq] at hl
            subst hl; exact h1
          | succ n => exact i3 (Nat.succ_pos _)
        · simp only [List.cons_append, List.isChain_cons_cons] at i6 ⊢
          refine ⟨hrel, ?_⟩
          rcases htr : o'.trace with _ | ⟨s2, tr⟩
          · rw [htr] at i6
            simp only [List.nil_append, List.isChain_cons_cons, List.isChain_singleton, and_true] at i6 ⊢
            exact ⟨i6.mono, i6.dec⟩
          · rw [htr] at i6
            simp only [List.cons_append, List.isChain_cons_cons] at i6 ⊢
            exact ⟨⟨i6.1.mono, i6.1.dec⟩, i6.2⟩

theorem start_inv (xs : Nat → X) (us : Nat → U) (feas : Bool) (regInit : Option K)
    (s : St K X DX U L D) : Inv P kind (start P c xs us feas regInit s) := by
  refine ⟨?_, fun _ => by simp [start], by simp [start]⟩
  simp [DirPre, start]

end

section termination
variable {K X DX U L D : Type}
variable [Field K] [LinearOrder K] [IsStrictOrderedRing K] [AddCommGroup DX] [Module K DX]
variable [AddCommGroup U] [Module K U]
variable {P : Prob K X DX U} {c : Cfg K} {O : Oracle K X DX U L D} {kind : Kind}

theorem increase_pos {r : Reg K} (hinc : 1 < r.inc) (hmax : 0 < r.max) {p : K} (hp : 0 < p) :
    0 < increase r p := by
  simp only [increase]; split
  · exact hmax
  · exact mul_pos hp (zero_lt_one.trans hinc)

theorem decrease_pos {r : Reg K} (hdec : 1 < r.dec) {p : K} (hp : 0 < p) : 0 < decrease r p := by
  have := div_pos hp (zero_lt_one.trans hdec)
  simp only [decrease]; split
  · rename_i h; exact this.trans h
  · exact this

theorem computeDirection_preg (s : St K X DX U L D) : (computeDirection P O s).2.preg = s.preg := by
  unfold computeDirection calcDiff problemCalc
  simp only
  split
  · split <;> rfl
  · rfl

theorem dirLoop_ends [Archimedean K] (hinc : 1 < c.reg.inc) (hmax : 0 < c.reg.max)
    (s : St K X DX U L D) (hp : 0 < s.preg) :
    ∃ fuel b s', dirLoop P c O fuel s = some (b, s') ∧ 0 < s'.preg := by
  obtain ⟨n, hn⟩ := pow_unbounded_of_one_lt (c.reg.max / s.preg) hinc
  have hn' : c.reg.max < s.preg * c.reg.inc ^ n := by
    rw [div_lt_iff₀ hp] at hn; linarith
  clear hn
  induction n generalizing s with
  | zero =>
    refine ⟨1, ?_⟩
    simp only [dirLoop]
    split
    · exact ⟨_, _, rfl, by rw [computeDirection_preg]; exact hp⟩
    · have hpr : (increaseReg c { (computeDirection P O s).2 with recalc := false }).preg = c.reg.max := by
        simp only [increaseReg, increase, computeDirection_preg]
        rw [if_pos]
        have := lt_mul_of_one_lt_right hp hinc
        simp at hn'; linarith
      rw [if_pos hpr]
      exact ⟨_, _, rfl, by rw [hpr]; exact hmax⟩
  | succ n ih =>
    by_cases hs : (computeDirection P O s).1 = true
    · exact ⟨1, _, _, by simp only [dirLoop, hs, if_true]; rfl, by rw [computeDirection_preg]; exact hp⟩
    · generalize hs1 : increaseReg c { (computeDirection P O s).2 with recalc := false } = s1
      have hpr : s1.preg = increase c.reg s.preg := by
        rw [← hs1]; simp only [increaseReg, computeDirection_preg]
      have hp1 : 0 < s1.preg := by rw [hpr]; exact increase_pos hinc hmax hp
      by_cases hm : s1.preg = c.reg.max
      · refine ⟨1, false, s1, ?_, hp1⟩
        simp only [dirLoop, hs, hs1, hm, if_true, Bool.false_eq_true, if_false]
      · have hlt : c.reg.max < s1.preg * c.reg.inc ^ n := by
          rw [hpr] at hm ⊢
          simp only [increase] at hm ⊢
          split at hm
          · exact absurd rfl hm
          · rename_i hle
            rw [if_neg hle]
            rw [pow_succ] at hn'
            linarith [show s.preg * c.reg.inc * c.reg.inc ^ n = s.preg * (c.reg.inc ^ n * c.reg.inc) by ring]
        obtain ⟨fuel, b, s', h1, h2⟩ := ih s1 hp1 hlt
        refine ⟨fuel + 1, b, s', ?_, h2⟩
        simp only [dirLoop, hs, hs1, hm, if_false, Bool.false_eq_true]
        exact h1

theorem dirLoop_mono {fuel fuel' : Nat} (hf : fuel ≤ fuel') {s : St K X DX U L D}
    {r : Bool × St K X DX U L D} (h : dirLoop P c O fuel s = some r) : dirLoop P c O fuel' s = some r := by
  induction fuel generalizing s fuel' with
  | zero => simp [dirLoop] at h
  | succ fuel ih =>
    obtain ⟨f, rfl⟩ : ∃ f, fuel' = f + 1 := ⟨fuel' - 1, by omega⟩
    simp only [dirLoop] at h ⊢
    split at h
    · rename_i e; rw [if_pos e]; exact h
    · rename_i e; rw [if_neg e]
      split at h
      · rename_i e'; rw [if_pos e']; exact h
      · rename_i e'; rw [if_neg e']; exact ih (by omega) h

theorem iteration_mono {fuel fuel' : Nat} (hf : fuel ≤ fuel') {s : St K X DX U L D}
    {r : Exit × Bool × St K X DX U L D} (h : iteration P c O kind fuel s = some r) :
    iteration P c O kind fuel' s = some r := by
  unfold iteration at h ⊢
  cases hd : dirLoop P c O fuel s with
  | none => rw [hd] at h; simp at h
  | some r' => rw [hd] at h; rw [dirLoop_mono hf hd]; exact h

theorem iterLoop_mono {fuel fuel' : Nat} (hf : fuel ≤ fuel') (n : Nat) {s : St K X DX U L D}
    {o : Outcome K X DX U L D} (h : iterLoop P c O kind fuel n s = some o) :
    iterLoop P c O kind fuel' n s = some o := by
  induction n generalizing s o with
  | zero => exact h
  | succ n ih =>
    simp only [iterLoop] at h ⊢
    cases hi : iteration P c O kind fuel s with
    | none => rw [hi] at h; simp at h
    | some r =>
      rw [hi] at h; rw [iteration_mono hf hi]
      obtain ⟨e, b, s'⟩ := r
      cases e <;> simp only at h ⊢
      · exact h
      · exact h
      · cases hl : iterLoop P c O kind fuel n { s' with iter := s'.iter + 1 } with
        | none => rw [hl] at h; simp at h
        | some o' => rw [hl] at h; rw [ih hl]; exact h

theorem iteration_ends [Archimedean K] (hinc : 1 < c.reg.inc) (hdec : 1 < c.reg.dec)
    (hmax : 0 < c.reg.max) (s : St K X DX U L D) (hp : 0 < s.preg) :
    ∃ fuel e b s', iteration P c O kind fuel s = some (e, b, s') ∧ 0 < s'.preg := by
  obtain ⟨fuel, b, s1, hd, hp1⟩ := dirLoop_ends (P := P) (O := O) hinc hmax s hp
  refine ⟨fuel, ?_⟩
  unfold iteration
  rw [hd]
  cases b
  · exact ⟨_, _, _, rfl, hp1⟩
  · simp only
    have hls : 0 < (lineSearch P c O kind c.alphas (prepare O kind s1)).preg := by
      obtain ⟨-, -, -, -, -, -, p7, -⟩ := prepare_keeps (O := O) (kind := kind) s1
      rcases lineSearch_spec (P := P) (c := c) (O := O) (kind := kind) c.alphas (prepare O kind s1) with
        hl | ⟨a, ha, sT, h1, h2, h3⟩
      · rw [hl.preg, p7]; exact hp1
      · rw [h3]; show 0 < sT.preg
        rw [h1.keeps.preg, p7]; exact hp1
    generalize lineSearch P c O kind c.alphas (prepare O kind s1) = s2 at hls
    generalize h3 : (if s2.steplength > c.thStepdec then decreaseReg c s2 else s2) = s3
    have hp3 : 0 < s3.preg := by
      rw [← h3]; split
      · exact decrease_pos hdec hls
      · exact hls
    generalize h4 : (if decide (s3.steplength ≤ c.thStepinc) = true then increaseReg c s3 else s3) = s4
    have hp4 : 0 < s4.preg := by
      rw [← h4]; split
      · exact increase_pos hinc hmax hp3
      · exact hp3
    split
    · exact ⟨_, _, _, rfl, hp4⟩
    · split
      · exact ⟨_, _, _, rfl, hp4⟩
      · exact ⟨_, _, _, rfl, hp4⟩

theorem iterLoop_ends [Archimedean K] (hinc : 1 < c.reg.inc) (hdec : 1 < c.reg.dec)
    (hmax : 0 < c.reg.max) (n : Nat) (s : St K X DX U L D) (hp : 0 < s.preg) :
    ∃ fuel o, iterLoop P c O kind fuel n s = some o := by
  induction n generalizing s with
  | zero => exact ⟨0, _, rfl⟩
  | succ n ih =>
    obtain ⟨f1, e, b, s', hi, hp'⟩ := iteration_ends (P := P) (O := O) (kind := kind) hinc hdec hmax s hp
    obtain ⟨f2, o, ho⟩ := ih { s' with iter := s'.iter + 1 } hp'
    refine ⟨max f1 f2, ?_⟩
    simp only [iterLoop]
    rw [iteration_mono (le_max_left f1 f2) hi]
    cases e
    · exact ⟨_, rfl⟩
    · exact ⟨_, rfl⟩
    · simp only
      rw [iterLoop_mono (le_max_right f1 f2) n ho]
      exact ⟨_, rfl⟩

end termination
end Verif.Solve
