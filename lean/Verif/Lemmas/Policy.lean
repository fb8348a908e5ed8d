import Verif.Spec.Policy
import Verif.Lemmas.LqSolve
import Verif.Lemmas.LqFddp

set_option linter.unusedSectionVars false

/-! # Lemmas: gains after an iteration -/

namespace Verif.Solve
open Verif.Solver (increase decrease)
section
variable {K X DX U L D : Type}
variable [Field K] [LinearOrder K] [AddCommGroup DX] [Module K DX] [AddCommGroup U] [Module K U]
variable {P : Prob K X DX U} {c : Cfg K} {O : Oracle K X DX U L D} {kind : Kind}

theorem probe_keeps_dir (a : K) (s : St K X DX U L D) : (probe P O kind a s).2.dir = s.dir := by
  have h := tryStep_spec (P := P) (O := O) (kind := kind) a { s with steplength := a }
  unfold probe
  simp only
  cases hf : tryStep P O kind a { s with steplength := a } with
  | ub => rw [hf] at h
  | throw s' =>
    rw [hf] at h
    have := h.1
    unfold Frame at this
    rw [this]
  | ok u s' =>
    rw [hf] at h
    obtain ⟨s1, ht, rfl⟩ := h
    have hd : s1.dir = s.dir := by
      have := ht.frame
      unfold Frame at this
      rw [this]
    simp only
    split <;> exact hd

theorem lineSearch_dir (as : List K) (s : St K X DX U L D) : (lineSearch P c O kind as s).dir = s.dir := by
  induction as generalizing s with
  | nil => rfl
  | cons a as ih =>
    have h := probe_keeps_dir (P := P) (O := O) (kind := kind) a s
    simp only [lineSearch]
    rcases hp : probe P O kind a s with ⟨o, s'⟩
    rw [hp] at h
    cases o with
    | none => exact (ih s').trans h
    | some u =>
      simp only
      split
      · exact h
      · exact (ih s').trans h

theorem lineSearch_keeps (as : List K) (s : St K X DX U L D) :
    (lineSearch P c O kind as s).gain = s.gain ∧ (lineSearch P c O kind as s).k = s.k ∧
    (lineSearch P c O kind as s).preg = s.preg := by
  rcases lineSearch_spec (P := P) (c := c) (O := O) (kind := kind) as s with h | ⟨a, _, sT, h, _, he⟩
  · exact ⟨h.gain, h.k, h.preg⟩
  · rw [he]; exact ⟨h.keeps.gain, h.keeps.k, h.keeps.preg⟩

/-- Gains, value function and regularisation after an iteration. -/
theorem iteration_after {fuel : Nat} {s s' : St K X DX U L D} {e : Exit} {b : Bool}
    (h : iteration P c O kind fuel s = some (e, b, s')) :
    ∃ ok s1, dirLoop P c O fuel s = some (ok, s1) ∧ s'.gain = s1.gain ∧ s'.k = s1.k ∧
      (ok = true → s'.dir = (prepare O kind s1).dir ∧
        (s'.preg = s1.preg ∨ s'.preg = decrease c.reg s1.preg ∨ s'.preg = increase c.reg s1.preg ∨
          s'.preg = increase c.reg (decrease c.reg s1.preg))) := by
  unfold iteration at h
  cases hd : dirLoop P c O fuel s with
  | none => rw [hd] at h; cases h
  | some r =>
    rcases r with ⟨ok, s1⟩
    rw [hd] at h
    refine ⟨ok, s1, rfl, ?_⟩
    cases ok with
    | false =>
      simp only [Option.some.injEq, Prod.mk.injEq] at h
      obtain ⟨-, -, rfl⟩ := h
      exact ⟨rfl, rfl, fun e => by cases e⟩
    | true =>
      have hp : (prepare O kind s1).gain = s1.gain ∧ (prepare O kind s1).k = s1.k ∧ (prepare O kind s1).preg = s1.preg := by
        unfold prepare
        split <;> exact ⟨rfl, rfl, rfl⟩
      obtain ⟨l1, l2, l3⟩ := lineSearch_keeps (P := P) (c := c) (O := O) (kind := kind) c.alphas (prepare O kind s1)
      have l4 := lineSearch_dir (P := P) (c := c) (O := O) (kind := kind) c.alphas (prepare O kind s1)
      rw [hp.1] at l1; rw [hp.2.1] at l2; rw [hp.2.2] at l3
      simp only at h
      generalize lineSearch P c O kind c.alphas (prepare O kind s1) = sl at h l1 l2 l3 l4
      have key : s'.gain = sl.gain ∧ s'.k = sl.k ∧ s'.dir = sl.dir ∧
          (s'.preg = sl.preg ∨ s'.preg = decrease c.reg sl.preg ∨ s'.preg = increase c.reg sl.preg ∨
          s'.preg = increase c.reg (decrease c.reg sl.preg)) := by
        by_cases h1 : sl.steplength > c.thStepdec <;> simp only [h1, if_true, if_false] at h <;>
          repeat' split at h
        all_goals
          simp only [Option.some.injEq, Prod.mk.injEq] at h
          obtain ⟨-, -, rfl⟩ := h
          simp [stopping, increaseReg, decreaseReg]
      rw [l1, l2, l3, l4] at key
      exact ⟨key.1, key.2.1, fun _ => key.2.2⟩

end
end Verif.Solve

namespace Verif.Lq
open Verif Verif.Solve Matrix
open Verif.Solver (increase decrease)

variable {K : Type} [Field K] [LinearOrder K] [IsStrictOrderedRing K] {n m : Nat}
variable {P : LqProb K n (fun _ => m)} {llt : ∀ m, Matrix (Fin m) (Fin m) K → Bool} {kind : Kind}

/-- The gains after an iteration on a convex linear-quadratic problem. -/
theorem iteration_gain (h : ConvexLq P) (hl : LltComplete llt) {c : Cfg K} {s s' : LqSt K n m} {e : Exit} {b : Bool}
    {fuel : Nat} {g : Arrays K n (fun _ => m)}
    (hit : iteration P.toProb c (oracle P llt kind) kind (fuel + 1) s = some (e, b, s'))
    (hp : 0 ≤ s.preg) (hr : s.recalc = true) (hmt : s.iter = 0 ∨ Matches P.toProb s)
    (hg : backwardOn P llt (some s.preg) s.feas s.xs s.us s.dir = some g) :
    s'.gain = (fun t dx => (g.out t).Kfb *ᵥ dx) ∧ s'.dir = g ∧
    (c.reg.min = 0 → 0 ≤ c.reg.max → s.preg = 0 → s'.preg = 0) := by
  have hreg : c.reg.min = 0 → 0 ≤ c.reg.max → decrease c.reg 0 = 0 ∧ increase c.reg 0 = 0 := fun h1 h2 => by
    simp [decrease, increase, h1, h2]
  obtain ⟨ok, s1, hd, h1, -, h3⟩ := iteration_after hit
  cases hkf : kind.feasibilityDriven with
  | false =>
    obtain ⟨s1', g', hdir, hrd⟩ := direction_ready (c := c) hkf h hl hp hr hmt fuel
    rw [hdir, Option.some.injEq, Prod.mk.injEq] at hd
    obtain ⟨rfl, rfl⟩ := hd
    have hgg : g' = g := by have := hrd.back; rw [hg] at this; exact (Option.some.inj this).symm
    subst hgg
    obtain ⟨h4, h5⟩ := h3 rfl
    have e1 : s1'.gain = (prepare (oracle P llt kind) kind s1').gain := by simp [prepare, hkf]
    have e2 : s1'.preg = (prepare (oracle P llt kind) kind s1').preg := by simp [prepare, hkf]
    refine ⟨by rw [h1, e1, hrd.gain], by rw [h4, hrd.dir], fun m1 m2 h0 => ?_⟩
    obtain ⟨r1, r2⟩ := hreg m1 m2
    rw [e2, hrd.preg, h0] at h5
    rcases h5 with h5 | h5 | h5 | h5 <;> rw [h5] <;> simp [r1, r2]
  | true =>
    obtain ⟨s1', g', hdir, hrd⟩ := direction_readyF (c := c) hkf h hl hp hr hmt fuel
    rw [hdir, Option.some.injEq, Prod.mk.injEq] at hd
    obtain ⟨rfl, rfl⟩ := hd
    have hgg : g' = g := by have := hrd.back; rw [hg] at this; exact (Option.some.inj this).symm
    subst hgg
    obtain ⟨h4, h5⟩ := h3 rfl
    have e1 : s1'.gain = (prepare (oracle P llt kind) kind s1').gain := by simp [prepare, hkf]
    have e2 : s1'.preg = (prepare (oracle P llt kind) kind s1').preg := by simp [prepare, hkf]
    refine ⟨by rw [h1, e1, hrd.gain], by rw [h4, hrd.dir], fun m1 m2 h0 => ?_⟩
    obtain ⟨r1, r2⟩ := hreg m1 m2
    rw [e2, hrd.preg, h0] at h5
    rcases h5 with h5 | h5 | h5 | h5 <;> rw [h5] <;> simp [r1, r2]

/-- The policy around the trajectory of a full step is the policy of the backward pass, and it is optimal. -/
theorem policy_optimal {p : Option K} {feas : Bool} {xs xs' : Nat → Fin n → K} {us us' : Nat → Fin m → K}
    {s g : Arrays K n (fun _ => m)} (hb : backwardOn P llt p feas xs us s = some g) (hs : Symmetric P)
    (hl : LltSound llt) (hp : p = none ∨ p = some 0) (hf : feas = true → ∀ t ≤ P.T, gaps P xs us t = 0)
    (hcl : ClosedLoop P xs us g 1 xs' us') :
    PolicyOptimal P xs' us' (fun t dx => (g.out t).Kfb *ᵥ dx) := by
  intro t ht x ys vs hv ws
  have hB : BackLq P llt p feas xs us g := backwardPass_spec hb
  have htr : ∀ i, t + i ≤ P.T → traj P vs t x i = ys (t + i) := by
    intro i
    induction i with
    | zero => intro _; exact hv.init.symm
    | succ i ih =>
      intro hi
      rw [traj, ih (by omega)]
      exact (hv.step (t + i) (by omega) (by omega)).symm
  have h0 : along P (excess xs us g vs) vs t x = 0 := by
    refine Finset.sum_eq_zero fun i hi => ?_
    have hi := Finset.mem_range.mp hi
    have : dev xs us g vs (t + i) (traj P vs t x i) = 0 := by
      unfold dev
      rw [htr i (by omega), hv.control (t + i) (by omega) (by omega), hcl.control (t + i) (by omega)]
      simp only [mulVec_sub, one_smul]
      abel
    unfold excess
    rw [this]
    simp
  rw [costToGo_value hB hs hl hp hf vs t ht, costToGo_value hB hs hl hp hf ws t ht, h0]
  have := along_nonneg hB hs hl ws t x
  linarith

/-- One iteration of any of the four solvers. -/
theorem iteration_lq (hm : 0 < m) (h : ConvexLq P) (hl : LltComplete llt) (hls : LltSound llt)
    {c : Cfg K} {as : List K} (hal : c.alphas = 1 :: as) (hacc : c.thAcceptstep < 1)
    (hneg : kind.feasibilityDriven = true → 1 < c.thAcceptnegstep) (hgr : 0 < c.thGrad)
    (hinc : c.thStepinc < 1) (hmin : 0 ≤ c.reg.min) {s : LqSt K n m} (hp : s.preg = 0)
    (hr : s.recalc = true) (hmt : s.iter = 0 ∨ Matches P.toProb s) (hx0 : kind.feasibilityDriven = false → s.xsTry 0 = P.x0)
    (hf : s.feas = true → Rollout P.toProb s.xs s.us)
    (hne : kind.feasibilityDriven = true → s.feas = true ∨
        ¬ IsLeast (Set.range (total P)) (totalCost P.toProb s.xs s.us)) (fuel : Nat) :
    ∃ e s' g, iteration P.toProb c (oracle P llt kind) kind (fuel + 1) s = some (e, true, s') ∧
      backwardOn P llt (some 0) s.feas s.xs s.us s.dir = some g ∧
      ClosedLoop P s.xs s.us g 1 s'.xs s'.us ∧ Rollout P.toProb s'.xs s'.us ∧ s'.feas = true ∧
      s'.recalc = true ∧ Matches P.toProb s' ∧ (kind.feasibilityDriven = false → s'.xsTry 0 = P.x0) ∧
      e ≠ .giveUp ∧ s'.gain = (fun t dx => (g.out t).Kfb *ᵥ dx) ∧ s'.dir = g ∧
      (c.reg.min = 0 → 0 ≤ c.reg.max → s'.preg = 0) ∧
      PolicyOptimal P s'.xs s'.us s'.gain := by
  have hp' : 0 ≤ s.preg := hp.ge
  cases hkf : kind.feasibilityDriven with
  | false =>
    obtain ⟨e, s', g, hit, hb, hcl, hro, hfe, hrec, -, hmt', hx0', -, he⟩ :=
      iteration_ddp hkf hm h hl hls hal hacc hgr hinc hmin hp' hr hmt (hx0 hkf) hf (.inr (.inl hp)) fuel
    obtain ⟨k1, k2, k3⟩ := iteration_gain h hl hit hp' hr hmt hb
    rw [hp] at hb
    refine ⟨e, s', g, hit, hb, hcl, hro, hfe, hrec, hmt', fun _ => hx0', ?_, k1, k2, fun a b => k3 a b hp, ?_⟩
    · rw [he]; split <;> exact fun h => by cases h
    · rw [k1]; exact policy_optimal hb h.symm hls (.inr rfl) (fun e => gaps_of_rollout (hf e)) hcl
  | true =>
    obtain ⟨e, s', g, hit, hb, hcl, hro, hfe, hrec, -, hmt', -, he, -⟩ :=
      iteration_fddp hkf hm h hl hls hal hacc (hneg hkf) hgr hinc hmin hp' hr hmt hf (.inl ⟨hp, hne hkf⟩) fuel
    obtain ⟨k1, k2, k3⟩ := iteration_gain h hl hit hp' hr hmt hb
    rw [hp] at hb
    refine ⟨e, s', g, hit, hb, hcl, hro, hfe, hrec, hmt', (fun h => by cases h), he, k1, k2, fun a b => k3 a b hp, ?_⟩
    rw [k1]; exact policy_optimal hb h.symm hls (.inr rfl) (fun e => gaps_of_rollout (hf e)) hcl

end Verif.Lq
