import Verif.Props.BoxNl

/-! # C140: the predicted improvement of the box solvers can exceed the slope -/

set_option linter.unusedSectionVars false

namespace Verif.Nl.Overshoot
open Verif Verif.Solve Verif.Lq Matrix
open Verif.Lq.BoxDemo (cfg)

/-- One node with two coupled controls, cost `½ u₀² + h u₀ u₁ + ½ u₁² - 0.9959 u₀ - u₁` with `h = 0.9999`. -/
def prob : LqProb ℚ 1 (fun _ => 2) where
  T := 1
  node := fun _ => ⟨fun _ _ => 0, fun _ => ![0, 0], fun _ => 0, fun _ _ => 0, ![![1, 9999 / 10000], ![9999 / 10000, 1]], fun _ => ![0, 0],
    fun _ => 0, ![-9959 / 10000, -1]⟩
  term := ⟨fun _ _ => 1, fun _ i => i.elim0, fun _ => 0, fun _ _ => 0, fun i => i.elim0, fun _ i => i.elim0, fun _ => 0, fun i => i.elim0⟩
  x0 := fun _ => 0

/-- Limits `[-20, 20]` and `[-100, 100]`. -/
def lim : CtrlLimits ℚ 2 where
  has := fun _ => true
  lb := fun _ => ![-20, -100]
  ub := fun _ => ![20, 100]

/-- The box solvers with default parameters. -/
noncomputable abbrev ora (kind : Kind) :=
  boxOracle prob lim Lq.BoxDemo.noLlt BoxQp.Demo.fac (BoxQp.Demo.params 100 (1 / 10 ^ 5) 0) kind

/-- `solve` with the feasible guess of zero controls: the state in which the first iteration starts. -/
noncomputable abbrev s1 := start (prob.toProbBox lim) cfg (fun _ _ => 0) (fun _ _ => 0) true none Clamped.new

/-- What the first iteration knows when its line search starts. -/
structure Directed (s : St ℚ (Fin 1 → ℚ) (Fin 1 → ℚ) (Fin 2 → ℚ) (Lin ℚ 1 2) (BoxDir ℚ 1 2)) : Prop where
  xs : s.xs = fun _ _ => 0
  us : s.us = fun _ _ => 0
  feas : s.feas = true
  cost : s.cost = 0
  gain : ∀ t dx, s.gain t dx = (s.dir.arr.out t).Kfb *ᵥ dx
  conv : s.dir.conv = true
  k0 : s.k 0 0 = 20
  k1 : 20997 / 1000 < -s.k 0 1 ∧ -s.k 0 1 < 20999 / 1000
  exp : 20 < (expectedImprovement 1 s.dir.arr).1 ∧ -2 < (expectedImprovement 1 s.dir.arr).2

set_option maxHeartbeats 1000000 in
theorem directed {kind : Kind} (hk : kind.box = true) : ∃ s2, dirLoop (prob.toProbBox lim) cfg (ora kind) 40 s1 = some (true, s2) ∧ Directed s2 := by
  have h : (dirLoop (prob.toProbBox lim) cfg (ora kind) 40 s1).any (fun r => r.1 &&
      decide (r.2.cost = 0) && r.2.dir.conv && decide (r.2.k 0 0 = 20) && decide (20997 / 1000 < -r.2.k 0 1 ∧ -r.2.k 0 1 < 20999 / 1000) &&
      decide (20 < (expectedImprovement 1 r.2.dir.arr).1 ∧ -2 < (expectedImprovement 1 r.2.dir.arr).2)) = true := by
    cases kind
    case ddp => simp [Kind.box] at hk
    case fddp => simp [Kind.box] at hk
    case boxDdp => decide +kernel
    case boxFddp => decide +kernel
  obtain ⟨⟨b, s2⟩, h1, h2⟩ := Lq.BoxDemo.exists_of_check h
  simp only [Bool.and_eq_true, decide_eq_true_eq] at h2
  obtain ⟨⟨⟨⟨⟨rfl, h3⟩, h4⟩, h5⟩, h6⟩, h7⟩ := h2
  obtain ⟨g1, g2, g3, g4⟩ := dirLoop_found h1
  exact ⟨s2, h1, g2, g3, g4, h3, g1, h4, h5, h6, h7⟩

theorem prob_convex : ConvexLq prob where
  symm := ⟨fun t => rfl, fun t => by funext i j; fin_cases i <;> fin_cases j <;> rfl, rfl⟩
  psd := fun t x u => by
    simp only [prob, dotProduct, mulVec, Fin.sum_univ_two, Fin.sum_univ_one, Fin.isValue, cons_val_zero, cons_val_one]
    nlinarith [mul_self_nonneg (u 0 + 9999 / 10000 * u 1), mul_self_nonneg (u 1)]
  pd := fun t v hv => by
    have h : v 0 ≠ 0 ∨ v 1 ≠ 0 := by
      by_contra h
      push Not at h
      exact hv (funext fun i => by fin_cases i; exacts [h.1, h.2])
    have h0 : 0 < v 0 ^ 2 + v 1 ^ 2 := by
      rcases h with h | h <;> positivity
    simp only [prob, dotProduct, mulVec, Fin.sum_univ_two, Fin.isValue, cons_val_zero, cons_val_one]
    nlinarith [sq_nonneg (v 0 + v 1)]
  term := fun v => by simp [prob, dotProduct, mulVec]

/-- What a trial step from the first direction costs. -/
theorem trial_cost {kind : Kind} (hk : kind.box = true) {a : ℚ} (ha : 0 < a)
    {s2 s sT : St ℚ (Fin 1 → ℚ) (Fin 1 → ℚ) (Fin 2 → ℚ) (Lin ℚ 1 2) (BoxDir ℚ 1 2)} (hD : Directed s2)
    (hx : s.xs = s2.xs) (hu : s.us = s2.us) (hkk : s.k = s2.k) (hga : s.gain = s2.gain) (hf : s.feas = true)
    (h : Probed (prob.toProbBox lim) kind a s sT) : sT.costTry < 0 ∧ -(12 / 10) * a < sT.costTry := by
  obtain ⟨h5, h6⟩ := hD.k1
  have hc := h.core
  rw [hx, hu, hkk, hga, hf] at hc
  have ha1 := hc.step.2
  have hfirst : first (prob.toProbBox lim) kind s = fun _ => 0 := by
    unfold first
    rw [if_neg (by intro e; rw [e] at hk; simp [Kind.box] at hk)]
    rfl
  rw [hfirst] at hc
  have hT : (prob.toProbBox lim).T = 1 := rfl
  have e0 : sT.xsTry 0 = fun _ => 0 := by
    rw [hc.nodes.state 0 (by rw [hT]; norm_num)]; simp [pred]
  have u0 := hc.nodes.control 0 (by rw [hT]; norm_num) rfl
  have d0 := hc.nodes.data 0 (by rw [hT]; norm_num)
  have htd := hc.tdata_eq
  have hcost := hc.cost
  rw [hT] at hcost
  have htd0 : sT.tdata = 0 := by
    rw [htd]
    simp [LqProb.toProbBox, LqProb.toProb, prob, Lqr.costT, mulVec, dotProduct]
  obtain ⟨w, hw⟩ : ∃ w, -s2.k 0 1 = w := ⟨_, rfl⟩
  rw [hw] at h5 h6
  have hk1 : s2.k 0 1 = -w := by rw [← hw, neg_neg]
  have hu0 : sT.usTry 0 = ![-(a * 20), a * w] := by
    rw [u0, hD.gain, e0, hD.xs, hD.us]
    simp only [hk, if_true]
    have i1 : a * w ≤ 100 := by nlinarith
    have i2 : -100 ≤ a * w := by nlinarith
    have i3 : -20 ≤ -(a * 20) := by linarith
    have i4 : -(a * 20) ≤ 20 := by linarith
    funext i
    fin_cases i
    · simp [LqProb.toProbBox, LqProb.toProb, lim, mulVec, dotProduct, hD.k0, max_eq_left i3, min_eq_left i4]
    · simp [LqProb.toProbBox, LqProb.toProb, lim, mulVec, dotProduct, hk1, i1, i2]
  have c0 : (sT.datas 0).2 = a * (9959 / 500 - w) + 1 / 2 * a ^ 2 * (400 - 9999 / 250 * w + w ^ 2) := by
    rw [d0, hu0, e0]
    simp [nodeEval, LqProb.toProbBox, LqProb.toProb, prob, Lqr.cost, mulVec, dotProduct, Fin.sum_univ_two]
    ring
  rw [hcost, htd0]
  simp only [sumTo, c0]
  have q1 : 400 - 9999 / 250 * w + w ^ 2 < 11 / 10 := by nlinarith
  have q2 : 0 ≤ 400 - 9999 / 250 * w + w ^ 2 := by nlinarith [sq_nonneg (w - 9999 / 500)]
  have hsq : a ^ 2 ≤ a := by nlinarith
  have hp : a ^ 2 * (400 - 9999 / 250 * w + w ^ 2) ≤ a * (11 / 10) := by
    nlinarith [mul_le_mul hsq q1.le q2 ha.le]
  have hp0 : 0 ≤ a ^ 2 * (400 - 9999 / 250 * w + w ^ 2) := mul_nonneg (sq_nonneg a) q2
  constructor <;> nlinarith

theorem prepared (kind : Kind) (s2 : St ℚ (Fin 1 → ℚ) (Fin 1 → ℚ) (Fin 2 → ℚ) (Lin ℚ 1 2) (BoxDir ℚ 1 2)) :
    let s := prepare (ora kind) kind s2
    s.xs = s2.xs ∧ s.us = s2.us ∧ s.k = s2.k ∧ s.gain = s2.gain ∧ s.feas = s2.feas ∧ s.cost = s2.cost ∧
      s.dir = s2.dir ∧ (kind.feasibilityDriven = false → s.d0 = (expectedImprovement 1 s2.dir.arr).1 ∧
        s.d1 = (expectedImprovement 1 s2.dir.arr).2) := by
  intro s
  simp only [s, prepare]
  cases hkf : kind.feasibilityDriven
  · simp only [boxOracle, hkf]
    exact ⟨rfl, rfl, rfl, rfl, rfl, rfl, rfl, fun _ => ⟨rfl, rfl⟩⟩
  · exact ⟨rfl, rfl, rfl, rfl, rfl, rfl, rfl, fun h => by simp at h⟩

/-- C140, counterexample. On a convex linear-quadratic problem with one node, from a feasible candidate strictly inside the control
limits, both box solvers with their default parameters compute a direction from a box QP that converged; every trial with a step
length in `(0, 1]` lowers the cost, yet every one is rejected, and the first iteration keeps the candidate. The prediction drops the
gradient entry of the control that the full step moves onto its limit, against that gradient, and exceeds the slope twentyfold. -/
theorem C140_overshoot_counterexample {kind : Kind} (hk : kind.box = true) :
    ConvexLq prob ∧ (∀ t i, lim.lb t i < 0 ∧ 0 < lim.ub t i) ∧
    ∃ s2, dirLoop (prob.toProbBox lim) cfg (ora kind) 40 s1 = some (true, s2) ∧ s2.dir.conv = true ∧
      (∀ a, 0 < a → a ≤ 1 → ∃ sT, probe (prob.toProbBox lim) (ora kind) kind a (prepare (ora kind) kind s2) = (some (), sT) ∧
        0 < sT.dV ∧ accepts cfg kind sT = false) ∧
      (∀ e b s3, iteration (prob.toProbBox lim) cfg (ora kind) kind 40 s1 = some (e, b, s3) →
        s3.xs = s2.xs ∧ s3.us = s2.us) := by
  refine ⟨prob_convex, fun t i => by fin_cases i <;> simp [lim], ?_⟩
  obtain ⟨s2, hd, hD⟩ := directed hk
  have hI := prepared kind s2
  have key : ∀ a, 0 < a → a ≤ 1 → ∀ s : St ℚ (Fin 1 → ℚ) (Fin 1 → ℚ) (Fin 2 → ℚ) (Lin ℚ 1 2) (BoxDir ℚ 1 2),
      (s.xs = s2.xs ∧ s.us = s2.us ∧ s.k = s2.k ∧ s.gain = s2.gain ∧ s.feas = s2.feas ∧ s.cost = s2.cost ∧
        s.dir = s2.dir ∧ (kind.feasibilityDriven = false → s.d0 = (expectedImprovement 1 s2.dir.arr).1 ∧
          s.d1 = (expectedImprovement 1 s2.dir.arr).2)) →
      ∃ sT, probe (prob.toProbBox lim) (ora kind) kind a s = (some (), sT) ∧ 0 < sT.dV ∧ accepts cfg kind sT = false ∧
        (sT.xs = s2.xs ∧ sT.us = s2.us ∧ sT.k = s2.k ∧ sT.gain = s2.gain ∧ sT.feas = s2.feas ∧ sT.cost = s2.cost ∧
        sT.dir = s2.dir ∧ (kind.feasibilityDriven = false → sT.d0 = (expectedImprovement 1 s2.dir.arr).1 ∧
          sT.d1 = (expectedImprovement 1 s2.dir.arr).2)) := by
    intro a ha0 ha1 s ⟨i1, i2, i3, i4, i5, i6, i7, i8⟩
    obtain ⟨sT, hp, h⟩ := probe_some (P := prob.toProbBox lim) (O := ora kind) (kind := kind) (fun _ => rfl) (fun _ => rfl) a ha0.le ha1 s
    have hf : s.feas = true := by rw [i5, hD.feas]
    obtain ⟨c1, c2⟩ := trial_cost hk ha0 hD i1 i2 i3 i4 hf h
    have hdir := probe_keeps_dir (P := prob.toProbBox lim) (O := ora kind) (kind := kind) a s
    rw [hp] at hdir
    have hd01 := probe_expImp (d := expectedImprovement 1 s2.dir.arr) hf
      (fun hkf s' hs' hf' => by
        simp only [boxOracle, hkf, if_true, expectedImprovementFddp, updateExpectedImprovement, hf', hs', i7, expectedImprovement]
        simp [prob]) i8 hp
    have hk' := h.keeps
    have hdV : sT.dV = -sT.costTry := by rw [h.dV, i6, hD.cost, zero_sub]
    refine ⟨sT, hp, by rw [hdV]; linarith, ?_, ⟨hk'.xs.trans i1, hk'.us.trans i2, hk'.k.trans i3, hk'.gain.trans i4, hk'.feas.trans i5,
      hk'.cost.trans i6, hdir.trans i7, fun _ => hd01⟩⟩
    obtain ⟨x1, x2⟩ := hD.exp
    rw [← hd01.1] at x1
    rw [← hd01.2] at x2
    have hth : ¬ |sT.d0| < cfg.thGrad := by
      rw [not_lt, abs_of_pos (by linarith)]
      have : cfg.thGrad ≤ 1 := by simp only [cfg]; norm_num
      linarith
    have hlow : 18 * a ≤ sT.dVexp := by
      rw [h.dVexp]
      nlinarith [mul_pos ha0 ha0]
    have h0 : 0 ≤ sT.dVexp := by linarith
    have hno : ¬ sT.dV > cfg.thAcceptstep * sT.dVexp := by
      have : cfg.thAcceptstep = 1 / 10 := rfl
      rw [this, hdV]
      linarith
    unfold accepts
    cases hkf : kind.feasibilityDriven <;> simp [h0, hth, hk'.feas, hf] <;> exact not_lt.mp hno
  refine ⟨s2, hd, hD.conv, fun a ha0 ha1 => ?_, fun e b s3 hi => ?_⟩
  · obtain ⟨sT, h1, h2, h3, -⟩ := key a ha0 ha1 _ hI
    exact ⟨sT, h1, h2, h3⟩
  · rcases iteration_cases _ _ hi with ⟨-, -, h1⟩ | ⟨s2', h1, h2, -⟩
    · rw [hd] at h1; simp at h1
    · rw [hd] at h1
      simp only [Option.some.injEq, Prod.mk.injEq, true_and] at h1
      subst h1
      rw [h2.1, h2.2.1]
      have := lineSearch_rejected (P := prob.toProbBox lim) (c := cfg) (O := ora kind) (kind := kind)
        (fun s => s.xs = s2.xs ∧ s.us = s2.us ∧ s.k = s2.k ∧ s.gain = s2.gain ∧ s.feas = s2.feas ∧ s.cost = s2.cost ∧
          s.dir = s2.dir ∧ (kind.feasibilityDriven = false → s.d0 = (expectedImprovement 1 s2.dir.arr).1 ∧
            s.d1 = (expectedImprovement 1 s2.dir.arr).2)) cfg.alphas (fun a ha s hs => ?_) hI
      · rw [this.1, this.2, hI.1, hI.2.1]
        exact ⟨rfl, rfl⟩
      · have har : 0 < a ∧ a ≤ 1 := by
          obtain ⟨j, -, rfl⟩ := List.mem_map.mp ha
          exact ⟨by positivity, by rw [div_le_one (by positivity)]; exact one_le_pow₀ (by norm_num)⟩
        obtain ⟨sT, g1, -, g2, g3⟩ := key a har.1 har.2 s hs
        exact ⟨sT, g1, g2, g3, g3.1.trans hs.1.symm, g3.2.1.trans hs.2.1.symm⟩

end Verif.Nl.Overshoot
