import Verif.Lemmas.BoxLq
import Mathlib.Tactic.NormNum.Basic
import Mathlib.Tactic.NormNum.Ineq
import Mathlib.Tactic.NormNum.Inv
import Mathlib.Tactic.Positivity.Basic

/-! # C134: the box solvers on linear-quadratic problems with control limits -/

set_option linter.unusedSectionVars false

namespace Verif.Lq
open Verif Verif.Solve Matrix

section
variable {K : Type} [Field K] [LinearOrder K] [IsStrictOrderedRing K] {n m : Nat}
variable {P : LqProb K n (fun _ => m)} {lim : CtrlLimits K m} {llt : ∀ m, Matrix (Fin m) (Fin m) K → Bool}
  {fac : BoxQp.Fac K} {p : BoxQp.Params K} {preg : Option K} {us : Nat → Fin m → K} {xs f : Nat → Fin n → K}
  {s g : BoxDir K n m}

/-- C134. On a convex linear-quadratic problem, for a feasible candidate within the control limits, whatever the
regularisation, the warm starts and the earlier calls: if the box QPs of the backward pass converge exactly, all
feed-forward terms are zero if and only if no control sequence within the limits costs less than the candidate. -/
theorem C134_stationary (h : ConvexLq P) (hf : BoxQp.FacSound fac) (hl : LltSound llt) (hr : p.reg = 0)
    (hg : p.thGrad = 0) (hp : 0 ≤ preg.getD 0) (hx : ∀ t ≤ P.T, xs t = traj P us 0 P.x0 t) (hw : lim.Within P.T us)
    (hb : boxBackward llt fac p lim us preg true P.T (fun t => (P.node t).derivs (xs t) (us t))
      (P.term.q + P.term.Q *ᵥ xs P.T) P.term.Q f s = some g) (hc : g.conv = true) :
    (∀ t < P.T, (g.arr.out t).k = 0) ↔ OptimalWithin P lim us := by
  have hpass := boxPass_of h.symm hf hl hr hg hw hb hc
  have hcs : ∀ i, i ≤ P.T → costate P xs us (P.T - i) = costate P (traj P us 0 P.x0) us (P.T - i) := by
    intro i
    induction i with
    | zero => intro _; rw [Nat.sub_zero, costate_T, costate_T, hx P.T le_rfl]
    | succ i ih =>
      intro hi
      have := ih (by omega)
      rw [show P.T - i = P.T - (i + 1) + 1 by omega] at this
      rw [costate_step (xs := xs) (t := P.T - (i + 1)) (by omega),
        costate_step (xs := traj P us 0 P.x0) (t := P.T - (i + 1)) (by omega), this, hx _ (by omega)]
  have hgr : ∀ t < P.T, gradU P xs us t = gradU P (traj P us 0 P.x0) us t := by
    intro t ht
    have := hcs (P.T - (t + 1)) (by omega)
    rw [show P.T - (P.T - (t + 1)) = t + 1 by omega] at this
    unfold gradU
    rw [this, hx t ht.le]
  constructor
  · intro hk
    refine optimal_of_grad h hw fun vs hv t ht => ?_
    have hQ := hpass.qu t ht (fun j _ hj => hk j hj)
    have hn := hpass.node t ht
    rw [← hgr t ht, ← hQ]
    refine Finset.sum_nonneg fun i _ => ?_
    have hk0 : ∀ i, ((g.arr.out t).Q.Quu *ᵥ (g.arr.out t).k) i = 0 := fun i => by rw [hk t ht, mulVec_zero]; rfl
    rcases hn.row i with ⟨-, h2, -⟩ | ⟨hbd, -, -, h3⟩
    · rw [h2, hk0, zero_mul]
    · simp only [Bool.and_eq_true] at hbd
      rw [hk t ht, mulVec_zero] at h3
      simp only [Pi.zero_apply, sub_zero] at h3
      obtain ⟨hv1, hv2⟩ := hv t ht hbd.1 i
      rcases h3 with ⟨h4, h5⟩ | ⟨h4, h5⟩
      · exact mul_nonneg h5.le (by rw [Pi.sub_apply, h4]; linarith)
      · exact mul_nonneg_of_nonpos_of_nonpos h5.le (by rw [Pi.sub_apply, h4]; linarith)
  · intro ho
    have key : ∀ i, i ≤ P.T → ∀ j, P.T - i ≤ j → j < P.T → (g.arr.out j).k = 0 := by
      intro i
      induction i with
      | zero => intro _ j h1 h2; omega
      | succ i ih =>
        intro hi j h1 h2
        by_cases hj : P.T - i ≤ j
        · exact ih (by omega) j hj h2
        obtain rfl : j = P.T - (i + 1) := by omega
        have hQ := hpass.qu _ h2 (fun j hj => ih (by omega) j (by omega))
        rw [hgr _ h2] at hQ
        have hn := hpass.node _ h2
        obtain ⟨hV, hV0⟩ := hpass.vxx h hp (P.T - (i + 1) + 1) (by omega)
        have hpd := Quu_posdef (preg := preg) (d := (P.node (P.T - (i + 1))).derivs (xs (P.T - (i + 1)))
          (us (P.T - (i + 1)))) (V := g.arr.V (P.T - (i + 1) + 1)) hp (h.pd _) hV0
        have hopt := grad_of_optimal h.symm ho _ h2
        rw [← hQ] at hopt
        generalize P.T - (i + 1) = t at *
        cases hbd : (lim.has t && decide (0 < m)) with
        | true =>
          rw [hbd] at hn
          simp only [Bool.and_eq_true, decide_eq_true_eq] at hbd
          have hin := hw t h2 hbd.1
          have hkkt : BoxQp.Kkt (actionValue preg ((P.node t).derivs (xs t) (us t)) (g.arr.V (t + 1))).Quu
              (actionValue preg ((P.node t).derivs (xs t) (us t)) (g.arr.V (t + 1))).Qu (lim.lb t - us t)
              (lim.ub t - us t) 0 := by
            refine ⟨fun i => ?_, fun i => ?_⟩
            · simp only [Pi.sub_apply, Pi.zero_apply]
              constructor <;> linarith [(hin i).1, (hin i).2]
            · simp only [Pi.sub_apply, Pi.zero_apply, mul_zero, Finset.sum_const_zero, add_zero]
              -- move one coordinate to a bound
              have hone : ∀ b, lim.lb t i ≤ b → b ≤ lim.ub t i →
                  0 ≤ (actionValue preg ((P.node t).derivs (xs t) (us t)) (g.arr.V (t + 1))).Qu i * (b - us t i) := by
                intro b hb1 hb2
                have := hopt (Function.update (us t) i b) (fun _ l => by
                  by_cases hl : l = i
                  · subst hl; rw [Function.update_self]; exact ⟨hb1, hb2⟩
                  · rw [Function.update_of_ne hl]; exact hin l)
                rw [dotProduct, Finset.sum_eq_single i] at this
                · rwa [Pi.sub_apply, Function.update_self] at this
                · intro l _ hl
                  rw [Pi.sub_apply, Function.update_of_ne hl, sub_self, mul_zero]
                · intro hn; exact absurd (Finset.mem_univ i) hn
              have hlo := hone _ le_rfl ((hin i).1.trans (hin i).2)
              have hhi := hone _ ((hin i).1.trans (hin i).2) le_rfl
              rcases lt_trichotomy ((actionValue preg ((P.node t).derivs (xs t) (us t)) (g.arr.V (t + 1))).Qu i) 0
                with hq | hq | hq
              · right; right
                refine ⟨?_, hq.le⟩
                have : lim.ub t i - us t i ≤ 0 := by
                  by_contra hc
                  push Not at hc
                  have := mul_neg_of_neg_of_pos hq hc
                  linarith
                linarith [(hin i).2]
              · left; exact hq
              · right; left
                refine ⟨?_, hq.le⟩
                have : 0 ≤ lim.lb t i - us t i := by
                  by_contra hc
                  push Not at hc
                  have := mul_neg_of_pos_of_neg hq hc
                  linarith
                linarith [(hin i).1]
          have := BoxQp.Kkt.unique hpd hn.kkt hkkt
          exact neg_eq_zero.mp this
        | false =>
          rw [hbd] at hn
          have hQ0 : (actionValue preg ((P.node t).derivs (xs t) (us t)) (g.arr.V (t + 1))).Qu = 0 := by
            by_cases hh : lim.has t = true
            · have hm : m = 0 := by
                rw [hh] at hbd
                simp only [Bool.true_and, decide_eq_false_iff_not] at hbd
                omega
              subst hm
              funext i
              exact i.elim0
            · by_contra hne
              have h1 := hopt (us t - (actionValue preg ((P.node t).derivs (xs t) (us t)) (g.arr.V (t + 1))).Qu)
                (fun hh' => absurd hh' hh)
              rw [sub_sub_cancel_left, dotProduct_neg] at h1
              have := dot_self_pos hne
              linarith
          have hQk : (actionValue preg ((P.node t).derivs (xs t) (us t)) (g.arr.V (t + 1))).Quu *ᵥ (g.arr.out t).k = 0 := by
            funext i
            rcases hn.row i with ⟨-, h2, -⟩ | ⟨hbd, -⟩
            · rw [hn.Quu, hQ0] at h2; exact h2.symm
            · simp at hbd
          by_contra hne
          have := hpd _ hne
          rw [hQk, dotProduct_zero] at this
          exact lt_irrefl _ this
    exact fun t ht => key P.T le_rfl t (by omega) ht

/-- C134, partial: when the full step moves no control that it leaves at a limit, the predicted improvement is that of an exact
Newton step: `d_[0] = -d_[1] ≥ 0`. Missing: controls that the full step moves onto a limit (`C134_blocked_prediction`). -/
theorem C134_prediction_partial (h : ConvexLq P) (hf : BoxQp.FacSound fac) (hl : LltSound llt) (hr : p.reg = 0)
    (hg : p.thGrad = 0) (hp : 0 ≤ preg.getD 0) (hw : lim.Within P.T us)
    (hb : boxBackward llt fac p lim us preg true P.T (fun t => (P.node t).derivs (xs t) (us t))
      (P.term.q + P.term.Q *ᵥ xs P.T) P.term.Q f s = some g) (hc : g.conv = true)
    (hmv : ∀ t < P.T, lim.has t = true → ∀ i, us t i - (g.arr.out t).k i = lim.lb t i ∨ us t i - (g.arr.out t).k i = lim.ub t i →
      (g.arr.out t).k i = 0) :
    (expectedImprovement P.T g.arr).1 = - (expectedImprovement P.T g.arr).2 ∧ 0 ≤ (expectedImprovement P.T g.arr).1 := by
  have hpass := boxPass_of h.symm hf hl hr hg hw hb hc
  have hnode : ∀ t < P.T, (g.arr.out t).Q.Qu ⬝ᵥ (g.arr.out t).k =
      (g.arr.out t).k ⬝ᵥ ((g.arr.out t).Q.Quu *ᵥ (g.arr.out t).k) := by
    intro t ht
    rw [dotProduct_comm]
    refine Finset.sum_congr rfl fun i _ => ?_
    rcases (hpass.node t ht).row i with ⟨h1, h2, -⟩ | ⟨hbd, -, -, h3⟩
    · rw [h1, h2]
    · simp only [Bool.and_eq_true] at hbd
      rw [hmv t ht hbd.1 i (h3.imp And.left And.left), zero_mul, zero_mul]
  have e : (expectedImprovement P.T g.arr).1 = - (expectedImprovement P.T g.arr).2 := by
    simp only [expectedImprovement, neg_neg]
    exact sumTo_congr hnode
  refine ⟨e, ?_⟩
  simp only [expectedImprovement, sumTo_eq]
  refine Finset.sum_nonneg fun t ht => ?_
  have ht := Finset.mem_range.mp ht
  rw [hnode t ht, (hpass.node t ht).Quu]
  by_cases h0 : (g.arr.out t).k = 0
  · rw [h0, zero_dotProduct]
  · exact (Quu_posdef (preg := preg) (d := (P.node t).derivs (xs t) (us t)) (V := g.arr.V (t + 1)) hp (h.pd t)
      (hpass.vxx h hp (t + 1) (by omega)).2 _ h0).le

/-- C134. When every control of the candidate is clamped by the box QPs (the stored gradient `Qu` is zero at every node) and some
control moves, the predicted improvement of every step is negative: `d_[0] = 0` and `d_[1] < 0`. -/
theorem C134_blocked_prediction (h : ConvexLq P) (hf : BoxQp.FacSound fac) (hl : LltSound llt) (hr : p.reg = 0)
    (hg : p.thGrad = 0) (hp : 0 ≤ preg.getD 0) (hw : lim.Within P.T us)
    (hb : boxBackward llt fac p lim us preg true P.T (fun t => (P.node t).derivs (xs t) (us t))
      (P.term.q + P.term.Q *ᵥ xs P.T) P.term.Q f s = some g) (hc : g.conv = true)
    (hz : ∀ t < P.T, (g.arr.out t).Q.Qu = 0) (hk : ∃ t < P.T, (g.arr.out t).k ≠ 0) :
    (expectedImprovement P.T g.arr).1 = 0 ∧ (expectedImprovement P.T g.arr).2 < 0 := by
  have hpass := boxPass_of h.symm hf hl hr hg hw hb hc
  have hpos : ∀ t < P.T, (g.arr.out t).k ≠ 0 → 0 < (g.arr.out t).k ⬝ᵥ ((g.arr.out t).Q.Quu *ᵥ (g.arr.out t).k) := by
    intro t ht h0
    rw [(hpass.node t ht).Quu]
    exact Quu_posdef (preg := preg) (d := (P.node t).derivs (xs t) (us t)) (V := g.arr.V (t + 1)) hp (h.pd t)
      (hpass.vxx h hp (t + 1) (by omega)).2 _ h0
  simp only [expectedImprovement, sumTo_eq]
  constructor
  · exact Finset.sum_eq_zero fun t ht => by rw [hz t (Finset.mem_range.mp ht), zero_dotProduct]
  · rw [neg_neg_iff_pos]
    obtain ⟨t, ht, h0⟩ := hk
    refine Finset.sum_pos' (fun t ht => ?_) ⟨t, Finset.mem_range.mpr ht, hpos t ht h0⟩
    by_cases h0 : (g.arr.out t).k = 0
    · rw [h0, zero_dotProduct]
    · exact (hpos t (Finset.mem_range.mp ht) h0).le

/-- C134. If the candidate is feasible and the predicted improvement of every step length is negative, both box solvers end the
iteration with the candidate they had, whatever the trial steps would gain. -/
theorem C134_blocked_iteration {c : Cfg K} {kind : Kind} {fuel : Nat} {s1 s2 s3 : St K (Fin n → K) (Fin n → K) (Fin m → K) (Lin K n m) (BoxDir K n m)}
    {e : Exit} {b : Bool} (hd : dirLoop (P.toProbBox lim) c (boxOracle P lim llt fac p kind) fuel s1 = some (true, s2))
    (hf : s2.feas = true)
    (hneg : ∀ a ∈ c.alphas, a * ((expectedImprovement P.T s2.dir.arr).1 + (1 / 2) * a * (expectedImprovement P.T s2.dir.arr).2) < 0)
    (hi : iteration (P.toProbBox lim) c (boxOracle P lim llt fac p kind) kind fuel s1 = some (e, b, s3)) :
    s3.xs = s2.xs ∧ s3.us = s2.us := by
  rcases iteration_cases _ _ hi with ⟨-, -, h1⟩ | ⟨s2', h1, h2, -⟩
  · rw [hd] at h1; simp at h1
  · rw [hd] at h1
    simp only [Option.some.injEq, Prod.mk.injEq, true_and] at h1
    subst h1
    rw [h2.1, h2.2.1]
    have hpk := prepare_keeps (O := boxOracle P lim llt fac p kind) (kind := kind) s2
    have hpd : (prepare (boxOracle P lim llt fac p kind) kind s2).dir = s2.dir := by
      unfold prepare
      cases kind.feasibilityDriven <;> rfl
    have := lineSearch_blocked (P := P.toProbBox lim) (c := c) (O := boxOracle P lim llt fac p kind) (kind := kind)
      (d := expectedImprovement P.T s2.dir.arr) c.alphas (prepare (boxOracle P lim llt fac p kind) kind s2)
      (by rw [hpk.2.2.1, hf])
      (fun hkf s' hs' hf' => by
        rw [hpd] at hs'
        simp only [boxOracle, hkf, if_true, expectedImprovementFddp, updateExpectedImprovement, hf', hs', expectedImprovement]
        simp)
      (fun hkf => by
        unfold prepare
        simp [hkf, boxOracle])
      hneg
    rw [this.1, this.2, hpk.1, hpk.2.1]
    exact ⟨rfl, rfl⟩

/-- C134. The iteration reports convergence when, in addition, the last two candidates are feasible and the negative prediction
`½ d_[1]` is small: the stopping test takes the absolute value of a prediction that is not an estimate of the distance to the
optimum. -/
theorem C134_blocked_convergence {c : Cfg K} {kind : Kind} {fuel : Nat} {s1 s2 : St K (Fin n → K) (Fin n → K) (Fin m → K) (Lin K n m) (BoxDir K n m)}
    (hd : dirLoop (P.toProbBox lim) c (boxOracle P lim llt fac p kind) fuel s1 = some (true, s2))
    (hf : s2.feas = true) (hwf : s2.wasFeas = true) (hne : c.alphas ≠ []) (hr : ∀ a ∈ c.alphas, 0 < a ∧ a ≤ 1)
    (hlast : ∀ a ∈ c.alphas.getLast?, a ≤ c.thStepinc ∧ a ≤ c.thStepdec) (hmax : Solver.increase c.reg s2.preg ≠ c.reg.max)
    (h0 : (expectedImprovement P.T s2.dir.arr).1 = 0) (h1 : (expectedImprovement P.T s2.dir.arr).2 < 0)
    (hst : -(1 / 2) * (expectedImprovement P.T s2.dir.arr).2 < c.thStop) :
    ∃ s3, iteration (P.toProbBox lim) c (boxOracle P lim llt fac p kind) kind fuel s1 = some (.converged, true, s3) ∧
      s3.xs = s2.xs ∧ s3.us = s2.us := by
  have hpk := prepare_keeps (O := boxOracle P lim llt fac p kind) (kind := kind) s2
  have hpd : (prepare (boxOracle P lim llt fac p kind) kind s2).dir = s2.dir := by
    unfold prepare
    cases kind.feasibilityDriven <;> rfl
  have hpp : (prepare (boxOracle P lim llt fac p kind) kind s2).preg = s2.preg ∧
      (prepare (boxOracle P lim llt fac p kind) kind s2).wasFeas = s2.wasFeas := by
    unfold prepare
    cases kind.feasibilityDriven <;> exact ⟨rfl, rfl⟩
  have hls := lineSearch_blocked_full (P := P.toProbBox lim) (c := c) (O := boxOracle P lim llt fac p kind) (kind := kind)
      (fun _ => rfl) (fun _ => rfl)
      (d := expectedImprovement P.T s2.dir.arr) c.alphas (prepare (boxOracle P lim llt fac p kind) kind s2)
      (by rw [hpk.2.2.1, hf])
      (fun hkf s' hs' hf' => by
        rw [hpd] at hs'
        simp only [boxOracle, hkf, if_true, expectedImprovementFddp, updateExpectedImprovement, hf', hs', expectedImprovement]
        simp)
      (fun hkf => by
        unfold prepare
        simp [hkf, boxOracle])
      (fun a ha => ⟨(hr a ha).1.le, (hr a ha).2⟩)
      (fun a ha => by
        rw [h0, zero_add]
        have := (hr a ha).1
        have h2 : 0 < a * (1 / 2 * a) := by positivity
        have := mul_neg_of_pos_of_neg h2 h1
        linarith [mul_assoc a (1 / 2 * a) (expectedImprovement P.T s2.dir.arr).2])
  obtain ⟨a, ha⟩ : ∃ a, c.alphas.getLast? = some a := by
    cases h : c.alphas.getLast? with
    | none => exact absurd (List.getLast?_eq_none_iff.mp h) hne
    | some a => exact ⟨a, rfl⟩
  have hsl := hls.2.2
  rw [List.getLastD_eq_getLast?, ha, Option.getD_some] at hsl
  obtain ⟨hla, hlb⟩ := hlast a (by simp [ha])
  have hdd := hls.2.1 (.inr hne)
  unfold iteration
  rw [hd]
  simp only
  generalize lineSearch (P.toProbBox lim) c (boxOracle P lim llt fac p kind) kind c.alphas
    (prepare (boxOracle P lim llt fac p kind) kind s2) = r at *
  have hpr : r.preg = s2.preg := hls.1.preg.trans hpp.1
  have hw : r.wasFeas = true := by rw [hls.1.wasFeas, hpp.2, hwf]
  have hnd : (if r.steplength > c.thStepdec then decreaseReg c r else r) = r := if_neg (by rw [hsl]; exact not_lt.mpr hlb)
  rw [hnd]
  have hup : r.steplength ≤ c.thStepinc := by rw [hsl]; exact hla
  simp only [hup, decide_true, if_true, Bool.true_and]
  rw [if_neg (by simp only [increaseReg, hpr, decide_eq_true_eq]; exact hmax)]
  have hstop : (stopping (increaseReg c r)).stop < c.thStop := by
    simp only [stopping, increaseReg, hdd.1, hdd.2, h0, zero_add]
    rw [abs_of_nonpos (by linarith)]
    linarith
  have hwf' : (stopping (increaseReg c r)).wasFeas = true := by simp [stopping, increaseReg, hw]
  rw [if_pos (by simp [hwf', hstop])]
  refine ⟨_, rfl, ?_, ?_⟩
  · show r.xs = _
    rw [hls.1.xs, hpk.1]
  · show r.us = _
    rw [hls.1.us, hpk.2.1]

end

/-! ### Concrete problems -/

namespace BoxDemo
open Verif.BoxQp (defaultAlphas)

/-- The constant one-by-one matrix. -/
def m1 (a : ℚ) : Matrix (Fin 1) (Fin 1) ℚ := fun _ _ => a

/-- `T` times `x' = x + u` with cost `½ q x² + ½ u² + r u`, terminal cost `½ q x²`, from `x0`. -/
def prob (T : Nat) (q r x0 : ℚ) : LqProb ℚ 1 (fun _ => 1) where
  T := T
  node := fun _ => ⟨m1 1, m1 1, fun _ => 0, m1 q, m1 1, m1 0, fun _ => 0, fun _ => r⟩
  term := ⟨m1 1, fun _ i => i.elim0, fun _ => 0, m1 q, fun i => i.elim0, fun _ i => i.elim0, fun _ => 0, fun i => i.elim0⟩
  x0 := fun _ => x0

theorem prob_convex (T : Nat) {q : ℚ} (hq : 0 ≤ q) (r x0 : ℚ) : ConvexLq (prob T q r x0) where
  symm := ⟨fun _ => rfl, fun _ => rfl, rfl⟩
  psd := fun t x u => by
    simp only [prob, m1, dotProduct, mulVec, Finset.univ_unique, Finset.sum_singleton, zero_mul, mul_zero, add_zero, one_mul]
    have h1 := mul_nonneg hq (mul_self_nonneg (x default))
    have h2 := mul_self_nonneg (u default)
    linarith
  pd := fun t v hv => by
    have h1 := dot_self_pos hv
    simpa [prob, m1, dotProduct, mulVec] using h1
  term := fun v => by
    simp only [prob, m1, dotProduct, mulVec, Finset.univ_unique, Finset.sum_singleton]
    have h1 := mul_nonneg hq (mul_self_nonneg (v default))
    linarith

/-- Limits `[-1, b]` at every node. -/
def lim (b : ℚ) : CtrlLimits ℚ 1 := ⟨fun _ => true, fun _ _ => -1, fun _ _ => b⟩

/-- No node without limits uses the Cholesky test. -/
def noLlt : ∀ m, Matrix (Fin m) (Fin m) ℚ → Bool := fun _ _ => false

theorem noLlt_sound : LltSound noLlt := fun _ _ _ h => by simp [noLlt] at h

/-- What the constructor leaves. -/
def dir0 : BoxDir ℚ 1 1 :=
  ⟨⟨fun _ => ⟨fun _ => 0, m1 0⟩, fun _ => ⟨⟨fun _ => 0, fun _ => 0, m1 0, m1 0, m1 0⟩, fun _ => 0, m1 0, ⟨fun _ => 0, m1 0⟩⟩⟩,
    BoxQp.Demo.sol0 1, true⟩

/-- The backward pass around the rollout of constant controls `u`. -/
noncomputable def pass (P : LqProb ℚ 1 (fun _ => 1)) (b : ℚ) (u : ℚ) (preg : ℚ) : Option (BoxDir ℚ 1 1) :=
  boxBackward noLlt BoxQp.Demo.fac (BoxQp.Demo.params 100 0 0) (lim b) (fun _ _ => u) (some preg) true P.T
    (fun t => (P.node t).derivs (traj P (fun _ _ => u) 0 P.x0 t) (fun _ => u))
    (P.term.q + P.term.Q *ᵥ traj P (fun _ _ => u) 0 P.x0 P.T) P.term.Q (fun _ _ => 0) dir0

theorem exists_of_check {α : Type} {r : Option α} {p : α → Bool} (h : r.any p = true) : ∃ g, r = some g ∧ p g = true := by
  cases r with
  | none => simp at h
  | some g => exact ⟨g, rfl, h⟩

/-- Two nodes, from `x = 5`, limits `[-1, 1]`, candidate `u = (-1, -1)`: the QPs converge and both feed-forward terms vanish. -/
example : OptimalWithin (prob 2 1 0 5) (lim 1) (fun _ _ => -1) := by
  obtain ⟨g, hg, h⟩ := exists_of_check (r := pass (prob 2 1 0 5) 1 (-1) (1 / 10))
    (p := fun g => g.conv && decide ((g.arr.out 0).k 0 = 0) && decide ((g.arr.out 1).k 0 = 0)) (by decide +kernel)
  simp only [Bool.and_eq_true, decide_eq_true_eq] at h
  refine (C134_stationary (xs := traj (prob 2 1 0 5) (fun _ _ => -1) 0 (prob 2 1 0 5).x0) (prob_convex 2 (by norm_num) 0 5)
    BoxQp.Demo.fac_sound noLlt_sound rfl rfl
    (by show (0 : ℚ) ≤ 1 / 10; norm_num) (fun _ _ => rfl) (fun t _ _ i => by show (-1 : ℚ) ≤ -1 ∧ (-1 : ℚ) ≤ 1; norm_num)
    hg h.1.1).mp ?_
  intro t ht
  have ht : t < 2 := ht
  funext i
  obtain rfl : i = 0 := Subsingleton.elim _ _
  interval_cases t
  · exact h.1.2
  · exact h.2

/-- The same with the candidate `u = (0, 0)`: it is not optimal, and the first node moves onto its limit. -/
example : ¬ OptimalWithin (prob 2 1 0 5) (lim 1) (fun _ _ => 0) := by
  obtain ⟨g, hg, h⟩ := exists_of_check (r := pass (prob 2 1 0 5) 1 0 0)
    (p := fun g => g.conv && decide ((g.arr.out 0).k 0 = 1)) (by decide +kernel)
  simp only [Bool.and_eq_true, decide_eq_true_eq] at h
  intro ho
  have := (C134_stationary (xs := traj (prob 2 1 0 5) (fun _ _ => 0) 0 (prob 2 1 0 5).x0) (prob_convex 2 (by norm_num) 0 5)
    BoxQp.Demo.fac_sound noLlt_sound rfl rfl
    (by show (0 : ℚ) ≤ 0; norm_num) (fun _ _ => rfl) (fun t _ _ i => by show (-1 : ℚ) ≤ 0 ∧ (0 : ℚ) ≤ 1; norm_num)
    hg h.1).mpr ho 0 (by decide)
  rw [this] at h
  exact absurd h.2 (by decide)

/-- The hypotheses of `C134_prediction_partial` are met: from `x = 1/2` the full step stays inside the limits at both nodes. -/
example : ∃ g, pass (prob 2 1 0 (1 / 2)) 1 0 0 = some g ∧ g.conv = true ∧ (expectedImprovement 2 g.arr).1 = - (expectedImprovement 2 g.arr).2 := by
  obtain ⟨g, hg, h⟩ := exists_of_check (r := pass (prob 2 1 0 (1 / 2)) 1 0 0)
    (p := fun g => g.conv && decide ((0 : ℚ) - (g.arr.out 0).k 0 ≠ -1 ∧ (0 : ℚ) - (g.arr.out 0).k 0 ≠ 1 ∧ (g.arr.out 0).k 0 ≠ 0) &&
      decide ((0 : ℚ) - (g.arr.out 1).k 0 ≠ -1 ∧ (0 : ℚ) - (g.arr.out 1).k 0 ≠ 1)) (by decide +kernel)
  simp only [Bool.and_eq_true, decide_eq_true_eq] at h
  refine ⟨g, hg, h.1.1, (C134_prediction_partial (xs := traj (prob 2 1 0 (1 / 2)) (fun _ _ => 0) 0 (prob 2 1 0 (1 / 2)).x0)
    (prob_convex 2 (by norm_num) 0 (1 / 2)) BoxQp.Demo.fac_sound noLlt_sound rfl rfl (by show (0 : ℚ) ≤ 0; norm_num)
    (fun t _ _ i => by show (-1 : ℚ) ≤ 0 ∧ (0 : ℚ) ≤ 1; norm_num) hg h.1.1 ?_).1⟩
  intro t ht _ i
  have ht : t < 2 := ht
  obtain rfl : i = 0 := Subsingleton.elim _ _
  interval_cases t
  · rintro (h' | h')
    · exact absurd h' h.1.2.1
    · exact absurd h' h.1.2.2.1
  · rintro (h' | h')
    · exact absurd h' h.2.1
    · exact absurd h' h.2.2

/-- The hypotheses of `C134_blocked_prediction` are met: from `x = 5` both full steps end at the limit. -/
example : ∃ g, pass (prob 2 1 0 5) 1 0 0 = some g ∧ g.conv = true ∧ (expectedImprovement 2 g.arr).1 = 0 ∧ (expectedImprovement 2 g.arr).2 < 0 := by
  obtain ⟨g, hg, h⟩ := exists_of_check (r := pass (prob 2 1 0 5) 1 0 0)
    (p := fun g => g.conv && decide ((g.arr.out 0).Q.Qu 0 = 0) && decide ((g.arr.out 1).Q.Qu 0 = 0) && decide ((g.arr.out 0).k 0 ≠ 0))
    (by decide +kernel)
  simp only [Bool.and_eq_true, decide_eq_true_eq] at h
  refine ⟨g, hg, h.1.1.1, C134_blocked_prediction (xs := traj (prob 2 1 0 5) (fun _ _ => 0) 0 (prob 2 1 0 5).x0)
    (prob_convex 2 (by norm_num) 0 5) BoxQp.Demo.fac_sound noLlt_sound rfl rfl (by show (0 : ℚ) ≤ 0; norm_num)
    (fun t _ _ i => by show (-1 : ℚ) ≤ 0 ∧ (0 : ℚ) ≤ 1; norm_num) hg h.1.1.1 ?_ ⟨0, by decide, fun h0 => h.2 (congrFun h0 0)⟩⟩
  intro t ht
  have ht : t < 2 := ht
  funext i
  obtain rfl : i = 0 := Subsingleton.elim _ _
  interval_cases t
  · exact h.1.1.2
  · exact h.1.2

/-- The default parameters of both box solvers. -/
def cfg : Cfg ℚ where
  alphas := defaultAlphas ℚ
  thAcceptstep := 1 / 10
  thAcceptnegstep := 2
  thStop := 5 / 10 ^ 5
  thGrad := 1 / 10 ^ 12
  thStepdec := 1 / 2
  thStepinc := 1 / 100
  reg := ⟨10, 10, 1 / 10 ^ 9, 10 ^ 9⟩

/-- A new solver. -/
def new : St ℚ (Fin 1 → ℚ) (Fin 1 → ℚ) (Fin 1 → ℚ) (Lin ℚ 1 1) (BoxDir ℚ 1 1) where
  xs := fun _ _ => 0
  us := fun _ _ => 0
  xsTry := fun _ _ => 0
  usTry := fun _ _ => 0
  datas := fun _ => (fun _ => 0, 0)
  tdata := 0
  fs := fun _ _ => 0
  k := fun _ _ => 0
  gain := fun _ _ _ => 0
  lin := ⟨fun _ => ⟨m1 0, m1 0, fun _ => 0, fun _ => 0, m1 0, m1 0, m1 0⟩, fun _ => 0, m1 0⟩
  dir := dir0
  feas := false
  wasFeas := false
  cost := 0
  costTry := 0
  dV := 0
  dVexp := 0
  d0 := 0
  d1 := 0
  stop := 0
  steplength := 1
  preg := 0
  dreg := 0
  iter := 0
  xnext := fun _ => 0
  recalc := true

/-- `solve` of a box solver with its default parameters. -/
noncomputable def run (kind : Kind) (P : LqProb ℚ 1 (fun _ => 1)) (b : ℚ) (maxiter : Nat) (u : ℚ) (regInit : Option ℚ) :=
  Solve.solve (P.toProbBox (lim b)) cfg (boxOracle P (lim b) noLlt BoxQp.Demo.fac (BoxQp.Demo.params 100 (1 / 10 ^ 5) 0) kind) kind
    40 maxiter (traj P (fun _ _ => u) 0 P.x0) (fun _ _ => u) true regInit new

/-- A fresh solver's backward pass at `u = 0` on `½ u² - 10 u`, limits `[-1, 1]`. -/
theorem first_blocked (kind : Kind) :
    ∃ s2, dirLoop ((prob 1 0 (-10) 0).toProbBox (lim 1)) cfg
        (boxOracle (prob 1 0 (-10) 0) (lim 1) noLlt BoxQp.Demo.fac (BoxQp.Demo.params 100 (1 / 10 ^ 5) 0) kind) 40
        (start ((prob 1 0 (-10) 0).toProbBox (lim 1)) cfg (traj (prob 1 0 (-10) 0) (fun _ _ => 0) 0 (prob 1 0 (-10) 0).x0) (fun _ _ => 0)
          true none new) = some (true, s2) ∧
      s2.feas = true ∧ s2.us 0 0 = 0 ∧ s2.k 0 0 = -1 ∧ (expectedImprovement 1 s2.dir.arr).1 = 0 ∧ (expectedImprovement 1 s2.dir.arr).2 < 0 := by
  have h : ∀ kind, (dirLoop ((prob 1 0 (-10) 0).toProbBox (lim 1)) cfg
        (boxOracle (prob 1 0 (-10) 0) (lim 1) noLlt BoxQp.Demo.fac (BoxQp.Demo.params 100 (1 / 10 ^ 5) 0) kind) 40
        (start ((prob 1 0 (-10) 0).toProbBox (lim 1)) cfg (traj (prob 1 0 (-10) 0) (fun _ _ => 0) 0 (prob 1 0 (-10) 0).x0) (fun _ _ => 0)
          true none new)).any (fun r => r.1 && r.2.feas && decide (r.2.us 0 0 = 0) && decide (r.2.k 0 0 = -1) && decide ((expectedImprovement 1 r.2.dir.arr).1 = 0) &&
            decide ((expectedImprovement 1 r.2.dir.arr).2 < 0)) = true := by
    intro kind
    cases kind <;> decide +kernel
  obtain ⟨⟨b, s2⟩, h1, h2⟩ := exists_of_check (h kind)
  simp only [Bool.and_eq_true, decide_eq_true_eq] at h2
  obtain ⟨⟨⟨⟨⟨rfl, h2⟩, h3⟩, h4⟩, h5⟩, h6⟩ := h2
  exact ⟨s2, h1, h2, h3, h4, h5, h6⟩

/-- What the first iteration leaves on `½ u² - 2001 u`, limits `[-1, 1 + 1/2000]`, started at `u = 0` with regularisation 1000. -/
structure After (s : St ℚ (Fin 1 → ℚ) (Fin 1 → ℚ) (Fin 1 → ℚ) (Lin ℚ 1 1) (BoxDir ℚ 1 1)) : Prop where
  us : s.us 0 = fun _ => 1
  xs : s.xs 1 = fun _ => 1
  xs0 : s.xs 0 = fun _ => 0
  recalc : s.recalc = true
  k : (s.dir.arr.out 0).k = fun _ => -1
  sol : s.dir.sol = ⟨fun _ => 1, [0], [], fun _ _ => 1 / 2001⟩
  preg : s.preg = 100
  feas : s.feas = true
  wasFeas : s.wasFeas = true

abbrev P2 := prob 1 0 (-2001) 0
noncomputable abbrev O2 (kind : Kind) :=
  boxOracle P2 (lim (1 + 1 / 2000)) noLlt BoxQp.Demo.fac (BoxQp.Demo.params 100 (1 / 10 ^ 5) 0) kind
abbrev Q2 := P2.toProbBox (lim (1 + 1 / 2000))

/-- The first iteration accepts the full step `u = 1`. -/
theorem first_accepted {kind : Kind} (hk : kind.box = true) : ∃ s1, iteration Q2 cfg (O2 kind) kind 40
    (start Q2 cfg (traj P2 (fun _ _ => 0) 0 P2.x0) (fun _ _ => 0) true (some 1000) new) = some (.continue, true, s1) ∧ After s1 := by
  have h : ∀ kind, kind.box = true → (iteration Q2 cfg (O2 kind) kind 40
      (start Q2 cfg (traj P2 (fun _ _ => 0) 0 P2.x0) (fun _ _ => 0) true (some 1000) new)).any (fun r =>
        decide (r.1 = .continue) && r.2.1 && decide (r.2.2.us 0 0 = 1) && decide (r.2.2.xs 1 0 = 1) &&
        decide ((r.2.2.dir.arr.out 0).k 0 = -1) && decide (r.2.2.dir.sol.x 0 = 1) && decide (r.2.2.dir.sol.free = [0]) &&
        decide (r.2.2.dir.sol.clamped = []) && (List.finRange _).all (fun i => (List.finRange _).all fun j => decide (r.2.2.dir.sol.Hinv i j = 1 / 2001)) && decide (r.2.2.preg = 100) &&
        r.2.2.feas && r.2.2.wasFeas && decide (r.2.2.xs 0 0 = 0) && r.2.2.recalc) = true := by
    intro kind hk
    cases kind <;> simp only [Kind.box, Bool.false_eq_true] at hk <;> decide +kernel
  obtain ⟨⟨e, b, s1⟩, h1, h2⟩ := exists_of_check (h kind hk)
  simp only [Bool.and_eq_true, decide_eq_true_eq, List.all_eq_true] at h2
  obtain ⟨⟨⟨⟨⟨⟨⟨⟨⟨⟨⟨⟨⟨rfl, rfl⟩, h3⟩, h4⟩, h5⟩, h6⟩, h7⟩, h8⟩, h9⟩, h10⟩, h11⟩, h12⟩, h13⟩, h14⟩ := h2
  refine ⟨s1, h1, ?_, ?_, ?_, h14, ?_, ?_, h10, h11, h12⟩
  · funext i; rw [Subsingleton.elim i 0]; exact h3
  · funext i; rw [Subsingleton.elim i 0]; exact h4
  · funext i; rw [Subsingleton.elim i 0]; exact h13
  · funext i; rw [Subsingleton.elim i 0]; exact h5
  · generalize s1.dir.sol = sol at h6 h7 h8 h9
    obtain ⟨x, fr, cl, Hi⟩ := sol
    dsimp only at h6 h7 h8 h9
    subst h7 h8
    congr 1
    · funext i; rw [Subsingleton.elim i 0]; exact h6
    · funext i j; exact h9 i (List.mem_finRange i) j (List.mem_finRange j)

/-- The node of the second iteration: every control is clamped. -/
theorem second_node : ∃ o, boxNode BoxQp.Demo.fac (BoxQp.Demo.params 100 (1 / 10 ^ 5) 0) (some 100) true (fun _ : Fin 1 => -1)
      (fun _ => 1 + 1 / 2000) (fun _ => 1) ((P2.node 0).derivs P2.x0 (fun _ => 1)) (termValue (some 100) true (m1 0 *ᵥ fun _ => 1) (m1 0) 0) 0
      (fun _ => -1) ⟨fun _ => 1, [0], [], fun _ _ => 1 / 2001⟩ = some o ∧
    o.1.Q.Qu ⬝ᵥ o.1.k = 0 ∧ o.1.k ⬝ᵥ (o.1.Q.Quu *ᵥ o.1.k) = 201 / 4000000 := by
  obtain ⟨o, h1, h2⟩ := exists_of_check (r := boxNode BoxQp.Demo.fac (BoxQp.Demo.params 100 (1 / 10 ^ 5) 0) (some 100) true (fun _ : Fin 1 => -1)
      (fun _ => 1 + 1 / 2000) (fun _ => 1) ((P2.node 0).derivs P2.x0 (fun _ => 1)) (termValue (some 100) true (m1 0 *ᵥ fun _ => 1) (m1 0) 0) 0
      (fun _ => -1) ⟨fun _ => 1, [0], [], fun _ _ => 1 / 2001⟩)
    (p := fun o => decide (o.1.Q.Qu ⬝ᵥ o.1.k = 0) && decide (o.1.k ⬝ᵥ (o.1.Q.Quu *ᵥ o.1.k) = 201 / 4000000)) (by decide +kernel)
  simp only [Bool.and_eq_true, decide_eq_true_eq] at h2
  exact ⟨o, h1, h2⟩

/-- The direction of the second iteration. -/
theorem second_direction {kind : Kind} {s : St ℚ (Fin 1 → ℚ) (Fin 1 → ℚ) (Fin 1 → ℚ) (Lin ℚ 1 1) (BoxDir ℚ 1 1)} (h : After s) :
    ∃ s2, dirLoop Q2 cfg (O2 kind) 40 s = some (true, s2) ∧ s2.feas = true ∧ s2.wasFeas = true ∧ s2.preg = 100 ∧ s2.xs = s.xs ∧ s2.us = s.us ∧
      expectedImprovement 1 s2.dir.arr = (0, -(201 / 4000000)) := by
  obtain ⟨o, h1, h2, h3⟩ := second_node
  have hb : ∀ f : Nat → Fin 1 → ℚ, ∃ g, boxBackward noLlt BoxQp.Demo.fac (BoxQp.Demo.params 100 (1 / 10 ^ 5) 0) (lim (1 + 1 / 2000)) s.us
      (some 100) true 1 (fun t => (P2.node t).derivs (s.xs t) (s.us t)) (P2.term.q + P2.term.Q *ᵥ s.xs 1) P2.term.Q f s.dir = some g ∧
      g.arr.out 0 = o.1 := by
    intro f
    have hn : boxNode BoxQp.Demo.fac (BoxQp.Demo.params 100 (1 / 10 ^ 5) 0) (some 100) true ((lim (1 + 1 / 2000)).lb 0)
        ((lim (1 + 1 / 2000)).ub 0) (s.us 0) ((P2.node 0).derivs (s.xs 0) (s.us 0))
        (termValue (some 100) true (P2.term.q + P2.term.Q *ᵥ s.xs 1) P2.term.Q (f 1)) (f 0) (s.dir.arr.out 0).k s.dir.sol = some o := by
      rw [← h1, h.us, h.xs0, h.k, h.sol, h.xs]
      have e : P2.term.q + P2.term.Q *ᵥ (fun _ => 1) = m1 0 *ᵥ fun _ => 1 := by
        show (0 : Fin 1 → ℚ) + _ = _
        rw [zero_add]; rfl
      rw [e]
      rfl
    unfold boxBackward boxBackLoop
    rw [if_pos ⟨rfl, rfl, by decide⟩]
    simp only [Function.update_self, zero_add]
    rw [hn]
    simp only [boxBackLoop]
    exact ⟨_, rfl, by simp⟩
  have hcd : ∃ s2, computeDirection Q2 (O2 kind) s = (true, s2) ∧ s2.feas = true ∧ s2.wasFeas = true ∧ s2.preg = 100 ∧ s2.xs = s.xs ∧
      s2.us = s.us ∧ s2.dir.arr.out 0 = o.1 := by
    have hc : ∃ s' : St ℚ (Fin 1 → ℚ) (Fin 1 → ℚ) (Fin 1 → ℚ) (Lin ℚ 1 1) (BoxDir ℚ 1 1), calcDiff Q2 (O2 kind) s = s' ∧ s'.feas = true ∧ s'.wasFeas = true ∧ s'.preg = 100 ∧ s'.xs = s.xs ∧ s'.us = s.us ∧
        s'.dir = s.dir ∧ s'.lin = ⟨fun t => (P2.node t).derivs (s.xs t) (s.us t), P2.term.q + P2.term.Q *ᵥ s.xs 1, P2.term.Q⟩ := by
      refine ⟨_, rfl, ?_⟩
      unfold calcDiff problemCalc
      by_cases hi : s.iter = 0 <;> simp only [hi, if_true, if_false] <;>
        exact ⟨h.feas, h.wasFeas, h.preg, trivial, trivial, trivial, rfl⟩
    obtain ⟨s', e1, e2, e3, e4, e5, e6, e7, e8⟩ := hc
    obtain ⟨g, hg, hgo⟩ := hb s'.fs
    unfold computeDirection
    simp only [h.recalc, if_true, e1]
    have hbw : (O2 kind).backward s' = (true, fun t => (g.arr.out t).k, fun t dx => (g.arr.out t).Kfb *ᵥ dx, g) := by
      have : boxBackward noLlt BoxQp.Demo.fac (BoxQp.Demo.params 100 (1 / 10 ^ 5) 0) (lim (1 + 1 / 2000)) s'.us
        (some s'.preg) s'.feas 1 s'.lin.d s'.lin.LxT s'.lin.LxxT s'.fs s'.dir = some g := by
        rw [e6, e4, e2, e8, e7]; exact hg
      simp only [boxOracle]
      rw [show P2.T = 1 from rfl, this]
    rw [hbw]
    exact ⟨_, rfl, e2, e3, e4, e5, e6, hgo⟩
  obtain ⟨s2, e1, e2, e3, e4, e5, e6, e7⟩ := hcd
  refine ⟨s2, ?_, e2, e3, e4, e5, e6, ?_⟩
  · rw [dirLoop, e1]; rfl
  · simp only [expectedImprovement, sumTo, e7, h2, h3, zero_add]

/-- C134, counterexample: `½ u² - 10 u` with limits `[-1, 1]`, feasible candidate `u = 0`, default parameters. The feed-forward term of
the first iteration is `-1`, so that the full step is `u = 1`: the optimum within the limits, which gains 9.5. Both box solvers end
the iteration at `u = 0`. -/
theorem C134_rejected_counterexample {kind : Kind} :
    OptimalWithin (prob 1 0 (-10) 0) (lim 1) (fun _ _ => 1) ∧
    total (prob 1 0 (-10) 0) (fun _ _ => 1) = total (prob 1 0 (-10) 0) (fun _ _ => 0) - 19 / 2 ∧
    (∃ s2, dirLoop ((prob 1 0 (-10) 0).toProbBox (lim 1)) cfg
        (boxOracle (prob 1 0 (-10) 0) (lim 1) noLlt BoxQp.Demo.fac (BoxQp.Demo.params 100 (1 / 10 ^ 5) 0) kind) 40
        (start ((prob 1 0 (-10) 0).toProbBox (lim 1)) cfg (traj (prob 1 0 (-10) 0) (fun _ _ => 0) 0 (prob 1 0 (-10) 0).x0) (fun _ _ => 0)
          true none new) = some (true, s2) ∧ s2.k 0 0 = -1) ∧
    ∃ o, run kind (prob 1 0 (-10) 0) 1 1 0 none = some o ∧ o.final.us 0 = (fun _ => 0) := by
  have ht : ∀ us : Nat → Fin 1 → ℚ, total (prob 1 0 (-10) 0) us = 1 / 2 * us 0 0 * us 0 0 - 10 * us 0 0 := by
    intro us
    simp [total, costToGo, prob, traj, Lqr.cost, Lqr.costT, Lqr.next, m1, dotProduct, mulVec]
    ring
  refine ⟨⟨fun t _ _ i => by show (-1 : ℚ) ≤ 1 ∧ (1 : ℚ) ≤ 1; norm_num, fun vs hv => ?_⟩, by rw [ht, ht]; norm_num, ?_, ?_⟩
  · have h1 : vs 0 0 ≤ 1 := (hv 0 (by decide) rfl 0).2
    rw [ht, ht]
    nlinarith [sq_nonneg (vs 0 0 - 1)]
  · obtain ⟨s2, h1, -, -, h4, -⟩ := first_blocked kind
    exact ⟨s2, h1, h4⟩
  · obtain ⟨s2, h1, h2, h3, -, h5, h6⟩ := first_blocked kind
    have hs : ∃ r, iteration ((prob 1 0 (-10) 0).toProbBox (lim 1)) cfg
        (boxOracle (prob 1 0 (-10) 0) (lim 1) noLlt BoxQp.Demo.fac (BoxQp.Demo.params 100 (1 / 10 ^ 5) 0) kind) kind 40
        (start ((prob 1 0 (-10) 0).toProbBox (lim 1)) cfg (traj (prob 1 0 (-10) 0) (fun _ _ => 0) 0 (prob 1 0 (-10) 0).x0) (fun _ _ => 0)
          true none new) = some r := by
      unfold iteration
      rw [h1]
      simp only
      split_ifs <;> exact ⟨_, rfl⟩
    obtain ⟨⟨e, b, s3⟩, hi⟩ := hs
    have hb := C134_blocked_iteration h1 h2 (fun a ha => by
      show a * ((expectedImprovement 1 s2.dir.arr).1 + (1 / 2) * a * (expectedImprovement 1 s2.dir.arr).2) < 0
      have hp : ∀ a ∈ cfg.alphas, 0 < a := by decide +kernel
      rw [h5, zero_add]
      have h7 : 0 < a * (1 / 2 * a) := mul_pos (hp a ha) (mul_pos (by norm_num) (hp a ha))
      have := mul_neg_of_pos_of_neg h7 h6
      linarith [mul_assoc a (1 / 2 * a) (expectedImprovement 1 s2.dir.arr).2]) hi
    have hu : s3.us 0 = fun _ => 0 := by
      rw [hb.2]; funext i; rw [Subsingleton.elim i 0]; exact h3
    unfold run solve iterLoop
    rw [hi]
    cases e with
    | giveUp => exact ⟨_, rfl, hu⟩
    | converged => exact ⟨_, rfl, hu⟩
    | «continue» => exact ⟨_, rfl, hu⟩

/-- C134, counterexample: `½ u² - 2001 u` with limits `[-1, 1 + 1/2000]`, feasible candidate `u = 0`, default parameters except
`init_reg = 1000`. Both box solvers return `true` with `u = 1`, although the control at the limit costs almost 1 less. -/
theorem C134_false_convergence_counterexample {kind : Kind} (hk : kind.box = true) (maxiter : Nat) :
    (lim (1 + 1 / 2000)).Within 1 (fun _ _ => 1 + 1 / 2000) ∧
    ∃ o, run kind P2 (1 + 1 / 2000) (maxiter + 2) 0 (some 1000) = some o ∧ o.ret = true ∧ o.final.us 0 = (fun _ => 1) ∧
      total P2 (fun _ _ => 1 + 1 / 2000) < total P2 o.final.us - 99 / 100 := by
  refine ⟨fun t _ _ i => by show (-1 : ℚ) ≤ 1 + 1 / 2000 ∧ (1 : ℚ) + 1 / 2000 ≤ 1 + 1 / 2000; norm_num, ?_⟩
  obtain ⟨s1, h1, ha⟩ := first_accepted hk
  have ha' : After { s1 with iter := s1.iter + 1 } := ⟨ha.us, ha.xs, ha.xs0, ha.recalc, ha.k, ha.sol, ha.preg, ha.feas, ha.wasFeas⟩
  obtain ⟨s2, d1, d2, d3, d4, d5, d6, d7⟩ := second_direction (kind := kind) ha'
  obtain ⟨s3, i1, -, i3⟩ := C134_blocked_convergence (c := cfg) (kind := kind) (fuel := 40) d1 d2 d3 (by decide +kernel) (by decide +kernel)
    (by decide +kernel) (by rw [d4]; decide +kernel) (by show (expectedImprovement 1 s2.dir.arr).1 = 0; rw [d7])
    (by show (expectedImprovement 1 s2.dir.arr).2 < 0; rw [d7]; decide +kernel)
    (by show -(1 / 2) * (expectedImprovement 1 s2.dir.arr).2 < _; rw [d7]; decide +kernel)
  have hus : s3.us 0 = fun _ => 1 := by rw [i3, d6]; exact ha.us
  refine ⟨⟨true, s3, [s1, s3]⟩, ?_, rfl, hus, ?_⟩
  · unfold run solve iterLoop
    rw [h1]
    simp only
    unfold iterLoop
    rw [i1]
    rfl
  · have ht : ∀ us : Nat → Fin 1 → ℚ, total P2 us = 1 / 2 * us 0 0 * us 0 0 - 2001 * us 0 0 := by
      intro us
      simp [total, costToGo, prob, traj, Lqr.cost, Lqr.costT, Lqr.next, m1, dotProduct, mulVec]
      ring
    rw [ht, ht, hus]
    norm_num

end BoxDemo
end Verif.Lq
