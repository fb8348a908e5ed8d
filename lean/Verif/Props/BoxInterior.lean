import Verif.Model.BoxNl
import Verif.Props.BoxNl

/-! # C140: trial steps from candidates whose controls are strictly inside their limits -/

set_option linter.unusedSectionVars false

namespace Verif.Nl
open Verif Verif.Solve Verif.Lq Matrix Filter Topology

section
variable {n m : Nat} {P : NlProb n m} {lin : (Nat → Fin n → ℝ) → (Nat → Fin m → ℝ) → Lin ℝ n m} {lim : CtrlLimits ℝ m}
  {llt : ∀ m, Matrix (Fin m) (Fin m) ℝ → Bool} {fac : BoxQp.Fac ℝ} {p : BoxQp.Params ℝ} {kind : Kind} {c : Cfg ℝ} {fuel : Nat}

/-- The state of a box solver on a nonlinear problem. -/
abbrev BoxSt (n m : Nat) := St ℝ (Fin n → ℝ) (Fin n → ℝ) (Fin m → ℝ) (Lin ℝ n m) (BoxDir ℝ n m)

/-- What a found direction leaves, from a feasible candidate. -/
structure BoxDirected (P : NlProb n m) (lin : (Nat → Fin n → ℝ) → (Nat → Fin m → ℝ) → Lin ℝ n m) (lim : CtrlLimits ℝ m)
    (llt : ∀ m, Matrix (Fin m) (Fin m) ℝ → Bool) (fac : BoxQp.Fac ℝ) (p : BoxQp.Params ℝ) (s s2 : BoxSt n m) : Prop where
  xs : s2.xs = s.xs
  us : s2.us = s.us
  feas : s2.feas = s.feas
  cost : s2.cost = totalCost P.toProb s.xs s.us
  k : s2.k = fun t => (s2.dir.arr.out t).k
  gain : s2.gain = fun t dx => (s2.dir.arr.out t).Kfb *ᵥ dx
  back : ∃ preg f d, boxBackward llt fac p lim s.us (some preg) s.feas P.T (lin s.xs s.us).d (lin s.xs s.us).LxT (lin s.xs s.us).LxxT f d
    = some s2.dir

theorem boxDirected {s s2 : BoxSt n m}
    (hs : (s.recalc = true ∧ (s.iter ≠ 0 → (∀ t < P.T, s.datas t = (P.next t (s.xs t) (s.us t), P.cost t (s.xs t) (s.us t))) ∧
      s.tdata = P.costT (s.xs P.T))) ∨
      (s.recalc = false ∧ s.lin = lin s.xs s.us ∧ s.cost = totalCost P.toProb s.xs s.us))
    (h : dirLoop (P.toProbBox lim) c (boxOracleNl P lin lim llt fac p kind) fuel s = some (true, s2)) :
    BoxDirected P lin lim llt fac p s s2 := by
  induction fuel generalizing s with
  | zero => simp [dirLoop] at h
  | succ fuel ih =>
    have hpre : ∃ s1 : BoxSt n m, computeDirection (P.toProbBox lim) (boxOracleNl P lin lim llt fac p kind) s =
        (((boxOracleNl P lin lim llt fac p kind).backward s1).1, { s1 with
          k := ((boxOracleNl P lin lim llt fac p kind).backward s1).2.1
          gain := ((boxOracleNl P lin lim llt fac p kind).backward s1).2.2.1
          dir := ((boxOracleNl P lin lim llt fac p kind).backward s1).2.2.2 }) ∧ s1.xs = s.xs ∧ s1.us = s.us ∧ s1.feas = s.feas ∧
        s1.lin = lin s.xs s.us ∧ s1.cost = totalCost P.toProb s.xs s.us := by
      rcases hs with ⟨hr, hd⟩ | ⟨hr, hl, hc⟩
      · refine ⟨calcDiff (P.toProbBox lim) (boxOracleNl P lin lim llt fac p kind) s, by simp only [computeDirection, hr, if_true], ?_⟩
        by_cases hi : s.iter = 0
        · simp only [calcDiff, hi, if_true, problemCalc]
          exact ⟨trivial, trivial, trivial, rfl, by rw [sumTo_eq]; rfl⟩
        · obtain ⟨h1, h2⟩ := hd hi
          simp only [calcDiff, hi, if_false]
          refine ⟨trivial, trivial, trivial, rfl, ?_⟩
          rw [sumTo_eq, h2, totalCost]
          congr 1
          exact Finset.sum_congr rfl fun t ht => by rw [h1 t (Finset.mem_range.mp ht)]; rfl
      · exact ⟨s, by simp only [computeDirection, hr, Bool.false_eq_true, if_false], rfl, rfl, rfl, hl, hc⟩
    obtain ⟨s1, e, h1, h2, h3, h4, h5⟩ := hpre
    simp only [dirLoop, e] at h
    cases hb : boxBackward llt fac p lim s1.us (some s1.preg) s1.feas P.T s1.lin.d s1.lin.LxT s1.lin.LxxT s1.fs s1.dir with
    | some g =>
      have hbk : (boxOracleNl P lin lim llt fac p kind).backward s1 =
          (true, fun t => (g.arr.out t).k, fun t dx => (g.arr.out t).Kfb *ᵥ dx, g) := by simp only [boxOracleNl, hb]
      simp only [hbk, if_true, Option.some.injEq, Prod.mk.injEq, true_and] at h
      subst h
      refine ⟨h1, h2, h3, h5, rfl, rfl, s1.preg, s1.fs, s1.dir, ?_⟩
      rw [h2, h3, h4] at hb
      exact hb
    | none =>
      have hbk : (boxOracleNl P lin lim llt fac p kind).backward s1 = (false, s1.k, s1.gain, s1.dir) := by simp only [boxOracleNl, hb]
      simp only [hbk, Bool.false_eq_true, if_false] at h
      split at h
      · simp at h
      · have := ih (s := increaseReg c { s1 with recalc := false }) (.inr ⟨rfl, by simp [increaseReg, h1, h2, h4], by simp [increaseReg, h1, h2, h5]⟩) h
        obtain ⟨i1, i2, i3, i4, i5, i6, i7⟩ := this
        simp only [increaseReg] at i1 i2 i3 i4 i7
        rw [h1] at i1 i4
        rw [h2] at i2 i4
        rw [h3] at i3
        rw [h1, h2, h3] at i7
        exact ⟨i1, i2, i3, i4, i5, i6, i7⟩

/-- The trial controls of a short step from a candidate whose controls are strictly inside their limits are not clamped. -/
theorem trial_inside (hm : 0 < m) {a : ℝ} {xs xsTry : Nat → Fin n → ℝ} {us usTry k : Nat → Fin m → ℝ}
    {gain : Nat → (Fin n → ℝ) → Fin m → ℝ} {fs : Nat → Fin n → ℝ} {datas : Nat → (Fin n → ℝ) × ℝ} {tdata costTry : ℝ}
    {g : Arrays ℝ n (fun _ => m)} (hk : k = fun t => (g.out t).k) (hg : gain = fun t dx => (g.out t).Kfb *ᵥ dx)
    (hin : ∀ t < P.T, lim.has t = true → ∀ i, lim.lb t i < polyU P xs us g (fun _ => 0) a t i ∧
      polyU P xs us g (fun _ => 0) a t i < lim.ub t i)
    (h : Core (P.toProbBox lim) kind a true P.x0 xs us k gain fs xsTry usTry datas tdata costTry) :
    (∀ t ≤ P.T, xsTry t = polyX P xs us g (fun _ => 0) a t) ∧ (∀ t < P.T, usTry t = polyU P xs us g (fun _ => 0) a t) ∧
      costTry = polyCost P xs us g (fun _ => 0) a := by
  have hn : ∀ t, ((P.toProbBox lim).node t).nuZero = false := fun t => by
    show decide (m = 0) = false
    simp; omega
  have hA : AutonomousOk (P.toProbBox lim) := fun t _ h0 => by rw [hn t] at h0; simp at h0
  obtain ⟨hdat, htot⟩ := h.total hA
  have hst : ∀ t ≤ P.T, xsTry t = pred P.x0 datas t := by
    intro t ht
    rcases Nat.lt_or_eq_of_le ht with ht | rfl
    · simpa using h.nodes.state t ht
    · have := h.last
      simpa [NlProb.toProbBox, NlProb.toProb] using this
  have hu : ∀ t < P.T, xsTry t = polyX P xs us g (fun _ => 0) a t → usTry t = polyU P xs us g (fun _ => 0) a t := by
    intro t ht hx
    rw [h.nodes.control t ht (hn t), hk, hg]
    have e : us t - a • (g.out t).k - (g.out t).Kfb *ᵥ (xsTry t - xs t) = polyU P xs us g (fun _ => 0) a t := by
      rw [polyU, hx]
    show (if kind.box then (if lim.has t then fun i => min (max ((us t - a • (g.out t).k - (g.out t).Kfb *ᵥ (xsTry t - xs t)) i) (lim.lb t i))
      (lim.ub t i) else us t - a • (g.out t).k - (g.out t).Kfb *ᵥ (xsTry t - xs t))
      else us t - a • (g.out t).k - (g.out t).Kfb *ᵥ (xsTry t - xs t)) = _
    rw [e]
    split
    · split
      · rename_i hh
        funext i
        obtain ⟨h1, h2⟩ := hin t ht hh i
        rw [max_eq_left h1.le, min_eq_left h2.le]
      · rfl
    · rfl
  have hx : ∀ t ≤ P.T, xsTry t = polyX P xs us g (fun _ => 0) a t := by
    intro t ht
    induction t with
    | zero => rw [hst 0 ht, polyX, smul_zero, add_zero]; rfl
    | succ t ih =>
      have i := ih (by omega)
      have iu := hu t ht i
      rw [hst _ ht, polyX, smul_zero, add_zero]
      show (datas t).1 = _
      rw [hdat t ht, i, iu]
      rfl
  have hu' : ∀ t < P.T, usTry t = polyU P xs us g (fun _ => 0) a t := fun t ht => hu t ht (hx t ht.le)
  refine ⟨hx, hu', ?_⟩
  rw [htot]
  show (∑ t ∈ Finset.range P.T, P.cost t (xsTry t) (usTry t)) + P.costT (xsTry P.T) = _
  rw [polyCost, hx P.T le_rfl]
  congr 1
  refine Finset.sum_congr rfl fun t ht => ?_
  rw [hx t (Finset.mem_range.mp ht).le, hu' t (Finset.mem_range.mp ht)]

/-- C140. Nonlinear problem with control limits, feasible candidate whose limited controls are strictly inside their limits,
exact first derivatives, box QPs that converged exactly with positive definite Hessians. If some feed-forward term is not zero,
every short enough step of both box solvers has trial controls strictly inside the limits and lowers the cost. If the full step
leaves no control at a limit, it is accepted. -/
theorem C140_interior (hm : 0 < m) (hbox : kind.box = true) {s s2 : BoxSt n m} (hrc : s.recalc = true)
    (hdata : s.iter ≠ 0 → (∀ t < P.T, s.datas t = (P.next t (s.xs t) (s.us t), P.cost t (s.xs t) (s.us t))) ∧
      s.tdata = P.costT (s.xs P.T))
    (hfe : s.feas = true) (hro : ∀ t ≤ P.T, s.xs t = traj P s.us t)
    (hd : dirLoop (P.toProbBox lim) c (boxOracleNl P lin lim llt fac p kind) fuel s = some (true, s2))
    (hE : Exact P s.xs s.us (lin s.xs s.us)) (hH : SymmHess P.T (lin s.xs s.us)) (hf : BoxQp.FacSound fac) (hl : LltSound llt)
    (hr : p.reg = 0) (hg : p.thGrad = 0) (hc : s2.dir.conv = true)
    (hin : ∀ t < P.T, lim.has t = true → ∀ i, lim.lb t i < s.us t i ∧ s.us t i < lim.ub t i)
    (hpd : ∀ t < P.T, BoxQp.PosDef (s2.dir.arr.out t).Q.Quu) (hne : ∃ t < P.T, (s2.dir.arr.out t).k ≠ 0)
    (hth : c.thAcceptstep < 1) :
    ∃ abar > 0, ∀ a, 0 < a → a ≤ abar →
      ∃ sT, probe (P.toProbBox lim) (boxOracleNl P lin lim llt fac p kind) kind a
          (prepare (boxOracleNl P lin lim llt fac p kind) kind s2) = (some (), sT) ∧
        (∀ t < P.T, lim.has t = true → ∀ i, lim.lb t i < sT.usTry t i ∧ sT.usTry t i < lim.ub t i) ∧
        sT.costTry = total P sT.usTry ∧ sT.costTry < total P s.us ∧
        ((∀ t < P.T, lim.has t = true → ∀ i, lim.lb t i < s.us t i - (s2.dir.arr.out t).k i ∧
            s.us t i - (s2.dir.arr.out t).k i < lim.ub t i) → accepts c kind sT = true) := by
  have hD := boxDirected (.inl ⟨hrc, hdata⟩) hd
  obtain ⟨preg, f, d, hb⟩ := hD.back
  rw [hfe] at hb
  have hw : lim.Within P.T s.us := fun t ht hh i => ⟨(hin t ht hh i).1.le, (hin t ht hh i).2.le⟩
  have hpass := nlPass_of hH hf hl hr hg hw hb hc
  set g := s2.dir.arr with hgdef
  have hgap : ∀ t ≤ P.T, (fun _ : Nat => (0 : Fin n → ℝ)) t = gapsOf P s.xs s.us t := by
    intro t ht
    cases t with
    | zero => simp [gapsOf, hro 0 ht, traj]
    | succ t => simp [gapsOf, hro t (by omega), hro (t + 1) ht, traj]
  -- the slope
  set S := ∑ t ∈ Finset.range P.T, (actionValue (some preg) ((lin s.xs s.us).d t) (g.V (t + 1))).Qu ⬝ᵥ (g.out t).k with hS
  have hder : HasDerivAt (polyCost P s.xs s.us g fun _ => 0) (-S) 0 := by
    refine (polyCost_deriv hE hgap).congr_deriv ?_
    rw [hS, ← hpass.slope]
    refine Eq.trans ?_ (total_slope (L := lin s.xs s.us) P.T fun t => -(g.out t).k - (g.out t).Kfb *ᵥ closedLoop (lin s.xs s.us) g t)
    have e : ∀ t, sens (lin s.xs s.us) g (fun _ => 0) t = closedLoop (lin s.xs s.us) g t := by
      intro t
      induction t with
      | zero => rfl
      | succ t ih => rw [sens, closedLoop, ih, add_zero]
    have e' : ∀ t, sensU (lin s.xs s.us) (fun t => -(g.out t).k - (g.out t).Kfb *ᵥ closedLoop (lin s.xs s.us) g t) t
        = closedLoop (lin s.xs s.us) g t := by
      intro t
      induction t with
      | zero => rfl
      | succ t ih => rw [sensU, closedLoop, ih]
    simp only [e, e']
  have h0 : polyCost P s.xs s.us g (fun _ => 0) 0 = total P s.us := by
    unfold polyCost total
    rw [poly_zero hgap P.T le_rfl, hro P.T le_rfl]
    congr 1
    refine Finset.sum_congr rfl fun t ht => ?_
    have ht := (Finset.mem_range.mp ht).le
    rw [poly_zero hgap t ht, polyU_zero hgap t ht, hro t ht]
  have htc : totalCost P.toProb s.xs s.us = total P s.us := by
    show (∑ t ∈ Finset.range P.T, P.cost t (s.xs t) (s.us t)) + P.costT (s.xs P.T) = _
    unfold total
    rw [hro P.T le_rfl]
    congr 1
    exact Finset.sum_congr rfl fun t ht => by rw [hro t (Finset.mem_range.mp ht).le]
  have hSpos : 0 < S := by
    have hle : ∀ t ∈ Finset.range P.T, (g.out t).k ⬝ᵥ ((g.out t).Q.Quu *ᵥ (g.out t).k) ≤
        (actionValue (some preg) ((lin s.xs s.us).d t) (g.V (t + 1))).Qu ⬝ᵥ (g.out t).k := fun t ht =>
      NodeOk.gain (hpass.node t (Finset.mem_range.mp ht)) fun hbd i => by
        simp only [Bool.and_eq_true] at hbd
        exact hw t (Finset.mem_range.mp ht) hbd.1 i
    refine lt_of_lt_of_le ?_ (Finset.sum_le_sum hle)
    obtain ⟨t, ht, hk⟩ := hne
    refine Finset.sum_pos' (fun j hj => ?_) ⟨t, Finset.mem_range.mpr ht, hpd t ht _ hk⟩
    by_cases h0 : (g.out j).k = 0
    · rw [h0, zero_dotProduct]
    · exact (hpd j (Finset.mem_range.mp hj) _ h0).le
  set D := (expectedImprovement P.T g).1 with hDdef
  set d1 := (expectedImprovement P.T g).2 with hd1
  have hDS : (∀ t < P.T, lim.has t = true → ∀ i, lim.lb t i < s.us t i - (g.out t).k i ∧
      s.us t i - (g.out t).k i < lim.ub t i) → D = S := by
    intro hfr
    have e : D = ∑ t ∈ Finset.range P.T, (g.out t).Q.Qu ⬝ᵥ (g.out t).k := by rw [hDdef]; simp only [expectedImprovement, sumTo_eq]
    rw [e, hS]
    refine Finset.sum_congr rfl fun t ht => ?_
    have ht := Finset.mem_range.mp ht
    congr 1
    funext i
    rcases (hpass.node t ht).row i with ⟨h1, -⟩ | ⟨hbd, -, -, h3⟩
    · exact h1
    · simp only [Bool.and_eq_true] at hbd
      have := hfr t ht hbd.1 i
      rcases h3 with ⟨h3, -⟩ | ⟨h3, -⟩ <;> linarith [this.1, this.2]
  have hexp : Tendsto (fun a : ℝ => D + (1 / 2) * a * d1) (𝓝[>] 0) (𝓝 D) := by
    have : Tendsto (fun a : ℝ => D + (1 / 2) * a * d1) (𝓝 0) (𝓝 (D + (1 / 2) * 0 * d1)) := by
      refine Tendsto.add tendsto_const_nhds (Tendsto.mul_const _ ?_)
      exact tendsto_id.const_mul _
    simp only [mul_zero, zero_mul, add_zero] at this
    exact this.mono_left nhdsWithin_le_nhds
  have hT := tendsto_improvement hder
  have ev1 : ∀ᶠ a in 𝓝[>] (0 : ℝ), (∀ t < P.T, lim.has t = true → ∀ i, lim.lb t i < s.us t i - (g.out t).k i ∧
      s.us t i - (g.out t).k i < lim.ub t i) → c.thAcceptstep * (D + (1 / 2) * a * d1) <
        (polyCost P s.xs s.us g (fun _ => 0) 0 - polyCost P s.xs s.us g (fun _ => 0) a) / a ∧ 0 < D + (1 / 2) * a * d1 := by
    by_cases hfr : ∀ t < P.T, lim.has t = true → ∀ i, lim.lb t i < s.us t i - (g.out t).k i ∧
      s.us t i - (g.out t).k i < lim.ub t i
    · have e := hDS hfr
      have hlt : c.thAcceptstep * D < S := by rw [e]; nlinarith
      filter_upwards [(hexp.const_mul c.thAcceptstep).eventually_lt hT hlt, hexp.eventually_const_lt (by rw [e]; exact hSpos)]
        with a h1 h2 _
      exact ⟨h1, h2⟩
    · exact Eventually.of_forall fun a h => absurd h hfr
  have ev2 := hT.eventually_const_lt hSpos
  have ev3 : ∀ᶠ a in 𝓝[>] (0 : ℝ), ∀ t ∈ Finset.range P.T, ∀ i ∈ (Finset.univ : Finset (Fin m)), lim.has t = true →
      lim.lb t i < polyU P s.xs s.us g (fun _ => 0) a t i ∧ polyU P s.xs s.us g (fun _ => 0) a t i < lim.ub t i := by
    refine Eventually.filter_mono nhdsWithin_le_nhds ?_
    rw [eventually_all_finset]
    intro t ht
    rw [eventually_all_finset]
    intro i _
    have ht := Finset.mem_range.mp ht
    by_cases hh : lim.has t = true
    · have hcont : Tendsto (fun a => polyU P s.xs s.us g (fun _ => 0) a t i) (𝓝 0) (𝓝 (s.us t i)) := by
        have := (polyU_deriv (polyX_deriv (g := g) hE hgap t ht.le)).continuousAt
        have := (continuous_apply i).continuousAt.tendsto.comp this.tendsto
        rw [polyU_zero hgap t ht.le] at this
        exact this
      filter_upwards [hcont.eventually_const_lt (hin t ht hh i).1, hcont.eventually_lt_const (hin t ht hh i).2] with a h1 h2 _
      exact ⟨h1, h2⟩
    · exact Eventually.of_forall fun a h => absurd h hh
  have ev := ev1.and (ev2.and ev3)
  rw [eventually_nhdsWithin_iff, Metric.eventually_nhds_iff] at ev
  obtain ⟨ε, hε, hev⟩ := ev
  refine ⟨min (ε / 2) 1, by positivity, fun a ha hab => ?_⟩
  obtain ⟨hv1, hv2, hv3⟩ := hev (y := a) (by
    rw [Real.dist_eq, sub_zero, abs_of_pos ha]
    linarith [min_le_left (ε / 2) (1 : ℝ)]) ha
  have hPk := prepare_keeps (O := boxOracleNl P lin lim llt fac p kind) (kind := kind) s2
  set s3 := prepare (boxOracleNl P lin lim llt fac p kind) kind s2 with hs3
  have hs3k : s3.k = s2.k ∧ s3.gain = s2.gain ∧ s3.dir = s2.dir ∧ (kind.feasibilityDriven = false → s3.d0 = D ∧ s3.d1 = d1) := by
    rw [hs3]
    unfold prepare
    cases hkf : kind.feasibilityDriven
    · refine ⟨rfl, rfl, rfl, fun _ => ?_⟩
      simp only [boxOracleNl, hkf, Bool.false_eq_true, if_false]
      exact ⟨rfl, rfl⟩
    · exact ⟨rfl, rfl, rfl, fun h => by simp at h⟩
  have hf3 : s3.feas = true := by rw [hPk.2.2.1, hD.feas, hfe]
  obtain ⟨sT, hp, hpr⟩ := probe_some (P := P.toProbBox lim) (O := boxOracleNl P lin lim llt fac p kind) (kind := kind)
    (fun _ => rfl) (fun _ => rfl) a ha.le (hab.trans (min_le_right _ _)) s3
  have hcore := hpr.core
  have hfirst : first (P.toProbBox lim) kind s3 = P.x0 := by
    unfold first
    rw [if_neg (by intro e; rw [e] at hbox; simp [Kind.box] at hbox)]
    rfl
  rw [hfirst, hf3, hPk.1, hPk.2.1, hD.xs, hD.us] at hcore
  obtain ⟨hX, hU, hC⟩ := trial_inside hm (g := g) (hs3k.1.trans hD.k) (hs3k.2.1.trans hD.gain)
    (fun t ht hh i => hv3 t (Finset.mem_range.mpr ht) i (Finset.mem_univ i) hh) hcore
  have hd01 := probe_expImp (d := (D, d1)) hf3
    (fun hkf s' hs' hf' => by
      rw [hs3k.2.2.1] at hs'
      simp only [boxOracleNl, hkf, if_true, hf', hs', expectedImprovementFddp_feas]
      rfl) hs3k.2.2.2 hp
  have hlow : sT.costTry < total P s.us := by
    rw [hC, ← h0]
    have := mul_pos ha hv2
    rw [mul_div_cancel₀ _ ha.ne'] at this
    linarith
  have hdV : sT.dV = total P s.us - sT.costTry := by rw [hpr.dV, hPk.2.2.2.1, hD.cost, htc]
  refine ⟨sT, hp, fun t ht hh i => ?_, ?_, hlow, fun hfr => ?_⟩
  · rw [hU t ht]; exact hv3 t (Finset.mem_range.mpr ht) i (Finset.mem_univ i) hh
  · have ht : ∀ t ≤ P.T, traj P sT.usTry t = polyX P s.xs s.us g (fun _ => 0) a t := by
      intro t ht
      induction t with
      | zero => rw [traj, polyX, smul_zero, add_zero]
      | succ t ih => rw [traj, ih (by omega), polyX, smul_zero, add_zero, hU t ht]; rfl
    rw [hC]
    unfold polyCost total
    rw [ht P.T le_rfl]
    congr 1
    exact Finset.sum_congr rfl fun t h => by rw [ht t (Finset.mem_range.mp h).le, hU t (Finset.mem_range.mp h)]
  · obtain ⟨hw1, hw2⟩ := hv1 hfr
    have hx : 0 ≤ sT.dVexp := by
      rw [hpr.dVexp, hd01.1, hd01.2]; exact (mul_pos ha hw2).le
    have hgt : c.thAcceptstep * sT.dVexp < sT.dV := by
      rw [hdV, hC, ← h0, hpr.dVexp, hd01.1, hd01.2]
      have := mul_lt_mul_of_pos_left hw1 ha
      rw [mul_div_cancel₀ _ ha.ne'] at this
      nlinarith
    have hfT : sT.feas = true := by rw [hpr.keeps.feas, hf3]
    unfold accepts
    cases hkf : kind.feasibilityDriven <;> simp [hx, hgt, hfT]

end

/-! ### Concrete problem -/

namespace BoxDemo

theorem traj_demo : traj Demo.prob (fun _ _ => 0) = fun _ _ => 1 := by
  funext t
  induction t with
  | zero => rfl
  | succ t ih => rw [traj, ih]; funext i; simp [Demo.prob]

/-- The first round of `solve` on that problem finds the direction `g`. -/
theorem first_direction (kind : Kind) (c : Cfg ℝ) (s0 : BoxSt 1 1) (hs0 : s0.dir = dir (-1 / 2)) {g : BoxDir ℝ 1 1}
    (h1 : pass (-1) (-1 / 2) = some g) :
    ∃ s2, dirLoop (Demo.prob.toProbBox (lim (-1))) c (boxOracleNl Demo.prob Demo.dlin (lim (-1)) Demo.chol fac params kind) 1
      (start (Demo.prob.toProbBox (lim (-1))) c (fun _ _ => 1) (fun _ _ => 0) true (some 0) s0) = some (true, s2) ∧ s2.dir = g := by
  unfold pass at h1
  rw [traj_demo] at h1
  generalize hst : calcDiff (Demo.prob.toProbBox (lim (-1))) (boxOracleNl Demo.prob Demo.dlin (lim (-1)) Demo.chol fac params kind)
    (start (Demo.prob.toProbBox (lim (-1))) c (fun _ _ => 1) (fun _ _ => 0) true (some 0) s0) = st
  have e1 : st.us = fun _ _ => 0 := by rw [← hst]; rfl
  have e2 : st.preg = 0 ∧ st.feas = true ∧ st.dir = s0.dir ∧ st.lin = Demo.dlin (fun _ _ => 1) (fun _ _ => 0) := by
    rw [← hst]; exact ⟨rfl, rfl, rfl, rfl⟩
  have e3 : st.fs = fun _ _ => 0 := by
    rw [← hst]
    funext t i
    cases t with
    | zero => simp [calcDiff, start, problemCalc, NlProb.toProbBox, NlProb.toProb, Demo.prob]
    | succ t => simp [calcDiff, start, problemCalc, NlProb.toProbBox, NlProb.toProb, Demo.prob]
  have hb : boxBackward Demo.chol fac params (lim (-1)) st.us (some st.preg) st.feas 1 st.lin.d st.lin.LxT st.lin.LxxT st.fs st.dir
      = some g := by
    rw [e1, e2.1, e2.2.1, e2.2.2.1, e2.2.2.2, e3, hs0]; exact h1
  have hbk : (boxOracleNl Demo.prob Demo.dlin (lim (-1)) Demo.chol fac params kind).backward st =
      (true, fun t => (g.arr.out t).k, fun t dx => (g.arr.out t).Kfb *ᵥ dx, g) := by
    have hb' : boxBackward Demo.chol fac params (lim (-1)) st.us (some st.preg) st.feas Demo.prob.T st.lin.d st.lin.LxT st.lin.LxxT
      st.fs st.dir = some g := hb
    simp only [boxOracleNl, hb']
  have hcd : computeDirection (Demo.prob.toProbBox (lim (-1))) (boxOracleNl Demo.prob Demo.dlin (lim (-1)) Demo.chol fac params kind)
      (start (Demo.prob.toProbBox (lim (-1))) c (fun _ _ => 1) (fun _ _ => 0) true (some 0) s0) =
      (true, { st with k := fun t => (g.arr.out t).k, gain := fun t dx => (g.arr.out t).Kfb *ᵥ dx, dir := g }) := by
    have hrc : (start (Demo.prob.toProbBox (lim (-1))) c (fun _ _ => 1) (fun _ _ => 0) true (some 0) s0).recalc = true := rfl
    simp only [computeDirection, hrc, if_true, hst, hbk]
  refine ⟨{ st with k := fun t => (g.arr.out t).k, gain := fun t dx => (g.arr.out t).Kfb *ᵥ dx, dir := g }, ?_, rfl⟩
  simp only [dirLoop, hcd, if_true]

/-- The hypotheses of `C140_interior` are met: zero controls of `Demo.prob` with the limits `[-1, 1]`, warm-started by the
feed-forward term that an earlier call left. Short steps of both box solvers lower the cost and are accepted. -/
example {kind : Kind} (hbox : kind.box = true) (c : Cfg ℝ) (hth : c.thAcceptstep < 1) (s0 : BoxSt 1 1) (hs0 : s0.dir = dir (-1 / 2)) :
    ∃ s2, dirLoop (Demo.prob.toProbBox (lim (-1))) c (boxOracleNl Demo.prob Demo.dlin (lim (-1)) Demo.chol fac params kind) 1
        (start (Demo.prob.toProbBox (lim (-1))) c (fun _ _ => 1) (fun _ _ => 0) true (some 0) s0) = some (true, s2) ∧
      ∃ abar > 0, ∀ a, 0 < a → a ≤ abar →
        ∃ sT, probe (Demo.prob.toProbBox (lim (-1))) (boxOracleNl Demo.prob Demo.dlin (lim (-1)) Demo.chol fac params kind) kind a
            (prepare (boxOracleNl Demo.prob Demo.dlin (lim (-1)) Demo.chol fac params kind) kind s2) = (some (), sT) ∧
          sT.costTry < total Demo.prob (fun _ _ => 0) ∧ accepts c kind sT = true := by
  obtain ⟨g, h1, h2, h3, h4⟩ := pass_of (b := -1) (w := -1 / 2) (x := -1 / 2) inside
  have hk : (g.arr.out 0).k ≠ 0 := by
    rw [h3]
    intro h
    have := congrFun h 0
    norm_num at this
  have hd := first_direction kind c s0 hs0 h1
  obtain ⟨s2, hd, hg⟩ := hd
  refine ⟨s2, hd, ?_⟩
  have h0 : ∀ t, t < Demo.prob.T → t = 0 := fun t ht => by have : t < 1 := ht; omega
  obtain ⟨abar, hpos, h⟩ := C140_interior (by norm_num) hbox rfl (fun h => absurd rfl h) rfl
    (fun t _ => (congrFun traj_demo t).symm) hd
    (Demo.exact _ _) (Demo.symmHess _ _) fac_sound Demo.chol_sound rfl rfl (by rw [hg]; exact h2)
    (fun t _ _ i => by show (-1 : ℝ) < 0 ∧ (0 : ℝ) < 1; norm_num)
    (fun t ht v hv => by
      rw [h0 t ht, hg]
      have := dot_self_pos hv
      simp only [dotProduct, mulVec, Fin.sum_univ_one, Fin.isValue, h4] at this ⊢
      linarith)
    ⟨0, by decide, by rw [hg]; exact hk⟩ hth
  refine ⟨abar, hpos, fun a ha hab => ?_⟩
  obtain ⟨sT, i1, -, -, i4, i5⟩ := h a ha hab
  refine ⟨sT, i1, i4, i5 fun t ht _ i => ?_⟩
  rw [h0 t ht, hg, h3]
  show (-1 : ℝ) < 0 - -(-1 / 2) ∧ (0 : ℝ) - -(-1 / 2) < 1
  norm_num

end BoxDemo

end Verif.Nl
