import Verif.Lemmas.Nl
import Mathlib.LinearAlgebra.Matrix.Notation
import Mathlib.Topology.Order.OrderClosed
import Mathlib.Analysis.Calculus.Deriv.Slope

set_option linter.unusedSectionVars false

/-!
# The DDP solvers on nonlinear problems (C107-C110)

For every differentiable problem on a vector state, at every iteration of every run of `solve`.
-/

namespace Verif.Nl
open Verif Verif.Solve Verif.Lq Verif.Deriv Matrix Filter Topology

variable {n m : Nat} {P : NlProb n m} {kind : Kind} {c : Cfg ℝ} {fuel : Nat} {s s1 : NlSt n m}
variable {lin : (Nat → Fin n → ℝ) → (Nat → Fin m → ℝ) → Lin ℝ n m}
variable {llt : ∀ m, Matrix (Fin m) (Fin m) ℝ → Bool}

theorem valid_of (hm : 0 < m) (hs : AtIteration P.toProb c (oracle P lin llt kind) kind fuel s) :
    Valid P lin kind s := by
  obtain ⟨xs, us, feas, reg, s0, h1, h2, h3⟩ := hs
  exact valid_reached hm (valid_start h1 h2 reg s0) h3

/-- Improvement along the curve, from its derivative. -/
theorem tendsto_improvement {F : ℝ → ℝ} {D : ℝ} (h : HasDerivAt F (-D) 0) :
    Tendsto (fun a => (F 0 - F a) / a) (𝓝[>] 0) (𝓝 D) := by
  have h1 := (HasDerivAt.tendsto_slope_zero_right h).neg
  rw [neg_neg] at h1
  refine h1.congr fun a => ?_
  simp only [zero_add, smul_eq_mul]
  rw [div_eq_inv_mul]; ring

/-- The curve of a feasible candidate. -/
theorem feasible_curve (hE : Exact P s.xs s.us (lin s.xs s.us)) (hr : Rollout P.toProb s.xs s.us)
    (hD : Directed P lin llt s s1) :
    HasDerivAt (polyCost P s.xs s.us s1.dir fun _ => 0) (-(expectedImprovement P.T s1.dir).1) 0 ∧
    polyCost P s.xs s.us s1.dir (fun _ => 0) 0 = totalCost P.toProb s.xs s.us := by
  have hg := gaps_zero hr
  have hf : ∀ t ≤ P.T, (fun _ : Nat => (0 : Fin n → ℝ)) t = gapsOf P s.xs s.us t := fun t ht => (hg t ht).symm
  obtain ⟨p, hb⟩ := hD.back
  have hb' := Back.congr_gap hb (f' := fun _ => 0) fun t ht => by rw [hD.fs t ht, hg t ht]
  constructor
  · refine (polyCost_deriv hE hf).congr_deriv ?_
    rw [slope_eq hb' fun _ _ _ => rfl]
    simp [expectedImprovement, sumTo_eq]
  · unfold polyCost totalCost
    rw [poly_zero hf P.T le_rfl]
    congr 1
    refine Finset.sum_congr rfl fun t ht => ?_
    have ht := (Finset.mem_range.mp ht).le
    rw [poly_zero hf t ht, polyU_zero hf t ht]; rfl

theorem Directed.d1 (hl : LltSound llt) (hH : SymmHess P.T (lin s.xs s.us)) (hD : Directed P lin llt s s1) :
    0 ≤ (expectedImprovement P.T s1.dir).1 ∧
    (expectedImprovement P.T s1.dir).2 = -(expectedImprovement P.T s1.dir).1 ∧
    ((expectedImprovement P.T s1.dir).1 = 0 ↔ ∀ t < P.T, (s1.dir.out t).Q.Qu = 0) := by
  obtain ⟨p, hb⟩ := hD.back
  have hfacts := fun t ht => Back.facts hb hl hH.term t ht (hH.Luu t ht)
  have hterm : ∀ t < P.T, (s1.dir.out t).Q.Qu ⬝ᵥ (s1.dir.out t).k =
      (s1.dir.out t).k ⬝ᵥ ((s1.dir.out t).Q.Quu *ᵥ (s1.dir.out t).k) := fun t ht => by
    obtain ⟨-, -, -, -, hk, -⟩ := hfacts t ht
    rw [hk, dotProduct_comm]
  have hnn : ∀ t ∈ Finset.range P.T, 0 ≤ (s1.dir.out t).Q.Qu ⬝ᵥ (s1.dir.out t).k := fun t ht => by
    rw [hterm t (Finset.mem_range.mp ht)]
    by_cases h0 : (s1.dir.out t).k = 0
    · rw [h0, zero_dotProduct]
    · exact ((hfacts t (Finset.mem_range.mp ht)).2.2.2.1 _ h0).le
  refine ⟨?_, ?_, ?_⟩
  · simp only [expectedImprovement, sumTo_eq]; exact Finset.sum_nonneg hnn
  · simp only [expectedImprovement, sumTo_eq]
    rw [Finset.sum_congr rfl fun t ht => hterm t (Finset.mem_range.mp ht)]
  · simp only [expectedImprovement, sumTo_eq]
    rw [Finset.sum_eq_zero_iff_of_nonneg hnn]
    constructor
    · intro h t ht
      have h0 := h t (Finset.mem_range.mpr ht)
      obtain ⟨-, -, -, hpd, hk, -⟩ := hfacts t ht
      rw [hterm t ht] at h0
      have hk0 : (s1.dir.out t).k = 0 := by
        by_contra hne
        exact (hpd _ hne).ne' h0
      rw [← hk, hk0, mulVec_zero]
    · intro h t ht
      rw [h t (Finset.mem_range.mp ht), zero_dotProduct]

/-- C107. At every iteration whose candidate is feasible, whatever the Hessians and the regularisation of the
backward pass: every step length in [0, 1] can be tried, `dV` is the actual decrease of the total cost, and
for small steps both `dV` and the predicted improvement `dVexp` are `a * D` up to terms of smaller order,
where `D` is the linear term of the expected improvement. -/
theorem C107_slope (hm : 0 < m) (hs : AtIteration P.toProb c (oracle P lin llt kind) kind fuel s)
    (hfe : s.feas = true) (hE : Exact P s.xs s.us (lin s.xs s.us))
    (hd : dirLoop P.toProb c (oracle P lin llt kind) fuel s = some (true, s1)) :
    let D := (expectedImprovement P.T s1.dir).1
    let tried := fun a => probe P.toProb (oracle P lin llt kind) kind a (prepare (oracle P lin llt kind) kind s1)
    (∀ a, 0 ≤ a → a ≤ 1 → (tried a).1 = some () ∧
      (tried a).2.dV = total P s.us - total P (tried a).2.usTry) ∧
    Tendsto (fun a => (tried a).2.dV / a) (𝓝[>] 0) (𝓝 D) ∧
    Tendsto (fun a => (tried a).2.dVexp / a) (𝓝[>] 0) (𝓝 D) := by
  intro D tried
  have hv := valid_of hm hs
  have hD := hv.directed hd
  have hR := hD.ready (kind := kind) hv.inv.zero
  have hro := hv.ro hfe
  obtain ⟨hder, h0⟩ := feasible_curve hE hro hD
  have htr := fun (a : ℝ) (ha : 0 ≤ a) (ha1 : a ≤ 1) =>
    hR.trial (lin := lin) (llt := llt) hm (f := fun _ => 0) ha ha1 (.inl ⟨hfe, fun _ _ => rfl⟩)
  have hmem : ∀ᶠ a in 𝓝[>] (0 : ℝ), 0 < a ∧ a ≤ 1 := by
    filter_upwards [Ioc_mem_nhdsGT (show (0 : ℝ) < 1 by norm_num)] with a ha
    exact ⟨ha.1, ha.2⟩
  refine ⟨fun a ha ha1 => ?_, ?_, ?_⟩
  · obtain ⟨s3, ht, hp⟩ := probe_some (P := P.toProb) (O := oracle P lin llt kind) (kind := kind)
      (fun _ => rfl) (fun _ => rfl) a ha ha1 (prepare (oracle P lin llt kind) kind s1)
    have e : tried a = (some (), s3) := ht
    rw [e]
    refine ⟨rfl, ?_⟩
    have hcore := hp.core
    rw [first_eq hR.zero, hR.feas, hfe] at hcore
    have hro3 := hcore.rollout (autonomousOk hm) (.inr (.inl rfl))
    rw [hp.dV, hR.cost, (hcore.total (autonomousOk hm)).2, rollout_total hro, rollout_total hro3]
  · refine (tendsto_improvement hder).congr' ?_
    filter_upwards [hmem] with a ha
    obtain ⟨sT, hp, -, hdV, -⟩ := htr a ha.1.le ha.2
    have e : tried a = (some (), sT) := hp
    rw [e, hdV, h0]
  · have hlim : Tendsto (fun a : ℝ => D + (1 / 2) * a * (expectedImprovement P.T s1.dir).2) (𝓝[>] 0) (𝓝 D) := by
      have : Tendsto (fun a : ℝ => D + (1 / 2) * a * (expectedImprovement P.T s1.dir).2) (𝓝 0)
          (𝓝 (D + (1 / 2) * 0 * (expectedImprovement P.T s1.dir).2)) := by
        refine Tendsto.add tendsto_const_nhds (Tendsto.mul_const _ ?_)
        exact tendsto_id.const_mul _
      simp only [mul_zero, zero_mul, add_zero] at this
      exact this.mono_left nhdsWithin_le_nhds
    refine hlim.congr' ?_
    filter_upwards [hmem] with a ha
    obtain ⟨sT, hp, -, -, hexp, -, hdd⟩ := htr a ha.1.le ha.2
    have e : tried a = (some (), sT) := hp
    rw [hfe, expectedImprovementFddp_feas, ite_self] at hdd
    have e0 : sT.d0 = D := congrArg Prod.fst hdd
    have e1 : sT.d1 = (expectedImprovement P.T s1.dir).2 := congrArg Prod.snd hdd
    rw [e, hexp, e0, e1, mul_div_cancel_left₀ _ ha.1.ne']

/-- C107. If the linear term of the expected improvement is not zero, the ratio of the actual to the
predicted improvement tends to one with the step length. -/
theorem C107_ratio (hm : 0 < m) (hs : AtIteration P.toProb c (oracle P lin llt kind) kind fuel s)
    (hfe : s.feas = true) (hE : Exact P s.xs s.us (lin s.xs s.us))
    (hd : dirLoop P.toProb c (oracle P lin llt kind) fuel s = some (true, s1))
    (hD : (expectedImprovement P.T s1.dir).1 ≠ 0) :
    let tried := fun a => probe P.toProb (oracle P lin llt kind) kind a (prepare (oracle P lin llt kind) kind s1)
    Tendsto (fun a => (tried a).2.dV / (tried a).2.dVexp) (𝓝[>] 0) (𝓝 1) := by
  intro tried
  obtain ⟨-, h1, h2⟩ := C107_slope hm hs hfe hE hd
  have h := h1.div h2 hD
  rw [div_self hD] at h
  refine h.congr' ?_
  filter_upwards [self_mem_nhdsWithin] with a ha
  exact div_div_div_cancel_right₀ (ne_of_gt ha) _ _

/-- C107. At an infeasible candidate the feasibility-driven solvers predict, to first order, the improvement
`dg = Σ Qu·k - Σ Vx·f`, but the cost really decreases by `dg + Σ (Vxx f)·δ`, where `δ` is the first-order
change of the states: prediction and improvement differ already to first order. -/
theorem C107_slope_gaps_partial (hm : 0 < m)
    (hs : AtIteration P.toProb c (oracle P lin llt kind) kind fuel s) (hkf : kind.feasibilityDriven = true)
    (hfe : s.feas = false) (hE : Exact P s.xs s.us (lin s.xs s.us))
    (hd : dirLoop P.toProb c (oracle P lin llt kind) fuel s = some (true, s1)) :
    let f := Solve.gap P.toProb s.xs s.us
    let dg := (∑ t ∈ Finset.range P.T, (s1.dir.out t).Q.Qu ⬝ᵥ (s1.dir.out t).k)
      - ∑ t ∈ Finset.range (P.T + 1), (s1.dir.V t).Vx ⬝ᵥ f t
    let tried := fun a => probe P.toProb (oracle P lin llt kind) kind a (prepare (oracle P lin llt kind) kind s1)
    (∀ a, 0 ≤ a → a ≤ 1 → (tried a).1 = some () ∧ (tried a).2.dV =
      totalCost P.toProb s.xs s.us - totalCost P.toProb (tried a).2.xsTry (tried a).2.usTry) ∧
    Tendsto (fun a => (tried a).2.dVexp / a) (𝓝[>] 0) (𝓝 dg) ∧
    Tendsto (fun a => (tried a).2.dV / a) (𝓝[>] 0)
      (𝓝 (dg + ∑ t ∈ Finset.range (P.T + 1), ((s1.dir.V t).Vxx *ᵥ f t) ⬝ᵥ sens (lin s.xs s.us) s1.dir f t)) := by
  intro f dg tried
  have hv := valid_of hm hs
  have hD := hv.directed hd
  have hR := hD.ready (kind := kind) hv.inv.zero
  have hf : ∀ t ≤ P.T, f t = gapsOf P s.xs s.us t := fun t _ => by rw [← gap_eq]
  have hfs : ∀ t ≤ P.T, f t = s1.fs t := fun t ht => (hf t ht).trans (hD.fs t ht).symm
  obtain ⟨p, hb⟩ := hD.back
  have hb' := Back.congr_gap hb (f' := f) fun t ht => (hfs t ht).symm
  have hder := polyCost_deriv (g := s1.dir) hE hf
  rw [slope_eq hb' (by rw [hfe]; simp)] at hder
  have h0 : polyCost P s.xs s.us s1.dir f 0 = totalCost P.toProb s.xs s.us := by
    unfold polyCost totalCost
    rw [poly_zero hf P.T le_rfl]
    congr 1
    refine Finset.sum_congr rfl fun t ht => ?_
    have ht := (Finset.mem_range.mp ht).le
    rw [poly_zero hf t ht, polyU_zero hf t ht]; rfl
  have hmem : ∀ᶠ a in 𝓝[>] (0 : ℝ), 0 < a ∧ a < 1 := by
    filter_upwards [Ioo_mem_nhdsGT (show (0 : ℝ) < 1 by norm_num)] with a ha
    exact ⟨ha.1, ha.2⟩
  have htr := fun (a : ℝ) (ha : 0 < a ∧ a < 1) =>
    hR.trial (lin := lin) (llt := llt) hm (f := f) ha.1.le ha.2.le (.inr ⟨hkf, hfe, ha.2.ne, hfs⟩)
  refine ⟨fun a ha ha1 => ?_, ?_, ?_⟩
  · obtain ⟨s3, ht, hp⟩ := probe_some (P := P.toProb) (O := oracle P lin llt kind) (kind := kind)
      (fun _ => rfl) (fun _ => rfl) a ha ha1 (prepare (oracle P lin llt kind) kind s1)
    have e : tried a = (some (), s3) := ht
    rw [e]
    exact ⟨rfl, by rw [hp.dV, hR.cost, (hp.core.total (autonomousOk hm)).2]⟩
  · -- the prediction
    have hdv : Tendsto (fun a => - ∑ t ∈ Finset.range (P.T + 1), f t ⬝ᵥ ((s1.dir.V t).Vxx *ᵥ
        (s.xs t - polyX P s.xs s.us s1.dir f a t))) (𝓝[>] 0) (𝓝 0) := by
      have : Tendsto (fun a => - ∑ t ∈ Finset.range (P.T + 1), f t ⬝ᵥ ((s1.dir.V t).Vxx *ᵥ
        (s.xs t - polyX P s.xs s.us s1.dir f a t))) (𝓝 0)
        (𝓝 (-∑ t ∈ Finset.range (P.T + 1), (0 : ℝ))) := by
        refine (tendsto_finsetSum _ fun t ht => ?_).neg
        have ht : t ≤ P.T := Nat.lt_succ_iff.mp (Finset.mem_range.mp ht)
        have hc : HasDerivAt (fun a => (s1.dir.V t).Vxx *ᵥ (s.xs t - polyX P s.xs s.us s1.dir f a t)) _ 0 :=
          hasDerivAt_mulVec _ ((polyX_deriv (g := s1.dir) hE hf t ht).const_sub (s.xs t))
        have hcont := hc.continuousAt.tendsto
        rw [poly_zero hf t ht, sub_self, mulVec_zero] at hcont
        have : Tendsto (fun a => ∑ i, f t i * ((s1.dir.V t).Vxx *ᵥ
            (s.xs t - polyX P s.xs s.us s1.dir f a t)) i) (𝓝 0) (𝓝 (∑ i, f t i * (0 : Fin n → ℝ) i)) :=
          tendsto_finsetSum _ fun i _ => ((tendsto_pi_nhds.mp hcont) i).const_mul _
        simp only [Pi.zero_apply, mul_zero, Finset.sum_const_zero] at this
        exact this
      simp only [Finset.sum_const_zero, neg_zero] at this
      exact this.mono_left nhdsWithin_le_nhds
    have hid : Tendsto (fun a : ℝ => a) (𝓝[>] 0) (𝓝 0) := nhdsWithin_le_nhds
    have hlim := (hdv.const_add dg).add ((hid.const_mul (1 / 2)).mul
      ((hdv.const_mul 2).const_sub (updateExpectedImprovement P.T false f s1.dir).2))
    simp only [mul_zero, zero_mul, add_zero] at hlim
    refine hlim.congr' ?_
    filter_upwards [hmem] with a ha
    obtain ⟨sT, hp, -, -, hexp, hx, hdd⟩ := htr a ha
    have e : tried a = (some (), sT) := hp
    have hupd : updateExpectedImprovement P.T false s1.fs s1.dir =
        updateExpectedImprovement P.T false f s1.dir := by
      simp only [updateExpectedImprovement, Bool.false_eq_true, if_false, sumTo_eq]
      rw [Finset.sum_congr rfl fun t ht =>
          congrArg ((s1.dir.V t).Vx ⬝ᵥ ·) (hfs t (Nat.lt_succ_iff.mp (Finset.mem_range.mp ht))).symm,
        Finset.sum_congr rfl fun t ht => show s1.fs t ⬝ᵥ ((s1.dir.V t).Vxx *ᵥ s1.fs t) =
          f t ⬝ᵥ ((s1.dir.V t).Vxx *ᵥ f t) by
            rw [hfs t (Nat.lt_succ_iff.mp (Finset.mem_range.mp ht))]]
    have hdvs : sumTo (fun t => s1.fs t ⬝ᵥ ((s1.dir.V t).Vxx *ᵥ (s.xs t - sT.xsTry t))) (P.T + 1) =
        ∑ t ∈ Finset.range (P.T + 1), f t ⬝ᵥ ((s1.dir.V t).Vxx *ᵥ
          (s.xs t - polyX P s.xs s.us s1.dir f a t)) := by
      rw [sumTo_eq]
      refine Finset.sum_congr rfl fun t ht => ?_
      have ht := Nat.lt_succ_iff.mp (Finset.mem_range.mp ht)
      rw [hfs t ht, hx t ht]
    rw [hkf, if_pos rfl, hfe] at hdd
    simp only [expectedImprovementFddp, hupd, hdvs, Bool.false_eq_true, if_false] at hdd
    have e0 := congrArg Prod.fst hdd
    have e1 := congrArg Prod.snd hdd
    simp only at e0 e1
    have eg : (updateExpectedImprovement P.T false f s1.dir).1 = dg := by
      simp only [updateExpectedImprovement, Bool.false_eq_true, if_false, sumTo_eq, dg]
    rw [e, hexp, e0, e1, mul_div_cancel_left₀ _ ha.1.ne', eg]
  · have hder' : HasDerivAt (polyCost P s.xs s.us s1.dir f) (-(dg + ∑ t ∈ Finset.range (P.T + 1),
        ((s1.dir.V t).Vxx *ᵥ f t) ⬝ᵥ sens (lin s.xs s.us) s1.dir f t)) 0 :=
      hder.congr_deriv (by simp only [dg]; ring)
    refine (tendsto_improvement hder').congr' ?_
    filter_upwards [hmem] with a ha
    obtain ⟨sT, hp, -, hdV, -⟩ := htr a ha
    have e : tried a = (some (), sT) := hp
    rw [e, hdV, h0]

/-- Small steps from a feasible candidate are accepted, also after other steps were tried. -/
theorem accepted_of_ready (hm : 0 < m) (hfe : s.feas = true) (hE : Exact P s.xs s.us (lin s.xs s.us))
    (hro : Rollout P.toProb s.xs s.us) (hD : Directed P lin llt s s1)
    (hpos : 0 < (expectedImprovement P.T s1.dir).1) (hth : c.thAcceptstep < 1) :
    ∃ abar > 0, ∀ s2, Ready P kind s s2 s1.dir s1.fs → ∀ a, 0 < a → a ≤ abar →
      ∃ sT, probe P.toProb (oracle P lin llt kind) kind a s2 = (some (), sT) ∧ accepts c kind sT = true := by
  obtain ⟨hder, h0⟩ := feasible_curve hE hro hD
  set D := (expectedImprovement P.T s1.dir).1 with hDdef
  set d1 := (expectedImprovement P.T s1.dir).2 with hd1
  have hT := tendsto_improvement hder
  have hexp : Tendsto (fun a : ℝ => D + (1 / 2) * a * d1) (𝓝[>] 0) (𝓝 D) := by
    have : Tendsto (fun a : ℝ => D + (1 / 2) * a * d1) (𝓝 0) (𝓝 (D + (1 / 2) * 0 * d1)) := by
      refine Tendsto.add tendsto_const_nhds (Tendsto.mul_const _ ?_)
      exact tendsto_id.const_mul _
    simp only [mul_zero, zero_mul, add_zero] at this
    exact this.mono_left nhdsWithin_le_nhds
  have hlt : c.thAcceptstep * D < D := by nlinarith
  have ev1 := (hexp.const_mul c.thAcceptstep).eventually_lt hT hlt
  have ev2 : ∀ᶠ a in 𝓝[>] (0 : ℝ), 0 < D + (1 / 2) * a * d1 := hexp.eventually_const_lt hpos
  have ev := ev1.and ev2
  rw [eventually_nhdsWithin_iff, Metric.eventually_nhds_iff] at ev
  obtain ⟨ε, hε, hev⟩ := ev
  refine ⟨min (ε / 2) 1, by positivity, fun s2 hR a ha hab => ?_⟩
  obtain ⟨hv1, hv2⟩ := hev (y := a) (by
    rw [Real.dist_eq, sub_zero, abs_of_pos ha]
    linarith [min_le_left (ε / 2) (1 : ℝ)]) ha
  obtain ⟨sT, hp, hfT, hdV, hx, -, hdd⟩ := hR.trial (lin := lin) (llt := llt) hm (f := fun _ => 0) ha.le
    (hab.trans (min_le_right _ _)) (.inl ⟨hfe, fun _ _ => rfl⟩)
  refine ⟨sT, hp, ?_⟩
  rw [hfe, expectedImprovementFddp_feas, ite_self] at hdd
  have e0 : sT.d0 = D := congrArg Prod.fst hdd
  have e1 : sT.d1 = d1 := congrArg Prod.snd hdd
  rw [e0, e1] at hx
  have hx0 : 0 ≤ sT.dVexp := by rw [hx]; exact (mul_pos ha hv2).le
  have hgt : sT.dV > c.thAcceptstep * sT.dVexp := by
    rw [hdV, hx, ← h0]
    have := mul_lt_mul_of_pos_left hv1 ha
    rw [mul_div_cancel₀ _ ha.ne'] at this
    nlinarith
  unfold accepts
  cases kind.feasibilityDriven <;> simp [hx0, hgt]

/-- C108. At every iteration with a feasible candidate that is not stationary (`D > 0`, see C109), there is a
step length below which every step passes the acceptance test. -/
theorem C108_accepted (hm : 0 < m) (hs : AtIteration P.toProb c (oracle P lin llt kind) kind fuel s)
    (hfe : s.feas = true) (hE : Exact P s.xs s.us (lin s.xs s.us)) (hth : c.thAcceptstep < 1)
    (hd : dirLoop P.toProb c (oracle P lin llt kind) fuel s = some (true, s1))
    (hpos : 0 < (expectedImprovement P.T s1.dir).1) :
    ∃ abar > 0, ∀ a, 0 < a → a ≤ abar →
      ∃ sT, probe P.toProb (oracle P lin llt kind) kind a (prepare (oracle P lin llt kind) kind s1) =
        (some (), sT) ∧ accepts c kind sT = true := by
  have hv := valid_of hm hs
  have hD := hv.directed hd
  obtain ⟨abar, h0, h⟩ := accepted_of_ready (kind := kind) (c := c) hm hfe hE (hv.ro hfe) hD hpos hth
  exact ⟨abar, h0, h _ (hD.ready hv.inv.zero)⟩

/-- A line search one of whose steps is acceptable accepts a step. -/
theorem lineSearch_accepts {g : Arrays ℝ n (fun _ => m)} {fs : Nat → Fin n → ℝ} {abar : ℝ}
    (hacc : ∀ s2, Ready P kind s s2 g fs → ∀ a, 0 < a → a ≤ abar →
      ∃ sT, probe P.toProb (oracle P lin llt kind) kind a s2 = (some (), sT) ∧ accepts c kind sT = true)
    (as : List ℝ) (has : ∃ a ∈ as, 0 < a ∧ a ≤ abar) (s2 : NlSt n m) (hR : Ready P kind s s2 g fs) :
    ∃ s3 sT a, Ready P kind s s3 g fs ∧
      probe P.toProb (oracle P lin llt kind) kind a s3 = (some (), sT) ∧
      accepts c kind sT = true ∧ lineSearch P.toProb c (oracle P lin llt kind) kind as s2 = accept kind sT := by
  induction as generalizing s2 with
  | nil => obtain ⟨a, ha, -⟩ := has; cases ha
  | cons b as ih =>
    have hRb := hR.probe (lin := lin) (llt := llt) b
    rcases hp : probe P.toProb (oracle P lin llt kind) kind b s2 with ⟨o, s'⟩
    rw [hp] at hRb
    simp only [lineSearch, hp]
    by_cases hb : 0 < b ∧ b ≤ abar
    · obtain ⟨sT, h1, h2⟩ := hacc s2 hR b hb.1 hb.2
      rw [hp] at h1
      obtain ⟨rfl, rfl⟩ := Prod.mk.inj h1
      simp only [h2, if_true]
      exact ⟨s2, s', b, hR, hp, h2, rfl⟩
    · have has' : ∃ a ∈ as, 0 < a ∧ a ≤ abar := by
        obtain ⟨a, ha, hx⟩ := has
        rcases List.mem_cons.mp ha with rfl | ha
        · exact absurd hx hb
        · exact ⟨a, ha, hx⟩
      cases o with
      | none => exact ih has' s' hRb
      | some u =>
        simp only
        by_cases hac : accepts c kind s' = true
        · rw [if_pos hac]
          exact ⟨s2, s', b, hR, hp, hac, rfl⟩
        · rw [if_neg hac]
          exact ih has' s' hRb

/-- C108. Hence, at a feasible candidate whose linear term is positive and at least `th_grad`, if the list of
step lengths reaches far enough below, the iteration strictly decreases the total cost. -/
theorem C108_decreases (hm : 0 < m) (hs : AtIteration P.toProb c (oracle P lin llt kind) kind fuel s)
    (hfe : s.feas = true) (hE : Exact P s.xs s.us (lin s.xs s.us)) (hth : c.thAcceptstep < 1)
    (hth0 : 0 ≤ c.thAcceptstep)
    (hd : dirLoop P.toProb c (oracle P lin llt kind) fuel s = some (true, s1))
    (hpos : 0 < (expectedImprovement P.T s1.dir).1) (hgr : c.thGrad ≤ (expectedImprovement P.T s1.dir).1) :
    ∃ abar > 0, (∃ a ∈ c.alphas, 0 < a ∧ a ≤ abar) →
      ∀ e b s', iteration P.toProb c (oracle P lin llt kind) kind fuel s = some (e, b, s') →
        Rollout P.toProb s'.xs s'.us ∧ total P s'.us < total P s.us := by
  have hv := valid_of hm hs
  have hD := hv.directed hd
  have hR := hD.ready (kind := kind) hv.inv.zero
  have hro := hv.ro hfe
  have hA := autonomousOk (P := P) hm
  obtain ⟨abar, h0, h⟩ := accepted_of_ready (kind := kind) (c := c) hm hfe hE hro hD hpos hth
  refine ⟨abar, h0, fun has e b s' hi => ?_⟩
  obtain ⟨s3, sT, a, hR3, hp, hac, hls⟩ := lineSearch_accepts h c.alphas has _ hR
  rcases iteration_cases fuel s hi with ⟨-, -, he⟩ | ⟨s1', hd', hs2, -, -⟩
  · rw [hd] at he; simp at he
  rw [hd] at hd'
  obtain rfl : s1 = s1' := by simpa using hd'
  obtain ⟨e1, e2, -⟩ := hs2
  rw [hls] at e1 e2
  have hpr := probe_spec (P := P.toProb) (O := oracle P lin llt kind) (kind := kind) a s3
  rw [hp] at hpr
  have hcore := hpr.core
  rw [first_eq hR3.zero, hR3.feas, hfe] at hcore
  have hroT := hcore.rollout hA (.inr (.inl rfl))
  obtain ⟨sT', hp', hfT, hdV, hx, -, hdd⟩ := hR3.trial (lin := lin) (llt := llt) hm (f := fun _ => 0)
    hcore.step.1 hcore.step.2 (.inl ⟨hfe, fun _ _ => rfl⟩)
  rw [hp] at hp'
  obtain rfl : sT = sT' := by simpa using hp'
  rw [hfe, expectedImprovementFddp_feas, ite_self] at hdd
  have e0 : sT.d0 = (expectedImprovement P.T s1.dir).1 := congrArg Prod.fst hdd
  have hng : ¬ |sT.d0| < c.thGrad := by
    rw [e0, abs_of_pos hpos]; exact not_lt.mpr hgr
  have hdec : 0 ≤ sT.dVexp ∧ sT.dV > c.thAcceptstep * sT.dVexp := by
    unfold accepts at hac
    rw [hfT, hfe] at hac
    cases hkd : kind.feasibilityDriven
    · simpa [hkd, hng] using hac
    · rw [hkd, if_pos rfl] at hac
      split at hac
      · rename_i hx0
        exact ⟨hx0, by simpa [hng] using hac⟩
      · simp at hac
  have hxs : s'.xs = sT.xsTry := e1
  have hus : s'.us = sT.usTry := e2
  rw [hxs, hus]
  refine ⟨hroT, ?_⟩
  have htot := (hcore.total hA).2
  rw [rollout_total hroT] at htot
  have hdV' := hpr.dV
  rw [hR3.cost, rollout_total hro, htot] at hdV'
  have := mul_nonneg hth0 hdec.1
  have h2 := hdec.2
  rw [hdV'] at h2
  linarith

/-- C109. At a feasible candidate the linear term of the expected improvement is nonnegative, and it is zero
exactly when the candidate's controls are a stationary point of the total cost. This holds for every
regularisation and for every (symmetric) Hessian, exact or not. -/
theorem C109_stationary (hm : 0 < m) (hs : AtIteration P.toProb c (oracle P lin llt kind) kind fuel s)
    (hfe : s.feas = true) (hE : Exact P s.xs s.us (lin s.xs s.us)) (hl : LltSound llt)
    (hH : SymmHess P.T (lin s.xs s.us))
    (hd : dirLoop P.toProb c (oracle P lin llt kind) fuel s = some (true, s1)) :
    0 ≤ (expectedImprovement P.T s1.dir).1 ∧
    ((expectedImprovement P.T s1.dir).1 = 0 ↔ Stationary P s.us) := by
  have hv := valid_of hm hs
  have hD := hv.directed hd
  have hro := hv.ro hfe
  obtain ⟨h1, -, h3⟩ := hD.d1 hl hH
  refine ⟨h1, h3.trans ?_⟩
  obtain ⟨p, hb⟩ := hD.back
  rw [stationary_iff (hE.of_rollout hro)]
  exact qu_zero_iff hb fun t ht => by rw [hD.fs t ht, gaps_zero hro t ht]

/-- C109. At a feasible candidate the quantity `solve` compares with `th_stop` after evaluating a step is
zero exactly at stationary points. -/
theorem C109_stop (hm : 0 < m) (hs : AtIteration P.toProb c (oracle P lin llt kind) kind fuel s)
    (hfe : s.feas = true) (hE : Exact P s.xs s.us (lin s.xs s.us)) (hl : LltSound llt)
    (hH : SymmHess P.T (lin s.xs s.us))
    (hd : dirLoop P.toProb c (oracle P lin llt kind) fuel s = some (true, s1)) (a : ℝ) (ha : 0 ≤ a)
    (ha1 : a ≤ 1) :
    let sT := (probe P.toProb (oracle P lin llt kind) kind a (prepare (oracle P lin llt kind) kind s1)).2
    (stopping sT).stop = (1 / 2) * (expectedImprovement P.T s1.dir).1 ∧
    ((stopping sT).stop = 0 ↔ Stationary P s.us) := by
  intro sT
  have hv := valid_of hm hs
  have hD := hv.directed hd
  obtain ⟨sT', hp, -, -, -, -, hdd⟩ := (hD.ready (kind := kind) hv.inv.zero).trial (lin := lin) (llt := llt)
    hm (f := fun _ => 0) ha ha1 (.inl ⟨hfe, fun _ _ => rfl⟩)
  have e : sT = sT' := by show (probe _ _ _ _ _).2 = _; rw [hp]
  rw [hfe, expectedImprovementFddp_feas, ite_self] at hdd
  have e0 : sT'.d0 = (expectedImprovement P.T s1.dir).1 := congrArg Prod.fst hdd
  have e1 : sT'.d1 = (expectedImprovement P.T s1.dir).2 := congrArg Prod.snd hdd
  obtain ⟨h1, h2, -⟩ := hD.d1 hl hH
  have hst : (stopping sT).stop = (1 / 2) * (expectedImprovement P.T s1.dir).1 := by
    rw [e]
    show |sT'.d0 + (1 / 2) * sT'.d1| = _
    rw [e0, e1, h2]
    rw [show (expectedImprovement P.T s1.dir).1 + 1 / 2 * -(expectedImprovement P.T s1.dir).1 =
      (1 / 2) * (expectedImprovement P.T s1.dir).1 by ring, abs_of_nonneg (by linarith)]
  refine ⟨hst, ?_⟩
  rw [← (C109_stationary hm hs hfe hE hl hH hd).2, hst]
  constructor
  · intro h; linarith
  · intro h; rw [h]; ring

/-- How a line search ends, with the evaluated step. -/
theorem lineSearch_ready {g : Arrays ℝ n (fun _ => m)} {fs : Nat → Fin n → ℝ} (as : List ℝ) (s2 : NlSt n m)
    (hR : Ready P kind s s2 g fs) (hr : s2.recalc = false) :
    ((lineSearch P.toProb c (oracle P lin llt kind) kind as s2).recalc = false ∧
      Keeps kind s2 (lineSearch P.toProb c (oracle P lin llt kind) kind as s2)) ∨
    ∃ s3 sT, ∃ a ∈ as, Ready P kind s s3 g fs ∧
      probe P.toProb (oracle P lin llt kind) kind a s3 = (some (), sT) ∧
      accepts c kind sT = true ∧ lineSearch P.toProb c (oracle P lin llt kind) kind as s2 = accept kind sT := by
  induction as generalizing s2 with
  | nil => exact .inl ⟨hr, Keeps.refl _⟩
  | cons b as ih =>
    have hRb := hR.probe (lin := lin) (llt := llt) b
    have hk := probe_spec (P := P.toProb) (O := oracle P lin llt kind) (kind := kind) b s2
    rcases hp : probe P.toProb (oracle P lin llt kind) kind b s2 with ⟨o, s'⟩
    rw [hp] at hRb hk
    simp only [lineSearch, hp]
    have hk' : Keeps kind s2 s' := by
      cases o with
      | none => exact hk
      | some u => exact hk.keeps
    have hrec := ih s' hRb (hk'.recalc.trans hr)
    have hrec' : ((lineSearch P.toProb c (oracle P lin llt kind) kind as s').recalc = false ∧
      Keeps kind s2 (lineSearch P.toProb c (oracle P lin llt kind) kind as s')) ∨
      ∃ s3 sT, ∃ a ∈ b :: as, Ready P kind s s3 g fs ∧
      probe P.toProb (oracle P lin llt kind) kind a s3 = (some (), sT) ∧
      accepts c kind sT = true ∧
      lineSearch P.toProb c (oracle P lin llt kind) kind as s' = accept kind sT := by
      rcases hrec with ⟨h1, h2⟩ | ⟨s3, sT, a, ha, h⟩
      · exact .inl ⟨h1, hk'.trans h2⟩
      · exact .inr ⟨s3, sT, a, List.mem_cons_of_mem _ ha, h⟩
    cases o with
    | none => exact hrec'
    | some u =>
      simp only
      by_cases hac : accepts c kind s' = true
      · rw [if_pos hac]
        exact .inr ⟨s2, s', b, List.mem_cons_self, hR, hp, hac, rfl⟩
      · rw [if_neg hac]
        exact hrec'

/-- One iteration at a feasible candidate: the candidate is kept, or the cost decreases by a fixed fraction of
the linear term. -/
theorem iteration_decrease (hm : 0 < m) (hv : Valid P lin kind s) (hfe : s.feas = true) (hl : LltSound llt)
    (hH : SymmHess P.T (lin s.xs s.us)) {amin eps : ℝ} (hal : ∀ a ∈ c.alphas, amin ≤ a) (hmin : 0 < amin)
    (heps : 0 < eps) (hgr : c.thGrad ≤ eps) (hth0 : 0 < c.thAcceptstep) {b : Bool} {s' : NlSt n m}
    (hi : iteration P.toProb c (oracle P lin llt kind) kind fuel s = some (.continue, b, s'))
    (hd0 : eps ≤ s'.d0) :
    s'.feas = true ∧
    ((s'.recalc = false ∧ total P s'.us = total P s.us) ∨
     (s'.recalc = true ∧ c.thAcceptstep * (amin / 2 * eps) ≤ total P s.us - total P s'.us)) := by
  have hA := autonomousOk (P := P) hm
  have hro := hv.ro hfe
  refine ⟨(iteration_rel hA fuel hv.inv hi).mono hfe, ?_⟩
  rcases iteration_cases fuel s hi with ⟨he, -⟩ | ⟨s1, hd, hs2, -, -⟩
  · cases he
  have hD := hv.directed hd
  have hR := hD.ready (kind := kind) hv.inv.zero
  have prec : (prepare (oracle P lin llt kind) kind s1).recalc = false := by
    unfold prepare; cases kind.feasibilityDriven <;> simp
  obtain ⟨e1, e2, -, -, -, e6, -, -, -, -, e11, -⟩ := hs2
  rcases lineSearch_ready (c := c) (lin := lin) (llt := llt) c.alphas _ hR prec with
    ⟨h1, h2⟩ | ⟨s3, sT, a, ha, hR3, hp, hac, hls⟩
  · refine .inl ⟨e6.trans h1, ?_⟩
    rw [e2, h2.us, hR.us]
  right
  rw [hls] at e2 e6 e11
  refine ⟨e6, ?_⟩
  have hpr := probe_spec (P := P.toProb) (O := oracle P lin llt kind) (kind := kind) a s3
  rw [hp] at hpr
  have hcore := hpr.core
  rw [first_eq hR3.zero, hR3.feas, hfe] at hcore
  have hroT := hcore.rollout hA (.inr (.inl rfl))
  obtain ⟨sT', hp', hfT, -, hx, -, hdd⟩ := hR3.trial (lin := lin) (llt := llt) hm (f := fun _ => 0)
    hcore.step.1 hcore.step.2 (.inl ⟨hfe, fun _ _ => rfl⟩)
  rw [hp] at hp'
  obtain rfl : sT = sT' := by simpa using hp'
  rw [hfe, expectedImprovementFddp_feas, ite_self] at hdd
  obtain ⟨-, hd1, -⟩ := hD.d1 hl hH
  have e0 : sT.d0 = (expectedImprovement P.T s1.dir).1 := congrArg Prod.fst hdd
  have e1' : sT.d1 = -sT.d0 := by rw [e0, ← hd1]; exact congrArg Prod.snd hdd
  have hd0' : eps ≤ sT.d0 := by
    have : s'.d0 = sT.d0 := e11
    rw [← this]; exact hd0
  have hng : ¬ |sT.d0| < c.thGrad := by
    rw [abs_of_nonneg (by linarith)]; exact not_lt.mpr (hgr.trans hd0')
  have hdec : sT.dV > c.thAcceptstep * sT.dVexp := by
    unfold accepts at hac
    rw [hfT, hfe] at hac
    cases hkd : kind.feasibilityDriven
    · simp [hkd, hng] at hac
      exact hac.2
    · rw [hkd, if_pos rfl] at hac
      split at hac
      · simpa [hng] using hac
      · simp at hac
  have hus : s'.us = sT.usTry := e2
  rw [hus]
  have htot := (hcore.total hA).2
  rw [rollout_total hroT] at htot
  have hdV' := hpr.dV
  rw [hR3.cost, rollout_total hro, htot] at hdV'
  rw [← hdV']
  refine le_of_lt (lt_of_le_of_lt ?_ hdec)
  refine mul_le_mul_of_nonneg_left ?_ hth0.le
  rw [hx, e1']
  have ha0 := hal a ha
  have ha1 := hcore.step.2
  have h3 : amin / 2 * eps ≤ a / 2 * sT.d0 := by
    apply mul_le_mul _ hd0' heps.le (by linarith)
    linarith
  have h4 : 0 ≤ a * sT.d0 * (1 - a) :=
    mul_nonneg (mul_nonneg (by linarith) (by linarith)) (by linarith)
  nlinarith

/-- C110. In every run of `solve` from a feasible guess, on every problem (differentiable or not) and with
every derivative data: as long as the linear term `d[0]` of the expected improvement stays at or above
`eps >= th_grad`, every accepted step decreases the total cost by at least
`th_acceptstep * amin / 2 * eps`, where `amin` is the shortest step length, so the number of accepted steps
is bounded by the decrease of the cost divided by that amount. -/
theorem C110_accepted_bound (hm : 0 < m) (hl : LltSound llt) (hH : ∀ xs us, SymmHess P.T (lin xs us))
    {amin eps : ℝ} (hal : ∀ a ∈ c.alphas, amin ≤ a) (hmin : 0 < amin) (heps : 0 < eps)
    (hgr : c.thGrad ≤ eps) (hth0 : 0 < c.thAcceptstep) (states : Nat → NlSt n m)
    (h0 : AtIteration P.toProb c (oracle P lin llt kind) kind fuel (states 0)) (hf : (states 0).feas = true)
    (N : Nat) (hrun : ∀ i < N, ∃ b s',
      iteration P.toProb c (oracle P lin llt kind) kind fuel (states i) = some (.continue, b, s') ∧
      eps ≤ s'.d0 ∧ states (i + 1) = { s' with iter := s'.iter + 1 }) :
    ((Finset.range N).filter fun i => (states (i + 1)).recalc = true).card
        * (c.thAcceptstep * (amin / 2 * eps)) ≤ total P (states 0).us - total P (states N).us := by
  suffices h : Valid P lin kind (states N) ∧ (states N).feas = true ∧
      ((Finset.range N).filter fun i => (states (i + 1)).recalc = true).card
        * (c.thAcceptstep * (amin / 2 * eps)) ≤ total P (states 0).us - total P (states N).us from h.2.2
  induction N with
  | zero => exact ⟨valid_of hm h0, hf, by simp⟩
  | succ N ih =>
    obtain ⟨hv, hfe, hle⟩ := ih fun i hi => hrun i (by omega)
    obtain ⟨b, s', hi, hd0, hs⟩ := hrun N (by omega)
    obtain ⟨hf', hor⟩ := iteration_decrease hm hv hfe hl (hH _ _) hal hmin heps hgr hth0 hi hd0
    have e1 : (states (N + 1)).us = s'.us := by rw [hs]
    have e2 : (states (N + 1)).recalc = s'.recalc := by rw [hs]
    refine ⟨by rw [hs]; exact hv.next hm hi, by rw [hs]; exact hf', ?_⟩
    rw [Finset.range_add_one, Finset.filter_insert, e1, e2]
    rcases hor with ⟨hr, ht⟩ | ⟨hr, ht⟩
    · rw [hr, ht]; simpa using hle
    · rw [hr, if_pos rfl, Finset.card_insert_of_notMem (by simp)]
      push_cast
      linarith

/-! ### A nonlinear problem -/
namespace Demo

/-- One node: `x' = x + u + u²`, cost `½ u²`, terminal cost `½ x²`, from `x = 1`. -/
noncomputable def prob : NlProb 1 1 where
  T := 1
  next := fun _ x u i => x i + u i + u i * u i
  cost := fun _ _ u => (1 / 2) * (u 0 * u 0)
  costT := fun x => (1 / 2) * (x 0 * x 0)
  x0 := fun _ => 1

/-- Its exact derivatives, with the Gauss-Newton Hessians. -/
noncomputable def dlin (xs us : Nat → Fin 1 → ℝ) : Lin ℝ 1 1 where
  d := fun t => { Fx := !![1], Fu := !![1 + 2 * us t 0], Lx := 0, Lu := us t, Lxx := 0, Lxu := 0,
                  Luu := !![1] }
  LxT := xs 1
  LxxT := !![1]

open Classical in
/-- An exact Cholesky test. -/
noncomputable def chol : ∀ m, Matrix (Fin m) (Fin m) ℝ → Bool :=
  fun _ M => decide (Mᵀ = M ∧ ∀ v, v ≠ 0 → 0 < v ⬝ᵥ (M *ᵥ v))

open Classical in
theorem chol_sound : LltSound chol := fun _ _ _ h => (of_decide_eq_true h).2

open Classical in
theorem chol_complete : LltComplete chol := fun _ _ hs h => decide_eq_true ⟨hs, h⟩

theorem exact (xs us : Nat → Fin 1 → ℝ) : Exact prob xs us (dlin xs us) := by
  refine ⟨fun t _ a => ?_, fun t _ => ?_, ?_⟩
  · have h1 : HasFDerivAt (fun p : (Fin 1 → ℝ) × (Fin 1 → ℝ) => p.1 a)
        ((ContinuousLinearMap.proj (R := ℝ) (φ := fun _ : Fin 1 => ℝ) a).comp
          (ContinuousLinearMap.fst ℝ (Fin 1 → ℝ) (Fin 1 → ℝ))) (xs t, us t) :=
      ((ContinuousLinearMap.proj (R := ℝ) (φ := fun _ : Fin 1 => ℝ) a).comp
          (ContinuousLinearMap.fst ℝ (Fin 1 → ℝ) (Fin 1 → ℝ))).hasFDerivAt
    have h2 : HasFDerivAt (fun p : (Fin 1 → ℝ) × (Fin 1 → ℝ) => p.2 a)
        ((ContinuousLinearMap.proj (R := ℝ) (φ := fun _ : Fin 1 => ℝ) a).comp
          (ContinuousLinearMap.snd ℝ (Fin 1 → ℝ) (Fin 1 → ℝ))) (xs t, us t) :=
      ((ContinuousLinearMap.proj (R := ℝ) (φ := fun _ : Fin 1 => ℝ) a).comp
          (ContinuousLinearMap.snd ℝ (Fin 1 → ℝ) (Fin 1 → ℝ))).hasFDerivAt
    refine ((h1.add h2).add (h2.mul h2)).congr_fderiv ?_
    obtain rfl : a = 0 := Subsingleton.elim _ _
    ext p <;> simp [form_apply, dlin]
    ring
  · have h2 : HasFDerivAt (fun p : (Fin 1 → ℝ) × (Fin 1 → ℝ) => p.2 0)
        ((ContinuousLinearMap.proj (R := ℝ) (φ := fun _ : Fin 1 => ℝ) 0).comp
          (ContinuousLinearMap.snd ℝ (Fin 1 → ℝ) (Fin 1 → ℝ))) (xs t, us t) :=
      ((ContinuousLinearMap.proj (R := ℝ) (φ := fun _ : Fin 1 => ℝ) 0).comp
          (ContinuousLinearMap.snd ℝ (Fin 1 → ℝ) (Fin 1 → ℝ))).hasFDerivAt
    refine ((h2.mul h2).const_mul (1 / 2 : ℝ)).congr_fderiv ?_
    ext p <;> simp [form_apply, dlin]
    ring
  · have h2 : HasFDerivAt (fun p : Fin 1 → ℝ => p 0)
        (ContinuousLinearMap.proj (R := ℝ) (φ := fun _ : Fin 1 => ℝ) 0) (xs 1) :=
      (ContinuousLinearMap.proj (R := ℝ) (φ := fun _ : Fin 1 => ℝ) 0).hasFDerivAt
    refine ((h2.mul h2).const_mul (1 / 2 : ℝ)).congr_fderiv ?_
    ext p
    simp [form_apply, dlin]
    ring

theorem symmHess (xs us : Nat → Fin 1 → ℝ) : SymmHess prob.T (dlin xs us) := by
  refine ⟨fun t _ => ?_, ?_⟩ <;> (ext i j; obtain rfl : i = j := Subsingleton.elim _ _; rfl)

/-- The controls are zero; the states stay at one. -/
theorem rollout : Rollout prob.toProb (fun _ _ => 1) (fun _ _ => 0) :=
  ⟨rfl, fun t _ => by funext i; simp [NlProb.toProb, prob]⟩

noncomputable def s0 (c : Cfg ℝ) (s : NlSt 1 1) : NlSt 1 1 :=
  start prob.toProb c (fun _ _ => 1) (fun _ _ => 0) true (some 0) s

theorem atIteration (kind : Kind) (c : Cfg ℝ) (fuel : Nat) (s : NlSt 1 1) :
    AtIteration prob.toProb c (oracle prob dlin chol kind) kind fuel (s0 c s) :=
  ⟨_, _, true, some 0, s, fun _ => rollout, fun _ => rfl, .init⟩

/-- The direction is computed at the first attempt. -/
theorem dir_ok (kind : Kind) (c : Cfg ℝ) (fuel : Nat) (xs us : Nat → Fin 1 → ℝ) (feas : Bool) (s : NlSt 1 1) :
    ∃ s1, dirLoop prob.toProb c (oracle prob dlin chol kind) (fuel + 1)
      (start prob.toProb c xs us feas (some 0) s) = some (true, s1) ∧
      Back chol (some 0) feas 1 (dlin xs us).d (dlin xs us).LxT (dlin xs us).LxxT s1.fs s1.dir := by
  generalize hst : start prob.toProb c xs us feas (some 0) s = st
  have hx : st.xs = xs ∧ st.us = us ∧ st.feas = feas := by rw [← hst]; exact ⟨rfl, rfl, rfl⟩
  simp only [dirLoop]
  have hb : (computeDirection prob.toProb (oracle prob dlin chol kind) st).1 = true ∧
      Back chol (some 0) feas 1 (dlin xs us).d (dlin xs us).LxT (dlin xs us).LxxT
        (computeDirection prob.toProb (oracle prob dlin chol kind) st).2.fs
        (computeDirection prob.toProb (oracle prob dlin chol kind) st).2.dir := by
    have hit : st.iter = 0 := by rw [← hst]; rfl
    obtain ⟨hlin, hfs⟩ := calcDiff_fresh (P := prob) (lin := dlin) (llt := chol) (kind := kind)
      (s := st) (.inl hit)
    have hp : (calcDiff prob.toProb (oracle prob dlin chol kind) st).preg = 0 ∧
        (calcDiff prob.toProb (oracle prob dlin chol kind) st).feas = feas := by rw [← hst]; exact ⟨rfl, rfl⟩
    unfold computeDirection
    simp only [show st.recalc = true by rw [← hst]; rfl, if_true]
    generalize calcDiff prob.toProb (oracle prob dlin chol kind) st = sb at *
    unfold oracle
    simp only
    have : ∃ g, backwardPass chol (some sb.preg) sb.feas prob.T sb.lin.d sb.lin.LxT sb.lin.LxxT sb.fs
        sb.dir = some g := by
      rw [hlin, hp.1]
      unfold backwardPass backLoop backNode computeGains
      simp only [show prob.T = 1 from rfl]
      rw [if_pos]
      · exact ⟨_, rfl⟩
      · right
        refine chol_complete _ _ ?_ fun v hv => ?_
        · ext i j
          obtain rfl : i = j := Subsingleton.elim _ _
          rfl
        · have hv0 : v 0 ≠ 0 := fun h => hv (funext fun i => by
            obtain rfl : i = 0 := Subsingleton.elim _ _
            exact h)
          have h1 : 0 < v 0 * v 0 := mul_self_pos.mpr hv0
          have h2 := mul_nonneg h1.le (mul_self_nonneg (1 + 2 * st.us 0 0))
          simp [actionValue, addDiag, termValue, dlin, dotProduct, mulVec, Matrix.mul_apply]
          nlinarith
    obtain ⟨g, hg⟩ := this
    have hB := backwardPass_spec hg
    rw [hg]
    rw [hlin, hp.1, hp.2, hx.1, hx.2.1] at hB
    exact ⟨rfl, hB⟩
  rw [hb.1]
  exact ⟨_, rfl, hb.2⟩

/-- The linear term of its expected improvement is positive at the zero controls. -/
theorem direction (kind : Kind) (c : Cfg ℝ) (fuel : Nat) (s : NlSt 1 1) :
    ∃ s1, dirLoop prob.toProb c (oracle prob dlin chol kind) (fuel + 1) (s0 c s) = some (true, s1) ∧
      0 < (expectedImprovement prob.T s1.dir).1 := by
  have hcd := dir_ok kind c fuel (fun _ _ => 1) (fun _ _ => 0) true s
  obtain ⟨s1, h, -⟩ := hcd
  refine ⟨s1, h, ?_⟩
  have hv := valid_of (by norm_num) (atIteration kind c (fuel + 1) s)
  have hD := hv.directed h
  obtain ⟨h1, -, h3⟩ := hD.d1 chol_sound (symmHess _ _)
  rcases h1.lt_or_eq with h1 | h1
  · exact h1
  · exfalso
    have hq := h3.mp h1.symm 0 (by norm_num [prob])
    obtain ⟨p, hb⟩ := hD.back
    obtain ⟨-, hT, hu⟩ := Back.vx hb fun _ t ht => by
      rw [hD.fs t ht]; exact gaps_zero rollout t ht
    have e := hu 0 (by norm_num [prob])
    have hz : s1.fs 1 = 0 := by rw [hD.fs 1 le_rfl]; exact gaps_zero rollout 1 le_rfl
    have hT' : (s1.dir.V 1).Vx = fun _ => 1 := by
      have : (s1.dir.V 1).Vx = (dlin (s0 c s).xs (s0 c s).us).LxT + (s1.dir.V 1).Vxx *ᵥ s1.fs 1 := hT
      rw [this, hz, mulVec_zero, add_zero]; rfl
    rw [hq] at e
    have e' := congrFun e 0
    have e2 : (((dlin (s0 c s).xs (s0 c s).us).d 0).Fuᵀ *ᵥ fun _ => (1 : ℝ)) 0 = 1 := by
      simp [dlin, s0, start, mulVec, dotProduct]
    have e3 : ((dlin (s0 c s).xs (s0 c s).us).d 0).Lu 0 = 0 := rfl
    rw [Pi.add_apply, e3, show s1.dir.V (0 + 1) = s1.dir.V 1 from rfl, hT', e2] at e'
    norm_num at e'

end Demo

/-- C107. The first-order error at infeasible candidates is real: on this problem, at the candidate
`xs = (1, 0)`, `u = 0`, FDDP predicts a change of the cost of `+a/2` for a small step `a`, whereas the cost
does not change to first order. -/
theorem C107_gaps_counterexample (c : Cfg ℝ) (s : NlSt 1 1) :
    ∃ (st s1 : NlSt 1 1), AtIteration Demo.prob.toProb c (oracle Demo.prob Demo.dlin Demo.chol .fddp) .fddp 1 st ∧
      st.feas = false ∧ Exact Demo.prob st.xs st.us (Demo.dlin st.xs st.us) ∧
      dirLoop Demo.prob.toProb c (oracle Demo.prob Demo.dlin Demo.chol .fddp) 1 st = some (true, s1) ∧
      let tried := fun a => probe Demo.prob.toProb (oracle Demo.prob Demo.dlin Demo.chol .fddp) .fddp a
        (prepare (oracle Demo.prob Demo.dlin Demo.chol .fddp) .fddp s1)
      Tendsto (fun a => (tried a).2.dVexp / a) (𝓝[>] 0) (𝓝 (-1/2)) ∧
      Tendsto (fun a => (tried a).2.dV / a) (𝓝[>] 0) (𝓝 0) := by
  let xs : Nat → Fin 1 → ℝ := fun t _ => if t = 0 then 1 else 0
  let us : Nat → Fin 1 → ℝ := fun _ _ => 0
  let st := start Demo.prob.toProb c xs us false (some 0) s
  obtain ⟨s1, h1, hb⟩ := Demo.dir_ok .fddp c 0 xs us false s
  have hs : AtIteration Demo.prob.toProb c (oracle Demo.prob Demo.dlin Demo.chol .fddp) .fddp 1 st :=
    ⟨xs, us, false, some 0, s, by simp, by simp, .init⟩
  refine ⟨st, s1, hs, rfl, Demo.exact _ _, h1, ?_⟩
  intro tried
  obtain ⟨-, hx, hv⟩ := C107_slope_gaps_partial (by norm_num) hs rfl rfl (Demo.exact _ _) h1
  have hval := valid_of (by norm_num) hs
  have hD := hval.directed h1
  -- the gaps
  have f0 : Solve.gap Demo.prob.toProb st.xs st.us 0 = 0 := by
    funext i; simp [Solve.gap, NlProb.toProb, Demo.prob, st, start, xs]
  have f1 : Solve.gap Demo.prob.toProb st.xs st.us 1 = fun _ => 1 := by
    funext i; simp [Solve.gap, NlProb.toProb, Demo.prob, st, start, xs, us]
  have fs1 : s1.fs 1 = fun _ => 1 := by
    rw [hD.fs 1 le_rfl, ← gap_eq]; exact f1
  obtain ⟨hQ, -, -, -, hk, -, -⟩ := hb.facts Demo.chol_sound (by ext i j; simp [Demo.dlin]) 0 (by norm_num)
    (by ext i j; simp [Demo.dlin])
  have hV := hb.term
  rw [fs1] at hV
  have v1 : (s1.dir.V 1).Vx = fun _ => 1 := by
    funext i; rw [hV]; simp [termValue, Demo.dlin, xs, addDiag, mulVec, dotProduct]
  have v2 : (s1.dir.V 1).Vxx = !![1] := by
    rw [hV]; simp [termValue, Demo.dlin, addDiag]
  have qu : (s1.dir.out 0).Q.Qu = fun _ => 1 := by
    funext i; rw [hQ]; simp [actionValue, v1, Demo.dlin, us, mulVec, dotProduct]
  have quu : (s1.dir.out 0).Q.Quu = !![2] := by
    rw [hQ]; ext i j; simp [actionValue, v2, Demo.dlin, us, addDiag, Matrix.mul_apply]; norm_num
  have k0 : (s1.dir.out 0).k = fun _ => 1 / 2 := by
    funext i
    obtain rfl : i = 0 := Subsingleton.elim _ _
    rw [qu, quu] at hk
    have := congrFun hk 0
    simp [mulVec, dotProduct] at this
    linarith
  have d1 : sens (Demo.dlin st.xs st.us) s1.dir (Solve.gap Demo.prob.toProb st.xs st.us) 1 = fun _ => 1 / 2 := by
    funext i
    simp only [sens, f0, f1, k0]
    simp [Demo.dlin, st, start, us, mulVec, dotProduct]
    norm_num
  simp only [show Demo.prob.T = 1 from rfl, Finset.sum_range_succ, Finset.sum_range_zero, f0, f1, d1, v1, v2,
    qu, k0] at hx hv
  refine ⟨?_, ?_⟩
  · convert hx using 2
    simp [dotProduct]; norm_num
  · convert hv using 2
    simp [dotProduct, mulVec]; norm_num

/-- Non-vacuity of C107, C108, C109: a nonlinear problem, a feasible candidate that is not stationary. -/
example (kind : Kind) (c : Cfg ℝ) (hth : c.thAcceptstep < 1) (s : NlSt 1 1) :
    ∃ s1, dirLoop Demo.prob.toProb c (oracle Demo.prob Demo.dlin Demo.chol kind) 1 (Demo.s0 c s) = some (true, s1) ∧
      0 < (expectedImprovement Demo.prob.T s1.dir).1 ∧
      ¬ Stationary Demo.prob (fun _ _ => 0) ∧
      ∃ abar > 0, ∀ a, 0 < a → a ≤ abar →
      ∃ sT, probe Demo.prob.toProb (oracle Demo.prob Demo.dlin Demo.chol kind) kind a
          (prepare (oracle Demo.prob Demo.dlin Demo.chol kind) kind s1) = (some (), sT) ∧
        accepts c kind sT = true := by
  obtain ⟨s1, h1, h2⟩ := Demo.direction kind c 0 s
  have hs := Demo.atIteration kind c 1 s
  refine ⟨s1, h1, h2, fun hst => ?_, C108_accepted (by norm_num) hs rfl (Demo.exact _ _) hth h1 h2⟩
  exact h2.ne' ((C109_stationary (by norm_num) hs rfl (Demo.exact _ _) Demo.chol_sound (Demo.symmHess _ _) h1).2.mpr hst)

/-- Non-vacuity of C110: a run with an accepted step and `eps > 0`. -/
example (kind : Kind) (s : NlSt 1 1) : ∃ (c : Cfg ℝ) (amin eps : ℝ) (states : Nat → NlSt 1 1),
    (∀ a ∈ c.alphas, amin ≤ a) ∧ 0 < amin ∧ 0 < eps ∧ c.thGrad ≤ eps ∧ 0 < c.thAcceptstep ∧
    AtIteration Demo.prob.toProb c (oracle Demo.prob Demo.dlin Demo.chol kind) kind 1 (states 0) ∧
    (states 0).feas = true ∧ (∀ i < 1, ∃ b s',
      iteration Demo.prob.toProb c (oracle Demo.prob Demo.dlin Demo.chol kind) kind 1 (states i) =
        some (.continue, b, s') ∧ eps ≤ s'.d0 ∧ states (i + 1) = { s' with iter := s'.iter + 1 }) ∧
    ((Finset.range 1).filter fun i => (states (i + 1)).recalc = true).card = 1 := by
  let c0 : Cfg ℝ := { alphas := [], thAcceptstep := 1/10, thAcceptnegstep := 2, thStop := 0, thGrad := 0,
                      thStepdec := 1, thStepinc := -1,
                      reg := { min := 0, max := 1, inc := 10, dec := 10 } }
  obtain ⟨s1, h1, h2⟩ := Demo.direction kind c0 0 s
  have hv := valid_of (by norm_num) (Demo.atIteration kind c0 1 s)
  have hD := hv.directed h1
  obtain ⟨abar, ha0, hab⟩ := accepted_of_ready (kind := kind) (c := c0) (by norm_num) rfl (Demo.exact _ _)
    Demo.rollout hD h2 (by norm_num [c0])
  obtain ⟨sT, hp, hacc⟩ := hab _ (hD.ready hv.inv.zero) abar ha0 le_rfl
  have hd0 : sT.d0 = (expectedImprovement Demo.prob.T s1.dir).1 ∧ sT.steplength = abar := by
    have hpr := probe_spec (P := Demo.prob.toProb) (O := oracle Demo.prob Demo.dlin Demo.chol kind)
      (kind := kind) abar (prepare (oracle Demo.prob Demo.dlin Demo.chol kind) kind s1)
    rw [hp] at hpr
    obtain ⟨sT', hp', -, -, -, -, hdd⟩ := (hD.ready (kind := kind) hv.inv.zero).trial (lin := Demo.dlin)
      (llt := Demo.chol) (by norm_num) (f := fun _ => 0) hpr.core.step.1 hpr.core.step.2
      (.inl ⟨rfl, fun _ _ => rfl⟩)
    rw [hp] at hp'
    obtain rfl : sT = sT' := by simpa using hp'
    rw [show (Demo.s0 c0 s).feas = true from rfl, expectedImprovementFddp_feas, ite_self] at hdd
    exact ⟨congrArg Prod.fst hdd, hpr.steplength⟩
  let c : Cfg ℝ := { c0 with alphas := [abar] }
  have h1' : dirLoop Demo.prob.toProb c (oracle Demo.prob Demo.dlin Demo.chol kind) 1 (Demo.s0 c s) =
      some (true, s1) := h1
  have hls : lineSearch Demo.prob.toProb c (oracle Demo.prob Demo.dlin Demo.chol kind) kind c.alphas
      (prepare (oracle Demo.prob Demo.dlin Demo.chol kind) kind s1) = accept kind sT :=
    lineSearch_first (as := []) hp hacc
  obtain ⟨s', hi, e1, e2⟩ : ∃ s', iteration Demo.prob.toProb c (oracle Demo.prob Demo.dlin Demo.chol kind) kind 1
      (Demo.s0 c s) = some (.continue, true, s') ∧ s'.d0 = sT.d0 ∧ s'.recalc = true := by
    have e1 : (accept kind sT).steplength = abar := hd0.2
    have hup : ∀ s2 : NlSt 1 1, s2.steplength = abar →
        decide ((if s2.steplength > c.thStepdec then decreaseReg c s2 else s2).steplength ≤ c.thStepinc) = false := by
      intro s2 h
      have : (if s2.steplength > c.thStepdec then decreaseReg c s2 else s2).steplength = abar := by
        split <;> exact h
      rw [this]
      simp [c, c0]
      linarith
    unfold iteration
    rw [h1']
    simp only [hls, hup _ e1, Bool.false_and, Bool.false_eq_true, if_false]
    have hns : ∀ s3 : NlSt 1 1, decide ((stopping s3).stop < c.thStop) = false := by
      intro s3
      simp [stopping, c, c0]
    simp only [hns, Bool.and_false, Bool.false_eq_true, if_false]
    refine ⟨_, rfl, ?_, ?_⟩ <;> (simp only [stopping]; split <;> rfl)
  refine ⟨c, abar, sT.d0, fun i => if i = 0 then Demo.s0 c s else { s' with iter := s'.iter + 1 }, ?_, ha0,
    by rw [hd0.1]; exact h2, by rw [hd0.1]; exact h2.le, by norm_num [c, c0], Demo.atIteration kind c 1 s, rfl,
    fun i hi' => ?_, ?_⟩
  · simp [c]
  · obtain rfl : i = 0 := by omega
    exact ⟨true, s', hi, e1.ge, rfl⟩
  · simp [Finset.filter_singleton, e2]

end Verif.Nl
