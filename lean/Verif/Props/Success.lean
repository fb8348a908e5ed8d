import Verif.Lemmas.Success
import Verif.Props.Ends

set_option linter.unusedSectionVars false

/-!
# What success means on nonlinear problems (C143)

When `solve` returns true, the candidate from which its last iteration started is nearly stationary: in every direction the
slope of the total cost is small compared with the size of the direction.
-/

namespace Verif.Nl
open Verif Verif.Solve Verif.Lq Verif.Deriv Matrix

variable {n m : Nat} {P : NlProb n m} {kind : Kind} {c : Cfg ℝ} {fuel : Nat} {s s1 s' : NlSt n m} {amin : ℝ}
variable {lin : (Nat → Fin n → ℝ) → (Nat → Fin m → ℝ) → Lin ℝ n m}
variable {llt : ∀ m, Matrix (Fin m) (Fin m) ℝ → Bool}

/-- C143. At every feasible candidate with exact first derivatives, in every direction `v` of the space of control sequences,
the slope `D` of the total cost and the linear term `d0` of the expected improvement satisfy `D² ≤ d0 * size v`, whatever the
Hessians and the regularisation. -/
theorem C143_slope (hm : 0 < m) (hs : AtIteration P.toProb c (oracle P lin llt kind) kind fuel s) (hfe : s.feas = true)
    (hE : Exact P s.xs s.us (lin s.xs s.us)) (hl : LltSound llt) (hH : SymmHess P.T (lin s.xs s.us))
    (hd : dirLoop P.toProb c (oracle P lin llt kind) fuel s = some (true, s1)) (v : Nat → Fin m → ℝ) :
    ∃ D, HasDerivAt (fun a : ℝ => total P fun t => s.us t + a • v t) D 0 ∧
      D ^ 2 ≤ (expectedImprovement P.T s1.dir).1 * size (lin s.xs s.us) s1.preg P.T v := by
  have hv := valid_of hm hs
  have hD := hv.directed hd
  have hro := hv.ro hfe
  have hb := dirLoop_back fuel hd
  rw [hD.lin_eq, hD.keeps.feas, hfe] at hb
  have h0 : ∀ t ≤ P.T, s1.fs t = 0 := fun t ht => by rw [hD.fs t ht, gaps_zero hro t ht]
  refine ⟨_, total_deriv (hE.of_rollout hro) v, ?_⟩
  rw [slope_offPolicy hb h0, size_eq hb hl hH]
  simp only [expectedImprovement, sumTo_eq]
  exact cauchy hb hl hH _

/-- C143. An iteration that ends with success started from a feasible candidate. -/
theorem C143_started (hm : 0 < m) (hs : AtIteration P.toProb c (oracle P lin llt kind) kind fuel s) {b : Bool}
    (hi : iteration P.toProb c (oracle P lin llt kind) kind fuel s = some (.converged, b, s')) : s.feas = true := by
  have hv := valid_of hm hs
  rcases iteration_cases fuel s hi with ⟨he, -⟩ | ⟨s1, hd, hs2, hcv, hst⟩
  · cases he
  have hD := hv.directed hd
  have hR := hD.ready (kind := kind) hv.inv.zero
  have hcv := hcv rfl
  obtain ⟨-, -, -, e4, -, -, -, -, -, -, e11, e12, -⟩ := hs2
  rw [e4] at hcv
  rcases lineSearch_spec (P := P.toProb) (c := c) (O := oracle P lin llt kind) (kind := kind) c.alphas
    (prepare (oracle P lin llt kind) kind s1) with hk | ⟨a, ha, sT, h1, h2, h3⟩
  · have hw := hcv.1
    have p6 : (prepare (oracle P lin llt kind) kind s1).wasFeas = s1.wasFeas := by
      unfold prepare; cases kind.feasibilityDriven <;> simp
    rw [hk.wasFeas, p6, hD.keeps.wasFeas] at hw
    exact (hv.inv.was hw).1
  · have hw := hcv.1
    rw [h3] at hw
    have hw' : sT.feas = true := hw
    rw [h1.keeps.feas, hR.feas] at hw'
    exact hw'

/-- C143. When an iteration ends with success, the candidate from which it started was feasible, and the slope `D` of the total
cost there satisfies `D² ≤ 2 th_stop * size v` in every direction `v`. -/
theorem C143_converged (hm : 0 < m) (hs : AtIteration P.toProb c (oracle P lin llt kind) kind fuel s)
    (hE : Exact P s.xs s.us (lin s.xs s.us)) (hl : LltSound llt) (hH : SymmHess P.T (lin s.xs s.us))
    (hne : c.alphas ≠ []) (h01 : ∀ a ∈ c.alphas, 0 ≤ a ∧ a ≤ 1) {b : Bool}
    (hi : iteration P.toProb c (oracle P lin llt kind) kind fuel s = some (.converged, b, s')) :
    Rollout P.toProb s.xs s.us ∧ ∃ s1, dirLoop P.toProb c (oracle P lin llt kind) fuel s = some (true, s1) ∧
      s'.d0 = (expectedImprovement P.T s1.dir).1 ∧
      ∀ v, ∃ D, HasDerivAt (fun a : ℝ => total P fun t => s.us t + a • v t) D 0 ∧
        D ^ 2 ≤ 2 * c.thStop * size (lin s.xs s.us) s1.preg P.T v := by
  have hv := valid_of hm hs
  rcases iteration_cases fuel s hi with ⟨he, -⟩ | ⟨s1, hd, hs2, hcv, hst⟩
  · cases he
  have hD := hv.directed hd
  have hR := hD.ready (kind := kind) hv.inv.zero
  have hcv := hcv rfl
  obtain ⟨-, -, -, e4, -, -, -, -, -, -, e11, e12, -⟩ := hs2
  have hfe : s.feas = true := C143_started hm hs hi
  refine ⟨hv.ro hfe, s1, hd, ?_⟩
  have hdd := lineSearch_d (c := c) (lin := lin) (llt := llt) hm hfe c.alphas h01 _ hR (.inl hne)
  rw [← e11, ← e12] at hdd
  obtain ⟨hd0, hd1, -⟩ := hD.d1 hl hH
  have f0 : s'.d0 = (expectedImprovement P.T s1.dir).1 := congrArg Prod.fst hdd
  have f1 : s'.d1 = (expectedImprovement P.T s1.dir).2 := congrArg Prod.snd hdd
  refine ⟨f0, fun v => ?_⟩
  obtain ⟨D, h1, h2⟩ := C143_slope hm hs hfe hE hl hH hd v
  refine ⟨D, h1, h2.trans ?_⟩
  have hlt := hcv.2
  rw [hst (by simp), f0, f1, hd1, show (expectedImprovement P.T s1.dir).1 + 1 / 2 * -(expectedImprovement P.T s1.dir).1 =
        (1 / 2) * (expectedImprovement P.T s1.dir).1 by ring, abs_of_nonneg (by linarith)] at hlt
  refine mul_le_mul_of_nonneg_right (by linarith) ?_
  have hb := dirLoop_back fuel hd
  rw [hD.lin_eq, hD.keeps.feas, hfe] at hb
  rw [size_eq hb hl hH]
  refine Finset.sum_nonneg fun t ht => ?_
  by_cases h0 : offPolicy (lin s.xs s.us) s1.dir v t = 0
  · rw [h0, zero_dotProduct]
  · exact ((Back.facts hb hl hH.term t (Finset.mem_range.mp ht) (hH.Luu t (Finset.mem_range.mp ht))).2.2.2.1 _ h0).le

/-- The last iteration of a successful run, and the regularisation on the way. -/
theorem last_iteration (hc : Usual c amin) {M : ℝ} (hMmin : c.reg.min ≤ M) (hMmax : c.reg.max ≤ M) (N : Nat) {s0 s : NlSt n m}
    (hs : Reached P.toProb c (oracle P lin llt kind) kind fuel s0 s) (hp : 0 < s.preg) (hpM : s.preg ≤ M)
    {o : Outcome ℝ (Fin n → ℝ) (Fin n → ℝ) (Fin m → ℝ) (Lin ℝ n m) _}
    (ho : iterLoop P.toProb c (oracle P lin llt kind) kind fuel N s = some o) (hr : o.ret = true) :
    ∃ s2 b, Reached P.toProb c (oracle P lin llt kind) kind fuel s0 s2 ∧ 0 < s2.preg ∧ s2.preg ≤ M ∧
      iteration P.toProb c (oracle P lin llt kind) kind fuel s2 = some (.converged, b, o.final) := by
  induction N generalizing s o with
  | zero => simp only [iterLoop, Option.some.injEq] at ho; subst ho; simp at hr
  | succ N ih =>
    simp only [iterLoop] at ho
    cases hi : iteration P.toProb c (oracle P lin llt kind) kind fuel s with
    | none => rw [hi] at ho; simp at ho
    | some r =>
      obtain ⟨e, b, s'⟩ := r
      rw [hi] at ho
      cases e with
      | giveUp =>
        simp only [Option.some.injEq] at ho
        subst ho; simp at hr
      | converged =>
        simp only [Option.some.injEq] at ho
        subst ho
        exact ⟨s, b, hs, hp, hpM, hi⟩
      | «continue» =>
        simp only at ho
        obtain ⟨g1, g2, g3, -⟩ := (iteration_preg hc.inc hc.dec hc.last hc.stepdec hp hi).2 rfl
        cases hl' : iterLoop P.toProb c (oracle P lin llt kind) kind fuel N { s' with iter := s'.iter + 1 } with
        | none => rw [hl'] at ho; simp at ho
        | some o' =>
          rw [hl'] at ho
          simp only [Option.map_some, Option.some.injEq] at ho
          subst ho
          have hp' : 0 < s'.preg := by
            rcases Bool.eq_false_or_eq_true s'.recalc with h | h
            · by_contra hneg
              have := mul_nonpos_of_nonpos_of_nonneg (not_lt.mp hneg) (one_pos.trans hc.dec).le
              have := g1 h
              linarith
            · exact (mul_pos hp (one_pos.trans hc.inc)).trans_le (g2 h)
          exact ih (o := o') (.next hs hi) hp' (g3.trans (max_le (max_le hpM hMmin) hMmax)) hl' hr

/-- C143. When `solve` returns true, on every problem with exact first derivatives and symmetric Hessians, from every guess that is
marked feasible only if it is a rollout: the last iteration started from a rollout `xs1, us1` where the slope `D` of
the total cost satisfies `D² ≤ 2 th_stop * size v` in every direction `v`, with a regularisation `rho` of at most the
largest of the initial one, `reg_min` and `reg_max`. The returned trajectory is a rollout; it is that one, or has a smaller cost,
or was accepted without a test because the predicted improvement was below `th_grad`. What is missing: the returned trajectory
itself can be much worse (`C143_worse_counterexample`). -/
theorem C143_success_partial (hm : 0 < m) (hE : ∀ xs us, Exact P xs us (lin xs us)) (hl : LltSound llt)
    (hH : ∀ xs us, SymmHess P.T (lin xs us)) (hc : Usual c amin) (h1 : ∀ a ∈ c.alphas, a ≤ 1)
    (xs : Nat → Fin n → ℝ) (us : Nat → Fin m → ℝ) (feas : Bool) (hro : feas = true → Rollout P.toProb xs us)
    (hk : kind = .boxDdp → feas = true) (regInit : Option ℝ) (hreg : 0 < regInit.getD c.reg.min) (s : NlSt n m)
    {maxiter : Nat} {o : Outcome ℝ _ _ _ _ _}
    (ho : solve P.toProb c (oracle P lin llt kind) kind fuel maxiter xs us feas regInit s = some o) (hr : o.ret = true) :
    Rollout P.toProb o.final.xs o.final.us ∧
    ∃ xs1 us1 rho, Rollout P.toProb xs1 us1 ∧
      0 < rho ∧ rho ≤ max (max (regInit.getD c.reg.min) c.reg.min) c.reg.max ∧
      (∀ v, ∃ D, HasDerivAt (fun a : ℝ => total P fun t => us1 t + a • v t) D 0 ∧
        D ^ 2 ≤ 2 * c.thStop * size (lin xs1 us1) rho P.T v) ∧
      (o.final.us = us1 ∨ total P o.final.us ≤ total P us1 ∨ |o.final.d0| < c.thGrad) := by
  have hA := autonomousOk (P := P) hm
  have ho' : iterLoop P.toProb c (oracle P lin llt kind) kind fuel maxiter (start P.toProb c xs us feas regInit s) = some o := ho
  obtain ⟨s2, b, hs2, hp, hpM, hi⟩ := last_iteration hc ((le_max_right _ _).trans (le_max_left _ _)) (le_max_right _ _) maxiter
    .init hreg ((le_max_left (regInit.getD c.reg.min) c.reg.min).trans (le_max_left _ c.reg.max)) ho' hr
  have hat : AtIteration P.toProb c (oracle P lin llt kind) kind fuel s2 := ⟨xs, us, feas, regInit, s, hro, hk, hs2⟩
  have hv := valid_of hm hat
  have hne : c.alphas ≠ [] := by
    obtain ⟨as, a, h, -⟩ := hc.last
    rw [h]; simp
  obtain ⟨hro2, s1, hd, -, hsl⟩ := C143_converged hm hat (hE _ _) hl (hH _ _) hne
    (fun a ha => ⟨(hc.amin_pos.trans_le (hc.amin_le a ha)).le, h1 a ha⟩) hi
  have hw : o.final.wasFeas = true := by
    rcases iteration_cases fuel s2 hi with ⟨he, -⟩ | ⟨s1, -, -, hcv, -⟩
    · cases he
    · exact (hcv rfl).1
  obtain ⟨-, -, -, hfin, -⟩ := iterLoop_induct hA fuel maxiter (start_inv _ _ _ _ _) ho'
  have hfin := (hfin hw).2
  have hfe : s2.feas = true := by
    rcases iteration_cases fuel s2 hi with ⟨he, -⟩ | ⟨s1', hd', hs', hcv, -⟩
    · cases he
    exact C143_started hm hat hi
  obtain ⟨q1, q2⟩ := (dirLoop_preg hc.inc.le hp.le hd).1 rfl
  refine ⟨hfin, s2.xs, s2.us, s1.preg, hro2, hp.trans_le q1, q2.trans (max_le hpM (le_max_right _ _)), hsl, ?_⟩
  rcases (iteration_rel hA fuel hv.inv hi).dec hfe with h | h | ⟨h, h'⟩
  · exact .inl h.2
  · exact .inr (.inr h)
  · refine .inr (.inl ?_)
    rw [rollout_total hro2, rollout_total hfin] at h'
    have := mul_nonneg hc.accept.le h
    linarith

/-- C143. If in addition `size v ≤ M ‖v‖²` in every direction `v` (which `2 th_stop * M` makes a tolerance), then the gradient `G`
of the total cost at that rollout satisfies `‖G‖² ≤ 2 th_stop * M`. -/
theorem C143_gradient_partial (hm : 0 < m) (hE : ∀ xs us, Exact P xs us (lin xs us)) (hl : LltSound llt)
    (hH : ∀ xs us, SymmHess P.T (lin xs us)) (hc : Usual c amin) (h1 : ∀ a ∈ c.alphas, a ≤ 1)
    (xs : Nat → Fin n → ℝ) (us : Nat → Fin m → ℝ) (feas : Bool) (hro : feas = true → Rollout P.toProb xs us)
    (hk : kind = .boxDdp → feas = true) (regInit : Option ℝ) (hreg : 0 < regInit.getD c.reg.min) (s : NlSt n m) {M : ℝ} (hM0 : 0 ≤ M)
    (hM : ∀ xs us rho v, 0 < rho → rho ≤ max (max (regInit.getD c.reg.min) c.reg.min) c.reg.max →
      size (lin xs us) rho P.T v ≤ M * ∑ t ∈ Finset.range P.T, v t ⬝ᵥ v t)
    {maxiter : Nat} {o : Outcome ℝ _ _ _ _ _}
    (ho : solve P.toProb c (oracle P lin llt kind) kind fuel maxiter xs us feas regInit s = some o) (hr : o.ret = true) :
    ∃ us1, (∀ G : Nat → Fin m → ℝ, (∀ v : Nat → Fin m → ℝ, HasDerivAt (fun a : ℝ => total P fun t => us1 t + a • v t)
        (∑ t ∈ Finset.range P.T, G t ⬝ᵥ v t) 0) → ∑ t ∈ Finset.range P.T, G t ⬝ᵥ G t ≤ 2 * c.thStop * M) ∧
      (o.final.us = us1 ∨ total P o.final.us ≤ total P us1 ∨ |o.final.d0| < c.thGrad) := by
  obtain ⟨-, xs1, us1, rho, -, hr1, hr2, hsl, hor⟩ := C143_success_partial hm hE hl hH hc h1 xs us feas hro hk regInit hreg s ho hr
  refine ⟨us1, fun G hG => ?_, hor⟩
  obtain ⟨D, hD, hle⟩ := hsl G
  obtain rfl := (hG G).unique hD
  have hst := hc.stop
  set S := ∑ t ∈ Finset.range P.T, G t ⬝ᵥ G t with hS
  have hS0 : 0 ≤ S := Finset.sum_nonneg fun t _ => Finset.sum_nonneg fun i _ => mul_self_nonneg _
  have hle' : S ^ 2 ≤ 2 * c.thStop * (M * S) :=
    hle.trans (mul_le_mul_of_nonneg_left (hM _ _ _ _ hr1 hr2) (by linarith))
  rcases hS0.lt_or_eq with h | h
  · have : S * S ≤ 2 * c.thStop * M * S := by nlinarith
    exact le_of_mul_le_mul_right this h
  · rw [← h]
    exact mul_nonneg (by linarith) hM0

/-! ### A cost that rises steeply within a step the solver does not test -/
namespace Cliff

/-- One node that keeps the state; cost `2e-12 u + 5e-10 u² + 1e15 u⁴`. -/
noncomputable def prob : NlProb 1 1 where
  T := 1
  next := fun _ x _ => x
  cost := fun _ _ u => 2 / 10 ^ 12 * u 0 + 1 / 10 ^ 9 * (1 / 2) * (u 0 * u 0) + 10 ^ 15 * ((u 0 * u 0) * (u 0 * u 0))
  costT := fun _ => 0
  x0 := fun _ => 0

/-- Its exact derivatives; `w = 1` gives the exact Hessians and `w = 0` drops the quartic term from them. -/
noncomputable def clin (w : ℝ) (_xs us : Nat → Fin 1 → ℝ) : Lin ℝ 1 1 where
  d := fun t => { Fx := !![1], Fu := !![0], Lx := 0, Lxx := 0, Lxu := 0
                  Lu := fun _ => 2 / 10 ^ 12 + 1 / 10 ^ 9 * us t 0 + 4 * 10 ^ 15 * (us t 0 * us t 0 * us t 0)
                  Luu := !![1 / 10 ^ 9 + w * (12 * 10 ^ 15 * (us t 0 * us t 0))] }
  LxT := 0
  LxxT := 0

theorem exact (w : ℝ) (xs us : Nat → Fin 1 → ℝ) : Exact prob xs us (clin w xs us) := by
  refine ⟨fun t _ a => ?_, fun t _ => ?_, ?_⟩
  · have h1 : HasFDerivAt (fun p : (Fin 1 → ℝ) × (Fin 1 → ℝ) => p.1 a)
        ((ContinuousLinearMap.proj (R := ℝ) (φ := fun _ : Fin 1 => ℝ) a).comp
          (ContinuousLinearMap.fst ℝ (Fin 1 → ℝ) (Fin 1 → ℝ))) (xs t, us t) :=
      ((ContinuousLinearMap.proj (R := ℝ) (φ := fun _ : Fin 1 => ℝ) a).comp
          (ContinuousLinearMap.fst ℝ (Fin 1 → ℝ) (Fin 1 → ℝ))).hasFDerivAt
    refine h1.congr_fderiv ?_
    obtain rfl : a = 0 := Subsingleton.elim _ _
    ext p <;> simp [form_apply, clin]
  · have h2 : HasFDerivAt (fun p : (Fin 1 → ℝ) × (Fin 1 → ℝ) => p.2 0)
        ((ContinuousLinearMap.proj (R := ℝ) (φ := fun _ : Fin 1 => ℝ) 0).comp
          (ContinuousLinearMap.snd ℝ (Fin 1 → ℝ) (Fin 1 → ℝ))) (xs t, us t) :=
      ((ContinuousLinearMap.proj (R := ℝ) (φ := fun _ : Fin 1 => ℝ) 0).comp
          (ContinuousLinearMap.snd ℝ (Fin 1 → ℝ) (Fin 1 → ℝ))).hasFDerivAt
    refine (((h2.const_mul (2 / 10 ^ 12 : ℝ)).add ((h2.mul h2).const_mul (1 / 10 ^ 9 * (1 / 2) : ℝ))).add
      (((h2.mul h2).mul (h2.mul h2)).const_mul (10 ^ 15 : ℝ))).congr_fderiv ?_
    ext p <;> simp [form_apply, clin]
    ring
  · refine (hasFDerivAt_const (0 : ℝ) (xs 1)).congr_fderiv ?_
    ext p
    simp [form_apply, clin]

/-- With `w = 1`, `Luu` is the derivative of `Lu`. -/
theorem exact_hess (xs us : Nat → Fin 1 → ℝ) (t : Nat) :
    HasDerivAt (fun u : ℝ => ((clin 1 xs fun _ _ => u).d t).Lu 0) (((clin 1 xs us).d t).Luu 0 0) (us t 0) := by
  have h := hasDerivAt_id (us t 0)
  have := ((hasDerivAt_const (us t 0) (2 / 10 ^ 12 : ℝ)).add (h.const_mul (1 / 10 ^ 9 : ℝ))).add
    (((h.mul h).mul h).const_mul (4 * 10 ^ 15 : ℝ))
  refine this.congr_deriv ?_
  simp [clin]
  ring

theorem symmHess (w : ℝ) (xs us : Nat → Fin 1 → ℝ) : SymmHess prob.T (clin w xs us) := by
  refine ⟨fun t _ => ?_, ?_⟩ <;> (ext i j; obtain rfl : i = j := Subsingleton.elim _ _; rfl)

theorem rollout : Rollout prob.toProb (fun _ _ => 0) (fun _ _ => 0) :=
  ⟨rfl, fun t _ => by funext i; simp [NlProb.toProb, prob]⟩

theorem guess_cost : total prob (fun _ _ => 0) = 0 := by
  simp [total, prob]

/-- The direction at the guess, with the regularisation `p`. -/
theorem dir_ok {w : ℝ} (kind : Kind) (c : Cfg ℝ) (fuel : Nat) {p : ℝ} (hp : 0 ≤ p)
    (s : NlSt 1 1) (hreg : (start prob.toProb c (fun _ _ => 0) (fun _ _ => 0) true none s).preg = p) :
    ∃ s1, dirLoop prob.toProb c (oracle prob (clin w) Demo.chol kind) (fuel + 1)
      (start prob.toProb c (fun _ _ => 0) (fun _ _ => 0) true none s) = some (true, s1) ∧ s1.preg = p := by
  generalize hst : start prob.toProb c (fun _ _ => 0) (fun _ _ => 0) true none s = st at *
  have hx : st.us = fun _ _ => 0 := by rw [← hst]; rfl
  simp only [dirLoop]
  have hb : (computeDirection prob.toProb (oracle prob (clin w) Demo.chol kind) st).1 = true := by
    have hit : st.iter = 0 := by rw [← hst]; rfl
    obtain ⟨hlin, hfs⟩ := calcDiff_fresh (P := prob) (lin := clin w) (llt := Demo.chol) (kind := kind)
      (s := st) (.inl hit)
    have hpp : (calcDiff prob.toProb (oracle prob (clin w) Demo.chol kind) st).preg = p := by rw [← hreg, ← hst]; rfl
    unfold computeDirection
    simp only [show st.recalc = true by rw [← hst]; rfl, if_true]
    generalize calcDiff prob.toProb (oracle prob (clin w) Demo.chol kind) st = sb at *
    unfold oracle
    simp only
    have : ∃ g, backwardPass Demo.chol (some sb.preg) sb.feas prob.T sb.lin.d sb.lin.LxT sb.lin.LxxT sb.fs
        sb.dir = some g := by
      rw [hlin, hpp]
      unfold backwardPass backLoop backNode computeGains
      simp only [show prob.T = 1 from rfl]
      rw [if_pos]
      · exact ⟨_, rfl⟩
      · right
        refine Demo.chol_complete _ _ ?_ fun v hv => ?_
        · ext i j
          obtain rfl : i = j := Subsingleton.elim _ _
          rfl
        · have hv0 : v 0 ≠ 0 := fun h => hv (funext fun i => by
            obtain rfl : i = 0 := Subsingleton.elim _ _
            exact h)
          have h1 : 0 < v 0 * v 0 := mul_self_pos.mpr hv0
          have h2 := mul_nonneg hp h1.le
          simp [actionValue, addDiag, termValue, clin, hx, dotProduct, mulVec, Matrix.mul_apply]
          nlinarith
    obtain ⟨g, hg⟩ := this
    rw [hg]
  rw [hb]
  exact ⟨_, rfl, by rw [computeDirection_preg]; exact hreg⟩

/-- With the defaults of the library `solve` returns true after one iteration, at a trajectory of cost more than 999. -/
theorem run {w : ℝ} (kind : Kind) (fuel maxiter : Nat) (s : NlSt 1 1) :
    ∃ o, solve prob.toProb EndsDemo.dflt (oracle prob (clin w) Demo.chol kind) kind (fuel + 1) (maxiter + 1) (fun _ _ => 0)
        (fun _ _ => 0) true none s = some o ∧ o.ret = true ∧ 999 < total prob o.final.us := by
  obtain ⟨s1, hd, hp1⟩ := dir_ok (w := w) kind EndsDemo.dflt fuel (p := 1 / 10 ^ 9) (by norm_num) s rfl
  have hat : AtIteration prob.toProb EndsDemo.dflt (oracle prob (clin w) Demo.chol kind) kind (fuel + 1)
      (start prob.toProb EndsDemo.dflt (fun _ _ => 0) (fun _ _ => 0) true none s) :=
    ⟨_, _, true, none, s, fun _ => rollout, fun _ => rfl, .init⟩
  have hsl := (C107_slope (by norm_num) hat rfl (exact w _ _) hd).1 1 zero_le_one le_rfl
  have hv := valid_of (by norm_num) hat
  have hD := hv.directed hd
  have hR := hD.ready (kind := kind) hv.inv.zero
  have hb := dirLoop_back (fuel + 1) hd
  rw [hD.lin_eq, hD.keeps.feas, hp1] at hb
  generalize hst : start prob.toProb EndsDemo.dflt (fun _ _ => 0) (fun _ _ => 0) true none s = st at *
  have hx : st.xs = (fun _ _ => 0) ∧ st.us = (fun _ _ => 0) ∧ st.feas = true := by rw [← hst]; exact ⟨rfl, rfl, rfl⟩
  obtain ⟨hx1, hx2, hx3⟩ := hx
  rw [hx1, hx2, hx3] at hb
  obtain ⟨hQ, -, -, -, hk, -, -⟩ := hb.facts Demo.chol_sound (by ext i j; simp [clin]) 0 (by norm_num [prob])
    (by ext i j; obtain rfl : i = j := Subsingleton.elim _ _; rfl)
  have qu : (s1.dir.out 0).Q.Qu = fun _ => 2 / 10 ^ 12 := by
    funext i; rw [hQ]; simp [actionValue, clin, mulVec, dotProduct]
  have quu : (s1.dir.out 0).Q.Quu = !![2 / 10 ^ 9] := by
    rw [hQ]; ext i j
    obtain rfl : i = 0 := Subsingleton.elim _ _
    obtain rfl : j = 0 := Subsingleton.elim _ _
    simp [actionValue, clin, addDiag, Matrix.mul_apply]; norm_num
  have k0 : (s1.dir.out 0).k = fun _ => 1 / 1000 := by
    funext i
    obtain rfl : i = 0 := Subsingleton.elim _ _
    rw [qu, quu] at hk
    have := congrFun hk 0
    simp [mulVec, dotProduct] at this
    linarith
  have hei : expectedImprovement prob.T s1.dir = (2 / 10 ^ 15, -(2 / 10 ^ 15)) := by
    simp only [expectedImprovement, sumTo_eq, show prob.T = 1 from rfl, Finset.sum_range_one, qu, quu, k0]
    simp [mulVec, dotProduct]
    norm_num
  obtain ⟨sT, hp, hfT, hdV, hexp, -, hdd⟩ := hR.trial (lin := clin w) (llt := Demo.chol) (by norm_num) (f := fun _ => 0)
    zero_le_one le_rfl (.inl ⟨hx3, fun _ _ => rfl⟩)
  rw [hx3, expectedImprovementFddp_feas, ite_self, hei] at hdd
  have d0 : sT.d0 = 2 / 10 ^ 15 := congrArg Prod.fst hdd
  have d1 : sT.d1 = -(2 / 10 ^ 15) := congrArg Prod.snd hdd
  rw [d0, d1] at hexp
  have hacc : accepts EndsDemo.dflt kind sT = true := by
    have h0 : 0 ≤ sT.dVexp := by rw [hexp]; norm_num
    have hg : |sT.d0| < EndsDemo.dflt.thGrad := by
      rw [d0, abs_of_nonneg (by norm_num)]; norm_num [EndsDemo.dflt]
    unfold accepts
    cases kind.feasibilityDriven <;> simp [h0, hg]
  have hls : lineSearch prob.toProb EndsDemo.dflt (oracle prob (clin w) Demo.chol kind) kind EndsDemo.dflt.alphas
      (prepare (oracle prob (clin w) Demo.chol kind) kind s1) = accept kind sT := lineSearch_first hp hacc
  have hcost : 999 < total prob sT.usTry := by
    have h := hsl.2
    simp only [hp] at h
    rw [hdV, rollout_total (hv.ro hx3), hx2, guess_cost, hx1] at h
    have hpc : polyCost prob (fun _ _ => 0) (fun _ _ => 0) s1.dir (fun _ => 0) 1 =
        prob.cost 0 (fun _ => 0) (fun _ => -(1 / 1000)) := by
      simp only [polyCost, show prob.T = 1 from rfl, Finset.sum_range_one, polyU, polyX, k0]
      simp [prob, mulVec, dotProduct]
    rw [hpc] at h
    have h' : total prob sT.usTry = prob.cost 0 (fun _ => 0) (fun _ => -(1 / 1000)) := by linarith
    rw [h']
    norm_num [prob]
  have hstep : sT.steplength = 1 := by
    have := probe_steplength (P := prob.toProb) (O := oracle prob (clin w) Demo.chol kind) (kind := kind) 1
      (prepare (oracle prob (clin w) Demo.chol kind) kind s1)
    rwa [hp] at this
  have hit : ∃ s', iteration prob.toProb EndsDemo.dflt (oracle prob (clin w) Demo.chol kind) kind (fuel + 1) st =
      some (.converged, true, s') ∧ s'.us = sT.usTry := by
    unfold iteration
    simp only [hd, hls]
    have hs1 : (accept kind sT).steplength = 1 := hstep
    have h1 : (accept kind sT).steplength > EndsDemo.dflt.thStepdec := by rw [hs1]; norm_num [EndsDemo.dflt]
    rw [if_pos h1]
    have h2 : ¬ (decreaseReg EndsDemo.dflt (accept kind sT)).steplength ≤ EndsDemo.dflt.thStepinc := by
      show ¬ (accept kind sT).steplength ≤ _
      rw [hs1]; norm_num [EndsDemo.dflt]
    simp only [h2, decide_false, Bool.false_eq_true, if_false, Bool.false_and]
    have h3 : (stopping (decreaseReg EndsDemo.dflt (accept kind sT))).wasFeas = true := by
      show sT.feas = true
      rw [hfT, hx3]
    have h4 : (stopping (decreaseReg EndsDemo.dflt (accept kind sT))).stop < EndsDemo.dflt.thStop := by
      show |sT.d0 + (1 / 2) * sT.d1| < _
      rw [d0, d1, abs_of_nonneg (by norm_num)]; norm_num [EndsDemo.dflt]
    rw [h3, decide_eq_true h4]
    exact ⟨_, rfl, rfl⟩
  obtain ⟨s', hit, hus⟩ := hit
  refine ⟨⟨true, s', [s']⟩, ?_, rfl, by rw [← hus] at hcost; exact hcost⟩
  show iterLoop prob.toProb EndsDemo.dflt (oracle prob (clin w) Demo.chol kind) kind (fuel + 1) (maxiter + 1)
    (start prob.toProb EndsDemo.dflt (fun _ _ => 0) (fun _ _ => 0) true none s) = _
  rw [hst]
  simp only [iterLoop, hit]

end Cliff

/-- C143. The returned trajectory is not covered by these bounds: with the default parameters, on a smooth problem with exact
derivatives and exact Hessians, each of the four solvers started from a feasible guess of cost 0 returns true with a trajectory of
cost more than 999. Its last step was accepted without comparing costs because the predicted improvement was below `th_grad`. -/
theorem C143_worse_counterexample (kind : Kind) (s : NlSt 1 1) (fuel maxiter : Nat) (hf : 0 < fuel) (hi : 0 < maxiter) :
    (∀ xs us, Exact Cliff.prob xs us (Cliff.clin 1 xs us)) ∧
    Rollout Cliff.prob.toProb (fun _ _ => 0) (fun _ _ => 0) ∧ total Cliff.prob (fun _ _ => 0) = 0 ∧
    ∃ o, solve Cliff.prob.toProb EndsDemo.dflt (oracle Cliff.prob (Cliff.clin 1) Demo.chol kind) kind fuel maxiter (fun _ _ => 0)
        (fun _ _ => 0) true none s = some o ∧ o.ret = true ∧ 999 < total Cliff.prob o.final.us := by
  obtain ⟨f, rfl⟩ : ∃ f, fuel = f + 1 := ⟨fuel - 1, by omega⟩
  obtain ⟨k, rfl⟩ : ∃ k, maxiter = k + 1 := ⟨maxiter - 1, by omega⟩
  exact ⟨Cliff.exact 1, Cliff.rollout, Cliff.guess_cost, Cliff.run kind f k s⟩

/-! ### Non-vacuity -/
namespace SuccessDemo

/-- `C143_slope` at a feasible candidate of a nonlinear problem with a positive expected improvement. -/
example (kind : Kind) (c : Cfg ℝ) (s : NlSt 1 1) :
    ∃ s1, dirLoop Demo.prob.toProb c (oracle Demo.prob Demo.dlin Demo.chol kind) 1 (Demo.s0 c s) = some (true, s1) ∧
      0 < (expectedImprovement Demo.prob.T s1.dir).1 ∧
      ∀ v : Nat → Fin 1 → ℝ, ∃ D, HasDerivAt (fun a : ℝ => total Demo.prob fun t => (Demo.s0 c s).us t + a • v t) D 0 ∧
        D ^ 2 ≤ (expectedImprovement Demo.prob.T s1.dir).1 *
          size (Demo.dlin (Demo.s0 c s).xs (Demo.s0 c s).us) s1.preg Demo.prob.T v := by
  obtain ⟨s1, h1, h2⟩ := Demo.direction kind c 0 s
  exact ⟨s1, h1, h2, C143_slope (by norm_num) (Demo.atIteration kind c 1 s) rfl (Demo.exact _ _) Demo.chol_sound
    (Demo.symmHess _ _) h1⟩

/-- The hypotheses of `C143_success_partial`, `C143_gradient_partial` and, at its last iteration, of `C143_converged` hold for a run with the
default parameters that returns true. -/
example (kind : Kind) (s : NlSt 1 1) :
    ∃ o, solve Cliff.prob.toProb EndsDemo.dflt (oracle Cliff.prob (Cliff.clin 0) Demo.chol kind) kind 1 1 (fun _ _ => 0)
        (fun _ _ => 0) true none s = some o ∧
      ∃ us1, (∀ G : Nat → Fin 1 → ℝ, (∀ v : Nat → Fin 1 → ℝ, HasDerivAt (fun a : ℝ => total Cliff.prob fun t => us1 t + a • v t)
        (∑ t ∈ Finset.range 1, G t ⬝ᵥ v t) 0) → ∑ t ∈ Finset.range 1, G t ⬝ᵥ G t ≤ 2 * (1 / 10 ^ 9) * (10 ^ 9 + 1)) ∧
      (o.final.us = us1 ∨ total Cliff.prob o.final.us ≤ total Cliff.prob us1 ∨ |o.final.d0| < 1 / 10 ^ 12) := by
  obtain ⟨o, ho, hr, -⟩ := Cliff.run (w := 0) kind 0 0 s
  refine ⟨o, ho, C143_gradient_partial (by norm_num) (Cliff.exact 0) Demo.chol_sound (Cliff.symmHess 0) EndsDemo.dflt_usual
    (by simp [EndsDemo.dflt]; norm_num) _ _ true (fun _ => Cliff.rollout) (fun _ => rfl) none (by norm_num [EndsDemo.dflt]) s
    (by norm_num) (fun xs us rho v h0 h1 => ?_) ho hr⟩
  have h1' : rho ≤ 10 ^ 9 := h1.trans (by norm_num [EndsDemo.dflt])
  simp only [size, show Cliff.prob.T = 1 from rfl, Finset.sum_range_one, response]
  simp [Cliff.clin, mulVec, dotProduct]
  nlinarith [mul_self_nonneg (v 0 0)]

end SuccessDemo
end Verif.Nl
