import Verif.Lemmas.KktOpt
import Verif.Props.Kkt
import Verif.Props.Nl

/-! # Properties C113-C115: the KKT solver's linear system -/

namespace Verif.Kkt
open Verif Verif.Lq Verif.Solve Matrix

set_option linter.unusedSectionVars false

/-! ## C113 the direction -/

section C113
variable {n : ℕ} {nu : ℕ → ℕ} {K : Type} [Field K] [LinearOrder K] [IsStrictOrderedRing K]

/-- C113. For convex local costs, strictly convex in the controls, and any horizon, dimensions, numbers of controls and
earlier assemblies, the direction satisfies the linearised dynamics and the initial condition, and is the unique minimiser
of the second-order model of the cost among all such changes of the candidate. -/
theorem C113_direction {lu : ℕ → (ℕ → ℕ → K) → (ℕ → K) → ℕ → K} (hlu : LuSound lu) {l : Local K n nu}
    (hc : ConvexLocal l) (hT : 0 < l.T) (ls : List (Local K n nu)) :
    let pd := primalDual lu n nu l.T (assembleOn l (memAfter l.T ls))
    LinFeas l (dxOf n pd) (duOf n nu l.T pd) ∧
    ∀ Y V, LinFeas l Y V → quad l (dxOf n pd) (duOf n nu l.T pd) ≤ quad l Y V ∧
      (quad l Y V ≤ quad l (dxOf n pd) (duOf n nu l.T pd) →
        (∀ t ≤ l.T, Y t = dxOf n pd t) ∧ ∀ t < l.T, V t = duOf n nu l.T pd t) := by
  intro pd
  have h := direction_eqs hlu hc (memAfter_clean l.T ls) hT
  exact ⟨h.linFeas, fun Y V hf => h.optimal hc hf⟩

/-- C113 (multipliers). The multipliers are those of the quadratic program: the gradient of its Lagrangian vanishes at the
direction. -/
theorem C113_multipliers {lu : ℕ → (ℕ → ℕ → K) → (ℕ → K) → ℕ → K} (hlu : LuSound lu) {l : Local K n nu}
    (hc : ConvexLocal l) (hT : 0 < l.T) (ls : List (Local K n nu)) :
    let pd := primalDual lu n nu l.T (assembleOn l (memAfter l.T ls))
    let dx := dxOf n pd
    let du := duOf n nu l.T pd
    let lam := lamOf n nu l.T pd
    (∀ t < l.T, (l.d t).Lx + (l.d t).Lxx *ᵥ dx t + (l.d t).Lxu *ᵥ du t + lam t - (l.d t).Fxᵀ *ᵥ lam (t + 1) = 0) ∧
    (∀ t < l.T, (l.d t).Lu + (l.d t).Lxuᵀ *ᵥ dx t + (l.d t).Luu *ᵥ du t - (l.d t).Fuᵀ *ᵥ lam (t + 1) = 0) ∧
    l.LxT + l.LxxT *ᵥ dx l.T + lam l.T = 0 := by
  intro pd dx du lam
  have h := direction_eqs hlu hc (memAfter_clean l.T ls) hT
  refine ⟨fun t ht => ?_, fun t ht => ?_, ?_⟩
  · have e := h.x t ht
    rw [one_smul, eq_neg_iff_add_eq_zero] at e
    rw [← e]; abel
  · have e := h.u t ht
    rw [one_smul, eq_neg_iff_add_eq_zero] at e
    rw [← e]; abel
  · have e := h.xT
    rw [one_smul, eq_neg_iff_add_eq_zero] at e
    rw [← e]; abel

/-- C113 (history). Direction and multipliers do not depend on what was assembled before. -/
theorem C113_history {lu : ℕ → (ℕ → ℕ → K) → (ℕ → K) → ℕ → K} (hlu : LuSound lu) {l : Local K n nu}
    (hc : ConvexLocal l) (hT : 0 < l.T) (ls ls' : List (Local K n nu)) :
    let pd := primalDual lu n nu l.T (assembleOn l (memAfter l.T ls))
    let pd' := primalDual lu n nu l.T (assembleOn l (memAfter l.T ls'))
    (∀ t ≤ l.T, dxOf n pd t = dxOf n pd' t) ∧ (∀ t < l.T, duOf n nu l.T pd t = duOf n nu l.T pd' t) ∧
    ∀ t ≤ l.T, lamOf n nu l.T pd t = lamOf n nu l.T pd' t := by
  intro pd pd'
  exact (direction_eqs hlu hc (memAfter_clean l.T ls) hT).unique hc (direction_eqs hlu hc (memAfter_clean l.T ls') hT)

end C113

/-! ## C114 predicted improvement and stopping criterion -/

section C114
variable {n : ℕ} {nu : ℕ → ℕ} {K : Type} [Field K]

/-- C114 (model). The predicted improvement of a step `a` is the decrease of the second-order model of the cost, for every
vector `pd` the linear solve may return. -/
theorem C114_model {l : Local K n nu} (hT : 0 < l.T) (ls : List (Local K n nu)) (pd : ℕ → K) (a : K) :
    let d := expImp n nu l.T (assembleOn l (memAfter l.T ls)) pd
    a * d.1 + (1 / 2) * a * a * d.2 = -quad l (fun t => a • dxOf n pd t) (fun t => a • duOf n nu l.T pd t) := by
  intro d
  have e1 : d.1 = _ := expImp_fst l (memAfter l.T ls) hT pd
  have e2 : d.2 = _ := expImp_snd l (memAfter_clean l.T ls) pd
  rw [quad_eq, slope_smul, curv_smul, e1, e2]
  ring

variable [LinearOrder K] [IsStrictOrderedRing K]

/-- C114 (linear-quadratic problems). There the predicted improvement of every step length is the exact decrease of the
cost, also for candidates with gaps. -/
theorem C114_exact_lq {P : LqProb K n nu} (hs : Symmetric P) (hT : 0 < P.T) (ls : List (Local K n nu)) (pd : ℕ → K)
    (xs : ℕ → Fin n → K) (us : ∀ t, Fin (nu t) → K) (a : K) :
    let d := expImp n nu P.T (assembleOn (Local.ofLq P xs us) (memAfter P.T ls)) pd
    costOf P xs us - costOf P (fun t => xs t + a • dxOf n pd t) (fun t => us t + a • duOf n nu P.T pd t) =
      a * d.1 + (1 / 2) * a * a * d.2 := by
  intro d
  rw [show a * d.1 + (1 / 2) * a * a * d.2 = _ from C114_model (l := Local.ofLq P xs us) hT ls pd a, lq_cost hs,
    sub_add_cancel_left]
  rfl

/-- C114 (descent). Without gaps, convex costs: the direction is one of descent, `d0 = -d1 ≥ 0`, and `d0` is zero only if
the direction is. -/
theorem C114_descent {lu : ℕ → (ℕ → ℕ → K) → (ℕ → K) → ℕ → K} (hlu : LuSound lu) {l : Local K n nu}
    (hc : ConvexLocal l) (hT : 0 < l.T) (hg : NoGaps l) (ls : List (Local K n nu)) :
    let pd := primalDual lu n nu l.T (assembleOn l (memAfter l.T ls))
    let d := expImp n nu l.T (assembleOn l (memAfter l.T ls)) pd
    d.2 = -d.1 ∧ 0 ≤ d.1 ∧
    (d.1 = 0 ↔ (∀ t ≤ l.T, dxOf n pd t = 0) ∧ ∀ t < l.T, duOf n nu l.T pd t = 0) := by
  intro pd d
  have e1 : d.1 = _ := expImp_fst l (memAfter l.T ls) hT pd
  have e2 : d.2 = _ := expImp_snd l (memAfter_clean l.T ls) pd
  have h := direction_eqs hlu hc (memAfter_clean l.T ls) hT
  have hh : Hom l (dxOf n pd) (duOf n nu l.T pd) := by
    refine ⟨by have := h.c0; rw [hg.init] at this; simpa using this, fun t ht => ?_⟩
    have := h.c t ht
    rw [hg.step t ht, sub_self, smul_zero, neg_zero, sub_sub, sub_eq_zero] at this
    exact this
  have hb := h.bil_eq (dxOf n pd) (duOf n nu l.T pd)
  rw [hh.dynDot, bil_self, one_mul, sub_zero] at hb
  have hn := curv_nonneg hc (dxOf n pd) (duOf n nu l.T pd)
  refine ⟨by rw [e1, e2, hb], by rw [e1, ← hb]; exact hn, fun h0 => ?_, fun ⟨h1, h2⟩ => ?_⟩
  · exact hh.zero hc (by rw [hb, ← e1, h0])
  · rw [e1]
    unfold slope
    rw [Finset.sum_eq_zero fun t ht => by
      rw [h1 t (Finset.mem_range.1 ht).le, h2 t (Finset.mem_range.1 ht), dotProduct_zero, dotProduct_zero, add_zero],
      h1 l.T le_rfl]
    simp

/-- C114 (stopping). The stopping criterion is never negative, and zero exactly if the candidate the system was assembled
at has no gaps and satisfies the first-order conditions with some multipliers; `dF` is whatever the vector held before. -/
theorem C114_stop {lu : ℕ → (ℕ → ℕ → K) → (ℕ → K) → ℕ → K} (hlu : LuSound lu) {l : Local K n nu}
    (hc : ConvexLocal l) (hT : 0 < l.T) (ls : List (Local K n nu)) (dF : ℕ → K) :
    let m := assembleOn l (memAfter l.T ls)
    let stop := stopOf l m (lamOf n nu l.T (primalDual lu n nu l.T m)) dF
    0 ≤ stop ∧ (stop = 0 ↔ FirstOrder l) := by
  intro m stop
  obtain ⟨h0, h1⟩ := stop_zero_iff l (memAfter l.T ls) hT (lamOf n nu l.T (primalDual lu n nu l.T m)) dF
  refine ⟨h0, fun h => ?_, fun ⟨hg, lam, e1, e2, e3⟩ => ?_⟩
  · obtain ⟨hg, e1, e2, e3⟩ := h1.1 h
    exact ⟨hg, _, e1, e2, e3⟩
  · obtain ⟨-, -, hL⟩ := (direction_eqs hlu hc (memAfter_clean l.T ls) hT).unique hc (eqs_zero_dir hg e1 e2 e3)
    refine h1.2 ⟨hg, fun t ht => ?_, fun t ht => ?_, ?_⟩
    · rw [hL t ht.le, hL (t + 1) ht]; exact e1 t ht
    · rw [hL (t + 1) ht]; exact e2 t ht
    · rw [hL l.T le_rfl]; exact e3

end C114

section C114nl
variable {n m : ℕ} {P : Nl.NlProb n m} {L : Lin ℝ n m} {xs : ℕ → Fin n → ℝ} {us : ℕ → Fin m → ℝ}

/-- C114 (nonlinear problems). With exact first derivatives, the first component of the predicted improvement is the rate
at which the cost of the trial decreases with the step length, at every candidate, with or without gaps. -/
theorem C114_slope_nl (hE : Nl.Exact P xs us L) (hT : 0 < P.T) (ls : List (Local ℝ n (fun _ => m))) (pd : ℕ → ℝ) :
    HasDerivAt (fun a : ℝ => totalCost P.toProb (fun t => xs t + a • dxOf n pd t)
        (fun t => us t + a • duOf n (fun _ => m) P.T pd t))
      (-(expImp n (fun _ => m) P.T (assembleOn (Local.ofNl P L xs us) (memAfter P.T ls)) pd).1) 0 := by
  rw [show (expImp n (fun _ => m) P.T (assembleOn (Local.ofNl P L xs us) (memAfter P.T ls)) pd).1 = _ from
    expImp_fst (Local.ofNl P L xs us) (memAfter P.T ls) hT pd, neg_neg]
  have hX : ∀ t, HasDerivAt (fun a : ℝ => xs t + a • dxOf n pd t) (dxOf n pd t) 0 := fun t => by
    simpa using ((hasDerivAt_id (0 : ℝ)).smul_const (dxOf n pd t)).const_add (xs t)
  have hU : ∀ t, HasDerivAt (fun a : ℝ => us t + a • duOf n (fun _ => m) P.T pd t) (duOf n (fun _ => m) P.T pd t) 0 :=
    fun t => by simpa using ((hasDerivAt_id (0 : ℝ)).smul_const (duOf n (fun _ => m) P.T pd t)).const_add (us t)
  refine HasDerivAt.add (HasDerivAt.fun_sum fun t ht => ?_) ?_
  · refine Nl.HasGrad.along (X := fun a => xs t + a • dxOf n pd t) ?_ (hX t) (hU t)
    have := hE.cost t (Finset.mem_range.1 ht)
    simp only [zero_smul, add_zero]
    exact this
  · refine Nl.HasGrad1.along (X := fun a => xs P.T + a • dxOf n pd P.T) ?_ (hX P.T)
    have := hE.term
    simp only [zero_smul, add_zero]
    exact this

theorem adj_of_lam {lam : ℕ → Fin n → ℝ} {T : ℕ}
    (h1 : ∀ t < T, (L.d t).Lx + lam t - (L.d t).Fxᵀ *ᵥ lam (t + 1) = 0) (h3 : L.LxT + lam T = 0) :
    ∀ r ≤ T, Nl.adj L T r = -lam (T - r) := by
  intro r
  induction r with
  | zero => intro _; exact eq_neg_of_add_eq_zero_left h3
  | succ r ih =>
    intro hr
    have e := h1 (T - (r + 1)) (by omega)
    rw [show T - (r + 1) + 1 = T - r by omega] at e
    rw [Nl.adj, ih (by omega), mulVec_neg, eq_neg_iff_add_eq_zero, ← e]
    abel

/-- C114 (stopping, nonlinear problems). With exact first derivatives and convex second-order blocks (exact or not), the
stopping criterion is zero exactly if the candidate is a rollout of its controls and the controls are a stationary point
of the total cost. -/
theorem C114_stationary_nl {lu : ℕ → (ℕ → ℕ → ℝ) → (ℕ → ℝ) → ℕ → ℝ} (hlu : LuSound lu) (hE : Nl.Exact P xs us L)
    (hc : ConvexLocal (Local.ofNl P L xs us)) (hT : 0 < P.T) (ls : List (Local ℝ n (fun _ => m))) (dF : ℕ → ℝ) :
    let M := assembleOn (Local.ofNl P L xs us) (memAfter P.T ls)
    stopOf (Local.ofNl P L xs us) M (lamOf n (fun _ => m) P.T (primalDual lu n (fun _ => m) P.T M)) dF = 0 ↔
      Rollout P.toProb xs us ∧ Nl.Stationary P us := by
  intro M
  refine (C114_stop hlu hc hT ls dF).2.trans ?_
  constructor
  · rintro ⟨hg, lam, h1, h2, h3⟩
    have hro : Rollout P.toProb xs us := ⟨hg.init, hg.step⟩
    refine ⟨hro, (Nl.stationary_iff (hE.of_rollout hro)).2 fun t ht => ?_⟩
    have ha := adj_of_lam (L := L) (T := P.T) h1 h3 (P.T - (t + 1)) (by omega)
    rw [ha, show P.T - (P.T - (t + 1)) = t + 1 by omega, mulVec_neg, ← sub_eq_add_neg]
    exact h2 t ht
  · rintro ⟨hro, hst⟩
    refine ⟨⟨hro.1, hro.2⟩, fun t => -Nl.adj L P.T (P.T - t), fun t ht => ?_, fun t ht => ?_, ?_⟩
    · have e : P.T - t = (P.T - (t + 1)) + 1 := by
        have : t < P.T := ht
        omega
      have e' : P.T - (P.T - (t + 1) + 1) = t := by
        have : t < P.T := ht
        omega
      have ea : Nl.adj L P.T (P.T - t) = (L.d t).Lx + (L.d t).Fxᵀ *ᵥ Nl.adj L P.T (P.T - (t + 1)) := by
        rw [e, Nl.adj, e']
      show (L.d t).Lx + -Nl.adj L P.T (P.T - t) - (L.d t).Fxᵀ *ᵥ -Nl.adj L P.T (P.T - (t + 1)) = 0
      rw [ea, mulVec_neg]
      abel
    · show (L.d t).Lu - (L.d t).Fuᵀ *ᵥ -Nl.adj L P.T (P.T - (t + 1)) = 0
      rw [mulVec_neg, sub_neg_eq_add]
      exact (Nl.stationary_iff (hE.of_rollout hro)).1 hst t ht
    · show L.LxT + -Nl.adj L P.T (P.T - P.T) = 0
      rw [Nat.sub_self, Nl.adj, add_neg_cancel]

end C114nl

/-! ## C115 linear-quadratic problems -/

section C115
variable {n m : ℕ} {K : Type} [Field K] [LinearOrder K] [IsStrictOrderedRing K]
variable {P : LqProb K n (fun _ => m)} {lu : ℕ → (ℕ → ℕ → K) → (ℕ → K) → ℕ → K}
  {hist : (ℕ → Fin n → K) → (ℕ → Fin m → K) → List (Local K n (fun _ => m))} {dF : ℕ → K} {c : Cfg K}

/-- The solver's state on such a problem. -/
abbrev LqSt (K : Type) (n m : ℕ) :=
  St K (Fin n → K) (Fin n → K) (Fin m → K) (Local K n (fun _ => m) × Mem K) (ℕ → Fin n → K)

/-- The candidate is a rollout of its controls and no other controls cost less. -/
def Optimal (P : LqProb K n (fun _ => m)) (xs : ℕ → Fin n → K) (us : ℕ → Fin m → K) : Prop :=
  Rollout P.toProb xs us ∧ ∀ us', Lq.total P us ≤ Lq.total P us'

theorem totalCost_costOf (xs : ℕ → Fin n → K) (us : ℕ → Fin m → K) : totalCost P.toProb xs us = costOf P xs us := rfl

theorem traj_rollout (us : ℕ → Fin m → K) : Rollout P.toProb (Lq.traj P us 0 P.x0) us := by
  refine ⟨rfl, fun t _ => ?_⟩
  show (P.node (0 + t)).next _ (us (0 + t)) = _
  rw [Nat.zero_add]
  rfl

/-- Moving to another rollout. -/
theorem linFeas_to (xs xs' : ℕ → Fin n → K) (us us' : ℕ → Fin m → K) (h : Rollout P.toProb xs' us') :
    LinFeas (Local.ofLq P xs us) (fun t => xs' t - xs t) (fun t => us' t - us t) := by
  rw [lq_linFeas]
  simp only [add_sub_cancel]
  exact h

theorem quad_to (hP : ConvexLq P) (xs xs' : ℕ → Fin n → K) (us us' : ℕ → Fin m → K) :
    quad (Local.ofLq P xs us) (fun t => xs' t - xs t) (fun t => us' t - us t) = costOf P xs' us' - costOf P xs us := by
  have := lq_cost hP.symm xs (fun t => xs' t - xs t) us (fun t => us' t - us t)
  simp only [add_sub_cancel] at this
  rw [this]; ring

/-- The full step along a solution of the system is optimal. -/
theorem full_step (hP : ConvexLq P) {xs : ℕ → Fin n → K} {us : ℕ → Fin m → K} {X L : ℕ → Fin n → K}
    {U : ℕ → Fin m → K} (h : Eqs (Local.ofLq P xs us) 1 X U L) {xs' : ℕ → Fin n → K} {us' : ℕ → Fin m → K}
    (hx : ∀ t ≤ P.T, xs' t = xs t + X t) (hu : ∀ t < P.T, us' t = us t + U t) : Optimal P xs' us' := by
  have hf := (lq_linFeas (P := P) xs X us U).1 h.linFeas
  have hro : Rollout P.toProb xs' us' := by
    refine ⟨?_, fun t ht => ?_⟩
    · rw [hx 0 (Nat.zero_le _)]; exact hf.1
    · rw [hx (t + 1) ht, hx t (le_of_lt ht), hu t ht]; exact hf.2 t ht
  refine ⟨hro, fun v => ?_⟩
  have hv := traj_rollout (P := P) v
  have h1 := (h.optimal (lq_convex hP xs us) (linFeas_to xs _ us v hv)).1
  rw [quad_to hP] at h1
  have h2 := lq_cost hP.symm xs X us U
  have h3 : costOf P xs' us' = costOf P (fun t => xs t + X t) (fun t => us t + U t) := by
    unfold costOf
    rw [hx P.T le_rfl, Finset.sum_congr rfl fun t ht => by
      rw [hx t (Finset.mem_range.1 ht).le, hu t (Finset.mem_range.1 ht)]]
  rw [← Lq.rollout_total hro, ← Lq.rollout_total hv, totalCost_costOf, totalCost_costOf, h3, h2]
  linarith

/-- At an optimal candidate the solution of the system has a zero direction. -/
theorem dir_zero (hP : ConvexLq P) {xs : ℕ → Fin n → K} {us : ℕ → Fin m → K} {X L : ℕ → Fin n → K}
    {U : ℕ → Fin m → K} (h : Eqs (Local.ofLq P xs us) 1 X U L) (ho : Optimal P xs us) :
    (∀ t ≤ P.T, X t = 0) ∧ ∀ t < P.T, U t = 0 := by
  have hop := full_step hP h (xs' := fun t => xs t + X t) (us' := fun t => us t + U t) (fun _ _ => rfl) fun _ _ => rfl
  have h1 := ho.2 (fun t => us t + U t)
  rw [← Lq.rollout_total ho.1, ← Lq.rollout_total hop.1, totalCost_costOf, totalCost_costOf, lq_cost hP.symm] at h1
  have hz : LinFeas (Local.ofLq P xs us) (fun t => xs t - xs t) (fun t => us t - us t) := linFeas_to xs xs us us ho.1
  have hq := quad_to hP xs xs us us
  obtain ⟨e1, e2⟩ := (h.optimal (lq_convex hP xs us) hz).2 (by rw [hq]; linarith)
  exact ⟨fun t ht => by rw [← e1 t ht, sub_self], fun t ht => by rw [← e2 t ht, sub_self]⟩

/-- One iteration. -/
theorem iteration_lq (hP : ConvexLq P) (hT : 0 < P.T) (hlu : LuSound lu) {as : List K} (ha : c.alphas = 1 :: as)
    (hacc : c.thAcceptstep < 1) (hgr : 0 < c.thGrad) (fuel : ℕ) {s : LqSt K n m} (hr : s.recalc = true)
    (hf : s.feas = true → Rollout P.toProb s.xs s.us) :
    ∃ e s', iteration P.toProb c (lqOracle P lu hist dF) (fuel + 1) s = some (e, s') ∧
      (e = .converged ∨ e = .continue) ∧ (s.feas = true → s'.stop < c.thStop → e = .converged) ∧
      s'.recalc = true ∧ s'.feas = true ∧ Optimal P s'.xs s'.us ∧ s'.cost = Lq.total P s'.us ∧
      (Optimal P s.xs s.us → s'.stop = 0) := by
  let l := Local.ofLq P s.xs s.us
  let M := assembleOn l (memAfter P.T (hist s.xs s.us))
  let pd := primalDual lu n (fun _ => m) P.T M
  let d := expImp n (fun _ => m) P.T M pd
  have hcl := memAfter_clean P.T (hist s.xs s.us)
  have hE : Eqs l 1 (dxOf n pd) (duOf n (fun _ => m) P.T pd) (lamOf n (fun _ => m) P.T pd) :=
    direction_eqs hlu (lq_convex hP s.xs s.us) hcl hT
  have hd : computeDirection P.toProb (lqOracle P lu hist dF) s = (true, { s with
      cost := costOf P s.xs s.us, lin := (l, M), dxs := dxOf n pd, dus := duOf n (fun _ => m) P.T pd,
      dual := lamOf n (fun _ => m) P.T pd }) := by
    unfold computeDirection calcDiff
    simp only [hr, if_true, lqOracle, Bool.false_eq_true, if_false, calcCost_eq, totalCost_costOf]
    rfl
  -- the trial of the full step
  let xT : ℕ → Fin n → K := fun t => if t < P.T then s.xs t + (1 : K) • dxOf n pd t
      else if t = P.T then s.xs t + (1 : K) • dxOf n pd t else s.xsTry t
  let uT : ℕ → Fin m → K := fun t => if t < P.T ∧ decide (m = 0) = false then s.us t
      + (1 : K) • duOf n (fun _ => m) P.T pd t else s.usTry t
  have hx : ∀ t ≤ P.T, xT t = s.xs t + dxOf n pd t := by
    intro t ht
    rcases Nat.lt_or_eq_of_le ht with h | h
    · simp only [xT, if_pos h, one_smul]
    · simp only [xT, h, lt_irrefl, if_false, if_true, one_smul]
  have hu : ∀ t < P.T, uT t = s.us t + duOf n (fun _ => m) P.T pd t := by
    intro t ht
    by_cases h0 : m = 0
    · subst h0; exact Subsingleton.elim _ _
    · simp only [uT, ht, h0, decide_false, and_self, if_true, one_smul]
  have hopt : Optimal P xT uT := full_step hP hE hx hu
  have hcost : costOf P xT uT = costOf P s.xs s.us + quad l (dxOf n pd) (duOf n (fun _ => m) P.T pd) := by
    rw [← lq_cost hP.symm]
    unfold costOf
    rw [hx P.T le_rfl, Finset.sum_congr rfl fun t ht => by
      rw [hx t (Finset.mem_range.1 ht).le, hu t (Finset.mem_range.1 ht)]]
  have hpred : d.1 + (1 / 2) * d.2 = -quad l (dxOf n pd) (duOf n (fun _ => m) P.T pd) := by
    have := C114_model (l := l) hT (hist s.xs s.us) pd 1
    simp only [one_smul, one_mul, mul_one] at this
    exact this
  have hdec : d.1 < c.thGrad ∨ s.feas = false ∨
      costOf P s.xs s.us - costOf P xT uT > c.thAcceptstep * (1 * d.1 + (1 / 2) * 1 * 1 * d.2) := by
    cases hfe : s.feas with
    | false => exact .inr (.inl rfl)
    | true =>
      have hro := hf hfe
      obtain ⟨e1, e2, -⟩ := C114_descent hlu (lq_convex hP s.xs s.us) hT ⟨hro.1, hro.2⟩ (hist s.xs s.us)
      have e1 : d.2 = -d.1 := e1
      have e2 : 0 ≤ d.1 := e2
      rcases e2.lt_or_eq with hp | hz
      · refine .inr (.inr ?_)
        rw [hcost, one_mul, mul_one, mul_one, hpred]
        have : 0 < -quad l (dxOf n pd) (duOf n (fun _ => m) P.T pd) := by rw [← hpred, e1]; linarith
        nlinarith
      · exact .inl (by rw [← hz]; exact hgr)
  let s1 : LqSt K n m := { s with
      cost := costOf P s.xs s.us, lin := (l, M), dxs := dxOf n pd, dus := duOf n (fun _ => m) P.T pd,
      dual := lamOf n (fun _ => m) P.T pd, d0 := d.1, d1 := d.2 }
  let s2 : LqSt K n m := { s1 with
      steplength := 1, xsTry := xT, usTry := uT, costTry := costOf P xT uT,
      dV := costOf P s.xs s.us - costOf P xT uT, dVexp := 1 * d.1 + (1 / 2) * 1 * 1 * d.2,
      wasFeas := s.feas, xs := xT, us := uT, feas := true, cost := costOf P xT uT }
  have hl : lineSearch P.toProb c (lqOracle P lu hist dF) c.alphas s1 = s2 := by
    rw [ha]
    have ht : tryStep P.toProb (lqOracle P lu hist dF) 1 { s1 with steplength := 1 } = (true, { s1 with
        steplength := 1, xsTry := xT, usTry := uT, costTry := costOf P xT uT,
        dV := costOf P s.xs s.us - costOf P xT uT }) := by
      unfold tryStep
      simp only [lqOracle, Bool.false_eq_true, if_false, calcCost_eq, totalCost_costOf]
      rfl
    simp only [lineSearch, ht, if_true]
    exact if_pos hdec
  let s3 : LqSt K n m := { s2 with stop := stopOf l M (lamOf n (fun _ => m) P.T pd) dF }
  have hi : iteration P.toProb c (lqOracle P lu hist dF) (fuel + 1) s =
      if s3.wasFeas = true ∧ s3.stop < c.thStop then some (.converged, s3) else some (.continue, s3) := by
    unfold iteration
    simp only [dirLoop, hd, if_true]
    exact congrArg (fun s2 : LqSt K n m => if s2.wasFeas = true ∧ (lqOracle P lu hist dF).stop s2.lin s2.dual < c.thStop
      then some (Exit.converged, { s2 with stop := (lqOracle P lu hist dF).stop s2.lin s2.dual })
      else some (Exit.continue, { s2 with stop := (lqOracle P lu hist dF).stop s2.lin s2.dual })) hl
  have hcost' : s3.cost = Lq.total P s3.us := by
    rw [← Lq.rollout_total (xs := xT) hopt.1]; rfl
  have hstop : Optimal P s.xs s.us → s3.stop = 0 := by
    intro ho
    refine (C114_stop hlu (lq_convex hP s.xs s.us) hT (hist s.xs s.us) dF).2.2 ⟨⟨ho.1.1, ho.1.2⟩,
      lamOf n (fun _ => m) P.T pd, fun t ht => ?_, fun t ht => ?_, ?_⟩
    · obtain ⟨z1, z2⟩ := dir_zero hP hE ho
      have e := hE.x t ht
      rw [z1 t (le_of_lt ht), z2 t ht, one_smul, mulVec_zero, mulVec_zero, zero_add, zero_add,
        eq_neg_iff_add_eq_zero] at e
      rw [← e]; abel
    · obtain ⟨z1, z2⟩ := dir_zero hP hE ho
      have e := hE.u t ht
      rw [z1 t (le_of_lt ht), z2 t ht, one_smul, mulVec_zero, mulVec_zero, zero_add,
        eq_neg_iff_add_eq_zero] at e
      rw [← e]; abel
    · obtain ⟨z1, z2⟩ := dir_zero hP hE ho
      have e := hE.xT
      rw [show dxOf n pd l.T = 0 from z1 P.T le_rfl, one_smul, mulVec_zero, zero_add, eq_neg_iff_add_eq_zero] at e
      rw [← e]; exact add_comm _ _
  by_cases hcv : s3.wasFeas = true ∧ s3.stop < c.thStop
  · exact ⟨.converged, s3, by rw [hi, if_pos hcv], .inl rfl, fun _ _ => rfl, hr, rfl, hopt, hcost', hstop⟩
  · exact ⟨.continue, s3, by rw [hi, if_neg hcv], .inr rfl, fun h1 h2 => absurd ⟨h1, h2⟩ hcv, hr, rfl, hopt, hcost',
      hstop⟩

/-- C115. On a convex linear-quadratic problem, from any initial guess (marked feasible only if it is a rollout), whatever
the solver did before: `solve` with at least two iterations returns true after at most two, and every iteration,
including the first, ends with a candidate that is a rollout of its controls and the global optimum, and with its cost. -/
theorem C115_solve_lq (hP : ConvexLq P) (hT : 0 < P.T) (hlu : LuSound lu) {as : List K} (ha : c.alphas = 1 :: as)
    (hacc : c.thAcceptstep < 1) (hgr : 0 < c.thGrad) (hst : 0 < c.thStop) (fuel maxiter : ℕ) (s : LqSt K n m)
    (xs : ℕ → Fin n → K) (us : ℕ → Fin m → K) (feas : Bool) (hf : feas = true → Rollout P.toProb xs us) :
    ∃ o, solve P.toProb c (lqOracle P lu hist dF) (fuel + 1) (maxiter + 2) xs us feas s = some o ∧
      o.ret = true ∧ o.trace.length ≤ 2 ∧
      (∀ s' ∈ o.final :: o.trace, Optimal P s'.xs s'.us ∧ s'.cost = Lq.total P s'.us) := by
  unfold solve
  obtain ⟨e, s1, h1, he, -, hr1, hf1, ho1, hc1, -⟩ := iteration_lq (c := c) (hist := hist) (dF := dF) hP hT hlu ha hacc
    hgr fuel (s := start xs us feas s) rfl hf
  rcases he with rfl | rfl
  · refine ⟨⟨true, s1, [s1]⟩, by simp only [iterLoop, h1], rfl, by simp, ?_⟩
    simp [ho1, hc1]
  · obtain ⟨e', s2, h2, -, he', -, -, ho2, hc2, hz⟩ := iteration_lq (c := c) (hist := hist) (dF := dF) hP hT hlu ha hacc
      hgr fuel (s := { s1 with iter := s1.iter + 1 }) hr1 (fun _ => ho1.1)
    obtain rfl := he' hf1 (by rw [hz ho1]; exact hst)
    refine ⟨⟨true, s2, [s1, s2]⟩, by simp only [iterLoop, h1, h2]; rfl, rfl, by simp, ?_⟩
    simp [ho1, hc1, ho2, hc2]

/-- C115 (one iteration). With a single iteration allowed the result is the same, whether or not `solve` returns true. -/
theorem C115_one_iteration (hP : ConvexLq P) (hT : 0 < P.T) (hlu : LuSound lu) {as : List K} (ha : c.alphas = 1 :: as)
    (hacc : c.thAcceptstep < 1) (hgr : 0 < c.thGrad) (fuel : ℕ) (s : LqSt K n m)
    (xs : ℕ → Fin n → K) (us : ℕ → Fin m → K) (feas : Bool) (hf : feas = true → Rollout P.toProb xs us) :
    ∃ o, solve P.toProb c (lqOracle P lu hist dF) (fuel + 1) 1 xs us feas s = some o ∧
      Optimal P o.final.xs o.final.us ∧ o.final.cost = Lq.total P o.final.us := by
  unfold solve
  obtain ⟨e, s1, h1, he, -, -, -, ho1, hc1, -⟩ := iteration_lq (c := c) (hist := hist) (dF := dF) hP hT hlu ha hacc
    hgr fuel (s := start xs us feas s) rfl hf
  rcases he with rfl | rfl
  · exact ⟨⟨true, s1, [s1]⟩, by simp only [iterLoop, h1], ho1, hc1⟩
  · exact ⟨⟨false, { s1 with iter := s1.iter + 1 }, [s1]⟩, by simp only [iterLoop, h1]; rfl, ho1, hc1⟩

end C115

/-! ## Concrete instances -/

namespace SysDemo

/-- Two nodes, `x' = x + u`, costs `½ (x² + u²)` and `½ x² - x`, from state 1; coupled by `½ x u`. -/
def prob : LqProb ℚ 1 (fun _ => 1) where
  T := 2
  node := fun _ => ⟨!![1], !![1], ![0], !![1], !![1], !![1 / 2], ![0], ![0]⟩
  term := ⟨!![1], 0, ![0], !![1], 0, 0, ![-1], 0⟩
  x0 := ![1]

theorem convex : ConvexLq prob := by
  refine ⟨⟨fun t => ?_, fun t => ?_, ?_⟩, fun t x u => ?_, fun t v hv => ?_, fun v => ?_⟩
  · ext i j; simp [prob]
  · ext i j; simp [prob]
  · ext i j; simp [prob]
  · simp [prob, mulVec, dotProduct, vecMul]
    nlinarith [sq_nonneg (x 0 + (1 / 2) * u 0), sq_nonneg (u 0)]
  · have : v 0 ≠ 0 := fun h => hv (by funext i; fin_cases i; exact h)
    simp [prob, mulVec, dotProduct]
    exact this
  · simp [prob, mulVec, dotProduct]
    exact mul_self_nonneg _

/-- A guess with gaps. -/
def xs : ℕ → Fin 1 → ℚ := fun t => ![(t : ℚ) + 3]
def us : ℕ → Fin 1 → ℚ := fun _ => ![2]

/-- The hypotheses of C113-C115 hold at a candidate with gaps at every node, after assembling another system. -/
example : ∃ lu : ℕ → (ℕ → ℕ → ℚ) → (ℕ → ℚ) → ℕ → ℚ, LuSound lu ∧ ConvexLocal (Local.ofLq prob xs us) ∧
    ¬ NoGaps (Local.ofLq prob xs us) ∧
    LinFeas (Local.ofLq prob xs us)
      (dxOf 1 (primalDual lu 1 (fun _ => 1) 2 (assembleOn (Local.ofLq prob xs us) (memAfter 2 [Local.ofLq prob us us]))))
      (duOf 1 (fun _ => 1) 2
        (primalDual lu 1 (fun _ => 1) 2 (assembleOn (Local.ofLq prob xs us) (memAfter 2 [Local.ofLq prob us us])))) := by
  obtain ⟨lu, hlu⟩ := exists_luSound (K := ℚ)
  refine ⟨lu, hlu, lq_convex convex xs us, fun h => ?_,
    (C113_direction hlu (lq_convex convex xs us) (by decide) [Local.ofLq prob us us]).1⟩
  have := congrFun h.init 0
  simp [Local.ofLq, xs, prob] at this

/-- C115: the solver returns the optimum from that guess. -/
example (s : LqSt ℚ 1 1) : ∃ lu, LuSound lu ∧ ∃ o,
    solve prob.toProb ⟨[1, 1 / 2], 1 / 10, 1 / 10 ^ 9, 1 / 10 ^ 12, 10 ^ 9⟩ (lqOracle prob lu (fun _ _ => []) fun _ => 0) 1 2
      xs us false s = some o ∧ o.ret = true := by
  obtain ⟨lu, hlu⟩ := exists_luSound (K := ℚ)
  obtain ⟨o, h1, h2, -⟩ := C115_solve_lq (P := prob) (lu := lu) (hist := fun _ _ => []) (dF := fun _ => 0)
    (c := ⟨[1, 1 / 2], 1 / 10, 1 / 10 ^ 9, 1 / 10 ^ 12, 10 ^ 9⟩) convex (by decide) hlu rfl (by norm_num) (by norm_num)
    (by norm_num) 0 0 s xs us false (by simp)
  exact ⟨lu, hlu, o, h1, h2⟩

/-- C114 on a nonlinear problem: `x' = x + u + u²`, Gauss-Newton Hessians. The criterion is positive at `u = 0`, which is
not stationary. -/
theorem nl_convex (xs us : ℕ → Fin 1 → ℝ) : ConvexLocal (Local.ofNl Nl.Demo.prob (Nl.Demo.dlin xs us) xs us) := by
  refine ⟨fun t _ => ⟨?_, ?_, fun x u => ?_⟩, fun t _ v hv => ?_, ?_, fun v => ?_⟩
  · ext i j; simp [Local.ofNl, Nl.Demo.dlin]
  · ext i j; obtain rfl : i = j := Subsingleton.elim _ _; rfl
  · simp [Local.ofNl, Nl.Demo.dlin, mulVec, dotProduct]
    exact mul_self_nonneg _
  · have : v 0 ≠ 0 := fun h => hv (by funext i; fin_cases i; exact h)
    simp [Local.ofNl, Nl.Demo.dlin, mulVec, dotProduct]
    exact this
  · ext i j; obtain rfl : i = j := Subsingleton.elim _ _; rfl
  · simp [Local.ofNl, Nl.Demo.dlin, mulVec, dotProduct]
    exact mul_self_nonneg _

example : ∃ lu : ℕ → (ℕ → ℕ → ℝ) → (ℕ → ℝ) → ℕ → ℝ, LuSound lu ∧
    let l := Local.ofNl Nl.Demo.prob (Nl.Demo.dlin (fun _ _ => 1) fun _ _ => 0) (fun _ _ => 1) fun _ _ => 0
    0 < stopOf l (assembleOn l (memAfter 1 [l]))
      (lamOf 1 (fun _ => 1) 1 (primalDual lu 1 (fun _ => 1) 1 (assembleOn l (memAfter 1 [l])))) fun _ => 0 := by
  obtain ⟨lu, hlu⟩ := exists_luSound (K := ℝ)
  refine ⟨lu, hlu, ?_⟩
  intro l
  have hc := nl_convex (fun _ _ => 1) fun _ _ => 0
  have h0 := (C114_stop hlu hc Nat.one_pos [l] fun _ => 0).1
  refine lt_of_le_of_ne h0 fun h => ?_
  have hst := ((C114_stationary_nl hlu (Nl.Demo.exact (fun _ _ => 1) fun _ _ => 0) hc Nat.one_pos [l] fun _ => 0).1
    h.symm).2
  have := (Nl.stationary_iff ((Nl.Demo.exact (fun _ _ => 1) fun _ _ => 0).of_rollout Nl.Demo.rollout)).1 hst 0 Nat.one_pos
  have e : Nl.adj (Nl.Demo.dlin (fun _ _ => 1) fun _ _ => 0) 1 (1 - (0 + 1)) = fun _ => 1 := rfl
  have := (congrArg (fun v => ((Nl.Demo.dlin (fun _ _ => 1) fun _ _ => 0).d 0).Lu 0
    + (((Nl.Demo.dlin (fun _ _ => 1) fun _ _ => 0).d 0).Fuᵀ *ᵥ v) 0) e).symm.trans (congrFun this 0)
  simp [Nl.Demo.dlin, mulVec, dotProduct] at this

/-- Without controls in the cost and the dynamics the system is singular: the homogeneous system has a nonzero solution,
which is why C113 asks for strict convexity in the controls. -/
def flatProb : Local ℚ 1 (fun _ => 1) :=
  ⟨1, fun _ => ⟨!![1], !![0], ![0], ![0], !![1], !![0], !![0]⟩, fun _ => ![0], ![0], !![1], fun _ => ![0], ![0]⟩

example : Eqs flatProb 0 (fun _ => 0) (fun _ => ![1]) (fun _ => 0) := by
  refine ⟨fun t _ => ?_, fun t _ => ?_, ?_, ?_, fun t _ => ?_⟩ <;> ext i <;> simp [flatProb]

end SysDemo

end Verif.Kkt
