import Verif.Lemmas.LqFddp
import Mathlib.Topology.Instances.Matrix
import Mathlib.Topology.MetricSpace.ProperSpace.Real
import Mathlib.Analysis.Normed.Group.Constructions
import Mathlib.Analysis.Normed.Module.Basic
import Mathlib.Analysis.Normed.Module.FiniteDimension
import Mathlib.Topology.Order.Compact
import Mathlib.Analysis.SpecificLimits.Basic

set_option linter.unusedSectionVars false

/-! # Lemmas: convergence of proximal steps on linear-quadratic problems -/

namespace Verif.Lq
open Verif Verif.Solve Matrix

section field
variable {K : Type} [Field K] [LinearOrder K] [IsStrictOrderedRing K] {n m : Nat}
variable {P : LqProb K n (fun _ => m)} {llt : ∀ m, Matrix (Fin m) (Fin m) K → Bool} {kind : Kind}

/-- The homogeneous part of `P`. -/
def hom (P : LqProb K n (fun _ => m)) : LqProb K n (fun _ => m) where
  T := P.T
  node := fun t => { P.node t with
    f := 0
    q := 0
    r := 0 }
  term := { P.term with q := 0 }
  x0 := 0

theorem hom_T : (hom P).T = P.T := rfl

theorem traj_line (vs es : Nat → Fin m → K) (a : K) (i : Nat) :
    traj P (fun t => vs t + a • es t) 0 P.x0 i = traj P vs 0 P.x0 i + a • traj (hom P) es 0 (hom P).x0 i := by
  induction i with
  | zero => simp [traj, hom]
  | succ i ih =>
    rw [traj, traj, traj, ih, Lqr.next_expand]
    congr 1
    simp only [Lqr.next, hom, mulVec_smul, add_zero, smul_add]

theorem traj_hom_smul (es : Nat → Fin m → K) (a : K) (i : Nat) :
    traj (hom P) (fun t => a • es t) 0 (hom P).x0 i = a • traj (hom P) es 0 (hom P).x0 i := by
  induction i with
  | zero => simp [traj, hom]
  | succ i ih =>
    rw [traj, traj, ih]
    simp only [Lqr.next, hom, mulVec_smul, add_zero, smul_add]

theorem total_hom_smul (es : Nat → Fin m → K) (a : K) :
    total (hom P) (fun t => a • es t) = a ^ 2 * total (hom P) es := by
  rw [total_eq, total_eq]
  unfold costOf
  simp only [traj_hom_smul]
  have h1 : ∀ t, ((hom P).node t).cost (a • traj (hom P) es 0 (hom P).x0 t) (a • es t) =
      a ^ 2 * ((hom P).node t).cost (traj (hom P) es 0 (hom P).x0 t) (es t) := fun t => by
    simp only [Lqr.cost, hom, mulVec_smul, dotProduct_smul, smul_dotProduct, smul_eq_mul, zero_dotProduct]
    ring
  rw [Finset.sum_congr rfl fun t _ => h1 t, ← Finset.mul_sum]
  simp only [Lqr.costT, hom, mulVec_smul, dotProduct_smul, smul_dotProduct, smul_eq_mul, zero_dotProduct]
  ring

theorem moved_hom_smul (es : Nat → Fin m → K) (a : K) :
    moved (hom P) (fun _ => 0) (fun _ => 0) (fun t => a • es t) =
      a ^ 2 * moved (hom P) (fun _ => 0) (fun _ => 0) es := by
  unfold moved
  simp only [traj_hom_smul, sub_zero, dotProduct_smul, smul_dotProduct, smul_eq_mul]
  rw [mul_add, Finset.mul_sum, Finset.mul_sum]
  congr 1 <;> exact Finset.sum_congr rfl fun t _ => by ring

/-- The cost along a line of controls is a quadratic function. -/
theorem total_line (hs : Symmetric P) (vs es : Nat → Fin m → K) :
    ∃ D, ∀ a, total P (fun t => vs t + a • es t) = total P vs + a * D + a ^ 2 * total (hom P) es := by
  refine ⟨(∑ t ∈ Finset.range P.T, (((P.node t).derivs (traj P vs 0 P.x0 t) (vs t)).Lx ⬝ᵥ traj (hom P) es 0 (hom P).x0 t +
    ((P.node t).derivs (traj P vs 0 P.x0 t) (vs t)).Lu ⬝ᵥ es t)) +
    (P.term.q + P.term.Q *ᵥ traj P vs 0 P.x0 P.T) ⬝ᵥ traj (hom P) es 0 (hom P).x0 P.T, fun a => ?_⟩
  rw [total_eq, total_eq, total_eq]
  unfold costOf
  simp only [traj_line]
  rw [Lqr.costT_expand _ hs.term, Finset.sum_congr rfl fun t _ => Lqr.cost_expand _ (hs.Q t) (hs.R t) _ _ _ _]
  simp only [Lqr.cost, Lqr.costT, hom, mulVec_smul, dotProduct_smul, smul_dotProduct, smul_eq_mul, zero_dotProduct,
    add_zero]
  simp only [Finset.sum_add_distrib, ← Finset.mul_sum, mul_add, Finset.mul_sum]
  ring_nf

theorem total_hom_nonneg (h : ConvexLq P) (es : Nat → Fin m → K) : 0 ≤ total (hom P) es := by
  rw [total_eq]
  unfold costOf
  refine add_nonneg (Finset.sum_nonneg fun t _ => ?_) ?_
  · have := h.psd t (traj (hom P) es 0 (hom P).x0 t) (es t)
    simp only [Lqr.cost, hom, zero_dotProduct, add_zero] at this ⊢
    linarith
  · have := h.term (traj (hom P) es 0 (hom P).x0 P.T)
    simp only [Lqr.costT, hom, zero_dotProduct, add_zero] at this ⊢
    linarith

/-- From the optimum the cost grows quadratically. -/
theorem total_from_optimum (h : ConvexLq P) {ustar : Nat → Fin m → K} {es : Nat → Fin m → K}
    (ho : ∀ a : K, total P ustar ≤ total P fun t => ustar t + a • es t) (a : K) :
    total P (fun t => ustar t + a • es t) = total P ustar + a ^ 2 * total (hom P) es := by
  obtain ⟨D, hD⟩ := total_line h.symm ustar es
  have hH := total_hom_nonneg h es
  generalize total (hom P) es = H at *
  have hz : D = 0 := by
    have h1 : (0 : K) < H + 1 := by linarith
    have := ho (-(D / (2 * (H + 1))))
    rw [hD] at this
    have e : total P ustar + -(D / (2 * (H + 1))) * D + (-(D / (2 * (H + 1)))) ^ 2 * H =
        total P ustar - D ^ 2 * ((H + 2) / (4 * (H + 1) ^ 2)) := by field_simp; ring
    rw [e] at this
    have hc : 0 < (H + 2) / (4 * (H + 1) ^ 2) := by positivity
    by_contra hne
    have : 0 < D ^ 2 * ((H + 2) / (4 * (H + 1) ^ 2)) := by positivity
    linarith
  rw [hD, hz]; ring

/-- One proximal step towards an optimum on the line through the candidate. -/
theorem prox_rate (h : ConvexLq P) {c rho : K} (hc : 0 ≤ c) (hr : 0 ≤ rho)
    (hcon : ∀ es, moved (hom P) (fun _ => 0) (fun _ => 0) es ≤ c * total (hom P) es)
    {ustar us us' : Nat → Fin m → K} {xs : Nat → Fin n → K} 
    (ho : ∀ a : K, total P ustar ≤ total P fun t => ustar t + a • (us t - ustar t))
    (hx : ∀ t ≤ P.T, traj P us 0 P.x0 t = xs t)
    (hpx : ∀ a : K, total P us' + (1 / 2) * rho * moved P xs us us' ≤
      total P (fun t => ustar t + a • (us t - ustar t)) +
        (1 / 2) * rho * moved P xs us (fun t => ustar t + a • (us t - ustar t))) :
    total P us' + (1 / 2) * rho * moved P xs us us' - total P ustar ≤
      ((1 / 2) * rho * c / (1 + (1 / 2) * rho * c)) * (total P us - total P ustar) := by
  have hk : 0 ≤ (1 / 2) * rho * c := by positivity
  have h1 : (0 : K) < 1 + (1 / 2) * rho * c := by linarith
  have hus : us = fun t => ustar t + (1 : K) • (us t - ustar t) := by funext t; simp
  have hgap : total P us = total P ustar + total (hom P) (fun t => us t - ustar t) := by
    conv_lhs => rw [hus]
    rw [total_from_optimum h ho]; ring
  have hm : ∀ a : K, moved P xs us (fun t => us t + a • (us t - ustar t)) =
      a ^ 2 * moved (hom P) (fun _ => 0) (fun _ => 0) (fun t => us t - ustar t) := fun a => by
    unfold moved
    rw [mul_add, Finset.mul_sum, Finset.mul_sum]
    congr 1
    · refine Finset.sum_congr rfl fun t _ => ?_
      simp only [add_sub_cancel_left, sub_zero, dotProduct_smul, smul_dotProduct, smul_eq_mul]
      ring
    · refine Finset.sum_congr rfl fun t ht => ?_
      rw [traj_line, hx t (by have := Finset.mem_range.mp ht; rw [hom_T] at this; omega), add_sub_cancel_left, sub_zero, dotProduct_smul,
        smul_dotProduct, smul_eq_mul, smul_eq_mul]
      ring
  have hp := hpx (1 - 1 / (1 + (1 / 2) * rho * c))
  have e : (fun t => us t + (-(1 / (1 + (1 / 2) * rho * c))) • (us t - ustar t)) =
      fun t => ustar t + (1 - 1 / (1 + (1 / 2) * rho * c)) • (us t - ustar t) := by
    funext t; module
  have hcc := hcon (fun t => us t - ustar t)
  rw [← e, hm, e, total_from_optimum h ho] at hp
  have hH := total_hom_nonneg h (fun t => us t - ustar t)
  rw [hgap]
  generalize total (hom P) (fun t => us t - ustar t) = H at *
  generalize moved (hom P) (fun _ => 0) (fun _ => 0) (fun t => us t - ustar t) = M at *
  have hb : (1 / 2) * rho * ((-(1 / (1 + (1 / 2) * rho * c))) ^ 2 * M) ≤
      (1 / 2) * rho * ((-(1 / (1 + (1 / 2) * rho * c))) ^ 2 * (c * H)) :=
    mul_le_mul_of_nonneg_left (mul_le_mul_of_nonneg_left hcc (sq_nonneg _)) (by positivity)
  have hfin : (1 - 1 / (1 + (1 / 2) * rho * c)) ^ 2 * H +
      (1 / 2) * rho * ((-(1 / (1 + (1 / 2) * rho * c))) ^ 2 * (c * H)) =
      ((1 / 2) * rho * c / (1 + (1 / 2) * rho * c)) * H := by
    have := h1.ne'
    field_simp
    ring
  have : total P ustar + H - total P ustar = H := by ring
  rw [this]
  linarith

theorem decrease_le {r : Solver.Reg K} {p b : K} (hp : 0 ≤ p) (hd : 1 ≤ r.dec) (h1 : p ≤ b) (h2 : r.min ≤ b) :
    Solver.decrease r p ≤ b := by
  unfold Solver.decrease
  simp only
  split
  · exact h2
  · exact (div_le_self hp hd).trans h1

/-- One iteration of any of the four solvers. -/
theorem iteration_reg (hm : 0 < m) (h : ConvexLq P) (hl : LltComplete llt) (hls : LltSound llt)
    {c : Cfg K} {as : List K} (hal : c.alphas = 1 :: as) (hacc : c.thAcceptstep < 1)
    (hneg : kind.feasibilityDriven = true → 1 < c.thAcceptnegstep) (hgr : 0 < c.thGrad)
    (hinc : c.thStepinc < 1) (hmin : 0 ≤ c.reg.min) {s : LqSt K n m} (hp : 0 ≤ s.preg)
    (hr : s.recalc = true) (hmt : s.iter = 0 ∨ Matches P.toProb s)
    (hx0 : kind.feasibilityDriven = false → s.xsTry 0 = P.x0)
    (hf : s.feas = true → Rollout P.toProb s.xs s.us)
    (hgood : kind.feasibilityDriven = true → s.feas = true ∨ 0 < s.preg ∨
      ¬ IsLeast (Set.range (total P)) (totalCost P.toProb s.xs s.us)) (fuel : Nat) :
    ∃ e s' g, iteration P.toProb c (oracle P llt kind) kind (fuel + 1) s = some (e, true, s') ∧
      backwardOn P llt (some s.preg) s.feas s.xs s.us s.dir = some g ∧
      ClosedLoop P s.xs s.us g 1 s'.xs s'.us ∧ Rollout P.toProb s'.xs s'.us ∧ s'.feas = true ∧
      s'.recalc = true ∧ s'.iter = s.iter ∧ Matches P.toProb s' ∧
      (kind.feasibilityDriven = false → s'.xsTry 0 = P.x0) ∧ 0 ≤ s'.preg ∧
      (s'.preg = s.preg ∨ s'.preg = Solver.decrease c.reg s.preg) ∧
      e ≠ .giveUp ∧ (s.feas = false → e = .continue) ∧
      (s.feas = true → e = if (1/2) * (expectedImprovement P.T g).1 < c.thStop then .converged
        else .continue) := by
  cases hk : kind.feasibilityDriven with
  | false =>
    obtain ⟨e, s', g, a1, a2, a3, a4, a5, a6, a7, a8, a9, a10, a11, a12⟩ :=
      iteration_ddp_reg hk hm h hl hls hal hacc hgr hinc hmin hp hr hmt (hx0 hk) hf fuel
    refine ⟨e, s', g, a1, a2, a3, a4, a5, a6, a7, a8, fun _ => a9, a10, a11, ?_, ?_, ?_⟩
    · rw [a12]; split <;> simp
    · intro hfs; rw [a12, hfs]; simp
    · intro hfs; rw [a12, hfs]; simp
  | true =>
    obtain ⟨e, s', g, a1, a2, a3, a4, a5, a6, a7, a8, a10, a11, a12, a13, a14⟩ :=
      iteration_fddp_reg hk hm h hl hls hal hacc (hneg hk) hgr hinc hmin hp hr hmt hf (hgood hk) fuel
    exact ⟨e, s', g, a1, a2, a3, a4, a5, a6, a7, a8, fun e => (by simp at e), a10, a11, a12, a13, a14⟩

/-- The remaining iterations, from a feasible candidate. -/
theorem loop_reg (hm : 0 < m) (h : ConvexLq P) (hl : LltComplete llt) (hls : LltSound llt)
    {c : Cfg K} {as : List K} (hal : c.alphas = 1 :: as) (hacc : c.thAcceptstep < 1)
    (hneg : kind.feasibilityDriven = true → 1 < c.thAcceptnegstep) (hgr : 0 < c.thGrad)
    (hinc : c.thStepinc < 1) (hmin : 0 ≤ c.reg.min) (hdec : 1 ≤ c.reg.dec) {con rho : K} (hcon0 : 0 ≤ con)
    (hcon : ∀ es, moved (hom P) (fun _ => 0) (fun _ => 0) es ≤ con * total (hom P) es) (hrm : c.reg.min ≤ rho)
    {ustar : Nat → Fin m → K} (ho : ∀ vs, total P ustar ≤ total P vs) (fuel N : Nat) {s : LqSt K n m}
    (hp : 0 ≤ s.preg) (hpr : s.preg ≤ rho) (hr : s.recalc = true) (hmt : s.iter = 0 ∨ Matches P.toProb s)
    (hx0 : kind.feasibilityDriven = false → s.xsTry 0 = P.x0) (hfe : s.feas = true)
    (hro : Rollout P.toProb s.xs s.us) :
    ∃ o, iterLoop P.toProb c (oracle P llt kind) kind (fuel + 1) N s = some o ∧
      Rollout P.toProb o.final.xs o.final.us ∧ o.final.feas = true ∧
      ((o.ret = true ∧ total P o.final.us - total P ustar ≤ (1 / 2) * rho * con * c.thStop) ∨
        (o.ret = false ∧
          total P o.final.us - total P ustar ≤
            ((1 / 2) * rho * con / (1 + (1 / 2) * rho * con)) ^ N * (total P s.us - total P ustar) ∧
          ∀ j < N, c.thStop ≤
            ((1 / 2) * rho * con / (1 + (1 / 2) * rho * con)) ^ j * (total P s.us - total P ustar))) := by
  induction N generalizing s with
  | zero => exact ⟨_, rfl, hro, hfe, .inr ⟨rfl, by simp, fun j hj => absurd hj (Nat.not_lt_zero _)⟩⟩
  | succ N ih =>
    obtain ⟨e, s', g, a1, a2, a3, a4, a5, a6, a7, a8, a9, a10, a11, a12, -, a14⟩ :=
      iteration_reg (c := c) hm h hl hls hal hacc hneg hgr hinc hmin hp hr hmt hx0 (fun _ => hro) (fun _ => .inl hfe) fuel
    have a14 := a14 hfe
    have hr0 : 0 ≤ rho := hmin.trans hrm
    have hx := rollout_traj hro
    have hpx := prox_optimal a2 h.symm hls (fun _ => gaps_of_rollout hro) _ _ a3
    have hrate := prox_rate h hcon0 hp hcon (fun _ => ho _) hx (fun _ => hpx _)
    have himp := prox_improvement a2 h.symm hls (gaps_of_rollout hro) hx 1 _ _ a3
    obtain ⟨-, hd1, -⟩ := C65_descent a2 hls h.symm.term (fun t _ => h.symm.R t)
    have hd : (1 : K) * ((expectedImprovement P.T g).1 + 1 / 2 * 1 * (expectedImprovement P.T g).2) =
        (1 / 2) * (expectedImprovement P.T g).1 := by rw [hd1]; ring
    rw [hd] at himp
    generalize hd0 : (1 / 2) * (expectedImprovement P.T g).1 = d at *
    have hmv : 0 ≤ (1 / 2) * s.preg * moved P s.xs s.us s'.us := mul_nonneg (by linarith) (moved_nonneg _)
    generalize hmm : (1 / 2) * s.preg * moved P s.xs s.us s'.us = M at *
    have hgap : 0 ≤ total P s.us - total P ustar := sub_nonneg.mpr (ho _)
    have hgap' : 0 ≤ total P s'.us - total P ustar := sub_nonneg.mpr (ho _)
    have hk : 0 ≤ (1 / 2) * s.preg * con := by positivity
    have hk' : (1 / 2) * s.preg * con ≤ (1 / 2) * rho * con :=
      mul_le_mul_of_nonneg_right (by linarith) hcon0
    have hkap : (1 / 2) * s.preg * con / (1 + (1 / 2) * s.preg * con) ≤
        (1 / 2) * rho * con / (1 + (1 / 2) * rho * con) := by
      rw [div_le_div_iff₀ (by linarith) (by linarith)]
      nlinarith
    have hkap0 : 0 ≤ (1 / 2) * rho * con / (1 + (1 / 2) * rho * con) := div_nonneg (by linarith) (by linarith)
    have hstep : total P s'.us - total P ustar ≤
        ((1 / 2) * rho * con / (1 + (1 / 2) * rho * con)) * (total P s.us - total P ustar) := by
      have := mul_le_mul_of_nonneg_right hkap hgap
      linarith
    have hdle : d ≤ total P s.us - total P ustar := by linarith
    by_cases hst : d < c.thStop
    · rw [if_pos hst] at a14
      rw [iterLoop, a1, a14]
      refine ⟨_, rfl, a4, a5, .inl ⟨rfl, ?_⟩⟩
      show total P s'.us - total P ustar ≤ _
      -- the gap before the step is at most `1 + k` times the predicted improvement
      have h2 : ((1 / 2) * s.preg * con / (1 + (1 / 2) * s.preg * con)) * (total P s.us - total P ustar) ≤
          (1 / 2) * s.preg * con * d := by
        have h3 : total P s.us - total P ustar -
            ((1 / 2) * s.preg * con / (1 + (1 / 2) * s.preg * con)) * (total P s.us - total P ustar) ≤ d := by linarith
        have h4 : total P s.us - total P ustar -
            ((1 / 2) * s.preg * con / (1 + (1 / 2) * s.preg * con)) * (total P s.us - total P ustar) =
            (total P s.us - total P ustar) / (1 + (1 / 2) * s.preg * con) := by
          have : 1 + (1 / 2) * s.preg * con ≠ 0 := by linarith
          field_simp
          ring
        rw [h4] at h3
        have := mul_le_mul_of_nonneg_left h3 hk
        calc _ = (1 / 2) * s.preg * con * ((total P s.us - total P ustar) / (1 + (1 / 2) * s.preg * con)) := by ring
          _ ≤ _ := this
      have h5 : (1 / 2) * s.preg * con * d ≤ (1 / 2) * rho * con * d := by
        have hd00 : 0 ≤ d := by
          have : 0 ≤ (total P s.us - total P ustar) := hgap
          have h6 : ((1 / 2) * s.preg * con / (1 + (1 / 2) * s.preg * con)) * (total P s.us - total P ustar) ≤
              (total P s.us - total P ustar) :=
            mul_le_of_le_one_left hgap ((div_le_one (by linarith)).mpr (by linarith))
          linarith
        exact mul_le_mul_of_nonneg_right hk' hd00
      have h6 : (1 / 2) * rho * con * d ≤ (1 / 2) * rho * con * c.thStop :=
        mul_le_mul_of_nonneg_left hst.le (by linarith)
      linarith
    · rw [if_neg hst] at a14
      have hpr' : s'.preg ≤ rho := by
        rcases a11 with e | e
        · rw [e]; exact hpr
        · rw [e]; exact decrease_le hp hdec hpr hrm
      obtain ⟨o, b1, b2, b3, b4⟩ := ih (s := { s' with iter := s'.iter + 1 }) a10 hpr' a6 (.inr a8) a9 a5 a4
      rw [iterLoop, a1, a14]
      simp only [b1, Option.map_some]
      refine ⟨_, rfl, b2, b3, b4.imp id ?_⟩
      rintro ⟨c1, c2, c3⟩
      refine ⟨c1, c2.trans ?_, fun j hj => ?_⟩
      · have := mul_le_mul_of_nonneg_left hstep (pow_nonneg hkap0 N)
        rwa [← mul_assoc, ← pow_succ] at this
      · cases j with
        | zero => simp only [pow_zero, one_mul]; exact (not_lt.mp hst).trans hdle
        | succ j =>
          refine (c3 j (by omega)).trans ?_
          have := mul_le_mul_of_nonneg_left hstep (pow_nonneg hkap0 j)
          rwa [← mul_assoc, ← pow_succ] at this

end field

section real
variable {n m : Nat} {P : LqProb ℝ n (fun _ => m)}

/-- The controls of the first nodes. -/
noncomputable def extend (T : Nat) (e : Fin T → Fin m → ℝ) (t : Nat) : Fin m → ℝ := if h : t < T then e ⟨t, h⟩ else 0

theorem traj_congr {us vs : Nat → Fin m → ℝ} (x : Fin n → ℝ) (T : Nat) (h : ∀ t < T, us t = vs t) :
    ∀ t ≤ T, traj P us 0 x t = traj P vs 0 x t := by
  intro t ht
  induction t with
  | zero => rfl
  | succ t ih => rw [traj, traj, ih (by omega), Nat.zero_add, h t ht]

theorem total_congr {us vs : Nat → Fin m → ℝ} (h : ∀ t < P.T, us t = vs t) : total P us = total P vs := by
  rw [total_eq, total_eq]
  unfold costOf
  rw [traj_congr P.x0 P.T h P.T le_rfl, Finset.sum_congr rfl fun t ht => by
    rw [traj_congr P.x0 P.T h t (Finset.mem_range.mp ht).le, h t (Finset.mem_range.mp ht)]]

theorem moved_congr {us vs ws : Nat → Fin m → ℝ} {xs : Nat → Fin n → ℝ} (h : ∀ t < P.T, us t = vs t) :
    moved P xs ws us = moved P xs ws vs := by
  unfold moved
  rw [Finset.sum_congr rfl fun t ht => by rw [h t (Finset.mem_range.mp ht)],
    Finset.sum_congr (s₁ := Finset.range (P.T + 1)) rfl fun t ht => by
      rw [traj_congr P.x0 P.T h t (by have := Finset.mem_range.mp ht; omega)]]

theorem extend_continuous (T t : Nat) : Continuous fun e : Fin T → Fin m → ℝ => extend T e t := by
  unfold extend
  split
  · exact continuous_apply _
  · exact continuous_const

theorem traj_continuous (T t : Nat) :
    Continuous fun e : Fin T → Fin m → ℝ => traj P (extend T e) 0 P.x0 t := by
  induction t with
  | zero => exact continuous_const
  | succ t ih =>
    unfold traj Lqr.next
    exact ((continuous_const.matrix_mulVec ih).add
      (continuous_const.matrix_mulVec (extend_continuous T (0 + t)))).add continuous_const

theorem total_continuous : Continuous fun e : Fin P.T → Fin m → ℝ => total P (extend P.T e) := by
  simp only [total_eq]
  unfold costOf Lqr.cost Lqr.costT
  refine (continuous_finsetSum _ fun t _ => ?_).add ?_
  · have hx := traj_continuous (P := P) P.T t
    have hu := extend_continuous (m := m) P.T t
    exact (((((continuous_const.mul (hx.dotProduct (continuous_const.matrix_mulVec hx)))).add
      (continuous_const.mul (hu.dotProduct (continuous_const.matrix_mulVec hu)))).add
      (hx.dotProduct (continuous_const.matrix_mulVec hu))).add (continuous_const.dotProduct hx)).add
      (continuous_const.dotProduct hu)
  · have hx := traj_continuous (P := P) P.T P.T
    exact (continuous_const.mul (hx.dotProduct (continuous_const.matrix_mulVec hx))).add (continuous_const.dotProduct hx)

theorem moved_continuous : Continuous fun e : Fin P.T → Fin m → ℝ =>
    moved P (fun _ => 0) (fun _ => 0) (extend P.T e) := by
  unfold moved
  simp only [sub_zero]
  refine (continuous_finsetSum _ fun t _ => ?_).add (continuous_finsetSum _ fun t _ => ?_)
  · exact (extend_continuous P.T t).dotProduct (extend_continuous P.T t)
  · exact (traj_continuous P.T t).dotProduct (traj_continuous P.T t)

/-- The homogeneous cost vanishes at zero controls only. -/
theorem hom_posdef (h : ConvexLq P) {es : Nat → Fin m → ℝ} (h0 : total (hom P) es = 0) : ∀ t < P.T, es t = 0 := by
  rw [total_eq] at h0
  unfold costOf at h0
  have hnode : ∀ t ∈ Finset.range P.T, 0 ≤ ((hom P).node t).cost (traj (hom P) es 0 (hom P).x0 t) (es t) := fun t _ => by
    have := h.psd t (traj (hom P) es 0 (hom P).x0 t) (es t)
    simp only [Lqr.cost, hom, zero_dotProduct, add_zero] at this ⊢
    linarith
  have hterm : 0 ≤ (hom P).term.costT (traj (hom P) es 0 (hom P).x0 P.T) := by
    have := h.term (traj (hom P) es 0 (hom P).x0 P.T)
    simp only [Lqr.costT, hom, zero_dotProduct, add_zero] at this ⊢
    linarith
  have hsum := Finset.sum_nonneg hnode
  have hz := (Finset.sum_eq_zero_iff_of_nonneg hnode).mp (by rw [hom_T] at h0; linarith)
  have key : ∀ t, t ≤ P.T → (∀ j < t, es j = 0) ∧ traj (hom P) es 0 (hom P).x0 t = 0 := by
    intro t
    induction t with
    | zero => exact fun _ => ⟨fun j hj => absurd hj (Nat.not_lt_zero _), rfl⟩
    | succ t ih =>
      intro ht
      obtain ⟨h1, h2⟩ := ih (by omega)
      have h3 := hz t (Finset.mem_range.mpr ht)
      have h4 : es t = 0 := by
        by_contra hne
        have := h.pd t (es t) hne
        rw [h2] at h3
        simp only [Lqr.cost, hom, zero_dotProduct, add_zero, mul_zero, zero_add] at h3
        linarith
      refine ⟨fun j hj => ?_, ?_⟩
      · rcases Nat.lt_succ_iff_lt_or_eq.mp hj with hj | rfl
        · exact h1 j hj
        · exact h4
      · rw [traj, h2, Nat.zero_add, h4]
        simp [Lqr.next, hom]
  exact (key P.T le_rfl).1

/-- On a convex problem the squared distance is bounded by the growth of the cost. -/
theorem exists_const (h : ConvexLq P) :
    ∃ c, 0 ≤ c ∧ ∀ es, moved (hom P) (fun _ => 0) (fun _ => 0) es ≤ c * total (hom P) es := by
  let E := Fin P.T → Fin m → ℝ
  have hct : Continuous fun e : E => total (hom P) (extend P.T e) := total_continuous (P := hom P)
  have hcm : Continuous fun e : E => moved (hom P) (fun _ => 0) (fun _ => 0) (extend P.T e) :=
    moved_continuous (P := hom P)
  have hnn : ∀ e : E, 0 ≤ total (hom P) (extend P.T e) := fun e => total_hom_nonneg h _
  have hsm : ∀ (a : ℝ) (e : E), extend P.T (a • e) = fun t => a • extend P.T e t := fun a e => by
    funext t
    unfold extend
    split
    · rfl
    · exact (smul_zero a).symm
  suffices hs : ∃ c, 0 ≤ c ∧ ∀ e : E, moved (hom P) (fun _ => 0) (fun _ => 0) (extend P.T e) ≤
      c * total (hom P) (extend P.T e) by
    obtain ⟨c, hc, hs⟩ := hs
    refine ⟨c, hc, fun es => ?_⟩
    have he : ∀ t < P.T, es t = extend P.T (fun i : Fin P.T => es i) t := fun t ht => by
      unfold extend; rw [dif_pos ht]
    rw [moved_congr (P := hom P) he, total_congr (P := hom P) he]
    exact hs _
  by_cases hne : (Metric.sphere (0 : E) 1).Nonempty
  · obtain ⟨e1, m1, h1⟩ := (isCompact_sphere (0 : E) 1).exists_isMinOn hne hct.continuousOn
    obtain ⟨e2, m2, h2⟩ := (isCompact_sphere (0 : E) 1).exists_isMaxOn hne hcm.continuousOn
    have hpos : 0 < total (hom P) (extend P.T e1) := by
      refine lt_of_le_of_ne (hnn e1) fun h0 => ?_
      have hz := hom_posdef h h0.symm
      have : e1 = 0 := by
        funext i
        have := hz i i.2
        unfold extend at this
        rw [dif_pos i.2] at this
        exact this
      rw [this] at m1
      simp at m1
    refine ⟨moved (hom P) (fun _ => 0) (fun _ => 0) (extend P.T e2) / total (hom P) (extend P.T e1),
      div_nonneg (moved_nonneg _) (hnn _), fun e => ?_⟩
    by_cases he : e = 0
    · have hz : extend P.T e = fun t => (0 : ℝ) • extend P.T e t := by
        rw [← hsm, he, smul_zero]
      rw [hz, moved_hom_smul, total_hom_smul]; simp
    · have hn : ‖e‖ ≠ 0 := norm_ne_zero_iff.mpr he
      have hu : ‖e‖⁻¹ • e ∈ Metric.sphere (0 : E) 1 := by
        rw [mem_sphere_zero_iff_norm, norm_smul, norm_inv, norm_norm, inv_mul_cancel₀ hn]
      have hee : extend P.T e = fun t => ‖e‖ • extend P.T (‖e‖⁻¹ • e) t := by
        rw [← hsm, smul_smul, mul_inv_cancel₀ hn, one_smul]
      rw [hee, moved_hom_smul, total_hom_smul]
      have k1 := h1 hu
      have k2 := h2 hu
      simp only [Set.mem_ofPred_eq] at k1 k2
      generalize moved (hom P) (fun _ => 0) (fun _ => 0) (extend P.T (‖e‖⁻¹ • e)) = A at *
      generalize total (hom P) (extend P.T (‖e‖⁻¹ • e)) = B at *
      have hA : 0 ≤ moved (hom P) (fun _ => 0) (fun _ => 0) (extend P.T e2) := moved_nonneg _
      generalize moved (hom P) (fun _ => 0) (fun _ => 0) (extend P.T e2) = A2 at *
      generalize total (hom P) (extend P.T e1) = B1 at *
      have : A ≤ A2 / B1 * B := by
        calc A ≤ A2 := k2
          _ = A2 / B1 * B1 := by field_simp
          _ ≤ A2 / B1 * B := mul_le_mul_of_nonneg_left k1 (div_nonneg hA hpos.le)
      have := mul_le_mul_of_nonneg_left this (sq_nonneg ‖e‖)
      linarith
  · refine ⟨0, le_rfl, fun e => ?_⟩
    have he : e = 0 := by
      by_contra he
      have hn : ‖e‖ ≠ 0 := norm_ne_zero_iff.mpr he
      exact hne ⟨‖e‖⁻¹ • e, by rw [mem_sphere_zero_iff_norm, norm_smul, norm_inv, norm_norm, inv_mul_cancel₀ hn]⟩
    have hz : extend P.T e = fun t => (0 : ℝ) • extend P.T e t := by
      rw [← hsm, he, smul_zero]
    rw [hz, moved_hom_smul, total_hom_smul]; simp

end real
end Verif.Lq
