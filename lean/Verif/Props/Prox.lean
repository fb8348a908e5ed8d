import Verif.Lemmas.ProxRate
import Verif.Props.LqFddp
import Verif.Props.Nl

set_option linter.unusedSectionVars false

/-!
# Regularised steps on linear-quadratic problems (C133)

`SolverDDP` adds `preg_` to the diagonals of `Quu` and `Vxx` at every node (ddp.cpp L218-220, L336-338, L362-364). On
linear-quadratic problems this is a proximal method. The solvers are those of `Props/LqSolve` and `Props/LqFddp`.
-/

namespace Verif.Lq
open Verif Verif.Solve Matrix

section step
variable {K : Type} [Field K] [LinearOrder K] [IsStrictOrderedRing K] {n : Nat} {nu : Nat → Nat}
variable {P : LqProb K n nu} {llt : ∀ m, Matrix (Fin m) (Fin m) K → Bool} {rho : K} {feas : Bool}
variable {xs : Nat → Fin n → K} {us : ∀ t, Fin (nu t) → K} {s g : Arrays K n nu}

/-- C133. The trajectory of the full step with regularisation `rho` minimises, among all control sequences, the cost plus
`½ rho` times the squared distance from the candidate. -/
theorem C133_proximal (h : backwardOn P llt (some rho) feas xs us s = some g) (hs : Symmetric P) (hl : LltSound llt)
    (hf : feas = true → ∀ t ≤ P.T, gaps P xs us t = 0)
    (xs' : Nat → Fin n → K) (us' : ∀ t, Fin (nu t) → K) (hc : ClosedLoop P xs us g 1 xs' us')
    (vs : ∀ t, Fin (nu t) → K) :
    total P us' + (1 / 2) * rho * moved P xs us us' ≤ total P vs + (1 / 2) * rho * moved P xs us vs :=
  prox_optimal h hs hl hf xs' us' hc vs

/-- C133. From a feasible candidate, the improvement predicted for a step falls short of the actual one by exactly
`½ rho` times the squared distance moved: with `rho ≥ 0` the prediction is never too high. -/
theorem C133_improvement (h : backwardOn P llt (some rho) feas xs us s = some g) (hs : Symmetric P) (hl : LltSound llt)
    (hf : ∀ t ≤ P.T, gaps P xs us t = 0) (a : K)
    (xs' : Nat → Fin n → K) (us' : ∀ t, Fin (nu t) → K) (hc : ClosedLoop P xs us g a xs' us') :
    total P us - total P us' =
      a * ((expectedImprovement P.T g).1 + (1 / 2) * a * (expectedImprovement P.T g).2)
        + (1 / 2) * rho * moved P xs us us' := by
  refine prox_improvement h hs hl hf (fun t ht => ?_) a xs' us' hc
  induction t with
  | zero => have := hf 0 ht; rw [gaps, sub_eq_zero] at this; exact this
  | succ t ih =>
    have := hf (t + 1) ht
    rw [gaps, sub_eq_zero] at this
    rw [traj, ih (by omega), Nat.zero_add, this]

end step

section solve
variable {n m : Nat} {P : LqProb ℝ n (fun _ => m)}

/-- C133. On every convex linear-quadratic problem there is a constant with which, for each of the four solvers, all sane
parameters, solver states and feasible guesses, and every initial regularisation, `N` iterations of `solve` end with a
feasible trajectory: when they return true, its cost is within `½ rho con th_stop` of the optimum, where `rho` is the
larger of the initial and the minimal regularisation; when they return false, the distance of its cost to the optimum is
at most `q ^ N` times that of the guess, with `q = k / (1 + k) < 1` and `k = ½ rho con`. -/
theorem C133_rate (hm : 0 < m) (h : ConvexLq P) :
    ∃ con, 0 ≤ con ∧ ∀ {llt : ∀ m, Matrix (Fin m) (Fin m) ℝ → Bool}, LltComplete llt → LltSound llt →
      ∀ (kind : Kind) {c : Cfg ℝ}, Sane c → (kind.feasibilityDriven = true → 1 < c.thAcceptnegstep) → 1 ≤ c.reg.dec →
      ∀ (xs : Nat → Fin n → ℝ) (us : Nat → Fin m → ℝ), Rollout P.toProb xs us →
      ∀ (regInit : Option ℝ), 0 ≤ regInit.getD c.reg.min → ∀ (s : LqSt ℝ n m) (fuel N : Nat) (rho k : ℝ),
      rho = max (regInit.getD c.reg.min) c.reg.min → k = (1 / 2) * rho * con →
      ∀ ustar : Nat → Fin m → ℝ, (∀ vs, total P ustar ≤ total P vs) →
      ∃ o, solve P.toProb c (oracle P llt kind) kind (fuel + 1) N xs us true regInit s = some o ∧
        Rollout P.toProb o.final.xs o.final.us ∧ o.final.feas = true ∧
        (o.ret = true → total P o.final.us - total P ustar ≤ k * c.thStop) ∧
        (o.ret = false → total P o.final.us - total P ustar ≤ (k / (1 + k)) ^ N * (total P us - total P ustar)) := by
  obtain ⟨con, hcon0, hcon⟩ := exists_const h
  refine ⟨con, hcon0, ?_⟩
  intro llt hl hls kind c hc hneg hdec xs us hro regInit hreg s fuel N rho k hrho hk ustar ho
  subst hrho hk
  obtain ⟨as, hal⟩ := hc.alphas
  obtain ⟨o, b1, b2, b3, b4⟩ := loop_reg hm h hl hls hal hc.accept hneg hc.grad hc.stepinc hc.regmin hdec hcon0 hcon
    (le_max_right _ _) ho fuel N (s := start P.toProb c xs us true regInit s) (kind := kind) hreg (le_max_left _ _) rfl
    (.inl rfl) (fun _ => by simp [start, LqProb.toProb, upd]) rfl hro
  refine ⟨o, b1, b2, b3, fun e => ?_, fun e => ?_⟩
  · rcases b4 with ⟨-, c2⟩ | ⟨c1, -⟩
    · exact c2
    · rw [c1] at e; cases e
  · rcases b4 with ⟨c1, -⟩ | ⟨-, c2, -⟩
    · rw [c1] at e; cases e
    · exact c2

/-- C133. On every convex linear-quadratic problem each of the four solvers converges, with every initial regularisation
and from every guess: allowed enough iterations, `solve` returns true with a feasible trajectory whose cost is within
`½ rho con th_stop` of the optimum. (For FDDP and BoxFDDP without regularisation the infeasible guesses whose cost
happens to be exactly the optimal cost are left out, see C103.) -/
theorem C133_converges (hm : 0 < m) (h : ConvexLq P) :
    ∃ con, 0 ≤ con ∧ ∀ {llt : ∀ m, Matrix (Fin m) (Fin m) ℝ → Bool}, LltComplete llt → LltSound llt →
      ∀ (kind : Kind) {c : Cfg ℝ}, Sane c → (kind.feasibilityDriven = true → 1 < c.thAcceptnegstep) → 1 ≤ c.reg.dec →
      ∀ (xs : Nat → Fin n → ℝ) (us : Nat → Fin m → ℝ) (feas : Bool), (feas = true → Rollout P.toProb xs us) →
      ∀ (regInit : Option ℝ), 0 ≤ regInit.getD c.reg.min →
      (kind.feasibilityDriven = true → feas = true ∨ 0 < regInit.getD c.reg.min ∨
        ¬ IsLeast (Set.range (total P)) (costOf P xs us)) →
      ∀ (s : LqSt ℝ n m) (fuel : Nat), ∃ N0, ∀ N ≥ N0,
      ∃ o, solve P.toProb c (oracle P llt kind) kind (fuel + 1) N xs us feas regInit s = some o ∧ o.ret = true ∧
        Rollout P.toProb o.final.xs o.final.us ∧ o.final.feas = true ∧
        ∀ vs, total P o.final.us ≤ total P vs +
          (1 / 2) * max (regInit.getD c.reg.min) c.reg.min * con * c.thStop := by
  obtain ⟨con, hcon0, hcon⟩ := exists_const h
  refine ⟨con, hcon0, ?_⟩
  intro llt hl hls kind c hc hneg hdec xs us feas hf regInit hreg hgood s fuel
  obtain ⟨as, hal⟩ := hc.alphas
  -- an optimum
  obtain ⟨g0, hb0⟩ := h.back hl (le_refl (0 : ℝ)) false (fun _ => 0) (fun _ => 0) s.dir
  have ho := C29_optimal hb0 h.symm hls (.inr rfl) (fun e => by cases e) _ _
    (closedLoop_exists P (fun _ => 0) (fun _ => 0) g0 1)
  generalize (fun t => (0 : Fin m → ℝ) - (1 : ℝ) • (g0.out t).k - (g0.out t).Kfb *ᵥ
    (policyTraj P (fun _ => 0) (fun _ => 0) g0 1 t - 0)) = ustar at ho
  generalize hrho : max (regInit.getD c.reg.min) c.reg.min = rho
  have hr0 : 0 ≤ rho := hrho ▸ hreg.trans (le_max_left _ _)
  have hk0 : 0 ≤ (1 / 2) * rho * con := by positivity
  have hq0 : 0 ≤ (1 / 2) * rho * con / (1 + (1 / 2) * rho * con) := div_nonneg hk0 (by linarith)
  have hq1 : (1 / 2) * rho * con / (1 + (1 / 2) * rho * con) < 1 := (div_lt_one (by linarith)).mpr (by linarith)
  -- the first iteration
  obtain ⟨e, s', g, a1, a2, a3, a4, a5, a6, a7, a8, a9, a10, a11, a12, a13, a14⟩ :=
    iteration_reg (c := c) (kind := kind) (s := start P.toProb c xs us feas regInit s) hm h hl hls hal hc.accept hneg
      hc.grad hc.stepinc hc.regmin hreg rfl (.inl rfl) (fun _ => by simp [start, LqProb.toProb, upd]) hf hgood fuel
  have hgap' : 0 ≤ total P s'.us - total P ustar := sub_nonneg.mpr (ho _)
  obtain ⟨j, hj⟩ : ∃ j : Nat, ((1 / 2) * rho * con / (1 + (1 / 2) * rho * con)) ^ j * (total P s'.us - total P ustar) <
      c.thStop := by
    rcases eq_or_lt_of_le hgap' with hz | hpos
    · exact ⟨0, by rw [← hz, mul_zero]; exact hc.stop⟩
    · obtain ⟨j, hj⟩ := exists_pow_lt_of_lt_one (div_pos hc.stop hpos) hq1
      exact ⟨j, (lt_div_iff₀ hpos).mp hj⟩
  -- the guess converged at once
  have hfirst : e = .converged → feas = true ∧
      total P s'.us - total P ustar ≤ (1 / 2) * rho * con * c.thStop := by
    intro he
    cases hfe : feas with
    | false => rw [a13 hfe] at he; cases he
    | true =>
      refine ⟨rfl, ?_⟩
      obtain ⟨o, b1, -, -, b4⟩ := loop_reg hm h hl hls hal hc.accept hneg hc.grad hc.stepinc hc.regmin hdec hcon0 hcon
        (le_max_right _ _) ho fuel 1 (s := start P.toProb c xs us feas regInit s) (kind := kind) hreg (le_max_left _ _) rfl
        (.inl rfl) (fun _ => by simp [start, LqProb.toProb, upd]) hfe (hf hfe)
      rw [iterLoop, a1, he] at b1
      obtain rfl := Option.some.inj b1
      rcases b4 with ⟨-, c2⟩ | ⟨c1, -⟩
      · rw [← hrho]; exact c2
      · cases c1
  refine ⟨j + 2, fun N hN => ?_⟩
  obtain ⟨N, rfl⟩ : ∃ N', N = N' + 1 := ⟨N - 1, by omega⟩
  unfold solve
  rw [iterLoop, a1]
  cases e with
  | giveUp => exact absurd rfl a12
  | converged =>
    refine ⟨_, rfl, rfl, a4, a5, fun vs => ?_⟩
    have := (hfirst rfl).2
    have := ho vs
    show total P s'.us ≤ _
    linarith
  | «continue» =>
    have hpr' : s'.preg ≤ rho := by
      rcases a11 with e | e
      · rw [e, ← hrho]; exact le_max_left _ _
      · rw [e, ← hrho]; exact decrease_le hreg hdec (le_max_left _ _) (le_max_right _ _)
    obtain ⟨o, b1, b2, b3, b4⟩ := loop_reg hm h hl hls hal hc.accept hneg hc.grad hc.stepinc hc.regmin hdec hcon0 hcon
      (hrho ▸ le_max_right _ _) ho fuel N (s := { s' with iter := s'.iter + 1 }) (kind := kind) a10 hpr' a6 (.inr a8)
      a9 a5 a4
    simp only [b1, Option.map_some]
    refine ⟨_, rfl, ?_⟩
    rcases b4 with ⟨c1, c2⟩ | ⟨-, -, c3⟩
    · refine ⟨c1, b2, b3, fun vs => ?_⟩
      have := ho vs
      show total P o.final.us ≤ _
      linarith
    · exact absurd (c3 j (by omega)) (not_le.mpr hj)

end solve

namespace ProxDemo

/-- `x' = x + u`, cost `u²`, terminal cost `½x²`, over the reals. -/
noncomputable def scalar (x0 : ℝ) : LqProb ℝ 1 (fun _ => 1) where
  T := 1
  node := fun _ => { A := !![1], B := !![1], f := 0, Q := 0, R := !![2], N := 0, q := 0, r := 0 }
  term := { A := 0, B := 0, f := 0, Q := !![1], R := 0, N := 0, q := 0, r := 0 }
  x0 := ![x0]

theorem scalar_convex (x0 : ℝ) : ConvexLq (scalar x0) where
  symm := ⟨fun _ => by simp [scalar], fun _ => by ext i j; simp [scalar, Subsingleton.elim i j],
    by ext i j; simp [scalar, Subsingleton.elim i j]⟩
  psd := fun t x u => by
    simp [scalar, dotProduct, mulVec]
    nlinarith [sq_nonneg (u 0)]
  pd := fun t v hv => by
    have h : 0 < v 0 * v 0 := by simpa [dotProduct] using dot_self_pos hv
    simp [scalar, dotProduct, mulVec]
    linarith
  term := fun v => by
    simp [scalar, dotProduct, mulVec]
    nlinarith [sq_nonneg (v 0)]

/-- The default parameters, with the first three of the ten default step lengths. -/
noncomputable def cfg : Cfg ℝ :=
  ⟨[1, 1/2, 1/4], 1/10, 2, 1/10^9, 1/10^12, 1/2, 1/100, ⟨10, 10, 1/10^9, 10^9⟩⟩

theorem cfg_sane : Sane cfg :=
  ⟨⟨_, rfl⟩, by norm_num [cfg], by norm_num [cfg], by norm_num [cfg], by norm_num [cfg], by norm_num [cfg]⟩

/-- The hypotheses of `C133_converges` are met by parameters like these (regularisation NaN: the minimum is used) and an
infeasible guess, for each of the four solvers; C133 then applies. -/
example (kind : Kind) (s : LqSt ℝ 1 1) (fuel : Nat) : ∃ con N0, ∀ N ≥ N0,
    ∃ o, solve (scalar 3).toProb cfg (oracle (scalar 3) Nl.Demo.chol kind) kind (fuel + 1) N (fun _ => ![7]) (fun _ => ![1])
        false none s = some o ∧ o.ret = true ∧
      ∀ vs, total (scalar 3) o.final.us ≤ total (scalar 3) vs + con := by
  obtain ⟨con, -, hcon⟩ := C133_converges one_pos (scalar_convex 3)
  obtain ⟨N0, hN⟩ := hcon Nl.Demo.chol_complete Nl.Demo.chol_sound kind cfg_sane (fun _ => by norm_num [cfg])
    (by norm_num [cfg]) (fun _ => ![7]) (fun _ => ![1]) false (fun e => by cases e) none (by norm_num [cfg])
    (fun _ => .inr (.inl (by norm_num [cfg]))) s fuel
  refine ⟨(1 / 2) * max ((none : Option ℝ).getD cfg.reg.min) cfg.reg.min * con * cfg.thStop, N0, fun N h => ?_⟩
  obtain ⟨o, h1, h2, -, -, h3⟩ := hN N h
  exact ⟨o, h1, h2, h3⟩

/-- The hypotheses of `C133_proximal` and `C133_improvement` are met: a regularised backward pass at a feasible candidate. -/
example : ∃ g xs' us', backwardOn (scalar 3) Nl.Demo.chol (some 1) true (fun t => if t = 0 then ![3] else ![4]) (fun _ => ![1])
      ⟨fun _ => ⟨0, 0⟩, fun _ => ⟨⟨0, 0, 0, 0, 0⟩, 0, 0, ⟨0, 0⟩⟩⟩ = some g ∧ Symmetric (scalar 3) ∧
      (∀ t ≤ (scalar 3).T, gaps (scalar 3) (fun t => if t = 0 then ![3] else ![4]) (fun _ => ![1]) t = 0) ∧
      ClosedLoop (scalar 3) (fun t => if t = 0 then ![3] else ![4]) (fun _ => ![1]) g 1 xs' us' := by
  obtain ⟨g, hg⟩ := (scalar_convex 3).back Nl.Demo.chol_complete zero_le_one true
    (fun t => if t = 0 then ![3] else ![4]) (fun _ => ![1]) ⟨fun _ => ⟨0, 0⟩, fun _ => ⟨⟨0, 0, 0, 0, 0⟩, 0, 0, ⟨0, 0⟩⟩⟩
  refine ⟨g, _, _, hg, (scalar_convex 3).symm, fun t ht => ?_, closedLoop_exists _ _ _ g 1⟩
  rcases t with _ | t
  · simp [gaps, scalar]
  · obtain rfl : t = 0 := by simp only [scalar] at ht; omega
    funext i
    simp [gaps, scalar, Lqr.next, mulVec, dotProduct]
    norm_num

end ProxDemo
end Verif.Lq
