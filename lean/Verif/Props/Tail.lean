import Verif.Lemmas.Tail
import Verif.Props.Policy

set_option linter.unusedSectionVars false

/-!
# Solving again the rest of a problem (C131)

Model-predictive control solves, at node `k`, the rest of the problem from the measured state. The backward
pass of the rest is that of the whole problem; on convex linear-quadratic problems the solution is the rest of
the first plan, and away from it what the stored feedback policy does. The solvers are DDP, FDDP, BoxDDP and
BoxFDDP without control limits (as in C67 and C103).
-/

namespace Verif.Lq
open Verif Verif.Solve Matrix

section
variable {K : Type} [Field K] [LinearOrder K] [IsStrictOrderedRing K] {n : Nat} {nu : Nat → Nat}

/-- C131. For arbitrary derivatives (of any nonlinear problem), regularisation, gaps and earlier arrays: if the
backward pass over the whole horizon succeeds, so does the one over the nodes `k, …, T-1`, with the same gains at
every node and the same value function at every node but the first, whatever the gap of the first node is (that
is, whatever the new initial state). -/
theorem C131_backward {llt : ∀ m, Matrix (Fin m) (Fin m) K → Bool} {preg : Option K} {feas : Bool}
    {T : Nat} {d : ∀ t, Derivs K n (nu t)} {LxT : Fin n → K} {LxxT : Matrix (Fin n) (Fin n) K}
    {f : Nat → Fin n → K} {s g : Arrays K n nu} (h : backwardPass llt preg feas T d LxT LxxT f s = some g)
    {k : Nat} (hk : k ≤ T) {f' : Nat → Fin n → K} (hf : ∀ t, 0 < t → t ≤ T - k → f' t = f (k + t))
    (s' : Arrays K n (fun t => nu (k + t))) :
    ∃ g', backwardPass llt preg feas (T - k) (fun t => d (k + t)) LxT LxxT f' s' = some g' ∧
      (∀ t < T - k, (g'.out t).k = (g.out (k + t)).k ∧ (g'.out t).Kfb = (g.out (k + t)).Kfb) ∧
      ∀ t, 0 < t → t ≤ T - k → (g'.V t).Vx = (g.V (k + t)).Vx ∧ (g'.V t).Vxx = (g.V (k + t)).Vxx := by
  obtain ⟨g', h1, h2, h3⟩ := backwardPass_tail (backwardPass_spec h) hk hf s'
  exact ⟨g', h1, fun t ht => (h2 t ht).2, fun t h0 ht => by rw [h3 t h0 ht]; exact ⟨rfl, rfl⟩⟩

/-- C131. In particular the gains do not depend on the initial state of the problem: two passes that differ in
the gap of node 0 only leave the same gains. -/
theorem C131_initial_state {llt : ∀ m, Matrix (Fin m) (Fin m) K → Bool} {preg : Option K} {feas : Bool}
    {T : Nat} {d : ∀ t, Derivs K n (nu t)} {LxT : Fin n → K} {LxxT : Matrix (Fin n) (Fin n) K}
    {f f' : Nat → Fin n → K} {s s' g : Arrays K n nu} (h : backwardPass llt preg feas T d LxT LxxT f s = some g)
    (hf : ∀ t, 0 < t → t ≤ T → f' t = f t) :
    ∃ g', backwardPass llt preg feas T d LxT LxxT f' s' = some g' ∧
      ∀ t < T, (g'.out t).k = (g.out t).k ∧ (g'.out t).Kfb = (g.out t).Kfb := by
  have key : ∀ (nu' : Nat → Nat) (hn : nu' = nu) (d' : ∀ t, Derivs K n (nu' t)) (s' : Arrays K n nu'),
      (∀ t, HEq (d' t) (d t)) → ∃ g' : Arrays K n nu', backwardPass llt preg feas T d' LxT LxxT f' s' = some g' ∧
        ∀ t < T, HEq (g'.out t).k (g.out t).k ∧ HEq (g'.out t).Kfb (g.out t).Kfb := by
    rintro _ rfl d' s' hd
    have hd : d' = d := funext fun t => eq_of_heq (hd t)
    subst hd
    have hB := backwardPass_spec h
    cases T with
    | zero => exact ⟨_, rfl, fun t ht => absurd ht (Nat.not_lt_zero _)⟩
    | succ T =>
      obtain ⟨o, ho, -, q2, q3⟩ := backNode_gap (hB.node 0 (Nat.succ_pos T)) (f' 0)
      obtain ⟨g', hg, -, h2⟩ := backLoop_of_rel (llt := llt) (preg := preg) (feas := feas) (d := d') (f := f')
        (W := Function.update g.V 0 o.V) (O := Function.update g.out 0 o) (T + 1)
        { s' with V := Function.update s'.V (T + 1) (termValue preg feas LxT LxxT (f' (T + 1))) }
        (by
          simp only [Function.update_self]
          rw [Function.update_of_ne (Nat.succ_ne_zero T), hB.term, hf _ (Nat.succ_pos T) le_rfl])
        (fun t ht => by
          rw [Function.update_of_ne (Nat.succ_ne_zero t)]
          cases t with
          | zero => rw [Function.update_self]; exact ho
          | succ t =>
            rw [Function.update_of_ne (Nat.succ_ne_zero t), hf _ (Nat.succ_pos t) ht.le]
            exact hB.node _ ht)
        (fun t ht => by
          cases t with
          | zero => rw [Function.update_self, Function.update_self]
          | succ t =>
            rw [Function.update_of_ne (Nat.succ_ne_zero t), Function.update_of_ne (Nat.succ_ne_zero t)]
            exact hB.val _ ht)
      refine ⟨g', hg, fun t ht => ?_⟩
      rw [h2 t ht]
      cases t with
      | zero => rw [Function.update_self, q2, q3]; exact ⟨HEq.rfl, HEq.rfl⟩
      | succ t => rw [Function.update_of_ne (Nat.succ_ne_zero t)]; exact ⟨HEq.rfl, HEq.rfl⟩
  obtain ⟨g', h1, h2⟩ := key nu rfl d s' (fun _ => HEq.rfl)
  exact ⟨g', h1, fun t ht => ⟨eq_of_heq (h2 t ht).1, eq_of_heq (h2 t ht).2⟩⟩

end

variable {K : Type} [Field K] [LinearOrder K] [IsStrictOrderedRing K] {n m : Nat}
variable {P : LqProb K n (fun _ => m)} {llt : ∀ m, Matrix (Fin m) (Fin m) K → Bool}

/-- The guesses and parameters for which C67 and C103 hold: a guess flagged feasible is a rollout; for the
feasibility-driven solvers a guess with gaps does not have the optimal cost. -/
structure Admits (kind : Kind) (c : Cfg K) (P : LqProb K n (fun _ => m)) (xs : Nat → Fin n → K)
    (us : Nat → Fin m → K) (feas : Bool) : Prop where
  sane : Sane c
  neg : kind.feasibilityDriven = true → 1 < c.thAcceptnegstep
  rollout : feas = true → Rollout P.toProb xs us
  cost : kind.feasibilityDriven = true → feas = true ∨ ¬ IsLeast (Set.range (total P)) (costOf P xs us)

/-- Any number of iterations of any of the four solvers ends at the optimum. -/
theorem solve_optimal {kind : Kind} (hm : 0 < m) (h : ConvexLq P) (hl : LltComplete llt) (hls : LltSound llt)
    {c : Cfg K} {xs : Nat → Fin n → K} {us : Nat → Fin m → K} {feas : Bool} (ha : Admits kind c P xs us feas)
    (s : LqSt K n m) (fuel maxiter : Nat) :
    ∃ o, solve P.toProb c (oracle P llt kind) kind (fuel + 1) (maxiter + 1) xs us feas (some 0) s = some o ∧
      Rollout P.toProb o.final.xs o.final.us ∧ ∀ vs, total P o.final.us ≤ total P vs := by
  cases hkf : kind.feasibilityDriven with
  | false =>
    cases maxiter with
    | zero =>
      obtain ⟨o, h1, h2, -, h3⟩ := C67_one_iteration hkf hm h hl hls ha.sane xs us feas ha.rollout s fuel
      exact ⟨o, h1, h2, h3⟩
    | succ N =>
      obtain ⟨o, h1, -, -, h2, -, h3⟩ := C67_converges hkf hm h hl hls ha.sane xs us feas ha.rollout s fuel N
      exact ⟨o, h1, h2, h3⟩
  | true =>
    cases maxiter with
    | zero =>
      obtain ⟨o, h1, h2, -, h3⟩ :=
        C103_one_iteration_partial hkf hm h hl hls ha.sane (ha.neg hkf) xs us feas ha.rollout (ha.cost hkf) s fuel
      exact ⟨o, h1, h2, h3⟩
    | succ N =>
      obtain ⟨o, h1, -, -, h2, -, h3⟩ :=
        C103_converges_partial hkf hm h hl hls ha.sane (ha.neg hkf) xs us feas ha.rollout (ha.cost hkf) s fuel N
      exact ⟨o, h1, h2, h3⟩

/-- C131. Time consistency: solve a convex linear-quadratic problem, then the rest of it from the state the plan
reaches at node `k`, with any of the solvers, parameters, guesses and solver states. The second solution is the
rest of the first. Missing: the guesses excluded by `Admits`, nonlinear problems, a regularisation other than
`init_reg = 0`. -/
theorem C131_plan_partial {kind kind' : Kind} (hm : 0 < m) (h : ConvexLq P) (hl : LltComplete llt)
    (hls : LltSound llt) {c c' : Cfg K} {xs : Nat → Fin n → K} {us : Nat → Fin m → K} {feas : Bool}
    (ha : Admits kind c P xs us feas) (s s' : LqSt K n m) (fuel fuel' maxiter maxiter' k : Nat) (hk : k ≤ P.T) :
    ∃ o, solve P.toProb c (oracle P llt kind) kind (fuel + 1) (maxiter + 1) xs us feas (some 0) s = some o ∧
      ∀ (xs' : Nat → Fin n → K) (us' : Nat → Fin m → K) (feas' : Bool),
        Admits kind' c' (tail P k (o.final.xs k)) xs' us' feas' →
        ∃ o', solve (tail P k (o.final.xs k)).toProb c' (oracle (tail P k (o.final.xs k)) llt kind') kind'
            (fuel' + 1) (maxiter' + 1) xs' us' feas' (some 0) s' = some o' ∧
          IsRest (P.T - k) k o'.final.xs o.final.xs o'.final.us o.final.us := by
  obtain ⟨o, ho, hro, hopt⟩ := solve_optimal hm h hl hls ha s fuel maxiter
  refine ⟨o, ho, fun xs' us' feas' ha' => ?_⟩
  obtain ⟨o', ho', hro', hopt'⟩ :=
    solve_optimal (P := tail P k (o.final.xs k)) hm (h.tail k _) hl hls ha' s' fuel' maxiter'
  refine ⟨o', ho', rest_of_controls hro' rfl (fun j _ hj => hro.2 j hj) ?_⟩
  have hx : traj P o.final.us 0 P.x0 k = o.final.xs k := rollout_traj hro k hk
  refine optimal_unique (P := tail P k (o.final.xs k)) (h.tail k _) hl hls hopt'
    (vs := fun t => o.final.us (k + t)) fun ws => ?_
  have e := total_tail P (fun t => ws (t - k)) k (o.final.xs k)
  simp only [Nat.add_sub_cancel_left] at e
  rw [e]
  refine (total_tail P o.final.us k (o.final.xs k)).le.trans ?_
  have := optimal_rest hopt hk (fun t => ws (t - k))
  rwa [hx] at this

/-- C131. Solving again agrees with the feedback policy: after one iteration with `init_reg = 0`, or any number of
them if `reg_min = 0`, the rest of the problem solved from an arbitrary (measured) state `x` at node `k` is the
run of the policy left by the first solve from `x`. In particular its first control is
`us[k] - K[k] (x - xs[k])`. Missing: as in `C131_plan_partial`. -/
theorem C131_feedback_partial {kind kind' : Kind} (hm : 0 < m) (h : ConvexLq P) (hl : LltComplete llt)
    (hls : LltSound llt) {c c' : Cfg K} {xs : Nat → Fin n → K} {us : Nat → Fin m → K} {feas : Bool}
    (ha : Admits kind c P xs us feas) (s s' : LqSt K n m) (fuel fuel' maxiter maxiter' : Nat)
    (hreg : maxiter = 0 ∨ (c.reg.min = 0 ∧ 0 ≤ c.reg.max)) :
    ∃ o, solve P.toProb c (oracle P llt kind) kind (fuel + 1) (maxiter + 1) xs us feas (some 0) s = some o ∧
      ∀ k ≤ P.T, ∀ (x : Fin n → K) (ys : Nat → Fin n → K) (vs : Nat → Fin m → K),
        FromPolicy P o.final.xs o.final.us o.final.gain k x ys vs →
        ∀ (xs' : Nat → Fin n → K) (us' : Nat → Fin m → K) (feas' : Bool), Admits kind' c' (tail P k x) xs' us' feas' →
        ∃ o', solve (tail P k x).toProb c' (oracle (tail P k x) llt kind') kind' (fuel' + 1) (maxiter' + 1)
            xs' us' feas' (some 0) s' = some o' ∧ IsRest (P.T - k) k o'.final.xs ys o'.final.us vs := by
  have hex : ∃ o, solve P.toProb c (oracle P llt kind) kind (fuel + 1) (maxiter + 1) xs us feas (some 0) s = some o ∧
      Rollout P.toProb o.final.xs o.final.us ∧ PolicyOptimal P o.final.xs o.final.us o.final.gain := by
    rcases hreg with rfl | ⟨h0, h1⟩
    · exact C129_one_iteration_partial hm h hl hls ha.sane ha.neg xs us feas ha.rollout ha.cost s fuel
    · exact C129_optimal_policy_partial hm h hl hls ha.sane h0 h1 ha.neg xs us feas ha.rollout ha.cost s fuel maxiter
  obtain ⟨o, ho, -, hpo⟩ := hex
  refine ⟨o, ho, fun k hk x ys vs hp xs' us' feas' ha' => ?_⟩
  obtain ⟨o', ho', hro', hopt'⟩ := solve_optimal (P := tail P k x) hm (h.tail k x) hl hls ha' s' fuel' maxiter'
  refine ⟨o', ho', rest_of_controls hro' hp.init hp.step ?_⟩
  refine optimal_unique (P := tail P k x) (h.tail k x) hl hls hopt' (vs := fun t => vs (k + t)) fun ws => ?_
  have e := total_tail P (fun t => ws (t - k)) k x
  simp only [Nat.add_sub_cancel_left] at e
  rw [e]
  exact (total_tail P vs k x).le.trans (hpo k hk x ys vs hp _)

namespace TailDemo

/-- `x' = x + u`, cost `u²`, terminal cost `½x²`, two nodes, from `x0`. -/
def two (x0 : ℚ) : LqProb ℚ 1 (fun _ => 1) := { Lq.PolicyDemo.scalar x0 with T := 2 }

theorem two_convex (x0 : ℚ) : ConvexLq (two x0) :=
  ⟨⟨(Lq.PolicyDemo.scalar_convex x0).symm.Q, (Lq.PolicyDemo.scalar_convex x0).symm.R, (Lq.PolicyDemo.scalar_convex x0).symm.term⟩, (Lq.PolicyDemo.scalar_convex x0).psd,
    (Lq.PolicyDemo.scalar_convex x0).pd, (Lq.PolicyDemo.scalar_convex x0).term⟩

/-- The hypotheses of the theorems: the guess that stays where it is, and an arbitrary guess for DDP. -/
example : ConvexLq (two 16) ∧ LltComplete Demo.chol ∧ LltSound Demo.chol ∧
    Admits .fddp (Lq.PolicyDemo.cfg 0) (two 16) (fun _ => ![16]) (fun _ => 0) true ∧
    (∀ xs us, Admits .ddp (Lq.PolicyDemo.cfg 0) (two 16) xs us false) ∧
    ∀ x xs us, Admits .ddp (Lq.PolicyDemo.cfg 0) (tail (two 16) 1 x) xs us false := by
  refine ⟨two_convex 16, Demo.chol_complete, Demo.chol_sound,
    ⟨Lq.PolicyDemo.cfg_sane le_rfl, fun _ => by norm_num [Lq.PolicyDemo.cfg], fun _ => ⟨rfl, fun t _ => ?_⟩, fun _ => .inl rfl⟩,
    fun xs us => ⟨Lq.PolicyDemo.cfg_sane le_rfl, (fun e => by cases e), (fun e => by cases e), (fun e => by cases e)⟩,
    fun x xs us => ⟨Lq.PolicyDemo.cfg_sane le_rfl, (fun e => by cases e), (fun e => by cases e), (fun e => by cases e)⟩⟩
  funext i; fin_cases i
  simp [two, Lq.PolicyDemo.scalar, LqProb.toProb, Lqr.next]

/-- The hypothesis of `C131_backward` and `C131_initial_state`: a backward pass that succeeds on two nodes, with
gaps and regularisation. -/
example (s : Arrays ℚ 1 (fun _ => 1)) : ∃ g, backwardOn (two 16) Demo.chol (some (1/10)) false (fun _ => ![3])
    (fun _ => ![-1]) s = some g ∧ gaps (two 16) (fun _ => ![3]) (fun _ => ![-1]) 0 ≠ 0 ∧ 1 ≤ (two 16).T := by
  obtain ⟨g, hg⟩ := (two_convex 16).back Demo.chol_complete (p := 1/10) (by norm_num) false (fun _ => ![3])
    (fun _ => ![-1]) s
  refine ⟨g, hg, fun e => ?_, by simp [two]⟩
  have := congrFun e 0
  simp [gaps, two, Lq.PolicyDemo.scalar] at this
  norm_num at this

theorem two_togo (x : ℚ) (ws : Nat → Fin 1 → ℚ) :
    total (two x) ws = ws 0 0 * ws 0 0 + ws 1 0 * ws 1 0
      + 1/2 * ((x + ws 0 0 + ws 1 0) * (x + ws 0 0 + ws 1 0)) := by
  simp [total, costToGo, two, Lq.PolicyDemo.scalar, traj, Lqr.cost, Lqr.costT, Lqr.next, dotProduct, mulVec, vecHead,
    Finset.sum_range_succ]
  ring

/-- The optimal controls of `two x` are `-x/4` at both nodes. -/
theorem two_optimal (x : ℚ) {us : Nat → Fin 1 → ℚ} (h : ∀ ws, total (two x) us ≤ total (two x) ws) :
    us 0 0 = -x/4 ∧ us 1 0 = -x/4 := by
  have hv : ∀ ws, total (two x) (fun _ => ![-x/4]) ≤ total (two x) ws := fun ws => by
    rw [two_togo, two_togo]
    simp
    nlinarith [sq_nonneg (ws 0 0 + x/4), sq_nonneg (ws 1 0 + x/4), sq_nonneg (ws 0 0 + ws 1 0 + x/2)]
  have e := optimal_unique (two_convex x) Demo.chol_complete Demo.chol_sound h hv
  refine ⟨?_, ?_⟩
  · rw [e 0 (by simp [two])]; simp
  · rw [e 1 (by simp [two])]; simp

/-- C131 is about the rest of the problem: with a sliding window (`circularAppend` of the same model, which keeps
the number of nodes) the second plan is not the rest of the first. From 16 the plan is `-4, -4`; from the state 12
it reaches, the window moved by one node has the plan `-3, -3`. -/
theorem C131_sliding_counterexample {kind kind' : Kind} {c c' : Cfg ℚ} {xs : Nat → Fin 1 → ℚ}
    {us : Nat → Fin 1 → ℚ} {feas : Bool} (ha : Admits kind c (two 16) xs us feas) (s s' : LqSt ℚ 1 1)
    (fuel fuel' maxiter maxiter' : Nat) :
    ∃ o, solve (two 16).toProb c (oracle (two 16) Demo.chol kind) kind (fuel + 1) (maxiter + 1) xs us feas (some 0) s
        = some o ∧ o.final.xs 1 = ![12] ∧ o.final.us 1 = ![-4] ∧
      ∀ (xs' us' : Nat → Fin 1 → ℚ) (feas' : Bool), Admits kind' c' (two 12) xs' us' feas' →
        ∃ o', solve (two 12).toProb c' (oracle (two 12) Demo.chol kind') kind' (fuel' + 1) (maxiter' + 1)
            xs' us' feas' (some 0) s' = some o' ∧ o'.final.us 0 = ![-3] := by
  obtain ⟨o, ho, hro, hopt⟩ :=
    solve_optimal one_pos (two_convex 16) Demo.chol_complete Demo.chol_sound ha s fuel maxiter
  obtain ⟨h0, h1⟩ := two_optimal 16 hopt
  refine ⟨o, ho, ?_, ?_, fun xs' us' feas' ha' => ?_⟩
  · have e : o.final.xs 1 = ((two 16).node 0).next (o.final.xs 0) (o.final.us 0) := hro.2 0 (by simp [two, LqProb.toProb])
    have e0 : o.final.xs 0 = ![16] := hro.1
    rw [e, e0]
    funext i; fin_cases i
    simp [two, Lq.PolicyDemo.scalar, Lqr.next, vecHead, dotProduct, h0]
    norm_num
  · funext i; fin_cases i
    simp [h1]; norm_num
  · obtain ⟨o', ho', -, hopt'⟩ :=
      solve_optimal one_pos (two_convex 12) Demo.chol_complete Demo.chol_sound ha' s' fuel' maxiter'
    refine ⟨o', ho', ?_⟩
    funext i; fin_cases i
    simp [(two_optimal 12 hopt').1]; norm_num

end TailDemo
end Verif.Lq
