import Verif.Model.LqSolve
import Verif.Lemmas.Lq
import Verif.Lemmas.SolveLoop
import Verif.Props.Lq
import Verif.Lemmas.Prox

set_option linter.unusedSectionVars false

/-! # Lemmas: the solve loop on linear-quadratic problems -/

namespace Verif

/-- A loop whose body always returns normally returns normally. -/
theorem Cpp.forLoop_ok {σ : Type} (body : Nat → Cpp σ Unit) (h : ∀ t s, ∃ s', body t s = .ok () s')
    (start n : Nat) (s : σ) : ∃ s', Cpp.forLoop start n body s = .ok () s' := by
  induction n generalizing start s with
  | zero => exact ⟨s, rfl⟩
  | succ n ih =>
    obtain ⟨s', hs'⟩ := h start s
    obtain ⟨s'', hs''⟩ := ih (start + 1) s'
    refine ⟨s'', ?_⟩
    simp only [Cpp.forLoop_succ, Cpp.cbind_apply, hs', hs'']

namespace Solve
section
variable {K X DX U L D : Type}
variable [Field K] [LinearOrder K] [AddCommGroup DX] [Module K DX] [AddCommGroup U] [Module K U]
variable {P : Prob K X DX U} {c : Cfg K} {O : Oracle K X DX U L D} {kind : Kind}

/-- Without numerical failures a forward pass with a step in `[0, 1]` returns normally. -/
theorem forwardPass_ok (hb : ∀ v, O.bad v = false) (hbx : ∀ v, O.badX v = false) (a : K) (ha : 0 ≤ a)
    (ha1 : a ≤ 1) (s : St K X DX U L D) : ∃ s', forwardPass P O kind a s = .ok () s' := by
  have hr : (decide (a > 1) || decide (a < 0)) = false := by
    simp [not_lt.mpr ha, not_lt.mpr ha1]
  have hbody : ∀ contract t (s : St K X DX U L D), ∃ s', fwdBody P O kind a contract t s = .ok () s' := by
    intro contract t s
    have htry : ∀ s : St K X DX U L D, ∃ s', tryNode P kind a t s = .ok () s' := by
      intro s
      unfold tryNode
      by_cases h0 : (P.node t).nuZero = true <;> simp [h0]
    unfold fwdBody
    cases kind with
    | ddp =>
      obtain ⟨s', hs'⟩ := htry s
      simp [Cpp.bind_apply, Cpp.throwIf_apply, hs', hb, hbx]
    | boxDdp | fddp | boxFddp =>
      obtain ⟨s', hs'⟩ := htry { s with xsTry := upd s.xsTry t (if contract then
        (P.node t).integ s.xnext ((a - 1) • s.fs t) else s.xnext) }
      simp [Cpp.bind_apply, Cpp.throwIf_apply, hs', hb, hbx]
  have hterm : ∀ contract (s : St K X DX U L D), ∃ s', fwdTerm P O kind a contract s = .ok () s' := by
    intro contract s
    unfold fwdTerm
    cases kind <;> simp [Cpp.bind_apply, Cpp.throwIf_apply, hb]
  unfold forwardPass
  simp only [Cpp.bind_apply, Cpp.throwIf_apply, hr, Bool.false_eq_true, if_false, Cpp.get_apply,
    Cpp.modify_apply]
  obtain ⟨s1, hs1⟩ := Cpp.forLoop_ok _ (hbody (kind.feasibilityDriven && (!s.feas && decide (a ≠ 1)))) 0 P.T
    { s with costTry := 0, xnext := if kind = .ddp then s.xnext else P.x0 }
  simp only [hs1]
  exact hterm _ s1

theorem probe_some (hb : ∀ v, O.bad v = false) (hbx : ∀ v, O.badX v = false) (a : K) (ha : 0 ≤ a)
    (ha1 : a ≤ 1) (s : St K X DX U L D) :
    ∃ sT, probe P O kind a s = (some (), sT) ∧ Probed P kind a s sT := by
  have h := probe_spec (P := P) (O := O) (kind := kind) a s
  obtain ⟨s', hs'⟩ := forwardPass_ok (P := P) (kind := kind) hb hbx a ha ha1 { s with steplength := a }
  have h2 : ∃ sT, probe P O kind a s = (some (), sT) := by
    unfold probe tryStep
    simp [Cpp.bind_apply, hs']
  obtain ⟨sT, hsT⟩ := h2
  rw [hsT] at h
  exact ⟨sT, hsT, h⟩

theorem lineSearch_first {a : K} {as : List K} {s sT : St K X DX U L D}
    (h : probe P O kind a s = (some (), sT)) (hacc : accepts c kind sT = true) :
    lineSearch P c O kind (a :: as) s = accept kind sT := by
  simp only [lineSearch, h, hacc, if_true]

end
end Solve

namespace Lq
open Verif.Solve Matrix

variable {K : Type} [Field K] [LinearOrder K] [IsStrictOrderedRing K] {n m : Nat}
variable {P : LqProb K n (fun _ => m)} {llt : ∀ m, Matrix (Fin m) (Fin m) K → Bool} {kind : Kind}

abbrev LqSt (K : Type) (n m : Nat) :=
  St K (Fin n → K) (Fin n → K) (Fin m → K) (Lin K n m) (Arrays K n (fun _ => m))

theorem gap_eq (xs : Nat → Fin n → K) (us : Nat → Fin m → K) :
    Solve.gap P.toProb xs us = gaps P xs us := by
  funext t; cases t <;> rfl

theorem rollout_traj {xs : Nat → Fin n → K} {us : Nat → Fin m → K} (h : Rollout P.toProb xs us) :
    ∀ t ≤ P.T, traj P us 0 P.x0 t = xs t := by
  intro t ht
  induction t with
  | zero => exact h.1.symm
  | succ t ih =>
    have e : 0 + t = t := Nat.zero_add t
    rw [traj, ih (by omega), e]
    exact (h.2 t ht).symm

theorem rollout_total {xs : Nat → Fin n → K} {us : Nat → Fin m → K} (h : Rollout P.toProb xs us) :
    totalCost P.toProb xs us = total P us := by
  unfold totalCost total costToGo
  show (∑ t ∈ Finset.range P.T, (P.node t).cost (xs t) (us t)) + P.term.costT (xs P.T) = _
  rw [Nat.sub_zero, rollout_traj h P.T le_rfl]
  congr 1
  refine Finset.sum_congr rfl fun t ht => ?_
  rw [Nat.zero_add, rollout_traj h t (Finset.mem_range.mp ht).le]

theorem gaps_of_rollout {xs : Nat → Fin n → K} {us : Nat → Fin m → K} (h : Rollout P.toProb xs us) :
    ∀ t ≤ P.T, gaps P xs us t = 0 := by
  intro t ht
  cases t with
  | zero => rw [gaps, sub_eq_zero]; exact h.1.symm
  | succ t => rw [gaps, sub_eq_zero]; exact (h.2 t ht).symm

theorem rollout_of_gaps {xs : Nat → Fin n → K} {us : Nat → Fin m → K}
    (h : ∀ t ≤ P.T, gaps P xs us t = 0) : Rollout P.toProb xs us := by
  refine ⟨?_, fun t ht => ?_⟩
  · have := h 0 (Nat.zero_le _)
    rw [gaps, sub_eq_zero] at this
    exact this.symm
  · have := h (t + 1) ht
    rw [gaps, sub_eq_zero] at this
    exact this.symm

theorem ConvexLq.back (h : ConvexLq P) (hl : LltComplete llt) {p : K} (hp : 0 ≤ p) (feas : Bool)
    (xs : Nat → Fin n → K) (us : Nat → Fin m → K) (s : Arrays K n (fun _ => m)) :
    ∃ g, backwardOn P llt (some p) feas xs us s = some g :=
  C66_never_throws hl hp
    (fun t _ => ⟨h.symm.Q t, h.symm.R t, h.psd t⟩) (fun t _ => .inr (h.pd t)) h.symm.term h.term

theorem backLoop_congr {nu : Nat → Nat} {preg : Option K} {feas : Bool} {d : ∀ t, Derivs K n (nu t)}
    {f f' : Nat → Fin n → K} (t : Nat) (h : ∀ j < t, f j = f' j) (s : Arrays K n nu) :
    backLoop llt preg feas d f t s = backLoop llt preg feas d f' t s := by
  induction t generalizing s with
  | zero => rfl
  | succ t ih =>
    simp only [backLoop, h t (Nat.lt_succ_self t)]
    cases backNode llt preg feas (d t) (s.V (t + 1)) (f' t) with
    | none => rfl
    | some o => exact ih (fun j hj => h j (by omega)) _

theorem backwardPass_congr {nu : Nat → Nat} {preg : Option K} {feas : Bool} {T : Nat}
    {d : ∀ t, Derivs K n (nu t)} {LxT : Fin n → K} {LxxT : Matrix (Fin n) (Fin n) K}
    {f f' : Nat → Fin n → K} (h : ∀ j ≤ T, f j = f' j) {s : Arrays K n nu} :
    backwardPass llt preg feas T d LxT LxxT f s = backwardPass llt preg feas T d LxT LxxT f' s := by
  unfold backwardPass
  rw [h T le_rfl]
  exact backLoop_congr T (fun j hj => h j hj.le) _

/-- The state of the DDP solver when the line search starts. -/
structure Ready (P : LqProb K n (fun _ => m)) (llt : ∀ m, Matrix (Fin m) (Fin m) K → Bool)
    (s0 s : LqSt K n m) (g : Arrays K n (fun _ => m)) : Prop where
  xs : s.xs = s0.xs
  us : s.us = s0.us
  feas : s.feas = s0.feas
  preg : s.preg = s0.preg
  iter : s.iter = s0.iter
  xsTry : s.xsTry = s0.xsTry
  back : backwardOn P llt (some s0.preg) s0.feas s0.xs s0.us s0.dir = some g
  k : s.k = fun t => (g.out t).k
  gain : s.gain = fun t dx => (g.out t).Kfb *ᵥ dx
  dir : s.dir = g
  d0 : s.d0 = (expectedImprovement P.T g).1
  d1 : s.d1 = (expectedImprovement P.T g).2
  cost : s.cost = totalCost P.toProb s0.xs s0.us

theorem direction_ready (hkf : kind.feasibilityDriven = false) (h : ConvexLq P) (hl : LltComplete llt) {c : Cfg K} {s : LqSt K n m}
    (hp : 0 ≤ s.preg) (hr : s.recalc = true) (hm : s.iter = 0 ∨ Matches P.toProb s) (fuel : Nat) :
    ∃ s1 g, dirLoop P.toProb c (oracle P llt kind) (fuel + 1) s = some (true, s1) ∧
      Ready P llt s (prepare (oracle P llt kind) kind s1) g := by
  obtain ⟨g, hg⟩ := h.back hl hp s.feas s.xs s.us s.dir
  have hcost := calcDiff_cost (O := oracle P llt kind) hm
  have hcd : (calcDiff P.toProb (oracle P llt kind) s).xs = s.xs ∧
      (calcDiff P.toProb (oracle P llt kind) s).us = s.us ∧
      (calcDiff P.toProb (oracle P llt kind) s).feas = s.feas ∧
      (calcDiff P.toProb (oracle P llt kind) s).preg = s.preg ∧
      (calcDiff P.toProb (oracle P llt kind) s).dir = s.dir ∧
      (calcDiff P.toProb (oracle P llt kind) s).iter = s.iter ∧
      (calcDiff P.toProb (oracle P llt kind) s).xsTry = s.xsTry ∧
      (calcDiff P.toProb (oracle P llt kind) s).lin =
        ⟨fun t => (P.node t).derivs (s.xs t) (s.us t), P.term.q + P.term.Q *ᵥ s.xs P.T, P.term.Q⟩ := by
    unfold calcDiff
    by_cases h0 : s.iter = 0 <;> simp [h0, problemCalc, oracle]
  have hfs : ∀ t ≤ P.T, (calcDiff P.toProb (oracle P llt kind) s).fs t = gaps P s.xs s.us t := by
    intro t ht
    unfold calcDiff
    rcases hm with h0 | hm
    · simp only [h0, if_true, problemCalc]
      cases t <;> rfl
    · by_cases h0 : s.iter = 0
      · simp only [h0, if_true, problemCalc]
        cases t <;> rfl
      · simp only [h0, if_false]
        cases t with
        | zero => rfl
        | succ t =>
          simp only [hm.1 t ht]
          rfl
  have hback : backwardPass llt (some s.preg) s.feas P.T (fun t => (P.node t).derivs (s.xs t) (s.us t))
      (P.term.q + P.term.Q *ᵥ s.xs P.T) P.term.Q (calcDiff P.toProb (oracle P llt kind) s).fs s.dir =
      some g := by
    rw [backwardPass_congr hfs]; exact hg
  have hO : (oracle P llt kind).backward (calcDiff P.toProb (oracle P llt kind) s) =
      (true, fun t => (g.out t).k, fun t dx => (g.out t).Kfb *ᵥ dx, g) := by
    obtain ⟨h1, h2, h3, h4, h5, h6, h7, h8⟩ := hcd
    show (match backwardPass llt (some (calcDiff P.toProb (oracle P llt kind) s).preg)
      (calcDiff P.toProb (oracle P llt kind) s).feas P.T (calcDiff P.toProb (oracle P llt kind) s).lin.d
      (calcDiff P.toProb (oracle P llt kind) s).lin.LxT (calcDiff P.toProb (oracle P llt kind) s).lin.LxxT
      (calcDiff P.toProb (oracle P llt kind) s).fs (calcDiff P.toProb (oracle P llt kind) s).dir with
      | some g => (true, fun t => (g.out t).k, fun t dx => (g.out t).Kfb *ᵥ dx, g)
      | none => _) = _
    rw [h8, h3, h4, h5, hback]
  obtain ⟨h1, h2, h3, h4, h5, h6, h7, h8⟩ := hcd
  refine ⟨{ calcDiff P.toProb (oracle P llt kind) s with
      k := fun t => (g.out t).k, gain := fun t dx => (g.out t).Kfb *ᵥ dx, dir := g }, g, ?_, ?_⟩
  · simp only [dirLoop, computeDirection, hr, if_true, hO]
  · generalize hs1 : { calcDiff P.toProb (oracle P llt kind) s with
      k := fun t => (g.out t).k, gain := fun t dx => (g.out t).Kfb *ᵥ dx, dir := g } = s1
    have hprep : prepare (oracle P llt kind) kind s1 =
        { s1 with d0 := (expectedImprovement P.T s1.dir).1, d1 := (expectedImprovement P.T s1.dir).2,
                  recalc := false } := by
      simp [prepare, hkf, oracle]
    rw [hprep, ← hs1]
    exact ⟨h1, h2, h3, h4, h6, h7, hg, rfl, rfl, rfl, rfl, rfl, by
      unfold CostOk at hcost
      rw [h1, h2] at hcost
      exact hcost⟩

/-- Costates: with no gaps the gradients of a pass whose `Qu` vanish do not depend on the regularisation. -/
theorem d0_zero_of_stationary {nu : Nat → Nat} {T : Nat} {d : ∀ t, Derivs K n (nu t)} {LxT : Fin n → K}
    {LxxT : Matrix (Fin n) (Fin n) K} {f : Nat → Fin n → K} {p p' : Option K} {feas feas' : Bool}
    {g g' : Arrays K n nu} (hb : Back llt p feas T d LxT LxxT f g)
    (hb' : Back llt p' feas' T d LxT LxxT f g') (hf : ∀ t ≤ T, f t = 0)
    (h0 : ∀ t < T, (g.out t).Q.Qu = 0) : ∀ t < T, (g'.out t).Q.Qu = 0 := by
  have hVx : ∀ r, ∀ t, t + r = T → (g.V t).Vx = (g'.V t).Vx := by
    intro r
    induction r with
    | zero =>
      intro t ht
      obtain rfl : t = T := by omega
      rw [hb.term, hb'.term]
      simp only [termValue, hf t le_rfl, mulVec_zero, add_zero]
      cases feas <;> cases feas' <;> simp
    | succ r ih =>
      intro t ht
      have ht' : t < T := by omega
      have e := ih (t + 1) (by omega)
      obtain ⟨q1, -, -, -, v1⟩ := backNode_some (hb.node t ht')
      obtain ⟨q2, -, -, -, v2⟩ := backNode_some (hb'.node t ht')
      have hq : (g.out t).Q.Qu = (g'.out t).Q.Qu := by
        rw [q1, q2]; simp only [actionValue, e]
      have hq2 : (g'.out t).Q.Qu = 0 := by rw [← hq]; exact h0 t ht'
      rw [hb.val t ht', hb'.val t ht', v1, v2]
      simp only [computeValue, hf t ht'.le, mulVec_zero, add_zero, ite_self, hq2, h0 t ht', sub_zero]
      rw [q1, q2]
      simp only [actionValue, e]
  intro t ht
  obtain ⟨q1, -⟩ := backNode_some (hb.node t ht)
  obtain ⟨q2, -⟩ := backNode_some (hb'.node t ht)
  have e := hVx (T - (t + 1)) (t + 1) (by omega)
  have := h0 t ht
  rw [q1] at this
  rw [q2]
  simp only [actionValue] at this ⊢
  rw [← e, this]

/-- At an optimal feasible candidate the predicted improvement is zero, whatever the regularisation, and
so are the feedforward terms. -/
theorem stationary_of_optimal (h : ConvexLq P) (hl : LltComplete llt) (hls : LltSound llt) {p : Option K}
    {feas : Bool} {xs : Nat → Fin n → K} {us : Nat → Fin m → K} {s g : Arrays K n (fun _ => m)}
    (hb : backwardOn P llt p feas xs us s = some g) (hr : Rollout P.toProb xs us)
    (hopt : ∀ vs, total P us ≤ total P vs) :
    (expectedImprovement P.T g).1 = 0 ∧ ∀ t < P.T, (g.out t).k = 0 := by
  have hg0 := gaps_of_rollout hr
  obtain ⟨g0, hb0⟩ := h.back hl (le_refl (0 : K)) true xs us s
  obtain ⟨hnn, hd1, -⟩ := C65_descent hb0 hls h.symm.term (fun t _ => h.symm.R t)
  have hex := C30_exact hb0 h.symm hls (.inr rfl) hg0 1 _ _ (closedLoop_exists P xs us g0 1)
  have hle := hopt (fun t => us t - (1 : K) • (g0.out t).k - (g0.out t).Kfb *ᵥ (policyTraj P xs us g0 1 t - xs t))
  rw [hd1] at hex
  have hd0 : (expectedImprovement P.T g0).1 = 0 := by linarith
  have hQ0 : ∀ t < P.T, (g0.out t).Q.Qu = 0 := fun t ht => by
    have := (C65_stationary hb0 hls h.symm.term (fun t _ => h.symm.R t)).mp hd0 t ht
    rw [(backNode_some ((backwardPass_spec hb0).node t ht)).1]
    exact this
  have hQ := d0_zero_of_stationary (backwardPass_spec hb0) (backwardPass_spec hb) hg0 hQ0
  refine ⟨?_, fun t ht => ?_⟩
  · simp only [expectedImprovement, sumTo_eq]
    refine Finset.sum_eq_zero fun t ht => ?_
    rw [hQ t (Finset.mem_range.mp ht), zero_dotProduct]
  · rw [(backNode_some ((backwardPass_spec hb).node t ht)).2.2.1, hQ t ht, mulVec_zero]

theorem autonomousOk (hm : 0 < m) : AutonomousOk P.toProb := by
  intro t _ h0
  have : decide (m = 0) = true := h0
  simp at this
  omega

/-- The full step follows the policy (without limits the box solvers do not clamp). -/
theorem closedLoop_of_core (hm : 0 < m) {feas : Bool} {xs xsTry : Nat → Fin n → K}
    {us usTry k : Nat → Fin m → K} {gain : Nat → (Fin n → K) → Fin m → K} {fs : Nat → Fin n → K}
    {datas : Nat → (Fin n → K) × K} {tdata costTry : K} {g : Arrays K n (fun _ => m)}
    (hk : k = fun t => (g.out t).k) (hg : gain = fun t dx => (g.out t).Kfb *ᵥ dx)
    (h : Core P.toProb kind 1 feas P.x0 xs us k gain fs xsTry usTry datas tdata costTry) :
    ClosedLoop P xs us g 1 xsTry usTry ∧ Rollout P.toProb xsTry usTry ∧
      costTry = totalCost P.toProb xsTry usTry := by
  have hA := autonomousOk (P := P) hm
  have hro := h.rollout hA (.inr (.inr rfl))
  refine ⟨⟨hro.1, fun t ht => ?_, fun t ht => hro.2 t ht⟩, hro, (h.total hA).2⟩
  have hn : (P.toProb.node t).nuZero = false := by
    show decide (m = 0) = false
    simp; omega
  rw [h.nodes.control t ht hn, hk, hg]
  cases kind <;> rfl

theorem decrease_nonneg {r : Solver.Reg K} (h : 0 ≤ r.min) (p : K) : 0 ≤ Solver.decrease r p := by
  unfold Solver.decrease
  simp only
  split
  · exact h
  · rename_i hlt
    exact h.trans (not_lt.mp hlt)

/-- One iteration of DDP, or of BoxDDP without limits, with any regularisation: the full step is taken. -/
theorem iteration_ddp_reg (hkf : kind.feasibilityDriven = false) (hm : 0 < m) (h : ConvexLq P) (hl : LltComplete llt) (hls : LltSound llt)
    {c : Cfg K} {as : List K} (hal : c.alphas = 1 :: as) (hacc : c.thAcceptstep < 1) (hgr : 0 < c.thGrad)
    (hinc : c.thStepinc < 1) (hmin : 0 ≤ c.reg.min) {s : LqSt K n m} (hp : 0 ≤ s.preg)
    (hr : s.recalc = true) (hmt : s.iter = 0 ∨ Matches P.toProb s) (hx0 : s.xsTry 0 = P.x0)
    (hf : s.feas = true → Rollout P.toProb s.xs s.us) (fuel : Nat) :
    ∃ e s' g, iteration P.toProb c (oracle P llt kind) kind (fuel + 1) s = some (e, true, s') ∧
      backwardOn P llt (some s.preg) s.feas s.xs s.us s.dir = some g ∧
      ClosedLoop P s.xs s.us g 1 s'.xs s'.us ∧ Rollout P.toProb s'.xs s'.us ∧ s'.feas = true ∧
      s'.recalc = true ∧ s'.iter = s.iter ∧ Matches P.toProb s' ∧ s'.xsTry 0 = P.x0 ∧ 0 ≤ s'.preg ∧
      (s'.preg = s.preg ∨ s'.preg = Solver.decrease c.reg s.preg) ∧
      e = if s.feas && decide ((1/2) * (expectedImprovement P.T g).1 < c.thStop) then .converged
        else .continue := by
  obtain ⟨s1, g, hdir, hrd⟩ := direction_ready (c := c) hkf h hl hp hr hmt fuel
  generalize hs2 : prepare (oracle P llt kind) kind s1 = s2 at hrd
  obtain ⟨sT, hprobe, hpd⟩ := probe_some (P := P.toProb) (O := oracle P llt kind) (kind := kind)
    (fun _ => rfl) (fun _ => rfl) 1 zero_le_one le_rfl s2
  have hfirst : first P.toProb kind s2 = P.x0 := by
    unfold first
    split
    · rw [hrd.xsTry, hx0]
    · rfl
  have hcore := hpd.core
  rw [hfirst] at hcore
  obtain ⟨hcl, hro, hct⟩ := closedLoop_of_core hm hrd.k hrd.gain hcore
  rw [hrd.xs, hrd.us] at hcl
  obtain ⟨hnn, hd1, -⟩ := C65_descent hrd.back hls h.symm.term (fun t _ => h.symm.R t)
  have e0 : sT.d0 = (expectedImprovement P.T g).1 := by rw [(hpd.keeps.grad hkf).1, hrd.d0]
  have e1 : sT.d1 = -(expectedImprovement P.T g).1 := by rw [(hpd.keeps.grad hkf).2, hrd.d1, hd1]
  have hexp : sT.dVexp = (1/2) * (expectedImprovement P.T g).1 := by rw [hpd.dVexp, e0, e1]; ring
  have hacc' : accepts c kind sT = true := by
    unfold accepts
    simp only [hkf, Bool.false_eq_true, if_false, Bool.and_eq_true, Bool.or_eq_true,
      decide_eq_true_eq]
    refine ⟨by rw [hexp]; linarith, ?_⟩
    have hfe : sT.feas = s.feas := by rw [hpd.keeps.feas, hrd.feas]
    cases hfs : s.feas with
    | false => left; right; rw [hfe, hfs]; rfl
    | true =>
      have hroll := hf hfs
      by_cases hz : (expectedImprovement P.T g).1 = 0
      · left; left; rw [e0, hz, abs_zero]; exact hgr
      · right
        have hex := prox_improvement hrd.back h.symm hls (gaps_of_rollout hroll) (rollout_traj hroll) 1 _ _ hcl
        have hdV : sT.dV = total P s.us - total P sT.usTry := by
          rw [hpd.dV, hrd.cost, hct, rollout_total hroll, rollout_total hro]
        have hpos : 0 < (expectedImprovement P.T g).1 := lt_of_le_of_ne hnn (Ne.symm hz)
        have hmv : 0 ≤ (1 / 2) * s.preg * moved P s.xs s.us sT.usTry :=
          mul_nonneg (by linarith) (moved_nonneg _)
        rw [hdV, hex, hexp, hd1]
        nlinarith
  have hls' : lineSearch P.toProb c (oracle P llt kind) kind c.alphas s2 = accept kind sT := by
    rw [hal]; exact lineSearch_first hprobe hacc'
  have hstep : (accept kind sT).steplength = 1 := hpd.steplength
  have hmatch : Matches P.toProb (accept kind sT) :=
    ⟨fun t ht => (hcore.total (autonomousOk hm)).1 t ht, hcore.tdata_eq⟩
  have hpregT : (accept kind sT).preg = s.preg := by
    show sT.preg = _; rw [hpd.keeps.preg, hrd.preg]
  have hfeT : (accept kind sT).feas = true := by simp [accept, hkf]
  generalize hs3 : (if (accept kind sT).steplength > c.thStepdec then decreaseReg c (accept kind sT)
    else accept kind sT) = s3
  have h3 : s3.xs = sT.xsTry ∧ s3.us = sT.usTry ∧ s3.feas = true ∧ s3.recalc = true ∧ s3.iter = s.iter ∧
      Matches P.toProb s3 ∧ s3.xsTry 0 = P.x0 ∧ 0 ≤ s3.preg ∧ s3.wasFeas = s.feas ∧ s3.d0 = sT.d0 ∧
      s3.d1 = sT.d1 ∧ s3.steplength = 1 ∧ (s3.preg = s.preg ∨ s3.preg = Solver.decrease c.reg s.preg) := by
    have hit : sT.iter = s.iter := by rw [hpd.keeps.iter, hrd.iter]
    have hxt : sT.xsTry 0 = P.x0 := hro.1
    have hfe : sT.feas = s.feas := by rw [hpd.keeps.feas, hrd.feas]
    rw [← hs3]
    split
    · refine ⟨rfl, rfl, hfeT, rfl, hit, hmatch, hxt, ?_, hfe, rfl, rfl, hstep, .inr ?_⟩
      swap
      · show Solver.decrease c.reg (accept kind sT).preg = _
        rw [hpregT]
      show 0 ≤ Solver.decrease c.reg (accept kind sT).preg
      exact decrease_nonneg hmin _
    · exact ⟨rfl, rfl, hfeT, rfl, hit, hmatch, hxt, hpregT ▸ hp, hfe, rfl, rfl, hstep, .inl hpregT⟩
  obtain ⟨x1, x2, x3, x4, x5, x6, x7, x8, x9, x10, x11, x12, x13⟩ := h3
  have hup : decide (s3.steplength ≤ c.thStepinc) = false := by
    rw [x12]; simp [hinc]
  have hst : (stopping s3).stop = (1/2) * (expectedImprovement P.T g).1 := by
    show |s3.d0 + (1/2) * s3.d1| = _
    rw [x10, x11, e0, e1]
    have : (expectedImprovement P.T g).1 + 1 / 2 * -(expectedImprovement P.T g).1 =
        (1/2) * (expectedImprovement P.T g).1 := by ring
    rw [this, abs_of_nonneg (by linarith)]
  refine ⟨if s.feas && decide ((1/2) * (expectedImprovement P.T g).1 < c.thStop) then .converged
        else .continue, stopping s3, g, ?_, hrd.back, ?_, ?_, x3, x4, x5, x6, x7, x8, x13, rfl⟩
  · unfold iteration
    rw [hdir]
    simp only [hs2, hls', hs3, hup, Bool.false_eq_true, if_false, Bool.false_and]
    rw [hst]
    have : (stopping s3).wasFeas = s.feas := x9
    rw [this]
    by_cases hc : (s.feas && decide (1 / 2 * (expectedImprovement P.T g).1 < c.thStop)) = true
    · rw [if_pos hc, if_pos hc]
    · rw [if_neg hc, if_neg hc]
  · show ClosedLoop P s.xs s.us g 1 s3.xs s3.us
    rw [x1, x2]; exact hcl
  · show Rollout P.toProb s3.xs s3.us
    rw [x1, x2]; exact hro

/-- One iteration of DDP, or of BoxDDP without limits. -/
theorem iteration_ddp (hkf : kind.feasibilityDriven = false) (hm : 0 < m) (h : ConvexLq P) (hl : LltComplete llt) (hls : LltSound llt)
    {c : Cfg K} {as : List K} (hal : c.alphas = 1 :: as) (hacc : c.thAcceptstep < 1) (hgr : 0 < c.thGrad)
    (hinc : c.thStepinc < 1) (hmin : 0 ≤ c.reg.min) {s : LqSt K n m} (hp : 0 ≤ s.preg)
    (hr : s.recalc = true) (hmt : s.iter = 0 ∨ Matches P.toProb s) (hx0 : s.xsTry 0 = P.x0)
    (hf : s.feas = true → Rollout P.toProb s.xs s.us)
    (_ : s.feas = false ∨ s.preg = 0 ∨ ∀ vs, total P s.us ≤ total P vs) (fuel : Nat) :
    ∃ e s' g, iteration P.toProb c (oracle P llt kind) kind (fuel + 1) s = some (e, true, s') ∧
      backwardOn P llt (some s.preg) s.feas s.xs s.us s.dir = some g ∧
      ClosedLoop P s.xs s.us g 1 s'.xs s'.us ∧ Rollout P.toProb s'.xs s'.us ∧ s'.feas = true ∧
      s'.recalc = true ∧ s'.iter = s.iter ∧ Matches P.toProb s' ∧ s'.xsTry 0 = P.x0 ∧ 0 ≤ s'.preg ∧
      e = if s.feas && decide ((1/2) * (expectedImprovement P.T g).1 < c.thStop) then .converged
        else .continue := by
  obtain ⟨e, s', g, h1, h2, h3, h4, h5, h6, h7, h8, h9, h10, -, h11⟩ :=
    iteration_ddp_reg hkf hm h hl hls hal hacc hgr hinc hmin hp hr hmt hx0 hf fuel
  exact ⟨e, s', g, h1, h2, h3, h4, h5, h6, h7, h8, h9, h10, h11⟩

end Lq
end Verif
