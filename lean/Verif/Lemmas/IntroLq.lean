import Verif.Model.IntroLq
import Verif.Spec.IntroLq
import Verif.Lemmas.IntroProx
import Verif.Lemmas.IntroSolve
import Verif.Lemmas.ProxRate
import Verif.Props.SolverBase

set_option linter.unusedSectionVars false

/-! # Lemmas: `SolverIntro::solve` on linear-quadratic problems with affine equality constraints -/

namespace Verif.Intro
open Verif Verif.Lq Verif.Solve Matrix

variable {K : Type} [Field K] [LinearOrder K] [IsStrictOrderedRing K] {n m : Nat} {nh : Nat → Nat}
variable {P : LqProb K n (fun _ => m)} {cs : ∀ t, Affine K n m (nh t)} {F : Fact K} {es : EqSolver}

theorem backLoop_congr {nu nh : Nat → Nat} {preg : Option K} {feas : Bool} {d : ∀ t, Derivs K n (nu t)}
    {e : ∀ t, EqDerivs K n (nu t) (nh t)}
    {f f' : Nat → Fin n → K} (t : Nat) (h : ∀ j < t, f j = f' j) (s : Arrays K n nu) :
    backLoop F es preg feas d e f t s = backLoop F es preg feas d e f' t s := by
  induction t generalizing s with
  | zero => rfl
  | succ t ih =>
    simp only [backLoop, h t (Nat.lt_succ_self t)]
    cases backNode F es preg feas (d t) (e t) (s.V (t + 1)) (f' t) with
    | throw => rfl
    | ub => rfl
    | ok o => exact ih (fun j hj => h j (by omega)) _

theorem backwardPass_congr {nu nh : Nat → Nat} {preg : Option K} {feas : Bool} {T : Nat}
    {d : ∀ t, Derivs K n (nu t)} {e : ∀ t, EqDerivs K n (nu t) (nh t)} {LxT : Fin n → K}
    {LxxT : Matrix (Fin n) (Fin n) K}
    {f f' : Nat → Fin n → K} (h : ∀ j ≤ T, f j = f' j) {s : Arrays K n nu} :
    backwardPass F es preg feas T d e LxT LxxT f s = backwardPass F es preg feas T d e LxT LxxT f' s := by
  unfold backwardPass
  rw [h T le_rfl]
  exact backLoop_congr T (fun j hj => h j hj.le) _

theorem back_ok (h : ConvexLq P) (hF : FactOk F) (hC : FactComplete F)
    (hr : ∀ t < P.T, FullRank (cs t).D) {p : K} (hp : 0 ≤ p) (feas : Bool)
    (xs : Nat → Fin n → K) (us : Nat → Fin m → K) (s : Arrays K n (fun _ => m)) :
    ∃ g, backwardOn P cs F es (some p) feas xs us s = .ok g :=
  C72_never_throws hF hC hp
    (fun t _ => ⟨h.symm.Q t, h.symm.R t, h.psd t⟩) (fun t _ => .inr (h.pd t)) (fun t ht _ _ => hr t ht) h.symm.term h.term

/-! ## The violation -/

theorem isNorm_nonneg {nm : Solver.Norm} {l : List K} {r : K} (h : Solver.IsNorm nm l r) : 0 ≤ r := by
  cases nm with
  | linf => exact h.1
  | l1 =>
    rw [show r = (l.map abs).sum from h]
    exact List.sum_nonneg (by simp only [List.mem_map]; rintro _ ⟨a, -, rfl⟩; exact abs_nonneg a)

theorem isNorm_zero {nm : Solver.Norm} {l : List K} {r : K} (h : Solver.IsNorm nm l r) : r = 0 ↔ ∀ a ∈ l, a = 0 := by
  cases nm with
  | linf =>
    obtain ⟨h0, h1, h2⟩ := h
    constructor
    · rintro rfl a ha
      exact abs_nonpos_iff.mp (h1 a ha)
    · intro hz
      rcases h2 with h2 | ⟨v, hv, rfl⟩
      · exact h2
      · rw [hz v hv, abs_zero]
  | l1 =>
    rw [show r = (l.map abs).sum from h]
    clear h
    induction l with
    | nil => simp
    | cons a l ih =>
      have hl : 0 ≤ (l.map abs).sum :=
        List.sum_nonneg (by simp only [List.mem_map]; rintro _ ⟨b, -, rfl⟩; exact abs_nonneg b)
      rw [List.map_cons, List.sum_cons, add_eq_zero_iff_of_nonneg (abs_nonneg a) hl, ih, abs_eq_zero]
      simp

theorem violation_nonneg (nm : Solver.Norm) (xs : Nat → Fin n → K) (us : Nat → Fin m → K) :
    0 ≤ IntroSolve.violation nm P.toProb (eqc cs) xs us := isNorm_nonneg (Solver.C20_equality _ _ _)

theorem violation_zero {nm : Solver.Norm} {xs : Nat → Fin n → K} {us : Nat → Fin m → K} :
    IntroSolve.violation nm P.toProb (eqc cs) xs us = 0 ↔ ∀ t < P.T, (cs t).eval (xs t) (us t) = 0 := by
  unfold IntroSolve.violation
  rw [isNorm_zero (Solver.C20_equality _ _ _)]
  constructor
  · intro h t ht
    funext i
    refine h _ ?_
    simp only [List.mem_flatten, List.mem_append, List.mem_map, List.mem_range]
    exact ⟨_, .inl ⟨t, ht, rfl⟩, List.mem_ofFn.mpr ⟨i, rfl⟩⟩
  · intro h a ha
    simp only [List.mem_flatten, List.mem_append, List.mem_map, List.mem_range, List.mem_singleton] at ha
    obtain ⟨l, ⟨t, ht, rfl⟩ | rfl, hl⟩ := ha
    · obtain ⟨i, rfl⟩ := List.mem_ofFn.mp hl
      exact congrFun (h t ht) i
    · cases hl

theorem satisfies_of_rollout {xs : Nat → Fin n → K} {us : Nat → Fin m → K} (hr : Rollout P.toProb xs us) (hm : 0 < m) :
    Satisfies P cs us 0 P.x0 ↔ ∀ t < P.T, (cs t).eval (xs t) (us t) = 0 := by
  have e : ∀ t < P.T, (cs (0 + t)).eval (traj P us 0 P.x0 t) (us (0 + t)) = 0 ↔ (cs t).eval (xs t) (us t) = 0 := by
    intro t ht
    rw [rollout_traj hr t ht.le]
    have : ∀ j, j = t → ((cs j).eval (xs t) (us j) = 0 ↔ (cs t).eval (xs t) (us t) = 0) := by
      rintro _ rfl; exact Iff.rfl
    exact this _ (Nat.zero_add t)
  constructor
  · intro h t ht
    exact (e t ht).mp (h t (by omega) hm)
  · intro h i hi _
    exact (e i (by omega)).mpr (h i (by omega))

theorem satisfies_iff {nm : Solver.Norm} {xs : Nat → Fin n → K} {us : Nat → Fin m → K} (hr : Rollout P.toProb xs us)
    (hm : 0 < m) :
    Satisfies P cs us 0 P.x0 ↔ IntroSolve.violation nm P.toProb (eqc cs) xs us = 0 := by
  rw [satisfies_of_rollout hr hm, violation_zero]

/-! ## One iteration -/

/-- The state of the solver when the line search starts. -/
structure Ready (P : LqProb K n (fun _ => m)) (cs : ∀ t, Affine K n m (nh t)) (F : Fact K) (es : EqSolver)
    (c : IntroSolve.ICfg K) (s0 s : LqI K n m nh) (g : Arrays K n (fun _ => m)) : Prop where
  xs : s.base.xs = s0.base.xs
  us : s.base.us = s0.base.us
  feas : s.base.feas = s0.base.feas
  preg : s.base.preg = s0.base.preg
  iter : s.base.iter = s0.base.iter
  back : backwardOn P cs F es (some s0.base.preg) s0.base.feas s0.base.xs s0.base.us s0.base.dir = .ok g
  k : s.base.k = fun t => (g.out t).k
  gain : s.base.gain = fun t dx => (g.out t).Kfb *ᵥ dx
  dir : s.base.dir = g
  fs : ∀ t ≤ P.T, s.base.fs t = gaps P s0.base.xs s0.base.us t
  cost : s.base.cost = totalCost P.toProb s0.base.xs s0.base.us
  hfeas : s.hfeas = IntroSolve.violation c.norm P.toProb (eqc cs) s0.base.xs s0.base.us
  upsilon : s.upsilon = s0.upsilon

theorem direction_ready (h : ConvexLq P) (hF : FactOk F) (hC : FactComplete F)
    (hR : ∀ t < P.T, FullRank (cs t).D) {c : IntroSolve.ICfg K} {s : LqI K n m nh}
    (hp : 0 ≤ s.base.preg) (hr : s.base.recalc = true)
    (hm : s.base.iter = 0 ∨ Matches P.toProb s.base ∧ IntroSolve.HMatches P.toProb (eqc cs) s)
    (hv : s.base.iter = 0 ∨ IntroSolve.violation c.norm P.toProb (eqc cs) s.base.xs s.base.us = 0)
    (fuel : Nat) :
    ∃ s1 g, IntroSolve.dirLoop P.toProb (eqc cs) c (oracle P cs F es) (fuel + 1) s = some (true, s1) ∧
      Ready P cs F es c s (IntroSolve.prepare c (oracle P cs F es) s1) g := by
  obtain ⟨g, hg⟩ := back_ok (es := es) h hF hC hR hp s.base.feas s.base.xs s.base.us s.base.dir
  have hmb : s.base.iter = 0 ∨ Matches P.toProb s.base := hm.imp id And.left
  have hcost := calcDiff_cost (O := oracle P cs F es) hmb
  generalize hcdef : Solve.calcDiff P.toProb (oracle P cs F es) s.base = b at hcost
  have hcd : b.xs = s.base.xs ∧ b.us = s.base.us ∧ b.feas = s.base.feas ∧ b.preg = s.base.preg ∧ b.dir = s.base.dir ∧
      b.iter = s.base.iter ∧
      b.lin = ⟨⟨fun t => (P.node t).derivs (s.base.xs t) (s.base.us t), P.term.q + P.term.Q *ᵥ s.base.xs P.T, P.term.Q⟩,
        fun t => (cs t).derivs (s.base.xs t) (s.base.us t)⟩ := by
    rw [← hcdef]
    unfold Solve.calcDiff
    by_cases h0 : s.base.iter = 0 <;> simp [h0, problemCalc, oracle]
  have hfs : ∀ t ≤ P.T, b.fs t = gaps P s.base.xs s.base.us t := by
    intro t ht
    rw [← hcdef]
    unfold Solve.calcDiff
    by_cases h0 : s.base.iter = 0
    · simp only [h0, if_true, problemCalc]
      cases t <;> rfl
    · simp only [h0, if_false]
      cases t with
      | zero => rfl
      | succ t =>
        simp only [(hmb.resolve_left h0).1 t ht]
        rfl
  obtain ⟨h1, h2, h3, h4, h5, h6, h8⟩ := hcd
  have hback : backwardPass F es (some s.base.preg) s.base.feas P.T
      (fun t => (P.node t).derivs (s.base.xs t) (s.base.us t)) (fun t => (cs t).derivs (s.base.xs t) (s.base.us t))
      (P.term.q + P.term.Q *ᵥ s.base.xs P.T) P.term.Q b.fs s.base.dir = .ok g := by
    rw [backwardPass_congr hfs]; exact hg
  have hO : (oracle P cs F es).backward b =
      (true, fun t => (g.out t).k, fun t dx => (g.out t).Kfb *ᵥ dx, g) := by
    simp only [oracle, h8, h3, h4, h5, hback]
  have hib : (IntroSolve.calcDiff P.toProb (eqc cs) c (oracle P cs F es) s).base = b := by
    rw [← hcdef]
    unfold IntroSolve.calcDiff
    by_cases h0 : s.base.iter = 0 <;> simp [h0]
  have hpre : IntroSolve.IPre P.toProb (eqc cs) c s :=
    ⟨by unfold DirPre; rw [hr]; simpa using hmb, by rw [hr]; simpa using hm.imp id And.right⟩
  obtain ⟨cb1, cb2, cb3⟩ := IntroSolve.computeDirection_base (P := P.toProb) (E := eqc cs) (c := c) (O := oracle P cs F es) s
  have hok := IntroSolve.computeDirection_hok (O := oracle P cs F es) hpre
  have hb2 : Solve.computeDirection P.toProb (oracle P cs F es) s.base =
      (true, { b with k := fun t => (g.out t).k, gain := fun t dx => (g.out t).Kfb *ᵥ dx, dir := g }) := by
    unfold Solve.computeDirection
    simp only [hr, if_true, hcdef, hO]
  rw [hb2] at cb1 cb2
  generalize hs1 : (IntroSolve.computeDirection P.toProb (eqc cs) c (oracle P cs F es) s).2 = s1 at cb2 cb3 hok
  refine ⟨s1, g, ?_, ?_⟩
  · simp only [IntroSolve.dirLoop, cb1, if_true, hs1]
  · have hxs : s1.base.xs = s.base.xs := by rw [cb2]; exact h1
    have hus : s1.base.us = s.base.us := by rw [cb2]; exact h2
    have hiter : s1.base.iter = s.base.iter := by rw [cb2]; exact h6
    have hhf : s1.hfeas = IntroSolve.violation c.norm P.toProb (eqc cs) s.base.xs s.base.us := by
      rw [← hxs, ← hus]; exact hok
    refine ⟨hxs, hus, by show s1.base.feas = _; rw [cb2]; exact h3, by show s1.base.preg = _; rw [cb2]; exact h4, hiter,
      hg, by show s1.base.k = _; rw [cb2], by show s1.base.gain = _; rw [cb2], by show s1.base.dir = _; rw [cb2],
      by show ∀ t ≤ P.T, s1.base.fs t = _; rw [cb2]; exact hfs, ?_, hhf, ?_⟩
    · show s1.base.cost = _
      rw [cb2]
      unfold CostOk at hcost
      rw [h1, h2] at hcost
      exact hcost
    · unfold IntroSolve.prepare IntroSolve.penalty
      simp only
      rw [if_neg ?_, cb3]
      rintro ⟨e1, e2⟩
      rcases hv with hv | hv
      · exact e2 (hiter.trans hv)
      · exact e1 (hhf.trans hv)

theorem probe_imp (a : K) (s sT : LqI K n m nh) {c : IntroSolve.ICfg K}
    (h : IntroSolve.probe P.toProb (eqc cs) c (oracle P cs F es) a s = (some (), sT)) :
    (sT.base.d0, sT.base.d1) =
      expectedImprovementFddp P.T s.base.feas s.base.fs (fun t => s.base.xs t - sT.base.xsTry t) s.base.dir := by
  unfold IntroSolve.probe at h
  rcases hp : Solve.probe P.toProb (oracle P cs F es) .fddp a s.base with ⟨o, b⟩
  rw [hp] at h
  cases o with
  | none => simp at h
  | some u =>
    simp only [Prod.mk.injEq, true_and] at h
    have hb : sT.base = b := by rw [← h]
    rw [hb]
    have ht := tryStep_spec (P := P.toProb) (O := oracle P cs F es) (kind := .fddp) a { s.base with steplength := a }
    unfold Solve.probe at hp
    simp only at hp
    cases hf : tryStep P.toProb (oracle P cs F es) .fddp a { s.base with steplength := a } with
    | ub => rw [hf] at ht; exact ht.elim
    | throw s' => rw [hf] at hp; simp at hp
    | ok u s' =>
      rw [hf] at hp ht
      obtain ⟨s1, htr, rfl⟩ := ht
      simp only [Kind.feasibilityDriven, if_true, Prod.mk.injEq] at hp
      have hfr := htr.frame
      have e1 : s1.feas = s.base.feas := by rw [hfr]
      have e2 : s1.fs = s.base.fs := by rw [hfr]
      have e3 : s1.xs = s.base.xs := by rw [hfr]
      have e4 : s1.dir = s.base.dir := by rw [hfr]
      obtain ⟨-, rfl⟩ := hp
      simp only [oracle, e1, e2, e3, e4]

theorem moved_of_eq {xs : Nat → Fin n → K} {us us' : Nat → Fin m → K} (hr : Rollout P.toProb xs us)
    (h : ∀ t < P.T, us t = us' t) : moved P xs us us' = 0 := by
  have ht : ∀ t ≤ P.T, traj P us' 0 P.x0 t = traj P us 0 P.x0 t := by
    intro t
    induction t with
    | zero => intro _; rfl
    | succ t ih =>
      intro ht
      have e : 0 + t = t := Nat.zero_add t
      rw [traj, traj, ih (by omega), e, h t ht]
  unfold moved
  rw [Finset.sum_eq_zero fun t ht => by rw [h t (Finset.mem_range.mp ht)]; simp, Finset.sum_eq_zero fun t h' => by
    have := Finset.mem_range.mp h'
    rw [ht t (by omega), rollout_traj hr t (by omega)]; simp]
  simp

/-- From a solution, every regularised step stays. -/
theorem stay_of_best {rho : K} {xs xs' : Nat → Fin n → K} {us us' : Nat → Fin m → K} {feas : Bool}
    {s g : Arrays K n (fun _ => m)} (hs : Symmetric P) (hF : FactOk F) (hp : 0 ≤ rho)
    (hb : backwardOn P cs F es (some rho) feas xs us s = .ok g) (hr : Rollout P.toProb xs us)
    (hbest : Best P cs us) (hc : ClosedLoop P xs us g 1 xs' us') : moved P xs us us' = 0 := by
  have hg := gaps_of_rollout hr
  have hsat := satisfies_full hb hs hF _ _ hc
  rcases eq_or_lt_of_le hp with h0 | h0
  · subst h0
    exact moved_of_eq hr (C74_unique_partial hb hs hF (.inr rfl) (fun _ => hg) _ _ hc us hbest.1 (hbest.2 _ hsat))
  · have h1 := prox_optimal hb hs hF (fun _ => hg) _ _ hc us hbest.1
    have h2 := hbest.2 _ hsat
    rw [moved_self (rollout_traj hr)] at h1
    have h3 := moved_nonneg (P := P) (xs := xs) (us := us) us'
    nlinarith

theorem decrease_lt {r : Solver.Reg K} (hd : 1 ≤ r.dec) (hm : r.min < r.max) {p : K} (hp : 0 ≤ p) (h : p < r.max) :
    Solver.decrease r p < r.max := by
  unfold Solver.decrease
  simp only
  split
  · exact hm
  · exact (div_le_self hp hd).trans_lt h

theorem increase_nonneg {r : Solver.Reg K} (hi : 0 ≤ r.inc) (hm : 0 ≤ r.max) {p : K} (hp : 0 ≤ p) :
    0 ≤ Solver.increase r p := by
  unfold Solver.increase
  simp only
  split
  · exact hm
  · exact mul_nonneg hp hi

/-- The prediction for the full step from the candidate `xs, us` to `xs'`. -/
def pred (P : LqProb K n (fun _ => m)) (feas : Bool) (xs : Nat → Fin n → K) (us : Nat → Fin m → K)
    (g : Arrays K n (fun _ => m)) (xs' : Nat → Fin n → K) : K × K :=
  expectedImprovementFddp P.T feas (gaps P xs us) (fun t => xs t - xs' t) g

/-- One iteration, with any regularisation below the maximum: the full step is taken. -/
theorem iteration_reg (hm : 0 < m) (h : ConvexLq P) (hF : FactOk F) (hC : FactComplete F)
    (hR : ∀ t < P.T, FullRank (cs t).D) {c : IntroSolve.ICfg K} (hc : Sane c) {s : LqI K n m nh}
    (hp : 0 ≤ s.base.preg) (hpm : s.base.preg < c.reg.max) (hr : s.base.recalc = true)
    (hmt : s.base.iter = 0 ∨ Matches P.toProb s.base ∧ IntroSolve.HMatches P.toProb (eqc cs) s)
    (hv : s.base.iter = 0 ∨ IntroSolve.violation c.norm P.toProb (eqc cs) s.base.xs s.base.us = 0)
    (hups : 0 ≤ s.upsilon)
    (hf : s.base.feas = true → Rollout P.toProb s.base.xs s.base.us)
    (hgood : 0 < s.base.preg ∨ (Rollout P.toProb s.base.xs s.base.us ∧ Satisfies P cs s.base.us 0 P.x0) ∨
      ¬ IsLeast (costs P cs) (IntroSolve.merit c.norm P.toProb (eqc cs) s.upsilon s.base.xs s.base.us)) (fuel : Nat) :
    ∃ e q s' g, IntroSolve.iteration P.toProb (eqc cs) c (oracle P cs F es) (fuel + 1) s = some (e, q, s') ∧
      backwardOn P cs F es (some s.base.preg) s.base.feas s.base.xs s.base.us s.base.dir = .ok g ∧
      ClosedLoop P s.base.xs s.base.us g 1 s'.base.xs s'.base.us ∧ Rollout P.toProb s'.base.xs s'.base.us ∧
      s'.base.feas = true ∧ Satisfies P cs s'.base.us 0 P.x0 ∧ s'.hfeas = 0 ∧ s'.upsilon = s.upsilon ∧
      s'.base.recalc = true ∧ s'.base.iter = s.base.iter ∧ Matches P.toProb s'.base ∧
      IntroSolve.HMatches P.toProb (eqc cs) s' ∧ 0 ≤ s'.base.preg ∧
      (∃ r, (r = s.base.preg ∧ (c.thStepdec < 1 → s'.base.dV < 0) ∨ r = Solver.decrease c.reg s.base.preg) ∧
        (s'.base.preg = r ∨ s'.base.preg = Solver.increase c.reg r)) ∧
      s'.base.dV = totalCost P.toProb s.base.xs s.base.us - total P s'.base.us ∧
      e = if |(pred P s.base.feas s.base.xs s.base.us g s'.base.xs).1 +
        (1 / 2) * (pred P s.base.feas s.base.xs s.base.us g s'.base.xs).2| < c.thStop then .converged else .continue := by
  obtain ⟨as, hal⟩ := hc.alphas
  obtain ⟨s1, g, hdir, hrd⟩ := direction_ready (c := c) (es := es) h hF hC hR hp hr hmt hv fuel
  generalize hs2 : IntroSolve.prepare c (oracle P cs F es) s1 = s2 at hrd
  obtain ⟨b, hbp, -⟩ := probe_some (P := P.toProb) (O := oracle P cs F es) (kind := .fddp)
    (fun _ => rfl) (fun _ => rfl) 1 zero_le_one le_rfl s2.base
  obtain ⟨sT, hprobe⟩ : ∃ sT, IntroSolve.probe P.toProb (eqc cs) c (oracle P cs F es) 1 s2 = (some (), sT) := by
    unfold IntroSolve.probe
    rw [hbp]
    exact ⟨_, rfl⟩
  have hpd := IntroSolve.probe_spec (P := P.toProb) (E := eqc cs) (c := c) (O := oracle P cs F es) 1 s2
  rw [hprobe] at hpd
  replace hpd : IntroSolve.IProbed P.toProb (eqc cs) c 1 s2 sT := hpd
  have himp := probe_imp 1 s2 sT hprobe
  rw [hrd.feas, hrd.dir, sum_fddp_congr hrd.fs, hrd.xs] at himp
  have hfirst : first P.toProb .fddp s2.base = P.x0 := rfl
  have hcore := hpd.base.core
  rw [hfirst] at hcore
  obtain ⟨hcl, hro, hct⟩ := closedLoop_of_core hm hrd.k hrd.gain hcore
  rw [hrd.xs, hrd.us] at hcl
  have hsat := satisfies_full hrd.back h.symm hF _ _ hcl
  have hfg : s.base.feas = true → ∀ t ≤ P.T, gaps P s.base.xs s.base.us t = 0 := fun e => gaps_of_rollout (hf e)
  have hHM : IntroSolve.HMatches P.toProb (eqc cs) (IntroSolve.accept sT) := by
    refine ⟨fun t ht => ?_, hpd.htd⟩
    show sT.hd t = _
    rw [hpd.hd t, if_neg]
    · rfl
    · show ¬ decide (m = 0) = true
      simp; omega
  have hfT : sT.hfeasTry = 0 := by
    rw [hpd.hfeasTry]
    have e : IntroSolve.dataFeas P.toProb c sT = IntroSolve.violation c.norm P.toProb (eqc cs) sT.base.xsTry sT.base.usTry :=
      IntroSolve.dataFeas_of_matches (c := c) hHM
    rw [e]
    exact (satisfies_iff hro hm).mp hsat
  have hdV : sT.base.dV = totalCost P.toProb s.base.xs s.base.us - total P sT.base.usTry := by
    rw [hpd.base.dV, hrd.cost, hct, rollout_total hro]
  have hdVe : sT.base.dVexp = sT.base.d0 + (1 / 2) * sT.base.d1 := by rw [hpd.base.dVexp]; ring
  set mv := moved P s.base.xs s.base.us sT.base.usTry with hmvdef
  have hexp : sT.base.dV = sT.base.dVexp + (1 / 2) * s.base.preg * mv := by
    have := prox_full_step hrd.back h.symm hF hfg (fun t => s.base.xs t - sT.base.xsTry t) _ _ hcl
    rw [← himp] at this
    rw [hdV, hdVe]
    exact this
  have hmv0 : 0 ≤ mv := moved_nonneg _
  have hmv : 0 ≤ (1 / 2) * s.base.preg * mv := mul_nonneg (by linarith) hmv0
  have hvn := violation_nonneg (P := P) (cs := cs) c.norm s.base.xs s.base.us
  have hdP : sT.dPhi = sT.dPhiexp + (1 / 2) * s.base.preg * mv := by
    rw [hpd.dPhi, hpd.dPhiexp, hexp]; ring
  have hdPe : sT.dPhiexp = sT.base.dVexp +
      s.upsilon * IntroSolve.violation c.norm P.toProb (eqc cs) s.base.xs s.base.us := by
    rw [hpd.dPhiexp, hfT, hrd.hfeas, hrd.upsilon]; ring
  have hd0 : mv = 0 → sT.base.d0 = 0 ∧ sT.base.d1 = 0 := fun e => by
    obtain ⟨k1, k2⟩ := zero_of_moved hcl e
    rw [fddp_no_gaps g k2, improvement_of_k k1] at himp
    exact ⟨congrArg Prod.fst himp, congrArg Prod.snd himp⟩
  have hacc' : IntroSolve.accepts c sT = true := by
    unfold IntroSolve.accepts
    by_cases h0 : 0 ≤ sT.dPhiexp
    · simp only [if_pos h0, Bool.or_eq_true, decide_eq_true_eq]
      have ha := hc.accept
      rcases eq_or_lt_of_le h0 with hz | hpos
      · rcases eq_or_lt_of_le hmv with hm0 | hm0
        · left
          have hmz : mv = 0 := by
            rcases mul_eq_zero.mp hm0.symm with e | e
            · have hp0 : s.base.preg = 0 := (mul_eq_zero.mp e).resolve_left (by norm_num)
              rcases hgood with hg | ⟨hg1, hg2⟩ | hg
              · exact absurd hp0 hg.ne'
              · have hv0 := (satisfies_iff (nm := c.norm) hg1 hm).mp hg2
                rw [hv0, mul_zero, add_zero, ← hz] at hdPe
                have e2 : total P s.base.us = total P sT.base.usTry := by
                  rw [← rollout_total hg1, ← sub_eq_zero, ← hdV, hexp, ← hdPe, hp0]; ring
                have hb := hrd.back
                rw [hp0] at hb
                exact moved_of_eq hg1 (C74_unique_partial hb h.symm hF (.inr rfl) hfg _ _ hcl _ hg2 e2.le)
              · exfalso
                refine hg ?_
                have hb := hrd.back
                rw [hp0] at hb
                have hopt := C74_optimal_partial hb h.symm hF (.inr rfl) hfg _ _ hcl
                have e2 : IntroSolve.merit c.norm P.toProb (eqc cs) s.upsilon s.base.xs s.base.us = total P sT.base.usTry := by
                  unfold IntroSolve.merit
                  have : sT.base.dVexp = sT.base.dV := by rw [hexp, hp0]; ring
                  rw [this, hdV, ← hz] at hdPe
                  linarith
                rw [e2]
                refine ⟨⟨_, hopt.1, rfl⟩, ?_⟩
                rintro _ ⟨vs, hvs, rfl⟩
                exact hopt.2 vs hvs
            · exact e
          rw [(hd0 hmz).1, abs_zero]
          exact hc.grad
        · right
          rw [hdP, ← hz]; linarith
      · right
        rw [hdP]; nlinarith
    · have hlt : sT.dPhiexp < 0 := not_le.mp h0
      simp only [if_neg h0, decide_eq_true_eq]
      have hneg := hc.acceptNeg
      have : 0 ≤ s.upsilon * IntroSolve.violation c.norm P.toProb (eqc cs) s.base.xs s.base.us := mul_nonneg hups hvn
      have hlt' : sT.base.dVexp < 0 := by linarith
      rw [hexp]; nlinarith
  have hls' : IntroSolve.lineSearch P.toProb (eqc cs) c (oracle P cs F es) c.alphas s2 = IntroSolve.accept sT := by
    rw [hal]; simp only [IntroSolve.lineSearch, hprobe, hacc', if_true]
  have hmatch : Matches P.toProb (IntroSolve.accept sT).base :=
    ⟨fun t ht => (hcore.total (autonomousOk hm)).1 t ht, hcore.tdata_eq⟩
  have hpregT : sT.base.preg = s.base.preg := by rw [hpd.keeps.base.preg, hrd.preg]
  have hit : sT.base.iter = s.base.iter := by rw [hpd.keeps.base.iter, hrd.iter]
  have hups' : sT.upsilon = s.upsilon := by rw [hpd.keeps.upsilon, hrd.upsilon]
  have hfeT : (IntroSolve.accept sT).base.feas = true := by
    simp [IntroSolve.accept, Solve.accept, hpd.base.steplength]
  generalize hs3 : IntroSolve.stopping (IntroSolve.accept sT) = s3
  have hstop : s3.base.stop = |sT.base.d0 + (1 / 2) * sT.base.d1| := by
    rw [← hs3]
    show max sT.hfeasTry |sT.base.d0 + (1 / 2) * sT.base.d1| = _
    rw [hfT, max_eq_right (abs_nonneg _)]
  have hstep : s3.base.steplength = 1 := by rw [← hs3]; exact hpd.base.steplength
  have hp3 : s3.base.preg = s.base.preg := by rw [← hs3]; exact hpregT
  have hdV3 : s3.base.dV = sT.base.dV := by rw [← hs3]; rfl
  generalize hs4 : (if s3.base.steplength > c.thStepdec ∧ 0 ≤ s3.base.dV then
      ({ s3 with base := decreaseReg c.toCfg s3.base } : LqI K n m nh) else s3) = s4
  have h4 : (∃ p q, s4 = { s3 with base := { s3.base with preg := p, dreg := q } }) ∧
      (s4.base.preg = s.base.preg ∧ (c.thStepdec < 1 → sT.base.dV < 0) ∨
        s4.base.preg = Solver.decrease c.reg s.base.preg) := by
    rw [← hs4]
    split
    · exact ⟨⟨_, _, rfl⟩, .inr (by show Solver.decrease c.reg s3.base.preg = _; rw [hp3])⟩
    · rename_i hn
      refine ⟨⟨s3.base.preg, s3.base.dreg, rfl⟩, .inl ⟨hp3, fun hd => ?_⟩⟩
      rw [hstep, hdV3] at hn
      exact not_le.mp fun h0 => hn ⟨hd, h0⟩
  obtain ⟨⟨p4, q4, e4⟩, h4p⟩ := h4
  have hmx : 0 ≤ c.reg.max := hc.regmin.trans hc.regmax.le
  have h4nn : 0 ≤ s4.base.preg := by
    rcases h4p with ⟨e, -⟩ | e <;> rw [e]
    · exact hp
    · exact decrease_nonneg hc.regmin _
  have h4lt : s4.base.preg < c.reg.max := by
    rcases h4p with ⟨e, -⟩ | e <;> rw [e]
    · exact hpm
    · exact decrease_lt hc.regdec hc.regmax hp hpm
  generalize hup : (decide (s4.base.steplength ≤ c.thStepinc) || decide (|s4.base.d1| ≤ c.thFeas)) = up
  generalize hs5 : (if up = true then ({ s4 with base := increaseReg c.toCfg s4.base } : LqI K n m nh) else s4) = s5
  have h5 : (∃ p q, s5 = { s3 with base := { s3.base with preg := p, dreg := q } }) ∧
      (s5.base.preg = s4.base.preg ∨ s5.base.preg = Solver.increase c.reg s4.base.preg) := by
    rw [← hs5]
    split
    · exact ⟨⟨_, _, by rw [e4]; rfl⟩, .inr rfl⟩
    · exact ⟨⟨p4, q4, e4⟩, .inl rfl⟩
  obtain ⟨⟨p5, q5, e5⟩, h5p⟩ := h5
  have h5nn : 0 ≤ s5.base.preg := by
    rcases h5p with e | e <;> rw [e]
    · exact h4nn
    · exact increase_nonneg hc.reginc hmx h4nn
  have b5 : s5.base.xs = sT.base.xsTry ∧ s5.base.us = sT.base.usTry ∧ s5.base.feas = true ∧ s5.hfeas = 0 ∧
      s5.upsilon = s.upsilon ∧ s5.base.recalc = true ∧ s5.base.iter = s.base.iter ∧ Matches P.toProb s5.base ∧
      IntroSolve.HMatches P.toProb (eqc cs) s5 ∧ s5.base.dV = sT.base.dV ∧
      s5.base.stop = |sT.base.d0 + (1 / 2) * sT.base.d1| := by
    rw [e5]
    refine ⟨?_, ?_, ?_, ?_, ?_, ?_, ?_, ?_, ?_, hdV3, hstop⟩ <;> rw [← hs3]
    · rfl
    · rfl
    · exact hfeT
    · exact hfT
    · exact hups'
    · rfl
    · exact hit
    · exact hmatch
    · exact hHM
  obtain ⟨c1, c2, c3, c4, c5, c6, c7, c8, c9, c10, c11⟩ := b5
  have hpr : (pred P s.base.feas s.base.xs s.base.us g s5.base.xs) = (sT.base.d0, sT.base.d1) := by
    rw [c1, himp]; rfl
  refine ⟨if |sT.base.d0 + (1 / 2) * sT.base.d1| < c.thStop then .converged else .continue, some s3, s5, g, ?_, hrd.back,
    by rw [c1, c2]; exact hcl, by rw [c1, c2]; exact hro, c3, by rw [c2]; exact hsat, c4, c5, c6, c7, c8, c9, h5nn,
    ⟨s4.base.preg, by rw [c10]; exact h4p, h5p⟩, by rw [c10, c2]; exact hdV, by rw [hpr]⟩
  unfold IntroSolve.iteration
  rw [hdir]
  simp only [hs2, hls', hs3, hs4, hup, hs5]
  have hnm : decide (s4.base.preg = c.reg.max) = false := by simpa using h4lt.ne
  rw [hnm, Bool.and_false]
  simp only [Bool.false_eq_true, if_false, c3, Bool.true_and, c11, decide_eq_true_eq]
  split <;> rfl

/-! ## The remaining iterations -/

/-- The line through two sequences of controls that satisfy the constraints. -/
theorem satisfies_line {us vs : Nat → Fin m → K} (hu : Satisfies P cs us 0 P.x0) (hv : Satisfies P cs vs 0 P.x0) (a : K) :
    Satisfies P cs (fun t => vs t + a • (us t - vs t)) 0 P.x0 := by
  intro i hi h0
  have h1 := hu i hi h0
  have h2 := hv i hi h0
  have e1 : us = fun t => vs t + (1 : K) • (us t - vs t) := by funext t; simp
  have ht : traj P us 0 P.x0 i = traj P vs 0 P.x0 i + traj (hom P) (fun t => us t - vs t) 0 (hom P).x0 i := by
    conv_lhs => rw [e1]
    rw [traj_line, one_smul]
  show (cs (0 + i)).eval (traj P (fun t => vs t + a • (us t - vs t)) 0 P.x0 i)
    (vs (0 + i) + a • (us (0 + i) - vs (0 + i))) = 0
  have h1' : (cs (0 + i)).eval (traj P us 0 P.x0 i) (us (0 + i)) = 0 := h1
  have h2' : (cs (0 + i)).eval (traj P vs 0 P.x0 i) (vs (0 + i)) = 0 := h2
  rw [traj_line]
  rw [ht] at h1'
  generalize traj (hom P) (fun t => us t - vs t) 0 (hom P).x0 i = z at h1' ⊢
  generalize traj P vs 0 P.x0 i = x at h1' h2' ⊢
  simp only [Affine.eval, mulVec_add, mulVec_smul, mulVec_sub] at h1' h2' ⊢
  have : ((cs (0 + i)).C *ᵥ x + a • (cs (0 + i)).C *ᵥ z +
      ((cs (0 + i)).D *ᵥ vs (0 + i) + a • ((cs (0 + i)).D *ᵥ us (0 + i) - (cs (0 + i)).D *ᵥ vs (0 + i))) + (cs (0 + i)).c) =
      (1 - a) • ((cs (0 + i)).C *ᵥ x + (cs (0 + i)).D *ᵥ vs (0 + i) + (cs (0 + i)).c) +
        a • ((cs (0 + i)).C *ᵥ x + (cs (0 + i)).C *ᵥ z + (cs (0 + i)).D *ᵥ us (0 + i) + (cs (0 + i)).c) := by
    module
  rw [this, h1', h2', smul_zero, smul_zero, add_zero]

theorem increase_le {r : Solver.Reg K} (p : K) : Solver.increase r p ≤ p * r.inc := by
  unfold Solver.increase
  simp only
  split
  · exact le_of_lt ‹_›
  · exact le_rfl

/-- Decreasing and then increasing the regularisation does not lead above a bound that `min * inc` respects. -/
theorem cycle_le {r : Solver.Reg K} (h1 : 1 ≤ r.inc) (h2 : r.inc ≤ r.dec) (hm : 0 ≤ r.min) {p B : K} (hp : 0 ≤ p)
    (hB : r.min * r.inc ≤ B) (hpB : p ≤ B) {q : K}
    (h : q = Solver.decrease r p ∨ q = Solver.increase r (Solver.decrease r p)) : q ≤ B := by
  have hd0 : 0 < r.dec := by linarith
  have hd : Solver.decrease r p * r.inc ≤ B := by
    unfold Solver.decrease
    simp only
    split
    · exact hB
    · refine le_trans ?_ hpB
      rw [div_mul_eq_mul_div, div_le_iff₀ hd0]
      exact mul_le_mul_of_nonneg_left h2 hp
  rcases h with rfl | rfl
  · refine le_trans ?_ hd
    exact le_mul_of_one_le_right (decrease_nonneg hm p) h1
  · exact (increase_le _).trans hd

theorem loop_reg (hm : 0 < m) (h : ConvexLq P) (hF : FactOk F) (hC : FactComplete F)
    (hR : ∀ t < P.T, FullRank (cs t).D) {c : IntroSolve.ICfg K} (hc : Sane c) (hsd : c.thStepdec < 1)
    (hi1 : 1 ≤ c.reg.inc) (hid : c.reg.inc ≤ c.reg.dec) {con rho : K} (hcon0 : 0 ≤ con)
    (hcon : ∀ es, moved (hom P) (fun _ => 0) (fun _ => 0) es ≤ con * total (hom P) es)
    (hrm : c.reg.min * c.reg.inc ≤ rho) (hrx : rho < c.reg.max)
    {ustar : Nat → Fin m → K} (ho : Best P cs ustar) (fuel N : Nat) {s : LqI K n m nh}
    (hp : 0 ≤ s.base.preg) (hpr : s.base.preg ≤ rho) (hr : s.base.recalc = true)
    (hmt : s.base.iter = 0 ∨ Matches P.toProb s.base ∧ IntroSolve.HMatches P.toProb (eqc cs) s)
    (hups : 0 ≤ s.upsilon) (hro : Rollout P.toProb s.base.xs s.base.us) (hsat : Satisfies P cs s.base.us 0 P.x0)
    (hfe : s.base.feas = true) :
    ∃ o, IntroSolve.iterLoop P.toProb (eqc cs) c (oracle P cs F es) (fuel + 1) N s = some o ∧
      Rollout P.toProb o.final.base.xs o.final.base.us ∧ Satisfies P cs o.final.base.us 0 P.x0 ∧
      o.final.base.feas = true ∧
      ((o.ret = true ∧ total P o.final.base.us - total P ustar ≤ (1 / 2) * rho * con * c.thStop) ∨
        (o.ret = false ∧
          total P o.final.base.us - total P ustar ≤
            ((1 / 2) * rho * con / (1 + (1 / 2) * rho * con)) ^ N * (total P s.base.us - total P ustar) ∧
          ∀ j < N, c.thStop ≤
            ((1 / 2) * rho * con / (1 + (1 / 2) * rho * con)) ^ j * (total P s.base.us - total P ustar))) := by
  induction N generalizing s with
  | zero => exact ⟨_, rfl, hro, hsat, hfe, .inr ⟨rfl, by simp, fun j hj => absurd hj (Nat.not_lt_zero _)⟩⟩
  | succ N ih =>
    obtain ⟨e, q, s', g, a1, a2, a3, a4, a5, a6, a7, a8, a9, a10, a11, a12, a13, a14, a15, a16⟩ :=
      iteration_reg (c := c) (es := es) hm h hF hC hR hc hp (hpr.trans_lt hrx) hr hmt
        (.inr ((satisfies_iff hro hm).mp hsat)) hups (fun _ => hro) (.inr (.inl ⟨hro, hsat⟩)) fuel
    have hr0 : 0 ≤ rho := hp.trans hpr
    have hx := rollout_traj hro
    have hpx := prox_optimal a2 h.symm hF (fun _ => gaps_of_rollout hro) _ _ a3
    have hrate := prox_rate (us' := s'.base.us) h hcon0 hp hcon (fun a => ho.2 _ (satisfies_line hsat ho.1 a)) hx
      (fun a => hpx _ (satisfies_line hsat ho.1 a))
    have himp := prox_full_step a2 h.symm hF (fun _ => gaps_of_rollout hro)
      (fun t => s.base.xs t - s'.base.xs t) _ _ a3
    have hce : costOf P s.base.xs s.base.us = total P s.base.us := rollout_total hro
    rw [hce] at himp
    have hpself := hpx s.base.us hsat
    rw [moved_self hx, mul_zero, add_zero] at hpself
    rw [rollout_total hro] at a15
    change e = if |(expectedImprovementFddp P.T s.base.feas (gaps P s.base.xs s.base.us)
        (fun t => s.base.xs t - s'.base.xs t) g).1 + 1 / 2 * (expectedImprovementFddp P.T s.base.feas
        (gaps P s.base.xs s.base.us) (fun t => s.base.xs t - s'.base.xs t) g).2| < c.thStop then _ else _ at a16
    generalize (expectedImprovementFddp P.T s.base.feas (gaps P s.base.xs s.base.us)
        (fun t => s.base.xs t - s'.base.xs t) g).1 + 1 / 2 * (expectedImprovementFddp P.T s.base.feas
        (gaps P s.base.xs s.base.us) (fun t => s.base.xs t - s'.base.xs t) g).2 = d at himp a16
    have hmv : 0 ≤ (1 / 2) * s.base.preg * moved P s.base.xs s.base.us s'.base.us :=
      mul_nonneg (by linarith) (moved_nonneg _)
    generalize hmm : (1 / 2) * s.base.preg * moved P s.base.xs s.base.us s'.base.us = M at *
    have hd00 : 0 ≤ d := by linarith
    rw [abs_of_nonneg hd00] at a16
    have hgap : 0 ≤ total P s.base.us - total P ustar := sub_nonneg.mpr (ho.2 _ hsat)
    have hgap' : 0 ≤ total P s'.base.us - total P ustar := sub_nonneg.mpr (ho.2 _ a6)
    have hk : 0 ≤ (1 / 2) * s.base.preg * con := by positivity
    have hk' : (1 / 2) * s.base.preg * con ≤ (1 / 2) * rho * con :=
      mul_le_mul_of_nonneg_right (by linarith) hcon0
    have hkap : (1 / 2) * s.base.preg * con / (1 + (1 / 2) * s.base.preg * con) ≤
        (1 / 2) * rho * con / (1 + (1 / 2) * rho * con) := by
      rw [div_le_div_iff₀ (by linarith) (by linarith)]
      nlinarith
    have hkap0 : 0 ≤ (1 / 2) * rho * con / (1 + (1 / 2) * rho * con) := div_nonneg (by linarith) (by linarith)
    have hstep : total P s'.base.us - total P ustar ≤
        ((1 / 2) * rho * con / (1 + (1 / 2) * rho * con)) * (total P s.base.us - total P ustar) := by
      have := mul_le_mul_of_nonneg_right hkap hgap
      linarith
    have hdle : d ≤ total P s.base.us - total P ustar := by linarith
    by_cases hst : d < c.thStop
    · rw [if_pos hst] at a16
      rw [IntroSolve.iterLoop, a1, a16]
      refine ⟨_, rfl, a4, a6, a5, .inl ⟨rfl, ?_⟩⟩
      show total P s'.base.us - total P ustar ≤ _
      have h2 : ((1 / 2) * s.base.preg * con / (1 + (1 / 2) * s.base.preg * con)) * (total P s.base.us - total P ustar) ≤
          (1 / 2) * s.base.preg * con * d := by
        have h3 : total P s.base.us - total P ustar -
            ((1 / 2) * s.base.preg * con / (1 + (1 / 2) * s.base.preg * con)) * (total P s.base.us - total P ustar) ≤ d := by
          linarith
        have h4 : total P s.base.us - total P ustar -
            ((1 / 2) * s.base.preg * con / (1 + (1 / 2) * s.base.preg * con)) * (total P s.base.us - total P ustar) =
            (total P s.base.us - total P ustar) / (1 + (1 / 2) * s.base.preg * con) := by
          have : 1 + (1 / 2) * s.base.preg * con ≠ 0 := by linarith
          field_simp
          ring
        rw [h4] at h3
        have := mul_le_mul_of_nonneg_left h3 hk
        calc _ = (1 / 2) * s.base.preg * con *
              ((total P s.base.us - total P ustar) / (1 + (1 / 2) * s.base.preg * con)) := by ring
          _ ≤ _ := this
      have h5 : (1 / 2) * s.base.preg * con * d ≤ (1 / 2) * rho * con * d := mul_le_mul_of_nonneg_right hk' hd00
      have h6 : (1 / 2) * rho * con * d ≤ (1 / 2) * rho * con * c.thStop :=
        mul_le_mul_of_nonneg_left hst.le (by linarith)
      linarith
    · rw [if_neg hst] at a16
      have hpr' : s'.base.preg ≤ rho := by
        obtain ⟨r, ⟨-, hneg⟩ | rfl, hq⟩ := a14
        · exact absurd (hneg hsd) (by rw [a15]; linarith)
        · exact cycle_le hi1 hid hc.regmin hp hrm hpr hq
      obtain ⟨o, b1, b2, b3, b4, b5⟩ := ih (s := { s' with base := { s'.base with iter := s'.base.iter + 1 } })
        a13 hpr' a9 (.inr ⟨a11, a12⟩) (by show 0 ≤ s'.upsilon; rw [a8]; exact hups) a4 a6 a5
      rw [IntroSolve.iterLoop, a1, a16]
      simp only [b1, Option.map_some]
      refine ⟨_, rfl, b2, b3, b4, b5.imp id ?_⟩
      rintro ⟨c1, c2, c3⟩
      refine ⟨c1, c2.trans ?_, fun j hj => ?_⟩
      · have := mul_le_mul_of_nonneg_left hstep (pow_nonneg hkap0 N)
        rwa [← mul_assoc, ← pow_succ] at this
      · cases j with
        | zero => simp only [pow_zero, one_mul]; exact (not_lt.mp hst).trans hdle
        | succ j =>
          refine (c3 j (by omega)).trans ?_
          have := mul_le_mul_of_nonneg_left hstep (pow_nonneg hkap0 j)
          rwa [← mul_assoc, ← pow_succ] at this

end Verif.Intro
