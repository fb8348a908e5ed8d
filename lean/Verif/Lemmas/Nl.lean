import Verif.Model.Nl
import Verif.Lemmas.NlCalc
import Verif.Lemmas.LqSolve

set_option linter.unusedSectionVars false

/-! # Lemmas: the solve loop on nonlinear problems -/

namespace Verif
namespace Solve
section
variable {K X DX U L D : Type}
variable [Field K] [LinearOrder K] [AddCommGroup DX] [Module K DX] [AddCommGroup U] [Module K U]
variable {P : Prob K X DX U} {c : Cfg K} {O : Oracle K X DX U L D} {kind : Kind}

/-- The state after a step length was evaluated. -/
def probedState (O : Oracle K X DX U L D) (kind : Kind) (a : K) (s3 : St K X DX U L D) : St K X DX U L D :=
  let s4 := { s3 with dV := s3.cost - s3.costTry }
  let s5 := if kind.feasibilityDriven then { s4 with d0 := (O.expImp s4).1, d1 := (O.expImp s4).2 } else s4
  { s5 with dVexp := a * (s5.d0 + (1 / 2) * a * s5.d1) }

theorem probe_full (hb : ∀ v, O.bad v = false) (hbx : ∀ v, O.badX v = false) (a : K) (ha : 0 ≤ a)
    (ha1 : a ≤ 1) (s : St K X DX U L D) :
    ∃ s3, Trial P kind a { s with steplength := a } s3 ∧
      probe P O kind a s = (some (), probedState O kind a s3) := by
  obtain ⟨s3, hs3⟩ := forwardPass_ok (P := P) (kind := kind) hb hbx a ha ha1 { s with steplength := a }
  have h := forwardPass_spec (P := P) (O := O) (kind := kind) a { s with steplength := a }
  rw [hs3] at h
  refine ⟨s3, h, ?_⟩
  unfold probe tryStep probedState
  simp [Cpp.bind_apply, hs3]

/-- Evaluating a step length keeps the derivatives and the direction. -/
theorem probe_dir (a : K) (s : St K X DX U L D) :
    (probe P O kind a s).2.dir = s.dir ∧ (probe P O kind a s).2.lin = s.lin := by
  have h := tryStep_spec (P := P) (O := O) (kind := kind) a { s with steplength := a }
  unfold probe
  simp only
  cases hf : tryStep P O kind a { s with steplength := a } with
  | ub => rw [hf] at h; exact h.elim
  | throw s' =>
    rw [hf] at h
    have h1 := h.1
    unfold Frame at h1
    simp only
    rw [h1]; exact ⟨rfl, rfl⟩
  | ok u s' =>
    rw [hf] at h
    obtain ⟨s1, ht, rfl⟩ := h
    have h1 := ht.frame
    unfold Frame at h1
    have e : s1.dir = s.dir ∧ s1.lin = s.lin := by rw [h1]; exact ⟨rfl, rfl⟩
    cases hfd : kind.feasibilityDriven <;> simpa using e

theorem lineSearch_lin (as : List K) (s : St K X DX U L D) :
    (lineSearch P c O kind as s).recalc = true ∨ (lineSearch P c O kind as s).lin = s.lin := by
  induction as generalizing s with
  | nil => exact .inr rfl
  | cons a as ih =>
    have hd := (probe_dir (P := P) (O := O) (kind := kind) a s).2
    simp only [lineSearch]
    rcases hp : probe P O kind a s with ⟨o, s'⟩
    rw [hp] at hd
    simp only at hd
    cases o with
    | none =>
      simp only
      rcases ih s' with h | h
      · exact .inl h
      · exact .inr (h.trans hd)
    | some u =>
      simp only
      split
      · exact .inl rfl
      · rcases ih s' with h | h
        · exact .inl h
        · exact .inr (h.trans hd)

end
end Solve

namespace Nl
open Verif.Solve Verif.Lq Verif.Deriv Matrix

variable {n m : Nat} {P : NlProb n m} {kind : Kind}
variable {lin : (Nat → Fin n → ℝ) → (Nat → Fin m → ℝ) → Lin ℝ n m}
variable {llt : ∀ m, Matrix (Fin m) (Fin m) ℝ → Bool}

abbrev NlSt (n m : Nat) :=
  St ℝ (Fin n → ℝ) (Fin n → ℝ) (Fin m → ℝ) (Lin ℝ n m) (Arrays ℝ n (fun _ => m))

theorem gap_eq (xs : Nat → Fin n → ℝ) (us : Nat → Fin m → ℝ) :
    Solve.gap P.toProb xs us = gapsOf P xs us := by
  funext t; cases t <;> rfl

theorem gaps_zero {xs : Nat → Fin n → ℝ} {us : Nat → Fin m → ℝ} (h : Rollout P.toProb xs us) :
    ∀ t ≤ P.T, gapsOf P xs us t = 0 := by
  intro t ht
  cases t with
  | zero => rw [gapsOf, sub_eq_zero]; exact h.1.symm
  | succ t => rw [gapsOf, sub_eq_zero]; exact (h.2 t ht).symm

theorem rollout_traj {xs : Nat → Fin n → ℝ} {us : Nat → Fin m → ℝ} (h : Rollout P.toProb xs us) :
    ∀ t ≤ P.T, traj P us t = xs t := by
  intro t ht
  induction t with
  | zero => exact h.1.symm
  | succ t ih => rw [traj, ih (by omega)]; exact (h.2 t ht).symm

theorem rollout_total {xs : Nat → Fin n → ℝ} {us : Nat → Fin m → ℝ} (h : Rollout P.toProb xs us) :
    totalCost P.toProb xs us = total P us := by
  unfold totalCost total
  show (∑ t ∈ Finset.range P.T, P.cost t (xs t) (us t)) + P.costT (xs P.T) = _
  rw [rollout_traj h P.T le_rfl]
  congr 1
  refine Finset.sum_congr rfl fun t ht => ?_
  rw [rollout_traj h t (Finset.mem_range.mp ht).le]

theorem Exact.of_rollout {xs : Nat → Fin n → ℝ} {us : Nat → Fin m → ℝ} {L : Lin ℝ n m}
    (h : Exact P xs us L) (hr : Rollout P.toProb xs us) : Exact P (traj P us) us L := by
  refine ⟨fun t ht => ?_, fun t ht => ?_, ?_⟩
  · rw [rollout_traj hr t ht.le]; exact h.dyn t ht
  · rw [rollout_traj hr t ht.le]; exact h.cost t ht
  · rw [rollout_traj hr P.T le_rfl]; exact h.term

theorem autonomousOk (hm : 0 < m) : AutonomousOk P.toProb := by
  intro t _ h0
  have : decide (m = 0) = true := h0
  simp at this
  omega

/-- What holds at the start of an iteration. -/
structure Valid (P : NlProb n m) (lin : (Nat → Fin n → ℝ) → (Nat → Fin m → ℝ) → Lin ℝ n m) (kind : Kind)
    (s : NlSt n m) : Prop where
  inv : Inv P.toProb kind s
  ro : s.feas = true → Rollout P.toProb s.xs s.us
  box : kind = .boxDdp → s.feas = true
  fresh : s.recalc = false → s.lin = lin s.xs s.us ∧ ∀ t ≤ P.T, s.fs t = gapsOf P s.xs s.us t

/-- What holds once a direction was computed. -/
structure Directed (P : NlProb n m) (lin : (Nat → Fin n → ℝ) → (Nat → Fin m → ℝ) → Lin ℝ n m)
    (llt : ∀ m, Matrix (Fin m) (Fin m) ℝ → Bool) (s s1 : NlSt n m) : Prop where
  keeps : DirKeeps s s1
  cost : CostOk P.toProb s1
  lin_eq : s1.lin = lin s.xs s.us
  fs : ∀ t ≤ P.T, s1.fs t = gapsOf P s.xs s.us t
  k : s1.k = fun t => (s1.dir.out t).k
  gain : s1.gain = fun t dx => (s1.dir.out t).Kfb *ᵥ dx
  back : ∃ p, Back llt (some p) s.feas P.T (lin s.xs s.us).d (lin s.xs s.us).LxT (lin s.xs s.us).LxxT
    s1.fs s1.dir

theorem calcDiff_fresh {s : NlSt n m} (h : s.iter = 0 ∨ Matches P.toProb s) :
    (calcDiff P.toProb (oracle P lin llt kind) s).lin = lin s.xs s.us ∧
    (∀ t ≤ P.T, (calcDiff P.toProb (oracle P lin llt kind) s).fs t = gapsOf P s.xs s.us t) := by
  unfold calcDiff
  by_cases h0 : s.iter = 0
  · refine ⟨by simp [h0, problemCalc, oracle], fun t ht => ?_⟩
    simp only [h0, if_true, problemCalc]
    cases t <;> rfl
  · refine ⟨by simp [h0, oracle], fun t ht => ?_⟩
    simp only [h0, if_false]
    cases t with
    | zero => rfl
    | succ t => simp only [(h.resolve_left h0).1 t ht]; rfl

theorem dirLoop_directed {c : Cfg ℝ} (fuel : Nat) {s s1 : NlSt n m} (hpre : DirPre P.toProb s)
    (hfr : s.recalc = false → s.lin = lin s.xs s.us ∧ ∀ t ≤ P.T, s.fs t = gapsOf P s.xs s.us t)
    (hd : dirLoop P.toProb c (oracle P lin llt kind) fuel s = some (true, s1)) :
    Directed P lin llt s s1 := by
  induction fuel generalizing s with
  | zero => simp [dirLoop] at hd
  | succ fuel ih =>
    obtain ⟨hk, hc, -⟩ := computeDirection_spec (O := oracle P lin llt kind) hpre
    -- the state on which the backward pass runs
    obtain ⟨sb, hsb, e1, e2, e3, e4, e5⟩ : ∃ sb : NlSt n m,
        sb = (if s.recalc then calcDiff P.toProb (oracle P lin llt kind) s else s) ∧
        sb.lin = lin s.xs s.us ∧ (∀ t ≤ P.T, sb.fs t = gapsOf P s.xs s.us t) ∧ sb.feas = s.feas ∧
        sb.xs = s.xs ∧ sb.us = s.us := by
      refine ⟨_, rfl, ?_⟩
      unfold DirPre at hpre
      cases hr : s.recalc
      · simp only [Bool.false_eq_true, if_false]
        exact ⟨(hfr hr).1, (hfr hr).2, by trivial, by trivial, by trivial⟩
      · rw [hr] at hpre
        simp only [if_true] at hpre ⊢
        obtain ⟨a1, a2⟩ := calcDiff_fresh (lin := lin) (llt := llt) (kind := kind) hpre
        refine ⟨a1, a2, ?_⟩
        unfold calcDiff
        by_cases h0 : s.iter = 0 <;> simp [h0, problemCalc]
    have hcd : computeDirection P.toProb (oracle P lin llt kind) s =
        (((oracle P lin llt kind).backward sb).1,
          { sb with k := ((oracle P lin llt kind).backward sb).2.1
                    gain := ((oracle P lin llt kind).backward sb).2.2.1
                    dir := ((oracle P lin llt kind).backward sb).2.2.2 }) := by
      rw [hsb]; rfl
    rw [hcd] at hk hc
    simp only [dirLoop, hcd] at hd
    have hor : (oracle P lin llt kind).backward sb =
        match backwardPass llt (some sb.preg) sb.feas P.T sb.lin.d sb.lin.LxT sb.lin.LxxT sb.fs sb.dir with
        | some g => (true, fun t => (g.out t).k, fun t dx => (g.out t).Kfb *ᵥ dx, g)
        | none => (false, sb.k, sb.gain, sb.dir) := rfl
    cases hbp : backwardPass llt (some sb.preg) sb.feas P.T sb.lin.d sb.lin.LxT sb.lin.LxxT sb.fs sb.dir with
    | some g =>
      rw [hbp] at hor
      simp only at hor
      rw [hor] at hd hk hc
      simp only [if_true, Option.some.injEq, Prod.mk.injEq, true_and] at hd
      subst hd
      refine ⟨hk, hc, e1, e2, rfl, rfl, sb.preg, ?_⟩
      have := backwardPass_spec hbp
      rw [e1, e3] at this
      exact this
    | none =>
      rw [hbp] at hor
      simp only at hor
      rw [hor] at hd hk hc
      simp only [Bool.false_eq_true, if_false] at hd
      split at hd
      · simp at hd
      · have ih' := ih (s := increaseReg c { sb with k := sb.k, gain := sb.gain, dir := sb.dir, recalc := false })
          (by
            unfold DirPre
            simp only [increaseReg, Bool.false_eq_true, if_false]
            exact hc)
          (fun _ => by
            show sb.lin = lin sb.xs sb.us ∧ ∀ t ≤ P.T, sb.fs t = gapsOf P sb.xs sb.us t
            rw [e4, e5]; exact ⟨e1, e2⟩) hd
        have x1 : (increaseReg c { sb with k := sb.k, gain := sb.gain, dir := sb.dir, recalc := false }).xs = s.xs := e4
        have x2 : (increaseReg c { sb with k := sb.k, gain := sb.gain, dir := sb.dir, recalc := false }).us = s.us := e5
        have x3 : (increaseReg c { sb with k := sb.k, gain := sb.gain, dir := sb.dir, recalc := false }).feas = s.feas := e3
        have hk' : DirKeeps s (increaseReg c { sb with k := sb.k, gain := sb.gain, dir := sb.dir, recalc := false }) :=
          ⟨hk.xs, hk.us, hk.feas, hk.wasFeas, hk.iter, hk.xsTry⟩
        obtain ⟨b1, b2, b3, b4, b5, b6, b7⟩ := ih'
        rw [x1, x2] at b3 b4 b7
        rw [x3] at b7
        exact ⟨hk'.trans b1, b2, b3, b4, b5, b6, b7⟩

theorem Valid.directed {c : Cfg ℝ} {fuel : Nat} {s s1 : NlSt n m} (h : Valid P lin kind s)
    (hd : dirLoop P.toProb c (oracle P lin llt kind) fuel s = some (true, s1)) :
    Directed P lin llt s s1 := dirLoop_directed fuel h.inv.pre h.fresh hd

theorem valid_start {c : Cfg ℝ} {xs : Nat → Fin n → ℝ} {us : Nat → Fin m → ℝ} {feas : Bool}
    (hf : feas = true → Rollout P.toProb xs us) (hk : kind = .boxDdp → feas = true) (reg : Option ℝ)
    (s : NlSt n m) : Valid P lin kind (start P.toProb c xs us feas reg s) :=
  ⟨start_inv _ _ _ _ _, hf, hk, fun h => by simp [start] at h⟩

theorem Valid.next {c : Cfg ℝ} {fuel : Nat} {s s' : NlSt n m} (hm : 0 < m) (h : Valid P lin kind s)
    {b : Bool} (hi : iteration P.toProb c (oracle P lin llt kind) kind fuel s = some (.continue, b, s')) :
    Valid P lin kind { s' with iter := s'.iter + 1 } := by
  have hA := autonomousOk (P := P) hm
  obtain ⟨-, -, -, hpost, -⟩ := iteration_post hA fuel h.inv hi
  have hpost := (hpost (by simp)).1
  rcases iteration_cases fuel s hi with ⟨he, -⟩ | ⟨s1, hd, hs2, -, -⟩
  · cases he
  have hD := h.directed hd
  obtain ⟨e1, e2, e3, -, -, e6, -⟩ := hs2
  obtain ⟨p1, p2, p3, -, p5, -, -, p8⟩ := prepare_keeps (O := oracle P lin llt kind) (kind := kind) s1
  have plin : (prepare (oracle P lin llt kind) kind s1).lin = s1.lin := by
    unfold prepare; cases kind.feasibilityDriven <;> simp
  have prec : (prepare (oracle P lin llt kind) kind s1).recalc = false := by
    unfold prepare; cases kind.feasibilityDriven <;> simp
  have hrel := iteration_rel hA fuel h.inv hi
  refine ⟨hpost.inv _, ?_, fun hk => hrel.mono (h.box hk), ?_⟩
  · show s'.feas = true → Rollout P.toProb s'.xs s'.us
    rw [e1, e2, e3]
    rcases lineSearch_spec (P := P.toProb) (c := c) (O := oracle P lin llt kind) (kind := kind) c.alphas
      (prepare (oracle P lin llt kind) kind s1) with hl | ⟨a, ha, sT, h1, h2, h3⟩
    · rw [hl.feas, hl.xs, hl.us, p1, p2, p3, hD.keeps.feas, hD.keeps.xs, hD.keeps.us]
      exact h.ro
    · rw [h3]
      have hcore := h1.core
      rw [first_eq (by intro e; rw [p5, hD.keeps.xsTry]; exact h.inv.zero e), p3, hD.keeps.feas] at hcore
      intro hfe
      refine hcore.rollout hA ?_
      have hfe' : (if kind.feasibilityDriven then sT.feas || decide (sT.steplength = 1) else true) = true := hfe
      rw [h1.keeps.feas, p3, hD.keeps.feas, h1.steplength] at hfe'
      cases hkk : kind with
      | ddp => exact .inl rfl
      | boxDdp => exact .inr (.inl (h.box hkk))
      | fddp | boxFddp =>
        rw [hkk] at hfe'
        simp [Kind.feasibilityDriven] at hfe'
        exact .inr hfe'
  · show s'.recalc = false → s'.lin = lin s'.xs s'.us ∧ ∀ t ≤ P.T, s'.fs t = gapsOf P s'.xs s'.us t
    intro hr
    rw [e6] at hr
    have hsl : s'.lin = (lineSearch P.toProb c (oracle P lin llt kind) kind c.alphas
        (prepare (oracle P lin llt kind) kind s1)).lin ∧
        s'.fs = (lineSearch P.toProb c (oracle P lin llt kind) kind c.alphas
        (prepare (oracle P lin llt kind) kind s1)).fs := by
      unfold iteration at hi
      rw [hd] at hi
      simp only at hi
      generalize lineSearch P.toProb c (oracle P lin llt kind) kind c.alphas
        (prepare (oracle P lin llt kind) kind s1) = s2 at hi ⊢
      generalize h3 : (if s2.steplength > c.thStepdec then decreaseReg c s2 else s2) = s3 at hi
      have k3 : s3 = { s2 with preg := s3.preg, dreg := s3.dreg } := by
        rw [← h3]; split <;> rfl
      generalize h4 : (if decide (s3.steplength ≤ c.thStepinc) = true then increaseReg c s3 else s3) = s4 at hi
      have k4 : s4 = { s2 with preg := s4.preg, dreg := s4.dreg } := by
        rw [← h4]; split
        · simp only [increaseReg]; rw [k3]
        · exact k3
      split at hi
      · simp at hi
      · split at hi
        · simp at hi
        · simp only [Option.some.injEq, Prod.mk.injEq, true_and] at hi
          rw [← hi.2]
          simp only [stopping]; rw [k4]; simp
    rcases lineSearch_spec (P := P.toProb) (c := c) (O := oracle P lin llt kind) (kind := kind) c.alphas
      (prepare (oracle P lin llt kind) kind s1) with hl | ⟨a, ha, sT, h1, h2, h3⟩
    · rcases lineSearch_lin (P := P.toProb) (c := c) (O := oracle P lin llt kind) (kind := kind) c.alphas
        (prepare (oracle P lin llt kind) kind s1) with hx | hx
      · rw [hx] at hr; cases hr
      · rw [hsl.1, hsl.2, hx, hl.fs, e1, e2, hl.xs, hl.us, p1, p2, p8, plin, hD.keeps.xs, hD.keeps.us]
        exact ⟨hD.lin_eq, hD.fs⟩
    · rw [h3] at hr; exact absurd hr (by simp [accept])

theorem valid_reached {c : Cfg ℝ} {fuel : Nat} (hm : 0 < m) {s0 s : NlSt n m} (h0 : Valid P lin kind s0)
    (hr : Reached P.toProb c (oracle P lin llt kind) kind fuel s0 s) : Valid P lin kind s := by
  induction hr with
  | init => exact h0
  | next _ hi ih => exact ih.next hm hi

theorem Back.congr_gap {T : Nat} {L : Lin ℝ n m} {preg : Option ℝ} {feas : Bool}
    {f f' : Nat → Fin n → ℝ} {g : Arrays ℝ n (fun _ => m)}
    (h : Back llt preg feas T L.d L.LxT L.LxxT f g) (hf : ∀ t ≤ T, f t = f' t) :
    Back llt preg feas T L.d L.LxT L.LxxT f' g :=
  ⟨by rw [← hf T le_rfl]; exact h.term, fun t ht => by rw [← hf t ht.le]; exact h.node t ht, h.val⟩

/-- The trial of a step, as the curve of `Lemmas/NlCalc`. -/
theorem poly_of_core (hm : 0 < m) {a : ℝ} {feas : Bool} {xs xsTry : Nat → Fin n → ℝ}
    {us usTry k : Nat → Fin m → ℝ} {gain : Nat → (Fin n → ℝ) → Fin m → ℝ} {fs f : Nat → Fin n → ℝ}
    {datas : Nat → (Fin n → ℝ) × ℝ} {tdata costTry : ℝ} {g : Arrays ℝ n (fun _ => m)}
    (hk : k = fun t => (g.out t).k) (hg : gain = fun t dx => (g.out t).Kfb *ᵥ dx)
    (hf : (feas = true ∧ ∀ t ≤ P.T, f t = 0) ∨
      (kind.feasibilityDriven = true ∧ feas = false ∧ a ≠ 1 ∧ ∀ t ≤ P.T, f t = fs t))
    (h : Core P.toProb kind a feas P.x0 xs us k gain fs xsTry usTry datas tdata costTry) :
    (∀ t ≤ P.T, xsTry t = polyX P xs us g f a t) ∧ (∀ t < P.T, usTry t = polyU P xs us g f a t) ∧
      costTry = polyCost P xs us g f a := by
  have hA := autonomousOk (P := P) hm
  have hn : ∀ t, (P.toProb.node t).nuZero = false := fun t => by
    show decide (m = 0) = false
    simp; omega
  have hu : ∀ t < P.T, usTry t = us t - a • (g.out t).k - (g.out t).Kfb *ᵥ (xsTry t - xs t) := by
    intro t ht
    rw [h.nodes.control t ht (hn t), hk, hg]
    cases kind <;> rfl
  obtain ⟨hdat, htot⟩ := h.total hA
  have hst : ∀ t ≤ P.T, xsTry t = pred P.x0 datas t + (a - 1) • f t := by
    intro t ht
    rcases hf with ⟨hfe, h0⟩ | ⟨hkf, hfe, ha, hfs⟩
    · rw [h0 t ht, smul_zero, add_zero]
      rcases Nat.lt_or_eq_of_le ht with ht | rfl
      · have := h.nodes.state t ht
        simpa [hfe] using this
      · have := h.last
        simpa [hfe, NlProb.toProb] using this
    · rw [hfs t ht]
      rcases Nat.lt_or_eq_of_le ht with ht | rfl
      · have := h.nodes.state t ht
        simp only [hkf, hfe, ha, Bool.true_and, Bool.not_false, ne_eq, not_false_eq_true, decide_true,
          if_true] at this
        exact this
      · have := h.last
        have hkd : kind ≠ .ddp := by rintro rfl; simp [Kind.feasibilityDriven] at hkf
        simp only [hkd, hfe, ha, Bool.true_and, Bool.not_false, ne_eq, not_false_eq_true, decide_true,
          if_true] at this
        exact this
  have hx : ∀ t ≤ P.T, xsTry t = polyX P xs us g f a t := by
    intro t ht
    induction t with
    | zero => rw [hst 0 ht]; rfl
    | succ t ih =>
      rw [hst _ ht, polyX, ← ih (by omega), ← hu t ht]
      show (datas t).1 + _ = _
      rw [hdat t ht]; rfl
  have hu' : ∀ t < P.T, usTry t = polyU P xs us g f a t := fun t ht => by
    rw [hu t ht, polyU, hx t ht.le]
  refine ⟨hx, hu', ?_⟩
  rw [htot]
  show (∑ t ∈ Finset.range P.T, P.cost t (xsTry t) (usTry t)) + P.costT (xsTry P.T) = _
  rw [polyCost, hx P.T le_rfl]
  congr 1
  refine Finset.sum_congr rfl fun t ht => ?_
  rw [hx t (Finset.mem_range.mp ht).le, hu' t (Finset.mem_range.mp ht)]

/-- What the line search reads. -/
structure Ready (P : NlProb n m) (kind : Kind) (s s2 : NlSt n m) (g : Arrays ℝ n (fun _ => m))
    (fs : Nat → Fin n → ℝ) : Prop where
  xs : s2.xs = s.xs
  us : s2.us = s.us
  feas : s2.feas = s.feas
  cost : s2.cost = totalCost P.toProb s.xs s.us
  k : s2.k = fun t => (g.out t).k
  gain : s2.gain = fun t dx => (g.out t).Kfb *ᵥ dx
  fs : s2.fs = fs
  dir : s2.dir = g
  zero : kind = .ddp → s2.xsTry 0 = P.x0
  d : kind.feasibilityDriven = false → s2.d0 = (expectedImprovement P.T g).1 ∧
    s2.d1 = (expectedImprovement P.T g).2

theorem Directed.ready {s s1 : NlSt n m} (hD : Directed P lin llt s s1)
    (hz : kind = .ddp → s.xsTry 0 = P.x0) :
    Ready P kind s (prepare (oracle P lin llt kind) kind s1) s1.dir s1.fs := by
  obtain ⟨p1, p2, p3, p4, p5, -, -, p8⟩ := prepare_keeps (O := oracle P lin llt kind) (kind := kind) s1
  refine ⟨p1.trans hD.keeps.xs, p2.trans hD.keeps.us, p3.trans hD.keeps.feas, ?_, ?_, ?_, p8, ?_, ?_, ?_⟩
  · rw [p4, hD.cost, hD.keeps.xs, hD.keeps.us]
  · rw [← hD.k]; unfold prepare; cases kind.feasibilityDriven <;> simp
  · rw [← hD.gain]; unfold prepare; cases kind.feasibilityDriven <;> simp
  · unfold prepare; cases kind.feasibilityDriven <;> simp [oracle]
  · intro e; rw [p5, hD.keeps.xsTry]; exact hz e
  · intro e; simp [prepare, e, oracle]

theorem Ready.probe {s s2 : NlSt n m} {g : Arrays ℝ n (fun _ => m)} {fs : Nat → Fin n → ℝ}
    (h : Ready P kind s s2 g fs) (a : ℝ) :
    Ready P kind s (probe P.toProb (oracle P lin llt kind) kind a s2).2 g fs := by
  have hk := probe_spec (P := P.toProb) (O := oracle P lin llt kind) (kind := kind) a s2
  have hd := (probe_dir (P := P.toProb) (O := oracle P lin llt kind) (kind := kind) a s2).1
  rcases hp : Solve.probe P.toProb (oracle P lin llt kind) kind a s2 with ⟨o, s'⟩
  rw [hp] at hk hd
  have hk' : Keeps kind s2 s' := by
    cases o with
    | none => exact hk
    | some u => exact hk.keeps
  refine ⟨hk'.xs.trans h.xs, hk'.us.trans h.us, hk'.feas.trans h.feas, hk'.cost.trans h.cost, hk'.k.trans h.k,
    hk'.gain.trans h.gain, hk'.fs.trans h.fs, hd.trans h.dir, fun e => (hk'.zero e).trans (h.zero e),
    fun e => ?_⟩
  rw [(hk'.grad e).1, (hk'.grad e).2]; exact h.d e

/-- Evaluation of a step length from a ready state. -/
theorem Ready.trial (hm : 0 < m) {s s2 : NlSt n m} {g : Arrays ℝ n (fun _ => m)} {fs f : Nat → Fin n → ℝ}
    (h : Ready P kind s s2 g fs) {a : ℝ} (ha : 0 ≤ a) (ha1 : a ≤ 1)
    (hf : (s.feas = true ∧ ∀ t ≤ P.T, f t = 0) ∨
      (kind.feasibilityDriven = true ∧ s.feas = false ∧ a ≠ 1 ∧ ∀ t ≤ P.T, f t = fs t)) :
    ∃ sT, Solve.probe P.toProb (oracle P lin llt kind) kind a s2 = (some (), sT) ∧ sT.feas = s.feas ∧
      sT.dV = totalCost P.toProb s.xs s.us - polyCost P s.xs s.us g f a ∧
      sT.dVexp = a * (sT.d0 + (1 / 2) * a * sT.d1) ∧
      (∀ t ≤ P.T, sT.xsTry t = polyX P s.xs s.us g f a t) ∧
      (sT.d0, sT.d1) = if kind.feasibilityDriven then
        expectedImprovementFddp P.T s.feas fs (fun t => s.xs t - sT.xsTry t) g
        else expectedImprovement P.T g := by
  obtain ⟨s3, ht, hp⟩ := probe_full (P := P.toProb) (O := oracle P lin llt kind) (kind := kind)
    (fun _ => rfl) (fun _ => rfl) a ha ha1 s2
  have hfr := ht.frame
  have hcore : Core P.toProb kind a s.feas P.x0 s.xs s.us (fun t => (g.out t).k)
      (fun t dx => (g.out t).Kfb *ᵥ dx) fs s3.xsTry s3.usTry s3.datas s3.tdata s3.costTry := by
    have hc : Core P.toProb kind a s2.feas (first P.toProb kind s2) s2.xs s2.us s2.k s2.gain s2.fs
      s3.xsTry s3.usTry s3.datas s3.tdata s3.costTry := ht.core
    rw [first_eq h.zero, h.feas, h.xs, h.us, h.k, h.gain, h.fs] at hc
    exact hc
  obtain ⟨hx, -, hcost⟩ := poly_of_core hm rfl rfl hf hcore
  unfold Frame at hfr
  have f1 : s3.feas = s.feas := by rw [hfr]; exact h.feas
  have f2 : s3.cost = totalCost P.toProb s.xs s.us := by rw [hfr]; exact h.cost
  have f3 : s3.dir = g := by rw [hfr]; exact h.dir
  have f4 : s3.fs = fs := by rw [hfr]; exact h.fs
  have f5 : s3.xs = s.xs := by rw [hfr]; exact h.xs
  have f6 : kind.feasibilityDriven = false → s3.d0 = (expectedImprovement P.T g).1 ∧
    s3.d1 = (expectedImprovement P.T g).2 := by rw [hfr]; exact h.d
  refine ⟨_, hp, ?_, ?_, ?_, ?_, ?_⟩
  · rw [← f1]; unfold probedState; simp only; cases kind.feasibilityDriven <;> rfl
  · rw [← f2, ← hcost]; unfold probedState; simp only; cases kind.feasibilityDriven <;> rfl
  · unfold probedState; rfl
  · intro t ht; rw [← hx t ht]
    unfold probedState; simp only; cases kind.feasibilityDriven <;> rfl
  · unfold probedState
    simp only
    cases hkf : kind.feasibilityDriven
    · simp only [Bool.false_eq_true, if_false]
      rw [(f6 hkf).1, (f6 hkf).2]
    · simp only [if_true, oracle, hkf, f1, f3, f4, f5]

theorem expectedImprovementFddp_feas {T : Nat} (f dx : Nat → Fin n → ℝ) (g : Arrays ℝ n (fun _ => m)) :
    expectedImprovementFddp T true f dx g = expectedImprovement T g := by
  simp [expectedImprovementFddp, updateExpectedImprovement, expectedImprovement]

end Nl
end Verif
