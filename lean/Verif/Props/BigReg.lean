import Verif.Lemmas.BigReg
import Verif.Lemmas.Success
import Verif.Props.Ends

set_option linter.unusedSectionVars false

/-!
# Raising the regularisation works (C144)

At a feasible candidate that is not stationary, every regularisation that is large enough makes the backward pass succeed
and the full step pass the acceptance test. So with `reg_max` large enough an iteration from that candidate never gives up.
-/

namespace Verif.Nl
open Verif Verif.Solve Verif.Solver Verif.Lq Verif.Deriv Matrix

variable {n m : Nat} {P : NlProb n m} {kind : Kind} {c : Cfg ℝ} {fuel : Nat} {s s1 s' : NlSt n m}
variable {lin : (Nat → Fin n → ℝ) → (Nat → Fin m → ℝ) → Lin ℝ n m}
variable {llt : ∀ m, Matrix (Fin m) (Fin m) ℝ → Bool}

/-- The regularisations for which the backward pass succeeds at `xs, us` and the full step is good enough. -/
def Enough (P : NlProb n m) (llt : ∀ m, Matrix (Fin m) (Fin m) ℝ → Bool) (L : Lin ℝ n m) (xs : Nat → Fin n → ℝ)
    (us : Nat → Fin m → ℝ) (th R : ℝ) : Prop :=
  ∀ p ≥ R, (∃ g, Back llt (some p) true P.T L.d L.LxT L.LxxT (fun _ => 0) g) ∧
    ∀ f g, Back llt (some p) true P.T L.d L.LxT L.LxxT f g →
      th * ((1 / 2) * ∑ t ∈ Finset.range P.T, (g.out t).Q.Qu ⬝ᵥ (g.out t).k) <
        totalCost P.toProb xs us - polyCost P xs us g (fun _ => 0) 1 ∧
      0 < ∑ t ∈ Finset.range P.T, (g.out t).Q.Qu ⬝ᵥ (g.out t).k

theorem computeDirection_ok (hpre : DirPre P.toProb s)
    (hfr : s.recalc = false → s.lin = lin s.xs s.us ∧ ∀ t ≤ P.T, s.fs t = gapsOf P s.xs s.us t) (hfe : s.feas = true)
    (hb : ∃ g, Back llt (some s.preg) true P.T (lin s.xs s.us).d (lin s.xs s.us).LxT (lin s.xs s.us).LxxT (fun _ => 0) g) :
    (computeDirection P.toProb (oracle P lin llt kind) s).1 = true := by
  obtain ⟨g, hg⟩ := hb
  obtain ⟨sb, hsb, e1, e2, e3⟩ : ∃ sb : NlSt n m,
      sb = (if s.recalc then calcDiff P.toProb (oracle P lin llt kind) s else s) ∧
      sb.lin = lin s.xs s.us ∧ sb.feas = true ∧ sb.preg = s.preg := by
    refine ⟨_, rfl, ?_⟩
    unfold DirPre at hpre
    rcases Bool.eq_false_or_eq_true s.recalc with hr | hr
    · rw [hr] at hpre ⊢
      simp only [if_true] at hpre ⊢
      refine ⟨(calcDiff_fresh (lin := lin) (llt := llt) (kind := kind) hpre).1, ?_, ?_⟩
      · rw [← hfe]; unfold calcDiff; by_cases h0 : s.iter = 0 <;> simp [h0, problemCalc]
      · unfold calcDiff; by_cases h0 : s.iter = 0 <;> simp [h0, problemCalc]
    · rw [hr]
      simp only [Bool.false_eq_true, if_false]
      exact ⟨(hfr hr).1, hfe, trivial⟩
  have hcd : (computeDirection P.toProb (oracle P lin llt kind) s).1 = ((oracle P lin llt kind).backward sb).1 := by
    rw [hsb]; rfl
  obtain ⟨g', hg'⟩ := Back.succeeds (f' := sb.fs) hg sb.dir
  have hor : (oracle P lin llt kind).backward sb =
      match backwardPass llt (some sb.preg) sb.feas P.T sb.lin.d sb.lin.LxT sb.lin.LxxT sb.fs sb.dir with
      | some g => (true, fun t => (g.out t).k, fun t dx => (g.out t).Kfb *ᵥ dx, g)
      | none => (false, sb.k, sb.gain, sb.dir) := rfl
  rw [hcd, hor, e1, e2, e3, hg']

/-- With enough regularisation the full step passes the acceptance test and decreases the cost. -/
theorem full_step (hm : 0 < m) (hv : Valid P lin kind s) (hfe : s.feas = true) (hl : LltSound llt)
    (hH : SymmHess P.T (lin s.xs s.us)) {th R : ℝ} (hR : Enough P llt (lin s.xs s.us) s.xs s.us th R) (hth : c.thAcceptstep ≤ th)
    (hd : dirLoop P.toProb c (oracle P lin llt kind) fuel s = some (true, s1)) (hp : R ≤ s1.preg) :
    ∃ sT, probe P.toProb (oracle P lin llt kind) kind 1 (prepare (oracle P lin llt kind) kind s1) = (some (), sT) ∧
      accepts c kind sT = true ∧ Rollout P.toProb sT.xsTry sT.usTry ∧ sT.dV = total P s.us - total P sT.usTry ∧
      0 < sT.dVexp ∧ th * sT.dVexp < sT.dV ∧ sT.feas = true ∧ sT.preg = s1.preg := by
  have hD := hv.directed hd
  have hRd := hD.ready (kind := kind) hv.inv.zero
  have hro := hv.ro hfe
  have hA := autonomousOk (P := P) hm
  have hb := dirLoop_back fuel hd
  rw [hD.keeps.feas, hfe, hD.lin_eq] at hb
  obtain ⟨hdec, hpos⟩ := (hR _ hp).2 _ _ hb
  obtain ⟨-, hd1, -⟩ := hD.d1 hl hH
  have hd0 : (expectedImprovement P.T s1.dir).1 = ∑ t ∈ Finset.range P.T, (s1.dir.out t).Q.Qu ⬝ᵥ (s1.dir.out t).k := by
    simp only [expectedImprovement, sumTo_eq]
  obtain ⟨sT, hpT, hfT, hdV, hx, -, hdd⟩ := hRd.trial (lin := lin) (llt := llt) hm (f := fun _ => 0) (a := 1) zero_le_one le_rfl
    (.inl ⟨hfe, fun _ _ => rfl⟩)
  rw [hfe, expectedImprovementFddp_feas, ite_self] at hdd
  have e0 : sT.d0 = (expectedImprovement P.T s1.dir).1 := congrArg Prod.fst hdd
  have e1 : sT.d1 = (expectedImprovement P.T s1.dir).2 := congrArg Prod.snd hdd
  rw [← hd0] at hdec hpos
  have hx' : sT.dVexp = (1 / 2) * (expectedImprovement P.T s1.dir).1 := by
    rw [hx, e0, e1, hd1]; ring
  have hx0 : 0 < sT.dVexp := by rw [hx']; linarith
  have hgt : th * sT.dVexp < sT.dV := by rw [hdV, hx']; exact hdec
  have hgt' : sT.dV > c.thAcceptstep * sT.dVexp := lt_of_le_of_lt (mul_le_mul_of_nonneg_right hth hx0.le) hgt
  have hpr := probe_spec (P := P.toProb) (O := oracle P lin llt kind) (kind := kind) 1
    (prepare (oracle P lin llt kind) kind s1)
  rw [hpT] at hpr
  have hcore := hpr.core
  rw [first_eq hRd.zero, hRd.feas, hfe] at hcore
  have hroT := hcore.rollout hA (.inr (.inl rfl))
  have htot := (hcore.total hA).2
  rw [rollout_total hroT] at htot
  have hdV' := hpr.dV
  rw [hRd.cost, rollout_total hro, htot] at hdV'
  have hk := prepare_keeps (O := oracle P lin llt kind) (kind := kind) s1
  refine ⟨sT, hpT, ?_, hroT, hdV', hx0, hgt, hfT.trans hfe, hpr.keeps.preg.trans hk.2.2.2.2.2.2.1⟩
  unfold accepts
  cases kind.feasibilityDriven <;> simp [hx0.le, hgt']

/-- The retry loop ends with a direction when `reg_max` leaves room. -/
theorem dirLoop_never {R : ℝ} (hinc : 0 < c.reg.inc) (hmax : R * c.reg.inc ≤ c.reg.max) (fuel : Nat) {s s1 : NlSt n m} {b : Bool}
    (hR : ∀ p ≥ R, ∃ g, Back llt (some p) true P.T (lin s.xs s.us).d (lin s.xs s.us).LxT (lin s.xs s.us).LxxT (fun _ => 0) g)
    (hpre : DirPre P.toProb s)
    (hfr : s.recalc = false → s.lin = lin s.xs s.us ∧ ∀ t ≤ P.T, s.fs t = gapsOf P s.xs s.us t) (hfe : s.feas = true)
    (hd : dirLoop P.toProb c (oracle P lin llt kind) fuel s = some (b, s1)) : b = true := by
  induction fuel generalizing s with
  | zero => simp [dirLoop] at hd
  | succ fuel ih =>
    simp only [dirLoop] at hd
    split at hd
    · simp only [Option.some.injEq, Prod.mk.injEq] at hd
      exact hd.1.symm
    · rename_i hno
      have hlt : s.preg < R := by
        by_contra hge
        exact hno (computeDirection_ok hpre hfr hfe (hR _ (not_lt.mp hge)))
      obtain ⟨hk, hcst, -⟩ := computeDirection_spec (O := oracle P lin llt kind) hpre
      have hpr : (computeDirection P.toProb (oracle P lin llt kind) s).2.preg = s.preg := computeDirection_preg s
      have hfresh : (computeDirection P.toProb (oracle P lin llt kind) s).2.lin = lin s.xs s.us ∧
          ∀ t ≤ P.T, (computeDirection P.toProb (oracle P lin llt kind) s).2.fs t = gapsOf P s.xs s.us t := by
        unfold computeDirection
        unfold DirPre at hpre
        rcases Bool.eq_false_or_eq_true s.recalc with hr | hr
        · rw [hr] at hpre ⊢
          simp only [if_true] at hpre ⊢
          exact calcDiff_fresh (lin := lin) (llt := llt) (kind := kind) hpre
        · rw [hr]
          simp only [Bool.false_eq_true, if_false]
          exact hfr hr
      have hmul : s.preg * c.reg.inc < c.reg.max := (mul_lt_mul_of_pos_right hlt hinc).trans_le hmax
      have hin : increase c.reg s.preg = s.preg * c.reg.inc := by
        simp only [increase]; rw [if_neg (not_lt.mpr hmul.le)]
      generalize computeDirection P.toProb (oracle P lin llt kind) s = r at *
      split at hd
      · rename_i he
        exfalso
        have : (increaseReg c { r.2 with recalc := false }).preg = increase c.reg s.preg := by
          simp only [increaseReg, hpr]
        rw [this, hin] at he
        exact hmul.ne he
      · have x1 : (increaseReg c { r.2 with recalc := false }).xs = s.xs := hk.xs
        have x2 : (increaseReg c { r.2 with recalc := false }).us = s.us := hk.us
        have x3 : (increaseReg c { r.2 with recalc := false }).feas = s.feas := hk.feas
        refine ih (s := increaseReg c { r.2 with recalc := false }) (by rw [x1, x2]; exact hR) ?_ (fun _ => ?_) (x3.trans hfe) hd
        · unfold DirPre
          simp only [increaseReg, Bool.false_eq_true, if_false]
          exact hcst
        · rw [x1, x2]; exact hfresh

/-- What an iteration returns when the first step length is accepted. -/
theorem iteration_first {as : List ℝ} (has : c.alphas = 1 :: as) (hinc : c.thStepinc < 1) {sT : NlSt n m}
    (hd : dirLoop P.toProb c (oracle P lin llt kind) fuel s = some (true, s1))
    (hp : probe P.toProb (oracle P lin llt kind) kind 1 (prepare (oracle P lin llt kind) kind s1) = (some (), sT))
    (hac : accepts c kind sT = true) (hdec1 : 1 ≤ c.reg.dec) (hpos : 0 ≤ sT.preg) (hmin : c.reg.min ≤ sT.preg) :
    ∃ e s', iteration P.toProb c (oracle P lin llt kind) kind fuel s = some (e, true, s') ∧ e ≠ .giveUp ∧
      s'.steplength = 1 ∧ s'.preg ≤ sT.preg := by
  have hst := probe_steplength (P := P.toProb) (O := oracle P lin llt kind) (kind := kind) 1
    (prepare (oracle P lin llt kind) kind s1)
  rw [hp] at hst
  simp only at hst
  have hls := lineSearch_first (c := c) (as := as) hp hac
  have key : ∃ s3 : NlSt n m, s3 = (if (accept kind sT).steplength > c.thStepdec then decreaseReg c (accept kind sT)
      else accept kind sT) ∧ s3.steplength = 1 ∧ s3.preg ≤ sT.preg := by
    refine ⟨_, rfl, ?_⟩
    have h1 : (accept kind sT).steplength = 1 := hst
    split
    · refine ⟨h1, ?_⟩
      simp only [decreaseReg, decrease]
      show (if sT.preg / c.reg.dec < c.reg.min then c.reg.min else sT.preg / c.reg.dec) ≤ sT.preg
      split
      · exact hmin
      · exact div_le_self hpos hdec1
    · exact ⟨h1, le_rfl⟩
  obtain ⟨s3, h3, hs3, hp3⟩ := key
  have hup : decide (s3.steplength ≤ c.thStepinc) = false := by
    rw [hs3]; exact decide_eq_false (not_le.mpr hinc)
  simp only [iteration, hd, has, hls, ← h3, hup, Bool.false_and, Bool.false_eq_true, if_false]
  split
  · exact ⟨.converged, _, rfl, by simp, hs3, hp3⟩
  · exact ⟨.continue, _, rfl, by simp, hs3, hp3⟩

/-- C144. For every problem, every feasible candidate that is not stationary and every threshold `th < 2` there is a
regularisation `R` such that, whatever the Hessians (symmetric, not necessarily exact or positive): every iteration of each
of the four solvers from that candidate with a regularisation of at least `R` computes its direction at the first attempt,
accepts the full step (`th_acceptstep` being at most `th`), decreases the total cost by more than `th` times the expected
improvement, which is positive, does not give up and does not raise the regularisation. -/
theorem C144_full_step (hm : 0 < m) (xs : Nat → Fin n → ℝ) (us : Nat → Fin m → ℝ) (hro : Rollout P.toProb xs us)
    (hE : Exact P xs us (lin xs us)) (hH : SymmHess P.T (lin xs us)) (hl : LltSound llt) (hlc : LltComplete llt)
    (hns : ¬ Stationary P us) (th : ℝ) (hth0 : 0 ≤ th) (hth : th < 2) :
    ∃ R > 0, ∀ (c : Cfg ℝ) (as : List ℝ), c.alphas = 1 :: as → c.thAcceptstep ≤ th → c.thStepinc < 1 → 1 ≤ c.reg.dec →
      ∀ kind fuel s, AtIteration P.toProb c (oracle P lin llt kind) kind (fuel + 1) s → s.xs = xs → s.us = us → s.feas = true →
        R ≤ s.preg → c.reg.min ≤ s.preg →
        ∃ e s', iteration P.toProb c (oracle P lin llt kind) kind (fuel + 1) s = some (e, true, s') ∧ e ≠ .giveUp ∧
          s'.steplength = 1 ∧ s'.preg ≤ s.preg ∧ s'.feas = true ∧ Rollout P.toProb s'.xs s'.us ∧
          0 < s'.dVexp ∧ th * s'.dVexp < total P us - total P s'.us ∧ total P s'.us < total P us := by
  obtain ⟨R, hR0, hR⟩ := big_reg hE hro hl hlc hH hns hth
  refine ⟨R, hR0, fun c as has hacc hsi hdec kind fuel s hs hx hu hfe hp hmin => ?_⟩
  have hv := valid_of hm hs
  subst hx hu
  have hok := computeDirection_ok (kind := kind) hv.inv.pre hv.fresh hfe (hR _ hp).1
  have hd : dirLoop P.toProb c (oracle P lin llt kind) (fuel + 1) s =
      some (true, (computeDirection P.toProb (oracle P lin llt kind) s).2) := by
    simp only [dirLoop, hok, if_true]
  have hpr : (computeDirection P.toProb (oracle P lin llt kind) s).2.preg = s.preg := computeDirection_preg s
  obtain ⟨sT, h1, h2, h3, h4, h5, h6, h7, h8⟩ := full_step hm hv hfe hl hH hR hacc hd (by rw [hpr]; exact hp)
  rw [hpr] at h8
  obtain ⟨e, s', hi, he, hst, hpl⟩ := iteration_first has hsi hd h1 h2 hdec (by rw [h8]; linarith) (by rw [h8]; exact hmin)
  rcases iteration_cases (fuel + 1) s hi with ⟨he', -⟩ | ⟨s1', hd', hs2, -, -⟩
  · exact absurd he' he
  rw [hd] at hd'
  obtain rfl : _ = s1' := by simpa using hd'
  rw [has, lineSearch_first h1 h2] at hs2
  obtain ⟨a1, a2, a3, -, -, -, -, -, -, -, -, -, a13, a14, -⟩ := hs2
  have b1 : s'.xs = sT.xsTry := a1
  have b2 : s'.us = sT.usTry := a2
  have b3 : s'.dVexp = sT.dVexp := a14
  refine ⟨e, s', hi, he, hst, h8 ▸ hpl, ?_, by rw [b1, b2]; exact h3, by rw [b3]; exact h5,
    by rw [b2, b3, ← h4]; exact h6, ?_⟩
  · exact (iteration_rel (autonomousOk hm) (fuel + 1) hv.inv hi).mono hfe
  · have := mul_nonneg hth0 h5.le
    rw [b2]
    linarith

theorem lineSearch_preg (s1 : NlSt n m) (as : List ℝ) :
    (lineSearch P.toProb c (oracle P lin llt kind) kind as (prepare (oracle P lin llt kind) kind s1)).preg = s1.preg := by
  obtain ⟨-, -, -, -, -, -, p7, -⟩ := prepare_keeps (O := oracle P lin llt kind) (kind := kind) s1
  rcases lineSearch_spec (P := P.toProb) (c := c) (O := oracle P lin llt kind) (kind := kind) as
    (prepare (oracle P lin llt kind) kind s1) with hl | ⟨a, ha, sT, h1, h2, h3⟩
  · rw [hl.preg, p7]
  · rw [h3]; show sT.preg = _
    rw [h1.keeps.preg, p7]

/-- An iteration that computes a direction gives up only after a short step with a regularisation close to `reg_max`. -/
theorem not_giveUp (hsd : c.thStepinc ≤ c.thStepdec)
    (hdir : ∀ s1, dirLoop P.toProb c (oracle P lin llt kind) fuel s ≠ some (false, s1))
    (hroom : ∀ s1, dirLoop P.toProb c (oracle P lin llt kind) fuel s = some (true, s1) → s1.preg * c.reg.inc < c.reg.max ∨
      c.thStepinc < (lineSearch P.toProb c (oracle P lin llt kind) kind c.alphas
        (prepare (oracle P lin llt kind) kind s1)).steplength) {e : Exit} {b : Bool}
    (hi : iteration P.toProb c (oracle P lin llt kind) kind fuel s = some (e, b, s')) : e ≠ .giveUp := by
  rintro rfl
  unfold iteration at hi
  split at hi
  · cases hi
  · rename_i s1 hd
    exact hdir s1 hd
  · rename_i s1 hd
    have hpk := lineSearch_preg (P := P) (c := c) (kind := kind) (lin := lin) (llt := llt) s1 c.alphas
    have hroom := hroom s1 hd
    generalize lineSearch P.toProb c (oracle P lin llt kind) kind c.alphas (prepare (oracle P lin llt kind) kind s1) = s2 at hi hpk hroom
    simp only at hi
    by_cases hle : s2.steplength ≤ c.thStepinc
    · have hnd : ¬ s2.steplength > c.thStepdec := not_lt.mpr (hle.trans hsd)
      have hmul : s1.preg * c.reg.inc < c.reg.max := hroom.resolve_right (not_lt.mpr hle)
      have hne : (increaseReg c s2).preg ≠ c.reg.max := by
        simp only [increaseReg, increase, hpk]
        rw [if_neg (not_lt.mpr hmul.le)]
        exact hmul.ne
      simp only [hnd, if_false, hle, decide_true, if_true, hne, decide_false, Bool.and_false, Bool.false_eq_true] at hi
      split at hi <;> simp at hi
    · have hup : ∀ s3 : NlSt n m, s3.steplength = s2.steplength → decide (s3.steplength ≤ c.thStepinc) = false := fun s3 h => by
        rw [h]; exact decide_eq_false hle
      have h3 : (if s2.steplength > c.thStepdec then decreaseReg c s2 else s2).steplength = s2.steplength := by
        split <;> rfl
      generalize (if s2.steplength > c.thStepdec then decreaseReg c s2 else s2) = s3 at hi h3
      rw [hup _ h3] at hi
      simp only [Bool.false_and, Bool.false_eq_true, if_false] at hi
      split at hi <;> simp at hi

/-- The step length after a line search whose first step length is accepted. -/
theorem lineSearch_one {as : List ℝ} (has : c.alphas = 1 :: as) {sT : NlSt n m}
    (h1 : probe P.toProb (oracle P lin llt kind) kind 1 (prepare (oracle P lin llt kind) kind s1) = (some (), sT))
    (h2 : accepts c kind sT = true) :
    (lineSearch P.toProb c (oracle P lin llt kind) kind c.alphas (prepare (oracle P lin llt kind) kind s1)).steplength = 1 := by
  have hst := probe_steplength (P := P.toProb) (O := oracle P lin llt kind) (kind := kind) 1
    (prepare (oracle P lin llt kind) kind s1)
  rw [h1] at hst
  rw [has, lineSearch_first h1 h2]
  exact hst

theorem never_gives_up (hm : 0 < m) (hv : Valid P lin kind s) (hfe : s.feas = true) (hl : LltSound llt)
    (hH : SymmHess P.T (lin s.xs s.us)) {th R : ℝ} (hR : Enough P llt (lin s.xs s.us) s.xs s.us th R) (hacc : c.thAcceptstep ≤ th)
    {as : List ℝ} (has : c.alphas = 1 :: as) (hsi : c.thStepinc < 1) (hsd : c.thStepinc ≤ c.thStepdec) (hinc : 0 < c.reg.inc)
    (hmax : R * c.reg.inc ≤ c.reg.max) {e : Exit} {b : Bool}
    (hi : iteration P.toProb c (oracle P lin llt kind) kind fuel s = some (e, b, s')) : e ≠ .giveUp := by
  refine not_giveUp hsd (fun s1 hd => ?_) (fun s1 hd => ?_) hi
  · exact absurd (dirLoop_never hinc hmax fuel (fun p hp => (hR p hp).1) hv.inv.pre hv.fresh hfe hd) (by simp)
  · by_cases hp : R ≤ s1.preg
    · obtain ⟨sT, h1, h2, -⟩ := full_step hm hv hfe hl hH hR hacc hd hp
      rw [lineSearch_one has h1 h2]
      exact .inr hsi
    · exact .inl ((mul_lt_mul_of_pos_right (not_le.mp hp) hinc).trans_le hmax)

/-- C144. Hence, with `reg_max` large enough, no iteration from that candidate makes `solve` give up, whatever the
regularisation it starts with. -/
theorem C144_never_gives_up (hm : 0 < m) (xs : Nat → Fin n → ℝ) (us : Nat → Fin m → ℝ) (hro : Rollout P.toProb xs us)
    (hE : Exact P xs us (lin xs us)) (hH : SymmHess P.T (lin xs us)) (hl : LltSound llt) (hlc : LltComplete llt)
    (hns : ¬ Stationary P us) (th : ℝ) (hth : th < 2) :
    ∃ R > 0, ∀ (c : Cfg ℝ) (as : List ℝ), c.alphas = 1 :: as → c.thAcceptstep ≤ th → c.thStepinc < 1 →
      c.thStepinc ≤ c.thStepdec → 0 < c.reg.inc → R * c.reg.inc ≤ c.reg.max →
      ∀ kind fuel s, AtIteration P.toProb c (oracle P lin llt kind) kind fuel s → s.xs = xs → s.us = us → s.feas = true →
        ∀ e b s', iteration P.toProb c (oracle P lin llt kind) kind fuel s = some (e, b, s') → e ≠ .giveUp := by
  obtain ⟨R, hR0, hR⟩ := big_reg hE hro hl hlc hH hns hth
  refine ⟨R, hR0, fun c as has hacc hsi hsd hinc hmax kind fuel s hs hx hu hfe e b s' hi => ?_⟩
  subst hx hu
  exact never_gives_up hm (valid_of hm hs) hfe hl hH hR hacc has hsi hsd hinc hmax hi

/-- Without `th_grad`, an iteration from a feasible candidate keeps it or decreases its cost. -/
theorem iteration_strict (hm : 0 < m) (hv : Valid P lin kind s) (hfe : s.feas = true) (hgr : c.thGrad ≤ 0)
    (hth0 : 0 ≤ c.thAcceptstep) {e : Exit} {b : Bool}
    (hi : iteration P.toProb c (oracle P lin llt kind) kind fuel s = some (e, b, s')) :
    (s'.recalc = false ∧ s'.xs = s.xs ∧ s'.us = s.us ∧ s'.wasFeas = s.wasFeas) ∨ e = .giveUp ∧ s'.us = s.us ∨
      total P s'.us < total P s.us := by
  have hA := autonomousOk (P := P) hm
  have hro := hv.ro hfe
  rcases iteration_cases fuel s hi with ⟨he, -, hd⟩ | ⟨s1, hd, hs2, -, -⟩
  · exact .inr (.inl ⟨he, (dirLoop_spec fuel hv.inv.pre hd).1.us⟩)
  have hD := hv.directed hd
  have hR := hD.ready (kind := kind) hv.inv.zero
  have prec : (prepare (oracle P lin llt kind) kind s1).recalc = false := by
    unfold prepare; cases kind.feasibilityDriven <;> simp
  have pwas : (prepare (oracle P lin llt kind) kind s1).wasFeas = s1.wasFeas := by
    unfold prepare; cases kind.feasibilityDriven <;> simp
  obtain ⟨e1, e2, -, e4, -, e6, -⟩ := hs2
  rcases lineSearch_ready (c := c) (lin := lin) (llt := llt) c.alphas _ hR prec with
    ⟨h1, h2⟩ | ⟨s3, sT, a, ha, hR3, hp, hac, hls⟩
  · exact .inl ⟨e6.trans h1, by rw [e1, h2.xs, hR.xs], by rw [e2, h2.us, hR.us], by rw [e4, h2.wasFeas, pwas, hD.keeps.wasFeas]⟩
  · refine .inr (.inr ?_)
    rw [hls] at e2
    have hpr := probe_spec (P := P.toProb) (O := oracle P lin llt kind) (kind := kind) a s3
    rw [hp] at hpr
    have hcore := hpr.core
    rw [first_eq hR3.zero, hR3.feas, hfe] at hcore
    have hroT := hcore.rollout hA (.inr (.inl rfl))
    have hng : ¬ |sT.d0| < c.thGrad := not_lt.mpr (hgr.trans (abs_nonneg _))
    have hfT : sT.feas = true := hpr.keeps.feas.trans (hR3.feas.trans hfe)
    have hdec : 0 ≤ sT.dVexp ∧ sT.dV > c.thAcceptstep * sT.dVexp := by
      unfold accepts at hac
      rw [hfT] at hac
      cases hkd : kind.feasibilityDriven
      · simpa [hkd, hng] using hac
      · rw [hkd, if_pos rfl] at hac
        split at hac
        · rename_i hx0
          exact ⟨hx0, by simpa [hng] using hac⟩
        · simp at hac
    have hus : s'.us = sT.usTry := e2
    have htot := (hcore.total hA).2
    rw [rollout_total hroT] at htot
    have hdV' := hpr.dV
    rw [hR3.cost, rollout_total hro, htot] at hdV'
    have := mul_nonneg hth0 hdec.1
    have h2 := hdec.2
    rw [hdV'] at h2
    rw [hus]
    linarith

theorem iterLoop_le (hm : 0 < m) (hgr : c.thGrad ≤ 0) (hth0 : 0 ≤ c.thAcceptstep) (N : Nat) (s : NlSt n m)
    (hv : Valid P lin kind s) (hfe : s.feas = true) {o : Outcome ℝ (Fin n → ℝ) (Fin n → ℝ) (Fin m → ℝ) (Lin ℝ n m) _}
    (ho : iterLoop P.toProb c (oracle P lin llt kind) kind fuel N s = some o) : total P o.final.us ≤ total P s.us := by
  induction N generalizing s o with
  | zero =>
    simp only [iterLoop, Option.some.injEq] at ho
    subst ho; exact le_rfl
  | succ N ih =>
    simp only [iterLoop] at ho
    cases hi : iteration P.toProb c (oracle P lin llt kind) kind fuel s with
    | none => rw [hi] at ho; simp at ho
    | some r =>
      obtain ⟨e, b, s'⟩ := r
      rw [hi] at ho
      have hle : total P s'.us ≤ total P s.us := by
        rcases iteration_strict hm hv hfe hgr hth0 hi with ⟨-, -, h, -⟩ | ⟨-, h⟩ | h
        · rw [h]
        · rw [h]
        · exact h.le
      cases e with
      | giveUp => simp only [Option.some.injEq] at ho; subst ho; exact hle
      | converged => simp only [Option.some.injEq] at ho; subst ho; exact hle
      | «continue» =>
        simp only at ho
        cases hl' : iterLoop P.toProb c (oracle P lin llt kind) kind fuel N { s' with iter := s'.iter + 1 } with
        | none => rw [hl'] at ho; simp at ho
        | some o' =>
          rw [hl'] at ho
          simp only [Option.map_some, Option.some.injEq] at ho
          subst ho
          exact (ih _ (hv.next hm hi) ((iteration_rel (autonomousOk hm) fuel hv.inv hi).mono hfe) hl').trans hle

theorem iterLoop_progress (hm : 0 < m) {amin th R : ℝ} (hc : Usual c amin) (hgr : c.thGrad ≤ 0) (hl : LltSound llt)
    (hacc : c.thAcceptstep ≤ th) {as : List ℝ} (has : c.alphas = 1 :: as) (hsi : c.thStepinc < 1)
    (hmax : R * c.reg.inc ≤ c.reg.max) (j N : Nat) (hN : j + 1 ≤ N) (s : NlSt n m) (hv : Valid P lin kind s)
    (hfe : s.feas = true) (hw : s.wasFeas = false) (hH : SymmHess P.T (lin s.xs s.us))
    (hR : Enough P llt (lin s.xs s.us) s.xs s.us th R) (hp : 0 < s.preg) (hj : R ≤ s.preg * c.reg.inc ^ j)
    {o : Outcome ℝ (Fin n → ℝ) (Fin n → ℝ) (Fin m → ℝ) (Lin ℝ n m) _}
    (ho : iterLoop P.toProb c (oracle P lin llt kind) kind fuel N s = some o) : total P o.final.us < total P s.us := by
  induction N generalizing j s o with
  | zero => omega
  | succ N ih =>
    simp only [iterLoop] at ho
    cases hi : iteration P.toProb c (oracle P lin llt kind) kind fuel s with
    | none => rw [hi] at ho; simp at ho
    | some r =>
      obtain ⟨e, b, s'⟩ := r
      rw [hi] at ho
      have hne := never_gives_up hm hv hfe hl hH hR hacc has hsi hc.stepdec (one_pos.trans hc.inc) hmax hi
      have hf' := (iteration_rel (autonomousOk hm) fuel hv.inv hi).mono hfe
      rcases iteration_strict hm hv hfe hgr hc.accept.le hi with ⟨hr, hx, hu, hw'⟩ | ⟨h, -⟩ | hlt
      · -- the candidate was kept
        have hj0 : j ≠ 0 := by
          rintro rfl
          rw [pow_zero, mul_one] at hj
          rcases iteration_cases fuel s hi with ⟨he, -⟩ | ⟨s1, hd, hs2, -, -⟩
          · exact hne he
          obtain ⟨sT, h1, h2, -⟩ := full_step hm hv hfe hl hH hR hacc hd
            (hj.trans ((dirLoop_preg hc.inc.le hp.le hd).1 rfl).1)
          have e6 := hs2.2.2.2.2.2.1
          rw [has, lineSearch_first h1 h2, hr] at e6
          simp [accept] at e6
        obtain ⟨j, rfl⟩ := Nat.exists_eq_succ_of_ne_zero hj0
        have hpg := iteration_preg hc.inc hc.dec hc.last hc.stepdec hp hi
        cases e with
        | giveUp => exact absurd rfl hne
        | converged =>
          rcases iteration_cases fuel s hi with ⟨he, -⟩ | ⟨s1, -, -, h3, -⟩
          · cases he
          · rw [hw', hw] at h3; simp at h3
        | «continue» =>
          simp only at ho
          cases hl' : iterLoop P.toProb c (oracle P lin llt kind) kind fuel N { s' with iter := s'.iter + 1 } with
          | none => rw [hl'] at ho; simp at ho
          | some o' =>
            rw [hl'] at ho
            simp only [Option.map_some, Option.some.injEq] at ho
            subst ho
            have hge := (hpg.2 rfl).2.1 hr
            have hinc0 : 0 < c.reg.inc := one_pos.trans hc.inc
            have := ih j (by omega) { s' with iter := s'.iter + 1 } (hv.next hm hi) hf' (hw'.trans hw)
              (by show SymmHess P.T (lin s'.xs s'.us); rw [hx, hu]; exact hH)
              (by show Enough P llt (lin s'.xs s'.us) s'.xs s'.us th R; rw [hx, hu]; exact hR)
              (lt_of_lt_of_le (mul_pos hp hinc0) hge)
              (by
                refine hj.trans ?_
                rw [Nat.succ_eq_add_one, pow_succ', ← mul_assoc]
                exact mul_le_mul_of_nonneg_right hge (pow_nonneg hinc0.le _)) hl'
            refine this.trans_eq ?_
            show total P s'.us = _
            rw [hu]
      · exact absurd h hne
      · cases e with
        | giveUp => exact absurd rfl hne
        | converged => simp only [Option.some.injEq] at ho; subst ho; exact hlt
        | «continue» =>
          simp only at ho
          cases hl' : iterLoop P.toProb c (oracle P lin llt kind) kind fuel N { s' with iter := s'.iter + 1 } with
          | none => rw [hl'] at ho; simp at ho
          | some o' =>
            rw [hl'] at ho
            simp only [Option.map_some, Option.some.injEq] at ho
            subst ho
            exact (iterLoop_le hm hgr hc.accept.le N _ (hv.next hm hi) hf' hl').trans_lt hlt

/-- C144. And so `solve` makes progress from every feasible guess that is not stationary: with parameters as users set them
except that `th_grad` is zero, with `reg_max` large enough and with every positive initial regularisation, there is a number
of iterations such that, allowed at least that many, each of the four solvers ends with a total cost below that of the guess. -/
theorem C144_progress (hm : 0 < m) (xs : Nat → Fin n → ℝ) (us : Nat → Fin m → ℝ) (hro : Rollout P.toProb xs us)
    (hE : Exact P xs us (lin xs us)) (hH : SymmHess P.T (lin xs us)) (hl : LltSound llt) (hlc : LltComplete llt)
    (hns : ¬ Stationary P us) (th : ℝ) (hth : th < 2) :
    ∃ R > 0, ∀ (c : Cfg ℝ) (amin : ℝ) (as : List ℝ), Usual c amin → c.alphas = 1 :: as → c.thAcceptstep ≤ th →
      c.thStepinc < 1 → c.thGrad ≤ 0 → R * c.reg.inc ≤ c.reg.max → ∀ regInit : Option ℝ, 0 < regInit.getD c.reg.min →
      ∃ N, ∀ maxiter ≥ N, ∀ kind s, ∃ fuel0, ∀ fuel ≥ fuel0, ∃ o,
        solve P.toProb c (oracle P lin llt kind) kind fuel maxiter xs us true regInit s = some o ∧
        total P o.final.us < total P us := by
  obtain ⟨R, hR0, hR⟩ := big_reg hE hro hl hlc hH hns hth
  refine ⟨R, hR0, fun c amin as hc has hacc hsi hgr hmax regInit hreg => ?_⟩
  obtain ⟨j, hj⟩ := pow_unbounded_of_one_lt (R / regInit.getD c.reg.min) hc.inc
  rw [div_lt_iff₀ hreg] at hj
  refine ⟨j + 1, fun maxiter hmx kind s => ?_⟩
  obtain ⟨f0, o, ho⟩ := iterLoop_ends (P := P.toProb) (O := oracle P lin llt kind) (kind := kind) hc.inc hc.dec hc.max
    maxiter (start P.toProb c xs us true regInit s) hreg
  refine ⟨f0, fun fuel hf => ⟨o, iterLoop_mono hf maxiter ho, ?_⟩⟩
  exact iterLoop_progress hm hc hgr hl hacc has hsi hmax j maxiter hmx _ (valid_start (fun _ => hro) (fun _ => rfl) regInit s)
    rfl rfl hH hR hreg (hj.le.trans_eq (mul_comm _ _)) ho

/-! ### Non-vacuity: the nonlinear problem `Demo.prob` at its rollout with zero controls -/
namespace BigRegDemo

theorem not_stationary : ¬ Stationary Demo.prob (fun _ _ => 0) := by
  intro h
  have h2 := h fun _ _ => 1
  have h1 : (fun a : ℝ => total Demo.prob fun t => (fun (_ : Nat) (_ : Fin 1) => (0 : ℝ)) t + a • (fun _ _ => 1 : Nat → Fin 1 → ℝ) t) =
      fun a => 1 / 2 * (a * a) + 1 / 2 * ((1 + a + a * a) * (1 + a + a * a)) := by
    funext a
    simp [total, Demo.prob, traj]
  have hd : HasDerivAt (fun a : ℝ => 1 / 2 * (a * a) + 1 / 2 * ((1 + a + a * a) * (1 + a + a * a))) 1 0 := by
    have hi := hasDerivAt_id (0 : ℝ)
    have hq : HasDerivAt (fun a : ℝ => 1 + a + a * a) 1 0 := by
      have := ((hasDerivAt_const (0 : ℝ) (1 : ℝ)).add hi).add (hi.mul hi)
      exact this.congr_deriv (by simp)
    have := ((hi.mul hi).const_mul (1 / 2)).add ((hq.mul hq).const_mul (1 / 2))
    exact this.congr_deriv (by simp; norm_num)
  rw [h1] at h2
  exact zero_ne_one (h2.unique hd)

/-- The defaults of the library, with `th_grad = 0` and another `reg_max`. -/
noncomputable def cfg (max : ℝ) : Cfg ℝ :=
  { EndsDemo.dflt with thGrad := 0, reg := { EndsDemo.dflt.reg with max := max } }

theorem cfg_usual {max : ℝ} (h : 0 < max) : Usual (cfg max) (1 / 512) :=
  { EndsDemo.dflt_usual with grad := by norm_num [cfg, EndsDemo.dflt], max := h }

/-- The full step is accepted at the first iteration of a `solve` that starts with a large regularisation. -/
example : ∃ R > 0, ∀ kind (s : NlSt 1 1), ∃ e s',
    iteration Demo.prob.toProb EndsDemo.dflt (oracle Demo.prob Demo.dlin Demo.chol kind) kind 1
      (start Demo.prob.toProb EndsDemo.dflt (fun _ _ => 1) (fun _ _ => 0) true (some R) s) = some (e, true, s') ∧
    e ≠ .giveUp ∧ s'.steplength = 1 ∧ total Demo.prob s'.us < 1 / 2 := by
  obtain ⟨R, h0, hR⟩ := C144_full_step (lin := Demo.dlin) (by norm_num) _ _ Demo.rollout (Demo.exact _ _) (Demo.symmHess _ _)
    Demo.chol_sound Demo.chol_complete not_stationary 1 (by norm_num) (by norm_num)
  refine ⟨max R 1, lt_max_of_lt_left h0, fun kind s => ?_⟩
  obtain ⟨e, s', h1, h2, h3, -, -, -, -, -, h4⟩ := hR EndsDemo.dflt _ rfl (by norm_num [EndsDemo.dflt])
    (by norm_num [EndsDemo.dflt]) (by norm_num [EndsDemo.dflt]) kind 0
    (start Demo.prob.toProb EndsDemo.dflt (fun _ _ => 1) (fun _ _ => 0) true (some (max R 1)) s)
    ⟨_, _, true, some _, s, fun _ => Demo.rollout, fun _ => rfl, .init⟩ rfl rfl rfl (le_max_left _ _)
    (by show (1 : ℝ) / 10 ^ 9 ≤ max R 1; exact le_max_of_le_right (by norm_num))
  exact ⟨e, s', h1, h2, h3, EndsDemo.guess_cost ▸ h4⟩

/-- With the default initial regularisation and a large `reg_max`, no first iteration gives up. -/
example : ∃ M > 0, ∀ kind fuel (s : NlSt 1 1) e b s',
    iteration Demo.prob.toProb (cfg M) (oracle Demo.prob Demo.dlin Demo.chol kind) kind fuel
      (start Demo.prob.toProb (cfg M) (fun _ _ => 1) (fun _ _ => 0) true none s) = some (e, b, s') → e ≠ .giveUp := by
  obtain ⟨R, h0, hR⟩ := C144_never_gives_up (lin := Demo.dlin) (by norm_num) _ _ Demo.rollout (Demo.exact _ _)
    (Demo.symmHess _ _) Demo.chol_sound Demo.chol_complete not_stationary 1 (by norm_num)
  refine ⟨R * 10, by positivity, fun kind fuel s e b s' hi => ?_⟩
  exact hR (cfg (R * 10)) _ rfl (by norm_num [cfg, EndsDemo.dflt]) (by norm_num [cfg, EndsDemo.dflt])
    (by norm_num [cfg, EndsDemo.dflt]) (by norm_num [cfg, EndsDemo.dflt]) le_rfl kind fuel _
    ⟨_, _, true, none, s, fun _ => Demo.rollout, fun _ => rfl, .init⟩ rfl rfl rfl e b s' hi

/-- `solve` decreases the cost of the guess. -/
example : ∃ M N, ∀ maxiter ≥ N, ∀ kind (s : NlSt 1 1), ∃ fuel0, ∀ fuel ≥ fuel0, ∃ o,
    solve Demo.prob.toProb (cfg M) (oracle Demo.prob Demo.dlin Demo.chol kind) kind fuel maxiter (fun _ _ => 1) (fun _ _ => 0)
      true none s = some o ∧ total Demo.prob o.final.us < 1 / 2 := by
  obtain ⟨R, h0, hR⟩ := C144_progress (lin := Demo.dlin) (by norm_num) _ _ Demo.rollout (Demo.exact _ _)
    (Demo.symmHess _ _) Demo.chol_sound Demo.chol_complete not_stationary 1 (by norm_num)
  obtain ⟨N, h⟩ := hR (cfg (R * 10)) _ _ (cfg_usual (by positivity)) rfl (by norm_num [cfg, EndsDemo.dflt])
    (by norm_num [cfg, EndsDemo.dflt]) le_rfl le_rfl none (by norm_num [cfg, EndsDemo.dflt])
  rw [EndsDemo.guess_cost] at h
  exact ⟨R * 10, N, h⟩

end BigRegDemo
end Verif.Nl
