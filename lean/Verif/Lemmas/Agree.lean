import Verif.Spec.Agree
import Verif.Lemmas.LqSolve

set_option linter.unusedSectionVars false

/-! # Lemmas: two solvers go through the same iterations from a feasible guess -/

namespace Verif.Solve
open Verif Verif.Solver

section
variable {K X DX U L D : Type}
variable [Field K] [LinearOrder K] [AddCommGroup DX] [Module K DX] [AddCommGroup U] [Module K U]
variable {P : Prob K X DX U} {c : Cfg K} {O O' : Oracle K X DX U L D} {kind kind' : Kind} {R : D → D → Prop}

/-- Agreement from the first derivatives on. -/
structure Cp (P : Prob K X DX U) (s s' : St K X DX U L D) : Prop extends SameResult P s s' where
  recalc : s.recalc = s'.recalc
  datas : ∀ t < P.T, s.datas t = s'.datas t
  tdata : s.tdata = s'.tdata
  lin : s.lin = s'.lin
  isFeas : s.feas = true
  zero : s.xsTry 0 = P.x0
  zero' : s'.xsTry 0 = P.x0

/-- Agreement when `solve` begins. -/
structure CpIn (P : Prob K X DX U) (s s' : St K X DX U L D) : Prop where
  xs : s.xs = s'.xs
  us : s.us = s'.us
  feas : s.feas = true
  feas' : s'.feas = true
  preg : s.preg = s'.preg
  dreg : s.dreg = s'.dreg
  iter : s.iter = 0
  iter' : s'.iter = 0
  was : s.wasFeas = false
  was' : s'.wasFeas = false
  recalc : s.recalc = true
  recalc' : s'.recalc = true
  zero : s.xsTry 0 = P.x0
  zero' : s'.xsTry 0 = P.x0

/-- Agreement of the direction. -/
structure CpDir (P : Prob K X DX U) (R : D → D → Prop) (s s' : St K X DX U L D) : Prop where
  k : ∀ t < P.T, (P.node t).nuZero = false → s.k t = s'.k t
  gain : ∀ t < P.T, s.gain t = s'.gain t
  dir : R s.dir s'.dir

theorem CpIn.calcDiff (hO : Agree P O O' R) {s s' : St K X DX U L D} (h : CpIn P s s') :
    Cp P (calcDiff P O s) (calcDiff P O' s') := by
  have e : SameCand P (problemCalc P s) (problemCalc P s') :=
    ⟨fun t _ => congrFun h.xs t, fun t _ _ => congrFun h.us t, h.feas.trans h.feas'.symm⟩
  have hd : (problemCalc P s).datas = (problemCalc P s').datas := by simp [problemCalc, h.xs, h.us]
  have ht : (problemCalc P s).tdata = (problemCalc P s').tdata := by simp [problemCalc, h.xs]
  have hl := hO.lin _ _ e
  unfold Solve.calcDiff
  simp only [h.iter, h.iter', if_true]
  refine ⟨⟨⟨e.xs, e.us, e.feas⟩, ?_, ?_, h.preg, h.dreg, ?_, ?_⟩, ?_, fun t _ => congrFun hd t, ht, hl, h.feas, h.zero,
    h.zero'⟩
  · simp only [hd, ht]
  · intro t _
    cases t with
    | zero => simp only [problemCalc, h.xs]
    | succ t => simp only [hd]; simp only [problemCalc, h.xs]
  · simp [problemCalc, h.iter, h.iter']
  · simp [problemCalc, h.was, h.was']
  · simp [problemCalc, h.recalc, h.recalc']

theorem Cp.calcDiff (hO : Agree P O O' R) {s s' : St K X DX U L D} (h : Cp P s s') (hi : s.iter ≠ 0) :
    Cp P (calcDiff P O s) (calcDiff P O' s') := by
  have hi' : s'.iter ≠ 0 := h.iter ▸ hi
  have hl := hO.lin _ _ h.toSameCand
  unfold Solve.calcDiff
  simp only [hi, hi', if_false]
  refine ⟨⟨⟨h.xs, h.us, h.feas⟩, ?_, ?_, h.preg, h.dreg, h.iter, h.wasFeas⟩, h.recalc, h.datas, h.tdata, hl, h.isFeas,
    h.zero, h.zero'⟩
  · simp only [h.tdata]
    rw [sumTo_congr fun t ht => by rw [h.datas t ht]]
  · intro t ht
    cases t with
    | zero => simp only [h.xs 0 (Nat.zero_le _)]
    | succ t => simp only [h.datas t ht, h.xs (t + 1) ht]

/-- Situation at the head of the retry loop. -/
def CpHead (P : Prob K X DX U) (s s' : St K X DX U L D) : Prop :=
  CpIn P s s' ∨ (Cp P s s' ∧ (s.recalc = true → s.iter ≠ 0))

theorem CpHead.direction (hO : Agree P O O' R) {s s' : St K X DX U L D} (h : CpHead P s s') :
    (computeDirection P O s).1 = (computeDirection P O' s').1 ∧
    Cp P (computeDirection P O s).2 (computeDirection P O' s').2 ∧
    ((computeDirection P O s).1 = true → CpDir P R (computeDirection P O s).2 (computeDirection P O' s').2) := by
  have key : ∀ v v' : St K X DX U L D, Cp P v v' →
      (O.backward v).1 = (O'.backward v').1 ∧
      Cp P { v with k := (O.backward v).2.1, gain := (O.backward v).2.2.1, dir := (O.backward v).2.2.2 }
        { v' with k := (O'.backward v').2.1, gain := (O'.backward v').2.2.1, dir := (O'.backward v').2.2.2 } ∧
      ((O.backward v).1 = true → CpDir P R
        { v with k := (O.backward v).2.1, gain := (O.backward v).2.2.1, dir := (O.backward v).2.2.2 }
        { v' with k := (O'.backward v').2.1, gain := (O'.backward v').2.2.1, dir := (O'.backward v').2.2.2 }) := by
    intro v v' hv
    obtain ⟨h1, h2⟩ := hO.backward v v' hv.toSameCand hv.isFeas hv.lin hv.fs hv.preg hv.dreg
    refine ⟨h1, ⟨⟨⟨hv.xs, hv.us, hv.feas⟩, hv.cost, hv.fs, hv.preg, hv.dreg, hv.iter, hv.wasFeas⟩, hv.recalc,
      hv.datas, hv.tdata, hv.lin, hv.isFeas, hv.zero, hv.zero'⟩, fun hb => ?_⟩
    obtain ⟨a, b, e⟩ := h2 hb
    exact ⟨a, b, e⟩
  unfold computeDirection
  rcases h with h | ⟨h, hi⟩
  · simp only [h.recalc, h.recalc', if_true]
    exact key _ _ (h.calcDiff hO)
  · by_cases hs : s.recalc = true
    · rw [if_pos hs, if_pos (h.recalc ▸ hs)]
      exact key _ _ (h.calcDiff hO (hi hs))
    · rw [if_neg hs, if_neg (h.recalc ▸ hs)]
      exact key _ _ h

theorem Cp.increase {s s' : St K X DX U L D} (h : Cp P s s') : Cp P (increaseReg c s) (increaseReg c s') :=
  ⟨⟨⟨h.xs, h.us, h.feas⟩, h.cost, h.fs, by simp [increaseReg, h.preg], by simp [increaseReg, h.preg], h.iter,
    h.wasFeas⟩, h.recalc, h.datas, h.tdata, h.lin, h.isFeas, h.zero, h.zero'⟩

theorem Cp.decrease {s s' : St K X DX U L D} (h : Cp P s s') : Cp P (decreaseReg c s) (decreaseReg c s') :=
  ⟨⟨⟨h.xs, h.us, h.feas⟩, h.cost, h.fs, by simp [decreaseReg, h.preg], by simp [decreaseReg, h.preg], h.iter,
    h.wasFeas⟩, h.recalc, h.datas, h.tdata, h.lin, h.isFeas, h.zero, h.zero'⟩

theorem dirLoop_agree (hO : Agree P O O' R) (fuel : Nat) {s s' : St K X DX U L D} (h : CpHead P s s')
    {b : Bool} {v : St K X DX U L D} (hr : dirLoop P c O fuel s = some (b, v)) :
    ∃ v', dirLoop P c O' fuel s' = some (b, v') ∧ Cp P v v' ∧ (b = true → CpDir P R v v') := by
  induction fuel generalizing s s' with
  | zero => simp [dirLoop] at hr
  | succ f ih =>
    obtain ⟨h1, h2, h3⟩ := h.direction hO
    unfold dirLoop at hr ⊢
    simp only at hr ⊢
    cases hb : (computeDirection P O s).1 with
    | true =>
      rw [hb] at hr h1
      simp only [if_true, Option.some.injEq, Prod.mk.injEq] at hr
      obtain ⟨rfl, rfl⟩ := hr
      refine ⟨(computeDirection P O' s').2, ?_, h2, fun _ => h3 hb⟩
      rw [← h1]; simp
    | false =>
      rw [hb] at hr h1
      rw [← h1]
      simp only [Bool.false_eq_true, if_false] at hr ⊢
      set w := (computeDirection P O s).2 with hw
      set w' := (computeDirection P O' s').2 with hw'
      have hF : Cp P { w with recalc := false } { w' with recalc := false } :=
        ⟨⟨⟨h2.xs, h2.us, h2.feas⟩, h2.cost, h2.fs, h2.preg, h2.dreg, h2.iter, h2.wasFeas⟩, rfl, h2.datas, h2.tdata,
          h2.lin, h2.isFeas, h2.zero, h2.zero'⟩
      have hI := hF.increase (c := c)
      by_cases hm : (increaseReg c { w with recalc := false }).preg = c.reg.max
      · rw [if_pos hm] at hr
        rw [if_pos (hI.preg ▸ hm)]
        simp only [Option.some.injEq, Prod.mk.injEq] at hr
        obtain ⟨rfl, rfl⟩ := hr
        exact ⟨_, rfl, hI, by simp⟩
      · rw [if_neg hm] at hr
        rw [if_neg (hI.preg ▸ hm)]
        exact ih (.inr ⟨hI, by simp [increaseReg]⟩) hr

/-- Agreement during the line search. -/
structure CpLs (P : Prob K X DX U) (O O' : Oracle K X DX U L D) (kind kind' : Kind) (R : D → D → Prop)
    (s s' : St K X DX U L D) : Prop extends Cp P s s', CpDir P R s s' where
  dd : kind.feasibilityDriven = false → (s.d0, s.d1) = O.expImp s
  dd' : kind'.feasibilityDriven = false → (s'.d0, s'.d1) = O'.expImp s'

theorem Cp.prepare (hO : Agree P O O' R) {s s' : St K X DX U L D} (h : Cp P s s') (hd : CpDir P R s s') :
    CpLs P O O' kind kind' R (prepare O kind s) (prepare O' kind' s') := by
  have hA : ∀ v v' : St K X DX U L D, SameCand P v v' → v.feas = true → R v.dir v'.dir → O.expImp v = O'.expImp v' := hO.exp
  have hs : O.expImp s = O'.expImp s' := hA s s' h.toSameCand h.isFeas hd.dir
  have hcp : Cp P (Solve.prepare O kind s) (Solve.prepare O' kind' s') := by
    unfold Solve.prepare
    split <;> split <;>
    exact ⟨⟨⟨h.xs, h.us, h.feas⟩, h.cost, h.fs, h.preg, h.dreg, h.iter, h.wasFeas⟩, rfl, h.datas, h.tdata, h.lin, h.isFeas,
      h.zero, h.zero'⟩
  have hdir : R (Solve.prepare O kind s).dir (Solve.prepare O' kind' s').dir := by
    unfold Solve.prepare
    split <;> split
    · exact hO.updL _ _ (hO.updR _ _ hd.dir)
    · exact hO.updL _ _ hd.dir
    · exact hO.updR _ _ hd.dir
    · exact hd.dir
  refine ⟨hcp, ⟨?_, ?_, hdir⟩, fun hk => ?_, fun hk => ?_⟩
  · unfold Solve.prepare; split <;> split <;> exact hd.k
  · unfold Solve.prepare; split <;> split <;> exact hd.gain
  · have h1 := hA (Solve.prepare O kind s) s' ⟨by unfold Solve.prepare; split <;> exact h.xs,
      by unfold Solve.prepare; split <;> exact h.us, by unfold Solve.prepare; split <;> exact h.feas⟩
      (by unfold Solve.prepare; split <;> exact h.isFeas)
      (by unfold Solve.prepare; simp only [hk, Bool.false_eq_true, if_false]; exact hd.dir)
    rw [h1, ← hs]
    unfold Solve.prepare
    simp [hk]
  · have h1 := hA s (Solve.prepare O' kind' s') ⟨by unfold Solve.prepare; split <;> exact h.xs,
      by unfold Solve.prepare; split <;> exact h.us, by unfold Solve.prepare; split <;> exact h.feas⟩ h.isFeas
      (by unfold Solve.prepare; simp only [hk, Bool.false_eq_true, if_false]; exact hd.dir)
    rw [← h1, hs]
    unfold Solve.prepare
    simp [hk]

/-- What a successful probe leaves. -/
structure Left (P : Prob K X DX U) (O : Oracle K X DX U L D) (kind : Kind) (a : K) (s sT : St K X DX U L D) : Prop extends
    Probed P kind a s sT where
  dir : sT.dir = s.dir
  lin : sT.lin = s.lin
  dreg : sT.dreg = s.dreg
  dd : ∃ v : St K X DX U L D, v.xs = s.xs ∧ v.us = s.us ∧ v.feas = s.feas ∧ v.dir = s.dir ∧
    (sT.d0, sT.d1) = if kind.feasibilityDriven then O.expImp v else (s.d0, s.d1)

theorem probe_left (hb : ∀ v, O.bad v = false) (hbx : ∀ v, O.badX v = false) (a : K) (ha : 0 ≤ a)
    (ha1 : a ≤ 1) (s : St K X DX U L D) : ∃ sT, probe P O kind a s = (some (), sT) ∧ Left P O kind a s sT := by
  obtain ⟨sT, h1, h2⟩ := probe_some (P := P) (kind := kind) hb hbx a ha ha1 s
  suffices hs : sT.dir = s.dir ∧ sT.lin = s.lin ∧ sT.dreg = s.dreg ∧ ∃ v : St K X DX U L D, v.xs = s.xs ∧ v.us = s.us ∧
      v.feas = s.feas ∧ v.dir = s.dir ∧
      (sT.d0, sT.d1) = if kind.feasibilityDriven then O.expImp v else (s.d0, s.d1) from
    ⟨sT, h1, h2, hs.1, hs.2.1, hs.2.2.1, hs.2.2.2⟩
  unfold probe at h1
  simp only at h1
  have h := tryStep_spec (P := P) (O := O) (kind := kind) a { s with steplength := a }
  cases hf : tryStep P O kind a { s with steplength := a } with
  | ub => rw [hf] at h1; simp at h1
  | throw s' => rw [hf] at h1; simp at h1
  | ok u s' =>
    rw [hf] at h h1
    obtain ⟨s1, ht, rfl⟩ := h
    have hfr := ht.frame
    unfold Frame at hfr
    have e1 : s1.dir = s.dir := by rw [hfr]
    have e2 : s1.lin = s.lin := by rw [hfr]
    have e3 : s1.dreg = s.dreg := by rw [hfr]
    have e4 : s1.xs = s.xs := by rw [hfr]
    have e5 : s1.us = s.us := by rw [hfr]
    have e6 : s1.feas = s.feas := by rw [hfr]
    have e7 : s1.d0 = s.d0 := by rw [hfr]
    have e8 : s1.d1 = s.d1 := by rw [hfr]
    simp only at h1
    cases hk : kind.feasibilityDriven
    · rw [hk] at h1
      simp only [Bool.false_eq_true, if_false, Prod.mk.injEq, true_and] at h1
      subst h1
      exact ⟨e1, e2, e3, s, rfl, rfl, rfl, rfl, by simp [e7, e8]⟩
    · rw [hk] at h1
      simp only [if_true, Prod.mk.injEq, true_and] at h1
      subst h1
      exact ⟨e1, e2, e3, { s1 with dV := s1.cost - s1.costTry }, e4, e5, e6, e1, rfl⟩

/-- Two trials from a candidate marked feasible. -/
theorem trial_agree (hU : Unlimited P) {a : K} {s s' sT sT' : St K X DX U L D} (h : CpLs P O O' kind kind' R s s')
    (hp : Probed P kind a s sT) (hp' : Probed P kind' a s' sT') :
    (∀ t ≤ P.T, sT.xsTry t = sT'.xsTry t) ∧ (∀ t < P.T, (P.node t).nuZero = false → sT.usTry t = sT'.usTry t) ∧
    (∀ t < P.T, sT.datas t = sT'.datas t) ∧ sT.tdata = sT'.tdata ∧ sT.costTry = sT'.costTry ∧
    sT.xsTry 0 = P.x0 ∧ sT'.xsTry 0 = P.x0 := by
  have hc := hp.core
  have hc' := hp'.core
  rw [first_eq fun _ => h.zero, h.isFeas] at hc
  rw [first_eq fun _ => h.zero', show s'.feas = true from h.feas ▸ h.isFeas] at hc'
  obtain ⟨-, ⟨d1, u1, x1⟩, l1, t1, c1⟩ := hc
  obtain ⟨-, ⟨d2, u2, x2⟩, l2, t2, c2⟩ := hc'
  simp only [Bool.not_true, Bool.false_and, Bool.and_false, Bool.false_eq_true, if_false] at x1 l1 x2 l2
  have hx1 : ∀ t ≤ P.T, sT.xsTry t = Solve.pred P.x0 sT.datas t := fun t ht => by
    rcases Nat.lt_or_eq_of_le ht with ht | rfl
    · exact x1 t ht
    · exact l1
  have hx2 : ∀ t ≤ P.T, sT'.xsTry t = Solve.pred P.x0 sT'.datas t := fun t ht => by
    rcases Nat.lt_or_eq_of_le ht with ht | rfl
    · exact x2 t ht
    · exact l2
  have hu : ∀ t < P.T, sT.xsTry t = sT'.xsTry t → (P.node t).nuZero = false → sT.usTry t = sT'.usTry t := by
    intro t ht he hz
    have e1 := u1 t ht hz
    have e2 := u2 t ht hz
    simp only [hU t ht, ite_self] at e1 e2
    rw [e1, e2, h.us t ht hz, h.k t ht hz, h.gain t ht, h.xs t ht.le, he]
  have hd : ∀ t < P.T, sT.xsTry t = sT'.xsTry t → sT.datas t = sT'.datas t := by
    intro t ht he
    rw [d1 t ht, d2 t ht]
    unfold nodeEval
    split
    · rw [he]
    · rename_i hz
      rw [he, hu t ht he (by simpa using hz)]
  have hx : ∀ t ≤ P.T, sT.xsTry t = sT'.xsTry t := by
    intro t
    induction t with
    | zero => intro ht; rw [hx1 0 ht, hx2 0 ht]; rfl
    | succ t ih =>
      intro ht
      rw [hx1 _ ht, hx2 _ ht]
      show (sT.datas t).1 = (sT'.datas t).1
      rw [hd t ht (ih (by omega))]
  have ht : sT.tdata = sT'.tdata := by rw [t1, t2, hx _ le_rfl]
  refine ⟨hx, fun t ht => hu t ht (hx t ht.le), fun t ht => hd t ht (hx t ht.le), ht, ?_, hx1 0 (Nat.zero_le _),
    hx2 0 (Nat.zero_le _)⟩
  rw [c1, c2, ht, sumTo_congr fun t ht => by rw [hd t ht (hx t ht.le)]]

/-- Agreement after a trial. -/
structure CpTr (P : Prob K X DX U) (O O' : Oracle K X DX U L D) (kind kind' : Kind) (R : D → D → Prop)
    (s s' : St K X DX U L D) : Prop extends CpLs P O O' kind kind' R s s' where
  xsTry : ∀ t ≤ P.T, s.xsTry t = s'.xsTry t
  usTry : ∀ t < P.T, (P.node t).nuZero = false → s.usTry t = s'.usTry t
  costTry : s.costTry = s'.costTry
  d0 : s.d0 = s'.d0
  d1 : s.d1 = s'.d1
  dV : s.dV = s'.dV
  dVexp : s.dVexp = s'.dVexp
  steplength : s.steplength = s'.steplength

theorem CpLs.probe (hO : Agree P O O' R) (hU : Unlimited P) {s s' : St K X DX U L D}
    (h : CpLs P O O' kind kind' R s s') (a : K) (ha : 0 ≤ a) (ha1 : a ≤ 1) :
    ∃ sT sT', Solve.probe P O kind a s = (some (), sT) ∧ Solve.probe P O' kind' a s' = (some (), sT') ∧
      CpTr P O O' kind kind' R sT sT' := by
  obtain ⟨sT, p1, l1⟩ := probe_left (P := P) (kind := kind) hO.finite.1 hO.finite.2.1 a ha ha1 s
  obtain ⟨sT', p2, l2⟩ := probe_left (P := P) (kind := kind') hO.finite.2.2.1 hO.finite.2.2.2 a ha ha1 s'
  obtain ⟨tx, tu, td, tt, tc, t0, t0'⟩ := trial_agree hU h l1.toProbed l2.toProbed
  refine ⟨sT, sT', p1, p2, ?_⟩
  have k1 := l1.keeps
  have k2 := l2.keeps
  have hcand : SameCand P sT sT' :=
    ⟨fun t ht => by rw [k1.xs, k2.xs, h.xs t ht], fun t ht hz => by rw [k1.us, k2.us, h.us t ht hz],
      by rw [k1.feas, k2.feas, h.feas]⟩
  have hfe : sT.feas = true := by rw [k1.feas, h.isFeas]
  have hdir : R sT.dir sT'.dir := by rw [l1.dir, l2.dir]; exact h.dir
  have hv : ∀ v v' : St K X DX U L D, v.xs = s.xs → v.us = s.us → v.feas = s.feas → v.dir = s.dir →
      v'.xs = s'.xs → v'.us = s'.us → v'.feas = s'.feas → v'.dir = s'.dir → O.expImp v = O'.expImp v' := by
    intro v v' a1 a2 a3 a4 b1 b2 b3 b4
    refine hO.exp v v' ⟨fun t ht => ?_, fun t ht hz => ?_, ?_⟩ (a3.trans h.isFeas) ?_
    · rw [a1, b1, h.xs t ht]
    · rw [a2, b2, h.us t ht hz]
    · rw [a3, b3, h.feas]
    · rw [a4, b4]; exact h.dir
  have hs : O.expImp s = O'.expImp s' := hv s s' rfl rfl rfl rfl rfl rfl rfl rfl
  have hd : (sT.d0, sT.d1) = O.expImp s := by
    obtain ⟨v, a1, a2, a3, a4, a5⟩ := l1.dd
    cases hk : kind.feasibilityDriven
    · rw [hk] at a5
      simp only [Bool.false_eq_true, if_false] at a5
      rw [a5, h.dd hk]
    · rw [hk] at a5
      simp only [if_true] at a5
      rw [a5, hv v s' a1 a2 a3 a4 rfl rfl rfl rfl, hs]
  have hd' : (sT'.d0, sT'.d1) = O.expImp s := by
    obtain ⟨v, a1, a2, a3, a4, a5⟩ := l2.dd
    cases hk : kind'.feasibilityDriven
    · rw [hk] at a5
      simp only [Bool.false_eq_true, if_false] at a5
      rw [a5, h.dd' hk, hs]
    · rw [hk] at a5
      simp only [if_true] at a5
      rw [a5, ← hv s v rfl rfl rfl rfl a1 a2 a3 a4]
  have e0 : sT.d0 = sT'.d0 := congrArg Prod.fst (hd.trans hd'.symm)
  have e1 : sT.d1 = sT'.d1 := congrArg Prod.snd (hd.trans hd'.symm)
  have hdd : O.expImp sT = O.expImp s :=
    (hv sT s' k1.xs k1.us k1.feas l1.dir rfl rfl rfl rfl).trans hs.symm
  have hdd' : O'.expImp sT' = O.expImp s :=
    (hv s sT' rfl rfl rfl rfl k2.xs k2.us k2.feas l2.dir).symm
  refine ⟨⟨⟨⟨hcand, ?_, ?_, ?_, ?_, ?_, ?_⟩, ?_, td, tt, ?_, hfe, t0, t0'⟩, ⟨?_, ?_, hdir⟩, fun _ => ?_, fun _ => ?_⟩,
    tx, tu, tc, e0, e1, ?_, ?_, ?_⟩
  · rw [k1.cost, k2.cost, h.cost]
  · intro t ht; rw [k1.fs, k2.fs, h.fs t ht]
  · rw [k1.preg, k2.preg, h.preg]
  · rw [l1.dreg, l2.dreg, h.dreg]
  · rw [k1.iter, k2.iter, h.iter]
  · rw [k1.wasFeas, k2.wasFeas, h.wasFeas]
  · rw [k1.recalc, k2.recalc, h.recalc]
  · rw [l1.lin, l2.lin, h.lin]
  · intro t ht hz; rw [k1.k, k2.k, h.k t ht hz]
  · intro t ht; rw [k1.gain, k2.gain, h.gain t ht]
  · rw [hd, hdd]
  · rw [hd', hdd']
  · rw [l1.dV, l2.dV, h.cost, tc]
  · rw [l1.dVexp, l2.dVexp, e0, e1]
  · rw [l1.steplength, l2.steplength]

theorem accepts_feas {s : St K X DX U L D} (h : s.feas = true) (kind : Kind) : accepts c kind s =
    (decide (0 ≤ s.dVexp) && (decide (|s.d0| < c.thGrad) || decide (s.dV > c.thAcceptstep * s.dVexp))) := by
  unfold accepts
  rw [h]
  by_cases h0 : 0 ≤ s.dVexp <;> cases kind.feasibilityDriven <;> simp [h0]

theorem CpTr.accepts {s s' : St K X DX U L D} (h : CpTr P O O' kind kind' R s s') :
    accepts c kind s = accepts c kind' s' := by
  rw [accepts_feas h.isFeas, accepts_feas (h.feas ▸ h.isFeas), h.dVexp, h.d0, h.dV]

theorem CpTr.accept {s s' : St K X DX U L D} (h : CpTr P O O' kind kind' R s s') :
    Cp P (accept kind s) (accept kind' s') := by
  have f1 : (Solve.accept kind s).feas = true := by
    simp [Solve.accept, h.isFeas]
  have f2 : (Solve.accept kind' s').feas = true := by
    simp [Solve.accept, show s'.feas = true from h.feas ▸ h.isFeas]
  exact ⟨⟨⟨h.xsTry, h.usTry, f1.trans f2.symm⟩, h.costTry, h.fs, h.preg, h.dreg, h.iter, h.feas⟩, rfl, h.datas, h.tdata,
    h.lin, f1, h.zero, h.zero'⟩

theorem CpLs.lineSearch (hO : Agree P O O' R) (hU : Unlimited P) (as : List K) (has : ∀ a ∈ as, 0 ≤ a ∧ a ≤ 1)
    {s s' : St K X DX U L D} (h : CpLs P O O' kind kind' R s s')
    (hne : as ≠ [] ∨ (s.steplength = s'.steplength ∧ s.d0 = s'.d0 ∧ s.d1 = s'.d1)) :
    Cp P (lineSearch P c O kind as s) (lineSearch P c O' kind' as s') ∧
    (lineSearch P c O kind as s).steplength = (lineSearch P c O' kind' as s').steplength ∧
    (lineSearch P c O kind as s).d0 = (lineSearch P c O' kind' as s').d0 ∧
    (lineSearch P c O kind as s).d1 = (lineSearch P c O' kind' as s').d1 := by
  induction as generalizing s s' with
  | nil => exact ⟨h.toCp, hne.resolve_left (by simp)⟩
  | cons a as ih =>
    obtain ⟨ha, ha1⟩ := has a List.mem_cons_self
    obtain ⟨sT, sT', p1, p2, hT⟩ := h.probe hO hU a ha ha1
    simp only [Solve.lineSearch, p1, p2]
    rw [← hT.accepts (c := c)]
    by_cases hacc : Solve.accepts c kind sT = true
    · rw [if_pos hacc, if_pos hacc]
      exact ⟨hT.accept, hT.steplength, hT.d0, hT.d1⟩
    · rw [if_neg hacc, if_neg hacc]
      exact ih (fun b hb => has b (List.mem_cons_of_mem _ hb)) hT.toCpLs (.inr ⟨hT.steplength, hT.d0, hT.d1⟩)

theorem iteration_agree (hO : Agree P O O' R) (hU : Unlimited P) (hne : c.alphas ≠ [])
    (has : ∀ a ∈ c.alphas, 0 ≤ a ∧ a ≤ 1) (fuel : Nat) {s s' : St K X DX U L D}
    (h : CpHead P s s') {e : Exit} {b : Bool} {v : St K X DX U L D}
    (hr : iteration P c O kind fuel s = some (e, b, v)) :
    ∃ v', iteration P c O' kind' fuel s' = some (e, b, v') ∧ Cp P v v' ∧
      (e ≠ .giveUp → v.steplength = v'.steplength ∧ v.stop = v'.stop) := by
  unfold iteration at hr ⊢
  cases hd : dirLoop P c O fuel s with
  | none => simp [hd] at hr
  | some r =>
    obtain ⟨ok, w⟩ := r
    obtain ⟨w', hd', hF, hD⟩ := dirLoop_agree hO fuel h hd
    rw [hd] at hr
    rw [hd']
    cases ok with
    | false =>
      simp only [Option.some.injEq, Prod.mk.injEq] at hr
      obtain ⟨rfl, rfl, rfl⟩ := hr
      exact ⟨w', rfl, hF, by simp⟩
    | true =>
      obtain ⟨hL, hst, h0, h1⟩ := (hF.prepare (kind := kind) (kind' := kind') hO (hD rfl)).lineSearch (c := c) hO hU
        c.alphas has (.inl hne)
      simp only at hr ⊢
      generalize Solve.lineSearch P c O kind c.alphas (prepare O kind w) = y at hr hL hst h0 h1
      generalize Solve.lineSearch P c O' kind' c.alphas (prepare O' kind' w') = y' at hL hst h0 h1
      -- the regularisation
      have hdec : Cp P (if y.steplength > c.thStepdec then decreaseReg c y else y)
          (if y'.steplength > c.thStepdec then decreaseReg c y' else y') ∧
          (if y.steplength > c.thStepdec then decreaseReg c y else y).steplength =
          (if y'.steplength > c.thStepdec then decreaseReg c y' else y').steplength ∧
          (if y.steplength > c.thStepdec then decreaseReg c y else y).d0 =
          (if y'.steplength > c.thStepdec then decreaseReg c y' else y').d0 ∧
          (if y.steplength > c.thStepdec then decreaseReg c y else y).d1 =
          (if y'.steplength > c.thStepdec then decreaseReg c y' else y').d1 := by
        rw [← hst]
        split_ifs
        · exact ⟨hL.decrease, hst, h0, h1⟩
        · exact ⟨hL, hst, h0, h1⟩
      generalize (if y.steplength > c.thStepdec then decreaseReg c y else y) = z at hr hdec
      generalize (if y'.steplength > c.thStepdec then decreaseReg c y' else y') = z' at hdec
      obtain ⟨hL, hst, h0, h1⟩ := hdec
      have hinc : Cp P (if decide (z.steplength ≤ c.thStepinc) = true then increaseReg c z else z)
          (if decide (z'.steplength ≤ c.thStepinc) = true then increaseReg c z' else z') ∧
          (if decide (z.steplength ≤ c.thStepinc) = true then increaseReg c z else z).steplength =
          (if decide (z'.steplength ≤ c.thStepinc) = true then increaseReg c z' else z').steplength ∧
          (if decide (z.steplength ≤ c.thStepinc) = true then increaseReg c z else z).d0 =
          (if decide (z'.steplength ≤ c.thStepinc) = true then increaseReg c z' else z').d0 ∧
          (if decide (z.steplength ≤ c.thStepinc) = true then increaseReg c z else z).d1 =
          (if decide (z'.steplength ≤ c.thStepinc) = true then increaseReg c z' else z').d1 := by
        rw [← hst]
        split_ifs
        · exact ⟨hL.increase, hst, h0, h1⟩
        · exact ⟨hL, hst, h0, h1⟩
      rw [← hst]
      rw [← hst] at hinc
      generalize decide (z.steplength ≤ c.thStepinc) = up at *
      generalize (if up = true then increaseReg c z else z) = q at hr hinc
      generalize (if up = true then increaseReg c z' else z') = q' at hinc
      obtain ⟨hL, hst, h0, h1⟩ := hinc
      rw [← hL.preg]
      by_cases hg : (up && decide (q.preg = c.reg.max)) = true
      · rw [if_pos hg] at hr ⊢
        simp only [Option.some.injEq, Prod.mk.injEq] at hr
        obtain ⟨rfl, rfl, rfl⟩ := hr
        exact ⟨q', rfl, hL, by simp⟩
      · rw [if_neg hg] at hr ⊢
        have hS : Cp P (stopping q) (stopping q') :=
          ⟨⟨⟨hL.xs, hL.us, hL.feas⟩, hL.cost, hL.fs, hL.preg, hL.dreg, hL.iter, hL.wasFeas⟩, hL.recalc, hL.datas,
            hL.tdata, hL.lin, hL.isFeas, hL.zero, hL.zero'⟩
        have hstop : (stopping q).stop = (stopping q').stop := by simp only [stopping, h0, h1]
        have hw : (stopping q).wasFeas = (stopping q').wasFeas := hS.wasFeas
        rw [← hw, ← hstop]
        by_cases hc : ((stopping q).wasFeas && decide ((stopping q).stop < c.thStop)) = true
        · rw [if_pos hc] at hr ⊢
          simp only [Option.some.injEq, Prod.mk.injEq] at hr
          obtain ⟨rfl, rfl, rfl⟩ := hr
          exact ⟨_, rfl, hS, fun _ => ⟨hst, hstop⟩⟩
        · rw [if_neg hc] at hr ⊢
          simp only [Option.some.injEq, Prod.mk.injEq] at hr
          obtain ⟨rfl, rfl, rfl⟩ := hr
          exact ⟨_, rfl, hS, fun _ => ⟨hst, hstop⟩⟩

theorem iterLoop_agree (hO : Agree P O O' R) (hU : Unlimited P) (hne : c.alphas ≠ [])
    (has : ∀ a ∈ c.alphas, 0 ≤ a ∧ a ≤ 1) (fuel n : Nat) {s s' : St K X DX U L D}
    (h : CpHead P s s') (hn : n ≠ 0 ∨ Cp P s s') {o : Outcome K X DX U L D}
    (hr : iterLoop P c O kind fuel n s = some o) :
    ∃ o', iterLoop P c O' kind' fuel n s' = some o' ∧ o'.ret = o.ret ∧ SameResult P o.final o'.final ∧
      List.Forall₂ (SameView P) o.trace o'.trace := by
  induction n generalizing s s' o with
  | zero =>
    simp only [iterLoop, Option.some.injEq] at hr
    subst hr
    exact ⟨_, rfl, rfl, (hn.resolve_left (by simp)).toSameResult, .nil⟩
  | succ n ih =>
    unfold iterLoop at hr ⊢
    cases hit : iteration P c O kind fuel s with
    | none => simp [hit] at hr
    | some r =>
      obtain ⟨e, b, v⟩ := r
      obtain ⟨v', hit', hF, hS⟩ := iteration_agree (kind' := kind') hO hU hne has fuel h hit
      rw [hit] at hr
      rw [hit']
      cases e with
      | giveUp =>
        simp only [Option.some.injEq] at hr
        subst hr
        exact ⟨_, rfl, rfl, hF.toSameResult, .nil⟩
      | converged =>
        simp only [Option.some.injEq] at hr
        subst hr
        obtain ⟨h1, h2⟩ := hS (by simp)
        exact ⟨_, rfl, rfl, hF.toSameResult, .cons ⟨hF.toSameResult, h1, h2⟩ .nil⟩
      | «continue» =>
        simp only [Option.map_eq_some_iff] at hr ⊢
        obtain ⟨o1, ho1, rfl⟩ := hr
        obtain ⟨h1, h2⟩ := hS (by simp)
        have hF' : Cp P { v with iter := v.iter + 1 } { v' with iter := v'.iter + 1 } :=
          ⟨⟨⟨hF.xs, hF.us, hF.feas⟩, hF.cost, hF.fs, hF.preg, hF.dreg, by simp only [hF.iter], hF.wasFeas⟩,
            hF.recalc, hF.datas, hF.tdata, hF.lin, hF.isFeas, hF.zero, hF.zero'⟩
        obtain ⟨o1', ho1', hret, hfin, htr⟩ := ih (.inr ⟨hF', fun _ => Nat.succ_ne_zero _⟩) (.inr hF') ho1
        exact ⟨_, ⟨o1', ho1', rfl⟩, hret, hfin, .cons ⟨hF.toSameResult, h1, h2⟩ htr⟩

end
end Verif.Solve
