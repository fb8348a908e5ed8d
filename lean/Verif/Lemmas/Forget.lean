import Verif.Spec.Forget

set_option linter.unusedSectionVars false

/-! # Lemmas: a solver forgets earlier solves -/

namespace Verif.Solve
open Verif Verif.Solver

section
variable {K X DX U L D : Type}
variable [Field K] [LinearOrder K] [AddCommGroup DX] [Module K DX] [AddCommGroup U] [Module K U]
variable {P : Prob K X DX U} {c : Cfg K} {O : Oracle K X DX U L D} {kind : Kind} {R : D → D → Prop}

/-- Agreement from the first derivatives on. -/
structure Fr (P : Prob K X DX U) (s s' : St K X DX U L D) : Prop extends SameResult P s s' where
  recalc : s.recalc = s'.recalc
  x0 : s.xsTry 0 = s'.xsTry 0
  d : s.wasFeas = true → s.d0 = s'.d0 ∧ s.d1 = s'.d1
  datas : s.datas = s'.datas
  tdata : s.tdata = s'.tdata
  lin : s.lin = s'.lin

/-- Agreement when `solve` begins. -/
structure In (s s' : St K X DX U L D) : Prop where
  xs : s.xs = s'.xs
  us : s.us = s'.us
  feas : s.feas = s'.feas
  preg : s.preg = s'.preg
  dreg : s.dreg = s'.dreg
  iter : s.iter = 0
  iter' : s'.iter = 0
  was : s.wasFeas = false
  was' : s'.wasFeas = false
  recalc : s.recalc = true
  recalc' : s'.recalc = true
  x0 : s.xsTry 0 = s'.xsTry 0

/-- Agreement of the direction. -/
structure Di (P : Prob K X DX U) (R : D → D → Prop) (s s' : St K X DX U L D) : Prop where
  k : ∀ t < P.T, (P.node t).nuZero = false → s.k t = s'.k t
  gain : ∀ t < P.T, s.gain t = s'.gain t
  dir : R s.dir s'.dir

theorem In.calcDiff (hO : ReadsFresh P O kind R) {s s' : St K X DX U L D} (h : In s s') :
    Fr P (calcDiff P O s) (calcDiff P O s') := by
  have e : SameCand P (problemCalc P s) (problemCalc P s') :=
    ⟨fun t _ => congrFun h.xs t, fun t _ _ => congrFun h.us t, h.feas⟩
  have hd : (problemCalc P s).datas = (problemCalc P s').datas := by simp [problemCalc, h.xs, h.us]
  have ht : (problemCalc P s).tdata = (problemCalc P s').tdata := by simp [problemCalc, h.xs]
  have hl := hO.lin _ _ e
  unfold Solve.calcDiff
  simp only [h.iter, h.iter', if_true]
  refine ⟨⟨⟨e.xs, e.us, e.feas⟩, ?_, ?_, h.preg, h.dreg, ?_, ?_⟩, ?_, h.x0, ?_, hd, ht, hl⟩
  · simp only [hd, ht]
  · intro t _
    cases t with
    | zero => simp only [problemCalc, h.xs]
    | succ t => simp only [hd]; simp only [problemCalc, h.xs]
  · simp [problemCalc, h.iter, h.iter']
  · simp [problemCalc, h.was, h.was']
  · simp [problemCalc, h.recalc, h.recalc']
  · intro hw; simp [problemCalc, h.was] at hw

theorem Fr.calcDiff (hO : ReadsFresh P O kind R) {s s' : St K X DX U L D} (h : Fr P s s') (hi : s.iter ≠ 0) :
    Fr P (calcDiff P O s) (calcDiff P O s') := by
  have hi' : s'.iter ≠ 0 := h.iter ▸ hi
  have hl := hO.lin _ _ h.toSameCand
  unfold Solve.calcDiff
  simp only [hi, hi', if_false]
  refine ⟨⟨⟨h.xs, h.us, h.feas⟩, ?_, ?_, h.preg, h.dreg, h.iter, h.wasFeas⟩, h.recalc, h.x0, h.d, h.datas, h.tdata, hl⟩
  · simp only [h.datas, h.tdata]
  · intro t ht
    cases t with
    | zero => simp only [h.xs 0 (Nat.zero_le _)]
    | succ t => simp only [h.datas, h.xs (t + 1) ht]

/-- Situation at the head of the retry loop. -/
def Head (P : Prob K X DX U) (s s' : St K X DX U L D) : Prop :=
  In s s' ∨ (Fr P s s' ∧ (s.recalc = true → s.iter ≠ 0))

theorem Head.direction (hO : ReadsFresh P O kind R) {s s' : St K X DX U L D} (h : Head P s s') :
    (computeDirection P O s).1 = (computeDirection P O s').1 ∧
    Fr P (computeDirection P O s).2 (computeDirection P O s').2 ∧
    ((computeDirection P O s).1 = true → Di P R (computeDirection P O s).2 (computeDirection P O s').2) := by
  have key : ∀ v v' : St K X DX U L D, Fr P v v' →
      (O.backward v).1 = (O.backward v').1 ∧
      Fr P { v with k := (O.backward v).2.1, gain := (O.backward v).2.2.1, dir := (O.backward v).2.2.2 }
        { v' with k := (O.backward v').2.1, gain := (O.backward v').2.2.1, dir := (O.backward v').2.2.2 } ∧
      ((O.backward v).1 = true → Di P R
        { v with k := (O.backward v).2.1, gain := (O.backward v).2.2.1, dir := (O.backward v).2.2.2 }
        { v' with k := (O.backward v').2.1, gain := (O.backward v').2.2.1, dir := (O.backward v').2.2.2 }) := by
    intro v v' hv
    obtain ⟨h1, h2⟩ := hO.backward v v' hv.toSameCand hv.lin hv.fs hv.preg hv.dreg
    refine ⟨h1, ⟨⟨⟨hv.xs, hv.us, hv.feas⟩, hv.cost, hv.fs, hv.preg, hv.dreg, hv.iter, hv.wasFeas⟩, hv.recalc,
      hv.x0, hv.d, hv.datas, hv.tdata, hv.lin⟩, fun hb => ?_⟩
    obtain ⟨a, b, e⟩ := h2 hb
    exact ⟨a, b, e⟩
  unfold computeDirection
  rcases h with h | ⟨h, hi⟩
  · simp only [h.recalc, h.recalc', if_true]
    exact key _ _ (h.calcDiff hO)
  · by_cases hs : s.recalc = true
    · rw [if_pos hs, if_pos (h.recalc ▸ hs)]
      exact key _ _ (h.calcDiff hO (hi hs))
    · rw [if_neg hs, if_neg (h.recalc ▸ hs)]
      exact key _ _ h

theorem Fr.increase {s s' : St K X DX U L D} (h : Fr P s s') : Fr P (increaseReg c s) (increaseReg c s') :=
  ⟨⟨⟨h.xs, h.us, h.feas⟩, h.cost, h.fs, by simp [increaseReg, h.preg], by simp [increaseReg, h.preg], h.iter,
    h.wasFeas⟩, h.recalc, h.x0, h.d, h.datas, h.tdata, h.lin⟩

theorem Fr.decrease {s s' : St K X DX U L D} (h : Fr P s s') : Fr P (decreaseReg c s) (decreaseReg c s') :=
  ⟨⟨⟨h.xs, h.us, h.feas⟩, h.cost, h.fs, by simp [decreaseReg, h.preg], by simp [decreaseReg, h.preg], h.iter,
    h.wasFeas⟩, h.recalc, h.x0, h.d, h.datas, h.tdata, h.lin⟩

theorem dirLoop_same (hO : ReadsFresh P O kind R) (fuel : Nat) {s s' : St K X DX U L D} (h : Head P s s')
    {b : Bool} {v : St K X DX U L D} (hr : dirLoop P c O fuel s = some (b, v)) :
    ∃ v', dirLoop P c O fuel s' = some (b, v') ∧ Fr P v v' ∧ (b = true → Di P R v v') := by
  induction fuel generalizing s s' with
  | zero => simp [dirLoop] at hr
  | succ f ih =>
    obtain ⟨h1, h2, h3⟩ := h.direction hO
    unfold dirLoop at hr ⊢
    simp only at hr ⊢
    cases hb : (computeDirection P O s).1 with
    | true =>
      rw [hb] at hr h1
      simp only [if_true, Option.some.injEq, Prod.mk.injEq] at hr
      obtain ⟨rfl, rfl⟩ := hr
      refine ⟨(computeDirection P O s').2, ?_, h2, fun _ => h3 hb⟩
      rw [← h1]; simp
    | false =>
      rw [hb] at hr h1
      rw [← h1]
      simp only [Bool.false_eq_true, if_false] at hr ⊢
      set w := (computeDirection P O s).2 with hw
      set w' := (computeDirection P O s').2 with hw'
      have hF : Fr P { w with recalc := false } { w' with recalc := false } :=
        ⟨⟨⟨h2.xs, h2.us, h2.feas⟩, h2.cost, h2.fs, h2.preg, h2.dreg, h2.iter, h2.wasFeas⟩, rfl, h2.x0, h2.d,
          h2.datas, h2.tdata, h2.lin⟩
      have hI := hF.increase (c := c)
      by_cases hm : (increaseReg c { w with recalc := false }).preg = c.reg.max
      · rw [if_pos hm] at hr
        rw [if_pos (hI.preg ▸ hm)]
        simp only [Option.some.injEq, Prod.mk.injEq] at hr
        obtain ⟨rfl, rfl⟩ := hr
        exact ⟨_, rfl, hI, by simp⟩
      · rw [if_neg hm] at hr
        rw [if_neg (hI.preg ▸ hm)]
        exact ih (.inr ⟨hI, by simp [increaseReg]⟩) hr

/-- Agreement during the line search. -/
structure Ba (P : Prob K X DX U) (kind : Kind) (R : D → D → Prop) (s s' : St K X DX U L D) : Prop extends
    Fr P s s', Di P R s s' where
  dd : kind.feasibilityDriven = false → s.d0 = s'.d0 ∧ s.d1 = s'.d1

theorem Fr.prepare (hO : ReadsFresh P O kind R) {s s' : St K X DX U L D} (h : Fr P s s') (hd : Di P R s s') :
    Ba P kind R (prepare O kind s) (prepare O kind s') := by
  unfold Solve.prepare
  cases hk : kind.feasibilityDriven with
  | true =>
    simp only [if_true]
    exact ⟨⟨⟨⟨h.xs, h.us, h.feas⟩, h.cost, h.fs, h.preg, h.dreg, h.iter, h.wasFeas⟩, rfl, h.x0, h.d, h.datas,
      h.tdata, h.lin⟩, ⟨hd.k, hd.gain, hO.upd s s' h.toSameCand h.fs hd.dir⟩, by simp [hk]⟩
  | false =>
    have e := hO.exp s s' h.toSameCand h.fs hd.dir (by simp [hk])
    simp only [Bool.false_eq_true, if_false]
    exact ⟨⟨⟨⟨h.xs, h.us, h.feas⟩, h.cost, h.fs, h.preg, h.dreg, h.iter, h.wasFeas⟩, rfl, h.x0,
      fun _ => by simp [e], h.datas, h.tdata, h.lin⟩, ⟨hd.k, hd.gain, hd.dir⟩, fun _ => by simp [e]⟩

/-- Agreement in the forward pass before node `t`. -/
structure Fw (P : Prob K X DX U) (kind : Kind) (R : D → D → Prop) (t : Nat) (s s' : St K X DX U L D) : Prop extends
    Ba P kind R s s' where
  steplength : s.steplength = s'.steplength
  costTry : s.costTry = s'.costTry
  xnext : kind ≠ .ddp → s.xnext = s'.xnext
  xsTry : ∀ i < t, s.xsTry i = s'.xsTry i
  xsDdp : kind = .ddp → s.xsTry t = s'.xsTry t
  usTry : ∀ i < t, (P.node i).nuZero = false → s.usTry i = s'.usTry i

/-- Same outcome of a function on two states. -/
def SameRes (Q Q' : St K X DX U L D → St K X DX U L D → Prop) :
    Res (St K X DX U L D) Unit → Res (St K X DX U L D) Unit → Prop
  | .ok _ s, .ok _ s' => Q s s'
  | .throw s, .throw s' => Q' s s'
  | .ub, .ub => True
  | _, _ => False

theorem SameRes.bind {Q Q' T' : St K X DX U L D → St K X DX U L D → Prop}
    {m : Cpp (St K X DX U L D) Unit} {f : Unit → Cpp (St K X DX U L D) Unit} {s s' : St K X DX U L D}
    (h : SameRes Q Q' (m s) (m s')) (hf : ∀ v v', Q v v' → SameRes T' Q' (f () v) (f () v')) :
    SameRes T' Q' ((m >>= f) s) ((m >>= f) s') := by
  rw [Cpp.bind_apply, Cpp.bind_apply]
  cases h1 : m s <;> cases h2 : m s' <;> simp only [h1, h2, SameRes] at h ⊢
  · exact hf _ _ h
  · exact h

/-- The body of the forward pass without its tests. -/
def bodyPlace (P : Prob K X DX U) (kind : Kind) (a : K) (b : Bool) (t : Nat) (s : St K X DX U L D) :
    St K X DX U L D :=
  if kind = .ddp then s
  else { s with xsTry := upd s.xsTry t (if b then (P.node t).integ s.xnext ((a - 1) • s.fs t) else s.xnext) }

def bodyTry (P : Prob K X DX U) (kind : Kind) (a : K) (t : Nat) (s : St K X DX U L D) : St K X DX U L D :=
  if (P.node t).nuZero then { s with datas := upd s.datas t ((P.node t).evalT (s.xsTry t)) }
  else
    let u := s.us t - a • s.k t - s.gain t ((P.node t).diff (s.xs t) (s.xsTry t))
    let u := if kind.box then (P.node t).clamp u else u
    { s with usTry := upd s.usTry t u, datas := upd s.datas t ((P.node t).eval (s.xsTry t) u) }

def bodyMove (kind : Kind) (t : Nat) (s : St K X DX U L D) : St K X DX U L D :=
  if kind = .ddp then
    { s with xsTry := upd s.xsTry (t + 1) (s.datas t).1, costTry := s.costTry + (s.datas t).2 }
  else { s with xnext := (s.datas t).1, costTry := s.costTry + (s.datas t).2 }

theorem fwdBody_eq (a : K) (b : Bool) (t : Nat) (s : St K X DX U L D) :
    fwdBody P O kind a b t s =
      (let v := bodyMove kind t (bodyTry P kind a t (bodyPlace P kind a b t s))
       if O.bad v.costTry then .throw v else if O.badX (v.datas t).1 then .throw v else .ok () v) := by
  have h1 : ∀ s : St K X DX U L D, tryNode P kind a t s = .ok () (bodyTry P kind a t s) := by
    intro s
    unfold tryNode bodyTry
    by_cases hz : (P.node t).nuZero = true
    · simp only [if_pos hz]
    · simp only [if_neg hz]
  cases kind <;>
  · simp only [fwdBody, Cpp.bind_apply, Cpp.pure_apply, Cpp.modify_apply, h1, Cpp.get_apply, Cpp.throwIf_apply,
      bodyPlace, bodyMove, if_true, if_false, reduceCtorEq]
    split_ifs <;> rfl

theorem Fw.body {t : Nat} {s s' : St K X DX U L D} (h : Fw P kind R t s s') (ht : t < P.T) (a : K) (b : Bool) :
    SameRes (Fw P kind R (t + 1)) (fun v v' => Ba P kind R v v' ∧ v.steplength = v'.steplength)
      (fwdBody P O kind a b t s) (fwdBody P O kind a b t s') := by
  -- the state the node is tried at
  have hp : Fw P kind R t (bodyPlace P kind a b t s) (bodyPlace P kind a b t s') ∧
      (bodyPlace P kind a b t s).xsTry t = (bodyPlace P kind a b t s').xsTry t := by
    unfold bodyPlace
    by_cases hk : kind = .ddp
    · simp only [if_pos hk]; exact ⟨h, h.xsDdp hk⟩
    · simp only [if_neg hk]
      have e : (if b then (P.node t).integ s.xnext ((a - 1) • s.fs t) else s.xnext) =
          (if b then (P.node t).integ s'.xnext ((a - 1) • s'.fs t) else s'.xnext) := by
        rw [h.xnext hk, h.fs t ht.le]
      refine ⟨⟨⟨⟨⟨⟨h.xs, h.us, h.feas⟩, h.cost, h.fs, h.preg, h.dreg, h.iter, h.wasFeas⟩, h.recalc, ?_, h.d,
        h.datas, h.tdata, h.lin⟩, ⟨h.k, h.gain, h.dir⟩, h.dd⟩, h.steplength, h.costTry, h.xnext, ?_,
        fun hd => absurd hd hk, h.usTry⟩, ?_⟩
      · by_cases h0 : 0 = t
        · simp only [upd, h0, if_true]; exact e
        · simp only [upd, h0, if_false]; exact h.x0
      · intro i hi
        simp only [upd, Nat.ne_of_lt hi, if_false]; exact h.xsTry i hi
      · simp only [upd, if_true]; exact e
  rw [fwdBody_eq, fwdBody_eq]
  generalize bodyPlace P kind a b t s = v at hp
  generalize bodyPlace P kind a b t s' = v' at hp
  obtain ⟨h, hx⟩ := hp
  -- the node
  have hq : Ba P kind R (bodyTry P kind a t v) (bodyTry P kind a t v') ∧
      (bodyTry P kind a t v).steplength = (bodyTry P kind a t v').steplength ∧
      (bodyTry P kind a t v).costTry = (bodyTry P kind a t v').costTry ∧
      (∀ i < t + 1, (bodyTry P kind a t v).xsTry i = (bodyTry P kind a t v').xsTry i) ∧
      (∀ i < t + 1, (P.node i).nuZero = false → (bodyTry P kind a t v).usTry i = (bodyTry P kind a t v').usTry i) := by
    have hxs : ∀ i < t + 1, v.xsTry i = v'.xsTry i := by
      intro i hi
      rcases Nat.lt_succ_iff_lt_or_eq.mp hi with hi | rfl
      · exact h.xsTry i hi
      · exact hx
    unfold bodyTry
    by_cases hz : (P.node t).nuZero = true
    · simp only [if_pos hz]
      refine ⟨⟨⟨⟨⟨h.xs, h.us, h.feas⟩, h.cost, h.fs, h.preg, h.dreg, h.iter, h.wasFeas⟩, h.recalc, h.x0, h.d,
        ?_, h.tdata, h.lin⟩, ⟨h.k, h.gain, h.dir⟩, h.dd⟩, h.steplength, h.costTry, hxs, ?_⟩
      · simp only [h.datas, hx]
      · intro i hi hn
        rcases Nat.lt_succ_iff_lt_or_eq.mp hi with hi | rfl
        · exact h.usTry i hi hn
        · rw [hz] at hn; exact absurd hn (by simp)
    · have hz' : (P.node t).nuZero = false := by simpa using hz
      simp only [if_neg hz]
      have eu : v.us t - a • v.k t - v.gain t ((P.node t).diff (v.xs t) (v.xsTry t)) =
          v'.us t - a • v'.k t - v'.gain t ((P.node t).diff (v'.xs t) (v'.xsTry t)) := by
        rw [h.us t ht hz', h.k t ht hz', h.gain t ht, h.xs t ht.le, hx]
      refine ⟨⟨⟨⟨⟨h.xs, h.us, h.feas⟩, h.cost, h.fs, h.preg, h.dreg, h.iter, h.wasFeas⟩, h.recalc, h.x0, h.d,
        ?_, h.tdata, h.lin⟩, ⟨h.k, h.gain, h.dir⟩, h.dd⟩, h.steplength, h.costTry, hxs, ?_⟩
      · simp only [eu, h.datas]; rw [hx]
      · intro i hi hn
        rcases Nat.lt_succ_iff_lt_or_eq.mp hi with hi | rfl
        · simp only [upd, Nat.ne_of_lt hi, if_false]; exact h.usTry i hi hn
        · simp only [upd, if_true, eu]
  generalize bodyTry P kind a t v = w at hq
  generalize bodyTry P kind a t v' = w' at hq
  obtain ⟨h, hst, hct, hxs, hus⟩ := hq
  -- the next state
  have hm : Fw P kind R (t + 1) (bodyMove kind t w) (bodyMove kind t w') := by
    unfold bodyMove
    by_cases hk : kind = .ddp
    · simp only [if_pos hk]
      refine ⟨⟨⟨⟨⟨h.xs, h.us, h.feas⟩, h.cost, h.fs, h.preg, h.dreg, h.iter, h.wasFeas⟩, h.recalc, ?_, h.d,
        h.datas, h.tdata, h.lin⟩, ⟨h.k, h.gain, h.dir⟩, h.dd⟩, hst, ?_, fun hd => absurd hk hd, ?_, ?_, hus⟩
      · simp [upd, h.x0]
      · simp only [hct, h.datas]
      · intro i hi
        simp only [upd, Nat.ne_of_lt hi, if_false]; exact hxs i hi
      · intro _; simp only [upd, if_true, h.datas]
    · simp only [if_neg hk]
      refine ⟨⟨⟨⟨⟨h.xs, h.us, h.feas⟩, h.cost, h.fs, h.preg, h.dreg, h.iter, h.wasFeas⟩, h.recalc, h.x0, h.d,
        h.datas, h.tdata, h.lin⟩, ⟨h.k, h.gain, h.dir⟩, h.dd⟩, hst, ?_, ?_, hxs, fun hd => absurd hd hk, hus⟩
      · simp only [hct, h.datas]
      · intro _; simp only [h.datas]
  generalize bodyMove kind t w = y at hm
  generalize bodyMove kind t w' = y' at hm
  simp only [← hm.costTry, ← hm.datas]
  split_ifs
  · exact ⟨hm.toBa, hm.steplength⟩
  · exact ⟨hm.toBa, hm.steplength⟩
  · exact hm

theorem Fw.loop (a : K) (b : Bool) (n : Nat) {t : Nat} {s s' : St K X DX U L D} (h : Fw P kind R t s s')
    (ht : t + n ≤ P.T) :
    SameRes (Fw P kind R (t + n)) (fun v v' => Ba P kind R v v' ∧ v.steplength = v'.steplength)
      (Cpp.forLoop t n (fwdBody P O kind a b) s) (Cpp.forLoop t n (fwdBody P O kind a b) s') := by
  induction n generalizing t s s' with
  | zero => exact h
  | succ n ih =>
    unfold Cpp.forLoop
    refine SameRes.bind (Q := Fw P kind R (t + 1)) (h.body (by omega) a b) fun v v' hv => ?_
    have := ih hv (by omega)
    rwa [show t + 1 + n = t + (n + 1) by omega] at this

/-- Agreement after a trial. -/
structure Tr (P : Prob K X DX U) (kind : Kind) (R : D → D → Prop) (s s' : St K X DX U L D) : Prop extends
    Ba P kind R s s' where
  steplength : s.steplength = s'.steplength
  costTry : s.costTry = s'.costTry
  xsTry : ∀ i ≤ P.T, s.xsTry i = s'.xsTry i
  usTry : ∀ i < P.T, (P.node i).nuZero = false → s.usTry i = s'.usTry i

theorem Fw.term {s s' : St K X DX U L D} (h : Fw P kind R P.T s s') (a : K) (b : Bool) :
    SameRes (Tr P kind R) (fun v v' => Ba P kind R v v' ∧ v.steplength = v'.steplength)
      (fwdTerm P O kind a b s) (fwdTerm P O kind a b s') := by
  have heq : ∀ s : St K X DX U L D, fwdTerm P O kind a b s =
      (let w : St K X DX U L D := if kind = .ddp then s
        else { s with xsTry := upd s.xsTry P.T (if b then P.tinteg s.xnext ((a - 1) • s.fs P.T) else s.xnext) }
       let v : St K X DX U L D :=
        { w with tdata := P.tcost (w.xsTry P.T), costTry := w.costTry + P.tcost (w.xsTry P.T) }
       if O.bad v.costTry then .throw v else .ok () v) := by
    intro s
    cases kind <;>
    · simp only [fwdTerm, Cpp.bind_apply, Cpp.pure_apply, Cpp.modify_apply, Cpp.get_apply, Cpp.throwIf_apply,
        if_true, if_false, reduceCtorEq]
  have hp : ∃ w w' : St K X DX U L D, (if kind = .ddp then s
        else { s with xsTry := upd s.xsTry P.T (if b then P.tinteg s.xnext ((a - 1) • s.fs P.T) else s.xnext) }) = w ∧
      (if kind = .ddp then s' else { s' with
        xsTry := upd s'.xsTry P.T (if b then P.tinteg s'.xnext ((a - 1) • s'.fs P.T) else s'.xnext) }) = w' ∧
      Tr P kind R w w' := by
    refine ⟨_, _, rfl, rfl, ?_⟩
    by_cases hk : kind = .ddp
    · simp only [if_pos hk]
      refine ⟨h.toBa, h.steplength, h.costTry, fun i hi => ?_, h.usTry⟩
      rcases Nat.lt_or_eq_of_le hi with hi | rfl
      · exact h.xsTry i hi
      · exact h.xsDdp hk
    · simp only [if_neg hk]
      have e : (if b then P.tinteg s.xnext ((a - 1) • s.fs P.T) else s.xnext) =
          (if b then P.tinteg s'.xnext ((a - 1) • s'.fs P.T) else s'.xnext) := by
        rw [h.xnext hk, h.fs P.T le_rfl]
      refine ⟨⟨⟨⟨⟨h.xs, h.us, h.feas⟩, h.cost, h.fs, h.preg, h.dreg, h.iter, h.wasFeas⟩, h.recalc, ?_, h.d,
        h.datas, h.tdata, h.lin⟩, ⟨h.k, h.gain, h.dir⟩, h.dd⟩, h.steplength, h.costTry, ?_, h.usTry⟩
      · by_cases h0 : 0 = P.T
        · simp only [upd, h0, if_true]; exact e
        · simp only [upd, h0, if_false]; exact h.x0
      · intro i hi
        rcases Nat.lt_or_eq_of_le hi with hi | rfl
        · simp only [upd, Nat.ne_of_lt hi, if_false]; exact h.xsTry i hi
        · simp only [upd, if_true]; exact e
  obtain ⟨w, w', e, e', h⟩ := hp
  rw [heq, heq]
  simp only [e, e']
  have hx := h.xsTry P.T le_rfl
  have hv : Tr P kind R { w with tdata := P.tcost (w.xsTry P.T), costTry := w.costTry + P.tcost (w.xsTry P.T) }
      { w' with tdata := P.tcost (w'.xsTry P.T), costTry := w'.costTry + P.tcost (w'.xsTry P.T) } :=
    ⟨⟨⟨⟨⟨h.xs, h.us, h.feas⟩, h.cost, h.fs, h.preg, h.dreg, h.iter, h.wasFeas⟩, h.recalc, h.x0, h.d, h.datas,
      by simp only [hx], h.lin⟩, ⟨h.k, h.gain, h.dir⟩, h.dd⟩, h.steplength, by simp only [hx, h.costTry],
      h.xsTry, h.usTry⟩
  have last : ∀ y y' : St K X DX U L D, Tr P kind R y y' →
      SameRes (Tr P kind R) (fun v v' => Ba P kind R v v' ∧ v.steplength = v'.steplength)
        (if O.bad y.costTry then .throw y else .ok () y) (if O.bad y'.costTry then .throw y' else .ok () y') := by
    intro y y' h
    rw [← h.costTry]
    split_ifs
    · exact ⟨h.toBa, h.steplength⟩
    · exact h
  exact last _ _ hv

theorem Ba.pass {s s' : St K X DX U L D} (h : Ba P kind R s s') (hs : s.steplength = s'.steplength) (a : K) :
    SameRes (Tr P kind R) (fun v v' => Ba P kind R v v' ∧ v.steplength = v'.steplength)
      (forwardPass P O kind a s) (forwardPass P O kind a s') := by
  unfold forwardPass
  refine SameRes.bind (Q := fun v v' => Ba P kind R v v' ∧ v.steplength = v'.steplength) ?_ fun v v' hv => ?_
  · simp only [Cpp.throwIf_apply]
    split_ifs <;> exact ⟨h, hs⟩
  obtain ⟨h, hs⟩ := hv
  have hw : Fw P kind R 0 { v with costTry := 0, xnext := if kind = .ddp then v.xnext else P.x0 }
      { v' with costTry := 0, xnext := if kind = .ddp then v'.xnext else P.x0 } :=
    ⟨⟨⟨⟨⟨h.xs, h.us, h.feas⟩, h.cost, h.fs, h.preg, h.dreg, h.iter, h.wasFeas⟩, h.recalc, h.x0, h.d, h.datas,
      h.tdata, h.lin⟩, ⟨h.k, h.gain, h.dir⟩, h.dd⟩, hs, rfl, fun hk => by simp [hk], by simp, fun _ => h.x0, by simp⟩
  have key : ∀ (op : Bool) (w w' : St K X DX U L D), Fw P kind R 0 w w' →
      SameRes (Tr P kind R) (fun v v' => Ba P kind R v v' ∧ v.steplength = v'.steplength)
        ((Cpp.forLoop 0 P.T (fwdBody P O kind a (kind.feasibilityDriven && op)) >>= fun _ =>
          fwdTerm P O kind a (decide (kind ≠ .ddp) && op)) w)
        ((Cpp.forLoop 0 P.T (fwdBody P O kind a (kind.feasibilityDriven && op)) >>= fun _ =>
          fwdTerm P O kind a (decide (kind ≠ .ddp) && op)) w') := by
    intro op w w' h0
    have hl := h0.loop (O := O) a (kind.feasibilityDriven && op) P.T (by simp)
    rw [Nat.zero_add] at hl
    exact SameRes.bind hl fun y y' (hy : Fw P kind R P.T y y') => hy.term a _
  have k1 := key (!v'.feas && decide (a ≠ 1)) _ _ hw
  have e : (!v.feas && decide (a ≠ 1)) = (!v'.feas && decide (a ≠ 1)) := by rw [h.feas]
  show SameRes _ _ ((Cpp.forLoop 0 P.T (fwdBody P O kind a (kind.feasibilityDriven && (!v.feas && decide (a ≠ 1)))) >>=
      fun _ => fwdTerm P O kind a (decide (kind ≠ .ddp) && (!v.feas && decide (a ≠ 1))))
        { v with costTry := 0, xnext := if kind = .ddp then v.xnext else P.x0 }) _
  rw [e]
  exact k1

/-- Agreement after a successful evaluation of a step length. -/
structure Pr (P : Prob K X DX U) (kind : Kind) (R : D → D → Prop) (s s' : St K X DX U L D) : Prop extends
    Tr P kind R s s' where
  dV : s.dV = s'.dV
  dVexp : s.dVexp = s'.dVexp
  d0 : s.d0 = s'.d0
  d1 : s.d1 = s'.d1

theorem Ba.probe (hO : ReadsFresh P O kind R) {s s' : St K X DX U L D} (h : Ba P kind R s s') (a : K) :
    (∃ v v', Solve.probe P O kind a s = (none, v) ∧ Solve.probe P O kind a s' = (none, v') ∧
      Ba P kind R v v' ∧ v.steplength = v'.steplength) ∨
    (∃ v v', Solve.probe P O kind a s = (some (), v) ∧ Solve.probe P O kind a s' = (some (), v') ∧
      Pr P kind R v v') := by
  have h1 : Ba P kind R { s with steplength := a } { s' with steplength := a } :=
    ⟨⟨⟨⟨h.xs, h.us, h.feas⟩, h.cost, h.fs, h.preg, h.dreg, h.iter, h.wasFeas⟩, h.recalc, h.x0, h.d, h.datas,
      h.tdata, h.lin⟩, ⟨h.k, h.gain, h.dir⟩, h.dd⟩
  have hp := h1.pass (O := O) rfl a
  unfold Solve.probe tryStep
  simp only [Cpp.bind_apply]
  cases e1 : forwardPass P O kind a { s with steplength := a } <;>
    cases e2 : forwardPass P O kind a { s' with steplength := a } <;>
    simp only [e1, e2, SameRes] at hp
  · rename_i _ v _ v'
    refine .inr ?_
    simp only [Cpp.modify_apply]
    have hT : Tr P kind R { v with dV := v.cost - v.costTry } { v' with dV := v'.cost - v'.costTry } :=
      ⟨⟨⟨⟨⟨hp.xs, hp.us, hp.feas⟩, hp.cost, hp.fs, hp.preg, hp.dreg, hp.iter, hp.wasFeas⟩, hp.recalc, hp.x0, hp.d,
        hp.datas, hp.tdata, hp.lin⟩, ⟨hp.k, hp.gain, hp.dir⟩, hp.dd⟩, hp.steplength, hp.costTry, hp.xsTry, hp.usTry⟩
    have hdV : v.cost - v.costTry = v'.cost - v'.costTry := by rw [hp.cost, hp.costTry]
    have fin : ∀ y y' : St K X DX U L D, Tr P kind R y y' → y.dV = y'.dV →
        ∃ v v', ((some () : Option Unit), ({ (if kind.feasibilityDriven then
            { y with d0 := (O.expImp y).1, d1 := (O.expImp y).2 } else y) with
            dVexp := a * ((if kind.feasibilityDriven then
              { y with d0 := (O.expImp y).1, d1 := (O.expImp y).2 } else y).d0 + (1 / 2) * a *
              (if kind.feasibilityDriven then
              { y with d0 := (O.expImp y).1, d1 := (O.expImp y).2 } else y).d1) } : St K X DX U L D)) = (some (), v) ∧
          ((some () : Option Unit), ({ (if kind.feasibilityDriven then
            { y' with d0 := (O.expImp y').1, d1 := (O.expImp y').2 } else y') with
            dVexp := a * ((if kind.feasibilityDriven then
              { y' with d0 := (O.expImp y').1, d1 := (O.expImp y').2 } else y').d0 + (1 / 2) * a *
              (if kind.feasibilityDriven then
              { y' with d0 := (O.expImp y').1, d1 := (O.expImp y').2 } else y').d1) } : St K X DX U L D)) = (some (), v') ∧
          Pr P kind R v v' := by
      intro y y' hT hyd
      cases hk : kind.feasibilityDriven with
      | true =>
        have e := hO.exp y y' hT.toSameCand hT.fs hT.dir fun _ => hT.xsTry
        simp only [if_true]
        refine ⟨_, _, rfl, rfl, ?_⟩
        exact ⟨⟨⟨⟨⟨⟨hT.xs, hT.us, hT.feas⟩, hT.cost, hT.fs, hT.preg, hT.dreg, hT.iter, hT.wasFeas⟩, hT.recalc,
          hT.x0, fun _ => by simp [e], hT.datas, hT.tdata, hT.lin⟩, ⟨hT.k, hT.gain, hT.dir⟩, fun _ => by simp [e]⟩,
          hT.steplength, hT.costTry, hT.xsTry, hT.usTry⟩, hyd, by simp [e], by simp [e], by simp [e]⟩
      | false =>
        simp only [Bool.false_eq_true, if_false]
        refine ⟨_, _, rfl, rfl, ?_⟩
        obtain ⟨e0, e1⟩ := hT.dd hk
        exact ⟨⟨⟨⟨⟨⟨hT.xs, hT.us, hT.feas⟩, hT.cost, hT.fs, hT.preg, hT.dreg, hT.iter, hT.wasFeas⟩, hT.recalc,
          hT.x0, hT.d, hT.datas, hT.tdata, hT.lin⟩, ⟨hT.k, hT.gain, hT.dir⟩, hT.dd⟩,
          hT.steplength, hT.costTry, hT.xsTry, hT.usTry⟩, hyd, by simp [e0, e1], e0, e1⟩
    exact fin _ _ hT hdV
  · exact .inl ⟨_, _, rfl, rfl, hp.1, hp.2⟩
  · exact .inl ⟨_, _, rfl, rfl, h1, rfl⟩

theorem Pr.accepts {s s' : St K X DX U L D} (h : Pr P kind R s s') : accepts c kind s = accepts c kind s' := by
  simp only [Solve.accepts, h.dV, h.dVexp, h.d0, h.feas]

theorem Pr.accept {s s' : St K X DX U L D} (h : Pr P kind R s s') : Fr P (accept kind s) (accept kind s') :=
  ⟨⟨⟨h.xsTry, h.usTry, by simp only [Solve.accept, h.feas, h.steplength]⟩, h.costTry, h.fs, h.preg, h.dreg, h.iter,
    h.feas⟩, rfl, h.xsTry 0 (Nat.zero_le _), fun _ => ⟨h.d0, h.d1⟩, h.datas, h.tdata, h.lin⟩

theorem Ba.lineSearch (hO : ReadsFresh P O kind R) (as : List K) {s s' : St K X DX U L D} (h : Ba P kind R s s') :
    Fr P (Solve.lineSearch P c O kind as s) (Solve.lineSearch P c O kind as s') ∧
    ((as ≠ [] ∨ s.steplength = s'.steplength) →
      (Solve.lineSearch P c O kind as s).steplength = (Solve.lineSearch P c O kind as s').steplength) := by
  induction as generalizing s s' with
  | nil => exact ⟨h.toFr, fun h => h.resolve_left (by simp)⟩
  | cons a as ih =>
    unfold Solve.lineSearch
    rcases h.probe hO a with ⟨v, v', e, e', hv, hs⟩ | ⟨v, v', e, e', hv⟩
    · simp only [e, e']
      exact ⟨(ih hv).1, fun _ => (ih hv).2 (.inr hs)⟩
    · simp only [e, e', hv.accepts]
      split_ifs
      · exact ⟨hv.accept, fun _ => hv.steplength⟩
      · exact ⟨(ih hv.toBa).1, fun _ => (ih hv.toBa).2 (.inr hv.steplength)⟩

/-- Whether the next derivatives are due is as at the head of the loop: only an accepted step asks for them. -/
theorem iteration_same (hO : ReadsFresh P O kind R) (hne : c.alphas ≠ []) (fuel : Nat) {s s' : St K X DX U L D}
    (h : Head P s s') {e : Exit} {b : Bool} {v : St K X DX U L D}
    (hr : iteration P c O kind fuel s = some (e, b, v)) :
    ∃ v', iteration P c O kind fuel s' = some (e, b, v') ∧ Fr P v v' ∧
      (e ≠ .giveUp → v.steplength = v'.steplength ∧ (v.wasFeas = true → v.stop = v'.stop)) := by
  unfold iteration at hr ⊢
  cases hd : dirLoop P c O fuel s with
  | none => simp [hd] at hr
  | some r =>
    obtain ⟨ok, w⟩ := r
    obtain ⟨w', hd', hF, hD⟩ := dirLoop_same hO fuel h hd
    rw [hd] at hr
    rw [hd']
    cases ok with
    | false =>
      simp only [Option.some.injEq, Prod.mk.injEq] at hr
      obtain ⟨rfl, rfl, rfl⟩ := hr
      exact ⟨w', rfl, hF, by simp⟩
    | true =>
      obtain ⟨hL, hst⟩ := (hF.prepare hO (hD rfl)).lineSearch (c := c) hO c.alphas
      have hst := hst (.inl hne)
      simp only at hr ⊢
      generalize Solve.lineSearch P c O kind c.alphas (prepare O kind w) = y at hr hL hst
      generalize Solve.lineSearch P c O kind c.alphas (prepare O kind w') = y' at hL hst
      -- the regularisation
      have hdec : Fr P (if y.steplength > c.thStepdec then decreaseReg c y else y)
          (if y'.steplength > c.thStepdec then decreaseReg c y' else y') ∧
          (if y.steplength > c.thStepdec then decreaseReg c y else y).steplength =
          (if y'.steplength > c.thStepdec then decreaseReg c y' else y').steplength := by
        rw [← hst]
        split_ifs
        · exact ⟨hL.decrease, hst⟩
        · exact ⟨hL, hst⟩
      generalize (if y.steplength > c.thStepdec then decreaseReg c y else y) = z at hr hdec
      generalize (if y'.steplength > c.thStepdec then decreaseReg c y' else y') = z' at hdec
      obtain ⟨hL, hst⟩ := hdec
      have hinc : Fr P (if decide (z.steplength ≤ c.thStepinc) = true then increaseReg c z else z)
          (if decide (z'.steplength ≤ c.thStepinc) = true then increaseReg c z' else z') ∧
          (if decide (z.steplength ≤ c.thStepinc) = true then increaseReg c z else z).steplength =
          (if decide (z'.steplength ≤ c.thStepinc) = true then increaseReg c z' else z').steplength := by
        rw [← hst]
        split_ifs
        · exact ⟨hL.increase, hst⟩
        · exact ⟨hL, hst⟩
      rw [← hst]
      rw [← hst] at hinc
      generalize decide (z.steplength ≤ c.thStepinc) = up at *
      generalize (if up = true then increaseReg c z else z) = q at hr hinc
      generalize (if up = true then increaseReg c z' else z') = q' at hinc
      obtain ⟨hL, hst⟩ := hinc
      rw [← hL.preg]
      by_cases hg : (up && decide (q.preg = c.reg.max)) = true
      · rw [if_pos hg] at hr ⊢
        simp only [Option.some.injEq, Prod.mk.injEq] at hr
        obtain ⟨rfl, rfl, rfl⟩ := hr
        exact ⟨q', rfl, hL, by simp⟩
      · rw [if_neg hg] at hr ⊢
        have hS : Fr P (stopping q) (stopping q') :=
          ⟨⟨⟨hL.xs, hL.us, hL.feas⟩, hL.cost, hL.fs, hL.preg, hL.dreg, hL.iter, hL.wasFeas⟩, hL.recalc, hL.x0,
            hL.d, hL.datas, hL.tdata, hL.lin⟩
        have hstop : q.wasFeas = true → (stopping q).stop = (stopping q').stop := by
          intro hw
          obtain ⟨e0, e1⟩ := hL.d hw
          simp only [stopping, e0, e1]
        have htest : ((stopping q).wasFeas && decide ((stopping q).stop < c.thStop)) =
            ((stopping q').wasFeas && decide ((stopping q').stop < c.thStop)) := by
          have hw : (stopping q).wasFeas = (stopping q').wasFeas := hS.wasFeas
          cases hb : (stopping q).wasFeas with
          | false => rw [hb] at hw; rw [← hw]; simp
          | true => rw [hb] at hw; rw [← hw, hstop hb]
        rw [← htest]
        by_cases hc : ((stopping q).wasFeas && decide ((stopping q).stop < c.thStop)) = true
        · rw [if_pos hc] at hr ⊢
          simp only [Option.some.injEq, Prod.mk.injEq] at hr
          obtain ⟨rfl, rfl, rfl⟩ := hr
          exact ⟨_, rfl, hS, fun _ => ⟨hst, hstop⟩⟩
        · rw [if_neg hc] at hr ⊢
          simp only [Option.some.injEq, Prod.mk.injEq] at hr
          obtain ⟨rfl, rfl, rfl⟩ := hr
          exact ⟨_, rfl, hS, fun _ => ⟨hst, hstop⟩⟩

theorem iterLoop_same (hO : ReadsFresh P O kind R) (hne : c.alphas ≠ []) (fuel n : Nat) {s s' : St K X DX U L D}
    (h : Head P s s') (hn : n ≠ 0 ∨ Fr P s s') {o : Outcome K X DX U L D}
    (hr : iterLoop P c O kind fuel n s = some o) :
    ∃ o', iterLoop P c O kind fuel n s' = some o' ∧ o'.ret = o.ret ∧ SameResult P o.final o'.final ∧
      List.Forall₂ (SameSeen P) o.trace o'.trace := by
  induction n generalizing s s' o with
  | zero =>
    simp only [iterLoop, Option.some.injEq] at hr
    subst hr
    exact ⟨_, rfl, rfl, (hn.resolve_left (by simp)).toSameResult, .nil⟩
  | succ n ih =>
    unfold iterLoop at hr ⊢
    cases hit : iteration P c O kind fuel s with
    | none => simp [hit] at hr
    | some r =>
      obtain ⟨e, b, v⟩ := r
      obtain ⟨v', hit', hF, hS⟩ := iteration_same hO hne fuel h hit
      rw [hit] at hr
      rw [hit']
      cases e with
      | giveUp =>
        simp only [Option.some.injEq] at hr
        subst hr
        exact ⟨_, rfl, rfl, hF.toSameResult, .nil⟩
      | converged =>
        simp only [Option.some.injEq] at hr
        subst hr
        obtain ⟨h1, h2⟩ := hS (by simp)
        exact ⟨_, rfl, rfl, hF.toSameResult, .cons ⟨hF.toSameResult, h1, h2⟩ .nil⟩
      | «continue» =>
        simp only [Option.map_eq_some_iff] at hr ⊢
        obtain ⟨o1, ho1, rfl⟩ := hr
        obtain ⟨h1, h2⟩ := hS (by simp)
        have hF' : Fr P { v with iter := v.iter + 1 } { v' with iter := v'.iter + 1 } :=
          ⟨⟨⟨hF.xs, hF.us, hF.feas⟩, hF.cost, hF.fs, hF.preg, hF.dreg, by simp only [hF.iter], hF.wasFeas⟩,
            hF.recalc, hF.x0, hF.d, hF.datas, hF.tdata, hF.lin⟩
        obtain ⟨o1', ho1', hret, hfin, htr⟩ := ih (.inr ⟨hF', fun _ => Nat.succ_ne_zero _⟩) (.inr hF') ho1
        exact ⟨_, ⟨o1', ho1', rfl⟩, hret, hfin, .cons ⟨hF.toSameResult, h1, h2⟩ htr⟩

theorem start_in (P : Prob K X DX U) (c : Cfg K) (xs : Nat → X) (us : Nat → U) (feas : Bool) (regInit : Option K)
    (s s' : St K X DX U L D) : In (start P c xs us feas regInit s) (start P c xs us feas regInit s') :=
  ⟨rfl, rfl, rfl, rfl, rfl, rfl, rfl, rfl, rfl, rfl, rfl, by simp [start, upd]⟩

end
end Verif.Solve
