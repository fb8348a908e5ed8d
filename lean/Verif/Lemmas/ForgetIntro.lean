import Verif.Lemmas.Forget
import Verif.Lemmas.LqSolve
import Verif.Model.IntroSolve

set_option linter.unusedSectionVars false

/-! # Lemmas: `SolverIntro` forgets earlier solves if told to -/

namespace Verif.IntroSolve
open Verif Verif.Solver Verif.Solve

section
variable {K X DX U L D : Type}
variable [Field K] [LinearOrder K] [AddCommGroup DX] [Module K DX] [AddCommGroup U] [Module K U]
variable {P : Prob K X DX U} {E : EqC K X U (St K X DX U L D)} {c : ICfg K} {O : Oracle K X DX U L D}
  {R : D → D → Prop}

theorem dataFeas_congr {s s' : Ist K X DX U L D} (h : ∀ t < P.T, s.hd t = s'.hd t) (ht : s.htd = s'.htd) :
    dataFeas P c s = dataFeas P c s' := by
  unfold dataFeas
  rw [ht, List.map_congr_left (fun t h' => h t (List.mem_range.mp h'))]

/-- Agreement from the first derivatives on. -/
structure IFr (P : Prob K X DX U) (s s' : Ist K X DX U L D) : Prop where
  base : Fr P s.base s'.base
  hd : ∀ t < P.T, s.hd t = s'.hd t
  htd : s.htd = s'.htd
  hfeas : s.hfeas = s'.hfeas
  upsilon : s.upsilon = s'.upsilon
  xt : s.base.iter ≠ 0 → ∀ t ≤ P.T, s.base.xsTry t = s'.base.xsTry t

/-- Situation at the head of the retry loop. -/
def IHead (P : Prob K X DX U) (s s' : Ist K X DX U L D) : Prop :=
  (In s.base s'.base ∧ s.upsilon = s'.upsilon) ∨ (IFr P s s' ∧ (s.base.recalc = true → s.base.iter ≠ 0) ∧
    (s.base.wasFeas = true → s.base.iter ≠ 0))

theorem IHead.base {s s' : Ist K X DX U L D} (h : IHead P s s') : Head P s.base s'.base :=
  h.imp (·.1) fun h => ⟨h.1.base, h.2.1⟩

theorem calcDiff_base (s : Ist K X DX U L D) : (calcDiff P E c O s).base = Solve.calcDiff P O s.base := by
  unfold calcDiff
  by_cases h : s.base.iter = 0 <;> simp [h]

theorem direction_base (s : Ist K X DX U L D) :
    (computeDirection P E c O s).1 = (Solve.computeDirection P O s.base).1 ∧
    (computeDirection P E c O s).2.base = (Solve.computeDirection P O s.base).2 := by
  unfold computeDirection Solve.computeDirection
  by_cases h : s.base.recalc = true
  · simp [h, calcDiff_base]
  · simp [h]

theorem calcDiff_iter (s : St K X DX U L D) : (Solve.calcDiff P O s).iter = s.iter ∧
    (Solve.calcDiff P O s).xsTry = s.xsTry ∧ (Solve.calcDiff P O s).wasFeas = s.wasFeas := by
  unfold Solve.calcDiff problemCalc
  by_cases h : s.iter = 0 <;> simp [h]

theorem direction_iter (s : St K X DX U L D) : (Solve.computeDirection P O s).2.iter = s.iter ∧
    (Solve.computeDirection P O s).2.xsTry = s.xsTry ∧ (Solve.computeDirection P O s).2.wasFeas = s.wasFeas := by
  unfold Solve.computeDirection
  by_cases h : s.recalc = true
  · simp [h, calcDiff_iter]
  · simp [h]

theorem IHead.direction (hO : ReadsFresh P O .fddp R) {s s' : Ist K X DX U L D} (h : IHead P s s') :
    (computeDirection P E c O s).1 = (computeDirection P E c O s').1 ∧
    IFr P (computeDirection P E c O s).2 (computeDirection P E c O s').2 ∧
    ((computeDirection P E c O s).2.base.wasFeas = true → (computeDirection P E c O s).2.base.iter ≠ 0) ∧
    ((computeDirection P E c O s).1 = true →
      Di P R (computeDirection P E c O s).2.base (computeDirection P E c O s').2.base) := by
  obtain ⟨h1, h2, h3⟩ := h.base.direction hO
  obtain ⟨a1, a2⟩ := direction_base (P := P) (E := E) (c := c) (O := O) s
  obtain ⟨b1, b2⟩ := direction_base (P := P) (E := E) (c := c) (O := O) s'
  rw [a1, b1, a2, b2]
  refine ⟨h1, ⟨by rw [a2, b2]; exact h2, ?_, ?_, ?_, ?_, ?_⟩, ?_, h3⟩
  · intro t ht
    rcases h with ⟨h, hu⟩ | ⟨h, hi, -⟩
    · simp [computeDirection, calcDiff, h.recalc, h.recalc', h.iter, h.iter', h.xs, h.us]
    · by_cases hs : s.base.recalc = true
      · have hi' := hi hs
        have hs' : s'.base.recalc = true := h.base.recalc ▸ hs
        have hi'' : s'.base.iter ≠ 0 := h.base.iter ▸ hi'
        simp [computeDirection, calcDiff, hs, hs', hi', hi'', h.hd t ht]
      · have hs' : ¬ s'.base.recalc = true := h.base.recalc ▸ hs
        simp [computeDirection, hs, hs', h.hd t ht]
  · rcases h with ⟨h, hu⟩ | ⟨h, hi, -⟩
    · simp [computeDirection, calcDiff, h.recalc, h.recalc', h.iter, h.iter', h.xs]
    · by_cases hs : s.base.recalc = true
      · have hi' := hi hs
        have hs' : s'.base.recalc = true := h.base.recalc ▸ hs
        have hi'' : s'.base.iter ≠ 0 := h.base.iter ▸ hi'
        simp [computeDirection, calcDiff, hs, hs', hi', hi'', h.htd]
      · have hs' : ¬ s'.base.recalc = true := h.base.recalc ▸ hs
        simp [computeDirection, hs, hs', h.htd]
  · rcases h with ⟨h, hu⟩ | ⟨h, hi, -⟩
    · simp only [computeDirection, calcDiff, h.recalc, h.recalc', h.iter, h.iter', if_true]
      exact dataFeas_congr (fun t _ => by simp [h.xs, h.us]) (by simp [h.xs])
    · by_cases hs : s.base.recalc = true
      · have hi' := hi hs
        have hs' : s'.base.recalc = true := h.base.recalc ▸ hs
        have hi'' : s'.base.iter ≠ 0 := h.base.iter ▸ hi'
        simp only [computeDirection, calcDiff, hs, hs', hi', hi'', if_true, if_false]
        exact dataFeas_congr h.hd h.htd
      · have hs' : ¬ s'.base.recalc = true := h.base.recalc ▸ hs
        simp [computeDirection, hs, hs', h.hfeas]
  · have e : ∀ v : Ist K X DX U L D, (computeDirection P E c O v).2.upsilon = v.upsilon := by
      intro v
      unfold computeDirection calcDiff
      by_cases h1 : v.base.recalc = true <;> by_cases h2 : v.base.iter = 0 <;> simp [h1, h2]
    rw [e, e]
    exact h.elim (·.2) (·.1.upsilon)
  · rw [a2, b2, (direction_iter _).1, (direction_iter _).2.1, (direction_iter _).2.1]
    intro hi
    rcases h with ⟨h, -⟩ | ⟨h, -⟩
    · exact absurd h.iter hi
    · exact h.xt hi
  · rw [(direction_iter _).1, (direction_iter _).2.2]
    rcases h with ⟨h, -⟩ | ⟨-, -, h⟩
    · rw [h.was]; simp
    · exact h

theorem IFr.setRecalc {s s' : Ist K X DX U L D} (h : IFr P s s') (b : Bool) :
    IFr P { s with base := { s.base with recalc := b } } { s' with base := { s'.base with recalc := b } } :=
  ⟨⟨⟨⟨h.base.xs, h.base.us, h.base.feas⟩, h.base.cost, h.base.fs, h.base.preg, h.base.dreg, h.base.iter,
    h.base.wasFeas⟩, rfl, h.base.x0, h.base.d, h.base.datas, h.base.tdata, h.base.lin⟩, h.hd, h.htd, h.hfeas,
    h.upsilon, h.xt⟩

theorem IFr.increase {s s' : Ist K X DX U L D} (h : IFr P s s') :
    IFr P { s with base := increaseReg c.toCfg s.base } { s' with base := increaseReg c.toCfg s'.base } :=
  ⟨h.base.increase, h.hd, h.htd, h.hfeas, h.upsilon, h.xt⟩

theorem IFr.decrease {s s' : Ist K X DX U L D} (h : IFr P s s') :
    IFr P { s with base := decreaseReg c.toCfg s.base } { s' with base := decreaseReg c.toCfg s'.base } :=
  ⟨h.base.decrease, h.hd, h.htd, h.hfeas, h.upsilon, h.xt⟩

theorem dirLoop_same (hO : ReadsFresh P O .fddp R) (fuel : Nat) {s s' : Ist K X DX U L D} (h : IHead P s s')
    {b : Bool} {v : Ist K X DX U L D} (hr : dirLoop P E c O fuel s = some (b, v)) :
    ∃ v', dirLoop P E c O fuel s' = some (b, v') ∧ IFr P v v' ∧ (v.base.wasFeas = true → v.base.iter ≠ 0) ∧
      (b = true → Di P R v.base v'.base) := by
  induction fuel generalizing s s' with
  | zero => simp [dirLoop] at hr
  | succ f ih =>
    obtain ⟨h1, h2, hw, h3⟩ := h.direction (E := E) (c := c) hO
    unfold dirLoop at hr ⊢
    simp only at hr ⊢
    cases hb : (computeDirection P E c O s).1 with
    | true =>
      rw [hb] at hr h1
      simp only [if_true, Option.some.injEq, Prod.mk.injEq] at hr
      obtain ⟨rfl, rfl⟩ := hr
      refine ⟨(computeDirection P E c O s').2, ?_, h2, hw, fun _ => h3 hb⟩
      rw [← h1]; simp
    | false =>
      rw [hb] at hr h1
      rw [← h1]
      simp only [Bool.false_eq_true, if_false] at hr ⊢
      have hF := (h2.setRecalc false).increase (c := c)
      have hp := hF.base.preg
      simp only at hp hF
      rw [← hp]
      split at hr
      · rename_i hm
        simp only [Option.some.injEq, Prod.mk.injEq] at hr
        obtain ⟨rfl, rfl⟩ := hr
        rw [if_pos hm]
        exact ⟨_, rfl, hF, hw, by simp⟩
      · rename_i hm
        rw [if_neg hm]
        exact ih (.inr ⟨hF, fun hc => by simp [increaseReg] at hc, hw⟩) hr

/-- Agreement when the line search begins. -/
structure IBa (P : Prob K X DX U) (R : D → D → Prop) (s s' : Ist K X DX U L D) : Prop where
  base : Ba P .fddp R s.base s'.base
  hd : ∀ t < P.T, s.hd t = s'.hd t
  htd : s.htd = s'.htd
  hfeas : s.hfeas = s'.hfeas
  upsilon : s.upsilon = s'.upsilon

theorem IFr.prepare (hO : ReadsFresh P O .fddp R) {s s' : Ist K X DX U L D} (h : IFr P s s')
    (hd : Di P R s.base s'.base) (hw : s.base.wasFeas = true → s.base.iter ≠ 0) :
    IBa P R (prepare c O s) (prepare c O s') := by
  have hu := hO.upd _ _ h.base.toSameCand h.base.fs hd.dir
  have key : s.base.iter ≠ 0 → O.expImp { s.base with dir := O.updExp s.base } =
      O.expImp { s'.base with dir := O.updExp s'.base } := fun hi =>
    hO.exp _ _ ⟨h.base.xs, h.base.us, h.base.feas⟩ h.base.fs hu fun _ => h.xt hi
  unfold IntroSolve.prepare
  refine ⟨⟨⟨⟨⟨h.base.xs, h.base.us, h.base.feas⟩, h.base.cost, h.base.fs, h.base.preg, h.base.dreg, h.base.iter,
    h.base.wasFeas⟩, rfl, h.base.x0, fun w => ?_, h.base.datas, h.base.tdata, h.base.lin⟩, ⟨hd.k, hd.gain, hu⟩,
    fun hk => by simp [Kind.feasibilityDriven] at hk⟩, h.hd, h.htd, h.hfeas, ?_⟩
  · have e := key (hw w)
    exact ⟨congrArg Prod.fst e, congrArg Prod.snd e⟩
  · have aux : ∀ (hf hf' : K) (i i' : Nat) (u u' : K) (d d' : K × K), hf = hf' → i = i' → u = u' →
        (i ≠ 0 → d = d') →
        (if hf ≠ 0 ∧ i ≠ 0 then max u ((d.1 + (1 / 2) * d.2) / ((1 - c.rho) * hf)) else u) =
        if hf' ≠ 0 ∧ i' ≠ 0 then max u' ((d'.1 + (1 / 2) * d'.2) / ((1 - c.rho) * hf')) else u' := by
      rintro hf _ i _ u _ d d' rfl rfl rfl hd
      by_cases hi : i = 0
      · simp [hi]
      · rw [hd hi]
    exact aux _ _ _ _ _ _ _ _ h.hfeas h.base.iter h.upsilon key

/-- Agreement after a successful trial. -/
structure IPr (P : Prob K X DX U) (R : D → D → Prop) (s s' : Ist K X DX U L D) : Prop where
  base : Pr P .fddp R s.base s'.base
  hd : ∀ t < P.T, s.hd t = s'.hd t
  htd : s.htd = s'.htd
  hfeas : s.hfeas = s'.hfeas
  hfeasTry : s.hfeasTry = s'.hfeasTry
  upsilon : s.upsilon = s'.upsilon
  dPhi : s.dPhi = s'.dPhi
  dPhiexp : s.dPhiexp = s'.dPhiexp

theorem IPr.toIBa {s s' : Ist K X DX U L D} (h : IPr P R s s') : IBa P R s s' :=
  ⟨h.base.toBa, h.hd, h.htd, h.hfeas, h.upsilon⟩

/-- No trial fails. -/
def Calm (O : Oracle K X DX U L D) (as : List K) : Prop :=
  (∀ v, O.bad v = false) ∧ (∀ v, O.badX v = false) ∧ ∀ a ∈ as, 0 ≤ a ∧ a ≤ 1

theorem IBa.probe (hO : ReadsFresh P O .fddp R) {as : List K} (hc : Calm O as) {s s' : Ist K X DX U L D}
    (h : IBa P R s s') {a : K} (ha : a ∈ as) :
    ∃ v v', probe P E c O a s = (some (), v) ∧ probe P E c O a s' = (some (), v') ∧ IPr P R v v' := by
  rcases h.base.probe hO a with ⟨v, v', h1, -, -⟩ | ⟨v, v', h1, h2, hp⟩
  · exfalso
    obtain ⟨w, hw⟩ := forwardPass_ok (P := P) (kind := .fddp) hc.1 hc.2.1 a (hc.2.2 a ha).1 (hc.2.2 a ha).2
      { s.base with steplength := a }
    have ht : ∃ w', tryStep P O .fddp a { s.base with steplength := a } = .ok () w' := by
      unfold tryStep
      rw [Cpp.bind_apply, hw]
      exact ⟨_, rfl⟩
    obtain ⟨w', hw'⟩ := ht
    unfold Solve.probe at h1
    simp only at h1 hw'
    rw [hw'] at h1
    simp at h1
  · have eh : ∀ t < P.T, (if (P.node t).nuZero then E.hx t (v.xsTry t) else E.h t (v.xsTry t) (v.usTry t)) =
        if (P.node t).nuZero then E.hx t (v'.xsTry t) else E.h t (v'.xsTry t) (v'.usTry t) := by
      intro t ht
      by_cases hn : (P.node t).nuZero = true
      · simp only [hn, if_true, hp.xsTry t (by omega)]
      · simp only [hn, hp.xsTry t (by omega), hp.usTry t ht (by simpa using hn)]
    have et : E.ht (v.xsTry P.T) = E.ht (v'.xsTry P.T) := by rw [hp.xsTry P.T le_rfl]
    have ef := dataFeas_congr (c := c) (P := P)
      (s := { s with
        base := v
        hd := fun t => if (P.node t).nuZero then E.hx t (v.xsTry t) else E.h t (v.xsTry t) (v.usTry t)
        htd := E.ht (v.xsTry P.T) })
      (s' := { s' with
        base := v'
        hd := fun t => if (P.node t).nuZero then E.hx t (v'.xsTry t) else E.h t (v'.xsTry t) (v'.usTry t)
        htd := E.ht (v'.xsTry P.T) }) eh et
    unfold IntroSolve.probe
    rw [h1, h2]
    simp only
    refine ⟨_, _, rfl, rfl, ⟨hp, eh, et, h.hfeas, ef, h.upsilon, ?_, ?_⟩⟩
    · show v.dV + s.upsilon * (s.hfeas - _) = v'.dV + s'.upsilon * (s'.hfeas - _)
      rw [ef, hp.dV, h.upsilon, h.hfeas]
    · show v.dVexp + a * s.upsilon * (s.hfeas - _) = v'.dVexp + a * s'.upsilon * (s'.hfeas - _)
      rw [ef, hp.dVexp, h.upsilon, h.hfeas]

theorem IPr.accepts {s s' : Ist K X DX U L D} (h : IPr P R s s') : accepts c s = accepts c s' := by
  unfold IntroSolve.accepts
  rw [h.dPhi, h.dPhiexp, h.base.d0, h.base.dV, h.base.dVexp]

/-- Agreement after the line search. -/
structure IAll (P : Prob K X DX U) (s s' : Ist K X DX U L D) : Prop where
  fr : IFr P s s'
  xsTry : ∀ t ≤ P.T, s.base.xsTry t = s'.base.xsTry t
  dV : s.base.dV = s'.base.dV
  d0 : s.base.d0 = s'.base.d0
  d1 : s.base.d1 = s'.base.d1
  steplength : s.base.steplength = s'.base.steplength

theorem IPr.all {s s' : Ist K X DX U L D} (h : IPr P R s s') : IAll P s s' :=
  ⟨⟨h.base.toFr, h.hd, h.htd, h.hfeas, h.upsilon, fun _ => h.base.xsTry⟩, h.base.xsTry, h.base.dV, h.base.d0,
    h.base.d1, h.base.steplength⟩

theorem IPr.accept {s s' : Ist K X DX U L D} (h : IPr P R s s') : IAll P (accept s) (accept s') :=
  ⟨⟨h.base.accept, h.hd, h.htd, h.hfeasTry, h.upsilon, fun _ => h.base.xsTry⟩, h.base.xsTry, h.base.dV, h.base.d0,
    h.base.d1, h.base.steplength⟩

theorem IBa.lineSearch (hO : ReadsFresh P O .fddp R) {as : List K} (hc : Calm O as) {s s' : Ist K X DX U L D}
    (h : IBa P R s s') (hn : as ≠ [] ∨ IPr P R s s') :
    IAll P (lineSearch P E c O as s) (lineSearch P E c O as s') := by
  induction as generalizing s s' with
  | nil => exact (hn.resolve_left (by simp)).all
  | cons a as ih =>
    obtain ⟨v, v', h1, h2, hp⟩ := h.probe (E := E) (c := c) hO hc (List.mem_cons_self)
    unfold IntroSolve.lineSearch
    rw [h1, h2]
    simp only [← hp.accepts (c := c)]
    by_cases hac : IntroSolve.accepts c v = true
    · rw [if_pos hac, if_pos hac]; exact hp.accept
    · rw [if_neg hac, if_neg hac]
      exact ih ⟨hc.1, hc.2.1, fun b hb => hc.2.2 b (List.mem_cons_of_mem _ hb)⟩ hp.toIBa (.inr hp)

theorem iteration_same (hO : ReadsFresh P O .fddp R) (hne : c.alphas ≠ []) (hc : Calm O c.alphas) (fuel : Nat)
    {s s' : Ist K X DX U L D} (h : IHead P s s') {e : Exit} {q : Option (Ist K X DX U L D)} {v : Ist K X DX U L D}
    (hr : iteration P E c O fuel s = some (e, q, v)) :
    ∃ q' v', iteration P E c O fuel s' = some (e, q', v') ∧ IFr P v v' ∧
      List.Forall₂ (fun p p' => IAll P p p' ∧ p.base.stop = p'.base.stop) q.toList q'.toList ∧
      (e ≠ .giveUp → ∀ t ≤ P.T, v.base.xsTry t = v'.base.xsTry t) := by
  unfold iteration at hr ⊢
  cases hd : dirLoop P E c O fuel s with
  | none => rw [hd] at hr; simp at hr
  | some r =>
    obtain ⟨b, w⟩ := r
    obtain ⟨w', hw', hF, hwi, hD⟩ := dirLoop_same hO fuel h hd
    rw [hd] at hr
    rw [hw']
    cases b with
    | false =>
      simp only [Option.some.injEq, Prod.mk.injEq] at hr ⊢
      obtain ⟨rfl, rfl, rfl⟩ := hr
      exact ⟨none, w', ⟨rfl, rfl, rfl⟩, hF, .nil, by simp⟩
    | true =>
      have hA := (hF.prepare (c := c) hO (hD rfl) hwi).lineSearch (E := E) (c := c) hO hc (.inl hne)
      simp only at hr ⊢
      revert hr hA
      generalize lineSearch P E c O c.alphas (prepare c O w) = y
      generalize lineSearch P E c O c.alphas (prepare c O w') = y'
      intro hA hr
      have hst : (stopping y).base.stop = (stopping y').base.stop := by
        simp only [stopping, hA.fr.hfeas, hA.d0, hA.d1]
      have hS : IAll P (stopping y) (stopping y') :=
        ⟨⟨⟨⟨⟨hA.fr.base.xs, hA.fr.base.us, hA.fr.base.feas⟩, hA.fr.base.cost, hA.fr.base.fs, hA.fr.base.preg,
          hA.fr.base.dreg, hA.fr.base.iter, hA.fr.base.wasFeas⟩, hA.fr.base.recalc, hA.fr.base.x0, hA.fr.base.d,
          hA.fr.base.datas, hA.fr.base.tdata, hA.fr.base.lin⟩, hA.fr.hd, hA.fr.htd, hA.fr.hfeas, hA.fr.upsilon,
          hA.fr.xt⟩, hA.xsTry, hA.dV, hA.d0, hA.d1, hA.steplength⟩
      revert hr hst hS
      generalize stopping y = z
      generalize stopping y' = z'
      intro hr hst hS
      -- after the possible decrease of the regularisation
      have hdec : IAll P
          (if z.base.steplength > c.thStepdec ∧ 0 ≤ z.base.dV then { z with base := decreaseReg c.toCfg z.base } else z)
          (if z'.base.steplength > c.thStepdec ∧ 0 ≤ z'.base.dV then
            { z' with base := decreaseReg c.toCfg z'.base } else z') ∧
          (if z.base.steplength > c.thStepdec ∧ 0 ≤ z.base.dV then { z with base := decreaseReg c.toCfg z.base }
            else z).base.stop =
          (if z'.base.steplength > c.thStepdec ∧ 0 ≤ z'.base.dV then
            { z' with base := decreaseReg c.toCfg z'.base } else z').base.stop := by
        by_cases h1 : z.base.steplength > c.thStepdec ∧ 0 ≤ z.base.dV
        · have h1' : z'.base.steplength > c.thStepdec ∧ 0 ≤ z'.base.dV := by
            rw [← hS.steplength, ← hS.dV]; exact h1
          rw [if_pos h1, if_pos h1']
          exact ⟨⟨hS.fr.decrease, hS.xsTry, hS.dV, hS.d0, hS.d1, hS.steplength⟩, hst⟩
        · have h1' : ¬ (z'.base.steplength > c.thStepdec ∧ 0 ≤ z'.base.dV) := by
            rw [← hS.steplength, ← hS.dV]; exact h1
          rw [if_neg h1, if_neg h1']
          exact ⟨hS, hst⟩
      revert hr hdec
      generalize (if z.base.steplength > c.thStepdec ∧ 0 ≤ z.base.dV then
        { z with base := decreaseReg c.toCfg z.base } else z) = p
      generalize (if z'.base.steplength > c.thStepdec ∧ 0 ≤ z'.base.dV then
        { z' with base := decreaseReg c.toCfg z'.base } else z') = p'
      rintro hr ⟨hp, hps⟩
      have hseen : List.Forall₂ (fun p p' : Ist K X DX U L D => IAll P p p' ∧ p.base.stop = p'.base.stop)
          (some z).toList (some z').toList := .cons ⟨hS, hst⟩ .nil
      rw [← hp.steplength, ← hp.d1, ← hp.fr.base.preg]
      by_cases hup : (decide (p.base.steplength ≤ c.thStepinc) || decide (|p.base.d1| ≤ c.thFeas)) = true
      · rw [hup] at hr ⊢
        by_cases hm : p.base.preg = c.reg.max
        · simp only [hm, decide_true, Bool.and_true, if_true, Option.some.injEq, Prod.mk.injEq] at hr ⊢
          obtain ⟨rfl, rfl, rfl⟩ := hr
          exact ⟨some z', p', ⟨rfl, rfl, rfl⟩, hp.fr, hseen, by simp⟩
        · simp only [hm, decide_false, Bool.and_false, Bool.false_eq_true, if_false, if_true] at hr ⊢
          have hI : IFr P { p with base := increaseReg c.toCfg p.base }
            { p' with base := increaseReg c.toCfg p'.base } := hp.fr.increase
          have ef : (increaseReg c.toCfg p.base).feas = (increaseReg c.toCfg p'.base).feas := hI.base.feas
          have es : (increaseReg c.toCfg p.base).stop = (increaseReg c.toCfg p'.base).stop := hps
          rw [← ef, ← es]
          by_cases hcv : ((increaseReg c.toCfg p.base).feas &&
              decide ((increaseReg c.toCfg p.base).stop < c.thStop)) = true
          · rw [if_pos hcv] at hr ⊢
            simp only [Option.some.injEq, Prod.mk.injEq] at hr ⊢
            obtain ⟨rfl, rfl, rfl⟩ := hr
            exact ⟨_, _, ⟨rfl, rfl, rfl⟩, hI, hseen, fun _ => hp.xsTry⟩
          · rw [if_neg hcv] at hr ⊢
            simp only [Option.some.injEq, Prod.mk.injEq] at hr ⊢
            obtain ⟨rfl, rfl, rfl⟩ := hr
            exact ⟨_, _, ⟨rfl, rfl, rfl⟩, hI, hseen, fun _ => hp.xsTry⟩
      · rw [Bool.not_eq_true] at hup
        rw [hup] at hr ⊢
        simp only [Bool.false_and, Bool.false_eq_true, if_false] at hr ⊢
        rw [← hp.fr.base.feas, ← hps]
        by_cases hcv : (p.base.feas && decide (p.base.stop < c.thStop)) = true
        · rw [if_pos hcv] at hr ⊢
          simp only [Option.some.injEq, Prod.mk.injEq] at hr ⊢
          obtain ⟨rfl, rfl, rfl⟩ := hr
          exact ⟨_, _, ⟨rfl, rfl, rfl⟩, hp.fr, hseen, fun _ => hp.xsTry⟩
        · rw [if_neg hcv] at hr ⊢
          simp only [Option.some.injEq, Prod.mk.injEq] at hr ⊢
          obtain ⟨rfl, rfl, rfl⟩ := hr
          exact ⟨_, _, ⟨rfl, rfl, rfl⟩, hp.fr, hseen, fun _ => hp.xsTry⟩

theorem iterLoop_same (hO : ReadsFresh P O .fddp R) (hne : c.alphas ≠ []) (hc : Calm O c.alphas) (fuel n : Nat)
    {s s' : Ist K X DX U L D} (h : IHead P s s') (hn : n ≠ 0 ∨ IFr P s s') {o : Outcome K X DX U L D}
    (hr : iterLoop P E c O fuel n s = some o) :
    ∃ o', iterLoop P E c O fuel n s' = some o' ∧ o'.ret = o.ret ∧ IFr P o.final o'.final ∧
      List.Forall₂ (fun p p' => IAll P p p' ∧ p.base.stop = p'.base.stop) o.trace o'.trace := by
  induction n generalizing s s' o with
  | zero =>
    simp only [iterLoop, Option.some.injEq] at hr ⊢
    subst hr
    exact ⟨_, rfl, rfl, hn.resolve_left (by simp), .nil⟩
  | succ n ih =>
    unfold iterLoop at hr ⊢
    cases hi : iteration P E c O fuel s with
    | none => rw [hi] at hr; simp at hr
    | some r =>
      obtain ⟨e, q, v⟩ := r
      obtain ⟨q', v', h1, h2, h3, h4⟩ := iteration_same hO hne hc fuel h hi
      rw [hi] at hr
      rw [h1]
      cases e with
      | giveUp =>
        simp only [Option.some.injEq] at hr ⊢
        subst hr
        exact ⟨_, rfl, rfl, h2, h3⟩
      | converged =>
        simp only [Option.some.injEq] at hr ⊢
        subst hr
        exact ⟨_, rfl, rfl, h2, h3⟩
      | «continue» =>
        simp only [Option.map_eq_some_iff] at hr ⊢
        obtain ⟨o1, ho1, rfl⟩ := hr
        have hx := h4 (by simp)
        have hI : IFr P { v with base := { v.base with iter := v.base.iter + 1 } }
            { v' with base := { v'.base with iter := v'.base.iter + 1 } } :=
          ⟨⟨⟨⟨h2.base.xs, h2.base.us, h2.base.feas⟩, h2.base.cost, h2.base.fs, h2.base.preg, h2.base.dreg,
            by simp [h2.base.iter], h2.base.wasFeas⟩, h2.base.recalc, h2.base.x0, h2.base.d, h2.base.datas,
            h2.base.tdata, h2.base.lin⟩, h2.hd, h2.htd, h2.hfeas, h2.upsilon, fun _ => hx⟩
        obtain ⟨o1', g1, g2, g3, g4⟩ := ih (.inr ⟨hI, fun _ => by simp, fun _ => by simp⟩) (.inr hI) ho1
        exact ⟨_, ⟨o1', g1, rfl⟩, g2, g3, List.rel_append h3 g4⟩

end
end Verif.IntroSolve
