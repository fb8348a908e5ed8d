import Verif.Model.IntroNl
import Verif.Props.IntroSolve
import Verif.Props.IntroLq
import Verif.Props.Reformulate

/-! # C132 for SolverIntro: changes of description that keep the costs up to constants -/

set_option linter.unusedSectionVars false

namespace Verif.IntroSolve
open Verif Verif.Solver Verif.Solve

section
variable {K X DX U L D X' DX' U' L' D' : Type}
variable [Field K] [LinearOrder K] [IsStrictOrderedRing K]
variable [AddCommGroup DX] [Module K DX] [AddCommGroup U] [Module K U]
variable [AddCommGroup DX'] [Module K DX'] [AddCommGroup U'] [Module K U']

/-- The equality constraints have the same values in the two descriptions. -/
structure SameEq (F : Change K X DX U X' DX' U') (fL : L → L') (fD : D → D') (T : Nat) (E : EqC K X U (St K X DX U L D))
    (E' : EqC K X' U' (St K X' DX' U' L' D')) : Prop where
  h : ∀ t x u, E'.h t (F.x x) (F.u t u) = E.h t x u
  hx : ∀ t x, E'.hx t (F.x x) = E.hx t x
  ht : ∀ x, E'.ht (F.x x) = E.ht x
  junk : ∀ s tau, E'.junk (s.map F fL fD T tau) = E.junk s
  junkT : ∀ s tau, E'.junkT (s.map F fL fD T tau) = E.junkT s

/-- The state of the solver in the new description. -/
def Ist.map (F : Change K X DX U X' DX' U') (fL : L → L') (fD : D → D') (T : Nat) (tau : K) (s : Ist K X DX U L D) :
    Ist K X' DX' U' L' D' where
  base := s.base.map F fL fD T tau
  hd := s.hd
  htd := s.htd
  hfeas := s.hfeas
  hfeasTry := s.hfeasTry
  upsilon := s.upsilon
  dfeas := s.dfeas
  dPhi := s.dPhi
  dPhiexp := s.dPhiexp
  merit := s.merit + F.total T

variable {F : Change K X DX U X' DX' U'} {P : Prob K X DX U} {P' : Prob K X' DX' U'} {c : ICfg K}
variable {fL : L → L'} {fD : D → D'} {O : Oracle K X DX U L D} {O' : Oracle K X' DX' U' L' D'}
variable {E : EqC K X U (St K X DX U L D)} {E' : EqC K X' U' (St K X' DX' U' L' D')}

theorem scale_one (hl : F.lam = 1) (c : Cfg K) : c.scale F.lam = c := by
  rw [hl]; simp [Cfg.scale]

theorem dataFeas_map (hP : SameProb F P P') (tau : K) (s : Ist K X DX U L D) :
    dataFeas P' c (s.map F fL fD P.T tau) = dataFeas P c s := by
  unfold dataFeas
  rw [hP.T]
  rfl

theorem icalcDiff_map (hP : SameProb F P P') (hO : SameOracle F fL fD P.T (fun _ => True) O O') (hE : SameEq F fL fD P.T E E')
    (tau : K) (s : Ist K X DX U L D) :
    calcDiff P' E' c O' (s.map F fL fD P.T tau) = (calcDiff P E c O s).map F fL fD P.T tau := by
  have h1 : (if (s.map F fL fD P.T tau).base.iter = 0 then
      { s.map F fL fD P.T tau with
        hd := fun t => E'.h t ((s.map F fL fD P.T tau).base.xs t) ((s.map F fL fD P.T tau).base.us t)
        htd := E'.ht ((s.map F fL fD P.T tau).base.xs P'.T) } else s.map F fL fD P.T tau) =
      Ist.map F fL fD P.T tau (if s.base.iter = 0 then
        { s with hd := fun t => E.h t (s.base.xs t) (s.base.us t), htd := E.ht (s.base.xs P.T) } else s) := by
    have e : (s.map F fL fD P.T tau).base.iter = s.base.iter := rfl
    rw [e]
    split_ifs
    · simp only [Ist.map, St.map, hE.h, hE.ht, hP.T]
    · rfl
  unfold calcDiff
  simp only [h1]
  generalize (if s.base.iter = 0 then ({ s with hd := fun t => E.h t (s.base.xs t) (s.base.us t), htd := E.ht (s.base.xs P.T) } :
    Ist K X DX U L D) else s) = v
  have h2 : ({ v.map F fL fD P.T tau with base := Solve.calcDiff P' O' (v.map F fL fD P.T tau).base } : Ist K X' DX' U' L' D') =
      Ist.map F fL fD P.T tau { v with base := Solve.calcDiff P O v.base } := by
    have := calcDiff_map hP hO tau v.base
    simp only [Ist.map, this]
  have h3 := dataFeas_map (c := c) (fL := fL) (fD := fD) hP tau { v with base := Solve.calcDiff P O v.base }
  rw [← h2] at h3
  have h4 : Solve.calcDiff P' O' (v.map F fL fD P.T tau).base = (Solve.calcDiff P O v.base).map F fL fD P.T tau :=
    calcDiff_map hP hO tau v.base
  simp only [h3]
  simp only [Ist.map] at h4 ⊢
  simp only [h4]

theorem icomputeDirection_map (hP : SameProb F P P') (hO : SameOracle F fL fD P.T (fun _ => True) O O')
    (hE : SameEq F fL fD P.T E E') (tau : K) (s : Ist K X DX U L D) :
    computeDirection P' E' c O' (s.map F fL fD P.T tau) =
      ((computeDirection P E c O s).1, (computeDirection P E c O s).2.map F fL fD P.T tau) := by
  have h1 : (if (s.map F fL fD P.T tau).base.recalc then calcDiff P' E' c O' (s.map F fL fD P.T tau)
      else s.map F fL fD P.T tau) = Ist.map F fL fD P.T tau (if s.base.recalc then calcDiff P E c O s else s) := by
    have e : (s.map F fL fD P.T tau).base.recalc = s.base.recalc := rfl
    rw [e]
    split_ifs
    · exact icalcDiff_map hP hO hE tau s
    · rfl
  unfold computeDirection
  simp only [h1]
  generalize (if s.base.recalc then calcDiff P E c O s else s) = v
  have e : (v.map F fL fD P.T tau).base = v.base.map F fL fD P.T tau := rfl
  rw [e, hO.backward _ _ trivial]
  rfl

theorem idirLoop_map (hl : F.lam = 1) (hP : SameProb F P P') (hO : SameOracle F fL fD P.T (fun _ => True) O O')
    (hE : SameEq F fL fD P.T E E') (fuel : Nat) (tau : K) (s : Ist K X DX U L D) :
    dirLoop P' E' c O' fuel (s.map F fL fD P.T tau) =
      (dirLoop P E c O fuel s).map fun r => (r.1, r.2.map F fL fD P.T tau) := by
  have hl0 : 0 < F.lam := hl ▸ one_pos
  induction fuel generalizing s with
  | zero => rfl
  | succ fuel ih =>
    unfold dirLoop
    simp only [icomputeDirection_map hP hO hE]
    obtain ⟨b, v⟩ := computeDirection P E c O s
    cases b
    · simp only [Bool.false_eq_true, if_false]
      have e : ({ v.map F fL fD P.T tau with base := increaseReg c.toCfg { (v.map F fL fD P.T tau).base with recalc := false } } :
          Ist K X' DX' U' L' D') = Ist.map F fL fD P.T tau { v with base := increaseReg c.toCfg { v.base with recalc := false } } := by
        have := increaseReg_map (c := c.toCfg) (fL := fL) (fD := fD) hl0 P.T tau { v.base with recalc := false }
        rw [scale_one hl] at this
        simp only [Ist.map]
        congr 1
      rw [e]
      have e2 : increaseReg c.toCfg { (v.map F fL fD P.T tau).base with recalc := false } =
          St.map F fL fD P.T tau (increaseReg c.toCfg { v.base with recalc := false }) := by
        have := increaseReg_map (c := c.toCfg) (fL := fL) (fD := fD) hl0 P.T tau { v.base with recalc := false }
        rw [scale_one hl] at this
        exact this
      have e3 := pregMax_map (c := c.toCfg) (fL := fL) (fD := fD) hl0 P.T tau (increaseReg c.toCfg { v.base with recalc := false })
      rw [scale_one hl] at e3
      rw [e2]
      by_cases h : (increaseReg c.toCfg { v.base with recalc := false }).preg = c.reg.max
      · rw [if_pos h, if_pos (e3.mpr h)]
        rfl
      · rw [if_neg h, if_neg (fun h' => h (e3.mp h'))]
        exact ih _
    · rfl

theorem iprepare_map (hl : F.lam = 1) (hO : SameOracle F fL fD P.T (fun _ => True) O O') (tau : K) (s : Ist K X DX U L D) :
    prepare c O' (s.map F fL fD P.T tau) = (prepare c O s).map F fL fD P.T tau := by
  have h1 : ({ s.map F fL fD P.T tau with base := { (s.map F fL fD P.T tau).base with dir := O'.updExp (s.map F fL fD P.T tau).base } } :
      Ist K X' DX' U' L' D') = Ist.map F fL fD P.T tau { s with base := { s.base with dir := O.updExp s.base } } := by
    have := hO.updExp s.base tau
    simp only [Ist.map, this]
    rfl
  have h2 : ∀ v : Ist K X DX U L D, ({ v.map F fL fD P.T tau with base := { (v.map F fL fD P.T tau).base with
      d0 := (O'.expImp (v.map F fL fD P.T tau).base).1, d1 := (O'.expImp (v.map F fL fD P.T tau).base).2 } } : Ist K X' DX' U' L' D') =
      Ist.map F fL fD P.T tau { v with base := { v.base with d0 := (O.expImp v.base).1, d1 := (O.expImp v.base).2 } } := by
    intro v
    have := hO.expImp v.base tau
    simp only [Ist.map, this]
    rfl
  have h3 : ∀ v : Ist K X DX U L D, penalty c (v.map F fL fD P.T tau) = penalty c v := by
    intro v
    simp only [penalty, Ist.map, St.map, hl, one_mul]
  have h4 : ∀ v : Ist K X DX U L D, ({ v.map F fL fD P.T tau with upsilon := penalty c (v.map F fL fD P.T tau) } :
      Ist K X' DX' U' L' D') = Ist.map F fL fD P.T tau { v with upsilon := penalty c v } := by
    intro v; rw [h3]; rfl
  have key : prepare c O' (s.map F fL fD P.T tau) =
      (fun v : Ist K X' DX' U' L' D' => ({ v with base := { v.base with recalc := false } } : Ist K X' DX' U' L' D'))
      ((fun v : Ist K X' DX' U' L' D' => ({ v with upsilon := penalty c v } : Ist K X' DX' U' L' D'))
      ((fun v : Ist K X' DX' U' L' D' => ({ v with base := { v.base with d0 := (O'.expImp v.base).1, d1 := (O'.expImp v.base).2 } } :
        Ist K X' DX' U' L' D'))
      ({ s.map F fL fD P.T tau with base := { (s.map F fL fD P.T tau).base with dir := O'.updExp (s.map F fL fD P.T tau).base } } :
      Ist K X' DX' U' L' D'))) := rfl
  rw [key, h1]
  beta_reduce
  rw [h2, h4]
  rfl

theorem iprobe_map (hl : F.lam = 1) (hP : SameProb F P P') (hO : SameOracle F fL fD P.T (fun _ => True) O O')
    (hE : SameEq F fL fD P.T E E') (a : K) (tau : K) (s : Ist K X DX U L D) :
    (∃ v, probe P E c O a s = (some (), v) ∧
      probe P' E' c O' a (s.map F fL fD P.T tau) = (some (), v.map F fL fD P.T (F.total P.T))) ∨
    (∃ v tau', probe P E c O a s = (none, v) ∧ probe P' E' c O' a (s.map F fL fD P.T tau) = (none, v.map F fL fD P.T tau')) := by
  unfold probe
  have e : (s.map F fL fD P.T tau).base = s.base.map F fL fD P.T tau := rfl
  rw [e]
  rcases probe_map (kind := .fddp) hP hO a tau s.base with ⟨v, h1, h2⟩ | ⟨v, tau', h1, h2⟩
  · left
    rw [h1, h2]
    refine ⟨_, rfl, ?_⟩
    have hh : (fun t => if (P'.node t).nuZero then E'.hx t ((v.map F fL fD P.T (F.total P.T)).xsTry t)
        else E'.h t ((v.map F fL fD P.T (F.total P.T)).xsTry t) ((v.map F fL fD P.T (F.total P.T)).usTry t)) =
        fun t => if (P.node t).nuZero then E.hx t (v.xsTry t) else E.h t (v.xsTry t) (v.usTry t) := by
      funext t
      simp only [hP.nuZero, St.map, hE.hx, hE.h]
    simp only [hh, dataFeas, hP.T]
    simp only [Ist.map, St.map, hl, one_mul, hE.ht]
  · right
    rw [h1, h2]
    refine ⟨_, tau', rfl, ?_⟩
    simp only [hE.junk, hE.junkT]
    rfl

theorem iaccepts_map (hl : F.lam = 1) (T : Nat) (tau : K) (s : Ist K X DX U L D) :
    accepts c (s.map F fL fD T tau) = accepts c s := by
  simp only [accepts, Ist.map, St.map, hl, one_mul]

theorem iaccept_map (hl : F.lam = 1) (T : Nat) (s : Ist K X DX U L D) :
    accept (s.map F fL fD T (F.total T)) = (accept s).map F fL fD T (F.total T) := by
  have h := accept_map (F := F) (fL := fL) (fD := fD) (kind := .fddp) T s.base
  simp only [accept, Ist.map, h]
  congr 1
  simp only [St.map, hl, one_mul]
  ring

theorem ilineSearch_map (hl : F.lam = 1) (hP : SameProb F P P') (hO : SameOracle F fL fD P.T (fun _ => True) O O')
    (hE : SameEq F fL fD P.T E E') (as : List K) (tau : K) (s : Ist K X DX U L D) :
    ∃ tau', lineSearch P' E' c O' as (s.map F fL fD P.T tau) = (lineSearch P E c O as s).map F fL fD P.T tau' := by
  induction as generalizing s tau with
  | nil => exact ⟨tau, rfl⟩
  | cons a as ih =>
    unfold lineSearch
    rcases iprobe_map (c := c) hl hP hO hE a tau s with ⟨v, h1, h2⟩ | ⟨v, tau', h1, h2⟩
    · simp only [h1, h2, iaccepts_map hl]
      by_cases ha : accepts c v = true
      · simp only [ha, if_true]; exact ⟨_, iaccept_map hl P.T v⟩
      · simp only [ha]; exact ih _ _
    · simp only [h1, h2]; exact ih _ _

/-- What a step to the next iteration and to the result keeps. -/
def Sim (F : Change K X DX U X' DX' U') (fL : L → L') (fD : D → D') (T : Nat) (s : Ist K X DX U L D) (s' : Ist K X' DX' U' L' D') :
    Prop := ∃ tau, s' = s.map F fL fD T tau

theorem iiteration_map (hl : F.lam = 1) (hP : SameProb F P P') (hO : SameOracle F fL fD P.T (fun _ => True) O O')
    (hE : SameEq F fL fD P.T E E') (fuel : Nat) (tau : K) (s : Ist K X DX U L D) :
    (iteration P E c O fuel s = none ∧ iteration P' E' c O' fuel (s.map F fL fD P.T tau) = none) ∨
    ∃ e seen v tau', iteration P E c O fuel s = some (e, seen, v) ∧
      iteration P' E' c O' fuel (s.map F fL fD P.T tau) =
        some (e, seen.map fun w => w.map F fL fD P.T tau', v.map F fL fD P.T tau') := by
  have hl0 : 0 < F.lam := hl ▸ one_pos
  unfold iteration
  rw [idirLoop_map hl hP hO hE]
  cases dirLoop P E c O fuel s with
  | none => exact .inl ⟨rfl, rfl⟩
  | some r =>
    right
    obtain ⟨b, v⟩ := r
    cases b
    · exact ⟨_, _, _, tau, rfl, rfl⟩
    · simp only [Option.map_some, iprepare_map (c := c) hl hO]
      obtain ⟨tau', h⟩ := ilineSearch_map (c := c) hl hP hO hE c.alphas tau (prepare c O v)
      rw [h]
      generalize lineSearch P E c O c.alphas (prepare c O v) = w
      have hst : stopping (w.map F fL fD P.T tau') = (stopping w).map F fL fD P.T tau' := by
        simp only [stopping, Ist.map, St.map, hl, one_mul]
      rw [hst]
      generalize stopping w = y
      have hdec : (if (y.map F fL fD P.T tau').base.steplength > c.thStepdec ∧ 0 ≤ (y.map F fL fD P.T tau').base.dV then
          ({ y.map F fL fD P.T tau' with base := decreaseReg c.toCfg (y.map F fL fD P.T tau').base } : Ist K X' DX' U' L' D')
          else y.map F fL fD P.T tau') =
          Ist.map F fL fD P.T tau' (if y.base.steplength > c.thStepdec ∧ 0 ≤ y.base.dV then
            { y with base := decreaseReg c.toCfg y.base } else y) := by
        have e1 : (y.map F fL fD P.T tau').base.dV = y.base.dV := by simp only [Ist.map, St.map, hl, one_mul]
        have e2 : (y.map F fL fD P.T tau').base.steplength = y.base.steplength := rfl
        have e3 := decreaseReg_map (c := c.toCfg) (fL := fL) (fD := fD) hl0 P.T tau' y.base
        rw [scale_one hl] at e3
        rw [e1, e2]
        split_ifs
        · simp only [Ist.map, e3]
        · rfl
      simp only [hdec]
      generalize (if y.base.steplength > c.thStepdec ∧ 0 ≤ y.base.dV then
            ({ y with base := decreaseReg c.toCfg y.base } : Ist K X DX U L D) else y) = z
      have hup : (decide ((z.map F fL fD P.T tau').base.steplength ≤ c.thStepinc) || decide (|(z.map F fL fD P.T tau').base.d1| ≤ c.thFeas)) =
          (decide (z.base.steplength ≤ c.thStepinc) || decide (|z.base.d1| ≤ c.thFeas)) := by
        simp only [Ist.map, St.map, hl, one_mul]
      rw [hup]
      generalize (decide (z.base.steplength ≤ c.thStepinc) || decide (|z.base.d1| ≤ c.thFeas)) = up
      have hpm : decide ((z.map F fL fD P.T tau').base.preg = c.reg.max) = decide (z.base.preg = c.reg.max) := by
        simp only [Ist.map, St.map, hl, one_mul]
      rw [hpm]
      have hinc : (if up then ({ z.map F fL fD P.T tau' with base := increaseReg c.toCfg (z.map F fL fD P.T tau').base } :
          Ist K X' DX' U' L' D') else z.map F fL fD P.T tau') =
          Ist.map F fL fD P.T tau' (if up then { z with base := increaseReg c.toCfg z.base } else z) := by
        have e3 := increaseReg_map (c := c.toCfg) (fL := fL) (fD := fD) hl0 P.T tau' z.base
        rw [scale_one hl] at e3
        split_ifs
        · simp only [Ist.map, e3]
        · rfl
      simp only [hinc]
      generalize (if up then ({ z with base := increaseReg c.toCfg z.base } : Ist K X DX U L D) else z) = q
      have hcv : ((q.map F fL fD P.T tau').base.feas && decide ((q.map F fL fD P.T tau').base.stop < c.thStop)) =
          (q.base.feas && decide (q.base.stop < c.thStop)) := by
        simp only [Ist.map, St.map, hl, one_mul]
      rw [hcv]
      by_cases h1 : (up && decide (z.base.preg = c.reg.max)) = true
      · simp only [h1, if_true]
        exact ⟨_, _, _, tau', rfl, rfl⟩
      · simp only [h1]
        by_cases h2 : (q.base.feas && decide (q.base.stop < c.thStop)) = true
        · simp only [h2, if_true]
          exact ⟨_, _, _, tau', rfl, rfl⟩
        · simp only [h2]
          exact ⟨_, _, _, tau', rfl, rfl⟩

theorem iiterLoop_map (hl : F.lam = 1) (hP : SameProb F P P') (hO : SameOracle F fL fD P.T (fun _ => True) O O')
    (hE : SameEq F fL fD P.T E E') (fuel n : Nat) (tau : K) (s : Ist K X DX U L D) :
    (iterLoop P E c O fuel n s = none ∧ iterLoop P' E' c O' fuel n (s.map F fL fD P.T tau) = none) ∨
    ∃ o o', iterLoop P E c O fuel n s = some o ∧ iterLoop P' E' c O' fuel n (s.map F fL fD P.T tau) = some o' ∧
      o'.ret = o.ret ∧ Sim F fL fD P.T o.final o'.final ∧ List.Forall₂ (Sim F fL fD P.T) o.trace o'.trace := by
  have hseen : ∀ (seen : Option (Ist K X DX U L D)) tau', List.Forall₂ (Sim F fL fD P.T) seen.toList
      (seen.map fun w => w.map F fL fD P.T tau').toList := by
    intro seen tau'
    cases seen
    · exact .nil
    · exact .cons ⟨tau', rfl⟩ .nil
  induction n generalizing s tau with
  | zero => exact .inr ⟨_, _, rfl, rfl, rfl, ⟨tau, rfl⟩, .nil⟩
  | succ n ih =>
    unfold iterLoop
    rcases iiteration_map (c := c) hl hP hO hE fuel tau s with ⟨h1, h2⟩ | ⟨e, seen, v, tau', h1, h2⟩
    · left; rw [h1, h2]; exact ⟨rfl, rfl⟩
    · rw [h1, h2]
      cases e
      · exact .inr ⟨_, _, rfl, rfl, rfl, ⟨tau', rfl⟩, hseen _ _⟩
      · exact .inr ⟨_, _, rfl, rfl, rfl, ⟨tau', rfl⟩, hseen _ _⟩
      · have e : ({ v.map F fL fD P.T tau' with base := { (v.map F fL fD P.T tau').base with
            iter := (v.map F fL fD P.T tau').base.iter + 1 } } : Ist K X' DX' U' L' D') =
            Ist.map F fL fD P.T tau' { v with base := { v.base with iter := v.base.iter + 1 } } := rfl
        simp only [e]
        rcases ih tau' { v with base := { v.base with iter := v.base.iter + 1 } } with ⟨g1, g2⟩ | ⟨o, o', g1, g2, g3, g4, g5⟩
        · left; rw [g1, g2]; exact ⟨rfl, rfl⟩
        · right
          rw [g1, g2]
          exact ⟨_, _, rfl, rfl, g3, g4, List.rel_append (hseen _ _) g5⟩

/-- C132 for SolverIntro. Two descriptions of the same problem, with equality constraints of the same values, and costs that differ by
constants: if the derivatives, the backward pass and the predicted improvement commute with the change of description, so does
`solve`. From the same guess and corresponding solver states, both return the same value after the same iterations, with
candidates, costs and regularisations that correspond and the same feasibility and penalty. -/
theorem C132_intro (hl : F.lam = 1) (hP : SameProb F P P') (hO : SameOracle F fL fD P.T (fun _ => True) O O')
    (hE : SameEq F fL fD P.T E E') (fuel maxiter : Nat) (xs : Nat → X) (us : Nat → U) (feas : Bool) (regInit : Option K)
    (s : Ist K X DX U L D) {o : Outcome K X DX U L D} (hr : solve P E c O fuel maxiter xs us feas regInit s = some o) :
    ∃ o', solve P' E' c O' fuel maxiter (fun t => F.x (xs t)) (fun t => F.u t (us t)) feas regInit (s.map F fL fD P.T 0) = some o' ∧
      o'.ret = o.ret ∧ (∀ t, o'.final.base.xs t = F.x (o.final.base.xs t)) ∧ (∀ t, o'.final.base.us t = F.u t (o.final.base.us t)) ∧
      o'.final.base.cost = o.final.base.cost + F.total P.T ∧ o'.final.hfeas = o.final.hfeas ∧ o'.final.upsilon = o.final.upsilon ∧
      o'.final.base.preg = o.final.base.preg ∧ o'.final.base.iter = o.final.base.iter ∧ o'.trace.length = o.trace.length := by
  have hst := start_map (c := c.toCfg) (fL := fL) (fD := fD) hP xs us feas regInit P.T 0 s.base
  rw [scale_one hl] at hst
  have hrg : regInit.map (F.lam * ·) = regInit := by rw [hl]; simp
  rw [hrg] at hst
  have e : ({ s.map F fL fD P.T 0 with
      base := start P' c.toCfg (fun t => F.x (xs t)) (fun t => F.u t (us t)) feas regInit (s.map F fL fD P.T 0).base
      upsilon := if c.zeroUpsilon then 0 else (s.map F fL fD P.T 0).upsilon } : Ist K X' DX' U' L' D') =
      Ist.map F fL fD P.T 0 { s with base := start P c.toCfg xs us feas regInit s.base, upsilon := if c.zeroUpsilon then 0 else s.upsilon } := by
    have h : start P' c.toCfg (fun t => F.x (xs t)) (fun t => F.u t (us t)) feas regInit (s.map F fL fD P.T 0).base =
        (start P c.toCfg xs us feas regInit s.base).map F fL fD P.T 0 := hst
    rw [h]
    rfl
  unfold solve at hr ⊢
  rw [e]
  rcases iiterLoop_map (c := c) hl hP hO hE fuel maxiter 0 { s with
      base := start P c.toCfg xs us feas regInit s.base, upsilon := if c.zeroUpsilon then 0 else s.upsilon } with
    ⟨g1, -⟩ | ⟨o1, o', g1, g2, g3, ⟨tau, g4⟩, g5⟩
  · rw [g1] at hr; cases hr
  · rw [g1] at hr
    obtain rfl := Option.some.inj hr
    refine ⟨o', g2, g3, ?_⟩
    rw [g4]
    refine ⟨fun _ => rfl, fun _ => rfl, ?_, rfl, rfl, ?_, rfl, g5.length_eq.symm⟩ <;> simp only [Ist.map, St.map, hl, one_mul]

end

/-- C132 for SolverIntro, constants. Constants added to the costs of a nonlinear problem with equality constraints change nothing but
the cost, by their sum, with either null-space solver, any parameters and from whatever the solver object did before (`s`, with the
constants in its stored costs and merit). All nodes have controls. -/
theorem C132_constants_intro {K : Type} [Field K] [LinearOrder K] [IsStrictOrderedRing K] {n m : Nat} {nh : Nat → Nat}
    {sig : Nat → K} {sigT : K} {P P' : Prob K (Fin n → K) (Fin n → K) (Fin m → K)}
    (hT : P'.T = P.T) (hx : P'.x0 = P.x0) (hctl : ∀ t, (P.node t).nuZero = false)
    (hn : ∀ t, P'.node t = { P.node t with eval := fun x u => (((P.node t).eval x u).1, ((P.node t).eval x u).2 + sig t) })
    (hcT : ∀ x, P'.tcost x = P.tcost x + sigT) (hi : P'.tinteg = P.tinteg)
    {h : Nat → (Fin n → K) → (Fin m → K) → List K} {ht : (Fin n → K) → List K}
    {E : EqC K (Fin n → K) (Fin m → K) (Intro.LqS K n m nh)} (hE : E = ⟨h, fun _ _ => [], ht, fun _ _ => [], fun _ => []⟩)
    (lin : (Nat → Fin n → K) → (Nat → Fin m → K) → Intro.ILin K n m nh) (fac : Intro.Fact K) (es : Intro.EqSolver) {c : ICfg K}
    (fuel maxiter : Nat) (xs : Nat → Fin n → K) (us : Nat → Fin m → K) (feas : Bool) (regInit : Option K)
    (s : Intro.LqI K n m nh) {o : Outcome K (Fin n → K) (Fin n → K) (Fin m → K) (Intro.ILin K n m nh) (Lq.Arrays K n (fun _ => m))}
    (hr : solve P E c (Intro.oracleNl P.T lin fac es) fuel maxiter xs us feas regInit s = some o) :
    ∃ o', solve P' E c (Intro.oracleNl P.T lin fac es) fuel maxiter xs us feas regInit
        { s with
          base := { s.base with
            datas := fun t => ((s.base.datas t).1, (s.base.datas t).2 + sig t)
            tdata := s.base.tdata + sigT
            cost := s.base.cost + ((∑ t ∈ Finset.range P.T, sig t) + sigT) }
          merit := s.merit + ((∑ t ∈ Finset.range P.T, sig t) + sigT) } = some o' ∧
      o'.ret = o.ret ∧ o'.final.base.xs = o.final.base.xs ∧ o'.final.base.us = o.final.base.us ∧
      o'.final.base.cost = o.final.base.cost + ((∑ t ∈ Finset.range P.T, sig t) + sigT) ∧ o'.final.hfeas = o.final.hfeas ∧
      o'.final.upsilon = o.final.upsilon ∧ o'.final.base.preg = o.final.base.preg ∧ o'.final.base.iter = o.final.base.iter ∧
      o'.trace.length = o.trace.length := by
  let F : Change K (Fin n → K) (Fin n → K) (Fin m → K) (Fin n → K) (Fin n → K) (Fin m → K) :=
    ⟨1, sig, sigT, id, LinearEquiv.refl _ _, fun _ => LinearEquiv.refl _ _⟩
  have hoff : ∀ T, F.off T = ∑ t ∈ Finset.range T, sig t := by
    intro T
    induction T with
    | zero => rfl
    | succ T ih => rw [Finset.sum_range_succ, ← ih]; rfl
  have htot : F.total P.T = (∑ t ∈ Finset.range P.T, sig t) + sigT := by
    show F.off P.T + sigT = _
    rw [hoff]
  have hP : SameProb F P P' := by
    refine ⟨hT, fun t => by rw [hn], fun t x u => by rw [hn]; rfl, fun t x u => ?_, fun t x h => ?_, fun t x h => ?_,
      fun t x y => by rw [hn]; rfl, fun t x d => by rw [hn]; rfl, fun t u => by rw [hn]; rfl, fun x => ?_,
      fun x d => by rw [hi]; rfl, hx⟩
    · rw [hn]
      show _ = 1 * _ + sig t
      rw [one_mul]; rfl
    · rw [hctl] at h; cases h
    · rw [hctl] at h; cases h
    · show P'.tcost x = 1 * P.tcost x + sigT
      rw [one_mul]; exact hcT x
  have hO : SameOracle F id id P.T (fun _ => True) (Intro.oracleNl P.T lin fac es) (Intro.oracleNl P.T lin fac es) := by
    refine ⟨fun _ => trivial, fun _ _ => rfl, fun s tau _ => ?_, fun _ _ => rfl, fun s tau => ?_, fun _ _ => rfl, fun _ => rfl, fun _ => rfl⟩
    · have e : Intro.backwardPass fac es (some (s.map F id id P.T tau).preg) (s.map F id id P.T tau).feas P.T
          (s.map F id id P.T tau).lin.lin.d (s.map F id id P.T tau).lin.eq (s.map F id id P.T tau).lin.lin.LxT
          (s.map F id id P.T tau).lin.lin.LxxT (s.map F id id P.T tau).fs (s.map F id id P.T tau).dir =
          Intro.backwardPass fac es (some s.preg) s.feas P.T s.lin.lin.d s.lin.eq s.lin.lin.LxT s.lin.lin.LxxT s.fs s.dir := by
        have : (s.map F id id P.T tau).preg = s.preg := one_mul _
        rw [this]
        rfl
      simp only [Intro.oracleNl, e]
      generalize Intro.backwardPass fac es (some s.preg) s.feas P.T s.lin.lin.d s.lin.eq s.lin.lin.LxT s.lin.lin.LxxT s.fs s.dir = r
      cases r <;> rfl
    · show Lq.expectedImprovementFddp P.T s.feas s.fs _ s.dir = (1 * _, 1 * _)
      rw [one_mul, one_mul]
      rfl
  have hEE : SameEq F id id P.T E E := by
    subst hE
    exact ⟨fun _ _ _ => rfl, fun _ _ => rfl, fun _ => rfl, fun _ _ => rfl, fun _ _ => rfl⟩
  obtain ⟨o', h1, h2, h3, h4, h5, h6⟩ := C132_intro (c := c) (F := F) rfl hP hO hEE fuel maxiter xs us feas regInit s hr
  refine ⟨o', ?_, h2, funext h3, funext h4, h5.trans (by rw [htot]), h6⟩
  rw [← h1]
  congr 1
  simp only [Ist.map, St.map, htot, F, one_mul]
  simp

/-- The hypotheses of `C132_constants_intro` are met: the run of `C135_converged_counterexample`, which returns true, with `3` added to the
cost of the node and `5` to the terminal cost. -/
example {F : Intro.Fact ℝ} (hF : Intro.FactOk F) (hC : Intro.FactComplete F) (es : Intro.EqSolver)
    {c : ICfg ℝ} (hc : Intro.Sane c) (hmax : 1 < c.reg.max) (s : Intro.LqI ℝ 1 2 fun _ => 1) (hups : 0 ≤ Intro.upsilon0 c s) :
    let P := Intro.LqDemo.prob.toProb
    let P' : Prob ℝ (Fin 1 → ℝ) (Fin 1 → ℝ) (Fin 2 → ℝ) := { P with
      node := fun t => { P.node t with eval := fun x u => (((P.node t).eval x u).1, ((P.node t).eval x u).2 + 3) }
      tcost := fun x => P.tcost x + 5 }
    ∃ s' o', solve P' (Intro.eqc fun _ => Intro.LqDemo.con) c (Intro.oracle Intro.LqDemo.prob (fun _ => Intro.LqDemo.con) F es) 1 1
      (fun _ => ![0]) (fun _ => ![0, 0]) true (some 1) s' = some o' ∧ o'.ret = true := by
  intro P P'
  obtain ⟨o, h1, h2, -⟩ := Intro.C135_converged_counterexample hF hC es hc hmax s hups 0 0
  rw [Intro.oracle_eq] at h1 ⊢
  obtain ⟨o', h3, h4, -⟩ := C132_constants_intro (P := P) (P' := P') (sig := fun _ => 3) (sigT := 5) rfl rfl (fun _ => rfl) (fun _ => rfl)
    (fun _ => rfl) rfl rfl _ F es (c := c) 1 1 _ _ true (some 1) s h1
  exact ⟨_, o', h3, h4.trans h2⟩

/-- The hypotheses of `C132_intro` are met by a change of axes: the node `x' = u` with cost `u²/2` and the constraint `u = 1`, and the
same node with the axes of state and control reversed, `3` added to its cost and `5` to the terminal cost. -/
example :
    let O : (ℚ → ℚ) → Oracle ℚ ℚ ℚ ℚ Unit Unit := fun k => { Demo.oracle k with bad := fun _ => false, badX := fun _ => false }
    let P' : Prob ℚ ℚ ℚ ℚ := { Demo.prob with
      node := fun t => { Demo.prob.node t with eval := fun _ u => (u, u * u / 2 + 3) }
      tcost := fun _ => 5 }
    ∃ s' o', solve P' (Demo.con fun u => -u - 1) Demo.cfg (O fun u => u + 1) 1 10 (fun t => if t = 0 then 0 else -5)
      (fun _ => 0) false none s' = some o' ∧ o'.ret = true ∧ o'.final.base.us 0 = -1 ∧ o'.final.base.cost = 17 / 2 := by
  intro O P'
  let F : Change ℚ ℚ ℚ ℚ ℚ ℚ ℚ := ⟨1, fun _ => 3, 5, fun x => -x, LinearEquiv.neg ℚ, fun _ => LinearEquiv.neg ℚ⟩
  have hrun : (solve Demo.prob (Demo.con fun u => u - 1) Demo.cfg (O fun u => u - 1) 1 10 (fun t => if t = 0 then 0 else 5)
      (fun _ => 0) false none Demo.init).map (fun o => (o.ret, o.final.base.us 0, o.final.base.cost)) = some (true, 1, 1 / 2) := by
    decide +kernel
  obtain ⟨o, ho, hv⟩ := Option.map_eq_some_iff.mp hrun
  simp only [Prod.mk.injEq] at hv
  have hP : SameProb F Demo.prob P' := by
    refine ⟨rfl, fun _ => rfl, fun _ _ _ => rfl, fun t x u => ?_, fun t x h => Bool.noConfusion h, fun t x h => Bool.noConfusion h, fun t x y => ?_,
      fun t x d => ?_, fun _ _ => rfl, fun x => ?_, fun x d => ?_, ?_⟩
    · show (-u) * (-u) / 2 + 3 = 1 * (u * u / 2) + 3
      ring
    · show -y - -x = -(y - x)
      ring
    · show -x + -d = -(x + d)
      ring
    · show (5 : ℚ) = 1 * 0 + 5
      norm_num
    · show -x + -d = -(x + d)
      ring
    · show (0 : ℚ) = -0
      norm_num
  have hO : SameOracle F id id Demo.prob.T (fun _ => True) (O fun u => u - 1) (O fun u => u + 1) := by
    refine ⟨fun _ => trivial, fun _ _ => rfl, fun s tau _ => ?_, fun _ _ => rfl, fun s tau => ?_, fun _ _ => rfl, fun _ => rfl, fun _ => rfl⟩
    · show (true, (fun _ => -s.us 0 + 1), (fun _ _ => 0), ()) = (true, (fun _ => -(s.us 0 - 1)), (fun _ _ => -0), ())
      simp only [neg_zero]
      congr 2
      funext _
      ring
    · show (-s.us 0 * (-s.us 0 + 1), -((-s.us 0 + 1) * (-s.us 0 + 1))) =
        (1 * (s.us 0 * (s.us 0 - 1)), 1 * -((s.us 0 - 1) * (s.us 0 - 1)))
      congr 1 <;> ring
  have hE : SameEq F id id Demo.prob.T (Demo.con fun u => u - 1) (Demo.con fun u => -u - 1) := by
    refine ⟨fun t x u => ?_, fun _ _ => rfl, fun _ => rfl, fun _ _ => rfl, fun _ _ => rfl⟩
    show [-(-u) - 1] = [u - 1]
    rw [neg_neg]
  obtain ⟨o', h1, h2, -, h4, h5, -⟩ := C132_intro (c := Demo.cfg) (F := F) rfl hP hO hE 1 10 _ _ false none Demo.init ho
  have hx : (fun t : Nat => F.x (if t = 0 then 0 else 5)) = fun t => if t = 0 then 0 else -5 := by
    funext t
    split_ifs <;> simp [F]
  have hu : (fun t : Nat => (F.u t) (0 : ℚ)) = fun _ => 0 := by
    funext t
    exact neg_zero
  rw [hx, hu] at h1
  refine ⟨_, o', h1, h2.trans hv.1, (h4 0).trans ?_, h5.trans ?_⟩
  · rw [hv.2.1]; rfl
  · rw [hv.2.2]
    show 1 / 2 + (0 + 3 + 5) = (17 / 2 : ℚ)
    norm_num

end Verif.IntroSolve
