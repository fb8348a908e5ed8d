import Verif.Spec.Reformulate
import Verif.Lemmas.Forget
import Verif.Lemmas.Nl
import Mathlib.Algebra.Order.Field.Basic
import Mathlib.Algebra.Order.AbsoluteValue.Basic
import Mathlib.Tactic.Ring
import Mathlib.Tactic.Linarith

set_option linter.unusedSectionVars false

/-!
# The solvers commute with changes of description
-/

namespace Verif.Solve
open Verif Verif.Solver

section
variable {K X DX U L D X' DX' U' L' D' : Type}
variable [Field K] [LinearOrder K] [IsStrictOrderedRing K]
variable [AddCommGroup DX] [Module K DX] [AddCommGroup U] [Module K U]
variable [AddCommGroup DX'] [Module K DX'] [AddCommGroup U'] [Module K U']
variable {F : Change K X DX U X' DX' U'} {P : Prob K X DX U} {P' : Prob K X' DX' U'} {c : Cfg K}
variable {fL : L → L'} {fD : D → D'} {O : Oracle K X DX U L D} {O' : Oracle K X' DX' U' L' D'} {kind : Kind}
variable {ok : L → Prop}

/-- The result of a function in the new description. -/
def resMap {σ σ' α : Type} (f : σ → σ') : Res σ α → Res σ' α
  | .ok a s => .ok a (f s)
  | .throw s => .throw (f s)
  | .ub => .ub

theorem upd_map {α β : Type} (f : Nat → α) (g : Nat → α → β) (i : Nat) (v : α) :
    upd (fun t => g t (f t)) i (g i v) = fun t => g t (upd f i v t) := by
  funext t
  unfold upd
  by_cases h : t = i
  · subst h; simp
  · simp [h]

theorem bodyTry_map (hP : SameProb F P P') (a : K) (t : Nat) (T : Nat) (tau : K) (s : St K X DX U L D) :
    bodyTry P' kind a t (s.map F fL fD T tau) = St.map F fL fD T tau (bodyTry P kind a t s) := by
  have h2 : ∀ v, upd (fun t => (F.x (s.datas t).1, F.lam * (s.datas t).2 + F.sig t)) t
      (F.x v.1, F.lam * v.2 + F.sig t) = fun i => (F.x (upd s.datas t v i).1, F.lam * (upd s.datas t v i).2 + F.sig i) :=
    fun v => upd_map s.datas (fun t (p : X × K) => (F.x p.1, F.lam * p.2 + F.sig t)) t v
  have h1 : ∀ v, upd (fun t => F.u t (s.usTry t)) t (F.u t v) = fun i => F.u i (upd s.usTry t v i) :=
    fun v => upd_map s.usTry (fun t w => F.u t w) t v
  cases hz : (P.node t).nuZero with
  | true =>
    have e : (P'.node t).evalT (F.x (s.xsTry t)) =
        (F.x ((P.node t).evalT (s.xsTry t)).1, F.lam * ((P.node t).evalT (s.xsTry t)).2 + F.sig t) :=
      Prod.ext (hP.nextT t _ hz) (hP.costT t _ hz)
    simp only [bodyTry, hP.nuZero, hz, if_true, St.map, e]
    rw [h2]
  | false =>
    have eu : F.u t (s.us t) - a • F.u t (s.k t) -
        F.u t (s.gain t (F.dx.symm ((P'.node t).diff (F.x (s.xs t)) (F.x (s.xsTry t))))) =
        F.u t (s.us t - a • s.k t - s.gain t ((P.node t).diff (s.xs t) (s.xsTry t))) := by
      rw [hP.diff, LinearEquiv.symm_apply_apply, map_sub, map_sub, map_smul]
    have ec : ∀ v, (if kind.box = true then (P'.node t).clamp (F.u t v) else F.u t v) =
        F.u t (if kind.box = true then (P.node t).clamp v else v) := by
      intro v
      split
      · rw [hP.clamp]
      · rfl
    have e : ∀ x u, (P'.node t).eval (F.x x) (F.u t u) =
        (F.x ((P.node t).eval x u).1, F.lam * ((P.node t).eval x u).2 + F.sig t) :=
      fun x u => Prod.ext (hP.next t x u) (hP.cost t x u)
    simp only [bodyTry, hP.nuZero, hz, Bool.false_eq_true, if_false, St.map, eu, ec, e]
    rw [h1, h2]

theorem xsTry_map (F : Change K X DX U X' DX' U') (f : Nat → X) (t : Nat) (v : X) :
    upd (fun t => F.x (f t)) t (F.x v) = fun i => F.x (upd f t v i) := upd_map f (fun _ w => F.x w) t v

theorem bodyPlace_map (hP : SameProb F P P') (a : K) (b : Bool) (t : Nat) (T : Nat) (tau : K) (s : St K X DX U L D) :
    bodyPlace P' kind a b t (s.map F fL fD T tau) = St.map F fL fD T tau (bodyPlace P kind a b t s) := by
  have hI : (if b = true then (P'.node t).integ (F.x s.xnext) ((a - 1) • F.dx (s.fs t)) else F.x s.xnext) =
      F.x (if b = true then (P.node t).integ s.xnext ((a - 1) • s.fs t) else s.xnext) := by
    split
    · rw [← map_smul, hP.integ]
    · rfl
  unfold bodyPlace
  by_cases hk : kind = .ddp
  · simp only [if_pos hk]
  · simp only [if_neg hk, St.map, hI]
    rw [xsTry_map]

theorem bodyMove_map (t : Nat) (T : Nat) (s : St K X DX U L D) :
    bodyMove kind t (s.map F fL fD T (F.off t)) = St.map F fL fD T (F.off (t + 1)) (bodyMove kind t s) := by
  have hc : F.lam * s.costTry + F.off t + (F.lam * (s.datas t).2 + F.sig t) =
      F.lam * (s.costTry + (s.datas t).2) + F.off (t + 1) := by
    simp only [Change.off]; ring
  unfold bodyMove
  by_cases hk : kind = .ddp
  · simp only [if_pos hk, St.map, hc]
    rw [xsTry_map]
  · simp only [if_neg hk, St.map, hc]

theorem fwdBody_map (hP : SameProb F P P') (hO : SameOracle F fL fD P.T ok O O') (a : K) (b : Bool) (t : Nat)
    (s : St K X DX U L D) :
    fwdBody P' O' kind a b t (s.map F fL fD P.T (F.off t)) =
      resMap (St.map F fL fD P.T (F.off (t + 1))) (fwdBody P O kind a b t s) := by
  rw [fwdBody_eq, fwdBody_eq, bodyPlace_map hP, bodyTry_map hP, bodyMove_map]
  generalize bodyMove kind t (bodyTry P kind a t (bodyPlace P kind a b t s)) = v
  have e1 : O'.bad (St.map F fL fD P.T (F.off (t + 1)) v).costTry = O.bad v.costTry := hO.bad _ _
  have e2 : O'.badX ((St.map F fL fD P.T (F.off (t + 1)) v).datas t).1 = O.badX (v.datas t).1 := hO.badX _
  simp only [e1, e2]
  split_ifs <;> rfl

theorem forLoop_map (hP : SameProb F P P') (hO : SameOracle F fL fD P.T ok O O') (a : K) (b : Bool) (n t : Nat)
    (s : St K X DX U L D) :
    (∃ v, Cpp.forLoop t n (fwdBody P O kind a b) s = .ok () v ∧
      Cpp.forLoop t n (fwdBody P' O' kind a b) (s.map F fL fD P.T (F.off t)) =
        .ok () (v.map F fL fD P.T (F.off (t + n)))) ∨
    (∃ v tau, Cpp.forLoop t n (fwdBody P O kind a b) s = .throw v ∧
      Cpp.forLoop t n (fwdBody P' O' kind a b) (s.map F fL fD P.T (F.off t)) = .throw (v.map F fL fD P.T tau)) ∨
    (Cpp.forLoop t n (fwdBody P O kind a b) s = .ub ∧
      Cpp.forLoop t n (fwdBody P' O' kind a b) (s.map F fL fD P.T (F.off t)) = .ub) := by
  induction n generalizing t s with
  | zero => exact .inl ⟨s, rfl, rfl⟩
  | succ n ih =>
    simp only [Cpp.forLoop_succ, Cpp.cbind_apply, fwdBody_map hP hO]
    cases fwdBody P O kind a b t s with
    | ok _ v =>
      simp only [resMap]
      have := ih (t + 1) v
      rwa [show t + 1 + n = t + (n + 1) by omega] at this
    | throw v => exact .inr (.inl ⟨v, _, rfl, rfl⟩)
    | ub => exact .inr (.inr ⟨rfl, rfl⟩)

theorem fwdTerm_eq (a : K) (b : Bool) (s : St K X DX U L D) : fwdTerm P O kind a b s =
      (let w : St K X DX U L D := if kind = .ddp then s
        else { s with xsTry := upd s.xsTry P.T (if b then P.tinteg s.xnext ((a - 1) • s.fs P.T) else s.xnext) }
       let v : St K X DX U L D :=
        { w with tdata := P.tcost (w.xsTry P.T), costTry := w.costTry + P.tcost (w.xsTry P.T) }
       if O.bad v.costTry then .throw v else .ok () v) := by
  cases kind <;>
  · simp only [fwdTerm, Cpp.bind_apply, Cpp.pure_apply, Cpp.modify_apply, Cpp.get_apply, Cpp.throwIf_apply,
      if_true, if_false, reduceCtorEq]

theorem fwdTerm_map (hP : SameProb F P P') (hO : SameOracle F fL fD P.T ok O O') (a : K) (b : Bool)
    (s : St K X DX U L D) :
    fwdTerm P' O' kind a b (s.map F fL fD P.T (F.off P.T)) =
      resMap (St.map F fL fD P.T (F.total P.T)) (fwdTerm P O kind a b s) := by
  have hI : (if b = true then P'.tinteg (F.x s.xnext) ((a - 1) • F.dx (s.fs P.T)) else F.x s.xnext) =
      F.x (if b = true then P.tinteg s.xnext ((a - 1) • s.fs P.T) else s.xnext) := by
    split
    · rw [← map_smul, hP.tinteg]
    · rfl
  have hw : ∃ w : St K X DX U L D, (if kind = .ddp then s else { s with
        xsTry := upd s.xsTry P.T (if b then P.tinteg s.xnext ((a - 1) • s.fs P.T) else s.xnext) }) = w ∧
      (if kind = .ddp then (s.map F fL fD P.T (F.off P.T)) else { (s.map F fL fD P.T (F.off P.T)) with
        xsTry := upd (s.map F fL fD P.T (F.off P.T)).xsTry P.T
          (if b then P'.tinteg (s.map F fL fD P.T (F.off P.T)).xnext ((a - 1) • (s.map F fL fD P.T (F.off P.T)).fs P.T)
            else (s.map F fL fD P.T (F.off P.T)).xnext) }) = w.map F fL fD P.T (F.off P.T) := by
    refine ⟨_, rfl, ?_⟩
    by_cases hk : kind = .ddp
    · simp only [if_pos hk]
    · simp only [if_neg hk, St.map, hI]
      rw [xsTry_map]
  obtain ⟨w, e1, e2⟩ := hw
  rw [fwdTerm_eq, fwdTerm_eq, hP.T]
  simp only [e1, e2]
  have hc : F.lam * w.costTry + F.off P.T + (F.lam * P.tcost (w.xsTry P.T) + F.sigT) =
      F.lam * (w.costTry + P.tcost (w.xsTry P.T)) + F.total P.T := by
    simp only [Change.total]; ring
  have hv : ({ (w.map F fL fD P.T (F.off P.T)) with
        tdata := P'.tcost ((w.map F fL fD P.T (F.off P.T)).xsTry P.T)
        costTry := (w.map F fL fD P.T (F.off P.T)).costTry + P'.tcost ((w.map F fL fD P.T (F.off P.T)).xsTry P.T) } :
          St K X' DX' U' L' D') =
      St.map F fL fD P.T (F.total P.T)
        { w with tdata := P.tcost (w.xsTry P.T), costTry := w.costTry + P.tcost (w.xsTry P.T) } := by
    simp only [St.map, hP.tcost, hc]
  have e3 : (w.map F fL fD P.T (F.off P.T)).costTry + P'.tcost ((w.map F fL fD P.T (F.off P.T)).xsTry P.T) =
      F.lam * (w.costTry + P.tcost (w.xsTry P.T)) + F.total P.T := by
    simp only [St.map, hP.tcost, hc]
  rw [hv, e3, hO.badT]
  split_ifs <;> rfl

theorem forwardPass_eq {a : K} (h : ¬ (decide (a > 1) || decide (a < 0)) = true) (s : St K X DX U L D) :
    forwardPass P O kind a s =
      (Cpp.forLoop 0 P.T (fwdBody P O kind a (kind.feasibilityDriven && (!s.feas && decide (a ≠ 1)))) >>= fun _ =>
        fwdTerm P O kind a (decide (kind ≠ .ddp) && (!s.feas && decide (a ≠ 1))))
        { s with costTry := 0, xnext := if kind = .ddp then s.xnext else P.x0 } := by
  unfold forwardPass
  rw [Cpp.bind_apply, Cpp.throwIf_apply, if_neg h]
  rfl

theorem forwardPass_map (hP : SameProb F P P') (hO : SameOracle F fL fD P.T ok O O') (a : K) (tau : K)
    (s : St K X DX U L D) :
    (∃ v, forwardPass P O kind a s = .ok () v ∧
      forwardPass P' O' kind a (s.map F fL fD P.T tau) = .ok () (v.map F fL fD P.T (F.total P.T))) ∨
    (∃ v tau', forwardPass P O kind a s = .throw v ∧
      forwardPass P' O' kind a (s.map F fL fD P.T tau) = .throw (v.map F fL fD P.T tau')) ∨
    (forwardPass P O kind a s = .ub ∧ forwardPass P' O' kind a (s.map F fL fD P.T tau) = .ub) := by
  by_cases h1 : (decide (a > 1) || decide (a < 0)) = true
  · refine .inr (.inl ⟨s, tau, ?_, ?_⟩) <;>
    · unfold forwardPass; simp only [Cpp.bind_apply, Cpp.throwIf_apply, h1, if_true]
  have hs : (({ (s.map F fL fD P.T tau) with
      costTry := 0, xnext := if kind = .ddp then (s.map F fL fD P.T tau).xnext else P'.x0 }) : St K X' DX' U' L' D') =
      St.map F fL fD P.T (F.off 0) { s with costTry := 0, xnext := if kind = .ddp then s.xnext else P.x0 } := by
    by_cases hk : kind = .ddp
    · simp [St.map, hk, Change.off]
    · simp [St.map, hk, Change.off, hP.x0]
  have key : ∀ (op : Bool) (w : St K X DX U L D),
      (∃ v, ((Cpp.forLoop 0 P.T (fwdBody P O kind a (kind.feasibilityDriven && op)) >>= fun _ =>
          fwdTerm P O kind a (decide (kind ≠ .ddp) && op)) w) = .ok () v ∧
        ((Cpp.forLoop 0 P'.T (fwdBody P' O' kind a (kind.feasibilityDriven && op)) >>= fun _ =>
          fwdTerm P' O' kind a (decide (kind ≠ .ddp) && op)) (w.map F fL fD P.T (F.off 0))) =
            .ok () (v.map F fL fD P.T (F.total P.T))) ∨
      (∃ v tau', ((Cpp.forLoop 0 P.T (fwdBody P O kind a (kind.feasibilityDriven && op)) >>= fun _ =>
          fwdTerm P O kind a (decide (kind ≠ .ddp) && op)) w) = .throw v ∧
        ((Cpp.forLoop 0 P'.T (fwdBody P' O' kind a (kind.feasibilityDriven && op)) >>= fun _ =>
          fwdTerm P' O' kind a (decide (kind ≠ .ddp) && op)) (w.map F fL fD P.T (F.off 0))) =
            .throw (v.map F fL fD P.T tau')) ∨
      (((Cpp.forLoop 0 P.T (fwdBody P O kind a (kind.feasibilityDriven && op)) >>= fun _ =>
          fwdTerm P O kind a (decide (kind ≠ .ddp) && op)) w) = .ub ∧
        ((Cpp.forLoop 0 P'.T (fwdBody P' O' kind a (kind.feasibilityDriven && op)) >>= fun _ =>
          fwdTerm P' O' kind a (decide (kind ≠ .ddp) && op)) (w.map F fL fD P.T (F.off 0))) = .ub) := by
    intro op w
    rw [Cpp.bind_apply, Cpp.bind_apply, hP.T]
    rcases forLoop_map (kind := kind) hP hO a (kind.feasibilityDriven && op) P.T 0 w with
      ⟨v, h1, h2⟩ | ⟨v, tau', h1, h2⟩ | ⟨h1, h2⟩
    · rw [h1, h2, Nat.zero_add]
      simp only [fwdTerm_map hP hO]
      cases fwdTerm P O kind a (decide (kind ≠ .ddp) && op) v with
      | ok _ y => exact .inl ⟨y, rfl, rfl⟩
      | throw y => exact .inr (.inl ⟨y, _, rfl, rfl⟩)
      | ub => exact .inr (.inr ⟨rfl, rfl⟩)
    · rw [h1, h2]; exact .inr (.inl ⟨v, tau', rfl, rfl⟩)
    · rw [h1, h2]; exact .inr (.inr ⟨rfl, rfl⟩)
  rw [forwardPass_eq h1 s, forwardPass_eq h1, hs]
  exact key (!s.feas && decide (a ≠ 1)) _

theorem probe_map (hP : SameProb F P P') (hO : SameOracle F fL fD P.T ok O O') (a : K) (tau : K)
    (s : St K X DX U L D) :
    (∃ v, probe P O kind a s = (some (), v) ∧
      probe P' O' kind a (s.map F fL fD P.T tau) = (some (), v.map F fL fD P.T (F.total P.T))) ∨
    (∃ v tau', probe P O kind a s = (none, v) ∧
      probe P' O' kind a (s.map F fL fD P.T tau) = (none, v.map F fL fD P.T tau')) := by
  have hs : ({ (s.map F fL fD P.T tau) with steplength := a } : St K X' DX' U' L' D') =
    St.map F fL fD P.T tau { s with steplength := a } := rfl
  unfold probe tryStep
  rw [hs]
  simp only [Cpp.bind_apply]
  rcases forwardPass_map (kind := kind) hP hO a tau { s with steplength := a } with
    ⟨v, h1, h2⟩ | ⟨v, tau', h1, h2⟩ | ⟨h1, h2⟩
  · rw [h1, h2]
    simp only [Cpp.modify_apply]
    left
    have hd : (({ (v.map F fL fD P.T (F.total P.T)) with
        dV := (v.map F fL fD P.T (F.total P.T)).cost - (v.map F fL fD P.T (F.total P.T)).costTry }) :
          St K X' DX' U' L' D') = St.map F fL fD P.T (F.total P.T) { v with dV := v.cost - v.costTry } := by
      have : F.lam * v.cost + F.total P.T - (F.lam * v.costTry + F.total P.T) = F.lam * (v.cost - v.costTry) := by ring
      simp only [St.map, this]
    rw [hd]
    generalize ({ v with dV := v.cost - v.costTry } : St K X DX U L D) = y
    refine ⟨_, rfl, ?_⟩
    simp only [hO.expImp]
    have hx : ∀ d0 d1 : K, a * (F.lam * d0 + 1 / 2 * a * (F.lam * d1)) = F.lam * (a * (d0 + 1 / 2 * a * d1)) := by
      intros; ring
    cases kind.feasibilityDriven <;> simp [St.map, hx]
    · ring
    · constructor <;> ring
  · rw [h1, h2]
    exact .inr ⟨v, tau', rfl, rfl⟩
  · rw [h1, h2]
    exact .inr ⟨_, tau, rfl, rfl⟩

theorem accepts_map (hl : 0 < F.lam) (T : Nat) (tau : K) (s : St K X DX U L D) :
    accepts (c.scale F.lam) kind (s.map F fL fD T tau) = accepts c kind s := by
  have h1 : 0 ≤ F.lam * s.dVexp ↔ 0 ≤ s.dVexp := mul_nonneg_iff_of_pos_left hl
  have h2 : |F.lam * s.d0| < F.lam * c.thGrad ↔ |s.d0| < c.thGrad := by
    rw [abs_mul, abs_of_pos hl]; exact mul_lt_mul_iff_right₀ hl
  have h3 : ∀ th, th * (F.lam * s.dVexp) < F.lam * s.dV ↔ th * s.dVexp < s.dV := by
    intro th
    rw [show th * (F.lam * s.dVexp) = F.lam * (th * s.dVexp) by ring]
    exact mul_lt_mul_iff_right₀ hl
  simp only [accepts, Cfg.scale, St.map, h1, h2, h3, gt_iff_lt]

theorem accept_map (T : Nat) (s : St K X DX U L D) :
    accept kind (s.map F fL fD T (F.total T)) = St.map F fL fD T (F.total T) (accept kind s) := rfl

theorem lineSearch_map (hP : SameProb F P P') (hO : SameOracle F fL fD P.T ok O O') (hl : 0 < F.lam) (as : List K)
    (tau : K) (s : St K X DX U L D) :
    ∃ tau', lineSearch P' (c.scale F.lam) O' kind as (s.map F fL fD P.T tau) =
      St.map F fL fD P.T tau' (lineSearch P c O kind as s) := by
  induction as generalizing s tau with
  | nil => exact ⟨tau, rfl⟩
  | cons a as ih =>
    unfold lineSearch
    rcases probe_map (kind := kind) hP hO a tau s with ⟨v, h1, h2⟩ | ⟨v, tau', h1, h2⟩
    · simp only [h1, h2, accepts_map hl]
      by_cases ha : accepts c kind v = true
      · simp only [ha, if_true]; exact ⟨_, accept_map P.T v⟩
      · simp only [ha]; exact ih _ _
    · simp only [h1, h2]; exact ih _ _

theorem sumTo_map (f : Nat → K) (T : Nat) :
    sumTo (fun t => F.lam * f t + F.sig t) T = F.lam * sumTo f T + F.off T := by
  induction T with
  | zero => simp [sumTo, Change.off]
  | succ T ih => simp only [sumTo, Change.off, ih]; ring

theorem calcDiff_map (hP : SameProb F P P') (hO : SameOracle F fL fD P.T ok O O') (tau : K) (s : St K X DX U L D) :
    calcDiff P' O' (s.map F fL fD P.T tau) = St.map F fL fD P.T tau (calcDiff P O s) := by
  have e : ∀ t x u, (P'.node t).eval (F.x x) (F.u t u) =
      (F.x ((P.node t).eval x u).1, F.lam * ((P.node t).eval x u).2 + F.sig t) :=
    fun t x u => Prod.ext (hP.next t x u) (hP.cost t x u)
  have h1 : (if (s.map F fL fD P.T tau).iter = 0 then problemCalc P' (s.map F fL fD P.T tau)
      else (s.map F fL fD P.T tau)) = St.map F fL fD P.T tau (if s.iter = 0 then problemCalc P s else s) := by
    by_cases h : s.iter = 0
    · rw [if_pos h, if_pos (show (s.map F fL fD P.T tau).iter = 0 from h)]
      simp only [problemCalc, St.map, hP.T, hP.tcost, e]
    · rw [if_neg h, if_neg (show ¬ (s.map F fL fD P.T tau).iter = 0 from h)]
  unfold calcDiff
  simp only [h1]
  generalize (if s.iter = 0 then problemCalc P s else s) = v
  have hc : sumTo (fun t => F.lam * (v.datas t).2 + F.sig t) P.T + (F.lam * v.tdata + F.sigT) =
      F.lam * (sumTo (fun t => (v.datas t).2) P.T + v.tdata) + F.total P.T := by
    rw [sumTo_map (F := F) (fun t => (v.datas t).2)]; simp only [Change.total]; ring
  simp only [hO.linearise, hP.T]
  simp only [St.map, hc]
  congr 1
  funext t
  cases t with
  | zero => simp only [hP.x0, hP.diff]
  | succ t => simp only [hP.diff]

/-- The derivatives in the solver are those of some candidate, unless they are about to be computed. -/
def LinOk (ok : L → Prop) (s : St K X DX U L D) : Prop := s.recalc = false → ok s.lin

theorem computeDirection_map (hP : SameProb F P P') (hO : SameOracle F fL fD P.T ok O O') (tau : K)
    {s : St K X DX U L D} (hs : LinOk ok s) : ok (computeDirection P O s).2.lin ∧
    computeDirection P' O' (s.map F fL fD P.T tau) =
      ((computeDirection P O s).1, St.map F fL fD P.T tau (computeDirection P O s).2) := by
  have h1 : (if (s.map F fL fD P.T tau).recalc then calcDiff P' O' (s.map F fL fD P.T tau)
      else (s.map F fL fD P.T tau)) = St.map F fL fD P.T tau (if s.recalc then calcDiff P O s else s) := by
    by_cases h : s.recalc = true
    · rw [if_pos h, if_pos (show (s.map F fL fD P.T tau).recalc = true from h), calcDiff_map hP hO]
    · rw [if_neg h, if_neg (show ¬ (s.map F fL fD P.T tau).recalc = true from h)]
  have h2 : ok (if s.recalc then calcDiff P O s else s).lin := by
    cases h : s.recalc with
    | true => exact hO.lin_ok _
    | false => exact hs h
  refine ⟨h2, ?_⟩
  unfold computeDirection
  simp only [h1, hO.backward _ _ h2]
  rfl

theorem increase_map (hl : 0 < F.lam) (r : Reg K) (p : K) :
    increase { r with min := F.lam * r.min, max := F.lam * r.max } (F.lam * p) = F.lam * increase r p := by
  unfold increase
  have h : F.lam * p * r.inc > F.lam * r.max ↔ p * r.inc > r.max := by
    rw [mul_assoc]; exact mul_lt_mul_iff_right₀ hl
  simp only [h]
  split_ifs
  · rfl
  · ring

theorem decrease_map (hl : 0 < F.lam) (r : Reg K) (p : K) :
    decrease { r with min := F.lam * r.min, max := F.lam * r.max } (F.lam * p) = F.lam * decrease r p := by
  unfold decrease
  have h : F.lam * p / r.dec < F.lam * r.min ↔ p / r.dec < r.min := by
    rw [mul_div_assoc]; exact mul_lt_mul_iff_right₀ hl
  simp only [h]
  split_ifs
  · rfl
  · ring

theorem increaseReg_map (hl : 0 < F.lam) (T : Nat) (tau : K) (s : St K X DX U L D) :
    increaseReg (c.scale F.lam) (s.map F fL fD T tau) = St.map F fL fD T tau (increaseReg c s) := by
  simp only [increaseReg, Cfg.scale, St.map, increase_map hl]

theorem decreaseReg_map (hl : 0 < F.lam) (T : Nat) (tau : K) (s : St K X DX U L D) :
    decreaseReg (c.scale F.lam) (s.map F fL fD T tau) = St.map F fL fD T tau (decreaseReg c s) := by
  simp only [decreaseReg, Cfg.scale, St.map, decrease_map hl]

theorem pregMax_map (hl : 0 < F.lam) (T : Nat) (tau : K) (s : St K X DX U L D) :
    (s.map F fL fD T tau).preg = (c.scale F.lam).reg.max ↔ s.preg = c.reg.max :=
  mul_right_inj' hl.ne'

theorem dirLoop_map (hP : SameProb F P P') (hO : SameOracle F fL fD P.T ok O O') (hl : 0 < F.lam) (fuel : Nat)
    (tau : K) {s : St K X DX U L D} (hs : LinOk ok s) :
    (∀ r, dirLoop P c O fuel s = some r → ok r.2.lin) ∧
    dirLoop P' (c.scale F.lam) O' fuel (s.map F fL fD P.T tau) =
      (dirLoop P c O fuel s).map fun r => (r.1, St.map F fL fD P.T tau r.2) := by
  induction fuel generalizing s with
  | zero => exact ⟨fun _ h => by simp [dirLoop] at h, rfl⟩
  | succ fuel ih =>
    obtain ⟨hk, hc⟩ := computeDirection_map hP hO tau hs
    unfold dirLoop
    simp only [hc]
    by_cases h : (computeDirection P O s).1 = true
    · simp only [h, if_true, Option.map_some]
      exact ⟨fun r e => by rw [← Option.some.inj e]; exact hk, trivial⟩
    · simp only [h]
      have e : increaseReg (c.scale F.lam)
          { (St.map F fL fD P.T tau (computeDirection P O s).2) with recalc := false } =
          St.map F fL fD P.T tau (increaseReg c { (computeDirection P O s).2 with recalc := false }) :=
        increaseReg_map hl P.T tau { (computeDirection P O s).2 with recalc := false }
      rw [e]
      simp only [pregMax_map hl, Bool.false_eq_true, if_false]
      split_ifs
      · exact ⟨fun r e => by rw [← Option.some.inj e]; exact hk, rfl⟩
      · exact ih (s := increaseReg c { (computeDirection P O s).2 with recalc := false }) fun _ => hk

theorem prepare_map (hO : SameOracle F fL fD P.T ok O O') (tau : K) (s : St K X DX U L D) :
    prepare O' kind (s.map F fL fD P.T tau) = St.map F fL fD P.T tau (prepare O kind s) := by
  unfold prepare
  cases kind.feasibilityDriven
  · simp only [Bool.false_eq_true, if_false, hO.expImp]; rfl
  · simp only [if_true, hO.updExp]; rfl

theorem stopping_map (hl : 0 < F.lam) (T : Nat) (tau : K) (s : St K X DX U L D) :
    stopping (s.map F fL fD T tau) = St.map F fL fD T tau (stopping s) := by
  have : |F.lam * s.d0 + 1 / 2 * (F.lam * s.d1)| = F.lam * |s.d0 + 1 / 2 * s.d1| := by
    rw [show F.lam * s.d0 + 1 / 2 * (F.lam * s.d1) = F.lam * (s.d0 + 1 / 2 * s.d1) by ring, abs_mul, abs_of_pos hl]
  simp only [stopping, St.map, this]

theorem iteration_map (hP : SameProb F P P') (hO : SameOracle F fL fD P.T ok O O') (hl : 0 < F.lam) (fuel : Nat)
    (tau : K) {s : St K X DX U L D} (hs : LinOk ok s) :
    ∃ tau', iteration P' (c.scale F.lam) O' kind fuel (s.map F fL fD P.T tau) =
      (iteration P c O kind fuel s).map fun r => (r.1, r.2.1, St.map F fL fD P.T tau' r.2.2) := by
  unfold iteration
  rw [(dirLoop_map hP hO hl fuel tau hs).2]
  cases dirLoop P c O fuel s with
  | none => exact ⟨tau, rfl⟩
  | some r =>
    obtain ⟨b, v⟩ := r
    cases b with
    | false => exact ⟨tau, rfl⟩
    | true =>
      simp only [Option.map_some, prepare_map hO]
      obtain ⟨tau', h⟩ := lineSearch_map (c := c) (kind := kind) hP hO hl c.alphas tau (prepare O kind v)
      rw [show (c.scale F.lam).alphas = c.alphas from rfl, h]
      refine ⟨tau', ?_⟩
      generalize lineSearch P c O kind c.alphas (prepare O kind v) = w
      rw [show (c.scale F.lam).thStepdec = c.thStepdec from rfl, show (c.scale F.lam).thStepinc = c.thStepinc from rfl]
      have e1 : (if (St.map F fL fD P.T tau' w).steplength > c.thStepdec then
            decreaseReg (c.scale F.lam) (St.map F fL fD P.T tau' w) else St.map F fL fD P.T tau' w) =
          St.map F fL fD P.T tau' (if w.steplength > c.thStepdec then decreaseReg c w else w) := by
        by_cases h : w.steplength > c.thStepdec
        · rw [if_pos h, if_pos (show (St.map F fL fD P.T tau' w).steplength > c.thStepdec from h), decreaseReg_map hl]
        · rw [if_neg h, if_neg (show ¬ (St.map F fL fD P.T tau' w).steplength > c.thStepdec from h)]
      rw [e1]
      generalize (if w.steplength > c.thStepdec then decreaseReg c w else w) = y
      rw [show (St.map F fL fD P.T tau' y).steplength = y.steplength from rfl]
      have e2 : (if decide (y.steplength ≤ c.thStepinc) = true then
            increaseReg (c.scale F.lam) (St.map F fL fD P.T tau' y) else St.map F fL fD P.T tau' y) =
          St.map F fL fD P.T tau' (if decide (y.steplength ≤ c.thStepinc) = true then increaseReg c y else y) := by
        split_ifs
        · exact increaseReg_map hl P.T tau' y
        · rfl
      rw [e2]
      generalize hz : (if decide (y.steplength ≤ c.thStepinc) = true then increaseReg c y else y) = z
      have e3 : decide ((St.map F fL fD P.T tau' z).preg = (c.scale F.lam).reg.max) = decide (z.preg = c.reg.max) :=
        decide_eq_decide.mpr (pregMax_map hl P.T tau' z)
      rw [e3, stopping_map hl]
      have e4 : ((stopping z).map F fL fD P.T tau').stop < (c.scale F.lam).thStop ↔ (stopping z).stop < c.thStop :=
        mul_lt_mul_iff_right₀ hl
      have e5 : ((stopping z).map F fL fD P.T tau').wasFeas = (stopping z).wasFeas := rfl
      simp only [e4, e5]
      split_ifs <;> rfl

theorem iteration_linOk (hP : SameProb F P P') (hO : SameOracle F fL fD P.T ok O O') (hl : 0 < F.lam) {fuel : Nat}
    {s v : St K X DX U L D} (hs : LinOk ok s) {b : Bool}
    (h : iteration P c O kind fuel s = some (.continue, b, v)) : LinOk ok v := by
  have hd := (dirLoop_map (c := c) hP hO hl fuel 0 hs).1
  unfold iteration at h
  cases hx : dirLoop P c O fuel s with
  | none => rw [hx] at h; cases h
  | some r =>
    obtain ⟨b', w⟩ := r
    have hw := hd _ hx
    rw [hx] at h
    cases b' with
    | false => simp at h
    | true =>
      have hp : (prepare O kind w).lin = w.lin := by
        unfold prepare; cases kind.feasibilityDriven <;> rfl
      have hls := lineSearch_lin (P := P) (c := c) (O := O) (kind := kind) c.alphas (prepare O kind w)
      rw [hp] at hls
      have hy : LinOk ok (lineSearch P c O kind c.alphas (prepare O kind w)) := by
        intro hr
        rcases hls with h1 | h1
        · rw [hr] at h1; cases h1
        · rw [h1]; exact hw
      simp only at h
      generalize lineSearch P c O kind c.alphas (prepare O kind w) = y at h hy
      have h1 : LinOk ok (if y.steplength > c.thStepdec then decreaseReg c y else y) := by
        split_ifs <;> exact hy
      generalize (if y.steplength > c.thStepdec then decreaseReg c y else y) = z at h h1
      have h2 : LinOk ok (if decide (z.steplength ≤ c.thStepinc) = true then increaseReg c z else z) := by
        split_ifs <;> exact h1
      generalize (if decide (z.steplength ≤ c.thStepinc) = true then increaseReg c z else z) = q at h h2
      split_ifs at h
      · cases h
      · cases h
      · cases h; exact h2

theorem iterLoop_map (hP : SameProb F P P') (hO : SameOracle F fL fD P.T ok O O') (hl : 0 < F.lam) (fuel n : Nat)
    (tau : K) {s : St K X DX U L D} (hs : LinOk ok s) :
    (iterLoop P c O kind fuel n s = none ∧
      iterLoop P' (c.scale F.lam) O' kind fuel n (s.map F fL fD P.T tau) = none) ∨
    ∃ o o', iterLoop P c O kind fuel n s = some o ∧
      iterLoop P' (c.scale F.lam) O' kind fuel n (s.map F fL fD P.T tau) = some o' ∧ o'.ret = o.ret ∧
      (∃ tau', o'.final = o.final.map F fL fD P.T tau') ∧
      List.Forall₂ (fun v v' => ∃ tau', v' = St.map F fL fD P.T tau' v) o.trace o'.trace := by
  induction n generalizing s tau with
  | zero => exact .inr ⟨_, _, rfl, rfl, rfl, ⟨tau, rfl⟩, .nil⟩
  | succ n ih =>
    unfold iterLoop
    obtain ⟨tau', h⟩ := iteration_map (c := c) (kind := kind) hP hO hl fuel tau hs
    rw [h]
    have hk := fun b v => iteration_linOk (c := c) (kind := kind) hP hO hl (fuel := fuel) (b := b) (v := v) hs
    rcases hx : iteration P c O kind fuel s with _ | ⟨e, b, v⟩
    · exact .inl ⟨rfl, rfl⟩
    · cases e with
      | giveUp => exact .inr ⟨_, _, rfl, rfl, rfl, ⟨tau', rfl⟩, .nil⟩
      | converged => exact .inr ⟨_, _, rfl, rfl, rfl, ⟨tau', rfl⟩, .cons ⟨tau', rfl⟩ .nil⟩
      | «continue» =>
        simp only [Option.map_some]
        have e : ({ (St.map F fL fD P.T tau' v) with iter := (St.map F fL fD P.T tau' v).iter + 1 } :
          St K X' DX' U' L' D') = St.map F fL fD P.T tau' { v with iter := v.iter + 1 } := rfl
        rw [e]
        rcases ih tau' (s := { v with iter := v.iter + 1 }) (hk b v hx) with ⟨h1, h2⟩ | ⟨o, o', h1, h2, h3, h4, h5⟩
        · rw [h1, h2]; exact .inl ⟨rfl, rfl⟩
        · rw [h1, h2]
          exact .inr ⟨_, _, rfl, rfl, h3, h4, .cons ⟨tau', rfl⟩ h5⟩

theorem start_map (hP : SameProb F P P') (xs : Nat → X) (us : Nat → U) (feas : Bool)
    (reg : Option K) (T : Nat) (tau : K) (s : St K X DX U L D) :
    start P' (c.scale F.lam) (fun t => F.x (xs t)) (fun t => F.u t (us t)) feas (reg.map (F.lam * ·))
      (s.map F fL fD T tau) = St.map F fL fD T tau (start P c xs us feas reg s) := by
  cases reg <;> simp [start, St.map, Cfg.scale, hP.x0, xsTry_map]

end
end Verif.Solve
