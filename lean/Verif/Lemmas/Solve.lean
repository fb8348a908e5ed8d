import Verif.Spec.Solve
import Mathlib.Algebra.Order.Field.Basic
import Mathlib.Algebra.BigOperators.Group.Finset.Basic
import Mathlib.Data.Finset.Range

/-! # Lemmas about the forward passes -/

set_option linter.unusedSectionVars false

namespace Verif

/-- The result is a normal return in a state satisfying `Q`, or an exception in a state satisfying `J`. -/
def Res.sat {σ α : Type} (r : Res σ α) (Q J : σ → Prop) : Prop :=
  match r with
  | .ok _ s => Q s
  | .throw s => J s
  | .ub => False

/-- Invariant rule for loops. -/
theorem Cpp.forLoop_inv {σ : Type} (I : Nat → σ → Prop) (J : σ → Prop) (body : Nat → Cpp σ Unit)
    (start n : Nat)
    (hstep : ∀ t s, start ≤ t → t < start + n → I t s → (body t s).sat (I (t + 1)) J)
    (s : σ) (h : I start s) : (Cpp.forLoop start n body s).sat (I (start + n)) J := by
  induction n generalizing start s with
  | zero => simpa [Res.sat] using h
  | succ n ih =>
    have h1 := hstep start s le_rfl (by omega) h
    simp only [Cpp.forLoop_succ, Cpp.cbind_apply]
    cases hb : body start s with
    | ok u s' =>
      rw [hb] at h1
      have := ih (start + 1) (fun t s ht ht' => hstep t s (by omega) (by omega)) s' h1
      simpa [Nat.add_assoc, Nat.add_comm 1 n] using this
    | throw s' => rw [hb] at h1; exact h1
    | ub => rw [hb] at h1; exact h1

namespace Solve
open Verif Verif.Solver

@[simp] theorem upd_same {α : Type} (f : Nat → α) (i : Nat) (v : α) : upd f i v i = v := by simp [upd]
theorem upd_of_ne {α : Type} (f : Nat → α) {i j : Nat} (v : α) (h : j ≠ i) : upd f i v j = f j := by
  simp [upd, h]

section
variable {K X DX U L D : Type}
variable [Field K] [LinearOrder K] [AddCommGroup DX] [Module K DX] [AddCommGroup U] [Module K U]
variable {P : Prob K X DX U} {c : Cfg K} {O : Oracle K X DX U L D} {kind : Kind}

theorem sumTo_eq (f : Nat → K) (n : Nat) : sumTo f n = ∑ t ∈ Finset.range n, f t := by
  induction n with
  | zero => rfl
  | succ n ih => rw [Finset.sum_range_succ, ← ih]; rfl

theorem sumTo_congr {f g : Nat → K} {n : Nat} (h : ∀ t < n, f t = g t) : sumTo f n = sumTo g n := by
  rw [sumTo_eq, sumTo_eq]
  exact Finset.sum_congr rfl fun t ht => h t (Finset.mem_range.1 ht)

/-- `s'` differs from `s` only in the trial trajectory and the data. -/
def Frame (s s' : St K X DX U L D) : Prop :=
  s' = { s with xsTry := s'.xsTry, usTry := s'.usTry, datas := s'.datas, tdata := s'.tdata,
                costTry := s'.costTry, xnext := s'.xnext }

theorem Frame.refl (s : St K X DX U L D) : Frame s s := rfl

theorem Frame.trans {s s' s'' : St K X DX U L D} (h : Frame s s') (h' : Frame s' s'') : Frame s s'' := by
  unfold Frame at *
  rw [h', h]

/-- What the solvers evaluate at node `t`. -/
def nodeEval (P : Prob K X DX U) (t : Nat) (x : X) (u : U) : X × K :=
  if (P.node t).nuZero then (P.node t).evalT x else (P.node t).eval x u

/-- The state predicted for node `t`: the initial one or the previous node's next state. -/
def pred (x0 : X) (datas : Nat → X × K) : Nat → X
  | 0 => x0
  | t + 1 => (datas t).1

/-- Where the forward pass starts. -/
def first (P : Prob K X DX U) (kind : Kind) (s : St K X DX U L D) : X :=
  if kind = .ddp then s.xsTry 0 else P.x0

/-- The trial trajectory up to node `i`: data, controls, states. -/
structure TrialUpTo (P : Prob K X DX U) (kind : Kind) (a : K) (contract : Bool) (x0 : X)
    (xs : Nat → X) (us : Nat → U) (k : Nat → U) (gain : Nat → DX → U) (fs : Nat → DX)
    (xsTry : Nat → X) (usTry : Nat → U) (datas : Nat → X × K) (i : Nat) : Prop where
  data : ∀ t < i, datas t = nodeEval P t (xsTry t) (usTry t)
  control : ∀ t < i, (P.node t).nuZero = false →
    usTry t = (fun u => if kind.box then (P.node t).clamp u else u)
      (us t - a • k t - gain t ((P.node t).diff (xs t) (xsTry t)))
  state : ∀ t < i, xsTry t = if contract then
      (P.node t).integ (pred x0 datas t) ((a - 1) • fs t) else pred x0 datas t

/-- Loop invariant of the forward pass. -/
structure FwdInv (P : Prob K X DX U) (kind : Kind) (a : K) (contract : Bool)
    (s0 : St K X DX U L D) (i : Nat) (s : St K X DX U L D) : Prop where
  frame : Frame s0 s
  trial : TrialUpTo P kind a contract (first P kind s0) s0.xs s0.us s0.k s0.gain s0.fs
    s.xsTry s.usTry s.datas i
  cost : s.costTry = sumTo (fun t => (s.datas t).2) i
  next : if kind = .ddp then s.xsTry i = pred (first P kind s0) s.datas i
    else s.xnext = pred (first P kind s0) s.datas i
  zero : kind = .ddp → s.xsTry 0 = s0.xsTry 0

theorem pred_upd (x0 : X) (datas : Nat → X × K) (t : Nat) (v : X × K) (j : Nat) (h : j ≤ t) :
    pred x0 (upd datas t v) j = pred x0 datas j := by
  cases j with
  | zero => rfl
  | succ j => simp [pred, upd_of_ne datas v (show j ≠ t by omega)]

theorem pred_upd_succ (x0 : X) (datas : Nat → X × K) (t : Nat) (v : X × K) :
    pred x0 (upd datas t v) (t + 1) = v.1 := by simp [pred]

/-- Extending a trial trajectory by one node. -/
theorem TrialUpTo.extend {a : K} {contract : Bool} {x0 : X} {xs xsTry xsTry' : Nat → X}
    {us k usTry usTry' : Nat → U} {gain : Nat → DX → U} {fs : Nat → DX} {datas datas' : Nat → X × K}
    {t : Nat} {x : X} {u : U}
    (h : TrialUpTo P kind a contract x0 xs us k gain fs xsTry usTry datas t)
    (hx : ∀ j ≤ t, xsTry' j = upd xsTry t x j)
    (hu : usTry' = upd usTry t u) (hd : datas' = upd datas t (nodeEval P t x u))
    (hxx : x = if contract then (P.node t).integ (pred x0 datas t) ((a - 1) • fs t)
      else pred x0 datas t)
    (huu : (P.node t).nuZero = false → u = (fun u => if kind.box then (P.node t).clamp u else u)
      (us t - a • k t - gain t ((P.node t).diff (xs t) x))) :
    TrialUpTo P kind a contract x0 xs us k gain fs xsTry' usTry' datas' (t + 1) := by
  constructor
  · intro j hj
    rcases Nat.lt_succ_iff_lt_or_eq.1 hj with hj | rfl
    · rw [hx j hj.le, hu, hd, upd_of_ne _ _ hj.ne, upd_of_ne _ _ hj.ne, upd_of_ne _ _ hj.ne]
      exact h.data j hj
    · rw [hx j le_rfl, hu, hd]; simp
  · intro j hj hn
    rcases Nat.lt_succ_iff_lt_or_eq.1 hj with hj | rfl
    · rw [hx j hj.le, hu, upd_of_ne _ _ hj.ne, upd_of_ne _ _ hj.ne]
      exact h.control j hj hn
    · rw [hx j le_rfl, hu]; simpa using huu hn
  · intro j hj
    rcases Nat.lt_succ_iff_lt_or_eq.1 hj with hj | rfl
    · rw [hx j hj.le, upd_of_ne _ _ hj.ne, hd, pred_upd _ _ _ _ _ hj.le]
      exact h.state j hj
    · rw [hx j le_rfl, hd, pred_upd _ _ _ _ _ le_rfl, upd_same]; exact hxx

theorem sumTo_upd {f : Nat → X × K} {t : Nat} {v : X × K} {r : K}
    (h : r = sumTo (fun t => (f t).2) t) :
    r + v.2 = sumTo (fun j => (upd f t v j).2) (t + 1) := by
  simp only [sumTo, upd_same]
  rw [h]
  congr 1
  exact sumTo_congr fun j hj => by rw [upd_of_ne _ _ hj.ne]

theorem tryNode_spec (a : K) (t : Nat) (s : St K X DX U L D) :
    ∃ u, tryNode P kind a t s = .ok () { s with
      usTry := upd s.usTry t u, datas := upd s.datas t (nodeEval P t (s.xsTry t) u) } ∧
    ((P.node t).nuZero = false → u = (fun u => if kind.box then (P.node t).clamp u else u)
      (s.us t - a • s.k t - s.gain t ((P.node t).diff (s.xs t) (s.xsTry t)))) := by
  unfold tryNode nodeEval
  cases hz : (P.node t).nuZero
  · refine ⟨_, ?_, fun _ => rfl⟩
    simp [hz]
  · refine ⟨s.usTry t, ?_, by simp⟩
    have : upd s.usTry t (s.usTry t) = s.usTry := by
      funext j; by_cases h : j = t
      · subst h; simp
      · simp [upd, h]
    simp [this, hz]

/-- One round of the loop keeps the invariant; a throw leaves only the trial and the data changed. -/
theorem fwdBody_inv (a : K) (contract : Bool) (hk : kind = .ddp → contract = false)
    (s0 : St K X DX U L D) (t : Nat) (s : St K X DX U L D)
    (h : FwdInv P kind a contract s0 t s) :
    (fwdBody P O kind a contract t s).sat (FwdInv P kind a contract s0 (t + 1))
      (fun s' => Frame s0 s' ∧ (kind = .ddp → s'.xsTry 0 = s0.xsTry 0)) := by
  have hf := h.frame
  have hus : s.us = s0.us := by rw [hf]
  have hk' : s.k = s0.k := by rw [hf]
  have hg : s.gain = s0.gain := by rw [hf]
  have hxs : s.xs = s0.xs := by rw [hf]
  have hfs : s.fs = s0.fs := by rw [hf]
  by_cases hddp : kind = .ddp
  · subst hddp
    obtain ⟨u, hu, hu'⟩ := tryNode_spec (P := P) (kind := .ddp) a t s
    have hc : contract = false := hk rfl
    subst hc
    simp only [fwdBody, Cpp.bind_apply, Cpp.pure_apply, hu, Cpp.modify_apply, Cpp.get_apply,
      Cpp.throwIf_apply]
    have hx := h.next
    rw [if_pos rfl] at hx
    have key : FwdInv P .ddp a false s0 (t + 1)
        { s with usTry := upd s.usTry t u, datas := upd s.datas t (nodeEval P t (s.xsTry t) u),
                 xsTry := upd s.xsTry (t + 1) (upd s.datas t (nodeEval P t (s.xsTry t) u) t).1,
                 costTry := s.costTry + (upd s.datas t (nodeEval P t (s.xsTry t) u) t).2 } := by
      refine ⟨hf.trans rfl, ?_, ?_, ?_, ?_⟩
      · refine h.trial.extend (x := s.xsTry t) (u := u) ?_ rfl rfl (by simpa using hx) ?_
        · intro j hj
          show upd s.xsTry (t + 1) _ j = _
          rw [upd_of_ne s.xsTry _ (show j ≠ t + 1 by omega)]
          by_cases e : j = t
          · subst e; simp
          · rw [upd_of_ne _ _ e]
        · intro hn; rw [hu' hn, hus, hk', hg, hxs]
      · simpa using sumTo_upd h.cost
      · rw [if_pos rfl]; simp [pred]
      · intro _
        simpa [upd] using h.zero rfl
    by_cases h1 : O.bad (s.costTry + (upd s.datas t (nodeEval P t (s.xsTry t) u) t).2) = true
    · simp only [h1, if_true]
      exact ⟨key.frame, fun _ => key.zero rfl⟩
    · simp only [h1, if_false]
      by_cases h2 : O.badX (upd s.datas t (nodeEval P t (s.xsTry t) u) t).1 = true
      · simp only [h2, if_true]
        exact ⟨key.frame, fun _ => key.zero rfl⟩
      · simp only [h2, if_false]
        exact key
  · have hx := h.next
    rw [if_neg hddp] at hx
    generalize hxt : (if contract then (P.node t).integ s.xnext ((a - 1) • s.fs t) else s.xnext) = x
    obtain ⟨u, hu, hu'⟩ := tryNode_spec (P := P) (kind := kind) a t { s with xsTry := upd s.xsTry t x }
    simp only [upd_same] at hu hu'
    have hstep : fwdBody P O kind a contract t s =
        (fun s' : St K X DX U L D => if O.bad s'.costTry then .throw s' else
          if O.badX (s'.datas t).1 then .throw s' else .ok () s')
        { s with xsTry := upd s.xsTry t x, usTry := upd s.usTry t u,
                 datas := upd s.datas t (nodeEval P t x u), xnext := (nodeEval P t x u).1,
                 costTry := s.costTry + (nodeEval P t x u).2 } := by
      cases kind <;> first | exact absurd rfl hddp | skip
      all_goals
        simp only [fwdBody, Cpp.bind_apply, Cpp.modify_apply, hxt, hu, Cpp.get_apply,
          Cpp.throwIf_apply, upd_same]
        by_cases h1 : O.bad (s.costTry + (nodeEval P t x u).2) = true
        · simp only [h1, if_true]
        · simp only [h1, if_false, Bool.false_eq_true]
    rw [hstep]
    have key : FwdInv P kind a contract s0 (t + 1)
        { s with xsTry := upd s.xsTry t x, usTry := upd s.usTry t u,
                 datas := upd s.datas t (nodeEval P t x u), xnext := (nodeEval P t x u).1,
                 costTry := s.costTry + (nodeEval P t x u).2 } := by
      refine ⟨hf.trans rfl, ?_, sumTo_upd h.cost, ?_, fun e => absurd e hddp⟩
      · refine h.trial.extend (x := x) (u := u) (fun _ _ => rfl) rfl rfl ?_ ?_
        · rw [← hxt, hx, hfs]
        · intro hn; rw [hu' hn, hus, hk', hg, hxs]
      · rw [if_neg hddp]; simp [pred]
    dsimp only
    by_cases h1 : O.bad (s.costTry + (nodeEval P t x u).2) = true
    · rw [if_pos h1]
      exact ⟨key.frame, key.zero⟩
    · rw [if_neg h1]
      by_cases h2 : O.badX (upd s.datas t (nodeEval P t x u) t).1 = true
      · rw [if_pos h2]
        exact ⟨key.frame, key.zero⟩
      · rw [if_neg h2]
        exact key

/-- The result of a successful forward pass. -/
structure Core (P : Prob K X DX U) (kind : Kind) (a : K) (feas : Bool) (x0 : X)
    (xs : Nat → X) (us : Nat → U) (k : Nat → U) (gain : Nat → DX → U) (fs : Nat → DX)
    (xsTry : Nat → X) (usTry : Nat → U) (datas : Nat → X × K) (tdata costTry : K) : Prop where
  step : 0 ≤ a ∧ a ≤ 1
  nodes : TrialUpTo P kind a (kind.feasibilityDriven && (!feas && decide (a ≠ 1))) x0
    xs us k gain fs xsTry usTry datas P.T
  last : xsTry P.T = if (decide (kind ≠ .ddp) && (!feas && decide (a ≠ 1))) then
      P.tinteg (pred x0 datas P.T) ((a - 1) • fs P.T) else pred x0 datas P.T
  tdata_eq : tdata = P.tcost (xsTry P.T)
  cost : costTry = sumTo (fun t => (datas t).2) P.T + tdata

/-- The whole result of a successful forward pass. -/
structure Trial (P : Prob K X DX U) (kind : Kind) (a : K) (s0 s : St K X DX U L D) : Prop where
  frame : Frame s0 s
  core : Core P kind a s0.feas (first P kind s0) s0.xs s0.us s0.k s0.gain s0.fs
    s.xsTry s.usTry s.datas s.tdata s.costTry
  zero : kind = .ddp → s.xsTry 0 = s0.xsTry 0

theorem forwardPass_spec (a : K) (s0 : St K X DX U L D) :
    (forwardPass P O kind a s0).sat (Trial P kind a s0)
      (fun s => Frame s0 s ∧ (kind = .ddp → s.xsTry 0 = s0.xsTry 0)) := by
  simp only [forwardPass, Cpp.bind_apply, Cpp.throwIf_apply]
  by_cases hr : (decide (a > 1) || decide (a < 0)) = true
  · simp only [hr, if_true]
    exact ⟨Frame.refl _, fun _ => rfl⟩
  · simp only [hr, if_false, Cpp.get_apply, Cpp.modify_apply, Bool.false_eq_true]
    have hstep : 0 ≤ a ∧ a ≤ 1 := by
      simp only [Bool.or_eq_true, decide_eq_true_eq, not_or, not_lt] at hr
      exact ⟨hr.2, hr.1⟩
    generalize hopen : (!s0.feas && decide (a ≠ 1)) = opn
    generalize hs1 : ({ s0 with costTry := 0, xnext := if kind = .ddp then s0.xnext else P.x0 } : St K X DX U L D) = s1
    have hfirst : first P kind s1 = first P kind s0 := by rw [← hs1]; rfl
    have hf1 : Frame s0 s1 := by rw [← hs1]; rfl
    have hinv0 : FwdInv P kind a (kind.feasibilityDriven && opn) s0 0 s1 := by
      refine ⟨hf1, ⟨by simp, by simp, by simp⟩, by rw [← hs1]; rfl, ?_, ?_⟩
      · rw [← hs1]
        by_cases e : kind = .ddp <;> simp [e, first, pred]
      · intro _; rw [← hs1]
    have hl := Cpp.forLoop_inv (FwdInv P kind a (kind.feasibilityDriven && opn) s0)
      (fun s => Frame s0 s ∧ (kind = .ddp → s.xsTry 0 = s0.xsTry 0))
      (fwdBody P O kind a (kind.feasibilityDriven && opn)) 0 P.T
      (fun t s _ _ h => fwdBody_inv (O := O) a _ (by rintro rfl; rfl) s0 t s h) s1 hinv0
    cases hloop : Cpp.forLoop 0 P.T (fwdBody P O kind a (kind.feasibilityDriven && opn)) s1 with
    | ub => rw [hloop] at hl; exact hl
    | throw s => rw [hloop] at hl; exact hl
    | ok u s =>
      rw [hloop] at hl
      simp only [Nat.zero_add] at hl
      have main : ∀ xT : Nat → X, (∀ t < P.T, xT t = s.xsTry t) → (kind = .ddp → xT 0 = s.xsTry 0) →
          xT P.T = (if (decide (kind ≠ .ddp) && opn) then
            P.tinteg (pred (first P kind s0) s.datas P.T) ((a - 1) • s0.fs P.T)
            else pred (first P kind s0) s.datas P.T) →
          Trial P kind a s0 { s with xsTry := xT, tdata := P.tcost (xT P.T), costTry := s.costTry + P.tcost (xT P.T) } := by
        intro xT hxT h0 hlast
        refine ⟨hl.frame.trans rfl, ⟨hstep, ?_, ?_, rfl, ?_⟩, ?_⟩
        · rw [hopen]
          have := hl.trial
          refine ⟨fun t ht => ?_, fun t ht hn => ?_, fun t ht => ?_⟩
          · show s.datas t = nodeEval P t (xT t) (s.usTry t)
            rw [hxT t ht]; exact this.data t ht
          · show s.usTry t = _
            have h2 := this.control t ht hn
            rw [h2]
            show _ = (fun u => if kind.box then (P.node t).clamp u else u)
              (s0.us t - a • s0.k t - s0.gain t ((P.node t).diff (s0.xs t) (xT t)))
            rw [hxT t ht]
          · show xT t = _
            rw [hxT t ht]; exact this.state t ht
        · rw [hopen]; exact hlast
        · show s.costTry + P.tcost (xT P.T) = _
          rw [hl.cost]
        · intro e; exact (h0 e).trans (hl.zero e)
      have hnext := hl.next
      by_cases hddp : kind = .ddp
      · subst hddp
        rw [if_pos rfl] at hnext
        have := main s.xsTry (fun _ _ => rfl) (fun _ => rfl) (by simpa using hnext)
        simp only [fwdTerm, Cpp.bind_apply, Cpp.pure_apply, Cpp.modify_apply, Cpp.get_apply,
          Cpp.throwIf_apply]
        split
        · exact ⟨this.frame, fun _ => this.zero rfl⟩
        · exact this
      · rw [if_neg hddp] at hnext
        have hfs : s.fs = s0.fs := by rw [hl.frame]
        generalize hx : (if (decide (kind ≠ .ddp) && opn) = true then P.tinteg s.xnext ((a - 1) • s.fs P.T) else s.xnext) = x
        have := main (upd s.xsTry P.T x) (fun t ht => upd_of_ne _ _ ht.ne) (fun e => absurd e hddp)
          (by rw [upd_same, ← hx, hnext, hfs])
        rw [upd_same] at this
        have hstep : fwdTerm P O kind a (decide (kind ≠ .ddp) && opn) s =
          (fun s' : St K X DX U L D => if O.bad s'.costTry then .throw s' else .ok () s')
          { s with xsTry := upd s.xsTry P.T x, tdata := P.tcost x, costTry := s.costTry + P.tcost x } := by
          cases kind <;> first | exact absurd rfl hddp | skip
          all_goals
            simp only [fwdTerm, Cpp.bind_apply, Cpp.modify_apply, hx, Cpp.get_apply,
              Cpp.throwIf_apply, upd_same]
        simp only [hstep]
        split
        · exact ⟨this.frame, this.zero⟩
        · exact this

/-- `tryStep`. -/
theorem tryStep_spec (a : K) (s0 : St K X DX U L D) :
    (tryStep P O kind a s0).sat
      (fun s => ∃ s1, Trial P kind a s0 s1 ∧ s = { s1 with dV := s1.cost - s1.costTry })
      (fun s => Frame s0 s ∧ (kind = .ddp → s.xsTry 0 = s0.xsTry 0)) := by
  have h := forwardPass_spec (P := P) (O := O) (kind := kind) a s0
  simp only [tryStep, Cpp.bind_apply]
  cases hf : forwardPass P O kind a s0 with
  | ok u s => rw [hf] at h; exact ⟨s, h, rfl⟩
  | throw s => rw [hf] at h; exact h
  | ub => rw [hf] at h; exact h

end
end Solve
end Verif
