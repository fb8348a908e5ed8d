import Verif.Spec.FrameRes
import Verif.Lemmas.ContactFrame
import Verif.Props.ContactFrame
import Mathlib.Analysis.SpecialFunctions.Trigonometric.Basic

/-!
# C90: residuals of a frame
-/

namespace Verif.Fr

open Matrix Verif.Con

set_option linter.unusedSectionVars false
set_option linter.unusedSimpArgs false

variable {nv : ℕ}

/-! ### Histories -/

theorem Code.run_append {M D U : Type} (c : Code M D U nv) (F : Frames) (w : World M D nv) (a b : List (Op U nv)) :
    c.run F w (a ++ b) = c.run F (c.run F w a) b := List.foldl_append

/-- Pinocchio's data after quiet calls: the kinematics are the same and the placement of an updated frame stays updated. -/
theorem Code.quiet {M D U : Type} (c : Code M D U nv) (F : Frames) (k : ℕ → Kin nv) (mid : List (Op U nv))
    (h : ∀ o ∈ mid, Quiet k o) (w : World M D nv) (hk : w.p.kin = k) (i : ℕ) (hi : w.p.oMf i = (k i).oMf (F i)) :
    (c.run F w mid).m = w.m ∧ (c.run F w mid).d = w.d ∧ (c.run F w mid).p.kin = k
    ∧ (c.run F w mid).p.oMf i = (k i).oMf (F i) := by
  induction mid generalizing w with
  | nil => exact ⟨rfl, rfl, hk, hi⟩
  | cons o mid ih =>
    have h' : ∀ o ∈ mid, Quiet k o := fun o ho => h o (List.mem_cons_of_mem _ ho)
    cases h o List.mem_cons_self with
    | again =>
      have := ih h' (c.step F w (.kinematics k)) rfl hi
      exact this
    | other j =>
      have := ih h' (c.step F w (.other j)) hk (by
        by_cases e : i = j
        · subst e; simp [Code.step, Pin.update, hk]
        · simp [Code.step, Pin.update, Function.update_of_ne e, hi])
      exact this

theorem Code.quiet' {M D U : Type} (c : Code M D U nv) (F : Frames) (k : ℕ → Kin nv) (mid : List (Op U nv))
    (h : ∀ o ∈ mid, Quiet k o) (w : World M D nv) (hk : w.p.kin = k) :
    (c.run F w mid).m = w.m ∧ (c.run F w mid).d = w.d ∧ (c.run F w mid).p.kin = k := by
  induction mid generalizing w with
  | nil => exact ⟨rfl, rfl, hk⟩
  | cons o mid ih =>
    have h' : ∀ o ∈ mid, Quiet k o := fun o ho => h o (List.mem_cons_of_mem _ ho)
    cases h o List.mem_cons_self with
    | again => exact ih h' (c.step F w (.kinematics k)) rfl
    | other j => exact ih h' (c.step F w (.other j)) hk

theorem update_oMf (F : Frames) (p : Pin nv) (i : ℕ) : (p.update F i).oMf i = (p.kin i).oMf (F i) := by
  simp [Pin.update]

/-- What `calc` and `calcDiff` at one state leave in the data. -/
theorem Code.evaluate_eq {M D U : Type} (c : Code M D U nv) (F : Frames) (k : ℕ → Kin nv) (mid : List (Op U nv))
    (h : ∀ o ∈ mid, Quiet k o) (w : World M D nv) (i : ℕ)
    (hk : (c.value F w.m { w.p with kin := k } w.d).1.kin = k)
    (hi : (c.value F w.m { w.p with kin := k } w.d).1.oMf i = (k i).oMf (F i)) :
    ∃ b : Pin nv, b.kin = k ∧ b.oMf i = (k i).oMf (F i) ∧
      (c.run F w (evaluate k mid)).d = c.diff F w.m b (c.value F w.m { w.p with kin := k } w.d).2 := by
  have e : c.run F w (evaluate k mid) = c.step F (c.run F (c.step F (c.step F w (.kinematics k)) .calc) mid) .diff := by
    simp only [evaluate, Code.run_append]
    rfl
  obtain ⟨q1, q2, q3, q4⟩ := c.quiet F k mid h (c.step F (c.step F w (.kinematics k)) .calc) hk i hi
  refine ⟨_, q3, q4, ?_⟩
  rw [e]
  change c.diff F _ _ _ = _
  rw [q1, q2]
  rfl

/-! ### Translation -/

theorem translation_set (F : Frames) (ops : List (Op (Set V3) nv)) (w : World MT (DT nv) nv) :
    ((translation.run F w ops).m.id, (translation.run F w ops).m.ref) = chosen (w.m.id, w.m.ref) ops := by
  induction ops generalizing w with
  | nil => rfl
  | cons o ops ih =>
    have h := ih (translation.step F w o)
    cases o with
    | set a => cases a <;> exact h
    | _ => exact h

theorem translation_right (F : Frames) (ops : List (Op (Set V3) nv)) (w : World MT (DT nv) nv) (h : w.d.right = 0) :
    (translation.run F w ops).d.right = 0 := by
  induction ops generalizing w with
  | nil => exact h
  | cons o ops ih =>
    refine ih (translation.step F w o) ?_
    cases o <;> exact h

/-- **C90** (translation). After any history of evaluations, changes of frame and of reference, `calc` and `calcDiff` at one
state give the position of the frame relative to the last reference, and its derivative along every curve of states. -/
theorem C90_translation (F : Frames) (id : ℕ) (ref : V3) (p : Pin nv) (ops : List (Op (Set V3) nv)) (k : ℕ → Kin nv)
    (mid : List (Op (Set V3) nv)) (hm : ∀ o ∈ mid, Quiet k o) :
    let c := chosen (id, ref) ops
    let w := translation.run F ⟨⟨id, ref⟩, p, freshT⟩ (ops ++ evaluate k mid)
    w.d.r = position (k c.1) (F c.1) - c.2
    ∧ ∀ (K : ℝ → ℕ → Kin nv) (δ : Tan nv → ℝ), K 0 = k → Rot (F c.1).rot → Along (fun s => K s c.1) δ →
        HasDerivAt (fun s => position (K s c.1) (F c.1) - c.2) (w.d.Rx *ᵥ δ) 0 := by
  intro c w
  have hc := translation_set F ops ⟨⟨id, ref⟩, p, freshT⟩
  have hz := translation_right F ops ⟨⟨id, ref⟩, p, freshT⟩ rfl
  have hw : w = translation.run F (translation.run F ⟨⟨id, ref⟩, p, freshT⟩ ops) (evaluate k mid) := Code.run_append ..
  generalize translation.run F ⟨⟨id, ref⟩, p, freshT⟩ ops = a at hc hz hw
  have e1 : a.m.id = c.1 := congrArg Prod.fst hc
  have e2 : a.m.ref = c.2 := congrArg Prod.snd hc
  obtain ⟨b, b1, b2, hd⟩ := translation.evaluate_eq F k mid hm a a.m.id rfl (update_oMf F _ _)
  rw [← hw] at hd
  change w.d = { (MT.calc F a.m { a.p with kin := k } a.d).2 with left := (b.oMf a.m.id).rot * ((b.kin a.m.id).fJf (F a.m.id)).lin } at hd
  rw [b1, b2] at hd
  refine ⟨?_, fun K δ hK hF hA => ?_⟩
  · rw [hd]
    change ((Pin.update F _ a.m.id).oMf a.m.id).trans - a.m.ref = _
    rw [update_oMf, e1, e2]
    rfl
  · refine ((hA.pose.frame hF).dtrans.sub_const c.2).congr_deriv ?_
    rw [hd, DT.Rx]
    change _ = fromCols (((k a.m.id).oMf (F a.m.id)).rot * ((k a.m.id).fJf (F a.m.id)).lin) a.d.right *ᵥ δ
    rw [hz, fromCols_mulVec, zero_mulVec, add_zero, e1, ← mulVec_mulVec, Kin.fJf, fXj_lin hF, hK]
    rfl

/-! ### Rotation -/

theorem rotation_set (L : Log3) (F : Frames) (ops : List (Op (Set M3) nv)) (w : World MR (DR nv) nv) (h : w.m.inv = w.m.refᵀ) :
    (((rotation L).run F w ops).m.id, ((rotation L).run F w ops).m.ref) = chosen (w.m.id, w.m.ref) ops
    ∧ ((rotation L).run F w ops).m.inv = ((rotation L).run F w ops).m.refᵀ := by
  induction ops generalizing w with
  | nil => exact ⟨rfl, h⟩
  | cons o ops ih =>
    cases o with
    | set a =>
      cases a with
      | id i => exact ih ((rotation L).step F w _) h
      | ref a => exact ih ((rotation L).step F w (.set (.ref a))) rfl
    | _ => exact ih ((rotation L).step F w _) h

theorem rotation_right (L : Log3) (F : Frames) (ops : List (Op (Set M3) nv)) (w : World MR (DR nv) nv) (h : w.d.right = 0) :
    ((rotation L).run F w ops).d.right = 0 := by
  induction ops generalizing w with
  | nil => exact h
  | cons o ops ih =>
    refine ih ((rotation L).step F w o) ?_
    cases o <;> exact h

/-- **C90** (rotation). After any history, `calc` and `calcDiff` at one state give the logarithm of the rotation of the frame seen
from the last reference, which vanishes exactly at the reference, and its derivative along every curve of states. -/
theorem C90_rotation (L : Log3) (F : Frames) (id : ℕ) (ref : M3) (p : Pin nv) (ops : List (Op (Set M3) nv)) (k : ℕ → Kin nv)
    (mid : List (Op (Set M3) nv)) (hm : ∀ o ∈ mid, Quiet k o) :
    let c := chosen (id, ref) ops
    let w := (rotation L).run F ⟨MR.make id ref, p, freshR⟩ (ops ++ evaluate k mid)
    w.d.r = L.log (c.2ᵀ * orient (k c.1) (F c.1))
    ∧ (LogZero3 L → Rot c.2 → Rot (orient (k c.1) (F c.1)) → (w.d.r = 0 ↔ orient (k c.1) (F c.1) = c.2))
    ∧ ∀ (K : ℝ → ℕ → Kin nv) (δ : Tan nv → ℝ), K 0 = k → Rot (F c.1).rot → Along (fun s => K s c.1) δ →
        LogOn3 L (fun s => c.2ᵀ * orient (K s c.1) (F c.1)) →
        HasDerivAt (fun s => L.log (c.2ᵀ * orient (K s c.1) (F c.1))) (w.d.Rx *ᵥ δ) 0 := by
  intro c w
  obtain ⟨hc, hi⟩ := rotation_set L F ops ⟨MR.make id ref, p, freshR⟩ rfl
  have hz := rotation_right L F ops ⟨MR.make id ref, p, freshR⟩ rfl
  have hw : w = (rotation L).run F ((rotation L).run F ⟨MR.make id ref, p, freshR⟩ ops) (evaluate k mid) := Code.run_append ..
  generalize (rotation L).run F ⟨MR.make id ref, p, freshR⟩ ops = a at hc hz hw hi
  have e1 : a.m.id = c.1 := congrArg Prod.fst hc
  have e2 : a.m.ref = c.2 := congrArg Prod.snd hc
  obtain ⟨b, b1, -, hd⟩ := (rotation L).evaluate_eq F k mid hm a a.m.id rfl (update_oMf F _ _)
  rw [← hw] at hd
  have hv : ((rotation L).value F a.m { a.p with kin := k } a.d).2 =
      { a.d with rRf := c.2ᵀ * orient (k c.1) (F c.1), r := L.log (c.2ᵀ * orient (k c.1) (F c.1)) } := by
    simp only [rotation, MR.calc, update_oMf, hi, e1, e2]
    rfl
  rw [hv] at hd
  have hr : w.d.r = L.log (c.2ᵀ * orient (k c.1) (F c.1)) := by rw [hd]; rfl
  refine ⟨hr, fun hL h1 h2 => ?_, fun K δ hK hF hA hL => ?_⟩
  · rw [hr, hL _ (h1.transpose.mul h2)]
    constructor
    · intro h
      have := congrArg (c.2 * ·) h
      simpa [← Matrix.mul_assoc, h1.orth'] using this
    · intro h
      rw [h, h1.orth]
  · have hs := (hA.pose.frame hF).seen (F := ⟨c.2, 0⟩) (m := (F c.1).actInv ((K 0 c.1).J.mulVec (δ ∘ Sum.inl)))
    have hx : w.d.Rx *ᵥ δ = L.jlog (c.2ᵀ * orient (k c.1) (F c.1)) *ᵥ ((F c.1).actInv ((k c.1).J.mulVec (δ ∘ Sum.inl))).ang := by
      rw [hd, DR.Rx]
      change fromCols (L.jlog (c.2ᵀ * orient (k c.1) (F c.1)) * ((b.kin a.m.id).fJf (F a.m.id)).ang) a.d.right *ᵥ δ = _
      rw [hz, fromCols_mulVec, zero_mulVec, add_zero, e1, b1, ← mulVec_mulVec, Kin.fJf, fXj_ang hF]
    rw [hx, ← hK]
    refine hL _ fun i j => ?_
    have := hasDerivAt_pi.1 (hasDerivAt_mulVec_const (A := c.2ᵀ) (u := fun s => (orient (K s c.1) (F c.1)).col j)
      (hasDerivAt_pi.2 fun i => (hA.pose.frame hF).drot i j)) i
    refine this.congr_deriv ?_
    rw [Matrix.mul_assoc]
    rfl

/-! ### Placement -/

theorem placement_set (L : Log) (F : Frames) (ops : List (Op (Set Pose) nv)) (w : World MP (DP nv) nv) (h : w.m.inv = w.m.ref.inv) :
    (((placement L).run F w ops).m.id, ((placement L).run F w ops).m.ref) = chosen (w.m.id, w.m.ref) ops
    ∧ ((placement L).run F w ops).m.inv = ((placement L).run F w ops).m.ref.inv := by
  induction ops generalizing w with
  | nil => exact ⟨rfl, h⟩
  | cons o ops ih =>
    cases o with
    | set a =>
      cases a with
      | id i => exact ih ((placement L).step F w _) h
      | ref a => exact ih ((placement L).step F w (.set (.ref a))) rfl
    | _ => exact ih ((placement L).step F w _) h

theorem placement_right (L : Log) (F : Frames) (ops : List (Op (Set Pose) nv)) (w : World MP (DP nv) nv) (h : w.d.right = ⟨0, 0⟩) :
    ((placement L).run F w ops).d.right = ⟨0, 0⟩ := by
  induction ops generalizing w with
  | nil => exact h
  | cons o ops ih =>
    refine ih ((placement L).step F w o) ?_
    cases o <;> exact h

/-- A placement is the identity seen from itself only. -/
theorem seen_one {A B : Pose} (hA : Rot A.rot) : A.inv.mul B = ⟨1, 0⟩ ↔ B = A := by
  constructor
  · intro h
    have h1 : A.rotᵀ * B.rot = 1 := congrArg Pose.rot h
    have h2 : -(A.rotᵀ *ᵥ A.trans) + A.rotᵀ *ᵥ B.trans = 0 := congrArg Pose.trans h
    have h3 : B.rot = A.rot := by
      have := congrArg (A.rot * ·) h1
      simpa [← Matrix.mul_assoc, hA.orth'] using this
    have h4 : B.trans = A.trans := by
      have h2' : A.rotᵀ *ᵥ B.trans = A.rotᵀ *ᵥ A.trans := by rwa [neg_add_eq_zero, eq_comm] at h2
      have := congrArg (A.rot *ᵥ ·) h2'
      simpa [hA.forth] using this
    cases B; cases A
    simp_all
  · rintro rfl
    simp [Pose.inv, Pose.mul, hA.orth]

/-- **C90** (placement). After any history, `calc` and `calcDiff` at one state give the logarithm of the placement of the frame
seen from the last reference, which vanishes exactly at the reference, and its derivative along every curve of states. -/
theorem C90_placement (L : Log) (F : Frames) (id : ℕ) (ref : Pose) (p : Pin nv) (e : Pose) (ops : List (Op (Set Pose) nv))
    (k : ℕ → Kin nv) (mid : List (Op (Set Pose) nv)) (hm : ∀ o ∈ mid, Quiet k o) :
    let c := chosen (id, ref) ops
    let w := (placement L).run F ⟨MP.make id ref, p, freshP e⟩ (ops ++ evaluate k mid)
    w.d.r = L.log (c.2.inv.mul ((k c.1).oMf (F c.1)))
    ∧ (LogZero L → Rot c.2.rot → Rot (orient (k c.1) (F c.1)) → (w.d.r = ⟨0, 0⟩ ↔ (k c.1).oMf (F c.1) = c.2))
    ∧ ∀ (K : ℝ → ℕ → Kin nv) (δ : Tan nv → ℝ), K 0 = k → Rot (F c.1).rot → Rot c.2.rot → Along (fun s => K s c.1) δ →
        LogOn L (fun s => c.2.inv.mul ((K s c.1).oMf (F c.1))) →
        HasSix (fun s => L.log (c.2.inv.mul ((K s c.1).oMf (F c.1)))) (rx w.d.left w.d.right δ) 0 := by
  intro c w
  obtain ⟨hc, hi⟩ := placement_set L F ops ⟨MP.make id ref, p, freshP e⟩ rfl
  have hz := placement_right L F ops ⟨MP.make id ref, p, freshP e⟩ rfl
  have hw : w = (placement L).run F ((placement L).run F ⟨MP.make id ref, p, freshP e⟩ ops) (evaluate k mid) := Code.run_append ..
  generalize (placement L).run F ⟨MP.make id ref, p, freshP e⟩ ops = a at hc hz hw hi
  have e1 : a.m.id = c.1 := congrArg Prod.fst hc
  have e2 : a.m.ref = c.2 := congrArg Prod.snd hc
  obtain ⟨b, b1, -, hd⟩ := (placement L).evaluate_eq F k mid hm a a.m.id rfl (update_oMf F _ _)
  rw [← hw] at hd
  have hv : ((placement L).value F a.m { a.p with kin := k } a.d).2 =
      { a.d with rMf := c.2.inv.mul ((k c.1).oMf (F c.1)), r := L.log (c.2.inv.mul ((k c.1).oMf (F c.1))) } := by
    simp only [placement, MP.calc, update_oMf, hi, e1, e2]
  rw [hv] at hd
  have hr : w.d.r = L.log (c.2.inv.mul ((k c.1).oMf (F c.1))) := by rw [hd]; rfl
  refine ⟨hr, fun hL h1 h2 => ?_, fun K δ hK hF hP hA hL => ?_⟩
  · rw [hr, hL _ (h1.transpose.mul h2)]
    exact seen_one h1
  · have h := hL _ ((hA.pose.frame hF).seen hP)
    have hx : rx w.d.left w.d.right δ = ⟨((L.jlog (c.2.inv.mul ((k c.1).oMf (F c.1)))).mul ((k c.1).fJf (F c.1))).lin *ᵥ (δ ∘ Sum.inl),
        ((L.jlog (c.2.inv.mul ((k c.1).oMf (F c.1)))).mul ((k c.1).fJf (F c.1))).ang *ᵥ (δ ∘ Sum.inl)⟩ := by
      have hl : w.d.left = (L.jlog (c.2.inv.mul ((k c.1).oMf (F c.1)))).mul ((k c.1).fJf (F c.1)) := by
        rw [hd, ← e1, ← b1]
        simp [placement, MP.diff, Pin.jacobian]
      have hr' : w.d.right = ⟨0, 0⟩ := by rw [hd]; exact hz
      rw [hl, hr']
      simp [rx, Jac.mulVec, Six.add]
    rw [hx, mul_lin, mul_ang, Kin.fJf, fXj_lin hF, fXj_ang hF, ← hK]
    exact h

/-! ### Velocity -/

theorem velocity_set (F : Frames) (ops : List (Op SetV nv)) (w : World MV (DV nv) nv) :
    ((velocity.run F w ops).m.id, (velocity.run F w ops).m.ref, (velocity.run F w ops).m.type)
      = chosenV (w.m.id, w.m.ref, w.m.type) ops := by
  induction ops generalizing w with
  | nil => rfl
  | cons o ops ih =>
    have h := ih (velocity.step F w o)
    cases o with
    | set a => cases a <;> exact h
    | _ => exact h

theorem hasSix_sub_const {f : ℝ → Six} {f' : Six} {t : ℝ} (h : HasSix f f' t) (c : Six) :
    HasSix (fun s => subSix (f s) c) f' t := ⟨h.lin.sub_const c.lin, h.ang.sub_const c.ang⟩

theorem action_lin (M : Pose) (X : Jac nv) (u : Fin nv → ℝ) :
    (M.action.mul X).lin *ᵥ u = M.rot *ᵥ (X.lin *ᵥ u) + M.trans ⨯₃ (M.rot *ᵥ (X.ang *ᵥ u)) := by
  rw [mul_lin]
  simp [Pose.action, ← mulVec_mulVec, skew_mulVec]

/-- Velocity of the frame, in the coordinates of its type, along a curve of states. -/
theorem velIn_deriv (F : Pose) (hF : Rot F.rot) (k : ℝ → Kin nv) (δ : Tan nv → ℝ) (hA : Along k δ) (t : Ref) :
    HasSix (fun s => (k s).velIn F t) (rx (velDq F (k 0) t) (velDv F (k 0) t) δ) 0 := by
  have hv := hA.vel.frame F
  have hM := hA.pose.frame hF
  have eq := fXj_mulVec hF (k 0).vq (δ ∘ Sum.inl)
  have eJ := fXj_mulVec hF (k 0).J (δ ∘ Sum.inr)
  have eJ' := fXj_mulVec hF (k 0).J (δ ∘ Sum.inl)
  rw [actInv_add, ← eq, ← eJ] at hv
  rw [← eJ'] at hM
  cases t with
  | loc => exact hv
  | lwa =>
    refine ⟨(hM.mulVec hv.lin).congr_deriv ?_, (hM.mulVec hv.ang).congr_deriv ?_⟩
    · simp only [rx, velDq, velDv, Jac.mulVec, Six.add, ← mulVec_mulVec, sub_mulVec, skew_mulVec, Kin.fJf, Kin.vel, Kin.oMf]
      rw [← mulVec_add, ← cross_anticomm]
      congr 1
      abel
    · simp only [rx, velDq, velDv, Jac.mulVec, Six.add, ← mulVec_mulVec, sub_mulVec, skew_mulVec, Kin.fJf, Kin.vel, Kin.oMf]
      rw [← mulVec_add, ← cross_anticomm]
      congr 1
      abel
  | world =>
    have ha := hM.mulVec hv.ang
    have hl := (hM.mulVec hv.lin).add (hasDerivAt_cross hM.dtrans ha)
    have hR := hM.rot 0
    refine ⟨hl.congr_deriv ?_, ha.congr_deriv ?_⟩
    · simp only [rx, velDq, velDv, Jac.mulVec, Six.add]
      rw [action_lin, action_lin]
      simp only [sub_mulVec, ← mulVec_mulVec, skew_mulVec, Kin.fJf, Kin.vel, Kin.oMf]
      generalize ((fXj F).mul (k 0).vq).lin *ᵥ (δ ∘ Sum.inl) = a1
      generalize ((fXj F).mul (k 0).vq).ang *ᵥ (δ ∘ Sum.inl) = a2
      generalize ((fXj F).mul (k 0).J).lin *ᵥ (δ ∘ Sum.inl) = a3
      generalize ((fXj F).mul (k 0).J).ang *ᵥ (δ ∘ Sum.inl) = a4
      generalize ((fXj F).mul (k 0).J).lin *ᵥ (δ ∘ Sum.inr) = a5
      generalize ((fXj F).mul (k 0).J).ang *ᵥ (δ ∘ Sum.inr) = a6
      rw [hR.cross, ← cross_anticomm _ a4, ← cross_anticomm _ a4, ← cross_anticomm _ a3]
      simp only [map_add, map_sub, map_neg, mulVec_add, mulVec_sub, mulVec_neg]
      abel
    · simp only [rx, velDq, velDv, Jac.mulVec, Six.add, mul_ang, Pose.action, ← mulVec_mulVec, sub_mulVec, skew_mulVec,
        Kin.fJf, Kin.vel, Kin.oMf, zero_mulVec, zero_add]
      rw [← mulVec_add, ← cross_anticomm]
      congr 1
      abel

/-- **C90** (velocity). After any history, `calc` and `calcDiff` at one state give the velocity of the frame, in the coordinates of
the last type, relative to the last reference, and its derivative along every curve of states. -/
theorem C90_velocity (F : Frames) (id : ℕ) (ref : Six) (type : Ref) (p : Pin nv) (ops : List (Op SetV nv)) (k : ℕ → Kin nv)
    (mid : List (Op SetV nv)) (hm : ∀ o ∈ mid, Quiet k o) :
    let c := chosenV (id, ref, type) ops
    let w := velocity.run F ⟨⟨id, ref, type⟩, p, freshV⟩ (ops ++ evaluate k mid)
    w.d.r = subSix ((k c.1).velIn (F c.1) c.2.2) c.2.1
    ∧ ∀ (K : ℝ → ℕ → Kin nv) (δ : Tan nv → ℝ), K 0 = k → Rot (F c.1).rot → Along (fun s => K s c.1) δ →
        HasSix (fun s => subSix ((K s c.1).velIn (F c.1) c.2.2) c.2.1) (rx w.d.left w.d.right δ) 0 := by
  intro c w
  have hc := velocity_set F ops ⟨⟨id, ref, type⟩, p, freshV⟩
  have hw : w = velocity.run F (velocity.run F ⟨⟨id, ref, type⟩, p, freshV⟩ ops) (evaluate k mid) := Code.run_append ..
  generalize velocity.run F ⟨⟨id, ref, type⟩, p, freshV⟩ ops = a at hc hw
  have e1 : a.m.id = c.1 := congrArg Prod.fst hc
  have e2 : a.m.ref = c.2.1 := congrArg (fun x => x.2.1) hc
  have e3 : a.m.type = c.2.2 := congrArg (fun x => x.2.2) hc
  have hd : w.d = { r := subSix ((k c.1).velIn (F c.1) c.2.2) c.2.1, left := velDq (F c.1) (k c.1) c.2.2,
                    right := velDv (F c.1) (k c.1) c.2.2 } := by
    obtain ⟨q1, q2, q3⟩ := velocity.quiet' F k mid hm (velocity.step F (velocity.step F a (.kinematics k)) .calc) rfl
    have e : w = velocity.step F (velocity.run F (velocity.step F (velocity.step F a (.kinematics k)) .calc) mid) .diff := by
      rw [hw]; simp only [evaluate, Code.run_append]; rfl
    rw [e]
    change MV.diff F _ _ _ = _
    rw [q1, q2]
    simp only [MV.diff, q3, ← e1, ← e2, ← e3]
    rfl
  refine ⟨by rw [hd], fun K δ hK hF hA => ?_⟩
  rw [hd]
  have := hasSix_sub_const (velIn_deriv (F c.1) hF (fun s => K s c.1) δ hA c.2.2) c.2.1
  simp only [hK] at this
  exact this

/-- **C90** (meaning of the velocity). Along a motion, the velocity in the directions of the world is that of the position and of
the orientation of the frame; the velocity in the frame is the same seen from the frame; the one in the world is taken at the
point of the body that passes through the origin. -/
theorem C90_velocity_meaning (F : Pose) (hF : Rot F.rot) (k : ℝ → Kin nv) (hk : Trajectory k) (t : ℝ) :
    HasDerivAt (fun s => position (k s) F) ((k t).velIn F .lwa).lin t
    ∧ (∀ i j, HasDerivAt (fun s => orient (k s) F i j) ((skew ((k t).velIn F .lwa).ang * orient (k t) F) i j) t)
    ∧ (k t).velIn F .loc = ⟨(orient (k t) F)ᵀ *ᵥ ((k t).velIn F .lwa).lin, (orient (k t) F)ᵀ *ᵥ ((k t).velIn F .lwa).ang⟩
    ∧ (k t).velIn F .world = ⟨((k t).velIn F .lwa).lin + position (k t) F ⨯₃ ((k t).velIn F .lwa).ang, ((k t).velIn F .lwa).ang⟩ := by
  have hM := (hk.vel t).frame hF
  have hR : Rot (orient (k t) F) := hM.rot t
  refine ⟨hM.dtrans, fun i j => (hM.drot i j).congr_deriv ?_, ?_, rfl⟩
  · have := hR.skew_mul ((k t).vel F).ang
    exact congrFun (congrFun this i) j
  · change (⟨_, _⟩ : Six) = ⟨_, _⟩
    rw [show ((k t).velIn F .lwa).lin = orient (k t) F *ᵥ ((k t).vel F).lin from rfl,
      show ((k t).velIn F .lwa).ang = orient (k t) F *ᵥ ((k t).vel F).ang from rfl, hR.back, hR.back]
    rfl

/-! ### Concrete cases -/

/-- The vector of the skew part of a matrix. -/
noncomputable def vee (R : M3) : V3 := ![(R 2 1 - R 1 2) / 2, (R 0 2 - R 2 0) / 2, (R 1 0 - R 0 1) / 2]

open Classical in
/-- A logarithm of rotations that is right to first order at the identity. -/
noncomputable def log3' : Log3 where
  log R := if R = 1 then 0 else if vee R = 0 then ![1, 0, 0] else vee R
  jlog _ := 1

theorem log3'_zero : LogZero3 log3' := by
  intro R _
  simp only [log3']
  split_ifs with h1 h2
  · simp [h1]
  · simp [h1]
  · simp [h1, h2]

theorem vee_turn (s : ℝ) : vee (turn s) = ![0, 0, Real.sin s] := by
  ext i
  fin_cases i <;> simp [vee, turn]

theorem turn_zero : turn 0 = 1 := by
  ext i j
  fin_cases i <;> fin_cases j <;> simp [turn]

theorem log3'_turn (s : ℝ) (hs : |s| < 1) : log3'.log (turn s) = ![0, 0, Real.sin s] := by
  by_cases h0 : s = 0
  · subst h0
    simp [log3', turn_zero]
    ext i; fin_cases i <;> simp
  · have hsin : Real.sin s ≠ 0 := by
      rcases abs_lt.1 hs with ⟨a, b⟩
      have := Real.two_le_pi
      intro h
      rcases lt_trichotomy s 0 with c | c | c
      · have := Real.sin_neg_of_neg_of_neg_pi_lt c (by linarith); linarith
      · exact h0 c
      · have := Real.sin_pos_of_pos_of_lt_pi c (by linarith); linarith
    have hv : vee (turn s) ≠ 0 := by
      rw [vee_turn]
      intro h
      exact hsin (congrFun h 2)
    have h1 : turn s ≠ 1 := by
      intro h
      apply hv
      rw [h]
      ext i; fin_cases i <;> simp [vee]
    rw [← vee_turn]
    simp only [log3', if_neg h1, if_neg hv]

theorem log3'_on : LogOn3 log3' turn := by
  intro ω hω
  have h10 := hω 1 0
  have h20 := hω 2 0
  have h21 := hω 2 1
  rw [turn_zero, Matrix.one_mul] at h10 h20 h21
  have e2 : ω 2 = 1 := by
    have : HasDerivAt (fun s : ℝ => turn s 1 0) (Real.cos 0) 0 := by simpa [turn] using Real.hasDerivAt_sin 0
    simpa [skew] using h10.unique this
  have e1 : ω 1 = 0 := by
    have : HasDerivAt (fun s : ℝ => turn s 2 0) 0 0 := by simpa [turn] using hasDerivAt_const (0:ℝ) (0:ℝ)
    simpa [skew] using h20.unique this
  have e0 : ω 0 = 0 := by
    have : HasDerivAt (fun s : ℝ => turn s 2 1) 0 0 := by simpa [turn] using hasDerivAt_const (0:ℝ) (0:ℝ)
    simpa [skew] using h21.unique this
  have hev : (fun s => log3'.log (turn s)) =ᶠ[nhds 0] fun s => ![0, 0, Real.sin s] := by
    filter_upwards [Metric.ball_mem_nhds (0:ℝ) (by norm_num : (0:ℝ) < 1)] with s hs
    exact log3'_turn s (by simpa [Real.dist_eq] using hs)
  refine HasDerivAt.congr_of_eventuallyEq ?_ hev
  rw [hasDerivAt_pi]
  intro i
  fin_cases i
  · simpa [log3', e0] using hasDerivAt_const (0:ℝ) (0:ℝ)
  · simpa [log3', e1] using hasDerivAt_const (0:ℝ) (0:ℝ)
  · simpa [log3', e2] using Real.hasDerivAt_sin 0

/-- A logarithm of placements that is right to first order where the rotation is the identity. -/
noncomputable def log6' : Log where
  log M := ⟨M.trans, log3'.log M.rot⟩
  jlog M := ⟨M.rot, 0, 0, 1⟩

theorem log6'_zero : LogZero log6' := by
  intro M hM
  have := log3'_zero M.rot hM
  obtain ⟨R, t⟩ := M
  simp only [log6', Six.mk.injEq, Pose.mk.injEq]
  rw [this]
  exact and_comm

/-- The end of the turning arm. -/
def tip : Frames := fun _ => arm

/-- C90 (translation) on the turning arm: after two changes of reference and one of frame, the residual is the position relative
to the last reference, and its derivative points along the motion. -/
example (p : Pin 1) :
    let ops : List (Op (Set V3) 1) := [.set (.ref ![1, 2, 3]), .kinematics fun _ => spin 1, .calc, .set (.id 7), .diff,
      .set (.ref ![0, 1, 0])]
    let w := translation.run tip ⟨⟨0, 0⟩, p, freshT⟩ (ops ++ evaluate (fun _ => spin 0) [.other 3])
    w.d.r = ![1, -1, 0] ∧ HasDerivAt (fun s => position (spin s) arm - ![0, 1, 0]) (w.d.Rx *ᵥ Sum.elim (fun _ => 1) 0) 0
    ∧ w.d.Rx *ᵥ Sum.elim (fun _ => 1) 0 = ![0, 1, 0] := by
  intro ops w
  have h := C90_translation tip 0 0 p ops (fun _ => spin 0) [.other 3] (by intro o ho; simp at ho; subst ho; exact .other 3)
  have hd := h.2 (fun s _ => spin s) (Sum.elim (fun _ => 1) 0) rfl Rot.one spin_along
  refine ⟨h.1.trans ?_, hd, ?_⟩
  · ext i
    fin_cases i <;> simp [ops, chosen, tip, position, arm, spin, turn, Kin.oMf, Pose.mul, Matrix.mulVec, dotProduct, Fin.sum_univ_three, vecHead, vecTail]
  · refine hd.unique ?_
    · rw [hasDerivAt_pi]
      intro i
      have hs := Real.hasDerivAt_sin 0
      have hc := Real.hasDerivAt_cos 0
      fin_cases i
      · simpa [tip, ops, chosen, position, arm, spin, turn, Kin.oMf, Pose.mul, Matrix.mulVec, dotProduct, Fin.sum_univ_three, vecHead, vecTail] using hc
      · simpa [tip, ops, chosen, position, arm, spin, turn, Kin.oMf, Pose.mul, Matrix.mulVec, dotProduct, Fin.sum_univ_three, vecHead, vecTail] using hs.sub_const 1
      · simpa [tip, ops, chosen, position, arm, spin, turn, Kin.oMf, Pose.mul, Matrix.mulVec, dotProduct, Fin.sum_univ_three, vecHead, vecTail] using hasDerivAt_const (0:ℝ) (0:ℝ)

/-- C90 (rotation) on the turning body: the hypotheses hold for a logarithm, and the residual turns about the hinge. -/
example (p : Pin 1) :
    let w := (rotation log3').run (fun _ => here) ⟨MR.make 0 half, p, freshR⟩
      ([.calc, .set (.ref 1)] ++ evaluate (fun _ => spin 0) [])
    w.d.r = 0 ∧ LogOn3 log3' (fun s => (1 : M3)ᵀ * orient (spin s) here)
    ∧ HasDerivAt (fun s => log3'.log ((1 : M3)ᵀ * orient (spin s) here)) (w.d.Rx *ᵥ Sum.elim (fun _ => 1) 0) 0 := by
  intro w
  have h := C90_rotation log3' (fun _ => here) 0 half p [.calc, .set (.ref 1)] (fun _ => spin 0) [] (by simp)
  have e : ∀ s, (1 : M3)ᵀ * orient (spin s) here = turn s := by
    intro s; simp [orient, spin, here, Kin.oMf, Pose.mul]
  have hL : LogOn3 log3' (fun s => (1 : M3)ᵀ * orient (spin s) here) := by simp only [e]; exact log3'_on
  have hR : Rot (orient (spin 0) here) := by simpa [orient, spin, here, Kin.oMf, Pose.mul] using turn_rot 0
  refine ⟨(h.2.1 log3'_zero Rot.one hR).2 ?_, hL, h.2.2 (fun s _ => spin s) _ rfl Rot.one spin_along hL⟩
  have := e 0
  simpa [turn_zero, chosen] using this

/-- C90 (placement) on the turning body. -/
example (p : Pin 1) (e : Pose) :
    let w := (placement log6').run (fun _ => here) ⟨MP.make 0 arm, p, freshP e⟩
      ([.calc, .set (.ref here)] ++ evaluate (fun _ => spin 0) [])
    w.d.r = ⟨0, 0⟩ ∧ LogOn log6' (fun s => here.inv.mul ((spin s).oMf here))
    ∧ HasSix (fun s => log6'.log (here.inv.mul ((spin s).oMf here))) (rx w.d.left w.d.right (Sum.elim (fun _ => 1) 0)) 0 := by
  intro w
  have h := C90_placement log6' (fun _ => here) 0 arm p e [.calc, .set (.ref here)] (fun _ => spin 0) [] (by simp)
  have e : ∀ s, here.inv.mul ((spin s).oMf here) = ⟨turn s, 0⟩ := by
    intro s; simp [spin, here, Kin.oMf, Pose.mul, Pose.inv]
  have hL : LogOn log6' (fun s => here.inv.mul ((spin s).oMf here)) := by
    intro m hm
    simp only [e] at hm ⊢
    refine ⟨?_, ?_⟩
    · simpa [log6'] using hm.dtrans
    · have := log3'_on m.ang hm.drot
      simpa [log6', log3'] using this
  have hR : Rot (orient (spin 0) here) := by simpa [orient, spin, here, Kin.oMf, Pose.mul] using turn_rot 0
  refine ⟨(h.2.1 log6'_zero Rot.one hR).2 ?_, hL, h.2.2 (fun s _ => spin s) _ rfl Rot.one Rot.one spin_along hL⟩
  simp [chosen, spin, here, Kin.oMf, Pose.mul, turn_zero]

/-- C90 (velocity) on the turning arm: the end moves across the arm. -/
example (p : Pin 1) :
    let w := velocity.run tip ⟨⟨0, ⟨0, 0⟩, .loc⟩, p, freshV⟩
      ([.set (.type .lwa), .set (.ref ⟨![0, 1, 0], 0⟩)] ++ evaluate (fun _ => spin 0) [])
    w.d.r = ⟨0, ![0, 0, 1]⟩
    ∧ HasSix (fun s => subSix ((spin s).velIn arm .lwa) ⟨![0, 1, 0], 0⟩) (rx w.d.left w.d.right (Sum.elim (fun _ => 1) 0)) 0 := by
  intro w
  have h := C90_velocity tip 0 ⟨0, 0⟩ .loc p [.set (.type .lwa), .set (.ref ⟨![0, 1, 0], 0⟩)] (fun _ => spin 0) [] (by simp)
  refine ⟨h.1.trans ?_, h.2 (fun s _ => spin s) _ rfl Rot.one spin_along⟩
  simp only [chosenV, subSix, Kin.velIn, tip]
  congr 1 <;> ext i <;> fin_cases i <;> simp [arm, spin, turn, Kin.oMf, Kin.vel, Pose.actInv, Pose.mul, cross_apply, Matrix.mulVec, dotProduct, Fin.sum_univ_three, vecHead, vecTail]

end Verif.Fr
