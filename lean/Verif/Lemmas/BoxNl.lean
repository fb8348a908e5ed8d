import Verif.Spec.BoxNl
import Verif.Lemmas.BoxLq
import Verif.Lemmas.NlCalc

set_option linter.unusedSectionVars false

/-! # Lemmas: the box solvers on nonlinear problems with control limits -/

namespace Verif.Nl
open Verif Verif.Solve Verif.Lq Matrix

variable {n m : Nat} {P : NlProb n m} {lim : CtrlLimits ℝ m} {llt : ∀ m, Matrix (Fin m) (Fin m) ℝ → Bool}
  {fac : BoxQp.Fac ℝ} {p : BoxQp.Params ℝ} {preg : Option ℝ} {us : Nat → Fin m → ℝ} {f : Nat → Fin n → ℝ} {T : Nat}
  {L : Lin ℝ n m}

/-- What the backward pass of the box solvers leaves, for arbitrary derivatives. -/
structure NlPass (T : Nat) (L : Lin ℝ n m) (lim : CtrlLimits ℝ m) (preg : Option ℝ) (us : Nat → Fin m → ℝ) (f : Nat → Fin n → ℝ)
    (g : Arrays ℝ n (fun _ => m)) : Prop where
  term : g.V T = termValue preg true L.LxT L.LxxT (f T)
  val : ∀ t < T, g.V t = (g.out t).V
  node : ∀ t < T, NodeOk preg true (lim.has t && decide (0 < m)) (lim.lb t) (lim.ub t) (us t) (L.d t) (g.V (t + 1)) (f t)
    (g.out t)

theorem nlPass_of {s g : BoxDir ℝ n m} (hs : SymmHess T L) (hf : BoxQp.FacSound fac) (hl : LltSound llt) (hr : p.reg = 0)
    (hg : p.thGrad = 0) (hw : lim.Within T us)
    (h : boxBackward llt fac p lim us preg true T L.d L.LxT L.LxxT f s = some g) (hc : g.conv = true) :
    NlPass T L lim preg us f g.arr := by
  obtain ⟨h1, -, -, h4, h3⟩ := boxBackLoop_spec _ _ _ h
  have hT : g.arr.V T = termValue preg true L.LxT L.LxxT (f T) := by
    rw [h1 T le_rfl]
    simp only [Function.update_self]
  have hstep : ∀ t < T, (g.arr.V (t + 1)).Vxxᵀ = (g.arr.V (t + 1)).Vxx →
      NodeOk preg true (lim.has t && decide (0 < m)) (lim.lb t) (lim.ub t) (us t) (L.d t) (g.arr.V (t + 1)) (f t)
        (g.arr.out t) := by
    intro t ht hV
    have h5 := h3 t ht
    by_cases hb : lim.has t = true ∧ 0 < m
    · rw [if_pos ⟨hb.1, rfl, hb.2⟩] at h5
      obtain ⟨k, s1, s2, c, h6, h7⟩ := h5
      have := h7 hc
      subst this
      have e : (lim.has t && decide (0 < m)) = true := by simp [hb.1, hb.2]
      rw [e]
      exact boxNode_ok hf hr hg (fun i => (hw t ht hb.1 i).1.trans (hw t ht hb.1 i).2) (hs.Luu t ht) hV h6
    · rw [if_neg (fun h => hb ⟨h.1, h.2.2⟩)] at h5
      have e : (lim.has t && decide (0 < m)) = false := by
        by_contra he
        simp only [Bool.not_eq_false, Bool.and_eq_true, decide_eq_true_eq] at he
        exact hb he
      rw [e]
      exact backNode_ok hl (hs.Luu t ht) hV h5
  have hsym : ∀ i, i ≤ T → (g.arr.V (T - i)).Vxxᵀ = (g.arr.V (T - i)).Vxx := by
    intro i
    induction i with
    | zero =>
      intro _
      rw [Nat.sub_zero, hT]
      exact addDiag_symm _ hs.term
    | succ i ih =>
      intro hi
      have e : T - i = T - (i + 1) + 1 := by omega
      have := ih (by omega)
      rw [e] at this
      rw [h4 _ (by omega)]
      exact (hstep _ (by omega) this).symm
  refine ⟨hT, h4, fun t ht => hstep t ht ?_⟩
  have := hsym (T - (t + 1)) (by omega)
  rwa [show T - (T - (t + 1)) = t + 1 by omega] at this

/-- The gradient of the total cost with respect to the controls of a node. -/
def gradAt (L : Lin ℝ n m) (T t : Nat) : Fin m → ℝ := (L.d t).Lu + (L.d t).Fuᵀ *ᵥ adj L T (T - (t + 1))

section
variable {g : Arrays ℝ n (fun _ => m)}

theorem NlPass.vx (hb : NlPass T L lim preg us f g) (t : Nat) (ht : t ≤ T) (hk : ∀ j, t ≤ j → j < T → (g.out j).k = 0) :
    (g.V t).Vx = adj L T (T - t) := by
  have : ∀ i, i ≤ T → t ≤ T - i → (g.V (T - i)).Vx = adj L T i := by
    intro i
    induction i with
    | zero =>
      intro _ _
      rw [Nat.sub_zero, hb.term]
      simp [termValue, adj]
    | succ i ih =>
      intro hi hti
      have e : T - i = T - (i + 1) + 1 := by omega
      have h1 := ih (by omega) (by omega)
      rw [e] at h1
      rw [hb.val _ (by omega), (hb.node _ (by omega)).stationary (hk _ hti (by omega)), adj, ← h1]
      rfl
  have h1 := this (T - t) (by omega) (by omega)
  rwa [show T - (T - t) = t by omega] at h1

theorem NlPass.qu (hb : NlPass T L lim preg us f g) (t : Nat) (ht : t < T) (hk : ∀ j, t < j → j < T → (g.out j).k = 0) :
    (actionValue preg (L.d t) (g.V (t + 1))).Qu = gradAt L T t := by
  simp only [actionValue, gradAt, hb.vx (t + 1) (by omega) (fun j hj => hk j (by omega))]

theorem stationaryWithin_iff (hE : Exact P (traj P us) us L) (hw : lim.Within P.T us) :
    StationaryWithin P lim us ↔ ∀ t < P.T, ∀ v : Fin m → ℝ,
      (lim.has t = true → ∀ i, lim.lb t i ≤ v i ∧ v i ≤ lim.ub t i) → 0 ≤ gradAt L P.T t ⬝ᵥ (v - us t) := by
  have hd : ∀ vs : Nat → Fin m → ℝ, HasDerivAt (fun a : ℝ => total P fun t => us t + a • (vs t - us t))
      (∑ t ∈ Finset.range P.T, gradAt L P.T t ⬝ᵥ (vs t - us t)) 0 := by
    intro vs
    have := total_deriv hE (fun t => vs t - us t)
    rw [total_slope] at this
    exact this
  constructor
  · intro h t ht v hv
    obtain ⟨d, hd0, hdd⟩ := h.2 (Function.update us t v) (fun j hj hh i => by
      by_cases hjt : j = t
      · subst hjt; rw [Function.update_self]; exact hv hh i
      · rw [Function.update_of_ne hjt]; exact hw j hj hh i)
    have e := (hd _).unique hdd
    rw [Finset.sum_eq_single t] at e
    · rw [Function.update_self] at e
      rw [e]; exact hd0
    · intro j _ hj
      rw [Function.update_of_ne hj, sub_self, dotProduct_zero]
    · intro hn
      exact absurd (Finset.mem_range.mpr ht) hn
  · intro h
    exact ⟨hw, fun vs hv => ⟨_, Finset.sum_nonneg fun t ht =>
      h t (Finset.mem_range.mp ht) (vs t) (hv t (Finset.mem_range.mp ht)), hd vs⟩⟩

/-- The node's gradient and gains: moves onto a limit help more than the quadratic model of the free controls says. -/
theorem NodeOk.gain {bounded : Bool} {lb ub u : Fin m → ℝ} {d : Derivs ℝ n m} {V : Value ℝ n} {f : Fin n → ℝ}
    {o : NodeOut ℝ n m} (h : NodeOk preg true bounded lb ub u d V f o)
    (hw : bounded = true → ∀ i, lb i ≤ u i ∧ u i ≤ ub i) :
    o.k ⬝ᵥ (o.Q.Quu *ᵥ o.k) ≤ (actionValue preg d V).Qu ⬝ᵥ o.k := by
  rw [dotProduct_comm]
  refine Finset.sum_le_sum fun i _ => ?_
  rcases h.row i with ⟨-, h2, -⟩ | ⟨hb, -, -, ⟨h3, h4⟩ | ⟨h3, h4⟩⟩
  · rw [h2]
  · have : 0 ≤ o.k i := by linarith [(hw hb i).1]
    nlinarith
  · have : o.k i ≤ 0 := by linarith [(hw hb i).2]
    nlinarith

theorem NodeOk.feedback {bounded : Bool} {lb ub u : Fin m → ℝ} {d : Derivs ℝ n m} {V : Value ℝ n} {f : Fin n → ℝ}
    {o : NodeOut ℝ n m} (h : NodeOk preg true bounded lb ub u d V f o) (x : Fin n → ℝ) :
    o.Q.Qu ⬝ᵥ (o.Kfb *ᵥ x) = (actionValue preg d V).Qu ⬝ᵥ (o.Kfb *ᵥ x) := by
  refine Finset.sum_congr rfl fun i _ => ?_
  rcases h.row i with ⟨h1, -⟩ | ⟨-, -, h3, -⟩
  · rw [h1]
  · have : (o.Kfb *ᵥ x) i = 0 := by simp [mulVec, dotProduct, h3]
    rw [this, mul_zero, mul_zero]

/-- Slope of the total cost along the direction. -/
theorem NlPass.slope (hb : NlPass T L lim preg us f g) :
    ∑ t ∈ Finset.range T, gradAt L T t ⬝ᵥ (-(g.out t).k - (g.out t).Kfb *ᵥ closedLoop L g t)
      = - ∑ t ∈ Finset.range T, (actionValue preg (L.d t) (g.V (t + 1))).Qu ⬝ᵥ (g.out t).k := by
  let v : Nat → Fin m → ℝ := fun t => -(g.out t).k - (g.out t).Kfb *ᵥ closedLoop L g t
  have hv : ∀ t, sensU L v t = closedLoop L g t := by
    intro t
    induction t with
    | zero => rfl
    | succ t ih => rw [sensU, closedLoop, ih]
  have h0 := total_slope (L := L) T v
  change ∑ t ∈ Finset.range T, gradAt L T t ⬝ᵥ v t = _
  rw [show ∑ t ∈ Finset.range T, gradAt L T t ⬝ᵥ v t = _ from h0.symm]
  have key : ∀ t < T, (L.d t).Lx ⬝ᵥ sensU L v t + (L.d t).Lu ⬝ᵥ v t =
      - ((actionValue preg (L.d t) (g.V (t + 1))).Qu ⬝ᵥ (g.out t).k)
      + ((g.V t).Vx ⬝ᵥ sensU L v t - (g.V (t + 1)).Vx ⬝ᵥ sensU L v (t + 1)) := by
    intro t ht
    have hn := hb.node t ht
    have hVx : (g.V t).Vx = (actionValue preg (L.d t) (g.V (t + 1))).Qx - (g.out t).Kfbᵀ *ᵥ (g.out t).Q.Qu := by
      rw [hb.val t ht, hn.val]
      simp only [computeValue, if_true, hn.Qx]
    have hfb := NodeOk.feedback hn (sensU L v t)
    have e0 : ((g.out t).Kfbᵀ *ᵥ (g.out t).Q.Qu) ⬝ᵥ sensU L v t = (g.out t).Q.Qu ⬝ᵥ ((g.out t).Kfb *ᵥ sensU L v t) := by
      rw [mulVec_transpose, dotProduct_mulVec]
    have e1 : ((L.d t).Fxᵀ *ᵥ (g.V (t + 1)).Vx) ⬝ᵥ sensU L v t = (g.V (t + 1)).Vx ⬝ᵥ ((L.d t).Fx *ᵥ sensU L v t) := by
      rw [mulVec_transpose, dotProduct_mulVec]
    have e2 : ((L.d t).Fuᵀ *ᵥ (g.V (t + 1)).Vx) ⬝ᵥ v t = (g.V (t + 1)).Vx ⬝ᵥ ((L.d t).Fu *ᵥ v t) := by
      rw [mulVec_transpose, dotProduct_mulVec]
    have e3 : (actionValue preg (L.d t) (g.V (t + 1))).Qu ⬝ᵥ v t
        = - ((actionValue preg (L.d t) (g.V (t + 1))).Qu ⬝ᵥ (g.out t).k)
          - (actionValue preg (L.d t) (g.V (t + 1))).Qu ⬝ᵥ ((g.out t).Kfb *ᵥ sensU L v t) := by
      rw [hv t]
      simp only [v, dotProduct_sub, dotProduct_neg]
    have e4 : (actionValue preg (L.d t) (g.V (t + 1))).Qu ⬝ᵥ v t
        = (L.d t).Lu ⬝ᵥ v t + (g.V (t + 1)).Vx ⬝ᵥ ((L.d t).Fu *ᵥ v t) := by
      rw [← e2]; simp only [actionValue, add_dotProduct]
    have e5 : (actionValue preg (L.d t) (g.V (t + 1))).Qx ⬝ᵥ sensU L v t
        = (L.d t).Lx ⬝ᵥ sensU L v t + (g.V (t + 1)).Vx ⬝ᵥ ((L.d t).Fx *ᵥ sensU L v t) := by
      rw [← e1]; simp only [actionValue, add_dotProduct]
    rw [hVx, sub_dotProduct, e0, hfb, e5, sensU, dotProduct_add]
    linarith
  rw [Finset.sum_congr rfl fun t ht => key t (Finset.mem_range.mp ht), Finset.sum_add_distrib,
    Finset.sum_range_sub' (fun t => (g.V t).Vx ⬝ᵥ sensU L v t), hb.term]
  simp [sensU, termValue]

end
end Verif.Nl
