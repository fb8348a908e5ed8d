import Verif.Lemmas.BoxNl
import Verif.Props.BoxLq
import Verif.Props.Nl

/-! # C140: the box solvers on nonlinear problems with control limits -/

set_option linter.unusedSectionVars false

namespace Verif.Nl
open Verif Verif.Solve Verif.Lq Matrix

section
variable {n m : Nat} {P : NlProb n m} {lim : CtrlLimits ℝ m} {llt : ∀ m, Matrix (Fin m) (Fin m) ℝ → Bool}
  {fac : BoxQp.Fac ℝ} {p : BoxQp.Params ℝ} {preg : Option ℝ} {us : Nat → Fin m → ℝ} {f : Nat → Fin n → ℝ}
  {L : Lin ℝ n m} {s g : BoxDir ℝ n m}

/-- C140. Nonlinear problem with control limits, exact first derivatives, any symmetric Hessian blocks, any regularisation,
any warm starts and earlier calls. If the box QPs of the backward pass converge exactly and all feed-forward terms are zero,
the candidate is a first-order point of the problem with limits. -/
theorem C140_stops (hE : Exact P (traj P us) us L) (hH : SymmHess P.T L) (hf : BoxQp.FacSound fac) (hl : LltSound llt)
    (hr : p.reg = 0) (hg : p.thGrad = 0) (hw : lim.Within P.T us)
    (hb : boxBackward llt fac p lim us preg true P.T L.d L.LxT L.LxxT f s = some g) (hc : g.conv = true)
    (hk : ∀ t < P.T, (g.arr.out t).k = 0) : StationaryWithin P lim us := by
  have hpass := nlPass_of hH hf hl hr hg hw hb hc
  refine (stationaryWithin_iff hE hw).mpr fun t ht v hv => ?_
  have hQ := hpass.qu t ht (fun j _ hj => hk j hj)
  have hn := hpass.node t ht
  rw [← hQ]
  refine Finset.sum_nonneg fun i _ => ?_
  have hk0 : ∀ i, ((g.arr.out t).Q.Quu *ᵥ (g.arr.out t).k) i = 0 := fun i => by rw [hk t ht, mulVec_zero]; rfl
  rcases hn.row i with ⟨-, h2, -⟩ | ⟨hbd, -, -, h3⟩
  · rw [h2, hk0, zero_mul]
  · simp only [Bool.and_eq_true] at hbd
    rw [hk t ht, mulVec_zero] at h3
    simp only [Pi.zero_apply, sub_zero] at h3
    obtain ⟨hv1, hv2⟩ := hv hbd.1 i
    rcases h3 with ⟨h4, h5⟩ | ⟨h4, h5⟩
    · exact mul_nonneg h5.le (by rw [Pi.sub_apply, h4]; linarith)
    · exact mul_nonneg_of_nonpos_of_nonpos h5.le (by rw [Pi.sub_apply, h4]; linarith)

/-- C140. The converse, when the Hessians of the nodes' box QPs are positive definite: at a first-order point all
feed-forward terms are zero. -/
theorem C140_stationary (hE : Exact P (traj P us) us L) (hH : SymmHess P.T L) (hf : BoxQp.FacSound fac) (hl : LltSound llt)
    (hr : p.reg = 0) (hg : p.thGrad = 0) (hw : lim.Within P.T us)
    (hb : boxBackward llt fac p lim us preg true P.T L.d L.LxT L.LxxT f s = some g) (hc : g.conv = true)
    (hpd : ∀ t < P.T, BoxQp.PosDef (g.arr.out t).Q.Quu) :
    (∀ t < P.T, (g.arr.out t).k = 0) ↔ StationaryWithin P lim us := by
  refine ⟨C140_stops hE hH hf hl hr hg hw hb hc, fun ho => ?_⟩
  have hpass := nlPass_of hH hf hl hr hg hw hb hc
  have hopt := (stationaryWithin_iff hE hw).mp ho
  have key : ∀ i, i ≤ P.T → ∀ j, P.T - i ≤ j → j < P.T → (g.arr.out j).k = 0 := by
    intro i
    induction i with
    | zero => intro _ j h1 h2; omega
    | succ i ih =>
      intro hi j h1 h2
      by_cases hj : P.T - i ≤ j
      · exact ih (by omega) j hj h2
      obtain rfl : j = P.T - (i + 1) := by omega
      have hQ := hpass.qu _ h2 (fun j hj => ih (by omega) j (by omega))
      have hn := hpass.node _ h2
      have hpd := hpd _ h2
      have hopt := hopt _ h2
      rw [hn.Quu] at hpd
      rw [← hQ] at hopt
      generalize P.T - (i + 1) = t at *
      cases hbd : (lim.has t && decide (0 < m)) with
      | true =>
        rw [hbd] at hn
        simp only [Bool.and_eq_true, decide_eq_true_eq] at hbd
        have hin := hw t h2 hbd.1
        have hkkt : BoxQp.Kkt (actionValue preg (L.d t) (g.arr.V (t + 1))).Quu
            (actionValue preg (L.d t) (g.arr.V (t + 1))).Qu (lim.lb t - us t)
            (lim.ub t - us t) 0 := by
          refine ⟨fun i => ?_, fun i => ?_⟩
          · simp only [Pi.sub_apply, Pi.zero_apply]
            constructor <;> linarith [(hin i).1, (hin i).2]
          · simp only [Pi.sub_apply, Pi.zero_apply, mul_zero, Finset.sum_const_zero, add_zero]
            -- move one coordinate to a bound
            have hone : ∀ b, lim.lb t i ≤ b → b ≤ lim.ub t i →
                0 ≤ (actionValue preg (L.d t) (g.arr.V (t + 1))).Qu i * (b - us t i) := by
              intro b hb1 hb2
              have := hopt (Function.update (us t) i b) (fun _ l => by
                by_cases hl : l = i
                · subst hl; rw [Function.update_self]; exact ⟨hb1, hb2⟩
                · rw [Function.update_of_ne hl]; exact hin l)
              rw [dotProduct, Finset.sum_eq_single i] at this
              · rwa [Pi.sub_apply, Function.update_self] at this
              · intro l _ hl
                rw [Pi.sub_apply, Function.update_of_ne hl, sub_self, mul_zero]
              · intro hn; exact absurd (Finset.mem_univ i) hn
            have hlo := hone _ le_rfl ((hin i).1.trans (hin i).2)
            have hhi := hone _ ((hin i).1.trans (hin i).2) le_rfl
            rcases lt_trichotomy ((actionValue preg (L.d t) (g.arr.V (t + 1))).Qu i) 0
              with hq | hq | hq
            · right; right
              refine ⟨?_, hq.le⟩
              have : lim.ub t i - us t i ≤ 0 := by
                by_contra hc
                push Not at hc
                have := mul_neg_of_neg_of_pos hq hc
                linarith
              linarith [(hin i).2]
            · left; exact hq
            · right; left
              refine ⟨?_, hq.le⟩
              have : 0 ≤ lim.lb t i - us t i := by
                by_contra hc
                push Not at hc
                have := mul_neg_of_pos_of_neg hq hc
                linarith
              linarith [(hin i).1]
        have := BoxQp.Kkt.unique hpd hn.kkt hkkt
        exact neg_eq_zero.mp this
      | false =>
        rw [hbd] at hn
        have hQ0 : (actionValue preg (L.d t) (g.arr.V (t + 1))).Qu = 0 := by
          by_cases hh : lim.has t = true
          · have hm : m = 0 := by
              rw [hh] at hbd
              simp only [Bool.true_and, decide_eq_false_iff_not] at hbd
              omega
            subst hm
            funext i
            exact i.elim0
          · by_contra hne
            have h1 := hopt (us t - (actionValue preg (L.d t) (g.arr.V (t + 1))).Qu)
              (fun hh' => absurd hh' hh)
            rw [sub_sub_cancel_left, dotProduct_neg] at h1
            have := dot_self_pos hne
            linarith
        have hQk : (actionValue preg (L.d t) (g.arr.V (t + 1))).Quu *ᵥ (g.arr.out t).k = 0 := by
          funext i
          rcases hn.row i with ⟨-, h2, -⟩ | ⟨hbd, -⟩
          · rw [hn.Quu, hQ0] at h2; exact h2.symm
          · simp at hbd
        by_contra hne
        have := hpd _ hne
        rw [hQk, dotProduct_zero] at this
        exact lt_irrefl _ this
  exact fun t ht => key P.T le_rfl t (by omega) ht

/-- C140, partial. Slope of the total cost along the direction of the box solvers, `-k - K dx` with the closed-loop changes `dx` of the
states: it is at most `-Σ kᵀ Quu k`, whatever controls the step moves onto their limits, and it is negative at every
candidate where some feed-forward term is not zero, if the Hessians of the box QPs are positive definite.
Missing: the clamping of the trial controls, with which the claim is false (`C140_clamped_counterexample`). -/
theorem C140_descent_partial (hE : Exact P (traj P us) us L) (hH : SymmHess P.T L) (hf : BoxQp.FacSound fac) (hl : LltSound llt)
    (hr : p.reg = 0) (hg : p.thGrad = 0) (hw : lim.Within P.T us)
    (hb : boxBackward llt fac p lim us preg true P.T L.d L.LxT L.LxxT f s = some g) (hc : g.conv = true) :
    ∃ D, HasDerivAt (fun a : ℝ => total P fun t =>
        us t + a • (-(g.arr.out t).k - (g.arr.out t).Kfb *ᵥ closedLoop L g.arr t)) D 0 ∧
      D ≤ - ∑ t ∈ Finset.range P.T, (g.arr.out t).k ⬝ᵥ ((g.arr.out t).Q.Quu *ᵥ (g.arr.out t).k) ∧
      ((∀ t < P.T, BoxQp.PosDef (g.arr.out t).Q.Quu) → (∃ t < P.T, (g.arr.out t).k ≠ 0) → D < 0) := by
  have hpass := nlPass_of hH hf hl hr hg hw hb hc
  have hd := total_deriv hE (fun t => -(g.arr.out t).k - (g.arr.out t).Kfb *ᵥ closedLoop L g.arr t)
  rw [total_slope] at hd
  have hle : ∑ t ∈ Finset.range P.T, gradAt L P.T t ⬝ᵥ (-(g.arr.out t).k - (g.arr.out t).Kfb *ᵥ closedLoop L g.arr t)
      ≤ - ∑ t ∈ Finset.range P.T, (g.arr.out t).k ⬝ᵥ ((g.arr.out t).Q.Quu *ᵥ (g.arr.out t).k) := by
    rw [hpass.slope, neg_le_neg_iff]
    refine Finset.sum_le_sum fun t ht => NodeOk.gain (hpass.node t (Finset.mem_range.mp ht)) fun hbd i => ?_
    simp only [Bool.and_eq_true] at hbd
    exact hw t (Finset.mem_range.mp ht) hbd.1 i
  refine ⟨_, hd, hle, fun hpd ⟨t, ht, hk⟩ => lt_of_le_of_lt hle ?_⟩
  rw [neg_neg_iff_pos]
  refine Finset.sum_pos' (fun j hj => ?_) ⟨t, Finset.mem_range.mpr ht, hpd t ht _ hk⟩
  by_cases h0 : (g.arr.out j).k = 0
  · rw [h0, zero_dotProduct]
  · exact (hpd j (Finset.mem_range.mp hj) _ h0).le

end
/-! ### Concrete problem -/

namespace BoxDemo

/-- An exact factorisation for dimensions up to one. -/
noncomputable def fac : BoxQp.Fac ℝ := fun m => match m with
  | 0 => fun _ => some (fun b => b)
  | 1 => fun M => if 0 < M 0 0 then some (fun b => ![b 0 / M 0 0]) else none
  | _ + 2 => fun _ => none

theorem fac_sound : BoxQp.FacSound fac := by
  intro m M sol hM h
  match m, M, sol, hM, h with
  | 0, M, sol, hM, h =>
    refine ⟨fun v hv => absurd (funext fun i => i.elim0) hv, fun b => funext fun i => i.elim0⟩
  | 1, M, sol, hM, h =>
    simp only [fac] at h
    split at h
    · rename_i hp
      simp only [Option.some.injEq] at h
      subst h
      refine ⟨fun v hv => ?_, fun b => ?_⟩
      · have h1 := Lq.dot_self_pos hv
        simp only [dotProduct, mulVec, Fin.sum_univ_one, Fin.isValue] at h1 ⊢
        have := mul_pos hp h1
        linarith
      · funext i
        have hi : i = 0 := Subsingleton.elim _ _
        subst hi
        simp only [mulVec, dotProduct, Fin.sum_univ_one, Fin.isValue, cons_val_fin_one]
        field_simp
    · simp at h
  | _ + 2, M, sol, hM, h => simp [fac] at h

/-- Exact convergence test. -/
noncomputable def params : BoxQp.Params ℝ := ⟨1, 1 / 10, 0, 0, [1]⟩

/-- Limits `[b, 1]`. -/
def lim (b : ℝ) : CtrlLimits ℝ 1 := ⟨fun _ => true, fun _ _ => b, fun _ _ => 1⟩

/-- What an earlier pass left: the feed-forward term `w` is the warm start. -/
noncomputable def dir (w : ℝ) : BoxDir ℝ 1 1 :=
  ⟨⟨fun _ => ⟨fun _ => 0, fun _ _ => 0⟩,
    fun _ => ⟨⟨fun _ => 0, fun _ => 0, fun _ _ => 0, fun _ _ => 0, fun _ _ => 0⟩, fun _ => w, fun _ _ => 0, ⟨fun _ => 0, fun _ _ => 0⟩⟩⟩,
    ⟨fun _ => 0, [], [], fun _ _ => 0⟩, true⟩

/-- The QP `u² + u` on `[-1, 1]`, from its solution. -/
theorem inside (H : Matrix (Fin 1) (Fin 1) ℝ) (q lb ub : Fin 1 → ℝ) (s : BoxQp.Sol ℝ 1) (hH : H 0 0 = 2) (hq : q 0 = 1) (hl : lb 0 = -1) (hu : ub 0 = 1) :
    ∃ s', BoxQp.solve fac params H q lb ub (fun _ => -1 / 2) s = some (s', true) ∧ s'.x = fun _ => -1 / 2 := by
  have hx : BoxQp.clamp lb ub (fun _ => -1 / 2) = fun _ => -1 / 2 := by
    funext i
    obtain rfl : i = 0 := Subsingleton.elim _ _
    simp only [BoxQp.clamp, hl, hu]
    norm_num
  have hfree : (List.finRange 1).filter (fun j => !BoxQp.isClamped lb ub (BoxQp.grad H q fun _ => -1 / 2) (fun _ => -1 / 2) j) = [0] := by
    simp [BoxQp.isClamped, hl, hu, List.finRange_succ]
    norm_num
  have hcl : (List.finRange 1).filter (fun j => BoxQp.isClamped lb ub (BoxQp.grad H q fun _ => -1 / 2) (fun _ => -1 / 2) j) = [] := by
    simp [BoxQp.isClamped, hl, hu, List.finRange_succ]
    norm_num
  have hit : ∃ s', BoxQp.iter fac params H q lb ub (fun _ => -1 / 2) = some (s', true) ∧ s'.x = fun _ => -1 / 2 := by
    unfold BoxQp.iter
    simp only [hcl]
    generalize (List.finRange 1).filter (fun j => !BoxQp.isClamped lb ub (BoxQp.grad H q fun _ => -1 / 2) (fun _ => -1 / 2) j) = free at hfree
    subst hfree
    have hH' : BoxQp.Hff H params.reg [0] 0 0 = 2 := by simp [BoxQp.Hff, params, hH]
    have hr : BoxQp.qf H q params.reg [0] [] (fun _ => -1 / 2) = fun _ => 0 := by
      funext i
      obtain rfl : i = (0 : Fin 1) := Subsingleton.elim (α := Fin 1) _ _
      have : (BoxQp.Hff H params.reg [0] *ᵥ fun _ => (-1 / 2 : ℝ)) (0 : Fin 1) = -1 := by
        rw [mulVec, dotProduct]
        refine (Fin.sum_univ_one (M := ℝ) _).trans ?_
        rw [hH']; norm_num
      simp only [BoxQp.qf, List.length_nil, ne_eq, not_true_eq_false, if_false]
      rw [this]
      show q 0 + -1 = 0
      rw [hq]; norm_num
    have hfac : fac [(0 : Fin 1)].length (BoxQp.Hff H params.reg [0]) = some (fun b => ![b 0 / 2]) := by
      show (if 0 < BoxQp.Hff H params.reg [0] 0 0 then _ else _) = _
      rw [hH', if_pos (by norm_num)]
      rfl
    rw [hfac]
    simp only [hr]
    have hn : decide ((BoxQp.normInf fun _ : Fin [(0 : Fin 1)].length => (0 : ℝ)) ≤ params.thGrad) = true := by
      rw [decide_eq_true_eq]
      show max 0 |(0 : ℝ)| ≤ 0
      simp
    rw [hn]
    refine ⟨_, rfl, ?_⟩
    have hdx : BoxQp.scatter [(0 : Fin 1)] (![-0 / 2] : Fin 1 → ℝ) (fun _ => 0) = 0 := by
      funext i
      obtain rfl : i = 0 := Subsingleton.elim _ _
      simp [BoxQp.scatter, List.finRange_succ]
    show BoxQp.lineSearch H q lb ub params.thAccept _ _ (BoxQp.scatter [(0 : Fin 1)] (![-0 / 2] : Fin 1 → ℝ) fun _ => 0) params.alphas = _
    rw [hdx]
    simp [BoxQp.lineSearch, params, hx]
  obtain ⟨s', h1, h2⟩ := hit
  refine ⟨s', ?_, h2⟩
  unfold BoxQp.solve
  rw [hx, show params.maxiter = 0 + 1 from rfl, BoxQp.loop]
  simp only [h1]

/-- The QP `u² + u` on `[0, 1]`, from zero: the control is clamped. -/
theorem blocked (H : Matrix (Fin 1) (Fin 1) ℝ) (q lb ub : Fin 1 → ℝ) (s : BoxQp.Sol ℝ 1) (hq : q 0 = 1) (hl : lb 0 = 0) (hu : ub 0 = 1) :
    ∃ s', BoxQp.solve fac params H q lb ub (fun _ => 0) s = some (s', true) ∧ s'.x = fun _ => 0 := by
  have hx : BoxQp.clamp lb ub (fun _ => 0) = fun _ => 0 := by
    funext i
    obtain rfl : i = 0 := Subsingleton.elim _ _
    simp only [BoxQp.clamp, hl, hu]
    norm_num
  have hg : BoxQp.grad H q (fun _ => 0) 0 = 1 := by simp [BoxQp.grad, mulVec, dotProduct, hq]
  have hfree : (List.finRange 1).filter (fun j => !BoxQp.isClamped lb ub (BoxQp.grad H q fun _ => 0) (fun _ => 0) j) = [] := by
    simp [BoxQp.isClamped, hl, hu, hg, List.finRange_succ]
  have hit : ∃ s', BoxQp.iter fac params H q lb ub (fun _ => 0) = some (s', true) ∧ s'.x = fun _ => 0 := by
    unfold BoxQp.iter
    simp only
    generalize (List.finRange 1).filter (fun j => !BoxQp.isClamped lb ub (BoxQp.grad H q fun _ => 0) (fun _ => 0) j) = free at hfree
    subst hfree
    generalize (List.finRange 1).filter (fun j => BoxQp.isClamped lb ub (BoxQp.grad H q fun _ => 0) (fun _ => 0) j) = cl
    have hn : decide (BoxQp.normInf (BoxQp.qf H q params.reg [] cl fun _ => 0) ≤ params.thGrad) = true := by
      rw [decide_eq_true_eq]
      exact le_rfl
    have hfac : fac ([] : List (Fin 1)).length (BoxQp.Hff H params.reg []) = some (fun b => b) := rfl
    rw [hfac]
    simp only [hn]
    refine ⟨_, rfl, ?_⟩
    show BoxQp.lineSearch H q lb ub params.thAccept _ _ (0 : Fin 1 → ℝ) params.alphas = _
    simp [BoxQp.lineSearch, params, hx]
  obtain ⟨s', h1, h2⟩ := hit
  refine ⟨s', ?_, h2⟩
  unfold BoxQp.solve
  rw [hx, show params.maxiter = 0 + 1 from rfl, BoxQp.loop]
  simp only [h1]

/-- The backward pass at zero controls of `Demo.prob`. -/
noncomputable def pass (b w : ℝ) : Option (BoxDir ℝ 1 1) :=
  boxBackward Demo.chol fac params (lim b) (fun _ _ => 0) (some 0) true 1 (Demo.dlin (traj Demo.prob fun _ _ => 0) fun _ _ => 0).d
    (Demo.dlin (traj Demo.prob fun _ _ => 0) fun _ _ => 0).LxT (Demo.dlin (traj Demo.prob fun _ _ => 0) fun _ _ => 0).LxxT
    (fun _ _ => 0) (dir w)

theorem pass_of {b w x : ℝ} (h : ∀ (H : Matrix (Fin 1) (Fin 1) ℝ) (q lb ub : Fin 1 → ℝ) (s : BoxQp.Sol ℝ 1), H 0 0 = 2 → q 0 = 1 → lb 0 = b → ub 0 = 1 →
      ∃ s', BoxQp.solve fac params H q lb ub (fun _ => w) s = some (s', true) ∧ s'.x = fun _ => x) :
    ∃ g, pass b w = some g ∧ g.conv = true ∧ (g.arr.out 0).k = (fun _ => -x) ∧ (g.arr.out 0).Q.Quu 0 0 = 2 := by
  let Q := actionValue (some (0 : ℝ)) ((Demo.dlin (traj Demo.prob fun _ _ => 0) fun _ _ => 0).d 0)
    (termValue (some 0) true (Demo.dlin (traj Demo.prob fun _ _ => 0) fun _ _ => 0).LxT (Demo.dlin (traj Demo.prob fun _ _ => 0) fun _ _ => 0).LxxT fun _ => 0)
  have hQ : Q.Quu 0 0 = 2 := by
    simp [Q, actionValue, termValue, Demo.dlin, addDiag, Matrix.mul_apply]
    norm_num
  have hq : Q.Qu 0 = 1 := by
    simp [Q, actionValue, termValue, Demo.dlin, mulVec, dotProduct, traj, Demo.prob]
  obtain ⟨s', h1, h2⟩ := h Q.Quu Q.Qu ((lim b).lb 0 - fun _ => 0) ((lim b).ub 0 - fun _ => 0) (dir w).sol hQ hq (by simp [lim]) (by simp [lim])
  unfold pass boxBackward boxBackLoop
  rw [if_pos ⟨rfl, rfl, by decide⟩]
  simp only [Function.update_self, zero_add]
  have hn : boxNode fac params (some 0) true ((lim b).lb 0) ((lim b).ub 0) (fun _ => 0)
      ((Demo.dlin (traj Demo.prob fun _ _ => 0) fun _ _ => 0).d 0)
      (termValue (some 0) true (Demo.dlin (traj Demo.prob fun _ _ => 0) fun _ _ => 0).LxT (Demo.dlin (traj Demo.prob fun _ _ => 0) fun _ _ => 0).LxxT fun _ => 0)
      (fun _ => 0) ((dir w).arr.out 0).k (dir w).sol =
      some (⟨{ Q with Qu := BoxQp.scatter s'.clamped (fun _ => 0) Q.Qu }, -s'.x, BoxQp.projInv s' * Q.Qxuᵀ,
        computeValue (some 0) true { Q with Qu := BoxQp.scatter s'.clamped (fun _ => 0) Q.Qu } (BoxQp.projInv s' * Q.Qxuᵀ) fun _ => 0⟩, s', true) := by
    unfold boxNode BoxQp.boxGains
    have h1' : BoxQp.solve fac params Q.Quu Q.Qu ((lim b).lb 0 - fun _ => 0) ((lim b).ub 0 - fun _ => 0) ((dir w).arr.out 0).k (dir w).sol
      = some (s', true) := h1
    simp only [Q] at h1' ⊢
    simp only [h1', Option.map_some, Option.getD_some]
  rw [hn]
  simp only [boxBackLoop]
  refine ⟨_, rfl, rfl, ?_, ?_⟩
  · simp only [Function.update_self, h2]
    rfl
  · simp only [Function.update_self]
    exact hQ

/-- The hypotheses of `C140_stops` are met: with the limits `[0, 1]`, the controls `u = 0` of `Demo.prob` are a first-order
point; the cost falls towards negative controls, which the limits exclude. -/
example : StationaryWithin Demo.prob (lim 0) (fun _ _ => 0) := by
  obtain ⟨g, h1, h2, h3, -⟩ := pass_of (b := 0) (w := 0) (x := 0) fun H q lb ub s _ hq hl hu => blocked H q lb ub s hq hl hu
  refine C140_stops (Demo.exact _ _) (Demo.symmHess _ _) fac_sound Demo.chol_sound rfl rfl
    (fun t _ _ i => by show (0 : ℝ) ≤ 0 ∧ (0 : ℝ) ≤ 1; norm_num) h1 h2 ?_
  intro t ht
  obtain rfl : t = 0 := by have : t < 1 := ht; omega
  rw [h3]
  funext i
  simp

/-- The hypotheses of `C140_stationary` and `C140_descent_partial` are met: with the limits `[-1, 1]` they are not, and the direction
`-1/2` descends. -/
example : ¬ StationaryWithin Demo.prob (lim (-1)) (fun _ _ => 0) ∧ ∃ (v : Nat → Fin 1 → ℝ) (D : ℝ), D < 0 ∧
    HasDerivAt (fun a : ℝ => total Demo.prob fun t => (fun _ => 0) + a • v t) D 0 := by
  obtain ⟨g, h1, h2, h3, h4⟩ := pass_of (b := -1) (w := -1 / 2) (x := -1 / 2) inside
  have hw : (lim (-1)).Within Demo.prob.T (fun _ _ => 0) := fun t _ _ i => by show (-1 : ℝ) ≤ 0 ∧ (0 : ℝ) ≤ 1; norm_num
  have hk : (g.arr.out 0).k ≠ 0 := by
    rw [h3]
    intro h
    have := congrFun h 0
    norm_num at this
  have hpd : ∀ t < Demo.prob.T, BoxQp.PosDef (g.arr.out t).Q.Quu := by
    intro t ht v hv
    obtain rfl : t = 0 := by have : t < 1 := ht; omega
    have := dot_self_pos hv
    simp only [dotProduct, mulVec, Fin.sum_univ_one, Fin.isValue, h4] at this ⊢
    linarith
  constructor
  · intro hs
    exact hk ((C140_stationary (Demo.exact _ _) (Demo.symmHess _ _) fac_sound Demo.chol_sound rfl rfl hw h1 h2 hpd).mpr hs 0 (by decide))
  · obtain ⟨D, hD, -, hneg⟩ := C140_descent_partial (Demo.exact _ _) (Demo.symmHess _ _) fac_sound Demo.chol_sound rfl rfl hw h1 h2
    exact ⟨_, D, hneg hpd ⟨0, by decide, hk⟩, hD⟩

end BoxDemo

/-! ### The clamped step can only lose -/

/-- A direction that was found comes with the gains of its arrays and leaves the candidate. -/
theorem dirLoop_found {K : Type} [Field K] [LinearOrder K] {n m : Nat} {P : LqProb K n (fun _ => m)} {lim : CtrlLimits K m}
    {llt : ∀ m, Matrix (Fin m) (Fin m) K → Bool} {fac : BoxQp.Fac K} {p : BoxQp.Params K} {kind : Kind} {c : Cfg K}
    {Q : Prob K (Fin n → K) (Fin n → K) (Fin m → K)} {fuel : Nat}
    {s s2 : St K (Fin n → K) (Fin n → K) (Fin m → K) (Lin K n m) (BoxDir K n m)}
    (h : dirLoop Q c (boxOracle P lim llt fac p kind) fuel s = some (true, s2)) :
    (∀ t dx, s2.gain t dx = (s2.dir.arr.out t).Kfb *ᵥ dx) ∧ s2.xs = s.xs ∧ s2.us = s.us ∧ s2.feas = s.feas := by
  have hcd : ∀ s : St K (Fin n → K) (Fin n → K) (Fin m → K) (Lin K n m) (BoxDir K n m),
      let r := computeDirection Q (boxOracle P lim llt fac p kind) s
      r.2.xs = s.xs ∧ r.2.us = s.us ∧ r.2.feas = s.feas ∧
        (r.1 = true → ∀ t dx, r.2.gain t dx = (r.2.dir.arr.out t).Kfb *ᵥ dx) := by
    intro s r
    refine ⟨?_, ?_, ?_, ?_⟩
    · simp only [r, computeDirection, calcDiff, problemCalc]
      split <;> [split <;> rfl; rfl]
    · simp only [r, computeDirection, calcDiff, problemCalc]
      split <;> [split <;> rfl; rfl]
    · simp only [r, computeDirection, calcDiff, problemCalc]
      split <;> [split <;> rfl; rfl]
    · intro h t dx
      simp only [r] at h ⊢
      unfold computeDirection at h ⊢
      simp only [boxOracle] at h ⊢
      split at h
      · rfl
      · simp at h
  induction fuel generalizing s with
  | zero => simp [dirLoop] at h
  | succ fuel ih =>
    obtain ⟨h1, h2, h3, h4⟩ := hcd s
    simp only [dirLoop] at h
    split at h
    · rename_i hr
      simp only [Option.some.injEq, Prod.mk.injEq, true_and] at h
      subst h
      exact ⟨h4 hr, h1, h2, h3⟩
    · split at h
      · simp at h
      · obtain ⟨i1, i2, i3, i4⟩ := ih h
        exact ⟨i1, i2.trans h1, i3.trans h2, i4.trans h3⟩

/-- The predictions after a trial step from a feasible candidate. -/
theorem probe_expImp {K X DX U L D : Type} [Field K] [LinearOrder K] [AddCommGroup DX] [Module K DX] [AddCommGroup U] [Module K U]
    {P : Prob K X DX U} {O : Oracle K X DX U L D} {kind : Kind} {d : K × K} {a : K} {s s' : St K X DX U L D} (hf : s.feas = true)
    (hfd : kind.feasibilityDriven = true → ∀ s' : St K X DX U L D, s'.dir = s.dir → s'.feas = true → O.expImp s' = d)
    (hdd : kind.feasibilityDriven = false → s.d0 = d.1 ∧ s.d1 = d.2) (hp : probe P O kind a s = (some (), s')) :
    s'.d0 = d.1 ∧ s'.d1 = d.2 := by
  have h := probe_spec (P := P) (O := O) (kind := kind) a s
  rw [hp] at h
  cases hk : kind.feasibilityDriven
  · rw [(h.keeps.grad hk).1, (h.keeps.grad hk).2]; exact hdd hk
  · have ht := tryStep_spec (P := P) (O := O) (kind := kind) a { s with steplength := a }
    unfold probe at hp
    simp only at hp
    cases hft : tryStep P O kind a { s with steplength := a } with
    | ub => rw [hft] at hp; simp at hp
    | throw s1 => rw [hft] at hp; simp at hp
    | ok u s1 =>
      rw [hft] at ht hp
      obtain ⟨s2, ht2, rfl⟩ := ht
      have hfr := ht2.frame
      simp only [hk, if_true, Prod.mk.injEq, true_and] at hp
      have e := hfd hk { s2 with dV := s2.cost - s2.costTry } (by simp only; rw [hfr]) (by simp only; rw [hfr]; exact hf)
      rw [← hp]
      simp only
      rw [e]
      exact ⟨rfl, rfl⟩

/-- A line search none of whose trials is accepted keeps the candidate. -/
theorem lineSearch_rejected {K X DX U L D : Type} [Field K] [LinearOrder K] [AddCommGroup DX] [Module K DX] [AddCommGroup U] [Module K U]
    {P : Prob K X DX U} {c : Cfg K} {O : Oracle K X DX U L D} {kind : Kind} (I : St K X DX U L D → Prop) (as : List K)
    (hI : ∀ a ∈ as, ∀ s, I s → ∃ sT, probe P O kind a s = (some (), sT) ∧ accepts c kind sT = false ∧ I sT ∧ sT.xs = s.xs ∧ sT.us = s.us)
    {s : St K X DX U L D} (h : I s) :
    (lineSearch P c O kind as s).xs = s.xs ∧ (lineSearch P c O kind as s).us = s.us := by
  induction as generalizing s with
  | nil => exact ⟨rfl, rfl⟩
  | cons a as ih =>
    obtain ⟨sT, h1, h2, h3, h4, h5⟩ := hI a List.mem_cons_self s h
    simp only [lineSearch, h1, h2, Bool.false_eq_true, if_false]
    have := ih (fun b hb => hI b (List.mem_cons_of_mem _ hb)) h3
    rw [this.1, this.2, h4, h5]
    exact ⟨rfl, rfl⟩

namespace Clamped
open Verif.Lq.BoxDemo (cfg)

/-- Two nodes with two controls. The first moves the state, `x' = u₀`, at cost `¼ u₀² + ½ u₁² - (31/30) u₀`; the second
costs `(32/3) x² + ½ u₀² + ½ u₀ u₁ + ½ u₁² + 4 x u₀ + (2/5) u₀ + u₁`. -/
def prob : LqProb ℚ 1 (fun _ => 2) where
  T := 2
  node := fun t => match t with
    | 0 => ⟨fun _ _ => 0, fun _ => ![1, 0], fun _ => 0, fun _ _ => 0, ![![1 / 2, 0], ![0, 1]], fun _ => ![0, 0], fun _ => 0, ![-31 / 30, 0]⟩
    | _ + 1 => ⟨fun _ _ => 0, fun _ => ![0, 0], fun _ => 0, fun _ _ => 64 / 3, ![![1, 1 / 2], ![1 / 2, 1]], fun _ => ![4, 0], fun _ => 0,
        ![2 / 5, 1]⟩
  term := ⟨fun _ _ => 1, fun _ i => i.elim0, fun _ => 0, fun _ _ => 0, fun i => i.elim0, fun _ i => i.elim0, fun _ => 0, fun i => i.elim0⟩
  x0 := fun _ => 0

/-- Limits `[-10, 10]`, except that the first control of the second node is not negative. -/
def lim : CtrlLimits ℚ 2 where
  has := fun _ => true
  lb := fun t => match t with
    | 0 => fun _ => -10
    | _ + 1 => ![0, -10]
  ub := fun _ _ => 10

theorem prob_convex : ConvexLq prob where
  symm := ⟨fun t => by cases t <;> rfl, fun t => by cases t <;> (funext i j; fin_cases i <;> fin_cases j <;> rfl), rfl⟩
  psd := fun t x u => by
    cases t with
    | zero =>
      simp only [prob, dotProduct, mulVec, Fin.sum_univ_two, Fin.sum_univ_one, Fin.isValue, cons_val_zero, cons_val_one]
      nlinarith [mul_self_nonneg (u 0), mul_self_nonneg (u 1)]
    | succ t =>
      simp only [prob, dotProduct, mulVec, Fin.sum_univ_two, Fin.sum_univ_one, Fin.isValue, cons_val_zero, cons_val_one]
      nlinarith [mul_self_nonneg (u 1 + u 0 / 2), mul_self_nonneg (u 0 + 16 / 3 * x 0)]
  pd := fun t v hv => by
    have h : v 0 ≠ 0 ∨ v 1 ≠ 0 := by
      by_contra h
      push Not at h
      exact hv (funext fun i => by fin_cases i; exacts [h.1, h.2])
    have h0 : 0 < v 0 ^ 2 + v 1 ^ 2 := by
      rcases h with h | h <;> positivity
    cases t with
    | zero =>
      simp only [prob, dotProduct, mulVec, Fin.sum_univ_two, Fin.isValue, cons_val_zero, cons_val_one]
      nlinarith [sq_nonneg (v 1)]
    | succ t =>
      simp only [prob, dotProduct, mulVec, Fin.sum_univ_two, Fin.isValue, cons_val_zero, cons_val_one]
      nlinarith [sq_nonneg (v 0 + v 1)]
  term := fun v => by simp [prob, dotProduct, mulVec]

/-- A new solver. -/
def new : St ℚ (Fin 1 → ℚ) (Fin 1 → ℚ) (Fin 2 → ℚ) (Lin ℚ 1 2) (BoxDir ℚ 1 2) where
  xs := fun _ _ => 0
  us := fun _ _ => 0
  xsTry := fun _ _ => 0
  usTry := fun _ _ => 0
  datas := fun _ => (fun _ => 0, 0)
  tdata := 0
  fs := fun _ _ => 0
  k := fun _ _ => 0
  gain := fun _ _ _ => 0
  lin := ⟨fun _ => ⟨fun _ _ => 0, fun _ _ => 0, fun _ => 0, fun _ => 0, fun _ _ => 0, fun _ _ => 0, fun _ _ => 0⟩, fun _ => 0, fun _ _ => 0⟩
  dir := ⟨⟨fun _ => ⟨fun _ => 0, fun _ _ => 0⟩,
    fun _ => ⟨⟨fun _ => 0, fun _ => 0, fun _ _ => 0, fun _ _ => 0, fun _ _ => 0⟩, fun _ => 0, fun _ _ => 0, ⟨fun _ => 0, fun _ _ => 0⟩⟩⟩,
    BoxQp.Demo.sol0 2, true⟩
  feas := false
  wasFeas := false
  cost := 0
  costTry := 0
  dV := 0
  dVexp := 0
  d0 := 0
  d1 := 0
  stop := 0
  steplength := 1
  preg := 0
  dreg := 0
  iter := 0
  xnext := fun _ => 0
  recalc := true

/-- The box solvers with default parameters. -/
noncomputable abbrev ora (kind : Kind) :=
  boxOracle prob lim Lq.BoxDemo.noLlt BoxQp.Demo.fac (BoxQp.Demo.params 100 (1 / 10 ^ 5) 0) kind

/-- `solve` with the feasible guess of zero controls: the state in which the first iteration starts. -/
noncomputable abbrev s1 := start (prob.toProbBox lim) cfg (fun _ _ => 0) (fun _ _ => 0) true none new

/-- What the first iteration knows when its line search starts. -/
structure Directed (s : St ℚ (Fin 1 → ℚ) (Fin 1 → ℚ) (Fin 2 → ℚ) (Lin ℚ 1 2) (BoxDir ℚ 1 2)) : Prop where
  xs : s.xs = fun _ _ => 0
  us : s.us = fun _ _ => 0
  feas : s.feas = true
  cost : s.cost = 0
  gain : ∀ t dx, s.gain t dx = (s.dir.arr.out t).Kfb *ᵥ dx
  k0 : 0 ≤ -s.k 0 0 ∧ -s.k 0 0 ≤ 10 ∧ s.k 0 1 = 0
  k1 : -s.k 1 0 + (s.dir.arr.out 1).Kfb 0 0 * s.k 0 0 ≤ 0
  k2 : -10 ≤ -s.k 1 1 + (s.dir.arr.out 1).Kfb 1 0 * s.k 0 0 ∧ -s.k 1 1 + (s.dir.arr.out 1).Kfb 1 0 * s.k 0 0 ≤ 10
  up : 0 < -31 / 30 * -s.k 0 0 + (-s.k 1 1 + (s.dir.arr.out 1).Kfb 1 0 * s.k 0 0)
  exp : 1 < (expectedImprovement 2 s.dir.arr).1 ∧
    0 < (expectedImprovement 2 s.dir.arr).1 + 1 / 2 * (expectedImprovement 2 s.dir.arr).2

theorem directed (kind : Kind) : ∃ s2, dirLoop (prob.toProbBox lim) cfg (ora kind) 40 s1 = some (true, s2) ∧ Directed s2 := by
  have h : ∀ kind, (dirLoop (prob.toProbBox lim) cfg (ora kind) 40 s1).any (fun r => r.1 &&
      decide (r.2.cost = 0) && decide (0 ≤ -r.2.k 0 0 ∧ -r.2.k 0 0 ≤ 10 ∧ r.2.k 0 1 = 0) &&
      decide (-r.2.k 1 0 + (r.2.dir.arr.out 1).Kfb 0 0 * r.2.k 0 0 ≤ 0) &&
      decide (-10 ≤ -r.2.k 1 1 + (r.2.dir.arr.out 1).Kfb 1 0 * r.2.k 0 0 ∧ -r.2.k 1 1 + (r.2.dir.arr.out 1).Kfb 1 0 * r.2.k 0 0 ≤ 10) &&
      decide (0 < -31 / 30 * -r.2.k 0 0 + (-r.2.k 1 1 + (r.2.dir.arr.out 1).Kfb 1 0 * r.2.k 0 0)) &&
      decide (1 < (expectedImprovement 2 r.2.dir.arr).1 ∧
        0 < (expectedImprovement 2 r.2.dir.arr).1 + 1 / 2 * (expectedImprovement 2 r.2.dir.arr).2)) = true := by
    intro kind
    cases kind <;> decide +kernel
  obtain ⟨⟨b, s2⟩, h1, h2⟩ := Lq.BoxDemo.exists_of_check (h kind)
  simp only [Bool.and_eq_true, decide_eq_true_eq] at h2
  obtain ⟨⟨⟨⟨⟨⟨rfl, h3⟩, h4⟩, h5⟩, h6⟩, h7⟩, h8⟩ := h2
  obtain ⟨g1, g2, g3, g4⟩ := dirLoop_found h1
  exact ⟨s2, h1, g2, g3, g4, h3, g1, h4, h5, h6, h7, h8⟩

/-- What a trial step from the first direction costs. -/
theorem trial_cost {kind : Kind} (hk : kind.box = true) {a : ℚ} (ha : 0 < a)
    {s2 s sT : St ℚ (Fin 1 → ℚ) (Fin 1 → ℚ) (Fin 2 → ℚ) (Lin ℚ 1 2) (BoxDir ℚ 1 2)} (hD : Directed s2)
    (hx : s.xs = s2.xs) (hu : s.us = s2.us) (hkk : s.k = s2.k) (hga : s.gain = s2.gain) (hf : s.feas = true)
    (h : Probed (prob.toProbBox lim) kind a s sT) : 0 < sT.costTry := by
  obtain ⟨h1, h2, h3⟩ := hD.k0
  obtain ⟨h5, h6⟩ := hD.k2
  have h4 := hD.k1
  have h7 := hD.up
  have hc := h.core
  rw [hx, hu, hkk, hga, hf] at hc
  have ha1 := hc.step.2
  have hfirst : first (prob.toProbBox lim) kind s = fun _ => 0 := by
    unfold first
    rw [if_neg (by intro e; rw [e] at hk; simp [Kind.box] at hk)]
    rfl
  rw [hfirst] at hc
  have hT : (prob.toProbBox lim).T = 2 := rfl
  have e0 : sT.xsTry 0 = fun _ => 0 := by
    rw [hc.nodes.state 0 (by rw [hT]; norm_num)]; simp [pred]
  have u0 := hc.nodes.control 0 (by rw [hT]; norm_num) rfl
  have d0 := hc.nodes.data 0 (by rw [hT]; norm_num)
  have e1 : sT.xsTry 1 = (sT.datas 0).1 := by
    rw [hc.nodes.state 1 (by rw [hT]; norm_num)]; simp [pred]
  have u1 := hc.nodes.control 1 (by rw [hT]; norm_num) rfl
  have d1 := hc.nodes.data 1 (by rw [hT]; norm_num)
  have htd := hc.tdata_eq
  have hcost := hc.cost
  rw [hT] at hcost
  have htd0 : sT.tdata = 0 := by
    rw [htd]
    simp [LqProb.toProbBox, LqProb.toProb, prob, Lqr.costT, mulVec, dotProduct]
  -- the first node
  obtain ⟨z, hz⟩ : ∃ z, -s2.k 0 0 = z := ⟨_, rfl⟩
  obtain ⟨w, hw⟩ : ∃ w, -s2.k 1 1 + (s2.dir.arr.out 1).Kfb 1 0 * s2.k 0 0 = w := ⟨_, rfl⟩
  obtain ⟨v, hv⟩ : ∃ v, -s2.k 1 0 + (s2.dir.arr.out 1).Kfb 0 0 * s2.k 0 0 = v := ⟨_, rfl⟩
  rw [hz] at h1 h2
  rw [hw] at h5 h6
  rw [hw, hz] at h7
  rw [hv] at h4
  have hk0 : s2.k 0 0 = -z := by rw [← hz, neg_neg]
  have hu0 : sT.usTry 0 = ![a * z, 0] := by
    rw [u0, hD.gain, e0, hD.xs, hD.us]
    simp only [hk, if_true]
    have i1 : a * z ≤ 10 := by nlinarith
    have i2 : -10 ≤ a * z := by nlinarith
    funext i
    fin_cases i
    · simp [LqProb.toProbBox, LqProb.toProb, lim, mulVec, dotProduct, hk0, i1, i2]
    · simp [LqProb.toProbBox, LqProb.toProb, lim, mulVec, dotProduct, h3]
  have hx1 : sT.xsTry 1 = fun _ => a * z := by
    rw [e1, d0, hu0, e0]
    funext i
    simp [nodeEval, LqProb.toProbBox, LqProb.toProb, prob, Lqr.next, mulVec, dotProduct, Fin.sum_univ_two]
  have hu1 : sT.usTry 1 = ![0, a * w] := by
    rw [u1, hD.gain, hx1, hD.xs, hD.us]
    simp only [hk, if_true]
    have i1 : a * w ≤ 10 := by nlinarith
    have i2 : -10 ≤ a * w := by nlinarith
    have i3 : a * v ≤ 0 := by nlinarith
    have ev : -(a * s2.k 1 0) - (s2.dir.arr.out 1).Kfb 0 0 * (a * z) = a * v := by rw [← hv, hk0]; ring
    have ew : -(a * s2.k 1 1) - (s2.dir.arr.out 1).Kfb 1 0 * (a * z) = a * w := by rw [← hw, hk0]; ring
    funext i
    fin_cases i
    · simp [LqProb.toProbBox, LqProb.toProb, lim, mulVec, dotProduct, ev, i3]
    · simp [LqProb.toProbBox, LqProb.toProb, lim, mulVec, dotProduct, ew, i1, i2]
  have c0 : (sT.datas 0).2 = 1 / 4 * (a * z) ^ 2 - 31 / 30 * (a * z) := by
    rw [d0, hu0, e0]
    simp [nodeEval, LqProb.toProbBox, LqProb.toProb, prob, Lqr.cost, mulVec, dotProduct, Fin.sum_univ_two]
    ring
  have c1 : (sT.datas 1).2 = 32 / 3 * (a * z) ^ 2 + 1 / 2 * (a * w) ^ 2 + a * w := by
    rw [d1, hu1, hx1]
    simp [nodeEval, LqProb.toProbBox, LqProb.toProb, prob, Lqr.cost, mulVec, dotProduct, Fin.sum_univ_two]
    ring
  rw [hcost, htd0]
  simp only [sumTo, c0, c1]
  have := mul_pos ha h7
  nlinarith [sq_nonneg (a * z), sq_nonneg (a * w)]

theorem prepared (kind : Kind) (s2 : St ℚ (Fin 1 → ℚ) (Fin 1 → ℚ) (Fin 2 → ℚ) (Lin ℚ 1 2) (BoxDir ℚ 1 2)) :
    let s := prepare (ora kind) kind s2
    s.xs = s2.xs ∧ s.us = s2.us ∧ s.k = s2.k ∧ s.gain = s2.gain ∧ s.feas = s2.feas ∧ s.cost = s2.cost ∧
      s.dir = s2.dir ∧ (kind.feasibilityDriven = false → s.d0 = (expectedImprovement 2 s2.dir.arr).1 ∧
        s.d1 = (expectedImprovement 2 s2.dir.arr).2) := by
  intro s
  simp only [s, prepare]
  cases hkf : kind.feasibilityDriven
  · simp only [boxOracle, hkf]
    exact ⟨rfl, rfl, rfl, rfl, rfl, rfl, rfl, fun _ => ⟨rfl, rfl⟩⟩
  · exact ⟨rfl, rfl, rfl, rfl, rfl, rfl, rfl, fun h => by simp at h⟩

/-- C140, counterexample. On a convex linear-quadratic problem with control limits, from a feasible candidate within the
limits that is not optimal, both box solvers with their default parameters compute a direction with a positive predicted
improvement; yet the trial controls, clamped to the limits, cost more than the candidate for every step length in `(0, 1]`,
and the first iteration keeps the candidate. -/
theorem C140_clamped_counterexample {kind : Kind} (hk : kind.box = true) :
    ConvexLq prob ∧ lim.Within 2 (fun _ _ => 0) ∧ ¬ OptimalWithin prob lim (fun _ _ => 0) ∧
    ∃ s2, dirLoop (prob.toProbBox lim) cfg (ora kind) 40 s1 = some (true, s2) ∧
      0 < (expectedImprovement 2 s2.dir.arr).1 ∧
      0 < (expectedImprovement 2 s2.dir.arr).1 + 1 / 2 * (expectedImprovement 2 s2.dir.arr).2 ∧
      (∀ a, 0 < a → a ≤ 1 → ∃ sT, probe (prob.toProbBox lim) (ora kind) kind a (prepare (ora kind) kind s2) = (some (), sT) ∧
        sT.dV < 0) ∧
      (∀ e b s3, iteration (prob.toProbBox lim) cfg (ora kind) kind 40 s1 = some (e, b, s3) →
        s3.xs = s2.xs ∧ s3.us = s2.us) := by
  refine ⟨prob_convex, ?_, ?_, ?_⟩
  · intro t _ _ i
    cases t with
    | zero => simp only [lim]; norm_num
    | succ t => fin_cases i <;> simp [lim]
  · intro ho
    have := ho.2 (fun t => if t = 1 then ![0, -1] else 0) (fun t _ _ i => by
      cases t with
      | zero => simp only [lim]; fin_cases i <;> norm_num
      | succ t =>
        by_cases ht : t = 0 <;> fin_cases i <;> simp [lim, ht] <;> norm_num)
    simp [Lq.total, costToGo, Lq.traj, prob, Finset.sum_range_succ, Lqr.costT, Lqr.cost, Lqr.next, mulVec, dotProduct, Fin.sum_univ_two] at this
    norm_num at this
  obtain ⟨s2, hd, hD⟩ := directed kind
  refine ⟨s2, hd, by linarith [hD.exp.1], hD.exp.2, ?_, ?_⟩
  · intro a ha0 ha1
    obtain ⟨sT, hp, h⟩ := probe_some (P := prob.toProbBox lim) (O := ora kind) (kind := kind) (fun _ => rfl) (fun _ => rfl) a ha0.le ha1
      (prepare (ora kind) kind s2)
    have hI := prepared kind s2
    have := trial_cost hk ha0 hD hI.1 hI.2.1 hI.2.2.1 hI.2.2.2.1 (by rw [hI.2.2.2.2.1, hD.feas]) h
    refine ⟨sT, hp, ?_⟩
    rw [h.dV, hI.2.2.2.2.2.1, hD.cost]
    linarith
  · intro e b s3 hi
    rcases iteration_cases _ _ hi with ⟨-, -, h1⟩ | ⟨s2', h1, h2, -⟩
    · rw [hd] at h1; simp at h1
    · rw [hd] at h1
      simp only [Option.some.injEq, Prod.mk.injEq, true_and] at h1
      subst h1
      rw [h2.1, h2.2.1]
      have hI := prepared kind s2
      have := lineSearch_rejected (P := prob.toProbBox lim) (c := cfg) (O := ora kind) (kind := kind)
        (fun s => s.xs = s2.xs ∧ s.us = s2.us ∧ s.k = s2.k ∧ s.gain = s2.gain ∧ s.feas = s2.feas ∧ s.cost = s2.cost ∧
          s.dir = s2.dir ∧ (kind.feasibilityDriven = false → s.d0 = (expectedImprovement 2 s2.dir.arr).1 ∧
            s.d1 = (expectedImprovement 2 s2.dir.arr).2)) cfg.alphas (fun a ha s hs => ?_) hI
      · rw [this.1, this.2, hI.1, hI.2.1]
        exact ⟨rfl, rfl⟩
      · obtain ⟨i1, i2, i3, i4, i5, i6, i7, i8⟩ := hs
        have har : 0 < a ∧ a ≤ 1 := by
          obtain ⟨j, -, rfl⟩ := List.mem_map.mp ha
          exact ⟨by positivity, by rw [div_le_one (by positivity)]; exact one_le_pow₀ (by norm_num)⟩
        obtain ⟨sT, hp, h⟩ := probe_some (P := prob.toProbBox lim) (O := ora kind) (kind := kind) (fun _ => rfl) (fun _ => rfl) a har.1.le har.2 s
        have hf : s.feas = true := by rw [i5, hD.feas]
        have hpos := trial_cost hk har.1 hD i1 i2 i3 i4 hf h
        have hdir := probe_keeps_dir (P := prob.toProbBox lim) (O := ora kind) (kind := kind) a s
        rw [hp] at hdir
        have hd01 := probe_expImp (d := expectedImprovement 2 s2.dir.arr) hf
          (fun hkf s' hs' hf' => by
            simp only [boxOracle, hkf, if_true, expectedImprovementFddp, updateExpectedImprovement, hf', hs', i7, expectedImprovement]
            simp [prob]) i8 hp
        have hk' := h.keeps
        have hdV : sT.dV < 0 := by rw [h.dV, i6, hD.cost]; linarith
        refine ⟨sT, hp, ?_, ⟨hk'.xs.trans i1, hk'.us.trans i2, hk'.k.trans i3, hk'.gain.trans i4, hk'.feas.trans i5, hk'.cost.trans i6,
          hdir.trans i7, fun _ => hd01⟩, hk'.xs, hk'.us⟩
        have hth : ¬ |sT.d0| < cfg.thGrad := by
          rw [hd01.1, not_lt, abs_of_pos (by linarith [hD.exp.1])]
          have : cfg.thGrad ≤ 1 := by simp only [cfg]; norm_num
          linarith [hD.exp.1]
        have hno : 0 ≤ sT.dVexp → ¬ sT.dV > cfg.thAcceptstep * sT.dVexp := by
          intro h0
          have : 0 ≤ cfg.thAcceptstep * sT.dVexp := mul_nonneg (by simp only [cfg]; norm_num) h0
          linarith
        unfold accepts
        by_cases h0 : 0 ≤ sT.dVexp
        · cases hkf : kind.feasibilityDriven <;> simp [h0, hth, hno h0, hk'.feas, hf] <;> exact not_lt.mp (hno h0)
        · cases hkf : kind.feasibilityDriven <;> simp [h0, hk'.feas, hf]
end Clamped

end Verif.Nl
