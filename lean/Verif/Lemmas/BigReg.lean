import Verif.Lemmas.Ends
import Mathlib.Topology.Instances.Matrix
import Mathlib.Topology.Algebra.Order.Field
import Mathlib.Analysis.Calculus.FDeriv.Basic

set_option linter.unusedSectionVars false

/-!
# Lemmas: the backward pass under a large regularisation (C144)

Divided by the regularisation, the Hessians of the value function converge to those of the problem without cost Hessians and
with the regularisation one.
-/

namespace Verif.Nl
open Verif Verif.Solve Verif.Lq Verif.Deriv Matrix Filter Topology

section tendsto
variable {p q r : Nat} {l : Filter ℝ}

theorem tendsto_matMul {A : ℝ → Matrix (Fin p) (Fin q) ℝ} {B : ℝ → Matrix (Fin q) (Fin r) ℝ} {A0 B0}
    (hA : Tendsto A l (𝓝 A0)) (hB : Tendsto B l (𝓝 B0)) : Tendsto (fun x => A x * B x) l (𝓝 (A0 * B0)) :=
  ((continuous_fst.matrix_mul continuous_snd).tendsto (A0, B0)).comp (hA.prodMk_nhds hB)

theorem tendsto_matVec {A : ℝ → Matrix (Fin p) (Fin q) ℝ} {B : ℝ → Fin q → ℝ} {A0 B0}
    (hA : Tendsto A l (𝓝 A0)) (hB : Tendsto B l (𝓝 B0)) : Tendsto (fun x => A x *ᵥ B x) l (𝓝 (A0 *ᵥ B0)) :=
  ((continuous_fst.matrix_mulVec continuous_snd).tendsto (A0, B0)).comp (hA.prodMk_nhds hB)

theorem tendsto_dot {A B : ℝ → Fin q → ℝ} {A0 B0}
    (hA : Tendsto A l (𝓝 A0)) (hB : Tendsto B l (𝓝 B0)) : Tendsto (fun x => A x ⬝ᵥ B x) l (𝓝 (A0 ⬝ᵥ B0)) :=
  ((continuous_fst.dotProduct continuous_snd).tendsto (A0, B0)).comp (hA.prodMk_nhds hB)

theorem tendsto_tr {A : ℝ → Matrix (Fin p) (Fin q) ℝ} {A0} (hA : Tendsto A l (𝓝 A0)) :
    Tendsto (fun x => (A x)ᵀ) l (𝓝 A0ᵀ) := (continuous_id.matrix_transpose.tendsto A0).comp hA

theorem tendsto_matInv {A : ℝ → Matrix (Fin p) (Fin p) ℝ} {A0} (hA : Tendsto A l (𝓝 A0)) (h0 : A0.det ≠ 0) :
    Tendsto (fun x => (A x)⁻¹) l (𝓝 A0⁻¹) := by
  have e : ∀ M : Matrix (Fin p) (Fin p) ℝ, M⁻¹ = M.det⁻¹ • M.adjugate := fun M => by
    rw [Matrix.inv_def, Ring.inverse_eq_inv]
  simp only [e]
  exact (((continuous_id.matrix_det.tendsto A0).comp hA).inv₀ h0).smul ((continuous_id.matrix_adjugate.tendsto A0).comp hA)

theorem tendsto_invSmul {E : Type} [AddCommGroup E] [Module ℝ E] [TopologicalSpace E] [ContinuousSMul ℝ E] (v : E) :
    Tendsto (fun x : ℝ => x⁻¹ • v) atTop (𝓝 0) := by
  have := (tendsto_inv_atTop_zero (𝕜 := ℝ)).smul_const v
  rwa [zero_smul] at this

end tendsto

variable {n m : Nat}

/-- The derivatives without the cost Hessians. -/
def flatD (d : Derivs ℝ n m) : Derivs ℝ n m := { d with Lxx := 0, Lxu := 0, Luu := 0 }

/-- A linearisation without the cost Hessians. -/
def flat (L : Lin ℝ n m) : Lin ℝ n m where
  d := fun t => flatD (L.d t)
  LxT := L.LxT
  LxxT := 0

/-- Limits of what the backward pass leaves at a node. -/
structure NodeLim (o : ℝ → NodeOut ℝ n m) (w : NodeOut ℝ n m) : Prop where
  Quu : Tendsto (fun p => p⁻¹ • (o p).Q.Quu) atTop (𝓝 w.Q.Quu)
  Qu : Tendsto (fun p => (o p).Q.Qu) atTop (𝓝 w.Q.Qu)
  k : Tendsto (fun p => p • (o p).k) atTop (𝓝 w.k)
  Kfb : Tendsto (fun p => (o p).Kfb) atTop (𝓝 w.Kfb)
  Vx : Tendsto (fun p => (o p).V.Vx) atTop (𝓝 w.V.Vx)
  Vxx : Tendsto (fun p => p⁻¹ • (o p).V.Vxx) atTop (𝓝 w.V.Vxx)

theorem node_lim {llt tt : ∀ m, Matrix (Fin m) (Fin m) ℝ → Bool} {d : Derivs ℝ n m} {V : ℝ → Value ℝ n} {W : Value ℝ n}
    (hx : Tendsto (fun p => (V p).Vx) atTop (𝓝 W.Vx)) (hxx : Tendsto (fun p => p⁻¹ • (V p).Vxx) atTop (𝓝 W.Vxx))
    {o : ℝ → NodeOut ℝ n m} {w : NodeOut ℝ n m} {f f' : Fin n → ℝ}
    (ho : ∀ p, backNode tt (some p) true d (V p) f = some (o p)) (hw : backNode llt (some 1) true (flatD d) W f' = some w)
    (hu : w.Q.Quu.det ≠ 0) : NodeLim o w := by
  obtain ⟨w1, -, w2, w3, w4⟩ := backNode_some hw
  have hpos : ∀ᶠ p : ℝ in atTop, p ≠ 0 := (eventually_gt_atTop 0).mono fun p h => h.ne'
  have hQuu : Tendsto (fun p => p⁻¹ • (o p).Q.Quu) atTop (𝓝 w.Q.Quu) := by
    have h1 : Tendsto (fun p : ℝ => p⁻¹ • d.Luu + (d.Fuᵀ * (p⁻¹ • (V p).Vxx)) * d.Fu + (1 : ℝ) • (1 : Matrix (Fin m) (Fin m) ℝ))
        atTop (𝓝 (0 + (d.Fuᵀ * W.Vxx) * d.Fu + (1 : ℝ) • (1 : Matrix (Fin m) (Fin m) ℝ))) :=
      ((tendsto_invSmul d.Luu).add (tendsto_matMul (tendsto_matMul tendsto_const_nhds hxx) tendsto_const_nhds)).add
        tendsto_const_nhds
    rw [w1]
    refine h1.congr' (hpos.mono fun p hp => ?_)
    beta_reduce
    rw [(backNode_some (ho p)).1]
    simp only [actionValue, addDiag, smul_add, smul_smul, inv_mul_cancel₀ hp, Matrix.mul_smul, Matrix.smul_mul]
  have hQu : Tendsto (fun p => (o p).Q.Qu) atTop (𝓝 w.Q.Qu) := by
    have h1 : Tendsto (fun p : ℝ => d.Lu + d.Fuᵀ *ᵥ (V p).Vx) atTop (𝓝 (d.Lu + d.Fuᵀ *ᵥ W.Vx)) :=
      tendsto_const_nhds.add (tendsto_matVec tendsto_const_nhds hx)
    rw [w1]
    exact h1.congr fun p => by rw [(backNode_some (ho p)).1]; rfl
  have hQx : Tendsto (fun p => (o p).Q.Qx) atTop (𝓝 w.Q.Qx) := by
    have h1 : Tendsto (fun p : ℝ => d.Lx + d.Fxᵀ *ᵥ (V p).Vx) atTop (𝓝 (d.Lx + d.Fxᵀ *ᵥ W.Vx)) :=
      tendsto_const_nhds.add (tendsto_matVec tendsto_const_nhds hx)
    rw [w1]
    exact h1.congr fun p => by rw [(backNode_some (ho p)).1]; rfl
  have hQxx : Tendsto (fun p => p⁻¹ • (o p).Q.Qxx) atTop (𝓝 w.Q.Qxx) := by
    have h1 : Tendsto (fun p : ℝ => p⁻¹ • d.Lxx + (d.Fxᵀ * (p⁻¹ • (V p).Vxx)) * d.Fx)
        atTop (𝓝 (0 + (d.Fxᵀ * W.Vxx) * d.Fx)) :=
      (tendsto_invSmul d.Lxx).add (tendsto_matMul (tendsto_matMul tendsto_const_nhds hxx) tendsto_const_nhds)
    rw [w1]
    refine h1.congr fun p => ?_
    rw [(backNode_some (ho p)).1]
    simp only [actionValue, smul_add, Matrix.mul_smul, Matrix.smul_mul]
  have hQxu : Tendsto (fun p => p⁻¹ • (o p).Q.Qxu) atTop (𝓝 w.Q.Qxu) := by
    have h1 : Tendsto (fun p : ℝ => p⁻¹ • d.Lxu + (d.Fxᵀ * (p⁻¹ • (V p).Vxx)) * d.Fu)
        atTop (𝓝 (0 + (d.Fxᵀ * W.Vxx) * d.Fu)) :=
      (tendsto_invSmul d.Lxu).add (tendsto_matMul (tendsto_matMul tendsto_const_nhds hxx) tendsto_const_nhds)
    rw [w1]
    refine h1.congr fun p => ?_
    rw [(backNode_some (ho p)).1]
    simp only [actionValue, smul_add, Matrix.mul_smul, Matrix.smul_mul]
  have hinv := tendsto_matInv hQuu hu
  have einv : ∀ p : ℝ, p ≠ 0 → (p⁻¹ • (o p).Q.Quu)⁻¹ = p • (o p).Q.Quu⁻¹ := fun p hp => by
    by_cases hd : IsUnit (o p).Q.Quu.det
    · refine Matrix.inv_eq_left_inv ?_
      rw [Matrix.smul_mul, Matrix.mul_smul, smul_smul, mul_inv_cancel₀ hp, one_smul, Matrix.nonsing_inv_mul _ hd]
    · have h1 : (o p).Q.Quu⁻¹ = 0 := Matrix.nonsing_inv_apply_not_isUnit _ hd
      rw [h1, smul_zero]
      refine Matrix.nonsing_inv_apply_not_isUnit _ fun h => hd ?_
      rw [Matrix.det_smul] at h
      exact isUnit_of_mul_isUnit_right h
  have hk : Tendsto (fun p => p • (o p).k) atTop (𝓝 w.k) := by
    rw [w2]
    refine (tendsto_matVec hinv hQu).congr' (hpos.mono fun p hp => ?_)
    simp only
    rw [einv p hp, (backNode_some (ho p)).2.2.1, smul_mulVec]
  have hK : Tendsto (fun p => (o p).Kfb) atTop (𝓝 w.Kfb) := by
    rw [w3]
    refine (tendsto_matMul hinv (tendsto_tr hQxu)).congr' (hpos.mono fun p hp => ?_)
    simp only
    rw [einv p hp, (backNode_some (ho p)).2.2.2.1, transpose_smul, Matrix.smul_mul, Matrix.mul_smul, smul_smul,
      mul_inv_cancel₀ hp, one_smul]
  refine ⟨hQuu, hQu, hk, hK, ?_, ?_⟩
  · rw [w4]
    refine (hQx.sub (tendsto_matVec (tendsto_tr hK) hQu)).congr fun p => ?_
    rw [(backNode_some (ho p)).2.2.2.2]; rfl
  · rw [w4]
    have hM := hQxx.sub (tendsto_matMul hQxu hK)
    have h1 := (((hM.add (tendsto_tr hM)).const_smul (1 / 2 : ℝ))).add
      (tendsto_const_nhds (x := (1 : ℝ) • (1 : Matrix (Fin n) (Fin n) ℝ)) (f := atTop (α := ℝ)))
    refine h1.congr' (hpos.mono fun p hp => ?_)
    beta_reduce
    rw [(backNode_some (ho p)).2.2.2.2]
    simp only [computeValue, addDiag, smul_add, smul_smul, inv_mul_cancel₀ hp, transpose_sub, transpose_smul,
      Matrix.smul_mul, smul_sub, mul_comm]

/-- The limit of the backward pass exists, and its Hessians are positive semidefinite. -/
theorem flat_back {llt : ∀ m, Matrix (Fin m) (Fin m) ℝ → Bool} (hl : LltComplete llt) (L : Lin ℝ n m) (T : Nat)
    (s : Arrays ℝ n (fun _ => m)) :
    ∃ g, Back llt (some 1) true T (flat L).d (flat L).LxT (flat L).LxxT (fun _ => 0) g ∧
      ∀ t ≤ T, ∀ v, 0 ≤ v ⬝ᵥ ((g.V t).Vxx *ᵥ v) := by
  have hc : ∀ t, Convex ((flat L).d t) := fun t =>
    ⟨by simp [flat, flatD], by simp [flat, flatD], fun x u => by simp [flat, flatD]⟩
  have hpd : ∀ t (v : Fin m → ℝ), v ≠ 0 → 0 < v ⬝ᵥ (((flat L).d t).Luu *ᵥ v) + (some (1 : ℝ)).getD 0 * (v ⬝ᵥ v) := fun t v hv => by
    simpa [flat, flatD] using dot_self_pos hv
  have hT0 : ∀ v : Fin n → ℝ, 0 ≤ v ⬝ᵥ ((termValue (some 1) true (flat L).LxT (flat L).LxxT (0 : Fin n → ℝ)).Vxx *ᵥ v) := fun v => by
    simpa [termValue, flat, addDiag] using dot_self_nonneg v
  have hTs : (termValue (some (1 : ℝ)) true (flat L).LxT (flat L).LxxT (0 : Fin n → ℝ)).Vxxᵀ =
      (termValue (some 1) true (flat L).LxT (flat L).LxxT (0 : Fin n → ℝ)).Vxx := by
    simp only [termValue]
    exact addDiag_symm _ (by simp [flat])
  obtain ⟨g, hg⟩ : ∃ g, backwardPass llt (some 1) true T (flat L).d (flat L).LxT (flat L).LxxT (fun _ => 0) s = some g := by
    unfold backwardPass
    refine backLoop_convex hl (by simp) T (fun j _ => hc j) (fun j _ => hpd j) _ ?_ ?_
    · simpa only [Function.update_self] using hTs
    · simpa only [Function.update_self] using hT0
  have hb := backwardPass_spec hg
  refine ⟨g, hb, fun t ht => ?_⟩
  have key : ∀ j ≤ T, ∀ v, 0 ≤ v ⬝ᵥ ((g.V (T - j)).Vxx *ᵥ v) := by
    intro j
    induction j with
    | zero => intro _; rw [Nat.sub_zero, hb.term]; exact hT0
    | succ j ih =>
      intro hj
      have hlt : T - (j + 1) < T := by omega
      have ih := ih (by omega)
      rw [show T - j = T - (j + 1) + 1 by omega] at ih
      obtain ⟨o, ho, hov⟩ := backNode_convex (llt := llt) (preg := some 1) (feas := true) (f := 0) hl (hc (T - (j + 1))) (by simp)
        (hpd _) (hb.symm (by simp [flat]) _ hlt) ih
      have e := hb.node _ hlt
      rw [ho] at e
      rw [hb.val _ hlt, ← Option.some.inj e]
      exact hov
  have := key (T - t) (by omega)
  rwa [show T - (T - t) = t by omega] at this

/-- The limits along the whole backward pass. -/
theorem back_lim {llt tt : ∀ m, Matrix (Fin m) (Fin m) ℝ → Bool} {L : Lin ℝ n m} {T : Nat}
    {G : ℝ → Arrays ℝ n (fun _ => m)} {g : Arrays ℝ n (fun _ => m)}
    (hG : ∀ p, Back tt (some p) true T L.d L.LxT L.LxxT (fun _ => 0) (G p))
    (hg : Back llt (some 1) true T (flat L).d (flat L).LxT (flat L).LxxT (fun _ => 0) g)
    (hu : ∀ t < T, (g.out t).Q.Quu.det ≠ 0) : ∀ t < T, NodeLim (fun p => (G p).out t) (g.out t) := by
  have hpos : ∀ᶠ p : ℝ in atTop, p ≠ 0 := (eventually_gt_atTop 0).mono fun p h => h.ne'
  have key : ∀ j ≤ T, Tendsto (fun p => ((G p).V (T - j)).Vx) atTop (𝓝 (g.V (T - j)).Vx) ∧
      Tendsto (fun p => p⁻¹ • ((G p).V (T - j)).Vxx) atTop (𝓝 (g.V (T - j)).Vxx) := by
    intro j
    induction j with
    | zero =>
      intro _
      rw [Nat.sub_zero]
      constructor
      · simp only [fun p => (hG p).term, hg.term]
        exact tendsto_const_nhds
      · have h1 := (tendsto_invSmul L.LxxT).add
          (tendsto_const_nhds (x := (1 : ℝ) • (1 : Matrix (Fin n) (Fin n) ℝ)) (f := atTop (α := ℝ)))
        rw [hg.term]
        refine h1.congr' (hpos.mono fun p hp => ?_)
        beta_reduce
        rw [(hG p).term]
        simp only [termValue, addDiag, smul_add, smul_smul, inv_mul_cancel₀ hp]
    | succ j ih =>
      intro hj
      have hlt : T - (j + 1) < T := by omega
      have ih := ih (by omega)
      rw [show T - j = T - (j + 1) + 1 by omega] at ih
      have h := node_lim ih.1 ih.2 (fun p => (hG p).node _ hlt) (hg.node _ hlt) (hu _ hlt)
      simp only [fun p => (hG p).val _ hlt, hg.val _ hlt]
      exact ⟨h.Vx, h.Vxx⟩
  intro t ht
  have h := key (T - (t + 1)) (by omega)
  rw [show T - (T - (t + 1)) = t + 1 by omega] at h
  exact node_lim h.1 h.2 (fun p => (hG p).node t ht) (hg.node t ht) (hu t ht)


/-! ### The trial with the full step -/

theorem to_zero {E : Type} [NormedAddCommGroup E] [NormedSpace ℝ E] {d : ℝ → E} {v : E}
    (h : Tendsto (fun p : ℝ => p • d p) atTop (𝓝 v)) : Tendsto d atTop (𝓝 0) := by
  have h1 := (tendsto_inv_atTop_zero (𝕜 := ℝ)).smul h
  rw [zero_smul] at h1
  refine h1.congr' ((eventually_gt_atTop 0).mono fun p hp => ?_)
  beta_reduce
  rw [smul_smul, inv_mul_cancel₀ hp.ne', one_smul]

theorem HasGrad.lim {f : (Fin n → ℝ) → (Fin m → ℝ) → ℝ} {gx : Fin n → ℝ} {gu : Fin m → ℝ} {x : Fin n → ℝ} {u : Fin m → ℝ}
    {X : ℝ → Fin n → ℝ} {U : ℝ → Fin m → ℝ} {y : Fin n → ℝ} {v : Fin m → ℝ} (hf : HasGrad f gx gu x u)
    (hX : Tendsto (fun p => p • (X p - x)) atTop (𝓝 y)) (hU : Tendsto (fun p => p • (U p - u)) atTop (𝓝 v)) :
    Tendsto (fun p => p • (f (X p) (U p) - f x u)) atTop (𝓝 (gx ⬝ᵥ y + gu ⬝ᵥ v)) := by
  have hd : Tendsto (fun p : ℝ => p • ((X p - x, U p - u) : (Fin n → ℝ) × (Fin m → ℝ))) atTop (𝓝 (y, v)) :=
    hX.prodMk_nhds hU
  have h := HasFDerivWithinAt.lim (HasFDerivAt.hasFDerivWithinAt (s := Set.univ) hf) (to_zero hd) (by simp) hd
  simpa [form_dot] using h

theorem HasGrad1.lim {f : (Fin n → ℝ) → ℝ} {gx : Fin n → ℝ} {x : Fin n → ℝ} {X : ℝ → Fin n → ℝ} {y : Fin n → ℝ}
    (hf : HasGrad1 f gx x) (hX : Tendsto (fun p => p • (X p - x)) atTop (𝓝 y)) :
    Tendsto (fun p => p • (f (X p) - f x)) atTop (𝓝 (gx ⬝ᵥ y)) := by
  have h := HasFDerivWithinAt.lim (HasFDerivAt.hasFDerivWithinAt (s := Set.univ) hf) (to_zero hX) (by simp) hX
  simpa [form_dot] using h

theorem HasJac.lim {f : (Fin n → ℝ) → (Fin m → ℝ) → Fin n → ℝ} {Jx : Matrix (Fin n) (Fin n) ℝ} {Ju : Matrix (Fin n) (Fin m) ℝ}
    {x : Fin n → ℝ} {u : Fin m → ℝ} {X : ℝ → Fin n → ℝ} {U : ℝ → Fin m → ℝ} {y : Fin n → ℝ} {v : Fin m → ℝ}
    (hf : HasJac f Jx Ju x u)
    (hX : Tendsto (fun p => p • (X p - x)) atTop (𝓝 y)) (hU : Tendsto (fun p => p • (U p - u)) atTop (𝓝 v)) :
    Tendsto (fun p => p • (f (X p) (U p) - f x u)) atTop (𝓝 (Jx *ᵥ y + Ju *ᵥ v)) := by
  rw [tendsto_pi_nhds]
  intro i
  exact HasGrad.lim (hf i) hX hU

section trial
variable {P : NlProb n m} {xs : Nat → Fin n → ℝ} {us : Nat → Fin m → ℝ} {L : Lin ℝ n m}
variable {G : ℝ → Arrays ℝ n (fun _ => m)} {g : Arrays ℝ n (fun _ => m)}

theorem polyX_lim (hE : Exact P xs us L) (hro : Rollout P.toProb xs us)
    (hN : ∀ t < P.T, NodeLim (fun p => (G p).out t) (g.out t)) (t : Nat) (ht : t ≤ P.T) :
    Tendsto (fun p => p • (polyX P xs us (G p) (fun _ => 0) 1 t - xs t)) atTop (𝓝 (sens L g (fun _ => 0) t)) ∧
    (t < P.T → Tendsto (fun p => p • (polyU P xs us (G p) (fun _ => 0) 1 t - us t)) atTop
      (𝓝 (-(g.out t).k - (g.out t).Kfb *ᵥ sens L g (fun _ => 0) t))) := by
  have hU : ∀ t < P.T, Tendsto (fun p => p • (polyX P xs us (G p) (fun _ => 0) 1 t - xs t)) atTop
      (𝓝 (sens L g (fun _ => 0) t)) → Tendsto (fun p => p • (polyU P xs us (G p) (fun _ => 0) 1 t - us t)) atTop
      (𝓝 (-(g.out t).k - (g.out t).Kfb *ᵥ sens L g (fun _ => 0) t)) := by
    intro t ht hx
    refine ((hN t ht).k.neg.sub (tendsto_matVec (hN t ht).Kfb hx)).congr fun p => ?_
    simp only [polyU, one_smul]
    rw [mulVec_smul, show us t - ((G p).out t).k - ((G p).out t).Kfb *ᵥ (polyX P xs us (G p) (fun _ => 0) 1 t - xs t) - us t =
      -((G p).out t).k - ((G p).out t).Kfb *ᵥ (polyX P xs us (G p) (fun _ => 0) 1 t - xs t) by abel, smul_sub, smul_neg]
  induction t with
  | zero =>
    have h0 : Tendsto (fun p => p • (polyX P xs us (G p) (fun _ => 0) 1 0 - xs 0)) atTop (𝓝 (sens L g (fun _ => 0) 0)) := by
      have : xs 0 = P.x0 := hro.1
      simp only [polyX, this, sens]
      simp
    exact ⟨h0, fun h => hU 0 h h0⟩
  | succ t ih =>
    have ih := ih (by omega)
    have h0 : Tendsto (fun p => p • (polyX P xs us (G p) (fun _ => 0) 1 (t + 1) - xs (t + 1))) atTop
        (𝓝 (sens L g (fun _ => 0) (t + 1))) := by
      have h1 := HasJac.lim (hE.dyn t ht) ih.1 (ih.2 ht)
      have hx : xs (t + 1) = P.next t (xs t) (us t) := hro.2 t ht
      simp only [sens, add_zero]
      refine h1.congr fun p => ?_
      rw [hx]
      simp only [polyX, polyU, smul_zero, add_zero]
    exact ⟨h0, fun h => hU _ h h0⟩

theorem polyCost_lim (hE : Exact P xs us L) (hro : Rollout P.toProb xs us)
    (hN : ∀ t < P.T, NodeLim (fun p => (G p).out t) (g.out t)) :
    Tendsto (fun p => p * (polyCost P xs us (G p) (fun _ => 0) 1 - totalCost P.toProb xs us)) atTop
      (𝓝 ((∑ t ∈ Finset.range P.T, ((L.d t).Lx ⬝ᵥ sens L g (fun _ => 0) t
        + (L.d t).Lu ⬝ᵥ (-(g.out t).k - (g.out t).Kfb *ᵥ sens L g (fun _ => 0) t))) + L.LxT ⬝ᵥ sens L g (fun _ => 0) P.T)) := by
  have h1 := tendsto_finsetSum (f := fun t p => p • (P.cost t (polyX P xs us (G p) (fun _ => 0) 1 t)
      (polyU P xs us (G p) (fun _ => 0) 1 t) - P.cost t (xs t) (us t))) (x := atTop) (Finset.range P.T) fun t ht =>
    HasGrad.lim (hE.cost t (Finset.mem_range.mp ht)) (polyX_lim hE hro hN t (Finset.mem_range.mp ht).le).1
      ((polyX_lim hE hro hN t (Finset.mem_range.mp ht).le).2 (Finset.mem_range.mp ht))
  refine (h1.add (HasGrad1.lim hE.term (polyX_lim hE hro hN P.T le_rfl).1)).congr fun p => ?_
  simp only [polyCost, smul_eq_mul, ← Finset.mul_sum, Finset.sum_sub_distrib]
  show _ = p * (_ - ((∑ t ∈ Finset.range P.T, P.cost t (xs t) (us t)) + P.costT (xs P.T)))
  ring

end trial

/-! ### Success of the backward pass -/

theorem quad_le (M : Matrix (Fin m) (Fin m) ℝ) (v : Fin m → ℝ) :
    |v ⬝ᵥ (M *ᵥ v)| ≤ (∑ i, ∑ j, |M i j|) * (v ⬝ᵥ v) := by
  have hle : ∀ i, |v i| * |v i| ≤ v ⬝ᵥ v := fun i => by
    rw [abs_mul_abs_self]
    exact Finset.single_le_sum (f := fun i => v i * v i) (fun i _ => mul_self_nonneg _) (Finset.mem_univ i)
  have hij : ∀ i j, |v i| * |v j| ≤ v ⬝ᵥ v := fun i j => by
    have h1 := hle i
    have h2 := hle j
    nlinarith [mul_self_nonneg (|v i| - |v j|)]
  calc |v ⬝ᵥ (M *ᵥ v)| = |∑ i, ∑ j, M i j * (v i * v j)| := by
        congr 1
        simp only [dotProduct, mulVec, Finset.mul_sum]
        exact Finset.sum_congr rfl fun i _ => Finset.sum_congr rfl fun j _ => by ring
    _ ≤ ∑ i, ∑ j, |M i j| * (|v i| * |v j|) := by
        refine (Finset.abs_sum_le_sum_abs _ _).trans (Finset.sum_le_sum fun i _ => (Finset.abs_sum_le_sum_abs _ _).trans
          (Finset.sum_le_sum fun j _ => ?_))
        rw [abs_mul, abs_mul]
    _ ≤ ∑ i, ∑ j, |M i j| * (v ⬝ᵥ v) :=
        Finset.sum_le_sum fun i _ => Finset.sum_le_sum fun j _ => mul_le_mul_of_nonneg_left (hij i j) (abs_nonneg _)
    _ = _ := by simp only [Finset.sum_mul]

theorem eventually_pd {A : ℝ → Matrix (Fin m) (Fin m) ℝ} {A0 : Matrix (Fin m) (Fin m) ℝ}
    (hA : Tendsto (fun p => p⁻¹ • A p) atTop (𝓝 A0)) (h0 : ∀ v, v ⬝ᵥ v ≤ v ⬝ᵥ (A0 *ᵥ v)) :
    ∀ᶠ p in atTop, ∀ v, v ≠ 0 → 0 < v ⬝ᵥ (A p *ᵥ v) := by
  have hc : Continuous fun M : Matrix (Fin m) (Fin m) ℝ => ∑ i, ∑ j, |(M - A0) i j| := by
    refine continuous_finsetSum _ fun i _ => continuous_finsetSum _ fun j _ => ?_
    exact ((continuous_id.sub continuous_const).matrix_elem i j).abs
  have h1 := (hc.tendsto A0).comp hA
  simp only [sub_self, Matrix.zero_apply, abs_zero, Finset.sum_const_zero] at h1
  have h2 := h1.eventually (gt_mem_nhds (show (0 : ℝ) < 1 by norm_num))
  filter_upwards [h2, eventually_gt_atTop 0] with p hp hp0 v hv
  have hq := quad_le (p⁻¹ • A p - A0) v
  have hvv := dot_self_pos hv
  have hlt : (∑ i, ∑ j, |(p⁻¹ • A p - A0) i j|) * (v ⬝ᵥ v) < v ⬝ᵥ v := by
    have : (∑ i, ∑ j, |(p⁻¹ • A p - A0) i j|) < 1 := hp
    nlinarith
  rw [sub_mulVec, dotProduct_sub, smul_mulVec, dotProduct_smul, smul_eq_mul] at hq
  have := (abs_le.mp hq).1
  have := h0 v
  have h3 : 0 < p⁻¹ * (v ⬝ᵥ (A p *ᵥ v)) := by linarith
  exact (pos_iff_pos_of_mul_pos h3).mp (inv_pos.mpr hp0)

/-- A backward pass whose result is known succeeds, whatever the arrays held before. -/
theorem Back.succeeds {llt : ∀ m, Matrix (Fin m) (Fin m) ℝ → Bool} {preg : Option ℝ} {T : Nat} {L : Lin ℝ n m}
    {f f' : Nat → Fin n → ℝ} {g : Arrays ℝ n (fun _ => m)} (hb : Back llt preg true T L.d L.LxT L.LxxT f g)
    (s : Arrays ℝ n (fun _ => m)) : ∃ g', backwardPass llt preg true T L.d L.LxT L.LxxT f' s = some g' := by
  have key : ∀ t ≤ T, ∀ s : Arrays ℝ n (fun _ => m), s.V t = g.V t → ∃ g', backLoop llt preg true L.d f' t s = some g' := by
    intro t
    induction t with
    | zero => exact fun _ s _ => ⟨s, rfl⟩
    | succ t ih =>
      intro ht s hs
      have h1 : backNode llt preg true (L.d t) (s.V (t + 1)) (f' t) = some (g.out t) := by
        rw [hs]; exact hb.node t ht
      rw [backLoop, h1]
      refine ih (by omega) _ ?_
      simp only [Function.update_self]
      exact (hb.val t ht).symm
  refine key T le_rfl _ ?_
  simp only [Function.update_self]
  rw [hb.term]; rfl

theorem Back.unique {llt tt : ∀ m, Matrix (Fin m) (Fin m) ℝ → Bool} {preg : Option ℝ} {T : Nat} {L : Lin ℝ n m}
    {f f' : Nat → Fin n → ℝ} {g g' : Arrays ℝ n (fun _ => m)} (hb : Back llt preg true T L.d L.LxT L.LxxT f g)
    (hb' : Back tt preg true T L.d L.LxT L.LxxT f' g') : ∀ t < T, g.out t = g'.out t := by
  have hnode : ∀ t < T, g.V (t + 1) = g'.V (t + 1) → g.out t = g'.out t := by
    intro t ht e
    obtain ⟨a1, -, a2, a3, a4⟩ := backNode_some (hb.node t ht)
    obtain ⟨b1, -, b2, b3, b4⟩ := backNode_some (hb'.node t ht)
    have e1 : (g.out t).Q = (g'.out t).Q := by rw [a1, b1, e]
    have e2 : (g.out t).k = (g'.out t).k := by rw [a2, b2, e1]
    have e3 : (g.out t).Kfb = (g'.out t).Kfb := by rw [a3, b3, e1]
    have e4 : (g.out t).V = (g'.out t).V := by rw [a4, b4, e1, e3]; rfl
    calc g.out t = ⟨(g.out t).Q, (g.out t).k, (g.out t).Kfb, (g.out t).V⟩ := rfl
      _ = ⟨(g'.out t).Q, (g'.out t).k, (g'.out t).Kfb, (g'.out t).V⟩ := by rw [e1, e2, e3, e4]
  have key : ∀ j ≤ T, g.V (T - j) = g'.V (T - j) := by
    intro j
    induction j with
    | zero => intro _; rw [Nat.sub_zero, hb.term, hb'.term]; rfl
    | succ j ih =>
      intro hj
      have hlt : T - (j + 1) < T := by omega
      have ih := ih (by omega)
      rw [show T - j = T - (j + 1) + 1 by omega] at ih
      rw [hb.val _ hlt, hb'.val _ hlt, hnode _ hlt ih]
  intro t ht
  have := key (T - (t + 1)) (by omega)
  rw [show T - (T - (t + 1)) = t + 1 by omega] at this
  exact hnode t ht this

theorem polyCost_congr {P : NlProb n m} {xs : Nat → Fin n → ℝ} {us : Nat → Fin m → ℝ} {g g' : Arrays ℝ n (fun _ => m)}
    {f : Nat → Fin n → ℝ} {a : ℝ} (h : ∀ t < P.T, g.out t = g'.out t) :
    polyCost P xs us g f a = polyCost P xs us g' f a := by
  have hx : ∀ t ≤ P.T, polyX P xs us g f a t = polyX P xs us g' f a t := by
    intro t
    induction t with
    | zero => intro _; rfl
    | succ t ih => intro ht; simp only [polyX, ih (by omega), h t ht]
  unfold polyCost
  rw [hx P.T le_rfl]
  congr 1
  refine Finset.sum_congr rfl fun t ht => ?_
  have ht := Finset.mem_range.mp ht
  rw [hx t ht.le]
  simp only [polyU, hx t ht.le, h t ht]

/-- For every large regularisation the backward pass succeeds, the full step improves the cost by almost twice what the
solver expects, and that is arbitrarily little. -/
theorem big_reg_eps {P : NlProb n m} {xs : Nat → Fin n → ℝ} {us : Nat → Fin m → ℝ} {L : Lin ℝ n m}
    {llt : ∀ m, Matrix (Fin m) (Fin m) ℝ → Bool} (hE : Exact P xs us L) (hro : Rollout P.toProb xs us)
    (hl : LltSound llt) (hlc : LltComplete llt) (hH : SymmHess P.T L) (hns : ¬ Stationary P us) {th : ℝ} (hth : th < 2)
    {eps : ℝ} (heps : 0 < eps) :
    ∃ R > 0, ∀ p ≥ R, (∃ g, Back llt (some p) true P.T L.d L.LxT L.LxxT (fun _ => 0) g) ∧
      ∀ f g, Back llt (some p) true P.T L.d L.LxT L.LxxT f g →
        th * ((1 / 2) * ∑ t ∈ Finset.range P.T, (g.out t).Q.Qu ⬝ᵥ (g.out t).k) <
          totalCost P.toProb xs us - polyCost P xs us g (fun _ => 0) 1 ∧
        0 < ∑ t ∈ Finset.range P.T, (g.out t).Q.Qu ⬝ᵥ (g.out t).k ∧
        ∑ t ∈ Finset.range P.T, (g.out t).Q.Qu ⬝ᵥ (g.out t).k < eps ∧
        totalCost P.toProb xs us - polyCost P xs us g (fun _ => 0) 1 <
          2 * ∑ t ∈ Finset.range P.T, (g.out t).Q.Qu ⬝ᵥ (g.out t).k := by
  let tt : ∀ m, Matrix (Fin m) (Fin m) ℝ → Bool := fun _ _ => true
  have hex : ∀ p : ℝ, ∃ g : Arrays ℝ n (fun _ => m), Back tt (some p) true P.T L.d L.LxT L.LxxT (fun _ => 0) g := by
    intro p
    have key : ∀ t (s : Arrays ℝ n (fun _ => m)), ∃ g, backLoop tt (some p) true L.d (fun _ => 0) t s = some g := by
      intro t
      induction t with
      | zero => exact fun s => ⟨s, rfl⟩
      | succ t ih =>
        intro s
        rw [backLoop]
        unfold backNode computeGains
        simp only [tt, or_true, if_true]
        exact ih _
    obtain ⟨g, hg⟩ := key P.T { V := Function.update (fun _ => ⟨0, 0⟩) P.T (termValue (some p) true L.LxT L.LxxT 0),
                                out := fun _ => ⟨⟨0, 0, 0, 0, 0⟩, 0, 0, ⟨0, 0⟩⟩ }
    exact ⟨g, backwardPass_spec (s := { V := fun _ => ⟨0, 0⟩, out := fun _ => ⟨⟨0, 0, 0, 0, 0⟩, 0, 0, ⟨0, 0⟩⟩ }) hg⟩
  choose G hG using hex
  obtain ⟨g0, hg0, hpsd⟩ := flat_back hlc L P.T (G 0)
  have hfacts := fun t (ht : t < P.T) => Back.facts hg0 hl (by simp [flat]) t ht (by simp [flat, flatD])
  have hu : ∀ t < P.T, (g0.out t).Q.Quu.det ≠ 0 := fun t ht => (unit_of_posdef (hfacts t ht).2.2.2.1).ne_zero
  have hN := back_lim hG hg0 hu
  have hE' : Exact P xs us (flat L) := ⟨hE.dyn, hE.cost, hE.term⟩
  have hc := polyCost_lim hE' hro hN
  rw [slope_eq hg0 fun _ _ _ => rfl] at hc
  simp only [dotProduct_zero, mulVec_zero, zero_dotProduct, Finset.sum_const_zero, add_zero, sub_zero] at hc
  set S := ∑ t ∈ Finset.range P.T, (g0.out t).Q.Qu ⬝ᵥ (g0.out t).k with hS
  have hd : Tendsto (fun p => p * ∑ t ∈ Finset.range P.T, ((G p).out t).Q.Qu ⬝ᵥ ((G p).out t).k) atTop (𝓝 S) := by
    have h1 := tendsto_finsetSum (f := fun t p => ((G p).out t).Q.Qu ⬝ᵥ (p • ((G p).out t).k)) (x := atTop) (Finset.range P.T)
      fun t ht => tendsto_dot (hN t (Finset.mem_range.mp ht)).Qu (hN t (Finset.mem_range.mp ht)).k
    refine h1.congr fun p => ?_
    simp only [dotProduct_smul, smul_eq_mul, Finset.mul_sum]
  -- the limit is positive
  have hterm : ∀ t ∈ Finset.range P.T, 0 ≤ (g0.out t).Q.Qu ⬝ᵥ (g0.out t).k := fun t ht => by
    obtain ⟨-, -, -, hpd, hk, -⟩ := hfacts t (Finset.mem_range.mp ht)
    rw [← hk, dotProduct_comm]
    by_cases h0 : (g0.out t).k = 0
    · rw [h0]; simp
    · exact (hpd _ h0).le
  have hSpos : 0 < S := by
    rcases (Finset.sum_nonneg hterm).lt_or_eq with h | h
    · exact h
    · exfalso
      refine hns ((stationary_iff (hE'.of_rollout hro)).mpr ((qu_zero_iff hg0 fun _ _ => rfl).mp fun t ht => ?_))
      have hz := (Finset.sum_eq_zero_iff_of_nonneg hterm).mp h.symm t (Finset.mem_range.mpr ht)
      obtain ⟨-, -, -, hpd, hk, -⟩ := hfacts t ht
      by_contra hq
      have hk0 : (g0.out t).k ≠ 0 := fun h => hq (by rw [← hk, h]; simp)
      have := hpd _ hk0
      rw [hk, dotProduct_comm, hz] at this
      exact lt_irrefl _ this
  have hacc : ∀ᶠ p in atTop, th * ((1 / 2) * (p * ∑ t ∈ Finset.range P.T, ((G p).out t).Q.Qu ⬝ᵥ ((G p).out t).k)) <
      -(p * (polyCost P xs us (G p) (fun _ => 0) 1 - totalCost P.toProb xs us)) := by
    have h1 := (hd.const_mul (1 / 2)).const_mul th
    have h2 := hc.neg
    refine h1.eventually_lt h2 ?_
    nlinarith
  have hpos := hd.eventually (lt_mem_nhds hSpos)
  have hsmall : ∀ᶠ p in atTop, ∑ t ∈ Finset.range P.T, ((G p).out t).Q.Qu ⬝ᵥ ((G p).out t).k < eps := by
    have h1 := (tendsto_inv_atTop_zero (𝕜 := ℝ)).mul hd
    rw [zero_mul] at h1
    filter_upwards [h1.eventually (gt_mem_nhds heps), eventually_gt_atTop 0] with p hp h0
    rwa [← mul_assoc, inv_mul_cancel₀ h0.ne', one_mul] at hp
  have hup : ∀ᶠ p in atTop, -(p * (polyCost P xs us (G p) (fun _ => 0) 1 - totalCost P.toProb xs us)) <
      2 * (p * ∑ t ∈ Finset.range P.T, ((G p).out t).Q.Qu ⬝ᵥ ((G p).out t).k) :=
    hc.neg.eventually_lt (hd.const_mul 2) (by linarith)
  have hpdE : ∀ᶠ p in atTop, ∀ t ∈ Finset.range P.T, ∀ v, v ≠ 0 → 0 < v ⬝ᵥ (((G p).out t).Q.Quu *ᵥ v) := by
    rw [Filter.eventually_all_finset]
    intro t ht
    have ht := Finset.mem_range.mp ht
    refine eventually_pd (hN t ht).Quu fun v => ?_
    rw [(hfacts t ht).1]
    simp only [actionValue]
    rw [addDiag_quad, add_mulVec, dotProduct_add, Matrix.mul_assoc, ← mulVec_mulVec, ← mulVec_mulVec, dot_tr',
      dotProduct_comm ((g0.V (t + 1)).Vxx *ᵥ _)]
    have := hpsd (t + 1) ht (((flat L).d t).Fu *ᵥ v)
    simp only [flat, flatD, zero_mulVec, dotProduct_zero, zero_add, Option.getD_some, one_mul] at this ⊢
    linarith
  obtain ⟨R, hR⟩ := Filter.eventually_atTop.mp ((hacc.and hpos).and (hpdE.and ((eventually_gt_atTop 0).and (hsmall.and hup))))
  refine ⟨max R 1, lt_max_of_lt_right one_pos, fun p hp => ?_⟩
  obtain ⟨⟨h1, h2⟩, h3, h4, h5, h6⟩ := hR p ((le_max_left _ _).trans hp)
  refine ⟨⟨G p, (hG p).term, fun t ht => ?_, (hG p).val⟩, fun f g hg => ?_⟩
  · have hn := (hG p).node t ht
    have hsym : ((G p).out t).Q.Quuᵀ = ((G p).out t).Q.Quu := by
      rw [(backNode_some hn).1]
      exact Quu_symm (hH.Luu t ht) ((hG p).symm hH.term (t + 1) ht)
    have hok := hlc _ _ hsym (h3 t (Finset.mem_range.mpr ht))
    rw [(backNode_some hn).1] at hok
    rw [← hn]
    unfold backNode computeGains
    simp only [hok, tt]
  · have hun := Back.unique hg (hG p)
    rw [polyCost_congr hun, Finset.sum_congr rfl fun t ht => by rw [hun t (Finset.mem_range.mp ht)]]
    refine ⟨?_, (pos_iff_pos_of_mul_pos h2).mp h4, h5, ?_⟩
    · have h1' : p * (th * ((1 / 2) * ∑ t ∈ Finset.range P.T, ((G p).out t).Q.Qu ⬝ᵥ ((G p).out t).k)) <
        p * (totalCost P.toProb xs us - polyCost P xs us (G p) (fun _ => 0) 1) := by linarith
      exact lt_of_mul_lt_mul_left h1' h4.le
    · have h6' : p * (totalCost P.toProb xs us - polyCost P xs us (G p) (fun _ => 0) 1) <
        p * (2 * ∑ t ∈ Finset.range P.T, ((G p).out t).Q.Qu ⬝ᵥ ((G p).out t).k) := by linarith
      exact lt_of_mul_lt_mul_left h6' h4.le

theorem big_reg {P : NlProb n m} {xs : Nat → Fin n → ℝ} {us : Nat → Fin m → ℝ} {L : Lin ℝ n m}
    {llt : ∀ m, Matrix (Fin m) (Fin m) ℝ → Bool} (hE : Exact P xs us L) (hro : Rollout P.toProb xs us)
    (hl : LltSound llt) (hlc : LltComplete llt) (hH : SymmHess P.T L) (hns : ¬ Stationary P us) {th : ℝ} (hth : th < 2) :
    ∃ R > 0, ∀ p ≥ R, (∃ g, Back llt (some p) true P.T L.d L.LxT L.LxxT (fun _ => 0) g) ∧
      ∀ f g, Back llt (some p) true P.T L.d L.LxT L.LxxT f g →
        th * ((1 / 2) * ∑ t ∈ Finset.range P.T, (g.out t).Q.Qu ⬝ᵥ (g.out t).k) <
          totalCost P.toProb xs us - polyCost P xs us g (fun _ => 0) 1 ∧
        0 < ∑ t ∈ Finset.range P.T, (g.out t).Q.Qu ⬝ᵥ (g.out t).k := by
  obtain ⟨R, h0, hR⟩ := big_reg_eps hE hro hl hlc hH hns hth one_pos
  exact ⟨R, h0, fun p hp => ⟨(hR p hp).1, fun f g hg => ⟨((hR p hp).2 f g hg).1, ((hR p hp).2 f g hg).2.1⟩⟩⟩

end Verif.Nl
