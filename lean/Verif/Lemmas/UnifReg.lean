import Verif.Spec.UnifReg
import Verif.Lemmas.BigReg
import Mathlib.Order.Filter.Ultrafilter.Basic
import Mathlib.Topology.UniformSpace.Compact

set_option linter.unusedSectionVars false

/-!
# Lemmas: the backward pass under a large regularisation, uniformly in the derivatives (C145)
-/

namespace Verif.Nl
open Verif Verif.Solve Verif.Lq Verif.Deriv Matrix Filter Topology

section gen
variable {ι : Type} {l : Filter ι} {a b c : Nat}

theorem tendsto_matMul' {A : ι → Matrix (Fin a) (Fin b) ℝ} {B : ι → Matrix (Fin b) (Fin c) ℝ} {A0 B0}
    (hA : Tendsto A l (𝓝 A0)) (hB : Tendsto B l (𝓝 B0)) : Tendsto (fun x => A x * B x) l (𝓝 (A0 * B0)) :=
  ((continuous_fst.matrix_mul continuous_snd).tendsto (A0, B0)).comp (hA.prodMk_nhds hB)

theorem tendsto_matVec' {A : ι → Matrix (Fin a) (Fin b) ℝ} {B : ι → Fin b → ℝ} {A0 B0}
    (hA : Tendsto A l (𝓝 A0)) (hB : Tendsto B l (𝓝 B0)) : Tendsto (fun x => A x *ᵥ B x) l (𝓝 (A0 *ᵥ B0)) :=
  ((continuous_fst.matrix_mulVec continuous_snd).tendsto (A0, B0)).comp (hA.prodMk_nhds hB)

theorem tendsto_dot' {A B : ι → Fin b → ℝ} {A0 B0}
    (hA : Tendsto A l (𝓝 A0)) (hB : Tendsto B l (𝓝 B0)) : Tendsto (fun x => A x ⬝ᵥ B x) l (𝓝 (A0 ⬝ᵥ B0)) :=
  ((continuous_fst.dotProduct continuous_snd).tendsto (A0, B0)).comp (hA.prodMk_nhds hB)

theorem tendsto_tr' {A : ι → Matrix (Fin a) (Fin b) ℝ} {A0} (hA : Tendsto A l (𝓝 A0)) :
    Tendsto (fun x => (A x)ᵀ) l (𝓝 A0ᵀ) := (continuous_id.matrix_transpose.tendsto A0).comp hA

theorem tendsto_matInv' {A : ι → Matrix (Fin a) (Fin a) ℝ} {A0} (hA : Tendsto A l (𝓝 A0)) (h0 : A0.det ≠ 0) :
    Tendsto (fun x => (A x)⁻¹) l (𝓝 A0⁻¹) := by
  have e : ∀ M : Matrix (Fin a) (Fin a) ℝ, M⁻¹ = M.det⁻¹ • M.adjugate := fun M => by
    rw [Matrix.inv_def, Ring.inverse_eq_inv]
  simp only [e]
  exact (((continuous_id.matrix_det.tendsto A0).comp hA).inv₀ h0).smul ((continuous_id.matrix_adjugate.tendsto A0).comp hA)

theorem tendsto_invSmul' {E : Type} [AddCommGroup E] [Module ℝ E] [TopologicalSpace E] [ContinuousSMul ℝ E] {p : ι → ℝ}
    (hp : Tendsto p l atTop) {v : ι → E} {v0 : E} (hv : Tendsto v l (𝓝 v0)) : Tendsto (fun x => (p x)⁻¹ • v x) l (𝓝 0) := by
  have := ((tendsto_inv_atTop_zero (𝕜 := ℝ)).comp hp).smul hv
  rwa [zero_smul] at this

end gen

variable {n m : Nat} {ι : Type} {l : Filter ι} {p : ι → ℝ}

/-- Convergence of the derivatives of a node. -/
structure DLim (l : Filter ι) (D : ι → Derivs ℝ n m) (d : Derivs ℝ n m) : Prop where
  Fx : Tendsto (fun i => (D i).Fx) l (𝓝 d.Fx)
  Fu : Tendsto (fun i => (D i).Fu) l (𝓝 d.Fu)
  Lx : Tendsto (fun i => (D i).Lx) l (𝓝 d.Lx)
  Lu : Tendsto (fun i => (D i).Lu) l (𝓝 d.Lu)
  Lxx : Tendsto (fun i => (D i).Lxx) l (𝓝 d.Lxx)
  Lxu : Tendsto (fun i => (D i).Lxu) l (𝓝 d.Lxu)
  Luu : Tendsto (fun i => (D i).Luu) l (𝓝 d.Luu)

/-- Limits of what the backward passes leave at a node. -/
structure NodeLim' (l : Filter ι) (p : ι → ℝ) (o : ι → NodeOut ℝ n m) (w : NodeOut ℝ n m) : Prop where
  Quu : Tendsto (fun i => (p i)⁻¹ • (o i).Q.Quu) l (𝓝 w.Q.Quu)
  Qu : Tendsto (fun i => (o i).Q.Qu) l (𝓝 w.Q.Qu)
  k : Tendsto (fun i => p i • (o i).k) l (𝓝 w.k)
  Vx : Tendsto (fun i => (o i).V.Vx) l (𝓝 w.V.Vx)
  Vxx : Tendsto (fun i => (p i)⁻¹ • (o i).V.Vxx) l (𝓝 w.V.Vxx)

theorem node_lim' {llt tt : ∀ m, Matrix (Fin m) (Fin m) ℝ → Bool} (hp : Tendsto p l atTop) {D : ι → Derivs ℝ n m}
    {d : Derivs ℝ n m} (hD : DLim l D d) {V : ι → Value ℝ n} {W : Value ℝ n}
    (hx : Tendsto (fun i => (V i).Vx) l (𝓝 W.Vx)) (hxx : Tendsto (fun i => (p i)⁻¹ • (V i).Vxx) l (𝓝 W.Vxx))
    {o : ι → NodeOut ℝ n m} {w : NodeOut ℝ n m} {f f' : Fin n → ℝ}
    (ho : ∀ i, backNode tt (some (p i)) true (D i) (V i) f = some (o i))
    (hw : backNode llt (some 1) true (flatD d) W f' = some w) (hu : w.Q.Quu.det ≠ 0) : NodeLim' l p o w := by
  obtain ⟨w1, -, w2, w3, w4⟩ := backNode_some hw
  have hpos : ∀ᶠ i in l, p i ≠ 0 := (hp.eventually (eventually_gt_atTop 0)).mono fun i h => h.ne'
  have hQuu : Tendsto (fun i => (p i)⁻¹ • (o i).Q.Quu) l (𝓝 w.Q.Quu) := by
    have h1 : Tendsto (fun i => (p i)⁻¹ • (D i).Luu + ((D i).Fuᵀ * ((p i)⁻¹ • (V i).Vxx)) * (D i).Fu
        + (1 : ℝ) • (1 : Matrix (Fin m) (Fin m) ℝ)) l (𝓝 (0 + (d.Fuᵀ * W.Vxx) * d.Fu + (1 : ℝ) • (1 : Matrix (Fin m) (Fin m) ℝ))) :=
      ((tendsto_invSmul' hp hD.Luu).add (tendsto_matMul' (tendsto_matMul' (tendsto_tr' hD.Fu) hxx) hD.Fu)).add
        tendsto_const_nhds
    rw [w1]
    refine h1.congr' (hpos.mono fun i hi => ?_)
    beta_reduce
    rw [(backNode_some (ho i)).1]
    simp only [actionValue, addDiag, smul_add, smul_smul, inv_mul_cancel₀ hi, Matrix.mul_smul, Matrix.smul_mul]
  have hQu : Tendsto (fun i => (o i).Q.Qu) l (𝓝 w.Q.Qu) := by
    have h1 : Tendsto (fun i => (D i).Lu + (D i).Fuᵀ *ᵥ (V i).Vx) l (𝓝 (d.Lu + d.Fuᵀ *ᵥ W.Vx)) :=
      hD.Lu.add (tendsto_matVec' (tendsto_tr' hD.Fu) hx)
    rw [w1]
    exact h1.congr fun i => by rw [(backNode_some (ho i)).1]; rfl
  have hQx : Tendsto (fun i => (o i).Q.Qx) l (𝓝 w.Q.Qx) := by
    have h1 : Tendsto (fun i => (D i).Lx + (D i).Fxᵀ *ᵥ (V i).Vx) l (𝓝 (d.Lx + d.Fxᵀ *ᵥ W.Vx)) :=
      hD.Lx.add (tendsto_matVec' (tendsto_tr' hD.Fx) hx)
    rw [w1]
    exact h1.congr fun i => by rw [(backNode_some (ho i)).1]; rfl
  have hQxx : Tendsto (fun i => (p i)⁻¹ • (o i).Q.Qxx) l (𝓝 w.Q.Qxx) := by
    have h1 : Tendsto (fun i => (p i)⁻¹ • (D i).Lxx + ((D i).Fxᵀ * ((p i)⁻¹ • (V i).Vxx)) * (D i).Fx)
        l (𝓝 (0 + (d.Fxᵀ * W.Vxx) * d.Fx)) :=
      (tendsto_invSmul' hp hD.Lxx).add (tendsto_matMul' (tendsto_matMul' (tendsto_tr' hD.Fx) hxx) hD.Fx)
    rw [w1]
    refine h1.congr fun i => ?_
    rw [(backNode_some (ho i)).1]
    simp only [actionValue, smul_add, Matrix.mul_smul, Matrix.smul_mul]
  have hQxu : Tendsto (fun i => (p i)⁻¹ • (o i).Q.Qxu) l (𝓝 w.Q.Qxu) := by
    have h1 : Tendsto (fun i => (p i)⁻¹ • (D i).Lxu + ((D i).Fxᵀ * ((p i)⁻¹ • (V i).Vxx)) * (D i).Fu)
        l (𝓝 (0 + (d.Fxᵀ * W.Vxx) * d.Fu)) :=
      (tendsto_invSmul' hp hD.Lxu).add (tendsto_matMul' (tendsto_matMul' (tendsto_tr' hD.Fx) hxx) hD.Fu)
    rw [w1]
    refine h1.congr fun i => ?_
    rw [(backNode_some (ho i)).1]
    simp only [actionValue, smul_add, Matrix.mul_smul, Matrix.smul_mul]
  have hinv := tendsto_matInv' hQuu hu
  have einv : ∀ i, p i ≠ 0 → ((p i)⁻¹ • (o i).Q.Quu)⁻¹ = p i • (o i).Q.Quu⁻¹ := fun i hi => by
    by_cases hd : IsUnit (o i).Q.Quu.det
    · refine Matrix.inv_eq_left_inv ?_
      rw [Matrix.smul_mul, Matrix.mul_smul, smul_smul, mul_inv_cancel₀ hi, one_smul, Matrix.nonsing_inv_mul _ hd]
    · have h1 : (o i).Q.Quu⁻¹ = 0 := Matrix.nonsing_inv_apply_not_isUnit _ hd
      rw [h1, smul_zero]
      refine Matrix.nonsing_inv_apply_not_isUnit _ fun h => hd ?_
      rw [Matrix.det_smul] at h
      exact isUnit_of_mul_isUnit_right h
  have hk : Tendsto (fun i => p i • (o i).k) l (𝓝 w.k) := by
    rw [w2]
    refine (tendsto_matVec' hinv hQu).congr' (hpos.mono fun i hi => ?_)
    simp only
    rw [einv i hi, (backNode_some (ho i)).2.2.1, smul_mulVec]
  have hK : Tendsto (fun i => (o i).Kfb) l (𝓝 w.Kfb) := by
    rw [w3]
    refine (tendsto_matMul' hinv (tendsto_tr' hQxu)).congr' (hpos.mono fun i hi => ?_)
    simp only
    rw [einv i hi, (backNode_some (ho i)).2.2.2.1, transpose_smul, Matrix.smul_mul, Matrix.mul_smul, smul_smul,
      mul_inv_cancel₀ hi, one_smul]
  refine ⟨hQuu, hQu, hk, ?_, ?_⟩
  · rw [w4]
    refine (hQx.sub (tendsto_matVec' (tendsto_tr' hK) hQu)).congr fun i => ?_
    rw [(backNode_some (ho i)).2.2.2.2]; rfl
  · rw [w4]
    have hM := hQxx.sub (tendsto_matMul' hQxu hK)
    have h1 := (((hM.add (tendsto_tr' hM)).const_smul (1 / 2 : ℝ))).add
      (tendsto_const_nhds (x := (1 : ℝ) • (1 : Matrix (Fin n) (Fin n) ℝ)) (f := l))
    refine h1.congr' (hpos.mono fun i hi => ?_)
    beta_reduce
    rw [(backNode_some (ho i)).2.2.2.2]
    simp only [computeValue, addDiag, smul_add, smul_smul, inv_mul_cancel₀ hi, transpose_sub, transpose_smul,
      Matrix.smul_mul, smul_sub, mul_comm]

theorem back_lim' {llt tt : ∀ m, Matrix (Fin m) (Fin m) ℝ → Bool} (hp : Tendsto p l atTop) {L : ι → Lin ℝ n m} {L0 : Lin ℝ n m}
    {T : Nat} (hL : ∀ t < T, DLim l (fun i => (L i).d t) (L0.d t)) (hLx : Tendsto (fun i => (L i).LxT) l (𝓝 L0.LxT))
    (hLxx : Tendsto (fun i => (L i).LxxT) l (𝓝 L0.LxxT))
    {G : ι → Arrays ℝ n (fun _ => m)} {g : Arrays ℝ n (fun _ => m)}
    (hG : ∀ i, Back tt (some (p i)) true T (L i).d (L i).LxT (L i).LxxT (fun _ => 0) (G i))
    (hg : Back llt (some 1) true T (flat L0).d (flat L0).LxT (flat L0).LxxT (fun _ => 0) g)
    (hu : ∀ t < T, (g.out t).Q.Quu.det ≠ 0) : ∀ t < T, NodeLim' l p (fun i => (G i).out t) (g.out t) := by
  have hpos : ∀ᶠ i in l, p i ≠ 0 := (hp.eventually (eventually_gt_atTop 0)).mono fun i h => h.ne'
  have key : ∀ j ≤ T, Tendsto (fun i => ((G i).V (T - j)).Vx) l (𝓝 (g.V (T - j)).Vx) ∧
      Tendsto (fun i => (p i)⁻¹ • ((G i).V (T - j)).Vxx) l (𝓝 (g.V (T - j)).Vxx) := by
    intro j
    induction j with
    | zero =>
      intro _
      rw [Nat.sub_zero]
      constructor
      · simp only [fun i => (hG i).term, hg.term]
        exact hLx
      · have h1 := (tendsto_invSmul' hp hLxx).add
          (tendsto_const_nhds (x := (1 : ℝ) • (1 : Matrix (Fin n) (Fin n) ℝ)) (f := l))
        rw [hg.term]
        refine h1.congr' (hpos.mono fun i hi => ?_)
        beta_reduce
        rw [(hG i).term]
        simp only [termValue, addDiag, smul_add, smul_smul, inv_mul_cancel₀ hi]
    | succ j ih =>
      intro hj
      have hlt : T - (j + 1) < T := by omega
      have ih := ih (by omega)
      rw [show T - j = T - (j + 1) + 1 by omega] at ih
      have h := node_lim' hp (hL _ hlt) ih.1 ih.2 (fun i => (hG i).node _ hlt) (hg.node _ hlt) (hu _ hlt)
      simp only [fun i => (hG i).val _ hlt, hg.val _ hlt]
      exact ⟨h.Vx, h.Vxx⟩
  intro t ht
  have h := key (T - (t + 1)) (by omega)
  rw [show T - (T - (t + 1)) = t + 1 by omega] at h
  exact node_lim' hp (hL _ ht) h.1 h.2 (fun i => (hG i).node t ht) (hg.node t ht) (hu t ht)

theorem eventually_pd' (hp : Tendsto p l atTop) {A : ι → Matrix (Fin m) (Fin m) ℝ} {A0 : Matrix (Fin m) (Fin m) ℝ}
    (hA : Tendsto (fun i => (p i)⁻¹ • A i) l (𝓝 A0)) (h0 : ∀ v, v ⬝ᵥ v ≤ v ⬝ᵥ (A0 *ᵥ v)) :
    ∀ᶠ i in l, ∀ v, v ≠ 0 → 0 < v ⬝ᵥ (A i *ᵥ v) := by
  have hc : Continuous fun M : Matrix (Fin m) (Fin m) ℝ => ∑ i, ∑ j, |(M - A0) i j| := by
    refine continuous_finsetSum _ fun i _ => continuous_finsetSum _ fun j _ => ?_
    exact ((continuous_id.sub continuous_const).matrix_elem i j).abs
  have h1 := (hc.tendsto A0).comp hA
  simp only [sub_self, Matrix.zero_apply, abs_zero, Finset.sum_const_zero] at h1
  have h2 := h1.eventually (gt_mem_nhds (show (0 : ℝ) < 1 by norm_num))
  filter_upwards [h2, hp.eventually (eventually_gt_atTop 0)] with i hi hp0 v hv
  have hq := quad_le ((p i)⁻¹ • A i - A0) v
  have hvv := dot_self_pos hv
  have hlt : (∑ a, ∑ b, |((p i)⁻¹ • A i - A0) a b|) * (v ⬝ᵥ v) < v ⬝ᵥ v := by
    have : (∑ a, ∑ b, |((p i)⁻¹ • A i - A0) a b|) < 1 := hi
    nlinarith
  rw [sub_mulVec, dotProduct_sub, smul_mulVec, dotProduct_smul, smul_eq_mul] at hq
  have := (abs_le.mp hq).1
  have := h0 v
  have h3 : 0 < (p i)⁻¹ * (v ⬝ᵥ (A i *ᵥ v)) := by linarith
  exact (pos_iff_pos_of_mul_pos h3).mp (inv_pos.mpr hp0)

/-! ### Limits along an ultrafilter -/

theorem ultra_real (U : Ultrafilter ι) {B : ℝ} {f : ι → ℝ} (h : ∀ i, |f i| ≤ B) : ∃ a, Tendsto f U (𝓝 a) := by
  obtain ⟨a, -, ha⟩ := (isCompact_Icc (a := -B) (b := B)).ultrafilter_le_nhds (U.map f)
    (by rw [le_principal_iff]; exact Filter.mem_map.mpr (Filter.univ_mem' fun i => abs_le.mp (h i)))
  exact ⟨a, ha⟩

theorem ultra_vec (U : Ultrafilter ι) {B : ℝ} {q : Nat} {f : ι → Fin q → ℝ} (h : ∀ i a, |f i a| ≤ B) :
    ∃ a, Tendsto f U (𝓝 a) := by
  choose a ha using fun j => ultra_real U (f := fun i => f i j) (fun i => h i j)
  exact ⟨a, tendsto_pi_nhds.mpr ha⟩

theorem ultra_mat (U : Ultrafilter ι) {B : ℝ} {q r : Nat} {f : ι → Matrix (Fin q) (Fin r) ℝ} (h : ∀ i a b, |f i a b| ≤ B) :
    ∃ a, Tendsto f U (𝓝 a) := by
  choose a ha using fun j => ultra_vec U (f := fun i => f i j) (fun i => h i j)
  exact ⟨a, tendsto_pi_nhds.mpr ha⟩

theorem ultra_derivs (U : Ultrafilter ι) {B : ℝ} {D : ι → Derivs ℝ n m} (h : ∀ i, BoundedD B (D i)) : ∃ d, DLim (U : Filter ι) D d := by
  obtain ⟨a1, h1⟩ := ultra_mat U fun i => (h i).Fx
  obtain ⟨a2, h2⟩ := ultra_mat U fun i => (h i).Fu
  obtain ⟨a3, h3⟩ := ultra_vec U fun i => (h i).Lx
  obtain ⟨a4, h4⟩ := ultra_vec U fun i => (h i).Lu
  obtain ⟨a5, h5⟩ := ultra_mat U fun i => (h i).Lxx
  obtain ⟨a6, h6⟩ := ultra_mat U fun i => (h i).Lxu
  obtain ⟨a7, h7⟩ := ultra_mat U fun i => (h i).Luu
  exact ⟨⟨a1, a2, a3, a4, a5, a6, a7⟩, h1, h2, h3, h4, h5, h6, h7⟩

theorem always_back (L : Lin ℝ n m) (T : Nat) (p : ℝ) :
    ∃ g : Arrays ℝ n (fun _ => m), Back (fun _ _ => true) (some p) true T L.d L.LxT L.LxxT (fun _ => 0) g := by
  have key : ∀ t (s : Arrays ℝ n (fun _ => m)), ∃ g, backLoop (fun _ _ => true) (some p) true L.d (fun _ => 0) t s = some g := by
    intro t
    induction t with
    | zero => exact fun s => ⟨s, rfl⟩
    | succ t ih =>
      intro s
      rw [backLoop]
      unfold backNode computeGains
      simp only [or_true, if_true]
      exact ih _
  obtain ⟨g, hg⟩ := key T { V := Function.update (fun _ => ⟨0, 0⟩) T (termValue (some p) true L.LxT L.LxxT 0),
                            out := fun _ => ⟨⟨0, 0, 0, 0, 0⟩, 0, 0, ⟨0, 0⟩⟩ }
  exact ⟨g, backwardPass_spec (s := { V := fun _ => ⟨0, 0⟩, out := fun _ => ⟨⟨0, 0, 0, 0, 0⟩, 0, 0, ⟨0, 0⟩⟩ }) hg⟩

/-- Uniformly over bounded derivatives: every large regularisation makes the backward pass succeed and the expected
improvement small. -/
theorem unif_reg {llt : ∀ m, Matrix (Fin m) (Fin m) ℝ → Bool} (hl : LltSound llt) (hlc : LltComplete llt) (T : Nat) (B : ℝ)
    {eps : ℝ} (heps : 0 < eps) : ∃ R > 0, ∀ L : Lin ℝ n m, Bounded T B L → SymmHess T L → ∀ p ≥ R,
      (∃ g, Back llt (some p) true T L.d L.LxT L.LxxT (fun _ => 0) g) ∧
      ∀ f g, Back llt (some p) true T L.d L.LxT L.LxxT f g →
        ∑ t ∈ Finset.range T, (g.out t).Q.Qu ⬝ᵥ (g.out t).k < eps := by
  by_contra hcon
  push Not at hcon
  have hc : ∀ k : ℕ, ∃ L : Lin ℝ n m, Bounded T B L ∧ SymmHess T L ∧ ∃ p ≥ (k : ℝ) + 1,
      (∃ g, Back llt (some p) true T L.d L.LxT L.LxxT (fun _ => 0) g) →
      ∃ f g, Back llt (some p) true T L.d L.LxT L.LxxT f g ∧
        eps ≤ ∑ t ∈ Finset.range T, (g.out t).Q.Qu ⬝ᵥ (g.out t).k := fun k => hcon _ (by positivity)
  choose L hB hH p hp hbad using hc
  let U : Ultrafilter ℕ := hyperfilter ℕ
  have hU : (U : Filter ℕ) ≤ atTop := by rw [← Nat.cofinite_eq_atTop]; exact hyperfilter_le_cofinite
  have hpt : Tendsto p U atTop := by
    have h1 : Tendsto p atTop atTop :=
      tendsto_atTop_mono (fun k => (by have := hp k; linarith : (k : ℝ) ≤ p k)) tendsto_natCast_atTop_atTop
    exact h1.mono_left hU
  choose G hG using fun k => always_back (L k) T (p k)
  have hd : ∀ t, ∃ d, t < T → DLim (U : Filter ℕ) (fun k => (L k).d t) d := fun t => by
    by_cases ht : t < T
    · obtain ⟨d, hd⟩ := ultra_derivs U fun k => (hB k).node t ht
      exact ⟨d, fun _ => hd⟩
    · exact ⟨⟨0, 0, 0, 0, 0, 0, 0⟩, fun h => absurd h ht⟩
  choose d hd using hd
  obtain ⟨lx, hlx⟩ := ultra_vec U fun k => (hB k).LxT
  obtain ⟨lxx, hlxx⟩ := ultra_mat U fun k => (hB k).LxxT
  obtain ⟨g0, hg0, hpsd⟩ := flat_back hlc (⟨d, lx, lxx⟩ : Lin ℝ n m) T (G 0)
  have hfacts := fun t (ht : t < T) => Back.facts hg0 hl (by simp [flat]) t ht (by simp [flat, flatD])
  have hu : ∀ t < T, (g0.out t).Q.Quu.det ≠ 0 := fun t ht => (unit_of_posdef (hfacts t ht).2.2.2.1).ne_zero
  have hN := back_lim' hpt (L0 := ⟨d, lx, lxx⟩) hd hlx hlxx hG hg0 hu
  have hsum : Tendsto (fun k => ∑ t ∈ Finset.range T, ((G k).out t).Q.Qu ⬝ᵥ ((G k).out t).k) U (𝓝 0) := by
    have h1 := tendsto_finsetSum (f := fun t k => (p k)⁻¹ • (((G k).out t).Q.Qu ⬝ᵥ (p k • ((G k).out t).k))) (x := (U : Filter ℕ))
      (Finset.range T) fun t ht => tendsto_invSmul' hpt
        (tendsto_dot' (hN t (Finset.mem_range.mp ht)).Qu (hN t (Finset.mem_range.mp ht)).k)
    rw [Finset.sum_const_zero] at h1
    refine h1.congr fun k => Finset.sum_congr rfl fun t _ => ?_
    have : p k ≠ 0 := by have := hp k; have : (0 : ℝ) ≤ k := by positivity
                         linarith
    rw [dotProduct_smul, smul_smul, inv_mul_cancel₀ this, one_smul]
  have hpdE : ∀ᶠ k in (U : Filter ℕ), ∀ t ∈ Finset.range T, ∀ v, v ≠ 0 → 0 < v ⬝ᵥ (((G k).out t).Q.Quu *ᵥ v) := by
    rw [Filter.eventually_all_finset]
    intro t ht
    have ht := Finset.mem_range.mp ht
    refine eventually_pd' hpt (hN t ht).Quu fun v => ?_
    rw [(hfacts t ht).1]
    simp only [actionValue]
    rw [addDiag_quad, add_mulVec, dotProduct_add, Matrix.mul_assoc, ← mulVec_mulVec, ← mulVec_mulVec, dot_tr',
      dotProduct_comm ((g0.V (t + 1)).Vxx *ᵥ _)]
    have := hpsd (t + 1) ht (((flat (⟨d, lx, lxx⟩ : Lin ℝ n m)).d t).Fu *ᵥ v)
    simp only [flat, flatD, zero_mulVec, dotProduct_zero, zero_add, Option.getD_some, one_mul] at this ⊢
    linarith
  obtain ⟨k, hk1, hk2⟩ := ((hsum.eventually (gt_mem_nhds heps)).and hpdE).exists
  have hback : Back llt (some (p k)) true T (L k).d (L k).LxT (L k).LxxT (fun _ => 0) (G k) := by
    refine ⟨(hG k).term, fun t ht => ?_, (hG k).val⟩
    have hn := (hG k).node t ht
    have hsym : ((G k).out t).Q.Quuᵀ = ((G k).out t).Q.Quu := by
      rw [(backNode_some hn).1]
      exact Quu_symm ((hH k).Luu t ht) ((hG k).symm (hH k).term (t + 1) ht)
    have hok := hlc _ _ hsym (hk2 t (Finset.mem_range.mpr ht))
    rw [(backNode_some hn).1] at hok
    rw [← hn]
    unfold backNode computeGains
    simp only [hok]
  obtain ⟨f, g, hg, hge⟩ := hbad k ⟨_, hback⟩
  have hun := Back.unique hg (hG k)
  rw [Finset.sum_congr rfl fun t ht => by rw [hun t (Finset.mem_range.mp ht)]] at hge
  exact absurd hk1 (not_lt.mpr hge)

end Verif.Nl
