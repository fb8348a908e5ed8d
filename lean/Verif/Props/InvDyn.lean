import Verif.Lemmas.InvDyn
import Verif.Props.FwdDyn

/-!
# C85: the constraints of inverse dynamics

The action models of inverse dynamics have the acceleration and the contact forces as control, and constraints "tau" (the joints
that no actuator drives need no torque) and, for every active contact, "_acc" (it has the desired acceleration).
-/

set_option linter.unusedSectionVars false

namespace Verif.Inv

open Matrix Verif.Fwd Filter Topology

variable {X : Type} {nv nc nu m : ℕ} {P : Plant X nv nc} {A : Act.Model ℝ X nv nu (nv + nv)} {S : Fin nv → Bool} {B : Mat nv nu}
  {nle : X → Vec nv} {a0 : X → Vec nc} {rest : X → X}
  {pinv : Matrix (Fin nv) (Fin nu ⊕ Fin nc) ℝ → Matrix (Fin nu ⊕ Fin nc) (Fin nv) ℝ}

/-- **C85 (no write beyond the residual).** With an actuation that drives as many joints as it has controls, `calc` and
`calcDiff` never write beyond the residual "tau", whose size is the number of joints minus that of controls. -/
theorem C85_defined (hA : Drives A S B) (hm : m + nu = nv) {d : Dat nv nc nu m} (hd : Reach P A rest pinv d)
    (on : Fin nc → Bool) (x : X) (u : Vec nv × Vec nc) :
    (invCalc P A on d x u).isSome ∧ (invDiff P A on d x u).isSome := by
  obtain ⟨e, he, -⟩ := invCalc_spec (P := P) hA hm hd.kept on x u.1 u.2
  obtain ⟨e', he', -⟩ := invDiff_spec (P := P) hA hm hd.kept on x u.1 u.2
  rw [he, he']
  exact ⟨rfl, rfl⟩

/-- **C85 (meaning of the constraints).** After `calc`, from data with any history and with no two active contacts on one joint,
the constraint "tau" holds exactly if some command produces the acceleration together with the forces of the active contacts;
that command is unique and is the one handed to the joint data. The constraint of an active contact is its acceleration; that
of an inactive one is always met. -/
theorem C85_motion_partial (hP : PlantOk P nle a0) (hA : Drives A S B) (hm : m + nu = nv) {d : Dat nv nc nu m}
    (hd : Reach P A rest pinv d) (on : Fin nc → Bool) (hL : Apart P.lay on) (x : X) (a : Vec nv) (f : Vec nc) :
    ∃ e, invCalc P A on d x (a, f) = some e ∧ Reach P A rest pinv e ∧ e.xout = a ∧ e.ja = a
      ∧ (e.r = 0 ↔ ∃ w, P.M x *ᵥ a + nle x = B *ᵥ w + (P.J x)ᵀ *ᵥ forces on f)
      ∧ (∀ w, P.M x *ᵥ a + nle x = B *ᵥ w + (P.J x)ᵀ *ᵥ forces on f → w = e.jtau)
      ∧ e.act.tau = B *ᵥ e.jtau
      ∧ (∀ i, on i = true → e.rc i = (P.J x *ᵥ a + a0 x) i) ∧ (∀ i, on i = false → e.rc i = 0) := by
  obtain ⟨e, he, -, h1, h2, -, -, h3, h4, h5, ⟨hlen, h6⟩, h7⟩ := invCalc_spec (P := P) hA hm hd.kept on x a f
  rw [seen_forces hL, hP.rnea] at h3
  have huniq : ∀ w, P.M x *ᵥ a + nle x = B *ᵥ w + (P.J x)ᵀ *ᵥ forces on f → w = e.jtau := by
    intro w hw
    rw [h4, h3, hw, add_sub_cancel_right, mulVec_mulVec, hA.orth, one_mulVec]
  refine ⟨e, he, hd.value on x (a, f) he, h1, h2, ⟨fun hr => ⟨e.jtau, ?_⟩, ?_⟩, huniq, h5, fun i hi => ?_, fun i hi => ?_⟩
  · have hz : ∀ k, S k = false → e.ptau k = 0 := by
      rw [← undriven_all]
      intro j
      have := h6 ⟨j.val, by omega⟩
      rw [hr] at this
      exact this.symm
    rw [h4, hA.onto _ hz, h3, sub_add_cancel]
  · rintro ⟨w, hw⟩
    funext j
    rw [h6 j, h3, hw, add_sub_cancel_right]
    exact (undriven_all (q := B *ᵥ w)).2 (fun k hk => hA.free w k hk) ⟨j.val, by omega⟩
  · rw [h7 i, if_pos hi, hP.acc]
  · rw [h7 i, if_neg (by simp [hi])]

/-- **C85 (inverse of the forward dynamics).** With all contacts active and independent, the constraints hold at an
acceleration and forces exactly if the forward dynamics of the same system gives them for some command; this command is
the one handed to the joint data. -/
theorem C85_forward_partial (hP : PlantOk P nle a0) (hA : Drives A S B) (hm : m + nu = nv) {d : Dat nv nc nu m}
    (hd : Reach P A rest pinv d) (hL : P.lay.Distinct) (x : X) (a : Vec nv) (f : Vec nc)
    (R : Rigid X nv) (C : Contacts X nv nc) (hC : ContactsOk C) (T : Fwd.Act X nv nu) (D : CDat nv nc nu)
    (hRM : R.M = P.M) (hRn : R.nle = nle) (hCJ : C.J = P.J) (hC0 : C.a0 = a0) (hT : ∀ w, T.tau x w = B *ᵥ w)
    (hreg : Regular (P.M x) (P.J x) 0) :
    ∃ e, invCalc P A (fun _ => true) d x (a, f) = some e
      ∧ (e.r = 0 ∧ e.rc = 0 ↔ ∃ w, (conCalc R C T {} D x w).xout = a ∧ (conCalc R C T {} D x w).lam = f)
      ∧ (∀ w, (conCalc R C T {} D x w).xout = a → (conCalc R C T {} D x w).lam = f → w = e.jtau) := by
  have hap : Apart P.lay (fun _ => true) := fun i k _ _ h => hL i k h
  obtain ⟨e, he, -, -, -, h1, h2, -, h3, -⟩ := C85_motion_partial hP hA hm hd (fun _ => true) hap x a f
  have hff : forces (fun _ => true) f = f := by funext i; simp [forces]
  rw [hff] at h1 h2
  have hin : inertia ({} : CMod nv).arm = 0 := by simp [inertia]
  have hfwd : ∀ w, (P.M x *ᵥ a + nle x = B *ᵥ w + (P.J x)ᵀ *ᵥ f ∧ P.J x *ᵥ a + a0 x = 0)
      ↔ ((conCalc R C T {} D x w).xout = a ∧ (conCalc R C T {} D x w).lam = f) := by
    intro w
    have hreg' : Regular (R.M x + diagonal (inertia ({} : CMod nv).arm)) (C.J x) ({} : CMod nv).damping := by
      rw [hin, hRM, hCJ, show (diagonal (0 : Vec nv) : Mat nv nv) = 0 from diagonal_zero, add_zero]
      exact hreg
    obtain ⟨⟨e1, e2⟩, e3, -⟩ := C81_contact R C hC T {} D x w hreg'
    rw [hin, zero_mul, add_zero, hRM, hRn, hCJ, hT] at e1
    rw [hCJ, hC0] at e2
    have hd0 : ({} : CMod nv).damping = 0 := rfl
    rw [hd0, zero_smul, neg_zero] at e2
    constructor
    · rintro ⟨g1, g2⟩
      have := e3 a f (by rw [hin, zero_mul, add_zero, hRM, hRn, hCJ, hT, g1])
        (by rw [hCJ, hC0, hd0, zero_smul, neg_zero, g2])
      exact ⟨this.1.symm, this.2.symm⟩
    · rintro ⟨g1, g2⟩
      rw [g1, g2] at e1
      rw [g1] at e2
      exact ⟨e1, e2⟩
  have hrc : e.rc = 0 ↔ P.J x *ᵥ a + a0 x = 0 := by
    have : e.rc = P.J x *ᵥ a + a0 x := funext fun i => h3 i rfl
    rw [this]
  refine ⟨e, he, ?_, fun w g1 g2 => h2 w ((hfwd w).2 ⟨g1, g2⟩).1⟩
  rw [h1, hrc]
  constructor
  · rintro ⟨⟨w, hw⟩, h0⟩
    exact ⟨w, (hfwd w).1 ⟨hw, h0⟩⟩
  · rintro ⟨w, hw⟩
    exact ⟨⟨w, ((hfwd w).2 hw).1⟩, ((hfwd w).2 hw).2⟩

theorem hasDerivAt_mul_zero {p q : ℕ} {A : ℝ → Mat p q} {y : ℝ → Vec q} {y' : Vec q} (hA : ContinuousAt A 0) (h0 : y 0 = 0)
    (hy : HasDerivAt y y' 0) : HasDerivAt (fun s => A s *ᵥ y s) (A 0 *ᵥ y') 0 := by
  rw [hasDerivAt_iff_tendsto_slope] at hy ⊢
  have hA' : Tendsto A (𝓝[≠] 0) (𝓝 (A 0)) := hA.mono_left nhdsWithin_le_nhds
  have ht : Tendsto (fun s => A s *ᵥ slope y 0 s) (𝓝[≠] 0) (𝓝 (A 0 *ᵥ y')) := by
    rw [tendsto_pi_nhds] at hy ⊢
    intro i
    simp only [mulVec, dotProduct]
    exact tendsto_finsetSum _ fun j _ => Tendsto.mul ((tendsto_pi_nhds.1 (tendsto_pi_nhds.1 hA' i)) j) (hy j)
  refine ht.congr fun s => ?_
  simp only [slope, vsub_eq_sub, sub_zero, h0, mulVec_zero, mulVec_smul]

theorem hasDerivAt_const_mul {p q : ℕ} (A : Mat p q) {y : ℝ → Vec q} {y' : Vec q} (hy : HasDerivAt y y' 0) :
    HasDerivAt (fun s => A *ᵥ y s) (A *ᵥ y') 0 := by
  have h := hasDerivAt_mul_zero (A := fun _ => A) continuousAt_const (sub_self (y 0)) (hy.sub_const (y 0))
  have h2 := h.add_const (A *ᵥ y 0)
  refine h2.congr_of_eventuallyEq (Eventually.of_forall fun s => ?_)
  simp [mulVec_sub]

/-- **C85 (Jacobians).** Along every curve of states with velocity `δ`, accelerations with derivative `α` and forces with
derivative `φ`, and whatever the histories of the data, `calc` followed by `calcDiff` gives the derivatives of the
acceleration, of the constraint "tau", of the commands, and of the constraints of the active contacts. -/
theorem C85_jacobians_partial (hP : PlantOk P nle a0) (hA : Drives A S B) (hm : m + nu = nv) (on : Fin nc → Bool)
    (hL : Apart P.lay on) (x : ℝ → X) (δ : Tan nv → ℝ) (hx : PlantAlong P nle x δ) (hsym : (P.M (x 0))ᵀ = P.M (x 0))
    (a : ℝ → Vec nv) (f : ℝ → Vec nc) (α : Vec nv) (φ : Vec nc) (ha : HasDerivAt a α 0) (hf : HasDerivAt f φ 0)
    (D : ℝ → Dat nv nc nu m) (hD : ∀ s, Reach P A rest pinv (D s)) :
    ∃ (E : ℝ → Dat nv nc nu m) (e : Dat nv nc nu m), (∀ s, invCalc P A on (D s) (x s) (a s, f s) = some (E s))
      ∧ invDiff P A on (E 0) (x 0) (a 0, f 0) = some e
      ∧ HasDerivAt (fun s => (E s).xout) (e.Fx *ᵥ δ + e.Fu *ᵥ Sum.elim α φ) 0
      ∧ HasDerivAt (fun s => (E s).r) (e.Rx *ᵥ δ + e.Ru *ᵥ Sum.elim α φ) 0
      ∧ HasDerivAt (fun s => (E s).jtau) (e.jdtau_dx *ᵥ δ + e.jdtau_du *ᵥ Sum.elim α φ) 0
      ∧ ∀ i, on i = true → HasDerivAt (fun s => (E s).rc i) (e.Cx i ⬝ᵥ δ + e.Cu i ⬝ᵥ Sum.elim α φ) 0 := by
  choose E hE hk hx1 hx2 hEf hEJ hEp hEj _ hEr hEc using
    fun s => invCalc_spec (P := P) hA hm (hD s).kept on (x s) (a s) (f s)
  obtain ⟨e, he, ⟨-, hFx, hFu⟩, -, -, -, -, hpd, hpM, hjx, hju, ⟨hlen, hRx, hRu⟩, hCx, hCu⟩ :=
    invDiff_spec (P := P) hA hm (hk 0) on (x 0) (a 0) (f 0)
  have hF : HasDerivAt (fun s => forces on (f s)) (forces on φ) 0 := by
    rw [hasDerivAt_pi] at hf ⊢
    intro i
    unfold forces
    by_cases hi : on i = true
    · simpa [hi] using hf i
    · simpa [hi] using hasDerivAt_const (0 : ℝ) (0 : ℝ)
  -- the torque
  have hτ : ∀ s, (E s).ptau = P.M (x s) *ᵥ a s + nle (x s) - (P.J (x s))ᵀ *ᵥ forces on (f s) := fun s => by
    rw [hEp, seen_forces hL, hP.rnea]
  rw [hEf 0, seen_forces hL] at hpd
  rw [mirror_symm hsym] at hpM
  have hdτ : HasDerivAt (fun s => (E s).ptau) (e.pdtau *ᵥ δ + P.M (x 0) *ᵥ α - (P.J (x 0))ᵀ *ᵥ forces on φ) 0 := by
    have d1 := hx.rnea (a 0) (forces on (f 0))
    have d2 := hasDerivAt_mul_zero hx.M (sub_self (a 0)) (ha.sub_const (a 0))
    have hJt : ContinuousAt (fun s => (P.J (x s))ᵀ) 0 :=
      (Continuous.matrix_transpose continuous_id).continuousAt.comp hx.J
    have d3 := hasDerivAt_mul_zero hJt (sub_self (forces on (f 0))) (hF.sub_const (forces on (f 0)))
    rw [hpd]
    refine ((d1.add d2).sub d3).congr_of_eventuallyEq (Eventually.of_forall fun s => ?_)
    simp only [Pi.add_apply, Pi.sub_apply, hτ s, mulVec_sub]
    abel
  have hJc : (-(E 0).Jcᵀ) *ᵥ φ = -((P.J (x 0))ᵀ *ᵥ forces on φ) := by
    rw [neg_mulVec, hEJ 0, rows_forces]
  refine ⟨E, e, hE, he, ?_, ?_, ?_, fun i hi => ?_⟩
  · rw [hFx, hFu, zero_mulVec, zero_add, fromCols_mulVec, zero_mulVec, one_mulVec, add_zero]
    exact ha.congr_of_eventuallyEq (Eventually.of_forall hx1)
  · rw [hasDerivAt_pi] at hdτ ⊢
    intro j
    have hj := hdτ ((undriven S)[j.val]'(by omega))
    have hv : (e.Rx *ᵥ δ + e.Ru *ᵥ Sum.elim α φ) j
        = (e.pdtau *ᵥ δ + P.M (x 0) *ᵥ α - (P.J (x 0))ᵀ *ᵥ forces on φ) ((undriven S)[j.val]'(by omega)) := by
      have e1 : (e.Ru *ᵥ Sum.elim α φ) j = ((fromCols e.pM (-(E 0).Jcᵀ) : Matrix (Fin nv) (Fin nv ⊕ Fin nc) ℝ)
          *ᵥ Sum.elim α φ) ((undriven S)[j.val]'(by omega)) := by
        simp only [mulVec, hRu j]
      have e2 : (e.Rx *ᵥ δ) j = (e.pdtau *ᵥ δ) ((undriven S)[j.val]'(by omega)) := by
        simp only [mulVec, hRx j]
      rw [fromCols_mulVec] at e1
      simp only [Sum.elim_comp_inl, Sum.elim_comp_inr] at e1
      rw [hJc, hpM] at e1
      rw [Pi.add_apply, e1, e2]
      simp only [Pi.add_apply, Pi.sub_apply, Pi.neg_apply]
      ring
    rw [hv]
    refine hj.congr_of_eventuallyEq (Eventually.of_forall fun s => ?_)
    obtain ⟨_, h⟩ := hEr s
    exact h j
  · have h := hasDerivAt_const_mul Bᵀ hdτ
    have hv : e.jdtau_dx *ᵥ δ + e.jdtau_du *ᵥ Sum.elim α φ
        = Bᵀ *ᵥ (e.pdtau *ᵥ δ + P.M (x 0) *ᵥ α - (P.J (x 0))ᵀ *ᵥ forces on φ) := by
      have hN : (-Bᵀ * (E 0).Jcᵀ) *ᵥ φ = -(Bᵀ *ᵥ ((P.J (x 0))ᵀ *ᵥ forces on φ)) := by
        rw [← mulVec_mulVec, neg_mulVec, hEJ 0, rows_forces]
      rw [hjx, hju, hpM, fromCols_mulVec]
      simp only [Sum.elim_comp_inl, Sum.elim_comp_inr]
      rw [hN, mulVec_sub, mulVec_add, mulVec_mulVec, mulVec_mulVec, mulVec_mulVec]
      abel
    rw [hv]
    refine h.congr_of_eventuallyEq (Eventually.of_forall fun s => ?_)
    exact hEj s
  · have d1 := hasDerivAt_pi.1 (hx.acc (a 0)) i
    have d2 := hasDerivAt_pi.1 (hasDerivAt_mul_zero hx.J (sub_self (a 0)) (ha.sub_const (a 0))) i
    have hv : e.Cx i ⬝ᵥ δ + e.Cu i ⬝ᵥ Sum.elim α φ = (P.da0 (x 0) (a 0) *ᵥ δ) i + (P.J (x 0) *ᵥ α) i := by
      rw [hCx i, hCu i, if_pos hi, if_pos hi, sumElim_dotProduct_sumElim, zero_dotProduct, add_zero]
      rfl
    rw [hv]
    refine (d1.add d2).congr_of_eventuallyEq (Eventually.of_forall fun s => ?_)
    simp only [Pi.add_apply, hEc s i, if_pos hi, hP.acc, mulVec_sub, Pi.sub_apply]
    ring

/-- With all contacts active the rows of `quasiStatic` are in their places. -/
theorem rank_all (i : Fin nc) : rank (fun _ => true) i = i.val := by
  have h1 : rank (fun _ => true) i = (Finset.univ.filter fun k : Fin nc => k < i).card := by
    unfold rank
    rw [← List.toFinset_card_of_nodup ((List.nodup_finRange nc).filter _)]
    congr 1
    ext k
    simp
  rw [h1, ← Fin.card_Iio i]
  congr 1
  ext k
  simp

/-- **C85 (quasi-static).** If some command and forces balance gravity at the configuration at rest and all contacts are active,
`quasiStatic` returns no acceleration and forces with which the constraint "tau" holds at rest. -/
theorem C85_static_partial (hP : PlantOk P nle a0) (hA : Drives A S B) (hm : m + nu = nv) {d : Dat nv nc nu m}
    (hd : Reach P A rest pinv d) (hL : P.lay.Distinct) (x : X)
    (hpinv : let G := fromCols B (P.J (rest x))ᵀ; G * pinv G * G = G)
    (hbal : ∃ w l, B *ᵥ w + (P.J (rest x))ᵀ *ᵥ l = nle (rest x)) :
    ∃ d' f e, invStatic P A (fun _ => true) rest pinv d x = some (d', (0, f))
      ∧ invCalc P A (fun _ => true) d' (rest x) (0, f) = some e ∧ e.r = 0 := by
  obtain ⟨w, l, hbal⟩ := hbal
  have hw : writeRows (fun i : Fin nc => !true) (fun i => P.J (rest x) i)
      (fun i => d.Jc i) = some fun i => P.J (rest x) i := by
    have hl : (List.finRange nc).filter (fun _ => !!true) = List.finRange nc := by simp
    have hlen : ((List.finRange nc).filter (fun _ => !!true)).length = nc := by simp
    rw [writeRows_full _ _ _ hlen]
    congr 1
    funext j
    congr 1
    simp
  obtain ⟨ops, ho⟩ := hd.kept.1
  have hdu : (A.calcDiff (A.eval d.act (rest x) 0) (rest x) 0).dtauDu = B := by
    have : A.calcDiff (A.eval d.act (rest x) 0) (rest x) 0
        = A.run (ops ++ [.eval (rest x) 0] ++ [.calcDiff (rest x) 0]) := by
      rw [← run_snoc, ← run_snoc, ← ho]; rfl
    rw [this]
    exact hA.du _
  set G : Matrix (Fin nv) (Fin nu ⊕ Fin nc) ℝ := fromCols B (P.J (rest x))ᵀ with hG
  set z := pinv G *ᵥ nle (rest x) with hz
  have hg : nle (rest x) = G *ᵥ Sum.elim w l := by
    rw [hG, fromCols_mulVec]
    exact hbal.symm
  have hGz : G *ᵥ z = nle (rest x) := by
    rw [hz, hg, mulVec_mulVec, mulVec_mulVec, hpinv]
  have hst : ∃ d', invStatic P A (fun _ => true) rest pinv d x = some (d', (0, fun i => z (Sum.inr i))) := by
    have hof : (of fun i => P.J (rest x) i : Mat nc nv) = P.J (rest x) := rfl
    have hr0 : P.rnea (rest x) 0 0 = nle (rest x) := by rw [hP.rnea, mulVec_zero, mulVec_zero, zero_add, sub_zero]
    simp only [invStatic, hw, hdu, hof, ← hG, hr0, ← hz, Option.some.injEq, Prod.mk.injEq, exists_and_left, true_and,
      exists_eq', and_true, exists_and_right]
    funext i
    rw [dif_pos (by rw [rank_all]; exact i.isLt), if_pos trivial]
    congr 2
    exact Fin.ext (rank_all i)
  obtain ⟨d', hd'⟩ := hst
  have hap : Apart P.lay (fun _ => true) := fun i k _ _ h => hL i k h
  obtain ⟨e, he, -, -, -, h1, -⟩ := C85_motion_partial hP hA hm (hd.static (fun _ => true) x hd') (fun _ => true) hap (rest x)
    0 (fun i => z (Sum.inr i))
  refine ⟨d', _, e, hd', he, h1.2 ⟨fun i => z (Sum.inl i), ?_⟩⟩
  have hff : forces (fun _ => true) (fun i => z (Sum.inr i)) = fun i : Fin nc => z (Sum.inr i) := by
    funext i; simp [forces]
  rw [hff, mulVec_zero, zero_add, ← hGz, hG, fromCols_mulVec]
  rfl

/-! ### Instances -/

namespace Demo

/-- A cart (driven by nothing) and a motor: two joints, the mass matrix is the identity, the first joint is pulled with `-q²`,
the second carries a unit load; one contact on the first joint, with drift `q`. -/
noncomputable def cart : Plant ℝ 2 1 where
  M _ := 1
  rnea q a l := (1 : Mat 2 2) *ᵥ a + ![q ^ 2, 1] - (of ![![1, 0]] : Mat 1 2)ᵀ *ᵥ l
  rneaDx q _ _ := of fun k t => if k = 0 ∧ t = Sum.inl 0 then 2 * q else 0
  dtau _ _ := 0
  J _ := of ![![1, 0]]
  acc q a := (of ![![1, 0]] : Mat 1 2) *ᵥ a + ![q]
  da0 _ _ := of fun _ t => if t = Sum.inl 0 then 1 else 0
  lay := ⟨fun _ => 0, fun _ => 0⟩

theorem cart_ok : PlantOk cart (fun q => ![q ^ 2, 1]) (fun q => ![q]) := ⟨fun _ _ _ => rfl, fun _ _ => rfl⟩

/-- The curve of positions with unit velocity. -/
theorem cart_along : PlantAlong cart (fun q => ![q ^ 2, 1]) (fun s => 3 + s) (Sum.elim ![1, 0] 0) where
  M := continuousAt_const
  J := continuousAt_const
  rnea a l := by
    have h : HasDerivAt (fun s : ℝ => ![(3 + s) ^ 2, 1]) ![6, 0] 0 := by
      rw [hasDerivAt_pi]
      intro k
      fin_cases k
      · have h := ((hasDerivAt_id (0 : ℝ)).const_add 3).pow 2
        have e : ((2 : ℕ) * (3 + id (0 : ℝ)) ^ (2 - 1) * 1 : ℝ) = 6 := by norm_num
        rw [e] at h
        exact h
      · simpa using hasDerivAt_const (0 : ℝ) (1 : ℝ)
    have h2 := (h.const_add ((1 : Mat 2 2) *ᵥ a)).sub_const ((of ![![1, 0]] : Mat 1 2)ᵀ *ᵥ l)
    refine hasDerivAt_congr h2 ?_
    ext k
    fin_cases k <;> simp [cart, mulVec, dotProduct] <;> norm_num
  acc a := by
    have h : HasDerivAt (fun s : ℝ => ![3 + s]) ![1] 0 := by
      rw [hasDerivAt_pi]
      intro k
      simpa using (hasDerivAt_id (0 : ℝ)).const_add 3
    have h2 := h.const_add ((of ![![1, 0]] : Mat 1 2) *ᵥ a)
    refine hasDerivAt_congr h2 ?_
    ext k
    fin_cases k
    simp [cart, mulVec, dotProduct]

theorem cart_apart (on : Fin 1 → Bool) : Apart cart.lay on := fun _ _ _ _ _ => rfl

end Demo

/-- The hypotheses of the theorems are met by the cart with a floating base, for any history. -/
example (d : Dat 2 1 (2 - 1) 1) (pinv : Matrix (Fin 2) (Fin 1 ⊕ Fin 1) ℝ → Matrix (Fin 1 ⊕ Fin 1) (Fin 2) ℝ)
    (hd : Reach Demo.cart (Act.floating 2 1) id pinv d) (a : Vec 2) (f : Vec 1) :
    ∃ e, invCalc Demo.cart (Act.floating 2 1) (fun _ => true) d 3 (a, f) = some e
      ∧ (e.r = 0 ↔ ∃ w, a + ![9, 1] = Act.Spec.select 2 1 *ᵥ w + (of ![![1, 0]] : Mat 1 2)ᵀ *ᵥ f)
      ∧ e.rc 0 = a 0 + 3 := by
  obtain ⟨e, he, -, -, -, h1, -, -, h2, -⟩ := C85_motion_partial Demo.cart_ok (floating_drives (nfb := 1) (by norm_num))
    (by norm_num) hd (fun _ => true) (Demo.cart_apart _) 3 a f
  refine ⟨e, he, ?_, ?_⟩
  · rw [h1]
    have : forces (fun _ => true) f = f := by funext i; simp [forces]
    rw [this]
    have : (Demo.cart.M 3 : Mat 2 2) *ᵥ a + ![(3 : ℝ) ^ 2, 1] = a + ![9, 1] := by
      simp only [Demo.cart, one_mulVec]
      norm_num
    rw [this]
    rfl
  · rw [h2 0 rfl]
    simp [Demo.cart, mulVec, dotProduct]

/-- The hypotheses of `C85_forward_partial` are met: the same system as a forward dynamics. -/
example (d : Dat 2 1 (2 - 1) 1) (pinv : Matrix (Fin 2) (Fin 1 ⊕ Fin 1) ℝ → Matrix (Fin 1 ⊕ Fin 1) (Fin 2) ℝ)
    (hd : Reach Demo.cart (Act.floating 2 1) id pinv d) (C : Contacts ℝ 2 1) (hC : ContactsOk C) (D : CDat 2 1 (2 - 1))
    (R : Rigid ℝ 2) (a : Vec 2) (f : Vec 1) :
    let R' : Rigid ℝ 2 := { R with M := Demo.cart.M, nle := fun q => ![q ^ 2, 1] }
    let C' : Contacts ℝ 2 1 := { C with J := Demo.cart.J, a0 := fun q => ![q] }
    let T : Fwd.Act ℝ 2 (2 - 1) := ⟨fun _ w => Act.Spec.select 2 1 *ᵥ w, fun _ _ => 0, fun _ _ => Act.Spec.select 2 1⟩
    ∃ e, invCalc Demo.cart (Act.floating 2 1) (fun _ => true) d 3 (a, f) = some e
      ∧ (e.r = 0 ∧ e.rc = 0 ↔ ∃ w, (conCalc R' C' T {} D 3 w).xout = a ∧ (conCalc R' C' T {} D 3 w).lam = f) := by
  intro R' C' T
  have hreg : Regular (Demo.cart.M 3) (Demo.cart.J 3) 0 := by
    refine ⟨⟨transpose_one, fun v hv => ?_⟩, le_rfl, Or.inr fun q hq => ?_⟩
    · have : Demo.cart.M 3 *ᵥ v = v := one_mulVec v
      rw [this]
      exact (Finset.sum_nonneg fun i _ => mul_self_nonneg (v i)).lt_of_ne
        fun h => hv (dotProduct_self_eq_zero.1 h.symm)
    · have := congrFun hq 0
      funext i
      fin_cases i
      simpa [Demo.cart, mulVec, dotProduct] using this
  obtain ⟨e, he, h, -⟩ := C85_forward_partial Demo.cart_ok (floating_drives (nfb := 1) (by norm_num)) (by norm_num) hd
    (fun _ _ _ => rfl) 3 a f R' C' ⟨hC.fwd, hC.kinv⟩ T D rfl rfl rfl rfl (fun _ => rfl) hreg
  exact ⟨e, he, h⟩

/-- The hypotheses of `C85_jacobians_partial` are met, with changing accelerations and forces. -/
example (pinv : Matrix (Fin 2) (Fin 1 ⊕ Fin 1) ℝ → Matrix (Fin 1 ⊕ Fin 1) (Fin 2) ℝ) :
    ∃ (E : ℝ → Dat 2 1 (2 - 1) 1) (e : Dat 2 1 (2 - 1) 1),
      (∀ s, invCalc Demo.cart (Act.floating 2 1) (fun _ => true) (create (Act.floating 2 1 : Act.Model ℝ ℝ 2 (2 - 1) (2 + 2))) (3 + s)
        (fun _ => s, fun _ => 2 * s) = some (E s))
      ∧ invDiff Demo.cart (Act.floating 2 1) (fun _ => true) (E 0) (3 + 0) (fun _ => 0, fun _ => 2 * 0) = some e
      ∧ HasDerivAt (fun s => (E s).r) (e.Rx *ᵥ Sum.elim ![1, 0] 0 + e.Ru *ᵥ Sum.elim (fun _ => 1) (fun _ => 2)) 0 := by
  obtain ⟨E, e, h1, h2, -, h3, -⟩ := C85_jacobians_partial (rest := id) (pinv := pinv) Demo.cart_ok
    (floating_drives (nfb := 1) (by norm_num)) (m := 1) (by norm_num) (fun _ => true) (Demo.cart_apart _) _ _ Demo.cart_along
    transpose_one (fun s _ => s) (fun s _ => 2 * s) (fun _ => 1) (fun _ => 2)
    (hasDerivAt_pi.2 fun _ => hasDerivAt_id 0)
    (hasDerivAt_pi.2 fun _ => by simpa using (hasDerivAt_id (0 : ℝ)).const_mul 2) (fun _ => create (Act.floating 2 1))
    (fun _ => .create)
  exact ⟨E, e, h1, h2, h3⟩

/-! ### What the code does not do -/

/-- **C85 (inactive contacts).** The constraint of an inactive contact is constantly zero, but `calcDiff` reports the identity as
its derivative with respect to the force: for every state, control and history. -/
theorem C85_inactive_counterexample (hA : Drives A S B) (hm : m + nu = nv) {d : Dat nv nc nu m} (hd : Reach P A rest pinv d)
    (on : Fin nc → Bool) (i : Fin nc) (hi : on i = false) (x : X) (a : Vec nv) (f : Vec nc) :
    (∀ y b g e, invCalc P A on d y (b, g) = some e → e.rc i = 0)
    ∧ ∃ e e', invCalc P A on d x (a, f) = some e ∧ invDiff P A on e x (a, f) = some e'
      ∧ e'.Cu i ⬝ᵥ Sum.elim 0 (Pi.single i 1) = 1 := by
  constructor
  · intro y b g e he
    obtain ⟨e', he', -, -, -, -, -, -, -, -, -, h⟩ := invCalc_spec (P := P) hA hm hd.kept on y b g
    rw [he, Option.some.injEq] at he'
    rw [he', h i]
    simp [hi]
  · obtain ⟨e, he, hk, -⟩ := invCalc_spec (P := P) hA hm hd.kept on x a f
    obtain ⟨e', he', -, -, -, -, -, -, -, -, -, -, -, h⟩ := invDiff_spec (P := P) hA hm hk on x a f
    refine ⟨e, e', he, he', ?_⟩
    rw [h i, if_neg (by simp [hi]), sumElim_dotProduct_sumElim]
    simp

namespace Demo

/-- One joint under a load, with two contacts that push it. -/
noncomputable def props (load : ℝ) (L : Layout 2) : Plant Unit 1 2 where
  M _ := 1
  rnea _ a l := (1 : Mat 1 1) *ᵥ a + ![load] - (of ![![1], ![1]] : Mat 2 1)ᵀ *ᵥ l
  rneaDx _ _ _ := 0
  dtau _ _ := 0
  J _ := of ![![1], ![1]]
  acc _ a := (of ![![1], ![1]] : Mat 2 1) *ᵥ a + 0
  da0 _ _ := 0
  lay := L

theorem props_ok (load : ℝ) (L : Layout 2) : PlantOk (props load L) (fun _ => ![load]) (fun _ => 0) :=
  ⟨fun _ _ _ => rfl, fun _ _ => rfl⟩

/-- The pseudo-inverse of a row. -/
noncomputable def rowInv (G : Matrix (Fin 1) (Fin (1 - 1) ⊕ Fin 2) ℝ) : Matrix (Fin (1 - 1) ⊕ Fin 2) (Fin 1) ℝ :=
  ((G * Gᵀ) 0 0)⁻¹ • Gᵀ

/-- It satisfies the four equations of Penrose. -/
theorem rowInv_penrose (G : Matrix (Fin 1) (Fin (1 - 1) ⊕ Fin 2) ℝ) :
    G * rowInv G * G = G ∧ rowInv G * G * rowInv G = rowInv G ∧ (G * rowInv G)ᵀ = G * rowInv G
      ∧ (rowInv G * G)ᵀ = rowInv G * G := by
  have h1 : G * Gᵀ = ((G * Gᵀ) 0 0) • (1 : Mat 1 1) := by
    ext i j
    fin_cases i; fin_cases j
    simp
  by_cases h0 : (G * Gᵀ) 0 0 = 0
  · have hG : G = 0 := by
      have h2 : G 0 ⬝ᵥ G 0 = 0 := h0
      ext i j
      fin_cases i
      exact congrFun (dotProduct_self_eq_zero.1 h2) j
    subst hG
    simp [rowInv]
  · have h2 : G * rowInv G = 1 := by
      rw [rowInv, Matrix.mul_smul, h1, smul_smul]
      simp [h0]
    refine ⟨by rw [h2, Matrix.one_mul], by rw [Matrix.mul_assoc, h2, Matrix.mul_one], by rw [h2, transpose_one], ?_⟩
    rw [rowInv, Matrix.smul_mul, transpose_smul, transpose_mul, transpose_transpose]

end Demo

/-- The hypotheses of `C85_static_partial` are met: two contacts on different joints hold a load. -/
example (d : Dat 1 2 (1 - 1) 1)
    (hd : Reach (Demo.props 2 ⟨fun i => i, fun i => i⟩) (Act.floating 1 1) id Demo.rowInv d) :
    ∃ d' f e, invStatic (Demo.props 2 ⟨fun i => i, fun i => i⟩) (Act.floating 1 1) (fun _ => true) id Demo.rowInv d ()
        = some (d', (0, f))
      ∧ invCalc (Demo.props 2 ⟨fun i => i, fun i => i⟩) (Act.floating 1 1) (fun _ => true) d' () (0, f) = some e ∧ e.r = 0 :=
  C85_static_partial (Demo.props_ok _ _) (floating_drives le_rfl) (by norm_num) hd (fun _ _ h => h)
    () (Demo.rowInv_penrose _).1
    ⟨0, ![2, 0], by
      ext i
      fin_cases i
      simp [Demo.props, mulVec, dotProduct]⟩

/-- **C85 (contacts on one joint).** Two contacts on the same joint, each carrying half of the load: the motion is possible, but
the constraint "tau" is violated. -/
theorem C85_same_joint_counterexample :
    let P := Demo.props 2 ⟨fun i => i, fun _ => 0⟩
    let A : Act.Model ℝ Unit 1 (1 - 1) (1 + 1) := Act.floating 1 1
    P.M () *ᵥ 0 + ![2] = (Act.Spec.select 1 1 : Mat 1 (1 - 1)) *ᵥ 0 + (P.J ())ᵀ *ᵥ ![1, 1]
    ∧ ∃ e : Dat 1 2 (1 - 1) 1, invCalc P A (fun _ => true) (create A) () (0, ![1, 1]) = some e ∧ e.r 0 = 1 := by
  intro P A
  constructor
  · ext i
    fin_cases i
    simp [P, Demo.props, mulVec, dotProduct]
    norm_num
  · obtain ⟨e, he, -, -, -, -, -, h3, -, -, ⟨hlen, h6⟩, -⟩ := invCalc_spec (P := P) (m := 1) (floating_drives (X := Unit) le_rfl)
      (by norm_num) (Reach.kept (P := P) (rest := id) (pinv := Demo.rowInv) .create) (fun _ => true) () 0 ![1, 1]
    refine ⟨e, he, ?_⟩
    rw [h6 0, h3]
    have h0 : ∀ k : Fin 1, k = 0 := fun k => Subsingleton.elim _ _
    rw [h0 (_[_])]
    have hs : P.lay.seen (fun _ => true) (forces (fun _ => true) ![1, 1]) = ![0, 1] := by
      funext i
      fin_cases i
      · simp only [Layout.seen, P, Demo.props, forces]
        rw [if_neg]
        · rfl
        · rintro ⟨-, h⟩
          have := h 1 trivial trivial
          simp at this
      · simp only [Layout.seen, P, Demo.props, forces]
        rw [if_pos]
        · rfl
        · refine ⟨trivial, fun k _ _ => ?_⟩
          fin_cases k <;> simp
    rw [hs]
    have e1 : ((of ![![1], ![1]] : Mat 2 1)ᵀ *ᵥ ![0, 1]) 0 = 1 := by simp [mulVec, dotProduct]
    change ((1 : Mat 1 1) *ᵥ 0 + ![2] - (of ![![1], ![1]] : Mat 2 1)ᵀ *ᵥ ![0, 1] : Vec 1) 0 = 1
    rw [Pi.sub_apply, e1]
    simp
    norm_num

/-- **C85 (quasi-static with an inactive contact).** After a `calc` with both contacts active, `quasiStatic` with the first one
switched off uses the Jacobian row left by that call: it asks the remaining contact for half of the load only, and
the constraint "tau" is violated, though the contact could hold the load. -/
theorem C85_static_counterexample :
    let P := Demo.props 1 ⟨fun i => i, fun i => i⟩
    let A : Act.Model ℝ Unit 1 (1 - 1) (1 + 1) := Act.floating 1 1
    ∃ d d' e : Dat 1 2 (1 - 1) 1, invCalc P A (fun _ => true) (create A) () (0, 0) = some d
      ∧ invStatic P A ![false, true] id Demo.rowInv d () = some (d', (0, ![0, 1 / 2]))
      ∧ invCalc P A ![false, true] d' () (0, ![0, 1 / 2]) = some e ∧ e.r 0 = 1 / 2
      ∧ ∃ e' : Dat 1 2 (1 - 1) 1, invCalc P A ![false, true] d' () (0, ![0, 1]) = some e' ∧ e'.r = 0 := by
  intro P A
  have hA := floating_drives (nv := 1) (nfb := 1) (X := Unit) le_rfl
  have hap : Apart P.lay ![false, true] := fun i k _ _ h => h
  obtain ⟨d, hd, hk, -, -, -, hJ, -⟩ := invCalc_spec (P := P) (m := 1) hA
    (by norm_num) (Reach.kept (P := P) (rest := id) (pinv := Demo.rowInv) .create) (fun _ => true) () 0 0
  have hrd : Reach P A id Demo.rowInv d := .value _ _ _ .create hd
  have hw : writeRows (fun i => !(![false, true] : Fin 2 → Bool) i) (fun i => P.J (id ()) i) (fun i => d.Jc i)
      = some fun _ => ![1] := by
    rw [hJ]
    simp [writeRows, List.finRange_succ, writeStep]
    funext i
    fin_cases i <;> rfl
  have hdu : (A.calcDiff (A.eval d.act (id ()) 0) (id ()) 0).dtauDu = Act.Spec.select 1 1 := by
    obtain ⟨ops, ho⟩ := hk.1
    have : A.calcDiff (A.eval d.act (id ()) 0) (id ()) 0 = A.run (ops ++ [.eval () 0] ++ [.calcDiff () 0]) := by
      rw [← run_snoc, ← run_snoc, ← ho]; rfl
    rw [this]
    exact hA.du _
  have hst : ∃ d', invStatic P A ![false, true] id Demo.rowInv d () = some (d', (0, ![0, 1 / 2])) := by
    simp only [invStatic, hw, hdu, Option.some.injEq, Prod.mk.injEq, exists_and_left, true_and,
      exists_eq', exists_and_right]
    have hr0 : P.rnea (id ()) 0 0 = ![1] := by
      rw [(Demo.props_ok 1 _).rnea, mulVec_zero, mulVec_zero, zero_add, sub_zero]
    have hz : ∀ k, (Demo.rowInv (fromCols (Act.Spec.select 1 1 : Mat 1 (1 - 1)) (of fun _ => ![1] : Mat 2 1)ᵀ) *ᵥ ![1]) (Sum.inr k)
        = 1 / 2 := by
      intro k
      simp [Demo.rowInv, mulVec, dotProduct, mul_apply]
    rw [hr0]
    funext i
    fin_cases i
    · rfl
    · have h : rank ![false, true] 1 < 2 := by decide
      change (if h : rank ![false, true] 1 < 2 then _ else (0 : ℝ)) = 1 / 2
      rw [dif_pos h]
      exact hz _
  obtain ⟨d', hd'⟩ := hst
  have hrd' : Reach P A id Demo.rowInv d' := hrd.static _ _ hd'
  obtain ⟨e, he, -, -, -, -, -, h3, -, -, ⟨hlen, h6⟩, -⟩ := invCalc_spec (P := P) (m := 1) hA
    (by norm_num) hrd'.kept ![false, true] () 0 ![0, 1 / 2]
  obtain ⟨e', he', -, -, -, h1, -⟩ := C85_motion_partial (m := 1) (Demo.props_ok _ _) hA (by norm_num) hrd' ![false, true] hap () 0 ![0, 1]
  refine ⟨d, d', e, hd, hd', he, ?_, e', he', h1.2 ⟨0, ?_⟩⟩
  · have h0 : ∀ k : Fin 1, k = 0 := fun k => Subsingleton.elim _ _
    rw [h6 0, h3, h0 (_[_]), seen_forces hap]
    change ((1 : Mat 1 1) *ᵥ 0 + ![1] - (of ![![1], ![1]] : Mat 2 1)ᵀ *ᵥ forces ![false, true] ![0, 1 / 2] : Vec 1) 0 = 1 / 2
    rw [Pi.sub_apply]
    have e1 : ((of ![![1], ![1]] : Mat 2 1)ᵀ *ᵥ forces ![false, true] ![0, 1 / 2]) 0 = 1 / 2 := by
      simp [mulVec, dotProduct, forces]
    rw [e1]
    simp
    norm_num
  · ext i
    fin_cases i
    simp [Demo.props, mulVec, dotProduct, forces]

/-! ### Thrusters -/

namespace Demo

/-- A free body with unit mass matrix and nothing else. -/
noncomputable def body : Plant Unit (6 + 0) 0 where
  M _ := 1
  rnea _ a l := (1 : Mat (6 + 0) (6 + 0)) *ᵥ a + 0 - (0 : Mat 0 (6 + 0))ᵀ *ᵥ l
  rneaDx _ _ _ := 0
  dtau _ _ := 0
  J _ := 0
  acc _ a := (0 : Mat 0 (6 + 0)) *ᵥ a + 0
  da0 _ _ := 0
  lay := ⟨fun _ => 0, fun _ => 0⟩

theorem body_ok : PlantOk body (fun _ => 0) (fun _ => 0) := ⟨fun _ _ _ => rfl, fun _ _ => rfl⟩

theorem body_rnea (a : Vec (6 + 0)) (l : Vec 0) : body.rnea () a l = a := by
  change (1 : Mat (6 + 0) (6 + 0)) *ᵥ a + 0 - (0 : Mat 0 (6 + 0))ᵀ *ᵥ l = a
  rw [one_mulVec, transpose_zero, zero_mulVec, sub_zero]
  exact add_zero a

/-- A thruster that pushes along the vertical axis, at distance `l` from the centre. -/
noncomputable def jet (l : ℝ) : Act.Thruster ℝ := ⟨1, ![l, 0, 0], 0, true⟩

/-- Pseudo-inverse of a matrix of rank one. -/
noncomputable def oneInv {nt : ℕ} (W : Mat (6 + 0) (0 + nt)) : Mat (0 + nt) (6 + 0) := (trace (Wᵀ * W))⁻¹ • Wᵀ

/-- The equations of Penrose. -/
def Penrose {p q : ℕ} (W : Mat p q) (V : Mat q p) : Prop :=
  W * V * W = W ∧ V * W * V = V ∧ (W * V)ᵀ = W * V ∧ (V * W)ᵀ = V * W

theorem penrose_one {nt : ℕ} {W : Mat (6 + 0) (0 + nt)} (h0 : trace (Wᵀ * W) ≠ 0) (h : W * Wᵀ * W = trace (Wᵀ * W) • W) :
    Penrose W (oneInv W) := by
  set s := trace (Wᵀ * W) with hs
  have h' : Wᵀ * W * Wᵀ = s • Wᵀ := by
    have := congrArg transpose h
    rwa [transpose_mul, transpose_mul, transpose_transpose, transpose_smul, ← Matrix.mul_assoc] at this
  refine ⟨?_, ?_, ?_, ?_⟩
  · rw [oneInv, ← hs, Matrix.mul_smul, Matrix.smul_mul, h, smul_smul, inv_mul_cancel₀ h0, one_smul]
  · rw [oneInv, ← hs, Matrix.smul_mul, Matrix.smul_mul, Matrix.mul_smul, h', smul_smul, smul_smul]
    congr 1
    field_simp
  · rw [oneInv, Matrix.mul_smul, transpose_smul, transpose_mul, transpose_transpose]
  · rw [oneInv, Matrix.smul_mul, transpose_smul, transpose_mul, transpose_transpose]

theorem jet_trace : trace ((of fun k _ => ![0, 0, 1, 0, -1, 0] k : Mat (6 + 0) (0 + 1))ᵀ
    * (of fun k _ => ![0, 0, 1, 0, -1, 0] k : Mat (6 + 0) (0 + 1))) = 2 := by
  simp [trace, mul_apply, Fin.sum_univ_succ]
  norm_num

theorem twin_trace : trace ((of fun k _ => ![0, 0, 1, 0, 0, 0] k : Mat (6 + 0) (0 + 2))ᵀ
    * (of fun k _ => ![0, 0, 1, 0, 0, 0] k : Mat (6 + 0) (0 + 2))) = 2 := by
  simp [trace, mul_apply, Fin.sum_univ_succ]

/-- What a thruster adds. -/
theorem addJet {nt : ℕ} (W : Mat (6 + 0) (0 + nt)) (l : ℝ) (i : ℕ) (k : Fin (6 + 0)) (c : Fin (0 + nt)) :
    Act.addThruster W (jet l) i k c = W k c + if c.val = i then ![0, 0, 1, 0, -l, 0] k else 0 := by
  have hf : (1 : Matrix (Fin 3) (Fin 3) ℝ) *ᵥ ![0, 0, 1] = ![0, 0, 1] := one_mulVec _
  have hx : crossProduct ![l, 0, 0] ![0, 0, 1] = ![0, -l, 0] := by
    rw [cross_apply]
    simp
  simp only [Act.addThruster, jet, hf, hx, if_true]
  by_cases hc : c.val = i
  · fin_cases k <;> simp [Act.addTop, Act.addMid, hc]
  · simp [Act.addTop, Act.addMid, hc]

/-- The effect of one thruster off the centre. -/
theorem jet_W : (Act.Thr.make oneInv [jet 1] : Act.Thr ℝ 0 1).W = of fun k _ => ![0, 0, 1, 0, -1, 0] k := by
  have h : (Act.Thr.make oneInv [jet 1] : Act.Thr ℝ 0 1).W = Act.addThruster (0 : Mat (6 + 0) (0 + 1)) (jet 1) 0 := by
    have hW : (fun (r : Fin (6 + 0)) (c : Fin (0 + 1)) => if 1 < 0 + 1 ∧ (6 + 0) - 0 ≤ r.val ∧ (0 + 1) - 0 ≤ c.val
        ∧ r.val - ((6 + 0) - 0) = c.val - ((0 + 1) - 0) then (1 : ℝ) else 0) = fun _ _ => 0 := by
      funext r c; rw [if_neg]; omega
    simp only [Act.Thr.make, hW]
    rfl
  rw [h]
  ext k c
  rw [addJet]
  simp

/-- The effect of two thrusters at the centre. -/
theorem twin_W : (Act.Thr.make oneInv [jet 0, jet 0] : Act.Thr ℝ 0 2).W = of fun k _ => ![0, 0, 1, 0, 0, 0] k := by
  have h : (Act.Thr.make oneInv [jet 0, jet 0] : Act.Thr ℝ 0 2).W
      = Act.addThruster (Act.addThruster (0 : Mat (6 + 0) (0 + 2)) (jet 0) 0) (jet 0) 1 := by
    have hW : (fun (r : Fin (6 + 0)) (c : Fin (0 + 2)) => if 2 < 0 + 2 ∧ (6 + 0) - 0 ≤ r.val ∧ (0 + 2) - 0 ≤ c.val
        ∧ r.val - ((6 + 0) - 0) = c.val - ((0 + 2) - 0) then (1 : ℝ) else 0) = fun _ _ => 0 := by
      funext r c; rw [if_neg]; omega
    simp only [Act.Thr.make, hW]
    rfl
  rw [h]
  ext k c
  rw [addJet, addJet]
  fin_cases c <;> simp

theorem make_S {nt : ℕ} (ts : List (Act.Thruster ℝ)) (h : ts.length = nt) :
    (Act.Thr.make oneInv ts : Act.Thr ℝ 0 nt).S
      = (Act.Thr.make oneInv ts : Act.Thr ℝ 0 nt).W * oneInv (Act.Thr.make oneInv ts : Act.Thr ℝ 0 nt).W := by
  simp [Act.Thr.make, Act.Thr.set, h]

theorem jet_set {eps : ℝ} (h0 : 0 < eps) (h1 : eps ≤ 1 / 2) :
    (thrusters (X := Unit) eps (Act.Thr.make oneInv [jet 1] : Act.Thr ℝ 0 1)).create.tauSet
      = ![false, false, true, false, true, false] := by
  have hS : ∀ k, (Act.Thr.make oneInv [jet 1] : Act.Thr ℝ 0 1).S k k = ![0, 0, 1 / 2, 0, 1 / 2, 0] k := by
    intro k
    have hs := congrFun (congrFun (make_S (nt := 1) [jet 1] rfl) k) k
    rw [jet_W] at hs
    rw [hs]
    rw [oneInv, jet_trace]
    fin_cases k <;> simp [mul_apply]
  funext k
  simp only [thrusters, Act.Thr.updateData, hS]
  fin_cases k <;> simp [h0] <;> linarith

theorem twin_set {eps : ℝ} (h0 : 0 < eps) (h1 : eps ≤ 1 / 2) :
    (thrusters (X := Unit) eps (Act.Thr.make oneInv [jet 0, jet 0] : Act.Thr ℝ 0 2)).create.tauSet
      = ![false, false, true, false, false, false] := by
  have hS : ∀ k, (Act.Thr.make oneInv [jet 0, jet 0] : Act.Thr ℝ 0 2).S k k = ![0, 0, 1, 0, 0, 0] k := by
    intro k
    have hs := congrFun (congrFun (make_S (nt := 2) [jet 0, jet 0] rfl) k) k
    rw [twin_W] at hs
    rw [hs]
    rw [oneInv, twin_trace]
    fin_cases k <;> simp [mul_apply]
  funext k
  simp only [thrusters, Act.Thr.updateData, hS]
  fin_cases k <;> simp [h0] <;> linarith

end Demo

/-- **C85 (thrusters, constraint too weak).** One thruster off the centre pushes and turns the body: two joints are marked as
driven by one control, so that one row of the constraint "tau" is never written. The constraint holds at a pure push, which no
command produces. -/
theorem C85_thruster_counterexample {eps : ℝ} (h0 : 0 < eps) (h1 : eps ≤ 1 / 2) :
    let t : Act.Thr ℝ 0 1 := Act.Thr.make Demo.oneInv [Demo.jet 1]
    let A : Act.Model ℝ Unit (6 + 0) (0 + 1) ((6 + 0) + (6 + 0)) := thrusters eps t
    Demo.Penrose t.W (Demo.oneInv t.W)
    ∧ (∃ e : Dat (6 + 0) 0 (0 + 1) 5, invCalc Demo.body A (fun _ => true) (create A) () (Pi.single 2 1, 0) = some e ∧ e.r = 0)
    ∧ ¬ ∃ w, Demo.body.M () *ᵥ Pi.single 2 1 + 0 = t.W *ᵥ w := by
  intro t A
  refine ⟨?_, ?_, ?_⟩
  · rw [show t.W = _ from Demo.jet_W]
    refine Demo.penrose_one (by rw [Demo.jet_trace]; norm_num) ?_
    rw [Demo.jet_trace]
    ext k c
    fin_cases k <;> fin_cases c <;> simp [mul_apply, Fin.sum_univ_succ] <;> norm_num
  · have hlen : ((List.finRange (6 + 0)).filter fun k => !(![false, false, true, false, true, false] : Fin 6 → Bool) k).length ≤ 5 := by
      decide
    have hw := writeRows_eq (m := 5) (![false, false, true, false, true, false] : Fin 6 → Bool) (Pi.single 2 1 : Vec 6) 0 hlen
    obtain ⟨e, he, hr⟩ := (invCalc_rows (P := Demo.body) (A := A) (d := create A) (f := 0) (Demo.body_rnea (Pi.single 2 1) _)
      (Demo.jet_set h0 h1)).1 _ hw
    refine ⟨e, he, ?_⟩
    rw [hr]
    funext j
    split
    · rename_i h
      have hmem := (List.mem_filter.1 (List.getElem_mem h)).2
      rw [Pi.single_eq_of_ne]
      · rfl
      · intro h2
        rw [h2] at hmem
        simp at hmem
    · rfl
  · rintro ⟨w, hw⟩
    have e2 := congrFun hw 2
    have e4 := congrFun hw 4
    have hM : Demo.body.M () *ᵥ (Pi.single 2 1 : Vec 6) = Pi.single 2 1 := one_mulVec _
    rw [hM, show t.W = _ from Demo.jet_W] at e2 e4
    simp [mulVec, dotProduct] at e2 e4
    rw [e4] at e2
    simp at e2

/-- **C85 (thrusters, write out of bounds).** Two thrusters at the centre drive one joint only: five joints are marked as not
driven, but the residual "tau" has four rows, and every `calc` writes beyond it. -/
theorem C85_twin_thrusters_counterexample {eps : ℝ} (h0 : 0 < eps) (h1 : eps ≤ 1 / 2) :
    let t : Act.Thr ℝ 0 2 := Act.Thr.make Demo.oneInv [Demo.jet 0, Demo.jet 0]
    let A : Act.Model ℝ Unit (6 + 0) (0 + 2) ((6 + 0) + (6 + 0)) := thrusters eps t
    Demo.Penrose t.W (Demo.oneInv t.W)
    ∧ ∀ u, invCalc Demo.body A (fun _ => true) (create A : Dat (6 + 0) 0 (0 + 2) 4) () u = none := by
  intro t A
  refine ⟨?_, fun u => ?_⟩
  · rw [show t.W = _ from Demo.twin_W]
    refine Demo.penrose_one (by rw [Demo.twin_trace]; norm_num) ?_
    rw [Demo.twin_trace]
    ext k c
    fin_cases k <;> fin_cases c <;> simp [mul_apply, Fin.sum_univ_succ] <;> norm_num
  · exact (invCalc_rows (P := Demo.body) (A := A) (d := create A) (f := u.2) (Demo.body_rnea u.1 _)
      (Demo.twin_set h0 h1)).2 (writeRows_none _ _ _ (by decide))

end Verif.Inv
