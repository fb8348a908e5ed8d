import Verif.Lemmas.FwdDyn
import Mathlib.Analysis.Calculus.Deriv.Pow
import Mathlib.Analysis.Calculus.Deriv.Inv
import Mathlib.Tactic.FieldSimp
import Mathlib.Tactic.Positivity
import Mathlib.Tactic.LinearCombination

/-!
# Forward and impulse dynamics: equations of motion, derivatives, quasi-static controls (C81-C84)
-/

set_option linter.unusedSectionVars false
set_option linter.unusedVariables false

namespace Verif.Fwd

open Matrix Filter Topology

variable {X Q : Type} {nv nc nu : ℕ}

/-! ### C81: the acceleration solves the equations of motion -/

/-- **C81 (free dynamics).** After `calc`, from whatever data, the acceleration is the one solution of the equations of motion,
with the inertia of the motors if one was set, and the joint data hold it and the control. -/
theorem C81_free (P : Rigid X nv) (hP : RigidOk P) (A : Act X nv nu) (m : Arm nv) (d : FDat nv nu) (x : X) (u : Vec nu)
    (hM : Spd (P.M x)) (hm : Spd (P.M x + diagonal (inertia m))) :
    let e := freeCalc P A m d x u
    P.M x *ᵥ e.xout + inertia m * e.xout + P.nle x = A.tau x u
    ∧ (∀ a, P.M x *ᵥ a + inertia m * a + P.nle x = A.tau x u → a = e.xout)
    ∧ e.ja = e.xout ∧ e.jtau = u := by
  intro e
  have h1 : m.mass (P.M x) *ᵥ e.xout + P.nle x = A.tau x u := by
    by_cases h : m.none = true
    · have : e.xout = P.aba x (A.tau x u) := by simp [e, freeCalc, h]
      rw [this]
      simp only [Arm.mass, h, if_true]
      exact hP.aba x _ hM
    · have : e.xout = P.cholInv (m.mass (P.M x)) *ᵥ (A.tau x u - P.nle x) := by simp [e, freeCalc, h]
      rw [← mass_eq] at hm
      rw [this, mulVec_mulVec, mul_eq_one_comm.1 (hP.cholInv _ hm), one_mulVec]
      abel
  refine ⟨by rw [← mass_mulVec]; exact h1, fun a ha => ?_, ?_, ?_⟩
  · rw [← mass_mulVec, ← h1] at ha
    rw [← mass_eq] at hm
    exact cancel hm.unit (add_right_cancel ha)
  · by_cases h : m.none = true <;> simp [e, freeCalc, h]
  · simp [e, freeCalc]

/-- **C81 (contacts).** After `calc`, from whatever data, the acceleration and the forces are the one solution of the equations
of motion with contacts, and of the damped contact constraint; they are handed to the contacts and the joint data. -/
theorem C81_contact (P : Rigid X nv) (C : Contacts X nv nc) (hC : ContactsOk C) (A : Act X nv nu) (m : CMod nv)
    (d : CDat nv nc nu) (x : X) (u : Vec nu)
    (hreg : Regular (P.M x + diagonal (inertia m.arm)) (C.J x) m.damping) :
    let e := conCalc P C A m d x u
    (P.M x *ᵥ e.xout + inertia m.arm * e.xout + P.nle x = A.tau x u + (C.J x)ᵀ *ᵥ e.lam
      ∧ C.J x *ᵥ e.xout + C.a0 x = -(m.damping • e.lam))
    ∧ (∀ a l, P.M x *ᵥ a + inertia m.arm * a + P.nle x = A.tau x u + (C.J x)ᵀ *ᵥ l →
        C.J x *ᵥ a + C.a0 x = -(m.damping • l) → a = e.xout ∧ l = e.lam)
    ∧ e.cdv = e.xout ∧ e.ja = e.xout ∧ e.jtau = u := by
  intro e
  rw [← mass_eq] at hreg
  obtain ⟨h1, h2⟩ := hC.fwd _ (A.tau x u - P.nle x) _ (C.a0 x) _ hreg
  change m.arm.mass (P.M x) *ᵥ e.xout = A.tau x u - P.nle x + (C.J x)ᵀ *ᵥ e.lam at h1
  change C.J x *ᵥ e.xout + C.a0 x = -(m.damping • e.lam) at h2
  refine ⟨⟨?_, h2⟩, fun a l ha hl => ?_, rfl, rfl, rfl⟩
  · rw [← mass_mulVec, h1]; abel
  · rw [← mass_mulVec] at ha
    have key : kkt (m.arm.mass (P.M x)) (C.J x) m.damping *ᵥ Sum.elim a (-l)
        = kkt (m.arm.mass (P.M x)) (C.J x) m.damping *ᵥ Sum.elim e.xout (-e.lam) := by
      rw [kkt_mul, kkt_mul]
      congr 1
      · rw [h1, eq_sub_of_add_eq ha]; abel
      · rw [eq_sub_of_add_eq hl, eq_sub_of_add_eq h2]; abel
    obtain ⟨e1, e2⟩ := elim_ext (cancel hreg.unit key)
    exact ⟨e1, neg_injective e2⟩

/-- **C81 (Gauss).** Without damping the contact constraint holds exactly, and among all accelerations that satisfy it the one
computed is closest, in the norm of the inertia, to the acceleration `f` of the system without contacts. -/
theorem C81_gauss (P : Rigid X nv) (C : Contacts X nv nc) (hC : ContactsOk C) (A : Act X nv nu) (m : CMod nv)
    (d : CDat nv nc nu) (x : X) (u : Vec nu) (hμ : m.damping = 0)
    (hreg : Regular (P.M x + diagonal (inertia m.arm)) (C.J x) m.damping) (f : Vec nv)
    (hf : P.M x *ᵥ f + inertia m.arm * f + P.nle x = A.tau x u) :
    let e := conCalc P C A m d x u
    C.J x *ᵥ e.xout + C.a0 x = 0
    ∧ ∀ a, C.J x *ᵥ a + C.a0 x = 0 →
        (e.xout - f) ⬝ᵥ (P.M x + diagonal (inertia m.arm)) *ᵥ (e.xout - f)
          ≤ (a - f) ⬝ᵥ (P.M x + diagonal (inertia m.arm)) *ᵥ (a - f) := by
  intro e
  obtain ⟨⟨h1, h2⟩, -⟩ := C81_contact P C hC A m d x u hreg
  have h2' : C.J x *ᵥ e.xout + C.a0 x = 0 := by
    have : C.J x *ᵥ e.xout + C.a0 x = -(m.damping • e.lam) := h2
    rw [this, hμ, zero_smul, neg_zero]
  refine ⟨h2', fun a ha => ?_⟩
  rw [← mass_mulVec] at hf h1
  rw [← mass_eq] at hreg ⊢
  set N := m.arm.mass (P.M x) with hN
  have h3 : N *ᵥ (e.xout - f) = (C.J x)ᵀ *ᵥ e.lam := by
    rw [mulVec_sub, eq_sub_of_add_eq hf, show N *ᵥ e.xout = _ from eq_sub_of_add_eq h1]; abel
  have hJ : C.J x *ᵥ (a - e.xout) = 0 := by
    rw [mulVec_sub, eq_neg_of_add_eq_zero_left ha, eq_neg_of_add_eq_zero_left h2', sub_self]
  have hc : (a - e.xout) ⬝ᵥ N *ᵥ (e.xout - f) = 0 := by
    rw [h3, dotProduct_mulVec, vecMul_transpose, hJ, zero_dotProduct]
  have hsym : ∀ p q : Vec nv, p ⬝ᵥ N *ᵥ q = q ⬝ᵥ N *ᵥ p := fun p q => by
    conv_lhs => rw [dotProduct_mulVec, ← hreg.1.1, vecMul_transpose, dotProduct_comm]
  have hsplit : a - f = (a - e.xout) + (e.xout - f) := by abel
  have hpos : 0 ≤ (a - e.xout) ⬝ᵥ N *ᵥ (a - e.xout) := by
    by_cases h0 : a - e.xout = 0
    · rw [h0, zero_dotProduct]
    · exact (hreg.1.2 _ h0).le
  rw [hsplit, mulVec_add, add_dotProduct, dotProduct_add, dotProduct_add, hc, hsym (e.xout - f) (a - e.xout), hc]
  linarith

/-- **C81 (damping).** The damping is never negative: the constructor and the setter refuse a negative one, and a refused call
changes nothing. -/
theorem C81_damping (μ : ℝ) (force : Bool) (m : CMod nv) (hm : CMod.make nv μ force = some m) (l : List ℝ) :
    0 ≤ (l.foldl (fun m μ => (CMod.setDamping m μ).2) m).damping
    ∧ ∀ n : CMod nv, ∀ ν, (ν < 0 → CMod.setDamping n ν = (none, n))
        ∧ (0 ≤ ν → (CMod.setDamping n ν).1 = some () ∧ (CMod.setDamping n ν).2.damping = ν
            ∧ (CMod.setDamping n ν).2.arm = n.arm) := by
  refine ⟨?_, fun n ν => ⟨fun h => by simp [CMod.setDamping, h], fun h => by simp [CMod.setDamping, not_lt.2 h]⟩⟩
  have h0 : 0 ≤ m.damping := by
    by_cases h : μ < 0
    · simp [CMod.make, h] at hm
    · simp only [CMod.make, h, if_false, Option.some.injEq] at hm
      rw [← hm]
      exact not_lt.1 h
  clear hm
  induction l generalizing m with
  | nil => exact h0
  | cons ν t ih =>
    rw [List.foldl_cons]
    refine ih _ ?_
    by_cases h : ν < 0
    · simpa [CMod.setDamping, h] using h0
    · simpa [CMod.setDamping, h] using not_lt.1 h

/-- **C81 (armature).** A model has no armature until one is set; then it has the one set last. -/
theorem C81_armature (l : List (Vec nv)) (a : Arm nv) :
    inertia ({} : Arm nv) = 0 ∧ ∀ v, inertia ((l.foldl Arm.set a).set v) = v := by
  simp [inertia, Arm.set]

/-! ### C82: the derivatives of the forward dynamics -/

/-- **C82 (free dynamics).** Along every curve of states and controls, `Fx` and `Fu` of `calcDiff` after `calc` give the
derivative of the acceleration, with and without armature. -/
theorem C82_free (P : Rigid X nv) (hP : RigidOk P) (A : Act X nv nu) (m : Arm nv) (D : ℝ → FDat nv nu) (x : ℝ → X)
    (u : ℝ → Vec nu) (δ : Tan nv → ℝ) (w : Vec nu) (hx : RigidAlong P x δ) (hu : ActAlong A x u δ w)
    (hM : ∀ᶠ s in 𝓝 0, Spd (P.M (x s))) (hm : ∀ᶠ s in 𝓝 0, Spd (P.M (x s) + diagonal (inertia m))) :
    let e := freeDiff P A m (freeCalc P A m (D 0) (x 0) (u 0)) (x 0) (u 0)
    HasDerivAt (fun s => (freeCalc P A m (D s) (x s) (u s)).xout) (e.Fx *ᵥ δ + e.Fu *ᵥ w) 0
    ∧ e.jda_dx = e.Fx ∧ e.jda_du = e.Fu := by
  intro e
  refine ⟨?_, by by_cases h : m.none = true <;> simp [e, freeDiff, h],
    by by_cases h : m.none = true <;> simp [e, freeDiff, h]⟩
  have hu' : HasDerivAt (fun s => A.tau (x s) (u s)) (A.dx (x 0) (u 0) *ᵥ δ + A.du (x 0) (u 0) *ᵥ w) 0 := hu
  have hM0 := hM.self_of_nhds
  by_cases h : m.none = true
  · have hout : ∀ s, (freeCalc P A m (D s) (x s) (u s)).xout = P.aba (x s) (A.tau (x s) (u s)) := fun s => by
      simp [freeCalc, h]
    simp only [hout]
    have hFx : e.Fx = P.abaDx (x 0) (A.tau (x 0) (u 0))
        + P.abaMinv (x 0) (A.tau (x 0) (u 0)) * A.dx (x 0) (u 0) := by simp [e, freeDiff, freeCalc, h]
    have hFu : e.Fu = P.abaMinv (x 0) (A.tau (x 0) (u 0)) * A.du (x 0) (u 0) := by simp [e, freeDiff, freeCalc, h]
    set τ0 := A.tau (x 0) (u 0) with hτ0
    have hy : HasDerivAt (fun s => P.aba (x s) (A.tau (x s) (u s)) - P.aba (x s) τ0)
        ((P.M (x 0))⁻¹ *ᵥ (A.dx (x 0) (u 0) *ᵥ δ + A.du (x 0) (u 0) *ᵥ w)) 0 := by
      refine implicit (A := fun s => P.M (x s)) (b := fun s => A.tau (x s) (u s) - τ0) hx.M hM0.unit ?_ ?_
      · filter_upwards [hM] with s hs
        rw [mulVec_sub, eq_sub_of_add_eq (hP.aba (x s) _ hs), eq_sub_of_add_eq (hP.aba (x s) τ0 hs)]
        abel
      · simp only [← hτ0, sub_self, mulVec_zero, sub_zero]
        exact hu'.sub_const τ0
    have hsum := hy.add (hx.aba τ0)
    have e1 : (fun s => P.aba (x s) (A.tau (x s) (u s)))
        = (fun s => P.aba (x s) (A.tau (x s) (u s)) - P.aba (x s) τ0) + fun s => P.aba (x s) τ0 := by
      funext s; simp
    rw [e1]
    refine hasDerivAt_congr hsum ?_
    rw [hFx, hFu, inv_eq (hP.abaMinv (x 0) τ0 hM0), add_mulVec, mulVec_add, mulVec_mulVec, mulVec_mulVec]
    abel
  · have hm' : Spd (m.mass (P.M (x 0))) := by rw [mass_eq]; exact hm.self_of_nhds
    have hout : ∀ᶠ s in 𝓝 0, m.mass (P.M (x s)) *ᵥ (freeCalc P A m (D s) (x s) (u s)).xout + P.nle (x s) = A.tau (x s) (u s) := by
        filter_upwards [hM, hm] with s h1 h2
        rw [mass_mulVec]
        exact (C81_free P hP A m (D s) (x s) (u s) h1 h2).1
    set z : ℝ → Vec nv := fun s => (freeCalc P A m (D s) (x s) (u s)).xout with hz
    have key := implicit (A := fun s => m.mass (P.M (x s))) (b := fun s => A.tau (x s) (u s) - P.nle (x s)) (z := z)
      (c' := (A.dx (x 0) (u 0) *ᵥ δ + A.du (x 0) (u 0) *ᵥ w) - P.rneaDx (x 0) (z 0) *ᵥ δ)
      (mass_continuousAt hx.M) hm'.unit (hout.mono fun s hs => eq_sub_of_add_eq hs) (by
        have e1 : (fun s => A.tau (x s) (u s) - P.nle (x s) - m.mass (P.M (x s)) *ᵥ z 0)
            = fun s => A.tau (x s) (u s) - (P.M (x s) *ᵥ z 0 + P.nle (x s)) - inertia m * z 0 := by
          funext s
          rw [mass_mulVec]
          abel
        rw [e1]
        exact (hu'.sub (hx.rnea (z 0))).sub_const _)
    convert key using 1
    have hFx : e.Fx = P.cholInv (m.mass (P.M (x 0))) * (A.dx (x 0) (u 0) - P.rneaDx (x 0) (z 0)) := by
      simp [e, hz, freeDiff, freeCalc, h]
    have hFu : e.Fu = P.cholInv (m.mass (P.M (x 0))) * A.du (x 0) (u 0) := by simp [e, freeDiff, freeCalc, h]
    rw [hFx, hFu, inv_eq (hP.cholInv _ hm'), ← mulVec_mulVec, ← mulVec_mulVec, ← mulVec_add, sub_mulVec]
    congr 1
    abel

/-- **C82 (contacts, partial).** If no two contacts are on the same joint, then along every curve of states and controls, `Fx` and
`Fu` of `calcDiff` after `calc` give the derivative of the acceleration, whatever the damping and the armature; if the derivatives
of the forces are asked for, they too are right, and handed to the contacts. Missing: contacts that share a joint
(`C82_same_joint_counterexample`). -/
theorem C82_contact_partial (P : Rigid X nv) (C : Contacts X nv nc) (hC : ContactsOk C) (A : Act X nv nu) (m : CMod nv)
    (D : ℝ → CDat nv nc nu) (x : ℝ → X) (u : ℝ → Vec nu) (δ : Tan nv → ℝ) (w : Vec nu) (hx : ContactsAlong P C x δ)
    (hu : ActAlong A x u δ w) (hL : C.lay.Distinct)
    (hreg : ∀ᶠ s in 𝓝 0, Regular (P.M (x s) + diagonal (inertia m.arm)) (C.J (x s)) m.damping) :
    let e := conDiff C A m (conCalc P C A m (D 0) (x 0) (u 0)) (x 0) (u 0)
    HasDerivAt (fun s => (conCalc P C A m (D s) (x s) (u s)).xout) (e.Fx *ᵥ δ + e.Fu *ᵥ w) 0
    ∧ (m.force = true →
        HasDerivAt (fun s => (conCalc P C A m (D s) (x s) (u s)).lam) (e.df_dx *ᵥ δ + e.df_du *ᵥ w) 0
        ∧ e.cdf_dx = e.df_dx ∧ e.cdf_du = e.df_du ∧ e.cddv_dx = e.Fx)
    ∧ e.jda_dx = e.Fx ∧ e.jda_du = e.Fu := by
  intro e
  have hu' : HasDerivAt (fun s => A.tau (x s) (u s)) (A.dx (x 0) (u 0) *ᵥ δ + A.du (x 0) (u 0) *ᵥ w) 0 := hu
  set a : ℝ → Vec nv := fun s => (conCalc P C A m (D s) (x s) (u s)).xout with ha
  set l : ℝ → Vec nc := fun s => (conCalc P C A m (D s) (x s) (u s)).lam with hl
  set τ' := A.dx (x 0) (u 0) *ᵥ δ + A.du (x 0) (u 0) *ᵥ w with hτ'
  set K := C.kinv (m.arm.mass (P.M (x 0))) (C.J (x 0)) m.damping with hK
  set R := C.rneaDx (x 0) (a 0) (l 0) + fromCols (C.dtau (x 0) (l 0)) 0 with hR
  have hreg0 : Regular (m.arm.mass (P.M (x 0))) (C.J (x 0)) m.damping := by
    rw [mass_eq]; exact hreg.self_of_nhds
  have key : HasDerivAt (fun s => Sum.elim (a s) (-l s))
      ((kkt (m.arm.mass (P.M (x 0))) (C.J (x 0)) m.damping)⁻¹
        *ᵥ Sum.elim (τ' - R *ᵥ δ) (-(C.da0 (x 0) (a 0) *ᵥ δ))) 0 := by
    refine implicit (A := fun s => kkt (m.arm.mass (P.M (x s))) (C.J (x s)) m.damping)
      (b := fun s => Sum.elim (A.tau (x s) (u s) - P.nle (x s)) (-C.a0 (x s)))
      (kkt_continuousAt (mass_continuousAt hx.M) hx.J _) hreg0.unit ?_ ?_
    · filter_upwards [hreg] with s hs
      obtain ⟨⟨h1, h2⟩, -⟩ := C81_contact P C hC A m (D s) (x s) (u s) hs
      rw [← mass_mulVec] at h1
      rw [kkt_mul]
      congr 1
      · rw [show m.arm.mass (P.M (x s)) *ᵥ a s = _ from eq_sub_of_add_eq h1]
        simp only [hl]
        abel
      · rw [show C.J (x s) *ᵥ a s = _ from eq_sub_of_add_eq h2]
        simp only [hl]
        abel
    · have e1 : (fun s => Sum.elim (A.tau (x s) (u s) - P.nle (x s)) (-C.a0 (x s))
            - kkt (m.arm.mass (P.M (x s))) (C.J (x s)) m.damping *ᵥ Sum.elim (a 0) (-l 0))
          = fun s => Sum.elim (A.tau (x s) (u s) - (P.M (x s) *ᵥ a 0 + P.nle (x s) - (C.J (x s))ᵀ *ᵥ l 0)
                - inertia m.arm * a 0)
              (-(C.J (x s) *ᵥ a 0 + C.a0 (x s)) - m.damping • l 0) := by
        funext s
        rw [kkt_mul, mass_mulVec, ← Sum.elim_sub_sub]
        congr 1 <;> abel
      rw [e1]
      exact hasDerivAt_elim ((hu'.sub (hx.rnea (a 0) (l 0))).sub_const _) ((hx.a0 (a 0)).neg.sub_const _)
  rw [inv_eq (hC.kinv _ _ _ hreg0), ← hK, blocks_mulVec] at key
  obtain ⟨k1, k2⟩ := hasDerivAt_parts key
  have hFx : e.Fx = -(K.toBlocks₁₁ * R) - K.toBlocks₁₂ * C.da0 (x 0) (a 0)
      + K.toBlocks₁₁ * A.dx (x 0) (u 0) := by
    by_cases h : m.force = true <;> simp [e, conDiff, conCalc, h, ha, hl, hK, hR, seen_eq hL]
  have hFu : e.Fu = K.toBlocks₁₁ * A.du (x 0) (u 0) := by
    by_cases h : m.force = true <;> simp [e, conDiff, conCalc, h, hK]
  refine ⟨?_, fun hf => ⟨?_, ?_, ?_, ?_⟩, ?_, ?_⟩
  · convert k1 using 1
    rw [hFx, hFu, hτ']
    simp only [add_mulVec, sub_mulVec, neg_mulVec, mulVec_sub, mulVec_add, mulVec_neg, mulVec_mulVec]
    abel
  · have hdx : e.df_dx = K.toBlocks₂₁ * R + K.toBlocks₂₂ * C.da0 (x 0) (a 0)
        - K.toBlocks₂₁ * A.dx (x 0) (u 0) := by simp [e, conDiff, conCalc, hf, ha, hl, hK, hR, seen_eq hL]
    have hdu : e.df_du = -(K.toBlocks₂₁ * A.du (x 0) (u 0)) := by simp [e, conDiff, conCalc, hf, hK]
    have k3 := k2.neg
    have e2 : (-fun s => -l s) = l := by funext s; simp
    rw [e2] at k3
    refine hasDerivAt_congr k3 ?_
    rw [hdx, hdu, hτ']
    simp only [add_mulVec, sub_mulVec, neg_mulVec, mulVec_sub, mulVec_add, mulVec_neg, mulVec_mulVec]
    abel
  · simp [e, conDiff, hf]
  · simp [e, conDiff, hf]
  · simp [e, conDiff, hf]
  · by_cases h : m.force = true <;> simp [e, conDiff, h]
  · by_cases h : m.force = true <;> simp [e, conDiff, h]

/-! ### C83: impulse dynamics -/

/-- **C83.** The action of an impact keeps the configuration; the velocity after it and the impulses are the one solution of the
impact equations (momentum, and restitution with damping). -/
theorem C83_impact (I : Impacts Q nv nc) (hI : ImpactsOk I) (m : IMod nv) (d : IDat Q nv nc) (x : Q × Vec nv)
    (hreg : Regular (I.M x.1 + diagonal (inertia m.arm)) (I.J x.1) m.damping) :
    let e := impCalc I m d x
    e.xnext.1 = x.1
    ∧ I.M x.1 *ᵥ (e.xnext.2 - x.2) + inertia m.arm * (e.xnext.2 - x.2) = (I.J x.1)ᵀ *ᵥ e.lam
    ∧ I.J x.1 *ᵥ e.xnext.2 = -(m.r • I.J x.1 *ᵥ x.2) - m.damping • e.lam
    ∧ (∀ v l, I.M x.1 *ᵥ (v - x.2) + inertia m.arm * (v - x.2) = (I.J x.1)ᵀ *ᵥ l →
        I.J x.1 *ᵥ v = -(m.r • I.J x.1 *ᵥ x.2) - m.damping • l → v = e.xnext.2 ∧ l = e.lam)
    ∧ e.ivn = e.xnext.2 := by
  intro e
  rw [← mass_eq] at hreg
  obtain ⟨h1, h2⟩ := hI.imp _ x.2 _ m.r _ hreg
  change m.arm.mass (I.M x.1) *ᵥ (e.xnext.2 - x.2) = (I.J x.1)ᵀ *ᵥ e.lam at h1
  change I.J x.1 *ᵥ e.xnext.2 = -(m.r • I.J x.1 *ᵥ x.2) - m.damping • e.lam at h2
  refine ⟨rfl, by rw [← mass_mulVec]; exact h1, h2, fun v l hv hl => ?_, rfl⟩
  rw [← mass_mulVec] at hv
  have key : kkt (m.arm.mass (I.M x.1)) (I.J x.1) m.damping *ᵥ Sum.elim v (-l)
      = kkt (m.arm.mass (I.M x.1)) (I.J x.1) m.damping *ᵥ Sum.elim e.xnext.2 (-e.lam) := by
    rw [kkt_mul, kkt_mul]
    congr 1
    · rw [← hv, ← h1, mulVec_sub, mulVec_sub]; abel
    · rw [hl, h2]; abel
  obtain ⟨e1, e2⟩ := elim_ext (cancel hreg.unit key)
  exact ⟨e1, neg_injective e2⟩

/-- **C83 (energy).** With a restitution coefficient between 0 and 1 and no damping, an impact does not increase the kinetic
energy. -/
theorem C83_energy (I : Impacts Q nv nc) (hI : ImpactsOk I) (m : IMod nv) (d : IDat Q nv nc) (x : Q × Vec nv)
    (hreg : Regular (I.M x.1 + diagonal (inertia m.arm)) (I.J x.1) m.damping) (hμ : m.damping = 0) (h0 : 0 ≤ m.r)
    (h1 : m.r ≤ 1) :
    let v := (impCalc I m d x).xnext.2
    let M := I.M x.1 + diagonal (inertia m.arm)
    v ⬝ᵥ M *ᵥ v ≤ x.2 ⬝ᵥ M *ᵥ x.2 := by
  intro v M
  obtain ⟨-, e1, e2, -⟩ := C83_impact I hI m d x hreg
  change I.M x.1 *ᵥ (v - x.2) + inertia m.arm * (v - x.2) = _ at e1
  rw [← mass_mulVec, mass_eq] at e1
  change M *ᵥ (v - x.2) = _ at e1
  set l := (impCalc I m d x).lam with hl
  set J := I.J x.1 with hJ
  change J *ᵥ v = -(m.r • J *ᵥ x.2) - m.damping • l at e2
  rw [hμ, zero_smul, sub_zero] at e2
  have hM : Mᵀ = M := hreg.1.1
  have hsym : ∀ p q : Vec nv, p ⬝ᵥ M *ᵥ q = q ⬝ᵥ M *ᵥ p := fun p q => by
    conv_lhs => rw [dotProduct_mulVec, ← hM, vecMul_transpose, dotProduct_comm]
  have hk : ∀ p : Vec nv, p ⬝ᵥ M *ᵥ (v - x.2) = (J *ᵥ p) ⬝ᵥ l := fun p => by
    rw [e1, dotProduct_mulVec, vecMul_transpose]
  have hv := hk v
  have hx := hk x.2
  rw [e2, neg_dotProduct, smul_dotProduct, smul_eq_mul] at hv
  have hpos : 0 ≤ (v - x.2) ⬝ᵥ M *ᵥ (v - x.2) := by
    by_cases hne : v - x.2 = 0
    · rw [hne, zero_dotProduct]
    · exact (hreg.1.2 _ hne).le
  rw [sub_dotProduct, hv, hx] at hpos
  rw [mulVec_sub, dotProduct_sub] at hv hx
  rw [hsym x.2 v] at hx
  nlinarith

/-- **C83 (derivatives, partial).** Without restitution and without armature, if no two impulses are on the same joint, `Fx` of `calcDiff` after `calc` gives the derivative
of the state after the impact along every curve of states, whatever the damping, and so do the derivatives of the impulses,
if they are asked for. Missing: restitution (`C83_restitution_counterexample`), armature
(`C83_armature_counterexample`) and impulses that share a joint (`C83_same_joint_counterexample`). -/
theorem C83_derivatives_partial (I : Impacts Q nv nc) (hI : ImpactsOk I) (grav : Q → Vec nv) (m : IMod nv)
    (hr : m.r = 0) (harm : m.arm.none = true) (D : ℝ → IDat Q nv nc) (q : ℝ → Q) (v : ℝ → Vec nv) (δ ν : Vec nv)
    (hL : I.lay.Distinct)
    (hq : ImpactsAlong I grav q δ) (hv : HasDerivAt v ν 0)
    (hreg : ∀ᶠ s in 𝓝 0, Regular (I.M (q s)) (I.J (q s)) m.damping) :
    let e := impDiff I m (impCalc I m (D 0) (q 0, v 0)) (q 0, v 0)
    (∀ i j, e.Fx (Sum.inl i) (Sum.inl j) = (1 : Mat nv nv) i j ∧ e.Fx (Sum.inl i) (Sum.inr j) = 0)
    ∧ HasDerivAt (fun s => (impCalc I m (D s) (q s, v s)).xnext.2)
        (fun i => (e.Fx *ᵥ Sum.elim δ ν) (Sum.inr i)) 0
    ∧ (m.force = true →
        HasDerivAt (fun s => (impCalc I m (D s) (q s, v s)).lam) (e.df_dx *ᵥ Sum.elim δ ν) 0
        ∧ e.idf = e.df_dx ∧ (∀ i j, e.idvn i j = e.Fx (Sum.inr i) j)) := by
  intro e
  have hin : inertia m.arm = 0 := by simp [inertia, harm]
  have hmass : ∀ M : Mat nv nv, m.arm.mass M = M := fun M => by simp [Arm.mass, harm]
  have hreg0 := hreg.self_of_nhds
  set a : ℝ → Vec nv := fun s => (impCalc I m (D s) (q s, v s)).xnext.2 with ha
  set l : ℝ → Vec nc := fun s => (impCalc I m (D s) (q s, v s)).lam with hl
  set R := I.rneaDq (q 0) (a 0 - v 0) (l 0) + I.dtau (q 0) (l 0) with hR
  set K := I.kinv (I.M (q 0)) (I.J (q 0)) m.damping with hK
  have hmir : mirror (I.M (q 0)) = I.M (q 0) := by
    ext i j
    simp only [mirror, of_apply]
    split
    · exact congrFun (congrFun hreg0.1.1 i) j
    · rfl
  have key : HasDerivAt (fun s => Sum.elim (a s) (-l s))
      ((kkt (I.M (q 0)) (I.J (q 0)) m.damping)⁻¹
        *ᵥ Sum.elim (I.M (q 0) *ᵥ ν - R *ᵥ δ + I.gravDq (q 0) *ᵥ δ)
            (-(I.dv0 (q 0) (a 0) *ᵥ δ))) 0 := by
    refine implicit (A := fun s => kkt (I.M (q s)) (I.J (q s)) m.damping)
      (b := fun s => Sum.elim (I.M (q s) *ᵥ v s) 0) (kkt_continuousAt hq.M hq.J _) hreg0.unit ?_ ?_
    · filter_upwards [hreg] with s hs
      obtain ⟨-, h1, h2, -⟩ := C83_impact I hI m (D s) (q s, v s) (by rw [hin]; simpa using hs)
      rw [hin, zero_mul, add_zero, mulVec_sub] at h1
      rw [hr, zero_smul, neg_zero, zero_sub] at h2
      rw [kkt_mul]
      congr 1
      · rw [show I.M (q s) *ᵥ a s = _ from eq_add_of_sub_eq h1]
        simp only [hl]
        abel
      · rw [show I.J (q s) *ᵥ a s = _ from h2]
        simp only [hl]
        abel
    · have e1 : (fun s => Sum.elim (I.M (q s) *ᵥ v s) 0
            - kkt (I.M (q s)) (I.J (q s)) m.damping *ᵥ Sum.elim (a 0) (-l 0))
          = fun s => Sum.elim (I.M (q s) *ᵥ (v s - v 0)
                - (I.M (q s) *ᵥ (a 0 - v 0) + grav (q s) - (I.J (q s))ᵀ *ᵥ l 0) + grav (q s))
              (-(I.J (q s) *ᵥ a 0) - m.damping • l 0) := by
        funext s
        rw [kkt_mul, ← Sum.elim_sub_sub]
        congr 1
        · rw [mulVec_sub, mulVec_sub]; abel
        · abel
      rw [e1]
      refine hasDerivAt_elim (HasDerivAt.add (HasDerivAt.sub ?_ (hq.rnea (a 0 - v 0) (l 0))) hq.grav)
        ((hq.v0 (a 0)).neg.sub_const _)
      exact hasDerivAt_mulVec_zero hq.M (sub_self _) (hv.sub_const (v 0))
  rw [inv_eq (hI.kinv _ _ _ hreg0), ← hK, blocks_mulVec] at key
  obtain ⟨k1, k2⟩ := hasDerivAt_parts key
  have hFx : e.Fx = fromBlocks 1 0 (-(K.toBlocks₁₁ * (R - I.gravDq (q 0)))
      - K.toBlocks₁₂ * I.dv0 (q 0) (a 0)) (K.toBlocks₁₁ * I.M (q 0)) := by
    by_cases h : m.force = true <;> simp [e, impDiff, impCalc, h, ha, hl, hK, hR, seen_eq hL, hmass, hmir]
  refine ⟨fun i j => ?_, ?_, fun hf => ⟨?_, ?_, ?_⟩⟩
  · rw [hFx]
    exact ⟨rfl, rfl⟩
  · refine hasDerivAt_congr k1 ?_
    rw [hFx, fromBlocks_mulVec]
    simp only [Sum.elim_comp_inl, Sum.elim_comp_inr]
    funext i
    change ((-(K.toBlocks₁₁ * (R - I.gravDq (q 0)))
      - K.toBlocks₁₂ * I.dv0 (q 0) (a 0)) *ᵥ δ + (K.toBlocks₁₁ * I.M (q 0)) *ᵥ ν) i = _
    refine congrFun ?_ i
    simp only [add_mulVec, sub_mulVec, neg_mulVec, mulVec_sub, mulVec_add, mulVec_neg, mulVec_mulVec, Matrix.mul_sub]
    abel
  · have hdx : e.df_dx = fromCols (K.toBlocks₂₁ * (R - I.gravDq (q 0))
        + K.toBlocks₂₂ * I.dv0 (q 0) (a 0)) (K.toBlocks₂₂ * I.J (q 0)) := by
      simp [e, impDiff, impCalc, hf, ha, hl, hK, hR, seen_eq hL, hmass]
    have hJ : K.toBlocks₂₂ * I.J (q 0) = -(K.toBlocks₂₁ * I.M (q 0)) := by
      have h1 := hI.kinv _ _ _ hreg0
      rw [← hK] at h1
      conv at h1 => lhs; rw [← fromBlocks_toBlocks K]
      unfold kkt at h1
      rw [fromBlocks_multiply, ← fromBlocks_one] at h1
      have h2 := (fromBlocks_inj.1 h1).2.2.1
      exact eq_neg_of_add_eq_zero_right h2
    have k3 := k2.neg
    have e2 : (-fun s => -l s) = l := by funext s; simp
    rw [e2] at k3
    refine hasDerivAt_congr k3 ?_
    rw [hdx, hJ, fromCols_mulVec]
    simp only [Sum.elim_comp_inl, Sum.elim_comp_inr]
    simp only [add_mulVec, sub_mulVec, neg_mulVec, mulVec_sub, mulVec_add, mulVec_neg, mulVec_mulVec, Matrix.mul_sub]
    abel
  · simp [e, impDiff, hf]
  · intro i j
    simp [e, impDiff, hf]

/-! ### C84: quasi-static controls -/

/-- **C84 (free dynamics).** If the actuation is linear in the control at rest, and some control balances gravity, the
quasi-static control keeps the system at rest: `calc` gives no acceleration. -/
theorem C84_free (P : Rigid X nv) (hP : RigidOk P) (A : Act X nv nu) (m : Arm nv) (d : FDat nv nu) (rest : X → X)
    (pinv : ∀ {a b : ℕ}, Mat a b → Mat b a) (x : X)
    (hpinv : A.du (rest x) 0 * pinv (A.du (rest x) 0) * A.du (rest x) 0 = A.du (rest x) 0)
    (hM : Spd (P.M (rest x))) (hm : Spd (P.M (rest x) + diagonal (inertia m)))
    (hlin : ∀ u, A.tau (rest x) u = A.du (rest x) 0 *ᵥ u) (hbal : ∃ u, A.tau (rest x) u = P.nle (rest x)) :
    (freeCalc P A m d (rest x) (freeStatic P A rest pinv x)).xout = 0 := by
  refine ((C81_free P hP A m d (rest x) _ hM hm).2.1 0 ?_).symm
  obtain ⟨u, hu⟩ := hbal
  rw [mulVec_zero, mul_zero, zero_add, zero_add, hlin, freeStatic, hP.rnea, mulVec_zero, zero_add, ← hu, hlin,
    mulVec_mulVec, mulVec_mulVec, hpinv]

/-- **C84 (contacts).** The same with contacts, without damping, when some control and forces balance gravity and the contacts
at rest have no desired acceleration. -/
theorem C84_contact (P : Rigid X nv) (hP : RigidOk P) (C : Contacts X nv nc) (hC : ContactsOk C) (A : Act X nv nu)
    (m : CMod nv) (d : CDat nv nc nu) (rest : X → X)
    (pinv : Matrix (Fin nv) (Fin nu ⊕ Fin nc) ℝ → Matrix (Fin nu ⊕ Fin nc) (Fin nv) ℝ)
    (x : X)
    (hpinv : fromCols (A.du (rest x) 0) (C.J (rest x))ᵀ * pinv (fromCols (A.du (rest x) 0) (C.J (rest x))ᵀ)
      * fromCols (A.du (rest x) 0) (C.J (rest x))ᵀ = fromCols (A.du (rest x) 0) (C.J (rest x))ᵀ)
    (hreg : Regular (P.M (rest x) + diagonal (inertia m.arm)) (C.J (rest x)) m.damping) (hμ : m.damping = 0)
    (ha0 : C.a0 (rest x) = 0) (hlin : ∀ u, A.tau (rest x) u = A.du (rest x) 0 *ᵥ u)
    (hbal : ∃ u l, A.tau (rest x) u + (C.J (rest x))ᵀ *ᵥ l = P.nle (rest x)) :
    (conCalc P C A m d (rest x) (conStatic P C A rest pinv x)).xout = 0 := by
  obtain ⟨u, l, hu⟩ := hbal
  set S : Matrix (Fin nv) (Fin nu ⊕ Fin nc) ℝ := fromCols (A.du (rest x) 0) (C.J (rest x))ᵀ with hS
  have hg : P.rnea (rest x) 0 = S *ᵥ Sum.elim u l := by
    rw [hP.rnea, mulVec_zero, zero_add, ← hu, hlin, hS, fromCols_mulVec]
    rfl
  set z := pinv S *ᵥ P.rnea (rest x) 0 with hz
  have hSz : S *ᵥ z = P.rnea (rest x) 0 := by
    rw [hz, hg, mulVec_mulVec, mulVec_mulVec, hpinv]
  refine ((C81_contact P C hC A m d (rest x) _ hreg).2.1 0 (fun i => z (Sum.inr i)) ?_ ?_).1.symm
  · rw [mulVec_zero, mul_zero, zero_add, zero_add, hlin]
    have h2 : P.nle (rest x) = S *ᵥ z := by rw [hSz, hP.rnea, mulVec_zero, zero_add]
    rw [h2, hS, fromCols_mulVec]
    rfl
  · rw [mulVec_zero, ha0, hμ, zero_smul, neg_zero, zero_add]

/-! ### A system that meets the hypotheses

A bead of mass 1 on a wire, with kinetic energy `(1 + q²) v² / 2`: `(1 + q²) a + q v² + 3 = τ`. The contact holds it with
`a + q v = 0`. -/

namespace Demo

noncomputable section

/-- The one entry of a 1x1 matrix. -/
def sc (c : ℝ) : Mat 1 1 := of fun _ _ => c

/-- A 1x2 matrix over configuration and velocity. -/
def row (a b : ℝ) : Matrix (Fin 1) (Tan 1) ℝ := of fun _ j => Sum.elim (fun _ => a) (fun _ => b) j

@[simp] theorem sc_mulVec (c : ℝ) (v : Vec 1) : sc c *ᵥ v = fun _ => c * v 0 := by
  funext i
  simp [sc, mulVec, dotProduct]

@[simp] theorem row_mulVec (a b : ℝ) (δ : Tan 1 → ℝ) :
    row a b *ᵥ δ = fun _ => a * δ (Sum.inl 0) + b * δ (Sum.inr 0) := by
  funext i
  simp [row, mulVec, dotProduct]

@[simp] theorem sc_mul (a b : ℝ) : sc a * sc b = sc (a * b) := by
  ext i j
  simp [sc, Matrix.mul_apply]

theorem sc_one : sc 1 = 1 := by
  ext i j
  obtain rfl : i = j := Subsingleton.elim _ _
  simp [sc]

@[simp] theorem sc_transpose (c : ℝ) : (sc c)ᵀ = sc c := rfl

theorem sc_add_diag (c : ℝ) (v : Vec 1) : sc c + diagonal v = sc (c + v 0) := by
  ext i j
  obtain rfl : i = j := Subsingleton.elim _ _
  obtain rfl : i = 0 := Subsingleton.elim _ _
  simp [sc]

theorem spd_sc {c : ℝ} (h : 0 < c) : Spd (sc c) := by
  refine ⟨rfl, fun v hv => ?_⟩
  have : v 0 ≠ 0 := fun h0 => hv (funext fun i => by rw [Subsingleton.elim i 0]; exact h0)
  have hp := mul_self_pos.2 this
  simp only [sc_mulVec, dotProduct, Fin.sum_univ_succ, Fin.sum_univ_zero, add_zero]
  nlinarith [mul_pos h hp]

theorem regular_sc {c j μ : ℝ} (h : 0 < c) (hj : j ≠ 0) (hμ : 0 ≤ μ) : Regular (sc c) (sc j) μ := by
  refine ⟨spd_sc h, hμ, Or.inr fun q hq => ?_⟩
  have := congrFun hq 0
  simp only [sc_transpose, sc_mulVec, Pi.zero_apply, mul_eq_zero, hj, false_or] at this
  exact funext fun i => by rw [Subsingleton.elim i 0]; exact this

/-- The bead. -/
def bead : Rigid (ℝ × ℝ) 1 where
  M x := sc (1 + x.1 ^ 2)
  nle x := fun _ => x.1 * x.2 ^ 2 + 3
  aba x τ := fun _ => (τ 0 - (x.1 * x.2 ^ 2 + 3)) * (1 + x.1 ^ 2)⁻¹
  abaDx x τ := row (-(x.2 ^ 2) * (1 + x.1 ^ 2)⁻¹
    + (τ 0 - (x.1 * x.2 ^ 2 + 3)) * (-(2 * x.1) / (1 + x.1 ^ 2) ^ 2)) (-(2 * x.1 * x.2) * (1 + x.1 ^ 2)⁻¹)
  abaMinv x _ := sc (1 + x.1 ^ 2)⁻¹
  cholInv M := M⁻¹
  rneaDx x a := row (2 * x.1 * a 0 + x.2 ^ 2) (2 * x.1 * x.2)
  rnea x a := fun _ => (1 + x.1 ^ 2) * a 0 + (x.1 * x.2 ^ 2 + 3)

theorem pos (q : ℝ) : 0 < 1 + q ^ 2 := by positivity

theorem bead_ok : RigidOk bead where
  aba x τ _ := by
    funext i
    obtain rfl : i = 0 := Subsingleton.elim _ _
    have := (pos x.1).ne'
    simp only [bead, sc_mulVec, Pi.add_apply]
    field_simp
    ring
  abaMinv x τ _ := by
    simp only [bead, sc_mul, inv_mul_cancel₀ (pos x.1).ne', sc_one]
  cholInv M h := nonsing_inv_mul M h.unit
  rnea x a := by
    funext i
    simp only [bead, sc_mulVec, Pi.add_apply]

theorem bead_spd (x : ℝ × ℝ) : Spd (bead.M x) := spd_sc (pos x.1)

/-- A curve of states. -/
structure Curve (q v : ℝ → ℝ) (δ : Tan 1 → ℝ) : Prop where
  q : HasDerivAt q (δ (Sum.inl 0)) 0
  v : HasDerivAt v (δ (Sum.inr 0)) 0

theorem bead_M {q v : ℝ → ℝ} {δ : Tan 1 → ℝ} (h : Curve q v δ) : ContinuousAt (fun s => bead.M (q s, v s)) 0 := by
  refine continuousAt_pi.2 fun i => continuousAt_pi.2 fun j => ?_
  simp only [bead, sc, of_apply]
  exact continuousAt_const.add (h.q.continuousAt.pow 2)

theorem bead_along {q v : ℝ → ℝ} {δ : Tan 1 → ℝ} (h : Curve q v δ) : RigidAlong bead (fun s => (q s, v s)) δ where
  M := bead_M h
  rnea a := by
    refine hasDerivAt_pi.2 fun i => ?_
    simp only [bead, sc_mulVec, row_mulVec, Pi.add_apply]
    have := ((((h.q.pow 2).const_add 1).mul_const (a 0))).add ((h.q.mul (h.v.pow 2)).add_const 3)
    refine HasDerivAt.congr_deriv this ?_
    simp
    ring
  aba τ := by
    refine hasDerivAt_pi.2 fun i => ?_
    simp only [bead, row_mulVec]
    have := ((((h.q.mul (h.v.pow 2)).add_const 3).const_sub (τ 0))).mul
      (((h.q.pow 2).const_add 1).inv (pos (q 0)).ne')
    refine HasDerivAt.congr_deriv this ?_
    simp
    ring

/-- The motor: the torque is the control. -/
def motor {X : Type} : Act X 1 1 where
  tau _ u := u
  dx _ _ := 0
  du _ _ := 1

theorem motor_along {X : Type} (x : ℝ → X) (u : ℝ → Vec 1) (δ : Tan 1 → ℝ) (w : Vec 1) (h : HasDerivAt u w 0) :
    ActAlong motor x u δ w := by
  unfold ActAlong motor
  simpa using h

/-- Contacts of which the problem is solved with the inverse. -/
def con {X : Type} {nv nc : ℕ} (J : X → Mat nc nv) (a0 : X → Vec nc) (da0 : X → Vec nv → Matrix (Fin nc) (Tan nv) ℝ)
    (rneaDx : X → Vec nv → Vec nc → Matrix (Fin nv) (Tan nv) ℝ) : Contacts X nv nc where
  J := J
  a0 := a0
  da0 := da0
  rneaDx := rneaDx
  dtau _ _ := 0
  lay := ⟨fun i => i, fun i => i⟩
  fwd M b J a0 μ :=
    let z := (kkt M J μ)⁻¹ *ᵥ Sum.elim b (-a0)
    (fun i => z (Sum.inl i), fun i => -z (Sum.inr i))
  kinv M J μ := (kkt M J μ)⁻¹

theorem elim_parts {nv nc : ℕ} (z : Fin nv ⊕ Fin nc → ℝ) :
    z = Sum.elim (fun i => z (Sum.inl i)) (-fun i => -z (Sum.inr i)) := by
  ext i
  cases i <;> simp

theorem con_ok {X : Type} {nv nc : ℕ} (J : X → Mat nc nv) (a0 : X → Vec nc)
    (da0 : X → Vec nv → Matrix (Fin nc) (Tan nv) ℝ) (rneaDx : X → Vec nv → Vec nc → Matrix (Fin nv) (Tan nv) ℝ) :
    ContactsOk (con J a0 da0 rneaDx) where
  fwd M b J a0 μ h := by
    simp only [con]
    set z := (kkt M J μ)⁻¹ *ᵥ Sum.elim b (-a0) with hz
    have h1 : kkt M J μ *ᵥ z = Sum.elim b (-a0) := by
      rw [hz, mulVec_mulVec, mul_nonsing_inv _ h.unit, one_mulVec]
    rw [elim_parts z, kkt_mul] at h1
    obtain ⟨e1, e2⟩ := elim_ext h1
    exact ⟨eq_add_of_sub_eq e1, by rw [eq_sub_of_add_eq e2]; abel⟩
  kinv M J μ h := nonsing_inv_mul _ h.unit

/-- The contact that holds the bead. -/
def hold : Contacts (ℝ × ℝ) 1 1 :=
  con (fun _ => sc 1) (fun x => fun _ => x.1 * x.2) (fun x _ => row x.2 x.1)
    (fun x a _ => row (2 * x.1 * a 0 + x.2 ^ 2) (2 * x.1 * x.2))

theorem hold_along {q v : ℝ → ℝ} {δ : Tan 1 → ℝ} (h : Curve q v δ) :
    ContactsAlong bead hold (fun s => (q s, v s)) δ where
  M := bead_M h
  J := continuousAt_const
  rnea a l := by
    have := ((bead_along h).rnea a).sub_const ((sc 1)ᵀ *ᵥ l)
    refine hasDerivAt_congr this ?_
    simp [hold, con, bead]
  a0 a := by
    refine hasDerivAt_pi.2 fun i => ?_
    simp only [hold, con, sc_mulVec, row_mulVec, Pi.add_apply]
    refine HasDerivAt.congr_deriv ((h.q.mul h.v).const_add (1 * a 0)) ?_
    simp
    ring

theorem hold_regular (x : ℝ × ℝ) {m : CMod 1} (ha : ∀ i, 0 ≤ inertia m.arm i) (hμ : 0 ≤ m.damping) :
    Regular (bead.M x + diagonal (inertia m.arm)) (hold.J x) m.damping := by
  change Regular (sc (1 + x.1 ^ 2) + _) (sc 1) _
  rw [sc_add_diag]
  exact regular_sc (add_pos_of_pos_of_nonneg (pos _) (ha 0)) one_ne_zero hμ

end

/-- C81 and C82 apply to the bead, free and held, with and without armature and damping, at every state and along every curve.
For instance, held at `q = 1` with velocity 2 and without damping, its acceleration is -2. -/
example (d : CDat 1 1 1) (u : Vec 1) : (conCalc bead hold motor {} d (1, 2) u).xout = fun _ => -2 := by
  have h := (C81_gauss bead hold (con_ok _ _ _ _) motor {} d (1, 2) u rfl
    (hold_regular _ (by simp [inertia]) le_rfl) (bead.aba (1, 2) u)
    (by simpa [inertia, motor] using bead_ok.aba (1, 2) u (bead_spd _))).1
  funext i
  obtain rfl : i = 0 := Subsingleton.elim _ _
  have h0 := congrFun h 0
  generalize (conCalc bead hold motor {} d (1, 2) u).xout = a at h0 ⊢
  simp only [hold, con, sc_mulVec, Pi.add_apply, Pi.zero_apply] at h0
  linarith

example (m : Arm 1) (ha : ∀ i, 0 ≤ inertia m i) (D : ℝ → FDat 1 1) {q v : ℝ → ℝ} {δ : Tan 1 → ℝ} (h : Curve q v δ)
    (u : ℝ → Vec 1) (w : Vec 1) (hu : HasDerivAt u w 0) :
    let e := freeDiff bead motor m (freeCalc bead motor m (D 0) (q 0, v 0) (u 0)) (q 0, v 0) (u 0)
    HasDerivAt (fun s => (freeCalc bead motor m (D s) (q s, v s) (u s)).xout) (e.Fx *ᵥ δ + e.Fu *ᵥ w) 0 :=
  (C82_free bead bead_ok motor m D (fun s => (q s, v s)) u δ w (bead_along h) (motor_along _ u δ w hu)
    (Eventually.of_forall fun s => bead_spd _) (Eventually.of_forall fun s => by
      change Spd (sc (1 + q s ^ 2) + _)
      rw [sc_add_diag]
      exact spd_sc (add_pos_of_pos_of_nonneg (pos _) (ha 0)))).1

example (m : CMod 1) (ha : ∀ i, 0 ≤ inertia m.arm i) (hμ : 0 ≤ m.damping) (D : ℝ → CDat 1 1 1) {q v : ℝ → ℝ}
    {δ : Tan 1 → ℝ} (h : Curve q v δ) (u : ℝ → Vec 1) (w : Vec 1) (hu : HasDerivAt u w 0) :
    let e := conDiff hold motor m (conCalc bead hold motor m (D 0) (q 0, v 0) (u 0)) (q 0, v 0) (u 0)
    HasDerivAt (fun s => (conCalc bead hold motor m (D s) (q s, v s) (u s)).xout) (e.Fx *ᵥ δ + e.Fu *ᵥ w) 0 :=
  (C82_contact_partial bead hold (con_ok _ _ _ _) motor m D (fun s => (q s, v s)) u δ w (hold_along h)
    (motor_along _ u δ w hu) (fun i k h => h) (Eventually.of_forall fun s => hold_regular _ ha hμ)).1

/-- Such curves exist through every state in every direction. -/
example (q v : ℝ) (δ : Tan 1 → ℝ) :
    Curve (fun s => q + s * δ (Sum.inl 0)) (fun s => v + s * δ (Sum.inr 0)) δ :=
  ⟨by simpa using ((hasDerivAt_id (0 : ℝ)).mul_const (δ (Sum.inl 0))).const_add q,
   by simpa using ((hasDerivAt_id (0 : ℝ)).mul_const (δ (Sum.inr 0))).const_add v⟩

/-- The constructor accepts a damping that is not negative. -/
example : ∃ m, CMod.make 1 (1 / 2) true = some m := ⟨_, by norm_num [CMod.make]; rfl⟩

noncomputable section

/-- Impulses of which the problem is solved with the inverse; constant inertia and Jacobian. -/
def imps {nv nc : ℕ} (M : Mat nv nv) (J : Mat nc nv) : Impacts ℝ nv nc where
  M _ := M
  J _ := J
  rneaDq _ _ _ := 0
  dtau _ _ := 0
  lay := ⟨fun i => i, fun i => i⟩
  gravDq _ := 0
  dv0 _ _ := 0
  imp M v J r μ :=
    let z := (kkt M J μ)⁻¹ *ᵥ Sum.elim (M *ᵥ v) (-(r • J *ᵥ v))
    (fun i => z (Sum.inl i), fun i => -z (Sum.inr i))
  kinv M J μ := (kkt M J μ)⁻¹

end

theorem imps_ok {nv nc : ℕ} (M : Mat nv nv) (J : Mat nc nv) : ImpactsOk (imps M J) where
  imp M v J r μ h := by
    simp only [imps]
    set z := (kkt M J μ)⁻¹ *ᵥ Sum.elim (M *ᵥ v) (-(r • J *ᵥ v)) with hz
    have h1 : kkt M J μ *ᵥ z = Sum.elim (M *ᵥ v) (-(r • J *ᵥ v)) := by
      rw [hz, mulVec_mulVec, mul_nonsing_inv _ h.unit, one_mulVec]
    rw [elim_parts z, kkt_mul] at h1
    obtain ⟨e1, e2⟩ := elim_ext h1
    refine ⟨by rw [mulVec_sub, eq_add_of_sub_eq e1]; abel, eq_sub_of_add_eq e2⟩
  kinv M J μ h := nonsing_inv_mul _ h.unit

theorem imps_along {nv nc : ℕ} (M : Mat nv nv) (J : Mat nc nv) (q : ℝ → ℝ) (δ : Vec nv) :
    ImpactsAlong (imps M J) (fun _ => 0) q δ where
  M := continuousAt_const
  J := continuousAt_const
  rnea a l := by simpa [imps] using hasDerivAt_const (0 : ℝ) (M *ᵥ a + 0 - Jᵀ *ᵥ l)
  grav := by simpa [imps] using hasDerivAt_const (0 : ℝ) (0 : Vec nv)
  v0 v := by simpa [imps] using hasDerivAt_const (0 : ℝ) (J *ᵥ v)

/-- The hypotheses of C83 hold for a unit mass that hits a wall. -/
example (m : IMod 1) (harm : m.arm.none = true) (hμ : 0 ≤ m.damping) (q : ℝ) :
    Regular ((imps (sc 1) (sc 1)).M q + diagonal (inertia m.arm)) ((imps (sc 1) (sc 1)).J q) m.damping := by
  change Regular (sc 1 + _) (sc 1) _
  rw [sc_add_diag]
  simpa [inertia, harm] using regular_sc one_pos one_ne_zero hμ

/-- The bead balances: C84 applies, and the control is 3. -/
example (d : FDat 1 1) (pinv : ∀ {a b : ℕ}, Mat a b → Mat b a) (hpinv : ∀ {a b : ℕ} (B : Mat a b), B * pinv B * B = B)
    (x : ℝ × ℝ) : (freeCalc bead motor {} d (x.1, 0) (freeStatic bead motor (fun x => (x.1, 0)) pinv x)).xout = 0 :=
  C84_free bead bead_ok motor {} d (fun x => (x.1, 0)) pinv x (hpinv _) (bead_spd _)
    (by simpa [inertia] using bead_spd (x.1, 0)) (fun u => by simp [motor]) ⟨bead.nle (x.1, 0), rfl⟩

end Demo

open Demo in
/-- **C83 (counterexample: restitution).** A unit mass hits a wall with restitution `r ≠ 0`: its velocity `v` becomes `-r v`, but
`Fx` says that the velocity after the impact does not depend on the one before. -/
theorem C83_restitution_counterexample :
    ∃ I : Impacts ℝ 1 1, ImpactsOk I ∧ ImpactsAlong I (fun _ => 0) (fun _ => 0) 0
      ∧ (∀ q, Regular (I.M q) (I.J q) 0)
      ∧ ∀ r, r ≠ 0 → ∀ D : ℝ → IDat ℝ 1 1,
          let m : IMod 1 := { r := r }
          let v : ℝ → Vec 1 := fun s _ => s
          let e := impDiff I m (impCalc I m (D 0) (0, v 0)) (0, v 0)
          HasDerivAt (fun s => (impCalc I m (D s) (0, v s)).xnext.2) (fun _ => -r) 0
          ∧ (fun i => (e.Fx *ᵥ Sum.elim 0 (fun _ => 1)) (Sum.inr i)) = (0 : Vec 1)
          ∧ ¬ HasDerivAt (fun s => (impCalc I m (D s) (0, v s)).xnext.2)
              (fun i => (e.Fx *ᵥ Sum.elim 0 (fun _ => 1)) (Sum.inr i)) 0 := by
  have hreg : Regular (sc 1) (sc 1) 0 := regular_sc one_pos one_ne_zero le_rfl
  refine ⟨imps (sc 1) (sc 1), imps_ok _ _, imps_along _ _ _ _, fun _ => hreg, fun r hr D => ?_⟩
  intro m v e
  have hin : inertia m.arm = 0 := by simp [m, inertia]
  have hval : ∀ s, (impCalc (imps (sc 1) (sc 1)) m (D s) (0, v s)).xnext.2 = fun _ => -r * s := fun s => by
    have h2 := (C83_impact (imps (sc 1) (sc 1)) (imps_ok _ _) m (D s) (0, v s) (by
      rw [hin]; simpa [imps, m] using hreg)).2.2.1
    funext i
    obtain rfl : i = 0 := Subsingleton.elim _ _
    have := congrFun h2 0
    simpa [imps, m, v] using this
  have h1 : HasDerivAt (fun s => (impCalc (imps (sc 1) (sc 1)) m (D s) (0, v s)).xnext.2) (fun _ => -r) 0 := by
    simp only [hval]
    refine hasDerivAt_pi.2 fun i => ?_
    simpa using (hasDerivAt_id (0 : ℝ)).const_mul (-r)
  have hk : ((kkt (sc 1) (sc 1) 0)⁻¹).toBlocks₁₁ = 0 := by
    have h := nonsing_inv_mul _ hreg.unit
    conv at h => lhs; rw [← fromBlocks_toBlocks (kkt (sc 1) (sc 1) 0)⁻¹]
    unfold kkt at h ⊢
    rw [fromBlocks_multiply, ← fromBlocks_one] at h
    have h2 := (fromBlocks_inj.1 h).2.1
    simpa [sc_one] using h2
  have h2 : (fun i => (e.Fx *ᵥ Sum.elim 0 (fun _ => 1)) (Sum.inr i)) = (0 : Vec 1) := by
    funext i
    have hF : e.Fx = fromBlocks 1 0 0 0 := by
      simp [e, impDiff, impCalc, m, imps, Arm.mass, hk]
    rw [hF, fromBlocks_mulVec]
    simp
  refine ⟨h1, h2, fun h => ?_⟩
  rw [h2] at h
  have := congrFun (h1.unique h) 0
  exact hr (by simpa using this)

open Demo in
/-- **C83 (counterexample: armature).** A unit mass with a motor of inertia 1 and no contact keeps its velocity in an impact,
but `Fx` gives half of it: the matrix multiplied into `Fx` is that of the mechanism without the motor. -/
theorem C83_armature_counterexample :
    ∃ I : Impacts ℝ 1 0, ImpactsOk I ∧ ImpactsAlong I (fun _ => 0) (fun _ => 0) 0
      ∧ ∀ D : ℝ → IDat ℝ 1 0,
          let m : IMod 1 := { arm := ({} : Arm 1).set fun _ => 1 }
          let v : ℝ → Vec 1 := fun s _ => s
          let e := impDiff I m (impCalc I m (D 0) (0, v 0)) (0, v 0)
          (∀ q, Regular (I.M q + diagonal (inertia m.arm)) (I.J q) 0)
          ∧ HasDerivAt (fun s => (impCalc I m (D s) (0, v s)).xnext.2) (fun _ => 1) 0
          ∧ (fun i => (e.Fx *ᵥ Sum.elim 0 (fun _ => 1)) (Sum.inr i)) = fun _ => 1 / 2 := by
  have hreg : Regular (sc 2) (0 : Mat 0 1) 0 := ⟨spd_sc two_pos, le_rfl, Or.inr fun q _ => Subsingleton.elim _ _⟩
  refine ⟨imps (sc 1) 0, imps_ok _ _, imps_along _ _ _ _, fun D => ?_⟩
  intro m v e
  have hM : sc 1 + diagonal (fun _ => 1) = sc 2 := by rw [sc_add_diag]; norm_num
  have hin : inertia m.arm = fun _ => 1 := by simp [m, inertia, Arm.set]
  have hreg' : ∀ q, Regular ((imps (sc 1) (0 : Mat 0 1)).M q + diagonal (inertia m.arm)) ((imps (sc 1) (0 : Mat 0 1)).J q) 0 := by
    intro q
    rw [hin]
    change Regular (sc 1 + _) 0 0
    rw [hM]
    exact hreg
  refine ⟨hreg', ?_, ?_⟩
  · have hval : ∀ s, (impCalc (imps (sc 1) (0 : Mat 0 1)) m (D s) (0, v s)).xnext.2 = fun _ => s := fun s => by
      have h2 := (C83_impact (imps (sc 1) (0 : Mat 0 1)) (imps_ok _ _) m (D s) (0, v s) (hreg' 0)).2.1
      funext i
      obtain rfl : i = 0 := Subsingleton.elim _ _
      have := congrFun h2 0
      rw [hin] at this
      generalize (impCalc (imps (sc 1) (0 : Mat 0 1)) m (D s) (0, v s)).xnext.2 = a at this ⊢
      simp [imps, v] at this
      linarith
    simp only [hval]
    exact hasDerivAt_pi.2 fun i => hasDerivAt_id 0
  · have hk : ((kkt (sc 2) (0 : Mat 0 1) 0)⁻¹).toBlocks₁₁ = sc (1 / 2) := by
      have h := nonsing_inv_mul _ hreg.unit
      conv at h => lhs; rw [← fromBlocks_toBlocks (kkt (sc 2) (0 : Mat 0 1) 0)⁻¹]
      unfold kkt at h ⊢
      rw [fromBlocks_multiply, ← fromBlocks_one] at h
      have h2 := (fromBlocks_inj.1 h).1
      rw [Matrix.mul_zero, add_zero] at h2
      have h3 := congrArg (fun B => B * sc (1 / 2)) h2
      simp only [Matrix.mul_assoc, sc_mul, Matrix.one_mul] at h3
      norm_num [sc_one] at h3
      exact h3
    have hF : e.Fx = fromBlocks 1 0 0 (sc (1 / 2)) := by
      have hmir : mirror (sc 1) = sc 1 := by
        ext i j
        simp [mirror, sc]
      have hm1 : m.arm.mass (sc 1) = sc 2 := by rw [mass_eq, hin, hM]
      have h1 : e.Fx = fromBlocks 1 0 0 (((kkt (sc 2) (0 : Mat 0 1) 0)⁻¹).toBlocks₁₁ * sc 1) := by
        simp [e, impDiff, impCalc, m, imps, hmir]
        simp [← hm1, m]
      rw [h1, hk, sc_mul, mul_one]
    funext i
    rw [hF, fromBlocks_mulVec]
    simp

namespace Demo

noncomputable section

/-- A unit mass without gravity. -/
def block : Rigid (ℝ × ℝ) 1 where
  M _ := sc 1
  nle _ := 0
  aba _ τ := τ
  abaDx _ _ := 0
  abaMinv _ _ := 1
  cholInv M := M⁻¹
  rneaDx _ _ := 0
  rnea _ a := a

/-- The Jacobian of two soft supports with lever arm `q`. -/
def arms (q : ℝ) : Mat 2 1 := of fun _ _ => q

theorem arms_t (q : ℝ) (l : Vec 2) : (arms q)ᵀ *ᵥ l = fun _ => q * (l 0 + l 1) := by
  funext i
  simp [arms, mulVec, dotProduct, Fin.sum_univ_two, transpose_apply]
  ring

theorem arms_mul (q : ℝ) (a : Vec 1) : arms q *ᵥ a = fun _ => q * a 0 := by
  funext i
  simp [arms, mulVec, dotProduct]

/-- Two contacts at the same joint. -/
def supports : Contacts (ℝ × ℝ) 1 2 :=
  { con (fun x => arms x.1) 0 (fun _ a => fromCols (arms (a 0)) 0) (fun _ _ l => row (-(l 0 + l 1)) 0) with
    lay := ⟨fun i => i, fun _ => 0⟩ }

theorem supports_ok : ContactsOk supports where
  fwd := (con_ok (fun x : ℝ × ℝ => arms x.1) 0 (fun _ a => fromCols (arms (a 0)) 0)
    (fun _ _ l => row (-(l 0 + l 1)) 0)).fwd
  kinv := (con_ok (fun x : ℝ × ℝ => arms x.1) 0 (fun _ a => fromCols (arms (a 0)) 0)
    (fun _ _ l => row (-(l 0 + l 1)) 0)).kinv

/-- The two impulses at the same joint. -/
def bumps : Impacts ℝ 1 2 :=
  { imps (sc 1) 0 with
    J := arms
    rneaDq := fun _ _ l => sc (-(l 0 + l 1))
    dv0 := fun _ v => arms (v 0)
    lay := ⟨fun i => i, fun _ => 0⟩ }

theorem bumps_ok : ImpactsOk bumps where
  imp := (imps_ok (sc 1) (0 : Mat 2 1)).imp
  kinv := (imps_ok (sc 1) (0 : Mat 2 1)).kinv

theorem arms_regular (q : ℝ) : Regular (sc 1) (arms q) 1 := ⟨spd_sc one_pos, zero_le_one, Or.inl one_pos⟩

/-- The blocks of the inverse for two supports with lever arm 1 and unit damping. -/
theorem arms_inv : ((kkt (sc 1) (arms 1) 1)⁻¹).toBlocks₁₁ = sc (1 / 3)
    ∧ ((kkt (sc 1) (arms 1) 1)⁻¹).toBlocks₁₂ = (of fun _ _ => 1 / 3) := by
  have h := nonsing_inv_mul _ (arms_regular 1).unit
  conv at h => lhs; rw [← fromBlocks_toBlocks (kkt (sc 1) (arms 1) 1)⁻¹]
  unfold kkt at h ⊢
  rw [fromBlocks_multiply, ← fromBlocks_one] at h
  obtain ⟨h1, h2, -, -⟩ := fromBlocks_inj.1 h
  set B := ((fromBlocks (sc 1) (arms 1)ᵀ (arms 1) (-((1 : ℝ) • (1 : Mat 2 2))))⁻¹).toBlocks₁₁
  set Z := ((fromBlocks (sc 1) (arms 1)ᵀ (arms 1) (-((1 : ℝ) • (1 : Mat 2 2))))⁻¹).toBlocks₁₂
  have e1 := congrFun (congrFun h1 0) 0
  have e2 : ∀ j, B 0 0 - Z 0 j = 0 := fun j => by
    have := congrFun (congrFun h2 0) j
    simpa [Matrix.mul_apply, arms, sub_eq_add_neg] using this
  have e3 : B 0 0 + (Z 0 0 + Z 0 1) = 1 := by
    simpa [Matrix.mul_apply, arms, sc, Fin.sum_univ_two] using e1
  have hB : B 0 0 = 1 / 3 := by linarith [e2 0, e2 1]
  constructor
  · ext i j
    obtain rfl : i = 0 := Subsingleton.elim _ _
    obtain rfl : j = 0 := Subsingleton.elim _ _
    simpa [sc] using hB
  · ext i j
    obtain rfl : i = 0 := Subsingleton.elim _ _
    have := e2 j
    simp only [of_apply]
    linarith

theorem arms_cont : ContinuousAt (fun s : ℝ => arms (1 + s)) 0 := by
  refine Continuous.continuousAt ?_
  exact continuous_pi fun _ => continuous_pi fun _ => continuous_const.add continuous_id

theorem arms_solve {s v : ℝ} {a : Vec 1} {l : Vec 2} (h1 : a 0 = v + (1 + s) * (l 0 + l 1))
    (h2 : ∀ i, (1 + s) * a 0 = -l i) :
    a = (fun _ => v / (1 + 2 * (1 + s) ^ 2)) ∧ l = fun _ => -(1 + s) * (v / (1 + 2 * (1 + s) ^ 2)) := by
  have hp : (0 : ℝ) < 1 + 2 * (1 + s) ^ 2 := by positivity
  have ha : a 0 = v / (1 + 2 * (1 + s) ^ 2) := by
    rw [eq_div_iff hp.ne']
    have e0 := h2 0
    have e1 := h2 1
    linear_combination h1 + (1 + s) * e0 + (1 + s) * e1
  constructor
  · funext i
    obtain rfl : i = 0 := Subsingleton.elim _ _
    exact ha
  · funext i
    rw [← ha]
    linarith [h2 i]

theorem arms_deriv : HasDerivAt (fun s : ℝ => fun _ : Fin 1 => 1 / (1 + 2 * (1 + s) ^ 2)) (fun _ => -4 / 9) 0 := by
  refine hasDerivAt_pi.2 fun i => ?_
  have h1 : HasDerivAt (fun s : ℝ => 1 + 2 * (1 + s) ^ 2) 4 0 := by
    have := (((hasDerivAt_id (0 : ℝ)).const_add 1).pow 2).const_mul 2
    refine (this.const_add 1).congr_deriv ?_
    norm_num
  have h2 := h1.inv (by norm_num)
  refine (h2.congr_deriv (by norm_num)).congr_of_eventuallyEq (Eventually.of_forall fun s => ?_)
  simp

end

end Demo

open Demo in
/-- **C82 (counterexample: contacts at one joint).** A unit mass pushed with force 1 against two soft contacts of the same joint,
with lever arm `q`: the acceleration is `1 / (1 + 2 q²)`, of which the derivative at `q = 1` is `-4/9`, but `Fx` says `-1/3`, since
only one of the two forces reaches the derivatives of the torque. -/
theorem C82_same_joint_counterexample :
    ∃ (P : Rigid (ℝ × ℝ) 1) (C : Contacts (ℝ × ℝ) 1 2), ContactsOk C
      ∧ ContactsAlong P C (fun s => (1 + s, 0)) (Sum.elim (fun _ => 1) 0)
      ∧ (∀ x, Regular (P.M x) (C.J x) 1) ∧ C.lay.own 0 ≠ C.lay.own 1 ∧ C.lay.joint 0 = C.lay.joint 1
      ∧ ∀ D : ℝ → CDat 1 2 1,
          let m : CMod 1 := { damping := 1 }
          let u : Vec 1 := fun _ => 1
          let e := conDiff C motor m (conCalc P C motor m (D 0) (1, 0) u) (1, 0) u
          HasDerivAt (fun s => (conCalc P C motor m (D s) (1 + s, 0) u).xout) (fun _ => -4 / 9) 0
          ∧ e.Fx *ᵥ Sum.elim (fun _ => 1) 0 = fun _ => -1 / 3 := by
  refine ⟨block, supports, supports_ok, ⟨continuousAt_const, ?_, ?_, ?_⟩, fun x => arms_regular x.1, by decide, rfl,
    fun D => ?_⟩
  · exact arms_cont
  · intro a l
    refine hasDerivAt_congr (a := fun _ => -(l 0 + l 1)) ?_ ?_
    · change HasDerivAt (fun s => sc 1 *ᵥ a + 0 - (arms (1 + s))ᵀ *ᵥ l) _ 0
      simp only [arms_t]
      refine hasDerivAt_pi.2 fun i => ?_
      have := ((((hasDerivAt_id (0 : ℝ)).const_add 1).mul_const (l 0 + l 1)).neg).const_add ((sc 1 *ᵥ a) i)
      simpa [sub_eq_add_neg] using this
    · symm
      change _ = (Demo.row (-(l 0 + l 1)) 0 + fromCols 0 0) *ᵥ _
      rw [show (fromCols 0 0 : Matrix (Fin 1) (Tan 1) ℝ) = 0 by simp, add_zero, row_mulVec]
      simp
  · intro a
    refine hasDerivAt_congr (a := fun _ => a 0) ?_ ?_
    · change HasDerivAt (fun s => arms (1 + s) *ᵥ a + 0) _ 0
      simp only [arms_mul]
      refine hasDerivAt_pi.2 fun i => ?_
      simpa using ((hasDerivAt_id (0 : ℝ)).const_add 1).mul_const (a 0)
    · symm
      change _ = fromCols (arms (a 0)) 0 *ᵥ _
      rw [fromCols_mulVec]
      funext i
      simp [arms_mul]
  · intro m u e
    have hin : inertia m.arm = 0 := by simp [m, inertia]
    have hval : ∀ s : ℝ, (conCalc block supports motor m (D s) (1 + s, 0) u).xout = (fun _ => 1 / (1 + 2 * (1 + s) ^ 2))
        ∧ (conCalc block supports motor m (D s) (1 + s, 0) u).lam = fun _ => -(1 + s) * (1 / (1 + 2 * (1 + s) ^ 2)) := by
      intro s
      obtain ⟨⟨h1, h2⟩, -⟩ := C81_contact block supports supports_ok motor m (D s) (1 + s, 0) u (by
        rw [hin, show diagonal (0 : Vec 1) = 0 from diagonal_zero, add_zero]; exact arms_regular (1 + s))
      rw [hin] at h1
      generalize (conCalc block supports motor m (D s) (1 + s, 0) u).xout = a at h1 h2 ⊢
      generalize (conCalc block supports motor m (D s) (1 + s, 0) u).lam = l at h1 h2 ⊢
      change sc 1 *ᵥ a + 0 * a + 0 = u + (arms (1 + s))ᵀ *ᵥ l at h1
      change arms (1 + s) *ᵥ a + 0 = -((1 : ℝ) • l) at h2
      rw [arms_t] at h1
      rw [arms_mul] at h2
      exact arms_solve (v := 1) (by simpa [u] using congrFun h1 0) (fun i => by simpa using congrFun h2 i)
    refine ⟨by simp only [(hval _).1]; exact arms_deriv, ?_⟩
    have hx := (hval 0).1
    have hl := (hval 0).2
    rw [add_zero] at hx hl
    have hF : e.Fx = -(sc (1 / 3) * Demo.row (1 / 3) 0) - (of fun _ _ => 1 / 3 : Mat 1 2) * fromCols (arms (1 / 3)) 0 := by
      have hs : supports.rneaDx (1, 0) (conCalc block supports motor m (D 0) (1, 0) u).xout
          (supports.lay.seen (fun _ => true) (conCalc block supports motor m (D 0) (1, 0) u).lam) = Demo.row (1 / 3) 0 := by
        rw [hl]
        change Demo.row _ 0 = _
        norm_num [Layout.seen, supports, Fin.forall_fin_two]
      have hd : supports.da0 (1, 0) (conCalc block supports motor m (D 0) (1, 0) u).xout = fromCols (arms (1 / 3)) 0 := by
        rw [hx]
        change fromCols (arms _) 0 = _
        norm_num
      have h0 : e.Fx = -(((kkt (sc 1) (arms 1) 1)⁻¹).toBlocks₁₁ * (supports.rneaDx (1, 0)
          (conCalc block supports motor m (D 0) (1, 0) u).xout
          (supports.lay.seen (fun _ => true) (conCalc block supports motor m (D 0) (1, 0) u).lam) + fromCols (0 : Mat 1 1) (0 : Mat 1 1)))
          - ((kkt (sc 1) (arms 1) 1)⁻¹).toBlocks₁₂ * supports.da0 (1, 0) (conCalc block supports motor m (D 0) (1, 0) u).xout
          + ((kkt (sc 1) (arms 1) 1)⁻¹).toBlocks₁₁ * (0 : Matrix (Fin 1) (Tan 1) ℝ) := rfl
      rw [h0, hs, hd, arms_inv.1, arms_inv.2]
      simp
    rw [hF, sub_mulVec, neg_mulVec, ← mulVec_mulVec, ← mulVec_mulVec, row_mulVec, fromCols_mulVec]
    funext i
    simp [sc_mulVec, Matrix.mul_apply, mulVec, dotProduct, arms]
    norm_num

open Demo in
/-- **C83 (counterexample: impulses at one joint).** A unit mass with velocity 1 hits two soft contacts of the same joint, with
lever arm `q`: its velocity becomes `1 / (1 + 2 q²)`, of which the derivative at `q = 1` is `-4/9`, but `Fx` says `-1/3`. -/
theorem C83_same_joint_counterexample :
    ∃ I : Impacts ℝ 1 2, ImpactsOk I ∧ ImpactsAlong I (fun _ => 0) (fun s => 1 + s) (fun _ => 1)
      ∧ (∀ q, Regular (I.M q) (I.J q) 1) ∧ I.lay.own 0 ≠ I.lay.own 1 ∧ I.lay.joint 0 = I.lay.joint 1
      ∧ ∀ D : ℝ → IDat ℝ 1 2,
          let m : IMod 1 := { damping := 1 }
          let v : Vec 1 := fun _ => 1
          let e := impDiff I m (impCalc I m (D 0) (1, v)) (1, v)
          HasDerivAt (fun s => (impCalc I m (D s) (1 + s, v)).xnext.2) (fun _ => -4 / 9) 0
          ∧ (fun i => (e.Fx *ᵥ Sum.elim (fun _ => 1) 0) (Sum.inr i)) = fun _ => -1 / 3 := by
  refine ⟨bumps, bumps_ok, ⟨continuousAt_const, arms_cont, ?_, ?_, ?_⟩, arms_regular, by decide, rfl, fun D => ?_⟩
  · intro a l
    refine hasDerivAt_congr (a := fun _ => -(l 0 + l 1)) ?_ ?_
    · change HasDerivAt (fun s => sc 1 *ᵥ a + 0 - (arms (1 + s))ᵀ *ᵥ l) _ 0
      simp only [arms_t]
      refine hasDerivAt_pi.2 fun i => ?_
      have := ((((hasDerivAt_id (0 : ℝ)).const_add 1).mul_const (l 0 + l 1)).neg).const_add ((sc 1 *ᵥ a) i)
      simpa [sub_eq_add_neg] using this
    · symm
      change _ = (sc (-(l 0 + l 1)) + 0) *ᵥ _
      rw [add_zero, sc_mulVec]
      simp
  · simpa [bumps, imps] using hasDerivAt_const (0 : ℝ) (0 : Vec 1)
  · intro a
    change HasDerivAt (fun s => arms (1 + s) *ᵥ a) (arms (a 0) *ᵥ fun _ => 1) 0
    simp only [arms_mul]
    refine hasDerivAt_pi.2 fun i => ?_
    simpa using ((hasDerivAt_id (0 : ℝ)).const_add 1).mul_const (a 0)
  · intro m v e
    have hin : inertia m.arm = 0 := by simp [m, inertia]
    have hval : ∀ s : ℝ, (impCalc bumps m (D s) (1 + s, v)).xnext.2 = (fun _ => 1 / (1 + 2 * (1 + s) ^ 2))
        ∧ (impCalc bumps m (D s) (1 + s, v)).lam = fun _ => -(1 + s) * (1 / (1 + 2 * (1 + s) ^ 2)) := by
      intro s
      obtain ⟨-, h1, h2, -⟩ := C83_impact bumps bumps_ok m (D s) (1 + s, v) (by
        rw [hin, show diagonal (0 : Vec 1) = 0 from diagonal_zero, add_zero]; exact arms_regular (1 + s))
      rw [hin] at h1
      generalize (impCalc bumps m (D s) (1 + s, v)).xnext.2 = a at h1 h2 ⊢
      generalize (impCalc bumps m (D s) (1 + s, v)).lam = l at h1 h2 ⊢
      change sc 1 *ᵥ (a - v) + 0 * (a - v) = (arms (1 + s))ᵀ *ᵥ l at h1
      change arms (1 + s) *ᵥ a = -((0 : ℝ) • _) - (1 : ℝ) • l at h2
      rw [arms_t] at h1
      rw [arms_mul] at h2
      refine arms_solve (v := 1) ?_ (fun i => by simpa using congrFun h2 i)
      have := congrFun h1 0
      simp [sc_mulVec, v] at this
      linarith
    refine ⟨by simp only [(hval _).1]; exact arms_deriv, ?_⟩
    have hx := (hval 0).1
    have hl := (hval 0).2
    rw [add_zero] at hx hl
    have hF : ∀ i, (e.Fx *ᵥ Sum.elim (fun _ => 1) 0) (Sum.inr i)
        = ((-(sc (1 / 3) * sc (1 / 3)) - (of fun _ _ => 1 / 3 : Mat 1 2) * arms (1 / 3)) *ᵥ (fun _ => 1)) i := by
      intro i
      have hs : bumps.rneaDq 1 ((impCalc bumps m (D 0) (1, v)).xnext.2 - v)
          (bumps.lay.seen (fun _ => true) (impCalc bumps m (D 0) (1, v)).lam) = sc (1 / 3) := by
        rw [hl]
        change sc _ = _
        norm_num [Layout.seen, bumps, Fin.forall_fin_two]
      have hd : bumps.dv0 1 (impCalc bumps m (D 0) (1, v)).xnext.2 = arms (1 / 3) := by
        rw [hx]
        change arms _ = _
        norm_num
      have h0 : e.Fx = fromBlocks 1 0 (-(((kkt (sc 1) (arms 1) 1)⁻¹).toBlocks₁₁ * (bumps.rneaDq 1
          ((impCalc bumps m (D 0) (1, v)).xnext.2 - v)
          (bumps.lay.seen (fun _ => true) (impCalc bumps m (D 0) (1, v)).lam) + 0 - 0))
          - ((kkt (sc 1) (arms 1) 1)⁻¹).toBlocks₁₂ * bumps.dv0 1 (impCalc bumps m (D 0) (1, v)).xnext.2)
          (((kkt (sc 1) (arms 1) 1)⁻¹).toBlocks₁₁ * mirror (sc 1)) := rfl
      rw [h0, hs, hd, arms_inv.1, arms_inv.2, fromBlocks_mulVec]
      simp
    simp only [hF]
    funext i
    simp [Matrix.mul_apply, mulVec, dotProduct, arms, sc]
    norm_num

end Verif.Fwd
