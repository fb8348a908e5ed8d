import Verif.Lemmas.ContactFrame
import Mathlib.LinearAlgebra.Matrix.DotProduct
import Mathlib.Analysis.Calculus.MeanValue
import Mathlib.Analysis.Calculus.Deriv.MeanValue
import Mathlib.Analysis.SpecialFunctions.ExpDeriv
import Mathlib.Analysis.SpecialFunctions.Trigonometric.Deriv

/-!
# Contact and impulse models

C86 the acceleration of a contact is that of its position error; C87 its derivative; C88 the force of a contact and the joint
torques; C89 impulses.
-/

namespace Verif.Con

open Matrix

set_option linter.unusedSectionVars false

variable {nv : ℕ}

/-! ### The local quantities -/

theorem locCalc_frame (F : Pose) (g : Gains) (ref : V3) (k : Kin nv) (d : Loc nv) :
    (locCalc F g ref k d).oMf = k.oMf F ∧ (locCalc F g ref k d).fJf = k.fJf F ∧ (locCalc F g ref k d).v = k.vel F := by
  unfold locCalc
  by_cases h : g.kp = 0 <;> by_cases h' : g.kd = 0 <;> simp [h, h']

theorem locCalc_dpl (F : Pose) (g : Gains) (ref : V3) (k : Kin nv) (d : Loc nv) :
    g.kp • (locCalc F g ref k d).dpl = g.kp • ((orient k F)ᵀ *ᵥ (position k F - ref)) := by
  unfold locCalc
  by_cases h : g.kp = 0 <;> by_cases h' : g.kd = 0 <;> simp [h, h', orient, position]

theorem locCalc_a0 (F : Pose) (g : Gains) (ref : V3) (k : Kin nv) (d : Loc nv) :
    (locCalc F g ref k d).a0l
      = k.classical F + g.kp • ((orient k F)ᵀ *ᵥ (position k F - ref)) + g.kd • (k.vel F).lin := by
  unfold locCalc
  by_cases h : g.kp = 0 <;> by_cases h' : g.kd = 0 <;> simp [h, h', orient, position]

/-- The frame of a contact moves with its velocity. -/
theorem Trajectory.frame {k : ℝ → Kin nv} (hk : Trajectory k) {F : Pose} (hF : Rot F.rot) (t : ℝ) :
    Moves (fun s => (k s).oMf F) ((k t).vel F) t := (hk.vel t).frame hF

theorem Trajectory.err {k : ℝ → Kin nv} (hk : Trajectory k) {F : Pose} (hF : Rot F.rot) (ref : V3) (t : ℝ) :
    HasDerivAt (fun t => position (k t) F - ref) (orient (k t) F *ᵥ ((k t).vel F).lin) t :=
  (hk.frame hF t).dtrans.sub_const ref

theorem Trajectory.derr {k : ℝ → Kin nv} (hk : Trajectory k) {F : Pose} (hF : Rot F.rot) (t : ℝ) :
    HasDerivAt (fun t => orient (k t) F *ᵥ ((k t).vel F).lin) (orient (k t) F *ᵥ (k t).classical F) t := by
  refine ((hk.frame hF t).mulVec (((hk.acc t).frame F).lin)).congr_deriv ?_
  simp only [orient, Kin.classical]
  rw [add_comm]
  rfl

theorem orient_rot {k : ℝ → Kin nv} (hk : Trajectory k) {F : Pose} (hF : Rot F.rot) (t : ℝ) : Rot (orient (k t) F) :=
  (hk.frame hF t).rot t

theorem loc_oscillator (F : Pose) (hF : Rot F.rot) (g : Gains) (ref : V3) (k : ℝ → Kin nv) (hk : Trajectory k) (d : Loc nv)
    (t : ℝ) : (locCalc F g ref (k t) d).a0l = (orient (k t) F)ᵀ *ᵥ oscillator g (fun t => position (k t) F - ref) t := by
  have h1 : deriv (fun t => position (k t) F - ref) = fun t => orient (k t) F *ᵥ ((k t).vel F).lin :=
    funext fun t => (hk.err hF ref t).deriv
  have hR := orient_rot hk hF t
  rw [oscillator, h1, (hk.derr hF t).deriv, locCalc_a0, mulVec_add, mulVec_add, mulVec_smul, mulVec_smul, hR.back, hR.back]
  abel

/-! ### C86: what the acceleration of a contact is -/

/-- **C86 (point contacts).** Along every motion, the acceleration computed by the contact of three dimensions is
`e'' + kd e' + kp e`, with `e` the position of the contact frame relative to the reference, in the directions of the type. -/
theorem C86_point (m : C3) (hF : Rot m.jMf.rot) (k : ℝ → Kin nv) (hk : Trajectory k) (d : D3 nv) (t : ℝ) :
    DifferentiableAt ℝ (fun t => position (k t) m.jMf - m.xref) t
    ∧ DifferentiableAt ℝ (deriv fun t => position (k t) m.jMf - m.xref) t
    ∧ (m.calc (k t) d).a0 = m.type.express (orient (k t) m.jMf) (oscillator m.g (fun t => position (k t) m.jMf - m.xref) t) := by
  refine ⟨(hk.err hF _ t).differentiableAt, ?_, ?_⟩
  · rw [show deriv (fun t => position (k t) m.jMf - m.xref) = _ from funext fun t => (hk.err hF m.xref t).deriv]
    exact (hk.derr hF t).differentiableAt
  · have h := loc_oscillator m.jMf hF m.g m.xref k hk d.l t
    obtain ⟨h1, -, -⟩ := locCalc_frame m.jMf m.g m.xref (k t) d.l
    have hR := orient_rot hk hF t
    unfold C3.calc Ref.express
    cases m.type <;> simp only [h, h1]
    · exact hR.forth _
    · exact hR.forth _

/-- A stabilised motion does not gain energy. -/
theorem energy_antitone (g : Gains) (hp : 0 ≤ g.kp) (hd : 0 ≤ g.kd) (e : ℝ → V3) (h1 : ∀ t, DifferentiableAt ℝ e t)
    (h2 : ∀ t, DifferentiableAt ℝ (deriv e) t) (h0 : ∀ t, oscillator g e t = 0) : Antitone (energy g e) := by
  have hdot : ∀ {u : ℝ → V3} {u' : V3} {t : ℝ}, HasDerivAt u u' t → HasDerivAt (fun t => u t ⬝ᵥ u t) (2 * (u t ⬝ᵥ u')) t := by
    intro u u' t h
    rw [hasDerivAt_pi] at h
    have := HasDerivAt.fun_sum (u := Finset.univ) fun j _ => (h j).mul (h j)
    refine this.congr_deriv ?_
    simp only [dotProduct, Finset.mul_sum]
    exact Finset.sum_congr rfl fun i _ => by ring
  have hE : ∀ t, HasDerivAt (energy g e) (-2 * g.kd * (deriv e t ⬝ᵥ deriv e t)) t := by
    intro t
    refine ((hdot (h2 t).hasDerivAt).add ((hdot (h1 t).hasDerivAt).const_mul g.kp)).congr_deriv ?_
    have : deriv (deriv e) t = -(g.kd • deriv e t) - g.kp • e t := by
      have := h0 t
      unfold oscillator at this
      linear_combination (exp := 1) this
    rw [this]
    simp only [dotProduct_sub, dotProduct_neg, dotProduct_smul, smul_eq_mul]
    rw [dotProduct_comm (e t)]
    ring
  refine antitone_of_deriv_nonpos (fun t => (hE t).differentiableAt) fun t => ?_
  rw [(hE t).deriv]
  have : 0 ≤ deriv e t ⬝ᵥ deriv e t := Finset.sum_nonneg fun i _ => mul_self_nonneg _
  nlinarith [mul_nonneg hd this]

/-- **C86 (point contacts hold).** If the contact constraint is kept all along a motion (the acceleration computed is zero)
and the gains are not negative, the error of the contact never gains energy. In particular a contact that rests at the
reference with a positive gain on the position stays there, and without gains its velocity never grows. -/
theorem C86_hold (m : C3) (hF : Rot m.jMf.rot) (hp : 0 ≤ m.g.kp) (hd : 0 ≤ m.g.kd) (k : ℝ → Kin nv) (hk : Trajectory k)
    (d : ℝ → D3 nv) (h0 : ∀ t, (m.calc (k t) (d t)).a0 = 0) :
    Antitone (energy m.g fun t => position (k t) m.jMf - m.xref)
    ∧ ∀ t0, 0 < m.g.kp → position (k t0) m.jMf = m.xref → deriv (fun t => position (k t) m.jMf) t0 = 0 →
      ∀ t ≥ t0, position (k t) m.jMf = m.xref := by
  have hE : Antitone (energy m.g fun t => position (k t) m.jMf - m.xref) := by
    refine energy_antitone m.g hp hd _ (fun t => (C86_point m hF k hk (d t) t).1) (fun t => (C86_point m hF k hk (d t) t).2.1)
      fun t => ?_
    have h := (C86_point m hF k hk (d t) t).2.2
    rw [h0 t] at h
    have hR := orient_rot hk hF t
    unfold Ref.express at h
    cases hm : m.type <;> rw [hm] at h
    · have h : (0 : V3) = (orient (k t) m.jMf)ᵀ *ᵥ _ := h
      rw [← hR.forth (oscillator _ _ t), ← h, mulVec_zero]
    · exact h.symm
    · exact h.symm
  refine ⟨hE, fun t0 hp0 hx hv t ht => ?_⟩
  have h1 := hE ht
  have h2 : deriv (fun t => position (k t) m.jMf - m.xref) t0 = 0 := by rw [deriv_sub_const]; exact hv
  simp only [energy, h2, hx, sub_self, dotProduct_zero, mul_zero, add_zero] at h1
  have a1 : 0 ≤ deriv (fun t => position (k t) m.jMf - m.xref) t ⬝ᵥ deriv (fun t => position (k t) m.jMf - m.xref) t :=
    Finset.sum_nonneg fun i _ => mul_self_nonneg _
  have a2 : 0 ≤ (position (k t) m.jMf - m.xref) ⬝ᵥ (position (k t) m.jMf - m.xref) :=
    Finset.sum_nonneg fun i _ => mul_self_nonneg _
  have a3 : (position (k t) m.jMf - m.xref) ⬝ᵥ (position (k t) m.jMf - m.xref) = 0 := by nlinarith
  exact sub_eq_zero.1 (dotProduct_self_eq_zero.1 a3)

theorem row_mulVec {a b : ℕ} (A : Matrix (Fin a) (Fin b) ℝ) (u : Fin b → ℝ) (i : Fin a) : (A *ᵥ u) i = A i ⬝ᵥ u := rfl

theorem row_mul_mulVec {a b : ℕ} {ι : Type} [Fintype ι] (A : Matrix (Fin a) (Fin b) ℝ) (B : Matrix (Fin b) ι ℝ) (u : ι → ℝ)
    (i : Fin a) : (A * B) i ⬝ᵥ u = A i ⬝ᵥ (B *ᵥ u) := by
  change ((A * B) *ᵥ u) i = (A *ᵥ (B *ᵥ u)) i
  rw [mulVec_mulVec]

/-- **C86 (contacts of one dimension).** The acceleration is the component of `e'' + kd e' + kp e` along the constrained direction,
with `e` the position relative to the point at the distance `xref` along the announced direction. The full claim, with `e` measured
along the constrained direction itself, holds when the two directions are the same (second part) and fails otherwise
(`C86_axis_counterexample`). -/
theorem C86_line_partial (m : C1) (hF : Rot m.jMf.rot) (k : ℝ → Kin nv) (hk : Trajectory k) (d : D1 nv) (t : ℝ) :
    (m.calc (k t) d).a0 = m.direction ⬝ᵥ m.type.express (orient (k t) m.jMf)
      (oscillator m.g (fun t => position (k t) m.jMf - m.xref • m.announced) t)
    ∧ (Rot m.axis → m.announced = m.direction → m.type ≠ .loc →
        (m.calc (k t) d).a0 = 
          deriv (deriv fun t => m.direction ⬝ᵥ position (k t) m.jMf - m.xref) t
          + m.g.kd * deriv (fun t => m.direction ⬝ᵥ position (k t) m.jMf - m.xref) t
          + m.g.kp * (m.direction ⬝ᵥ position (k t) m.jMf - m.xref)) := by
  have h := loc_oscillator m.jMf hF m.g (m.xref • m.announced) k hk d.l t
  have hr : (m.xref • m.axis) *ᵥ unitZ = m.xref • m.announced := by rw [smul_mulVec]; rfl
  have h1 := (locCalc_frame m.jMf m.g (m.xref • m.announced) (k t) d.l).1
  have hR := orient_rot hk hF t
  have key : (m.calc (k t) d).a0 = m.direction ⬝ᵥ m.type.express (orient (k t) m.jMf)
      (oscillator m.g (fun t => position (k t) m.jMf - m.xref • m.announced) t) := by
    unfold C1.calc Ref.express C1.direction
    cases m.type <;> simp only [hr, h, h1]
    · rfl
    all_goals
      rw [row_mulVec, row_mul_mulVec]
      congr 1
      exact hR.forth _
  refine ⟨key, fun hA hn ht => ?_⟩
  rw [key]
  have hx : m.type.express (orient (k t) m.jMf) = id := by
    funext w; cases hm : m.type
    · exact absurd hm ht
    all_goals rfl
  rw [hx, id]
  have hu : m.direction ⬝ᵥ m.announced = 1 := by
    rw [hn]
    have := congrFun (congrFun hA.orth' 2) 2
    simpa [Matrix.mul_apply, dotProduct, C1.direction] using this
  have hdot : ∀ {u : ℝ → V3} {u' : V3} {t : ℝ}, HasDerivAt u u' t → 
      HasDerivAt (fun t => m.direction ⬝ᵥ u t) (m.direction ⬝ᵥ u') t := by
    intro u u' t h
    rw [hasDerivAt_pi] at h
    exact HasDerivAt.fun_sum (u := Finset.univ) fun j _ => (h j).const_mul (m.direction j)
  have e1 : (fun t => m.direction ⬝ᵥ position (k t) m.jMf - m.xref)
      = fun t => m.direction ⬝ᵥ (position (k t) m.jMf - m.xref • m.announced) := by
    funext s
    rw [dotProduct_sub, dotProduct_smul, hu, smul_eq_mul, mul_one]
  have d1 : ∀ t, HasDerivAt (fun t => m.direction ⬝ᵥ (position (k t) m.jMf - m.xref • m.announced)) _ t :=
    fun t => hdot (hk.err hF (m.xref • m.announced) t)
  have e2 := funext fun t => (d1 t).deriv
  rw [e1, e2, (hdot (hk.derr hF t)).deriv]
  unfold oscillator
  rw [show deriv (fun t => position (k t) m.jMf - m.xref • m.announced) = _ from
    funext fun t => (hk.err hF (m.xref • m.announced) t).deriv, (hk.derr hF t).deriv]
  rw [show m.direction ⬝ᵥ position (k t) m.jMf - m.xref = _ from congrFun e1 t]
  simp [dotProduct_add, dotProduct_smul]

/-- **C86 (contacts of six dimensions).** The acceleration is `v' + kd v + kp log(pref⁻¹ oMf)` in the directions of the type, with
`v` the velocity of the contact frame (in that frame) and `v'` its derivative in time. -/
theorem C86_frame (L : Log) (m : C6) (hF : Rot m.jMf.rot) (k : ℝ → Kin nv) (hk : Trajectory k) (d : D6 nv) (t : ℝ) :
    Moves (fun s => (k s).oMf m.jMf) ((k t).vel m.jMf) t
    ∧ ∃ v' : Six, HasSix (fun s => (k s).vel m.jMf) v' t
      ∧ let e := (v'.addSmul m.g.kd ((k t).vel m.jMf)).addSmul m.g.kp (L.log (m.pref.inv.mul ((k t).oMf m.jMf)))
        let R := orient (k t) m.jMf
        (m.calc L (k t) d).a0.lin = m.type.express R (R *ᵥ e.lin) ∧ (m.calc L (k t) d).a0.ang = m.type.express R (R *ᵥ e.ang) := by
  refine ⟨hk.frame hF t, (k t).acc m.jMf, (hk.acc t).frame _, ?_⟩
  have hR := orient_rot hk hF t
  unfold C6.calc Ref.express Six.addSmul
  have ho : ((k t).oMf m.jMf).rotᵀ * ((k t).oMf m.jMf).rot = 1 := hR.orth
  by_cases hp : m.g.kp = 0 <;> by_cases hd : m.g.kd = 0 <;> cases m.type <;>
    simp [hp, hd, ho, D6.lwaMl, Pose.act, orient, add_right_comm]

/-- **C86 (contacts of six dimensions hold).** If the constraint is kept all along a motion, without a gain on the placement
and with a gain on the velocity that is not negative, the velocity of the contact never grows; a contact at rest stays at
rest. -/
theorem C86_frame_hold (L : Log) (m : C6) (hF : Rot m.jMf.rot) (hp : m.g.kp = 0) (hd : 0 ≤ m.g.kd) (k : ℝ → Kin nv)
    (hk : Trajectory k) (d : ℝ → D6 nv) (h0 : ∀ t, (m.calc L (k t) (d t)).a0 = ⟨0, 0⟩) :
    (Antitone fun t => ((k t).vel m.jMf).lin ⬝ᵥ ((k t).vel m.jMf).lin)
    ∧ Antitone fun t => ((k t).vel m.jMf).ang ⬝ᵥ ((k t).vel m.jMf).ang := by
  have key : ∀ (u : ℝ → V3), (∀ t, HasDerivAt u (-(m.g.kd • u t)) t) → Antitone fun t => u t ⬝ᵥ u t := by
    intro u hu
    have hE : ∀ t, HasDerivAt (fun t => u t ⬝ᵥ u t) (-2 * m.g.kd * (u t ⬝ᵥ u t)) t := by
      intro t
      have h := hasDerivAt_pi.1 (hu t)
      have := HasDerivAt.fun_sum (u := Finset.univ) fun j _ => (h j).mul (h j)
      refine this.congr_deriv ?_
      simp only [dotProduct, Finset.mul_sum, Pi.neg_apply, Pi.smul_apply, smul_eq_mul]
      exact Finset.sum_congr rfl fun i _ => by ring
    refine antitone_of_deriv_nonpos (fun t => (hE t).differentiableAt) fun t => ?_
    rw [(hE t).deriv]
    have : 0 ≤ u t ⬝ᵥ u t := Finset.sum_nonneg fun i _ => mul_self_nonneg _
    nlinarith [mul_nonneg hd this]
  have hzero : ∀ t, ∀ w : V3, (0 : V3) = m.type.express (orient (k t) m.jMf) (orient (k t) m.jMf *ᵥ w) → w = 0 := by
    intro t w h
    have hR := orient_rot hk hF t
    unfold Ref.express at h
    cases hm : m.type <;> rw [hm] at h
    · have h : (0 : V3) = (orient (k t) m.jMf)ᵀ *ᵥ (orient (k t) m.jMf *ᵥ w) := h
      rw [hR.back] at h
      exact h.symm
    all_goals
      have h : (0 : V3) = orient (k t) m.jMf *ᵥ w := h
      rw [← hR.back w, ← h, mulVec_zero]
  constructor
  · refine key _ fun t => ?_
    obtain ⟨v', hv', h1, -⟩ := (C86_frame L m hF k hk (d t) t).2
    rw [h0 t] at h1
    refine hv'.lin.congr_deriv ?_
    have := hzero t _ h1
    simp only [Six.addSmul, hp, zero_smul, add_zero] at this
    exact eq_neg_of_add_eq_zero_left this
  · refine key _ fun t => ?_
    obtain ⟨v', hv', -, h1⟩ := (C86_frame L m hF k hk (d t) t).2
    rw [h0 t] at h1
    refine hv'.ang.congr_deriv ?_
    have := hzero t _ h1
    simp only [Six.addSmul, hp, zero_smul, add_zero] at this
    exact eq_neg_of_add_eq_zero_left this

/-- **C86 (contacts of two dimensions).** The acceleration is made of two parts in different directions: `p'' + kd p'` in those of the
contact frame, `kp (p - xref)` in those of the world. The full claim (one direction for both) holds when the contact
frame is parallel to the world (second part) and fails otherwise (`C86_plane_counterexample`). -/
theorem C86_plane_partial (m : C2) (hF : Rot m.jMf.rot) (k : ℝ → Kin nv) (hk : Trajectory k) (d : D2 nv) (t : ℝ) :
    let p := fun t => position (k t) m.jMf
    (m.calc (k t) d).a0 = xz ((orient (k t) m.jMf)ᵀ *ᵥ (deriv (deriv p) t + m.g.kd • deriv p t)) + m.g.kp • (xz (p t) - m.xref)
    ∧ (orient (k t) m.jMf = 1 → (m.calc (k t) d).a0 = xz (oscillator m.g (fun t => p t - ![m.xref 0, 0, m.xref 1]) t)) := by
  intro p
  have h1 : deriv p = fun t => orient (k t) m.jMf *ᵥ ((k t).vel m.jMf).lin := by
    funext t
    have := (hk.err hF 0 t).deriv
    simpa using this
  have hR := orient_rot hk hF t
  have key : (m.calc (k t) d).a0
      = xz ((orient (k t) m.jMf)ᵀ *ᵥ (deriv (deriv p) t + m.g.kd • deriv p t)) + m.g.kp • (xz (p t) - m.xref) := by
    rw [h1, (hk.derr hF t).deriv, mulVec_add, mulVec_smul, hR.back, hR.back]
    unfold C2.calc
    ext i
    by_cases hp : m.g.kp = 0 <;> by_cases hd : m.g.kd = 0 <;> fin_cases i <;>
      simp [hp, hd, Kin.classical, cross_apply, xz, p, position, vecHead, vecTail] <;> ring
  refine ⟨key, fun ho => ?_⟩
  have e1 : deriv (fun t => p t - ![m.xref 0, 0, m.xref 1]) = deriv p := by
    funext t; exact deriv_sub_const _
  rw [key, ho, oscillator, e1]
  ext i
  fin_cases i <;> simp [xz, vecHead, vecTail]

/-! ### C86: where the claim fails -/

/-- The joint of a body that slides along a line without turning: position `p`, velocity `v` and acceleration `a` in the frame of
the joint, of orientation `R`. -/
noncomputable def slide (R : M3) (p v a : V3) : Kin 1 where
  oMi := ⟨R, p⟩
  v := ⟨v, 0⟩
  a := ⟨a, 0⟩
  vq := ⟨0, 0⟩
  aq := ⟨0, 0⟩
  av := ⟨0, 0⟩
  J := ⟨Matrix.of fun i _ => ![1, 0, 0] i, 0⟩

/-- The frame of the joint. -/
def here : Pose := ⟨1, 0⟩

theorem skew_zero : skew 0 = 0 := by ext i j; fin_cases i <;> fin_cases j <;> simp [skew]

theorem slide_trajectory {R : M3} (hR : Rot R) {p v a : ℝ → V3} (hp : ∀ t, HasDerivAt p (R *ᵥ v t) t)
    (hv : ∀ t, HasDerivAt v (a t) t) : Trajectory fun t => slide R (p t) (v t) (a t) where
  vel t := ⟨fun _ => hR, fun i j => (hasDerivAt_const t (R i j)).congr_deriv (by simp [slide, skew_zero]), hp t⟩
  acc t := ⟨hv t, hasDerivAt_const t 0⟩

/-- The rotation that permutes the axes: `z ↦ x ↦ y ↦ z`. -/
def cyc : M3 := !![0, 0, 1; 1, 0, 0; 0, 1, 0]

theorem cyc_rot : Rot cyc := by
  refine ⟨?_, by simp [cyc, det_fin_three]⟩
  ext i j
  fin_cases i <;> fin_cases j <;> simp [cyc, Matrix.mul_apply, Fin.sum_univ_three]

/-- Half a turn about the `y` axis. -/
def half : M3 := !![-1, 0, 0; 0, 1, 0; 0, 0, -1]

theorem half_rot : Rot half := by
  refine ⟨?_, by simp [half, det_fin_three]⟩
  ext i j
  fin_cases i <;> fin_cases j <;> simp [half, Matrix.mul_apply, Fin.sum_univ_three]

/-- **C86 (the axis of a contact of one dimension).** For a rotation that is not symmetric the contact announces one direction and
constrains another, and its reference is not the one it converges to: the contact with announced direction `x` and reference
`1` is satisfied by a body that runs away along `x`, and is not satisfied by one that rests with all its coordinates at `1`. -/
theorem C86_axis_counterexample :
    let m : C1 := ⟨here, 1, .world, cyc, ⟨1, 1⟩⟩
    m.announced = ![1, 0, 0]
    ∧ (∃ k : ℝ → Kin 1, Trajectory k ∧ (∀ t d, (m.calc (k t) d).a0 = 0) ∧ ∀ t, position (k t) here = ![t, 0, 0])
    ∧ (∃ k : ℝ → Kin 1, Trajectory k ∧ (∀ t d, (m.calc (k t) d).a0 ≠ 0) ∧ ∀ t, position (k t) here = ![1, 1, 1]) := by
  intro m
  have hn : m.announced = ![1, 0, 0] := by
    ext i; fin_cases i <;> simp [m, C1.announced, cyc, unitZ, Matrix.mulVec, dotProduct, Fin.sum_univ_three, vecHead, vecTail]
  refine ⟨hn, ⟨fun t => slide 1 ![t, 0, 0] ![1, 0, 0] 0, ?_, ?_, ?_⟩,
    ⟨fun t => slide 1 ![1, 1, 1] 0 0, ?_, ?_, ?_⟩⟩
  · refine slide_trajectory (v := fun _ => ![1, 0, 0]) (a := fun _ => 0) Rot.one (fun t => ?_) fun t => hasDerivAt_const t _
    rw [hasDerivAt_pi]
    intro i
    fin_cases i
    · simpa using hasDerivAt_id' t
    · simpa using hasDerivAt_const t (0 : ℝ)
    · simpa using hasDerivAt_const t (0 : ℝ)
  · intro t d
    simp [C1.calc, m, locCalc, slide, here, Kin.oMf, Pose.mul, Kin.fJf, Kin.vel, Kin.acc, Kin.classical, Pose.actInv,
      cyc, unitZ, Matrix.mulVec, dotProduct, Fin.sum_univ_three, vecHead, vecTail]
  · intro t
    simp [position, slide, here, Kin.oMf, Pose.mul]
  · exact slide_trajectory (p := fun _ => ![1, 1, 1]) (v := fun _ => 0) (a := fun _ => 0) Rot.one
      (fun t => (hasDerivAt_const t _).congr_deriv (by simp)) fun t => hasDerivAt_const t _
  · intro t d
    simp [C1.calc, m, locCalc, slide, here, Kin.oMf, Pose.mul, Kin.fJf, Kin.vel, Kin.acc, Kin.classical, Pose.actInv,
      cyc, unitZ, Matrix.mulVec, dotProduct, Fin.sum_univ_three, vecHead, vecTail]
  · intro t
    simp [position, slide, here, Kin.oMf, Pose.mul]

/-- **C86 (contacts of two dimensions).** When the contact frame is turned by half a turn about `y`, the gains of the
stabilisation (both positive) drive the contact away from its reference: a motion that satisfies the constraint moves away
exponentially. -/
theorem C86_plane_counterexample :
    let m : C2 := ⟨here, 0, ⟨2, 1⟩⟩
    ∃ k : ℝ → Kin 1, Trajectory k ∧ (∀ t d, (m.calc (k t) d).a0 = 0) ∧ ∀ t, position (k t) here = ![Real.exp t, 0, 0] := by
  intro m
  refine ⟨fun t => slide half ![Real.exp t, 0, 0] ![-Real.exp t, 0, 0] ![-Real.exp t, 0, 0], ?_, ?_, ?_⟩
  · refine slide_trajectory (p := fun t => ![Real.exp t, 0, 0]) (v := fun t => ![-Real.exp t, 0, 0])
      (a := fun t => ![-Real.exp t, 0, 0]) half_rot (fun t => ?_) fun t => ?_
    · rw [hasDerivAt_pi]
      intro i
      fin_cases i
      · simpa [half] using Real.hasDerivAt_exp t
      · simpa [half] using hasDerivAt_const t (0 : ℝ)
      · simpa [half] using hasDerivAt_const t (0 : ℝ)
    · rw [hasDerivAt_pi]
      intro i
      fin_cases i
      · simpa using (Real.hasDerivAt_exp t).fun_neg
      · simpa using hasDerivAt_const t (0 : ℝ)
      · simpa using hasDerivAt_const t (0 : ℝ)
  · intro t d
    ext i
    fin_cases i
    · simp [C2.calc, m, slide, here, Kin.oMf, Pose.mul, Kin.vel, Kin.acc, Pose.actInv]
      ring
    · simp [C2.calc, m, slide, here, Kin.oMf, Pose.mul, Kin.vel, Kin.acc, Pose.actInv]
  · intro t
    simp [position, slide, here, Kin.oMf, Pose.mul]

/-! ### C86: the acceleration is affine in that of the joints -/

theorem Accelerated.acc {k k' : Kin nv} {α : Fin nv → ℝ} (h : Accelerated k k' α) {F : Pose} (hF : Rot F.rot) :
    k'.acc F = (k.acc F).add ((k.fJf F).mulVec α) := by
  unfold Kin.acc Kin.fJf
  rw [h.a, actInv_add, fXj_mulVec hF]

theorem SameState.frame {k k' : Kin nv} (h : SameState k k') (F : Pose) :
    k'.oMf F = k.oMf F ∧ k'.fJf F = k.fJf F ∧ k'.vel F = k.vel F := by
  refine ⟨?_, ?_, ?_⟩
  · rw [Kin.oMf, Kin.oMf, h.oMi]
  · rw [Kin.fJf, Kin.fJf, h.J]
  · rw [Kin.vel, Kin.vel, h.v]

theorem Accelerated.loc {k k' : Kin nv} {α : Fin nv → ℝ} (h : Accelerated k k' α) {F : Pose} (hF : Rot F.rot) (g : Gains)
    (ref : V3) (d d' : Loc nv) : (locCalc F g ref k' d').a0l = (locCalc F g ref k d).a0l + (k.fJf F).lin *ᵥ α := by
  obtain ⟨h1, h2, h3⟩ := h.same.frame F
  rw [locCalc_a0, locCalc_a0, Kin.classical, Kin.classical, h.acc hF, orient, orient, position, position, h1, h3]
  simp only [Six.add, Jac.mulVec]
  abel

/-- **C86 (Jacobian).** The acceleration computed at one state is affine in that of the joints, with the Jacobian
computed beside it. -/
theorem C86_affine (F : Pose) (hF : Rot F.rot) (type : Ref) (g : Gains) (k k' : Kin nv) (α : Fin nv → ℝ)
    (h : Accelerated k k' α) :
    (∀ xref d d', let m : C3 := ⟨F, xref, type, g⟩
      (m.calc k' d').a0 = (m.calc k d).a0 + (m.calc k d).Jc *ᵥ α)
    ∧ (∀ xref axis d d', let m : C1 := ⟨F, xref, type, axis, g⟩
      (m.calc k' d').a0 = (m.calc k d).a0 + (m.calc k d).Jc ⬝ᵥ α)
    ∧ (∀ xref d d', let m : C2 := ⟨F, xref, g⟩
      (m.calc k' d').a0 = (m.calc k d).a0 + (m.calc k d).Jc *ᵥ α)
    ∧ (∀ L pref d d', let m : C6 := ⟨F, pref, type, g⟩
      (m.calc L k' d').a0 = (m.calc L k d).a0.add ((m.calc L k d).Jc.mulVec α)) := by
  obtain ⟨e1, e2, e3⟩ := h.same.frame F
  refine ⟨fun xref d d' => ?_, fun xref axis d d' => ?_, fun xref d d' => ?_, fun L pref d d' => ?_⟩
  · intro m
    obtain ⟨f1, f2, f3⟩ := locCalc_frame F g xref k d.l
    obtain ⟨f1', -, -⟩ := locCalc_frame F g xref k' d'.l
    have hl := h.loc hF g xref d.l d'.l
    unfold C3.calc
    cases type <;> simp only [m, hl, f1, f2, f1', e1, mulVec_add, mulVec_mulVec]
  · intro m
    obtain ⟨f1, f2, f3⟩ := locCalc_frame F g ((xref • axis) *ᵥ unitZ) k d.l
    obtain ⟨f1', -, -⟩ := locCalc_frame F g ((xref • axis) *ᵥ unitZ) k' d'.l
    have hl := h.loc hF g ((xref • axis) *ᵥ unitZ) d.l d'.l
    unfold C1.calc
    cases type <;> simp only [m, hl, f1, f2, f1', e1, mulVec_add, mulVec_mulVec] <;> rfl
  · intro m
    have ha := h.acc hF
    unfold C2.calc
    ext i
    by_cases hp : g.kp = 0 <;> by_cases hd : g.kd = 0 <;> fin_cases i <;>
      simp [m, hp, hd, ha, e1, e3, Six.add, Jac.mulVec, Matrix.mulVec] <;> ring
  · intro m
    have ha := h.acc hF
    unfold C6.calc
    by_cases hp : g.kp = 0 <;> by_cases hd : g.kd = 0 <;> cases type <;>
      simp [m, hp, hd, ha, e1, e2, e3, Six.add, Six.addSmul, Jac.mulVec, D6.lwaMl, Pose.act, Pose.action, Mat6.mul, mulVec_add,
        skew_zero] <;> (try constructor) <;> abel

/-! ### C87: the derivative of the acceleration -/

theorem locDiff_frame (F : Pose) (g : Gains) (k : Kin nv) (d : Loc nv) :
    (locDiff F g k d).oMf = d.oMf ∧ (locDiff F g k d).fJf = d.fJf ∧ (locDiff F g k d).v = d.v ∧ (locDiff F g k d).dpl = d.dpl :=
  ⟨rfl, rfl, rfl, rfl⟩

theorem locDiff_dal (F : Pose) (g : Gains) (k : Kin nv) (d : Loc nv) (δ : Tan nv → ℝ) :
    let dq := (fXj F).mul k.vq
    (locDiff F g k d).dal *ᵥ δ
      = ((fXj F).mul k.aq).lin *ᵥ (δ ∘ Sum.inl) + d.v.ang ⨯₃ (dq.lin *ᵥ (δ ∘ Sum.inl)) - d.v.lin ⨯₃ (dq.ang *ᵥ (δ ∘ Sum.inl))
        + (g.kp • d.dpl) ⨯₃ (d.fJf.ang *ᵥ (δ ∘ Sum.inl)) + g.kp • (d.fJf.lin *ᵥ (δ ∘ Sum.inl))
        + g.kd • (dq.lin *ᵥ (δ ∘ Sum.inl))
        + (((fXj F).mul k.av).lin *ᵥ (δ ∘ Sum.inr) + d.v.ang ⨯₃ (d.fJf.lin *ᵥ (δ ∘ Sum.inr))
            - d.v.lin ⨯₃ (d.fJf.ang *ᵥ (δ ∘ Sum.inr)) + g.kd • (d.fJf.lin *ᵥ (δ ∘ Sum.inr))) := by
  intro dq
  unfold locDiff
  simp only [fromCols_mulVec]
  by_cases hp : g.kp = 0 <;> by_cases hd : g.kd = 0 <;>
    simp [hp, hd, add_mulVec, sub_mulVec, smul_mulVec, ← mulVec_mulVec, skew_mulVec, dq]

/-- The local acceleration has the local derivative. -/
theorem loc_deriv (F : Pose) (hF : Rot F.rot) (g : Gains) (ref : V3) (k : ℝ → Kin nv) (δ : Tan nv → ℝ) (hk : Along k δ)
    (k0 : Kin nv) (h0 : SameState k0 (k 0)) (d : Loc nv) (d' : ℝ → Loc nv) :
    HasDerivAt (fun s => (locCalc F g ref (k s) (d' s)).a0l) ((locDiff F g (k 0) (locCalc F g ref k0 d)).dal *ᵥ δ) 0 := by
  have hM : Moves (fun s => (k s).oMf F) (F.actInv ((k 0).J.mulVec (δ ∘ Sum.inl))) 0 := hk.pose.frame hF
  have hv := hk.vel.frame F
  have ha := hk.acc.frame F
  have hd : HasDerivAt (fun s => (orient (k s) F)ᵀ *ᵥ (position (k s) F - ref)) _ 0 := hM.tmulVec (hM.dtrans.sub_const ref)
  have := ((ha.lin.add (hasDerivAt_cross hv.ang hv.lin)).add (hd.const_smul g.kp)).add (hv.lin.const_smul g.kd)
  have hf : (fun s => (locCalc F g ref (k s) (d' s)).a0l) = fun s =>
      ((F.actInv (k s).a).lin + (F.actInv (k s).v).ang ⨯₃ (F.actInv (k s).v).lin)
        + g.kp • ((orient (k s) F)ᵀ *ᵥ (position (k s) F - ref)) + g.kd • (F.actInv (k s).v).lin :=
    funext fun s => locCalc_a0 F g ref (k s) (d' s)
  rw [hf]
  refine this.congr_deriv ?_
  obtain ⟨f1, f2, f3⟩ := locCalc_frame F g ref k0 d
  obtain ⟨e1, e2, e3⟩ := h0.frame F
  rw [locDiff_dal, f2, f3, locCalc_dpl, ← e2, ← e3]
  simp only [orient, position, ← e1]
  simp only [Kin.fJf, fXj_lin hF, fXj_ang hF, Kin.vel]
  rw [hM.rot 0 |>.back, actInv_add, actInv_add]
  simp only [Six.add, map_add, map_smul, LinearMap.add_apply, LinearMap.smul_apply, smul_add]
  rw [← cross_anticomm (F.actInv (k 0).v).lin, ← cross_anticomm (F.actInv (k 0).v).lin]
  abel

theorem locAgain_a0 (F : Pose) (g : Gains) (ref : V3) (k k0 : Kin nv) (h0 : SameState k0 k) (d d' : Loc nv) :
    (locAgain F g k (locDiff F g k (locCalc F g ref k0 d))).a0l = (locCalc F g ref k d').a0l := by
  obtain ⟨e1, e2, e3⟩ := h0.frame F
  have h : ∀ l : Loc nv, (locAgain F g k l).a0l = k.classical F + g.kp • l.dpl + g.kd • l.v.lin := by
    intro l
    unfold locAgain
    by_cases hp : g.kp = 0 <;> by_cases hd : g.kd = 0 <;> simp [hp, hd]
  obtain ⟨-, -, f3⟩ := locCalc_frame F g ref k0 d
  obtain ⟨-, -, g3, g4⟩ := locDiff_frame F g k (locCalc F g ref k0 d)
  rw [h, g3, g4, f3, locCalc_dpl, locCalc_a0, ← e3]
  simp only [orient, position, ← e1]

theorem locAgain_frame (F : Pose) (g : Gains) (k : Kin nv) (d : Loc nv) :
    (locAgain F g k d).oMf = d.oMf ∧ (locAgain F g k d).fJf = d.fJf ∧ (locAgain F g k d).dal = d.dal := ⟨rfl, rfl, rfl⟩

/-- **C87 (point contacts).** After `calc` at a state (with whatever joint acceleration the data held) and `calcDiff` at the same
state with the joint acceleration `a`, the matrix computed is the derivative of the acceleration of the contact for the joint
acceleration `a`, along every curve of states; and the acceleration stored for the directions of the world is that for `a`. -/
theorem C87_point (m : C3) (hF : Rot m.jMf.rot) (k : ℝ → Kin nv) (δ : Tan nv → ℝ) (hk : Along k δ) (k0 : Kin nv)
    (h0 : SameState k0 (k 0)) (d : D3 nv) (d' : ℝ → D3 nv) :
    HasDerivAt (fun s => (m.calc (k s) (d' s)).a0) ((m.diff (k 0) (m.calc k0 d)).da0 *ᵥ δ) 0
    ∧ (m.type ≠ .loc → (m.diff (k 0) (m.calc k0 d)).a0 = (m.calc (k 0) (d' 0)).a0) := by
  have hl := loc_deriv m.jMf hF m.g m.xref k δ hk k0 h0 d.l fun s => (d' s).l
  have ha := locAgain_a0 m.jMf m.g m.xref (k 0) k0 h0 d.l (d' 0).l
  have hM : Moves (fun s => (k s).oMf m.jMf) (m.jMf.actInv ((k 0).J.mulVec (δ ∘ Sum.inl))) 0 := hk.pose.frame hF
  obtain ⟨e1, e2, e3⟩ := h0.frame m.jMf
  have hc := fun s => locCalc_frame m.jMf m.g m.xref (k s) (d' s).l
  obtain ⟨f1, f2, -⟩ := locCalc_frame m.jMf m.g m.xref k0 d.l
  have hw : HasDerivAt (fun s => ((k s).oMf m.jMf).rot *ᵥ (locCalc m.jMf m.g m.xref (k s) (d' s).l).a0l)
      ((((k 0).oMf m.jMf).rot * (locDiff m.jMf m.g (k 0) (locCalc m.jMf m.g m.xref k0 d.l)).dal
        - fromCols (skew (((k 0).oMf m.jMf).rot *ᵥ (locCalc m.jMf m.g m.xref (k 0) (d' 0).l).a0l) * ((k 0).oMf m.jMf).rot
            * ((k 0).fJf m.jMf).ang) 0) *ᵥ δ) 0 := by
    refine (hM.mulVec hl).congr_deriv ?_
    rw [sub_mulVec, fromCols_mulVec, zero_mulVec, add_zero, ← mulVec_mulVec, ← mulVec_mulVec, ← mulVec_mulVec, skew_mulVec,
      mulVec_add, Kin.fJf, fXj_ang hF, (hM.rot 0).cross, ← cross_anticomm, mulVec_neg]
    abel
  unfold C3.calc C3.diff
  rcases hm : m.type with _ | _ | _ <;> simp only [ne_eq, not_true_eq_false, false_implies, and_true, reduceCtorEq,
    not_false_eq_true, forall_const, (hc _).1]
  · exact hl
  all_goals
    obtain ⟨l1, l2, -, -⟩ := locDiff_frame m.jMf m.g (k 0) (locCalc m.jMf m.g m.xref k0 d.l)
    simp only [(locAgain_frame _ _ _ _).1, (locAgain_frame _ _ _ _).2.1, (locAgain_frame _ _ _ _).2.2, l1, l2, f1, f2, ha]
    rw [← e1, ← e2]
    exact ⟨hw, rfl⟩

/-- **C87 (contacts of one dimension).** The same for a contact of one dimension whose matrix is a rotation. -/
theorem C87_line (m : C1) (hF : Rot m.jMf.rot) (hA : Rot m.axis) (k : ℝ → Kin nv) (δ : Tan nv → ℝ) (hk : Along k δ) (k0 : Kin nv)
    (h0 : SameState k0 (k 0)) (d : D1 nv) (d' : ℝ → D1 nv) :
    HasDerivAt (fun s => (m.calc (k s) (d' s)).a0) ((m.diff (k 0) (m.calc k0 d)).da0 ⬝ᵥ δ) 0
    ∧ (m.type ≠ .loc → (m.diff (k 0) (m.calc k0 d)).a0 = (m.calc (k 0) (d' 0)).a0) := by
  have hl := loc_deriv m.jMf hF m.g ((m.xref • m.axis) *ᵥ unitZ) k δ hk k0 h0 d.l fun s => (d' s).l
  have ha := locAgain_a0 m.jMf m.g ((m.xref • m.axis) *ᵥ unitZ) (k 0) k0 h0 d.l (d' 0).l
  have hM : Moves (fun s => (k s).oMf m.jMf) (m.jMf.actInv ((k 0).J.mulVec (δ ∘ Sum.inl))) 0 := hk.pose.frame hF
  obtain ⟨e1, e2, e3⟩ := h0.frame m.jMf
  have hc := fun s => locCalc_frame m.jMf m.g ((m.xref • m.axis) *ᵥ unitZ) (k s) (d' s).l
  obtain ⟨f1, f2, -⟩ := locCalc_frame m.jMf m.g ((m.xref • m.axis) *ᵥ unitZ) k0 d.l
  unfold C1.calc C1.diff
  generalize (m.xref • m.axis) *ᵥ unitZ = ref at *
  have hsum : ∀ (u : Fin nv → ℝ), Sum.elim u (0 : Fin nv → ℝ) ⬝ᵥ δ = u ⬝ᵥ (δ ∘ Sum.inl) := by
    intro u
    simp [dotProduct, Fintype.sum_sum_type]
  have hw : HasDerivAt (fun s => ((m.axis * ((k s).oMf m.jMf).rot) *ᵥ (locCalc m.jMf m.g ref (k s) (d' s).l).a0l) 2)
      (((m.axis * ((k 0).oMf m.jMf).rot * (locDiff m.jMf m.g (k 0) (locCalc m.jMf m.g ref k0 d.l)).dal) 2
        - Sum.elim ((skew ((m.axis * ((k 0).oMf m.jMf).rot) *ᵥ (locCalc m.jMf m.g ref (k 0) (d' 0).l).a0l) * m.axis
            * ((k 0).oMf m.jMf).rot * ((k 0).fJf m.jMf).ang) 2) 0) ⬝ᵥ δ) 0 := by
    have h1 := hasDerivAt_pi.1 (hasDerivAt_mulVec_const (A := m.axis) (hM.mulVec hl)) 2
    simp only [mulVec_mulVec] at h1
    refine h1.congr_deriv ?_
    rw [sub_dotProduct, hsum]
    have e : (m.axis * ((k 0).oMf m.jMf).rot) *ᵥ ((m.jMf.actInv ((k 0).J.mulVec (δ ∘ Sum.inl))).ang
          ⨯₃ (locCalc m.jMf m.g ref (k 0) (d' 0).l).a0l + (locDiff m.jMf m.g (k 0) (locCalc m.jMf m.g ref k0 d.l)).dal *ᵥ δ)
        = (m.axis * ((k 0).oMf m.jMf).rot * (locDiff m.jMf m.g (k 0) (locCalc m.jMf m.g ref k0 d.l)).dal) *ᵥ δ
          - (skew ((m.axis * ((k 0).oMf m.jMf).rot) *ᵥ (locCalc m.jMf m.g ref (k 0) (d' 0).l).a0l) * m.axis
            * ((k 0).oMf m.jMf).rot * ((k 0).fJf m.jMf).ang) *ᵥ (δ ∘ Sum.inl) := by
      rw [Matrix.mul_assoc (skew _) m.axis, ← mulVec_mulVec _ (m.axis * _) (locDiff _ _ _ _).dal,
        ← mulVec_mulVec _ (skew _ * _), ← mulVec_mulVec _ (skew _), skew_mulVec, mulVec_add, Kin.fJf, fXj_ang hF,
        (hA.mul (hM.rot 0)).cross, ← cross_anticomm, mulVec_neg]
      abel
    exact congrFun e 2
  rcases hm : m.type with _ | _ | _ <;> simp only [ne_eq, not_true_eq_false, false_implies, and_true, reduceCtorEq,
    not_false_eq_true, forall_const, (hc _).1]
  · refine (hasDerivAt_pi.1 (hasDerivAt_mulVec_const (A := m.axis) hl) 2).congr_deriv ?_
    rw [mulVec_mulVec]
    rfl
  all_goals
    obtain ⟨l1, l2, -, -⟩ := locDiff_frame m.jMf m.g (k 0) (locCalc m.jMf m.g ref k0 d.l)
    simp only [(locAgain_frame _ _ _ _).1, (locAgain_frame _ _ _ _).2.1, (locAgain_frame _ _ _ _).2.2, l1, l2, f1, f2, ha]
    rw [← e1, ← e2]
    exact ⟨hw, rfl⟩

theorem mul_lin (A : Mat6) (X : Jac nv) (u : Fin nv → ℝ) : (A.mul X).lin *ᵥ u = A.ll *ᵥ (X.lin *ᵥ u) + A.la *ᵥ (X.ang *ᵥ u) := by
  simp only [Mat6.mul, add_mulVec, mulVec_mulVec]

theorem mul_ang (A : Mat6) (X : Jac nv) (u : Fin nv → ℝ) : (A.mul X).ang *ᵥ u = A.al *ᵥ (X.lin *ᵥ u) + A.aa *ᵥ (X.ang *ᵥ u) := by
  simp only [Mat6.mul, add_mulVec, mulVec_mulVec]

/-- **C87 (contacts of six dimensions).** The same, where `log6` has the derivative `Jlog6`. -/
theorem C87_frame (L : Log) (m : C6) (hF : Rot m.jMf.rot) (hP : Rot m.pref.rot) (k : ℝ → Kin nv) (δ : Tan nv → ℝ)
    (hk : Along k δ)
    (hL : m.g.kp ≠ 0 → LogAlong L (fun s => m.pref.inv.mul ((k s).oMf m.jMf)) (m.jMf.actInv ((k 0).J.mulVec (δ ∘ Sum.inl))) 0)
    (k0 : Kin nv) (h0 : SameState k0 (k 0)) (d : D6 nv) (d' : ℝ → D6 nv) :
    let D := m.diff L (k 0) (m.calc L k0 d)
    HasSix (fun s => (m.calc L (k s) (d' s)).a0) ⟨D.da0.1 *ᵥ δ, D.da0.2 *ᵥ δ⟩ 0
    ∧ (m.type ≠ .loc → D.a0 = (m.calc L (k 0) (d' 0)).a0) := by
  intro D
  have hM : Moves (fun s => (k s).oMf m.jMf) (m.jMf.actInv ((k 0).J.mulVec (δ ∘ Sum.inl))) 0 := hk.pose.frame hF
  have hv := hk.vel.frame m.jMf
  have ha := hk.acc.frame m.jMf
  obtain ⟨e1, e2, e3⟩ := h0.frame m.jMf
  have hvq : k0.vq = (k 0).vq := h0.vq
  -- the local acceleration
  let al : Kin nv → Six := fun k => ((k.acc m.jMf).addSmul m.g.kp (L.log (m.pref.inv.mul (k.oMf m.jMf)))).addSmul m.g.kd
    (k.vel m.jMf)
  let lq : Jac nv := 
    let a := (fXj m.jMf).mul (k 0).aq
    let e := (L.jlog (m.pref.inv.mul ((k 0).oMf m.jMf))).mul ((k 0).fJf m.jMf)
    let v := (fXj m.jMf).mul (k 0).vq
    ⟨a.lin + m.g.kp • e.lin + m.g.kd • v.lin, a.ang + m.g.kp • e.ang + m.g.kd • v.ang⟩
  let lv : Jac nv :=
    let a := (fXj m.jMf).mul (k 0).av
    ⟨a.lin + m.g.kd • ((k 0).fJf m.jMf).lin, a.ang + m.g.kd • ((k 0).fJf m.jMf).ang⟩
  have hlog : HasSix (fun s => (⟨m.g.kp • (L.log (m.pref.inv.mul ((k s).oMf m.jMf))).lin,
      m.g.kp • (L.log (m.pref.inv.mul ((k s).oMf m.jMf))).ang⟩ : Six))
      ⟨m.g.kp • (((L.jlog (m.pref.inv.mul ((k 0).oMf m.jMf))).mul ((k 0).fJf m.jMf)).lin *ᵥ (δ ∘ Sum.inl)),
       m.g.kp • (((L.jlog (m.pref.inv.mul ((k 0).oMf m.jMf))).mul ((k 0).fJf m.jMf)).ang *ᵥ (δ ∘ Sum.inl))⟩ 0 := by
    by_cases hp : m.g.kp = 0
    · simp only [hp, zero_smul]
      exact ⟨hasDerivAt_const _ _, hasDerivAt_const _ _⟩
    · have h := hL hp
      constructor
      · refine (h.lin.const_smul m.g.kp).congr_deriv ?_
        rw [mul_lin, Kin.fJf, fXj_lin hF, fXj_ang hF]
      · refine (h.ang.const_smul m.g.kp).congr_deriv ?_
        rw [mul_ang, Kin.fJf, fXj_lin hF, fXj_ang hF]
  have hal : HasSix (fun s => al (k s)) ⟨fromCols lq.lin lv.lin *ᵥ δ, fromCols lq.ang lv.ang *ᵥ δ⟩ 0 := by
    constructor
    · refine ((ha.lin.add hlog.lin).add (hv.lin.const_smul m.g.kd)).congr_deriv ?_
      change _ = fromCols lq.lin lv.lin *ᵥ δ
      rw [fromCols_mulVec, actInv_add, actInv_add]
      simp only [lq, lv, add_mulVec, smul_mulVec, Kin.fJf, fXj_lin hF]
      simp only [Six.add, smul_add]
      abel
    · refine ((ha.ang.add hlog.ang).add (hv.ang.const_smul m.g.kd)).congr_deriv ?_
      change _ = fromCols lq.ang lv.ang *ᵥ δ
      rw [fromCols_mulVec, actInv_add, actInv_add]
      simp only [lq, lv, add_mulVec, smul_mulVec, Kin.fJf, fXj_ang hF]
      simp only [Six.add, smul_add]
      abel
  have hw : HasSix (fun s => (⟨((k s).oMf m.jMf).rot, 0⟩ : Pose).act (al (k s)))
      ⟨fromCols (((k 0).oMf m.jMf).rot * lq.lin - skew (((k 0).oMf m.jMf).rot *ᵥ (al (k 0)).lin) * ((k 0).oMf m.jMf).rot
          * ((k 0).fJf m.jMf).ang) (((k 0).oMf m.jMf).rot * lv.lin) *ᵥ δ,
        fromCols (((k 0).oMf m.jMf).rot * lq.ang - skew (((k 0).oMf m.jMf).rot *ᵥ (al (k 0)).ang) * ((k 0).oMf m.jMf).rot
          * ((k 0).fJf m.jMf).ang) (((k 0).oMf m.jMf).rot * lv.ang) *ᵥ δ⟩ 0 := by
    have step : ∀ {u : ℝ → V3} {A B : Mat 3 nv}, HasDerivAt u (fromCols A B *ᵥ δ) 0 →
        HasDerivAt (fun s => ((k s).oMf m.jMf).rot *ᵥ u s)
          (fromCols (((k 0).oMf m.jMf).rot * A - skew (((k 0).oMf m.jMf).rot *ᵥ u 0) * ((k 0).oMf m.jMf).rot
            * ((k 0).fJf m.jMf).ang) (((k 0).oMf m.jMf).rot * B) *ᵥ δ) 0 := by
      intro u A B hu
      refine (hM.mulVec hu).congr_deriv ?_
      rw [fromCols_mulVec, fromCols_mulVec, sub_mulVec, ← mulVec_mulVec, ← mulVec_mulVec, ← mulVec_mulVec, ← mulVec_mulVec,
        skew_mulVec, mulVec_add, mulVec_add, Kin.fJf, fXj_ang hF, (hM.rot 0).cross, ← cross_anticomm, mulVec_neg]
      abel
    constructor
    · simpa [Pose.act] using step hal.lin
    · simpa [Pose.act] using step hal.ang
  have hloc : ∀ (k : Kin nv) (d : D6 nv), m.type = .loc → (m.calc L k d).a0 = al k := by
    intro k d ht
    unfold C6.calc
    by_cases hp : m.g.kp = 0 <;> by_cases hd : m.g.kd = 0 <;> simp [ht, hp, hd, al, Six.addSmul]
  have hwor : ∀ (k : Kin nv) (d : D6 nv), m.type ≠ .loc → (m.calc L k d).a0 = (⟨(k.oMf m.jMf).rot, 0⟩ : Pose).act (al k) := by
    intro k d ht
    unfold C6.calc
    by_cases hp : m.g.kp = 0 <;> by_cases hd : m.g.kd = 0 <;> cases hm : m.type <;>
      first | exact absurd hm ht | simp [hp, hd, al, Six.addSmul, D6.lwaMl]
  by_cases ht : m.type = .loc
  · refine ⟨?_, fun h => absurd ht h⟩
    have : (fun s => (m.calc L (k s) (d' s)).a0) = fun s => al (k s) := funext fun s => hloc _ _ ht
    rw [this]
    have hD : D.da0 = (fromCols lq.lin lv.lin, fromCols lq.ang lv.ang) := by
      simp only [D, C6.diff, C6.calc]
      by_cases hp : m.g.kp = 0 <;> by_cases hd : m.g.kd = 0 <;> simp [ht, hp, hd, lq, lv, ← e1, ← e2]
    rw [hD]
    exact hal
  · have : (fun s => (m.calc L (k s) (d' s)).a0) = fun s => (⟨((k s).oMf m.jMf).rot, 0⟩ : Pose).act (al (k s)) :=
      funext fun s => hwor _ _ ht
    rw [this, hwor _ _ ht]
    have hD : D.da0 = (fromCols (((k 0).oMf m.jMf).rot * lq.lin - skew (((k 0).oMf m.jMf).rot *ᵥ (al (k 0)).lin)
          * ((k 0).oMf m.jMf).rot * ((k 0).fJf m.jMf).ang) (((k 0).oMf m.jMf).rot * lv.lin),
        fromCols (((k 0).oMf m.jMf).rot * lq.ang - skew (((k 0).oMf m.jMf).rot *ᵥ (al (k 0)).ang) * ((k 0).oMf m.jMf).rot
          * ((k 0).fJf m.jMf).ang) (((k 0).oMf m.jMf).rot * lv.ang)) := by
      simp only [D, C6.diff, C6.calc]
      by_cases hp : m.g.kp = 0 <;> by_cases hd : m.g.kd = 0 <;> cases hm : m.type <;>
        first | exact absurd hm ht | simp [hp, hd, lq, lv, al, ← e1, ← e2, ← e3, D6.lwaMl, Pose.act, Pose.action, Mat6.mul,
          skew_zero, Six.addSmul]
    have hA : D.a0 = (⟨((k 0).oMf m.jMf).rot, 0⟩ : Pose).act (al (k 0)) := by
      simp only [D, C6.diff, C6.calc]
      by_cases hp : m.g.kp = 0 <;> by_cases hd : m.g.kd = 0 <;> cases hm : m.type <;>
        first | exact absurd hm ht | simp [hp, hd, al, ← e1, ← e3, D6.lwaMl, Six.addSmul]
    rw [hD]
    exact ⟨hw, fun _ => hA⟩

/-- **C87 (contacts of two dimensions).** The derivative is right along the curves that keep the contact in its plane: without a
gain on the position, or when the second axis of the contact frame has no component along `x` and `z` of the world, or when the
contact does not move along that axis. It is wrong otherwise (`C87_plane_counterexample`). -/
theorem C87_plane_partial (m : C2) (hF : Rot m.jMf.rot) (k : ℝ → Kin nv) (δ : Tan nv → ℝ) (hk : Along k δ)
    (hpl : m.g.kp = 0 ∨ (orient (k 0) m.jMf 0 1 = 0 ∧ orient (k 0) m.jMf 2 1 = 0)
      ∨ (((k 0).fJf m.jMf).lin *ᵥ (δ ∘ Sum.inl)) 1 = 0)
    (k0 : Kin nv) (h0 : SameState k0 (k 0)) (d : D2 nv) (d' : ℝ → D2 nv) :
    HasDerivAt (fun s => (m.calc (k s) (d' s)).a0) ((m.diff (k 0) (m.calc k0 d)).da0 *ᵥ δ) 0 := by
  have hM : Moves (fun s => (k s).oMf m.jMf) (m.jMf.actInv ((k 0).J.mulVec (δ ∘ Sum.inl))) 0 := hk.pose.frame hF
  have hv := hk.vel.frame m.jMf
  have ha := hk.acc.frame m.jMf
  obtain ⟨e1, e2, e3⟩ := h0.frame m.jMf
  have hcl := (ha.lin.add (hasDerivAt_cross hv.ang hv.lin)).add (hv.lin.const_smul m.g.kd)
  have hf : (fun s => (m.calc (k s) (d' s)).a0) = fun s =>
      ![((k s).classical m.jMf + m.g.kd • ((k s).vel m.jMf).lin) 0 + m.g.kp * (((k s).oMf m.jMf).trans 0 - m.xref 0),
        ((k s).classical m.jMf + m.g.kd • ((k s).vel m.jMf).lin) 2 + m.g.kp * (((k s).oMf m.jMf).trans 2 - m.xref 1)] := by
    funext s
    unfold C2.calc
    ext i
    by_cases hp : m.g.kp = 0 <;> by_cases hd : m.g.kd = 0 <;> fin_cases i <;>
      simp [hp, hd, Kin.classical, cross_apply, vecHead, vecTail] <;> ring
  have hR : m.g.kp * (orient (k 0) m.jMf 0 1 * (((k 0).fJf m.jMf).lin *ᵥ (δ ∘ Sum.inl)) 1) = 0
      ∧ m.g.kp * (orient (k 0) m.jMf 2 1 * (((k 0).fJf m.jMf).lin *ᵥ (δ ∘ Sum.inl)) 1) = 0 := by
    rcases hpl with h | ⟨h, h'⟩ | h <;> simp_all
  have hD : (m.diff (k 0) (m.calc k0 d)).da0 *ᵥ δ
      = let dq := (fXj m.jMf).mul (k 0).vq
        let v := (k 0).vel m.jMf
        let J := (k 0).fJf m.jMf
        let w := ((fXj m.jMf).mul (k 0).aq).lin *ᵥ (δ ∘ Sum.inl) + v.ang ⨯₃ (dq.lin *ᵥ (δ ∘ Sum.inl))
            - v.lin ⨯₃ (dq.ang *ᵥ (δ ∘ Sum.inl)) + m.g.kd • (dq.lin *ᵥ (δ ∘ Sum.inl))
          + (((fXj m.jMf).mul (k 0).av).lin *ᵥ (δ ∘ Sum.inr) + v.ang ⨯₃ (J.lin *ᵥ (δ ∘ Sum.inr))
            - v.lin ⨯₃ (J.ang *ᵥ (δ ∘ Sum.inr)) + m.g.kd • (J.lin *ᵥ (δ ∘ Sum.inr)))
        ![w 0 + m.g.kp * (orient (k 0) m.jMf *ᵥ (J.lin *ᵥ (δ ∘ Sum.inl))) 0,
          w 2 + m.g.kp * (orient (k 0) m.jMf *ᵥ (J.lin *ᵥ (δ ∘ Sum.inl))) 2] := by
    have hpick : ∀ {ι : Type} [Fintype ι] (A : Matrix (Fin 3) ι ℝ) (u : ι → ℝ), pick A *ᵥ u = ![(A *ᵥ u) 0, (A *ᵥ u) 2] := by
      intro ι _ A u
      ext i
      fin_cases i <;> rfl
    have hRot : ∀ u : V3, m.g.kp * (orient (k 0) m.jMf 0 1 * u 1) = 0 → m.g.kp * (orient (k 0) m.jMf 2 1 * u 1) = 0 →
        m.g.kp • (!![orient (k 0) m.jMf 0 0, orient (k 0) m.jMf 0 2; orient (k 0) m.jMf 2 0, orient (k 0) m.jMf 2 2]
          *ᵥ ![u 0, u 2]) = ![m.g.kp * (orient (k 0) m.jMf *ᵥ u) 0, m.g.kp * (orient (k 0) m.jMf *ᵥ u) 2] := by
      intro u h1 h2
      ext i
      fin_cases i <;> simp [-mul_eq_mul_left_iff, Matrix.mulVec, dotProduct, Fin.sum_univ_three, vecHead, vecTail]
      · linear_combination -h1
      · linear_combination -h2
    have hJc : ∀ u, (Matrix.of ![((k 0).fJf m.jMf).lin 0, ((k 0).fJf m.jMf).lin 2] : Mat 2 nv) *ᵥ u
        = ![(((k 0).fJf m.jMf).lin *ᵥ u) 0, (((k 0).fJf m.jMf).lin *ᵥ u) 2] := by
      intro u; ext i; fin_cases i <;> rfl
    have hk := hRot _ hR.1 hR.2
    simp only [orient] at hk
    unfold C2.diff C2.calc
    simp only [fromCols_mulVec, ← e1, ← e2, ← e3]
    have hleft : ∀ A : Mat 2 nv, (if m.g.kp ≠ 0 then A + (m.g.kp • !![((k 0).oMf m.jMf).rot 0 0, ((k 0).oMf m.jMf).rot 0 2;
          ((k 0).oMf m.jMf).rot 2 0, ((k 0).oMf m.jMf).rot 2 2]) * (Matrix.of ![((k 0).fJf m.jMf).lin 0, ((k 0).fJf m.jMf).lin 2])
          else A) *ᵥ (δ ∘ Sum.inl) = A *ᵥ (δ ∘ Sum.inl)
            + ![m.g.kp * (((k 0).oMf m.jMf).rot *ᵥ (((k 0).fJf m.jMf).lin *ᵥ (δ ∘ Sum.inl))) 0,
                m.g.kp * (((k 0).oMf m.jMf).rot *ᵥ (((k 0).fJf m.jMf).lin *ᵥ (δ ∘ Sum.inl))) 2] := by
      intro A
      by_cases hp : m.g.kp = 0
      · ext i
        fin_cases i <;> simp [hp, vecHead, vecTail]
      · rw [if_pos hp, add_mulVec, ← mulVec_mulVec, hJc, smul_mulVec, hk]
    have hkd : ∀ (A B : Mat 2 nv) (u : Fin nv → ℝ), (if m.g.kd ≠ 0 then A + m.g.kd • B else A) *ᵥ u
        = A *ᵥ u + m.g.kd • (B *ᵥ u) := by
      intro A B u
      by_cases hd : m.g.kd = 0 <;> simp [hd, add_mulVec, smul_mulVec]
    rw [hkd, hkd, hleft]
    simp only [hpick, add_mulVec, sub_mulVec, ← mulVec_mulVec, skew_mulVec, orient, Kin.fJf]
    ext i
    fin_cases i <;> simp [vecHead, vecTail] <;> ring
  rw [hf, hD, hasDerivAt_pi]
  have hJ := fXj_lin hF (k 0).J
  have hJa := fXj_ang hF (k 0).J
  have hp := hasDerivAt_pi.1 hM.dtrans
  rw [actInv_add, actInv_add] at hcl
  intro i
  fin_cases i
  · refine ((hasDerivAt_pi.1 hcl 0).add (((hp 0).sub_const (m.xref 0)).const_mul m.g.kp)).congr_deriv ?_
    simp only [Kin.fJf, fXj_lin hF, fXj_ang hF, Kin.vel, orient]
    simp [Six.add, cross_apply, vecHead, vecTail]
    ring
  · refine ((hasDerivAt_pi.1 hcl 2).add (((hp 2).sub_const (m.xref 1)).const_mul m.g.kp)).congr_deriv ?_
    simp only [Kin.fJf, fXj_lin hF, fXj_ang hF, Kin.vel, orient]
    simp [Six.add, cross_apply, vecHead, vecTail]
    ring

/-- A body that slides along its second axis, with the axes of the body permuted: at `s` it is at the height `s`. -/
noncomputable def ridge (s : ℝ) : Kin 1 where
  oMi := ⟨cyc, ![0, 0, s]⟩
  v := ⟨0, 0⟩
  a := ⟨0, 0⟩
  vq := ⟨0, 0⟩
  aq := ⟨0, 0⟩
  av := ⟨0, 0⟩
  J := ⟨Matrix.of fun i _ => ![0, 1, 0] i, 0⟩

theorem ridge_along : Along ridge (Sum.elim 1 0) where
  pose := by
    refine ⟨fun _ => cyc_rot, fun i j => (hasDerivAt_const _ _).congr_deriv ?_, ?_⟩
    · simp [ridge, Jac.mulVec, skew_zero]
    · rw [hasDerivAt_pi]
      intro i
      fin_cases i
      · simpa [ridge, cyc, Jac.mulVec, Matrix.mulVec, dotProduct, Fin.sum_univ_three, vecHead, vecTail] using
          hasDerivAt_const (0 : ℝ) (0 : ℝ)
      · simpa [ridge, cyc, Jac.mulVec, Matrix.mulVec, dotProduct, Fin.sum_univ_three, vecHead, vecTail] using
          hasDerivAt_const (0 : ℝ) (0 : ℝ)
      · simpa [ridge, cyc, Jac.mulVec, Matrix.mulVec, dotProduct, Fin.sum_univ_three, vecHead, vecTail] using
          hasDerivAt_id' (0 : ℝ)
  vel := ⟨(hasDerivAt_const _ _).congr_deriv (by simp [ridge, Jac.mulVec, Six.add]),
    (hasDerivAt_const _ _).congr_deriv (by simp [ridge, Jac.mulVec, Six.add])⟩
  acc := ⟨(hasDerivAt_const _ _).congr_deriv (by simp [ridge, Jac.mulVec, Six.add]),
    (hasDerivAt_const _ _).congr_deriv (by simp [ridge, Jac.mulVec, Six.add])⟩

/-- **C87 (contacts of two dimensions).** With a gain on the position the derivative misses the motion along the second axis of the
contact frame: a body that rises along that axis changes the acceleration of its contact at the rate `kp`, and the derivative
computed is zero. -/
theorem C87_plane_counterexample :
    let m : C2 := ⟨here, 0, ⟨1, 0⟩⟩
    ∃ (k : ℝ → Kin 1) (δ : Tan 1 → ℝ), Along k δ ∧ ∀ (d : D2 1) (d' : ℝ → D2 1),
      HasDerivAt (fun s => (m.calc (k s) (d' s)).a0) ![0, 1] 0 ∧ (m.diff (k 0) (m.calc (k 0) d)).da0 *ᵥ δ = 0 := by
  intro m
  refine ⟨ridge, Sum.elim 1 0, ridge_along, fun d d' => ⟨?_, ?_⟩⟩
  · have : (fun s => (m.calc (ridge s) (d' s)).a0) = fun s => ![0, s] := by
      funext s
      ext i
      fin_cases i <;> simp [C2.calc, m, ridge, here, Kin.oMf, Pose.mul, Kin.vel, Kin.acc, Pose.actInv]
    rw [this, hasDerivAt_pi]
    intro i
    fin_cases i
    · simpa using hasDerivAt_const (0 : ℝ) (0 : ℝ)
    · simpa using hasDerivAt_id' (0 : ℝ)
  · ext i
    fin_cases i <;>
      simp [C2.diff, C2.calc, m, ridge, here, Kin.oMf, Pose.mul, Pose.inv, Pose.action, fXj, Mat6.mul, Kin.fJf, Kin.vel, Kin.acc,
        Pose.actInv, skew_zero, pick, cyc, Matrix.mulVec, dotProduct, Matrix.mul_apply, Fin.sum_univ_two, vecHead, vecTail,
        Matrix.one_apply]

/-! ### C88: the force of a contact -/

theorem dot_tmul (X : Jac nv) (f : Six) (u : Fin nv → ℝ) :
    X.tmul f ⬝ᵥ u = (X.mulVec u).lin ⬝ᵥ f.lin + (X.mulVec u).ang ⬝ᵥ f.ang := by
  simp only [Jac.tmul, Jac.mulVec, add_dotProduct, mulVec_transpose, ← dotProduct_mulVec]
  rw [dotProduct_comm f.lin, dotProduct_comm f.ang]

theorem actInv_dot (M : Pose) (m f : Six) :
    (M.actInv m).lin ⬝ᵥ f.lin + (M.actInv m).ang ⬝ᵥ f.ang = m.lin ⬝ᵥ (M.actF f).lin + m.ang ⬝ᵥ (M.actF f).ang := by
  simp only [Pose.actInv, Pose.actF, mulVec_transpose, ← dotProduct_mulVec]
  have : (M.trans ⨯₃ m.ang) ⬝ᵥ (M.rot *ᵥ f.lin) = -(m.ang ⬝ᵥ (M.trans ⨯₃ (M.rot *ᵥ f.lin))) := by
    generalize M.rot *ᵥ f.lin = w
    simp [cross_apply, dotProduct, Fin.sum_univ_three]
    ring
  rw [sub_dotProduct, this, dotProduct_add]
  ring

/-- The joint torques of a force in the contact frame. -/
theorem fJf_tmul {M : Pose} (h : Rot M.rot) (k : Kin nv) (f : Six) : (k.fJf M).tmul f = k.J.tmul (M.actF f) := by
  refine dotProduct_eq _ _ fun u => ?_
  rw [dot_tmul, dot_tmul, Kin.fJf, fXj_mulVec h, actInv_dot]

theorem tmul_lin (X : Jac nv) (w : V3) : X.tmul ⟨w, 0⟩ = X.linᵀ *ᵥ w := by simp [Jac.tmul]

/-- **C88 (forces).** The force handed to the dynamics at the joint produces the joint torques `Jᵀ λ`, with the Jacobian computed by
`calc` and the force `λ` given to the contact, for contacts of all dimensions; and the force is reported as given for contacts of
three and six dimensions. -/
theorem C88_forces (F : Pose) (hF : Rot F.rot) (type : Ref) (g : Gains) (k : Kin nv) :
    (∀ xref d f, let m : C3 := ⟨F, xref, type, g⟩
      k.J.tmul (m.force f (m.calc k d)).fext = (m.calc k d).Jcᵀ *ᵥ f ∧ (m.force f (m.calc k d)).f = ⟨f, 0⟩)
    ∧ (∀ xref axis d f, let m : C1 := ⟨F, xref, type, axis, g⟩
      k.J.tmul (m.force f (m.calc k d)).fext = f • (m.calc k d).Jc ∧ (m.force f (m.calc k d)).f = ⟨![0, 0, f], 0⟩)
    ∧ (∀ xref d f, let m : C2 := ⟨F, xref, g⟩
      k.J.tmul (m.force f (m.calc k d)).fext = (m.calc k d).Jcᵀ *ᵥ f)
    ∧ (∀ L pref d f, let m : C6 := ⟨F, pref, type, g⟩
      k.J.tmul (m.force f (m.calc L k d)).fext = (m.calc L k d).Jc.tmul f ∧ (m.force f (m.calc L k d)).f = f) := by
  refine ⟨fun xref d f => ?_, fun xref axis d f => ?_, fun xref d f => ?_, fun L pref d f => ?_⟩ <;> intro m
  · obtain ⟨f1, f2, -⟩ := locCalc_frame F g xref k d.l
    unfold C3.force C3.calc
    cases type <;> simp only [m, f1, f2, ← fJf_tmul hF, tmul_lin, transpose_mul, mulVec_mulVec, and_self]
  · obtain ⟨f1, f2, -⟩ := locCalc_frame F g ((xref • axis) *ᵥ unitZ) k d.l
    have hl : ∀ w : V3, (⟨F.rot *ᵥ w, F.trans ⨯₃ (F.rot *ᵥ w)⟩ : Six) = F.actF ⟨w, 0⟩ := by
      intro w; simp [Pose.actF]
    have hcol : (F.rot * axisᵀ).col 2 = F.rot *ᵥ axis 2 := rfl
    have hrow : ∀ B : Mat 3 nv, (axis * B) 2 = Bᵀ *ᵥ axis 2 := by
      intro B
      rw [mulVec_transpose]
      rfl
    unfold C1.force C1.calc
    cases type <;> simp only [m, f1, f2]
    · rw [hcol, ← mulVec_smul, hl, ← fJf_tmul hF, tmul_lin, mulVec_smul, hrow]
      exact ⟨rfl, trivial⟩
    all_goals
      refine ⟨?_, trivial⟩
      rw [← fJf_tmul hF, tmul_lin, mulVec_smul, Matrix.mul_assoc, hrow, transpose_mul, ← mulVec_mulVec]
      rfl
  · have hl : ∀ w : V3, (⟨F.rot *ᵥ w, F.trans ⨯₃ (F.rot *ᵥ w)⟩ : Six) = F.actF ⟨w, 0⟩ := by
      intro w; simp [Pose.actF]
    have hc : f 0 • F.rot.col 0 + f 1 • F.rot.col 2 = F.rot *ᵥ ![f 0, 0, f 1] := by
      ext i
      simp [Matrix.mulVec, dotProduct, Fin.sum_univ_three, vecHead, vecTail, mul_comm]
    unfold C2.force C2.calc
    simp only [m, hc, hl, ← fJf_tmul hF, tmul_lin]
    ext j
    simp [Matrix.mulVec, dotProduct, Fin.sum_univ_three, Fin.sum_univ_two, vecHead, vecTail]
  · unfold C6.force C6.calc
    by_cases hp : g.kp = 0 <;> by_cases hd : g.kd = 0 <;> cases type <;>
      simp [m, hp, hd, ← fJf_tmul hF, D6.lwaMl, Pose.actInvF, Pose.action, Mat6.mul, skew_zero] <;>
      simp [Jac.tmul, transpose_mul]

theorem HasSix.actF {f : ℝ → Six} {f' : Six} {t : ℝ} (h : HasSix f f' t) (F : Pose) :
    HasSix (fun s => F.actF (f s)) (F.actF f') t where
  lin := hasDerivAt_mulVec_const h.lin
  ang := by
    refine ((hasDerivAt_mulVec_const h.ang).add
      (hasDerivAt_cross (hasDerivAt_const t F.trans) (hasDerivAt_mulVec_const h.lin))).congr_deriv ?_
    simp [Pose.actF]

theorem tmul_add (X : Jac nv) (f g : Six) : X.tmul (f.add g) = X.tmul f + X.tmul g := by
  simp only [Jac.tmul, Six.add, mulVec_add]
  abel

/-- A continuous matrix times a vector that is zero at `0`. -/
theorem hasDerivAt_cont_mulVec {m n : ℕ} {A : ℝ → Matrix (Fin m) (Fin n) ℝ} {u : ℝ → Fin n → ℝ} {u' : Fin n → ℝ}
    (hA : ∀ i j, ContinuousAt (fun s => A s i j) 0) (h0 : u 0 = 0) (hu : HasDerivAt u u' 0) :
    HasDerivAt (fun s => A s *ᵥ u s) (A 0 *ᵥ u') 0 := by
  rw [hasDerivAt_pi] at hu ⊢
  intro i
  have step : ∀ j, HasDerivAt (fun s => A s i j * u s j) (A 0 i j * u' j) 0 := by
    intro j
    have h := hu j
    rw [hasDerivAt_iff_tendsto_slope] at h ⊢
    have hc : Filter.Tendsto (fun s => A s i j) (nhdsWithin 0 {0}ᶜ) (nhds (A 0 i j)) := (hA i j).mono_left nhdsWithin_le_nhds
    refine (hc.mul h).congr fun s => ?_
    have : u 0 j = 0 := congrFun h0 j
    simp only [slope_def_field, this, mul_zero, sub_zero]
    ring
  exact HasDerivAt.fun_sum (u := Finset.univ) fun j _ => step j

/-- The joint torques of a force that changes along a curve. -/
theorem tmul_deriv {k : ℝ → Kin nv} {φ : ℝ → Six} {φ' : Six} {D : Fin nv → ℝ}
    (hJ : ∀ i j, ContinuousAt (fun s => (k s).J.lin i j) 0) (hJ' : ∀ i j, ContinuousAt (fun s => (k s).J.ang i j) 0)
    (hφ : HasSix φ φ' 0) (hD : HasDerivAt (fun s => -(k s).J.tmul (φ 0)) D 0) :
    HasDerivAt (fun s => -(k s).J.tmul (φ s)) (D - (k 0).J.tmul φ') 0 := by
  have h1 : HasDerivAt (fun s => (k s).J.linᵀ *ᵥ ((φ s).lin - (φ 0).lin)) ((k 0).J.linᵀ *ᵥ φ'.lin) 0 :=
    hasDerivAt_cont_mulVec (A := fun s => (k s).J.linᵀ) (fun i j => hJ j i) (sub_self _) (hφ.lin.sub_const _)
  have h2 : HasDerivAt (fun s => (k s).J.angᵀ *ᵥ ((φ s).ang - (φ 0).ang)) ((k 0).J.angᵀ *ᵥ φ'.ang) 0 :=
    hasDerivAt_cont_mulVec (A := fun s => (k s).J.angᵀ) (fun i j => hJ' j i) (sub_self _) (hφ.ang.sub_const _)
  have h3 := hD.sub (h1.add h2)
  have e : (fun s => -(k s).J.tmul (φ s)) = (fun s => -(k s).J.tmul (φ 0))
      - ((fun s => (k s).J.linᵀ *ᵥ ((φ s).lin - (φ 0).lin)) + fun s => (k s).J.angᵀ *ᵥ ((φ s).ang - (φ 0).ang)) := by
    funext s
    simp only [Pi.sub_apply, Pi.add_apply, Jac.tmul, mulVec_sub]
    abel
  rw [e]
  exact h3

/-- **C88 (torques).** When the configuration moves and the force `λ` of the contact is held in the directions of the type, the
joint torques `-Jᵀ λ` change by what they would if the force at the joint were held there (which is what the derivatives of the
inverse dynamics account for), plus the correction `dtau_dq` computed by the contact. For contacts of one, three and six
dimensions. -/
theorem C88_torques (F : Pose) (hF : Rot F.rot) (type : Ref) (g : Gains) (k : ℝ → Kin nv) (δ : Tan nv → ℝ) (hk : Along k δ)
    (hJ : ∀ i j, ContinuousAt (fun s => (k s).J.lin i j) 0) (hJ' : ∀ i j, ContinuousAt (fun s => (k s).J.ang i j) 0)
    (T : Fin nv → ℝ) :
    (∀ xref (d : D3 nv) (d' : ℝ → D3 nv) f, let m : C3 := ⟨F, xref, type, g⟩
      let r := m.force f (m.calc (k 0) d)
      HasDerivAt (fun s => -(k s).J.tmul r.fext) T 0 →
        HasDerivAt (fun s => -((m.calc (k s) (d' s)).Jcᵀ *ᵥ f)) (T + r.dtau *ᵥ (δ ∘ Sum.inl)) 0)
    ∧ (∀ xref axis (d : D1 nv) (d' : ℝ → D1 nv) f, let m : C1 := ⟨F, xref, type, axis, g⟩
      let r := m.force f (m.calc (k 0) d)
      HasDerivAt (fun s => -(k s).J.tmul r.fext) T 0 →
        HasDerivAt (fun s => -(f • (m.calc (k s) (d' s)).Jc)) (T + r.dtau *ᵥ (δ ∘ Sum.inl)) 0)
    ∧ (∀ L pref (d : D6 nv) (d' : ℝ → D6 nv) f, let m : C6 := ⟨F, pref, type, g⟩
      let r := m.force f (m.calc L (k 0) d)
      HasDerivAt (fun s => -(k s).J.tmul r.fext) T 0 →
        HasDerivAt (fun s => -((m.calc L (k s) (d' s)).Jc.tmul f)) (T + r.dtau *ᵥ (δ ∘ Sum.inl)) 0) := by
  have hM : Moves (fun s => (k s).oMf F) (F.actInv ((k 0).J.mulVec (δ ∘ Sum.inl))) 0 := hk.pose.frame hF
  have hang : ((k 0).fJf F).ang *ᵥ (δ ∘ Sum.inl) = (F.actInv ((k 0).J.mulVec (δ ∘ Sum.inl))).ang := fXj_ang hF _ _
  have hrot : ∀ w : V3, HasDerivAt (fun s => ((k s).oMf F).rotᵀ *ᵥ w)
      (skew (((k 0).oMf F).rotᵀ *ᵥ w) *ᵥ (((k 0).fJf F).ang *ᵥ (δ ∘ Sum.inl))) 0 := by
    intro w
    refine (hM.tmulVec (hasDerivAt_const 0 w)).congr_deriv ?_
    rw [skew_mulVec, hang, mulVec_zero, add_zero]
  refine ⟨fun xref d d' f => ?_, fun xref axis d d' f => ?_, fun L pref d d' f => ?_⟩ <;> intro m r hT
  · have hs : ∀ s, (m.calc (k s) (d' s)).Jcᵀ *ᵥ f = (k s).J.tmul (m.force f (m.calc (k s) (d' s))).fext :=
      fun s => ((C88_forces F hF type g (k s)).1 xref (d' s) f).1.symm
    simp only [hs]
    have hc := fun s => locCalc_frame F g xref (k s) (d' s).l
    obtain ⟨f1, f2, -⟩ := locCalc_frame F g xref (k 0) d.l
    by_cases ht : type = .loc
    · subst ht
      refine hT.congr_deriv ?_
      simp [r, C3.force, m]
    · have h1 : ∀ s, (m.force f (m.calc (k s) (d' s))).fext = F.actF ⟨((k s).oMf F).rotᵀ *ᵥ f, 0⟩ := by
        intro s
        unfold C3.force C3.calc
        cases type <;> first | exact absurd rfl ht | simp only [m, (hc s).1]
      have h2 : r.fext = F.actF ⟨((k 0).oMf F).rotᵀ *ᵥ f, 0⟩ ∧ r.dtau = -(((k 0).fJf F).linᵀ * (skew (((k 0).oMf F).rotᵀ *ᵥ f)
          * ((k 0).fJf F).ang)) := by
        simp only [r]
        unfold C3.force C3.calc
        cases type <;> first | exact absurd rfl ht | simp only [m, f1, f2, and_self]
      simp only [h1]
      rw [h2.1] at hT
      have h3 := HasSix.actF (f := fun s => ⟨((k s).oMf F).rotᵀ *ᵥ f, 0⟩)
        (f' := ⟨skew (((k 0).oMf F).rotᵀ *ᵥ f) *ᵥ (((k 0).fJf F).ang *ᵥ (δ ∘ Sum.inl)), 0⟩) ⟨hrot f, hasDerivAt_const _ _⟩ F
      refine (tmul_deriv hJ hJ' h3 hT).congr_deriv ?_
      rw [h2.2, ← fJf_tmul hF, tmul_lin, neg_mulVec, ← mulVec_mulVec, ← mulVec_mulVec, sub_eq_add_neg]
  · have hs : ∀ s, f • (m.calc (k s) (d' s)).Jc = (k s).J.tmul (m.force f (m.calc (k s) (d' s))).fext :=
      fun s => ((C88_forces F hF type g (k s)).2.1 xref axis (d' s) f).1.symm
    simp only [hs]
    have hc := fun s => locCalc_frame F g ((xref • axis) *ᵥ unitZ) (k s) (d' s).l
    obtain ⟨f1, f2, -⟩ := locCalc_frame F g ((xref • axis) *ᵥ unitZ) (k 0) d.l
    by_cases ht : type = .loc
    · subst ht
      refine hT.congr_deriv ?_
      simp [r, C1.force, m]
    · have hcol : ∀ R : M3, f • (Rᵀ * axisᵀ).col 2 = Rᵀ *ᵥ (f • axis 2) := by
        intro R
        rw [mulVec_smul]
        rfl
      have h1 : ∀ s, (m.force f (m.calc (k s) (d' s))).fext = F.actF ⟨((k s).oMf F).rotᵀ *ᵥ (f • axis 2), 0⟩ := by
        intro s
        unfold C1.force C1.calc
        cases type <;> first | exact absurd rfl ht | simp only [m, (hc s).1, hcol]
      have h2 : r.fext = F.actF ⟨((k 0).oMf F).rotᵀ *ᵥ (f • axis 2), 0⟩
          ∧ r.dtau = -(((k 0).fJf F).linᵀ * (skew (((k 0).oMf F).rotᵀ *ᵥ (f • axis 2)) * ((k 0).fJf F).ang)) := by
        simp only [r]
        unfold C1.force C1.calc
        cases type <;> first | exact absurd rfl ht | simp only [m, f1, f2, hcol, and_self]
      simp only [h1]
      rw [h2.1] at hT
      have h3 := HasSix.actF (f := fun s => ⟨((k s).oMf F).rotᵀ *ᵥ (f • axis 2), 0⟩)
        (f' := ⟨skew (((k 0).oMf F).rotᵀ *ᵥ (f • axis 2)) *ᵥ (((k 0).fJf F).ang *ᵥ (δ ∘ Sum.inl)), 0⟩) ⟨hrot (f • axis 2), hasDerivAt_const _ _⟩ F
      refine (tmul_deriv hJ hJ' h3 hT).congr_deriv ?_
      rw [h2.2, ← fJf_tmul hF, tmul_lin, neg_mulVec, ← mulVec_mulVec, ← mulVec_mulVec, sub_eq_add_neg]
  · have hs : ∀ s, (m.calc L (k s) (d' s)).Jc.tmul f = (k s).J.tmul (m.force f (m.calc L (k s) (d' s))).fext :=
      fun s => ((C88_forces F hF type g (k s)).2.2.2 L pref (d' s) f).1.symm
    simp only [hs]
    by_cases ht : type = .loc
    · subst ht
      refine hT.congr_deriv ?_
      simp [r, C6.force, m]
    · have h1 : ∀ s (d : D6 nv), (m.force f (m.calc L (k s) d)).fext
          = F.actF ⟨((k s).oMf F).rotᵀ *ᵥ f.lin, ((k s).oMf F).rotᵀ *ᵥ f.ang⟩ := by
        intro s d
        unfold C6.force C6.calc
        by_cases hp : g.kp = 0 <;> by_cases hd : g.kd = 0 <;> cases type <;>
          first | exact absurd rfl ht | simp [m, hp, hd, D6.lwaMl, Pose.actInvF]
      have h2 : r.dtau = -(((k 0).fJf F).linᵀ * (skew (((k 0).oMf F).rotᵀ *ᵥ f.lin) * ((k 0).fJf F).ang)
          + ((k 0).fJf F).angᵀ * (skew (((k 0).oMf F).rotᵀ *ᵥ f.ang) * ((k 0).fJf F).ang)) := by
        simp only [r]
        unfold C6.force C6.calc
        by_cases hp : g.kp = 0 <;> by_cases hd : g.kd = 0 <;> cases type <;>
          first | exact absurd rfl ht | simp [m, hp, hd, D6.lwaMl, Pose.actInvF]
      simp only [h1]
      rw [show r.fext = _ from h1 0 d] at hT
      have h3 := HasSix.actF (f := fun s => ⟨((k s).oMf F).rotᵀ *ᵥ f.lin, ((k s).oMf F).rotᵀ *ᵥ f.ang⟩)
        (f' := ⟨skew (((k 0).oMf F).rotᵀ *ᵥ f.lin) *ᵥ (((k 0).fJf F).ang *ᵥ (δ ∘ Sum.inl)),
          skew (((k 0).oMf F).rotᵀ *ᵥ f.ang) *ᵥ (((k 0).fJf F).ang *ᵥ (δ ∘ Sum.inl))⟩) ⟨hrot f.lin, hrot f.ang⟩ F
      refine (tmul_deriv hJ hJ' h3 hT).congr_deriv ?_
      rw [h2, ← fJf_tmul hF, Jac.tmul, neg_mulVec, add_mulVec, ← mulVec_mulVec, ← mulVec_mulVec, ← mulVec_mulVec,
        ← mulVec_mulVec, sub_eq_add_neg]

/-- **C88 (torques, two dimensions).** A contact of two dimensions always refers to its own frame and leaves `dtau_dq` as `createData`
made it, zero; the torques `-Jᵀ λ` change as if the force at the joint were held. -/
theorem C88_torques_plane (m : C2) (hF : Rot m.jMf.rot) (k : ℝ → Kin nv) (T : Fin nv → ℝ) (d : D2 nv) (d' : ℝ → D2 nv)
    (f : Fin 2 → ℝ) (fs : List (Fin 2 → ℝ)) (h0 : d.dtau = 0) :
    let r := m.force f (m.calc (k 0) (fs.foldl (fun d f => m.force f (m.calc (k 0) d)) d))
    r.dtau = 0
    ∧ (HasDerivAt (fun s => -(k s).J.tmul r.fext) T 0 → HasDerivAt (fun s => -((m.calc (k s) (d' s)).Jcᵀ *ᵥ f)) T 0) := by
  intro r
  constructor
  · have : ∀ (fs : List (Fin 2 → ℝ)) (d : D2 nv), d.dtau = 0 →
        (fs.foldl (fun d f => m.force f (m.calc (k 0) d)) d).dtau = 0 := by
      intro fs
      induction fs with
      | nil => exact fun d h => h
      | cons f fs ih => exact fun d h => ih _ h
    exact this fs d h0
  · intro hT
    have hs : ∀ s, (m.calc (k s) (d' s)).Jcᵀ *ᵥ f = (k s).J.tmul (m.force f (m.calc (k s) (d' s))).fext :=
      fun s => ((C88_forces m.jMf hF .loc m.g (k s)).2.2.1 m.xref (d' s) f).symm
    simp only [hs]
    exact hT

/-- **C88 (the force reported by a contact of two dimensions).** It is reported in the frame of the joint: a contact of
two dimensions and one of three in the same frame, given the same force, report different ones. -/
theorem C88_report_counterexample (d : D2 nv) (d' : D3 nv) :
    let F : Pose := ⟨cyc, 0⟩
    Rot F.rot
    ∧ ((⟨F, 0, ⟨0, 0⟩⟩ : C2).force ![1, 0] d).f.lin = ![0, 1, 0]
    ∧ ((⟨F, 0, .loc, ⟨0, 0⟩⟩ : C3).force ![1, 0, 0] d').f.lin = ![1, 0, 0]
    ∧ ((⟨F, 0, ⟨0, 0⟩⟩ : C2).force ![1, 0] d).fext = ((⟨F, 0, .loc, ⟨0, 0⟩⟩ : C3).force ![1, 0, 0] d').fext := by
  intro F
  refine ⟨cyc_rot, ?_, rfl, ?_⟩
  · ext i
    fin_cases i <;> simp [C2.force, F, cyc]
  · simp only [C2.force, C3.force, F, Pose.actF]
    congr 1
    · ext i
      fin_cases i <;> simp [cyc, Matrix.mulVec, dotProduct, Fin.sum_univ_three, vecHead, vecTail]
    · simp

/-! ### C89: impulses -/

/-- **C89 (point impulses).** After `calc` at a configuration and `calcDiff` there with the joint velocity `u` (in the impulse dynamics,
the one after the impact), the matrix computed is the derivative of the velocity `J u` of the contact along every curve of
configurations. -/
theorem C89_point (m : Imp) (hF : Rot m.jMf.rot) (k : ℝ → Kin nv) (δ : Fin nv → ℝ) (hk : Along k (Sum.elim δ 0))
    (u : Fin nv → ℝ) (hu : ∀ s, (k s).v = (k s).J.mulVec u) (k0 : Kin nv) (h1 : k0.oMi = (k 0).oMi) (h2 : k0.J = (k 0).J)
    (d : DI3 nv) (d' : ℝ → DI3 nv) :
    HasDerivAt (fun s => (m.calc3 (k s) (d' s)).Jc *ᵥ u) ((m.diff3 (k 0) (m.calc3 k0 d)).dv0 *ᵥ δ) 0 := by
  have hM : Moves (fun s => (k s).oMf m.jMf) (m.jMf.actInv ((k 0).J.mulVec δ)) 0 := by
    have := hk.pose.frame hF
    rw [Sum.elim_comp_inl] at this
    exact this
  have hv := hk.vel.frame m.jMf
  simp only [Sum.elim_comp_inl, Sum.elim_comp_inr] at hv
  have hv0 : ((k 0).vq.mulVec δ).add ((k 0).J.mulVec 0) = (k 0).vq.mulVec δ := by simp [Jac.mulVec, Six.add]
  rw [hv0] at hv
  have hJ : ∀ s, ((k s).fJf m.jMf).lin *ᵥ u = (m.jMf.actInv (k s).v).lin := by
    intro s
    rw [hu s, Kin.fJf, fXj_lin hF]
  have e1 : k0.oMf m.jMf = (k 0).oMf m.jMf := by rw [Kin.oMf, Kin.oMf, h1]
  have e2 : k0.fJf m.jMf = (k 0).fJf m.jMf := by rw [Kin.fJf, Kin.fJf, h2]
  unfold Imp.calc3 Imp.diff3
  rcases hm : m.type with _ | _ | _ <;> simp only [e1, e2, ← mulVec_mulVec, hJ]
  · rw [fXj_lin hF]
    exact hv.lin
  all_goals
    refine (hM.mulVec hv.lin).congr_deriv ?_
    rw [sub_mulVec, ← mulVec_mulVec, ← mulVec_mulVec, ← mulVec_mulVec, skew_mulVec, mulVec_add, fXj_lin hF, Kin.fJf, fXj_ang hF]
    simp only [Kin.velIn, Kin.vel]
    rw [(hM.rot 0).cross, ← cross_anticomm (m.jMf.actInv (k 0).v).lin, mulVec_neg]
    abel

/-- **C89 (impulses of six dimensions).** The same. It holds for the type `LOCAL` and for `LOCAL_WORLD_ALIGNED`; for `WORLD` only when
the contact is on the line through the origin of the world along its angular velocity, and is wrong otherwise
(`C89_world_counterexample`). -/
theorem C89_frame_partial (m : Imp) (hF : Rot m.jMf.rot) (k : ℝ → Kin nv) (δ : Fin nv → ℝ) (hk : Along k (Sum.elim δ 0))
    (u : Fin nv → ℝ) (hu : ∀ s, (k s).v = (k s).J.mulVec u) (k0 : Kin nv) (h1 : k0.oMi = (k 0).oMi) (h2 : k0.J = (k 0).J)
    (hw : m.type = .world → position (k 0) m.jMf ⨯₃ (orient (k 0) m.jMf *ᵥ ((k 0).vel m.jMf).ang) = 0)
    (d : DI6 nv) (d' : ℝ → DI6 nv) :
    HasSix (fun s => (m.calc6 (k s) (d' s)).Jc.mulVec u) ((m.diff6 (k 0) (m.calc6 k0 d)).dv0.mulVec δ) 0 := by
  have hM : Moves (fun s => (k s).oMf m.jMf) (m.jMf.actInv ((k 0).J.mulVec δ)) 0 := by
    have := hk.pose.frame hF
    rw [Sum.elim_comp_inl] at this
    exact this
  have hv := hk.vel.frame m.jMf
  simp only [Sum.elim_comp_inl, Sum.elim_comp_inr] at hv
  have hv0 : ((k 0).vq.mulVec δ).add ((k 0).J.mulVec 0) = (k 0).vq.mulVec δ := by simp [Jac.mulVec, Six.add]
  rw [hv0] at hv
  have hJ : ∀ s, ((k s).fJf m.jMf).mulVec u = m.jMf.actInv (k s).v := by
    intro s
    rw [hu s, Kin.fJf, fXj_mulVec hF]
  have e1 : k0.oMf m.jMf = (k 0).oMf m.jMf := by rw [Kin.oMf, Kin.oMf, h1]
  have e2 : k0.fJf m.jMf = (k 0).fJf m.jMf := by rw [Kin.fJf, Kin.fJf, h2]
  by_cases ht : m.type = .loc
  · have a1 : ∀ (k : Kin nv) d, (m.calc6 k d).Jc = k.fJf m.jMf := by
      intro k d; simp [Imp.calc6, ht]
    have a2 : (m.diff6 (k 0) (m.calc6 k0 d)).dv0 = (fXj m.jMf).mul (k 0).vq := by
      simp [Imp.diff6, ht]
    simp only [a1, a2, hJ]
    rw [fXj_mulVec hF]
    exact hv
  · have a1 : ∀ (k : Kin nv) d, (m.calc6 k d).Jc.mulVec u
        = ⟨(k.oMf m.jMf).rot *ᵥ ((k.fJf m.jMf).mulVec u).lin, (k.oMf m.jMf).rot *ᵥ ((k.fJf m.jMf).mulVec u).ang⟩ := by
      intro k d
      unfold Imp.calc6
      cases hm : m.type <;> first | exact absurd hm ht |
        simp [DI6.lwaMl, Pose.action, Mat6.mul, Jac.mulVec, skew_zero]
    have a2 : (m.diff6 (k 0) (m.calc6 k0 d)).dv0
        = ⟨((k 0).oMf m.jMf).rot * ((fXj m.jMf).mul (k 0).vq).lin
            - skew (((k 0).oMf m.jMf).rot *ᵥ ((k 0).vel m.jMf).lin) * ((k 0).oMf m.jMf).rot * ((k 0).fJf m.jMf).ang,
           ((k 0).oMf m.jMf).rot * ((fXj m.jMf).mul (k 0).vq).ang
            - skew (((k 0).oMf m.jMf).rot *ᵥ ((k 0).vel m.jMf).ang) * ((k 0).oMf m.jMf).rot * ((k 0).fJf m.jMf).ang⟩ := by
      unfold Imp.diff6 Imp.calc6
      cases hm : m.type
      · exact absurd hm ht
      · have := hw hm
        unfold position orient at this
        simp [DI6.lwaMl, Pose.action, Mat6.mul, skew_zero, Kin.velIn, Pose.act, e1, e2, this]
      · simp [DI6.lwaMl, Pose.action, Mat6.mul, skew_zero, Kin.velIn, e1, e2]
    simp only [a1, a2, hJ]
    constructor
    · refine (hM.mulVec hv.lin).congr_deriv ?_
      simp only [Jac.mulVec]
      rw [sub_mulVec, ← mulVec_mulVec, ← mulVec_mulVec, ← mulVec_mulVec, skew_mulVec, mulVec_add, fXj_lin hF, Kin.fJf,
        fXj_ang hF]
      simp only [Kin.vel]
      rw [(hM.rot 0).cross, ← cross_anticomm (m.jMf.actInv (k 0).v).lin, mulVec_neg]
      simp only [Jac.mulVec]
      abel
    · refine (hM.mulVec hv.ang).congr_deriv ?_
      simp only [Jac.mulVec]
      rw [sub_mulVec, ← mulVec_mulVec, ← mulVec_mulVec, ← mulVec_mulVec, skew_mulVec, mulVec_add, fXj_ang hF, Kin.fJf,
        fXj_ang hF]
      simp only [Kin.vel]
      rw [(hM.rot 0).cross, ← cross_anticomm (m.jMf.actInv (k 0).v).ang, mulVec_neg]
      simp only [Jac.mulVec]
      abel

/-! ### A turning body -/

/-- Rotation about `z`. -/
noncomputable def turn (t : ℝ) : M3 := !![Real.cos t, -Real.sin t, 0; Real.sin t, Real.cos t, 0; 0, 0, 1]

theorem turn_rot (t : ℝ) : Rot (turn t) := by
  have h := Real.sin_sq_add_cos_sq t
  constructor
  · ext i j
    fin_cases i <;> fin_cases j <;> simp [turn, Matrix.mul_apply, Fin.sum_univ_three] <;> linarith
  · simp [turn, det_fin_three]
    linarith

/-- A body on a hinge along `z`, at the angle `t`, turning at unit speed. -/
noncomputable def spin (t : ℝ) : Kin 1 where
  oMi := ⟨turn t, 0⟩
  v := ⟨0, ![0, 0, 1]⟩
  a := ⟨0, 0⟩
  vq := ⟨0, 0⟩
  aq := ⟨0, 0⟩
  av := ⟨0, 0⟩
  J := ⟨0, Matrix.of fun i _ => ![0, 0, 1] i⟩

theorem spin_moves (t : ℝ) : Moves (fun s => (spin s).oMi) ⟨0, ![0, 0, 1]⟩ t := by
  refine ⟨turn_rot, fun i j => ?_, (hasDerivAt_const _ _).congr_deriv (by simp)⟩
  have hs := Real.hasDerivAt_sin t
  have hc := Real.hasDerivAt_cos t
  have h0 := hasDerivAt_const t (0 : ℝ)
  have h1 := hasDerivAt_const t (1 : ℝ)
  have hs' := hs.fun_neg
  fin_cases i <;> fin_cases j <;>
    simp [spin, turn, skew, Matrix.mul_apply, Fin.sum_univ_three] <;> first | assumption

/-- The contact frame on the arm of the body. -/
def arm : Pose := ⟨1, ![1, 0, 0]⟩

theorem spin_trajectory : Trajectory spin := ⟨spin_moves, fun t => ⟨hasDerivAt_const _ _, hasDerivAt_const _ _⟩⟩

theorem spin_col : (spin 0).J.mulVec (fun _ => 1) = ⟨0, ![0, 0, 1]⟩ := by
  simp only [spin, Jac.mulVec]
  congr 1
  · simp
  · ext i
    simp [Matrix.mulVec, dotProduct]

theorem spin_along : Along spin (Sum.elim (fun _ => 1) 0) where
  pose := by
    rw [Sum.elim_comp_inl, spin_col]
    exact spin_moves 0
  vel := ⟨(hasDerivAt_const _ _).congr_deriv (by simp [spin, Jac.mulVec, Six.add]),
    (hasDerivAt_const _ _).congr_deriv (by simp [spin, Jac.mulVec, Six.add])⟩
  acc := ⟨(hasDerivAt_const _ _).congr_deriv (by simp [spin, Jac.mulVec, Six.add]),
    (hasDerivAt_const _ _).congr_deriv (by simp [spin, Jac.mulVec, Six.add])⟩

/-- C86 on the turning body: the contact on its arm accelerates towards the hinge. -/
example (d : D3 1) : ((⟨arm, 0, .lwa, ⟨0, 0⟩⟩ : C3).calc (spin 0) d).a0 = ![-1, 0, 0]
    ∧ oscillator ⟨0, 0⟩ (fun t => position (spin t) arm - 0) 0 = ![-1, 0, 0] := by
  have h := (C86_point (⟨arm, 0, .lwa, ⟨0, 0⟩⟩ : C3) Rot.one spin spin_trajectory d 0).2.2
  have e : ((⟨arm, 0, .lwa, ⟨0, 0⟩⟩ : C3).calc (spin 0) d).a0 = ![-1, 0, 0] := by
    ext i
    fin_cases i <;> simp [C3.calc, locCalc, spin, arm, turn, Kin.oMf, Pose.mul, Kin.classical, Kin.acc, Kin.vel, Pose.actInv,
      cross_apply, Matrix.mulVec, dotProduct, Fin.sum_univ_three, vecHead, vecTail]
  exact ⟨e, by rw [← e, h]; rfl⟩

/-- C86 (holding): the contact that stays on the hinge keeps the constraint. -/
example (d : D3 1) (t : ℝ) : ((⟨here, 0, .lwa, ⟨1, 1⟩⟩ : C3).calc (spin t) d).a0 = 0 := by
  ext i
  fin_cases i <;> simp [C3.calc, locCalc, spin, here, Kin.oMf, Pose.mul, Kin.classical, Kin.acc, Kin.vel, Pose.actInv]

/-- C86 (holding, six dimensions): a body at rest keeps the constraint. -/
example (L : Log) (d : D6 1) (t : ℝ) :
    ((⟨here, here, .lwa, ⟨0, 1⟩⟩ : C6).calc L (slide 1 0 0 0) d).a0 = ⟨0, 0⟩
    ∧ Trajectory fun _ : ℝ => slide 1 0 0 0 := by
  refine ⟨?_, slide_trajectory (p := fun _ => 0) (v := fun _ => 0) (a := fun _ => 0) Rot.one
      (fun t => (hasDerivAt_const t _).congr_deriv (by simp)) fun t => hasDerivAt_const t _⟩
  simp [C6.calc, slide, here, Kin.oMf, Pose.mul, Kin.acc, Kin.vel, Pose.actInv, D6.lwaMl, Pose.act, Six.addSmul]

/-- C86 (one dimension): the identity announces the direction it constrains. -/
example : (⟨here, 1, .world, 1, ⟨1, 1⟩⟩ : C1).announced = (⟨here, 1, .world, 1, ⟨1, 1⟩⟩ : C1).direction := by
  ext i
  fin_cases i <;> simp [C1.announced, C1.direction, unitZ, Matrix.one_apply]

/-- C86 (Jacobian): a body accelerated by its hinge. -/
example : Accelerated (spin 0) { spin 0 with a := ⟨0, ![0, 0, 1]⟩ } fun _ => 1 := by
  refine ⟨⟨rfl, rfl, rfl, rfl⟩, ?_⟩
  rw [spin_col]
  simp [spin, Six.add]

/-- C87: the acceleration of the contact on the arm turns with the body, and so says the derivative. -/
example (d : D3 1) (d' : ℝ → D3 1) :
    HasDerivAt (fun s => ((⟨arm, 0, .lwa, ⟨0, 0⟩⟩ : C3).calc (spin s) (d' s)).a0) ![0, -1, 0] 0 := by
  refine (C87_point (⟨arm, 0, .lwa, ⟨0, 0⟩⟩ : C3) Rot.one spin _ spin_along (spin 0) ⟨rfl, rfl, rfl, rfl⟩ d d').1.congr_deriv ?_
  ext i
  fin_cases i <;> simp [C3.diff, C3.calc, locCalc, locDiff, locAgain, spin, arm, turn, Kin.oMf, Pose.mul, Kin.classical, Kin.acc,
    Kin.vel, Kin.fJf, fXj, Pose.inv, Pose.action, Mat6.mul, Pose.actInv, cross_apply, skew, Matrix.mulVec, dotProduct, Fin.sum_univ_three, vecHead,
    vecTail, Matrix.mul_apply]

/-- C87 (six dimensions): a logarithm that has its derivative along a curve, where the body only moves. -/
example : ∃ L : Log, LogAlong L (fun s => (⟨1, ![s, 0, 0]⟩ : Pose)) ⟨![1, 0, 0], 0⟩ 0 ∧ L.log ⟨1, ![2, 0, 0]⟩ = ⟨![2, 0, 0], 0⟩ := by
  refine ⟨⟨fun M => ⟨M.trans, 0⟩, fun _ => ⟨1, 0, 0, 1⟩⟩, ⟨?_, ?_⟩, rfl⟩
  · rw [hasDerivAt_pi]
    intro i
    fin_cases i
    · simpa using hasDerivAt_id' (0 : ℝ)
    · simpa using hasDerivAt_const (0 : ℝ) (0 : ℝ)
    · simpa using hasDerivAt_const (0 : ℝ) (0 : ℝ)
  · simpa using hasDerivAt_const (0 : ℝ) (0 : V3)

/-- C88: the hinge has a continuous Jacobian, and its torques for a force held at the joint have a derivative. -/
example (f : Six) : (∀ i j, ContinuousAt (fun s => (spin s).J.lin i j) 0) ∧ (∀ i j, ContinuousAt (fun s => (spin s).J.ang i j) 0)
    ∧ HasDerivAt (fun s => -(spin s).J.tmul f) 0 0 :=
  ⟨fun _ _ => continuousAt_const, fun _ _ => continuousAt_const, hasDerivAt_const (0 : ℝ) (-(spin 0).J.tmul f)⟩

/-- C89: the velocity of the turning body is that of its joint. -/
theorem spin_velocity (s : ℝ) : (spin s).v = (spin s).J.mulVec fun _ => 1 := by
  have : (spin s).J = (spin 0).J := rfl
  rw [this, spin_col]
  rfl

/-- **C89 (impulses of six dimensions, type `WORLD`).** The velocity of the contact on the arm of a turning body turns at the rate
`(-1, 0, 0)`; the derivative computed is zero. -/
theorem C89_world_counterexample :
    let m : Imp := ⟨arm, .world⟩
    ∃ (k : ℝ → Kin 1) (δ u : Fin 1 → ℝ), Along k (Sum.elim δ 0) ∧ (∀ s, (k s).v = (k s).J.mulVec u)
      ∧ ∀ (d : DI6 1) (d' : ℝ → DI6 1),
        HasDerivAt (fun s => ((m.calc6 (k s) (d' s)).Jc.mulVec u).lin) ![-1, 0, 0] 0
        ∧ ((m.diff6 (k 0) (m.calc6 (k 0) d)).dv0.mulVec δ).lin = 0 := by
  intro m
  refine ⟨spin, fun _ => 1, fun _ => 1, spin_along, spin_velocity, fun d d' => ⟨?_, ?_⟩⟩
  · have h := (C89_frame_partial ⟨arm, .lwa⟩ Rot.one spin _ spin_along _ spin_velocity (spin 0) rfl rfl (by simp) d d').lin
    have e : (fun s => ((m.calc6 (spin s) (d' s)).Jc.mulVec fun _ => 1).lin)
        = fun s => (((⟨arm, .lwa⟩ : Imp).calc6 (spin s) (d' s)).Jc.mulVec fun _ => 1).lin := rfl
    rw [e]
    refine h.congr_deriv ?_
    ext i
    fin_cases i <;> simp [Imp.diff6, Imp.calc6, DI6.lwaMl, spin, arm, turn, Kin.oMf, Pose.mul, Kin.velIn, Kin.vel, Kin.fJf, fXj,
      Pose.inv, Pose.action, Mat6.mul, Pose.actInv, cross_apply, skew, Jac.mulVec, Matrix.mulVec, dotProduct, Fin.sum_univ_three, vecHead,
      vecTail, Matrix.mul_apply]
  · ext i
    fin_cases i <;> simp [m, Imp.diff6, Imp.calc6, DI6.lwaMl, spin, arm, turn, Kin.oMf, Pose.mul, Kin.velIn, Kin.vel, Kin.fJf, fXj,
      Pose.inv, Pose.action, Pose.act, Mat6.mul, Pose.actInv, cross_apply, skew, Jac.mulVec, Matrix.mulVec, dotProduct, Fin.sum_univ_three, vecHead,
      vecTail, Matrix.mul_apply]

end Verif.Con
