import Verif.Props.ContactStack

/-!
# C138: impacts, end to end

The impulse dynamics (C83) over the impulse models of the library (C89): what is left to assume is Pinocchio's kinematics and derivatives of the
inverse dynamics of the robot without impulses.
-/

namespace Verif.Con

open Matrix Filter Topology

set_option linter.unusedSectionVars false

variable {nv nj : ℕ} {Q : Type}

theorem Rot.cancel {A : M3} (h : Rot A) {x y : V3} {r : ℝ} (e : A *ᵥ x = -(r • A *ᵥ y)) : x = -(r • y) := by
  have := congrArg (fun z => Aᵀ *ᵥ z) e
  simp only [mulVec_neg, mulVec_smul] at this
  rwa [h.back, h.back] at this

/-- Restitution of the rows of an impulse is restitution of the velocity of its frame. -/
theorem Hit.restitution (c : Hit) (hF : Rot c.jMf.rot) (k : Kin nv) (hk : Rot k.oMi.rot) (d : c.Data nv) (u w : Fin nv → ℝ) (r : ℝ)
    (h : c.Jc (c.calc k d) *ᵥ u = -(r • c.Jc (c.calc k d) *ᵥ w)) :
    (c.jMf.actInv (k.J.mulVec u)).lin = -(r • (c.jMf.actInv (k.J.mulVec w)).lin)
    ∧ (∀ m, c = .six m → (c.jMf.actInv (k.J.mulVec u)).ang = -(r • (c.jMf.actInv (k.J.mulVec w)).ang)) := by
  cases c with
  | three m =>
    rcases m with ⟨F, t⟩
    refine ⟨?_, fun _ h => by cases h⟩
    have hA : Rot (k.oMf F).rot := hk.mul hF
    have e1 : ∀ z, (k.fJf F).lin *ᵥ z = (F.actInv (k.J.mulVec z)).lin := fun z => fXj_lin hF k.J z
    have key : ∀ A : M3, Rot A → (A * (k.fJf F).lin) *ᵥ u = -(r • (A * (k.fJf F).lin) *ᵥ w) →
        (F.actInv (k.J.mulVec u)).lin = -(r • (F.actInv (k.J.mulVec w)).lin) := by
      intro A hA e
      rw [← mulVec_mulVec, ← mulVec_mulVec, e1, e1] at e
      exact hA.cancel e
    cases t with
    | loc => exact key 1 Rot.one (by rw [Matrix.one_mul]; exact h)
    | world => exact key _ hA h
    | lwa => exact key _ hA h
  | six m =>
    rcases m with ⟨F, t⟩
    have hA : Rot (k.oMf F).rot := hk.mul hF
    have e1 : ∀ z, (k.fJf F).lin *ᵥ z = (F.actInv (k.J.mulVec z)).lin := fun z => fXj_lin hF k.J z
    have e2 : ∀ z, (k.fJf F).ang *ᵥ z = (F.actInv (k.J.mulVec z)).ang := fun z => fXj_ang hF k.J z
    have h' : of (below (Imp.calc6 ⟨F, t⟩ k d).Jc.lin (Imp.calc6 ⟨F, t⟩ k d).Jc.ang) *ᵥ u
      = -(r • of (below (Imp.calc6 ⟨F, t⟩ k d).Jc.lin (Imp.calc6 ⟨F, t⟩ k d).Jc.ang) *ᵥ w) := h
    rw [below_mulVec, below_mulVec] at h'
    have hl : (Imp.calc6 ⟨F, t⟩ k d).Jc.lin *ᵥ u = -(r • (Imp.calc6 ⟨F, t⟩ k d).Jc.lin *ᵥ w) := by
      funext i
      have := congrFun h' (Fin.castAdd 3 i)
      simpa only [Pi.neg_apply, Pi.smul_apply, below_lin] using this
    have ha : (Imp.calc6 ⟨F, t⟩ k d).Jc.ang *ᵥ u = -(r • (Imp.calc6 ⟨F, t⟩ k d).Jc.ang *ᵥ w) := by
      funext i
      have := congrFun h' (Fin.natAdd 3 i)
      simpa only [Pi.neg_apply, Pi.smul_apply, below_ang] using this
    have key : ∀ A : M3, Rot A → (Imp.calc6 ⟨F, t⟩ k d).Jc.lin = A * (k.fJf F).lin → (Imp.calc6 ⟨F, t⟩ k d).Jc.ang = A * (k.fJf F).ang →
        (F.actInv (k.J.mulVec u)).lin = -(r • (F.actInv (k.J.mulVec w)).lin)
        ∧ (F.actInv (k.J.mulVec u)).ang = -(r • (F.actInv (k.J.mulVec w)).ang) := by
      intro A hA j1 j2
      rw [j1, ← mulVec_mulVec, ← mulVec_mulVec, e1, e1] at hl
      rw [j2, ← mulVec_mulVec, ← mulVec_mulVec, e2, e2] at ha
      exact ⟨hA.cancel hl, hA.cancel ha⟩
    have : (F.actInv (k.J.mulVec u)).lin = -(r • (F.actInv (k.J.mulVec w)).lin)
        ∧ (F.actInv (k.J.mulVec u)).ang = -(r • (F.actInv (k.J.mulVec w)).ang) := by
      cases t with
      | loc => exact key 1 Rot.one (by simp [Imp.calc6]) (by simp [Imp.calc6])
      | world =>
        refine key _ hA ?_ ?_ <;> simp [Imp.calc6, DI6.lwaMl, Pose.action, Mat6.mul, skew_zero]
      | lwa =>
        refine key _ hA ?_ ?_ <;> simp [Imp.calc6, DI6.lwaMl, Pose.action, Mat6.mul, skew_zero]
    exact ⟨this.1, fun _ _ => this.2⟩

theorem Blow.lay_distinct {B : Body Q nv nj} {S : Blow nj} (hS : S.Distinct) (old : Q → ∀ i, (S.c i).Data nv) {imp kinv} :
    (S.impacts B old imp kinv).lay.Distinct := by
  intro r r' h
  have h' : ((S.joint (S.row r).1 : Fin nj) : ℕ) = (S.joint (S.row r').1 : Fin nj) := h
  have := hS (Fin.ext h')
  change ((S.row r).1 : ℕ) = ((S.row r').1 : ℕ)
  rw [this]

/-- The stacked Jacobian turns the impulses into the torques of the external impulses. -/
theorem Blow.fext_torque {B : Body Q nv nj} {S : Blow nj} (hS : S.Distinct) (hF : ∀ i, Rot (S.c i).jMf.rot)
    (old : Q → ∀ i, (S.c i).Data nv) (q : Q) (l : Fin S.rows → ℝ) {imp kinv} :
    ((S.impacts B old imp kinv).J q)ᵀ *ᵥ l = ∑ j, (B.kin q 0 j).J.tmul (S.fext B old q l j) := by
  rw [Blow.sum_fext hS old q l fun j => (B.kin q 0 j).J]
  change (of fun r => (S.c (S.row r).1).Jc (S.calc B old q (S.row r).1) (S.row r).2)ᵀ *ᵥ l = _
  rw [Blow.tmulVec (fun i => (S.c i).Jc (S.calc B old q i))]
  refine Finset.sum_congr rfl fun i _ => ?_
  exact (Hit.forces (S.c i) (hF i) (B.kin q 0 (S.joint i)) (old q i) (S.part l i)).symm

/-- **C138 (impacts, restitution).** After an impact without damping, the point of every impulse of three dimensions moves with `-r` times its
velocity before the impact, and so does the frame of every impulse of six dimensions, turning included: without restitution they are at rest.
Whatever the types, and also if impulses share a joint. -/
theorem C138_restitution (B : Body Q nv nj) (S : Blow nj) (hF : ∀ i, Rot (S.c i).jMf.rot) (old : Q → ∀ i, (S.c i).Data nv) (imp) (kinv)
    (hI : Fwd.ImpactsOk (S.impacts B old imp kinv)) (m : Fwd.IMod nv) (hμ : m.damping = 0) (d : Fwd.IDat Q nv S.rows)
    (x : Q × Fwd.Vec nv) (hB : Velocities B x.1)
    (hreg : Fwd.Regular (B.M x.1 + diagonal (Fwd.inertia m.arm)) ((S.impacts B old imp kinv).J x.1) m.damping) (i : Fin S.n) :
    let before := (B.kin x.1 x.2 (S.joint i)).vel (S.c i).jMf
    let after := (B.kin x.1 (Fwd.impCalc (S.impacts B old imp kinv) m d x).xnext.2 (S.joint i)).vel (S.c i).jMf
    after.lin = -(m.r • before.lin) ∧ ∀ M, S.c i = .six M → after.ang = -(m.r • before.ang) := by
  intro before after
  obtain ⟨-, -, h, -⟩ := Fwd.C83_impact (S.impacts B old imp kinv) hI m d x hreg
  set v := (Fwd.impCalc (S.impacts B old imp kinv) m d x).xnext.2 with hv
  rw [hμ, zero_smul, sub_zero] at h
  have hi : (S.c i).Jc (S.calc B old x.1 i) *ᵥ v = -(m.r • (S.c i).Jc (S.calc B old x.1 i) *ᵥ x.2) := by
    funext p
    have hr : S.row (finSigmaFinEquiv ⟨i, p⟩) = ⟨i, p⟩ := Equiv.symm_apply_apply _ _
    have e := congrFun h (finSigmaFinEquiv ⟨i, p⟩)
    change ((S.c (S.row (finSigmaFinEquiv ⟨i, p⟩)).1).Jc (S.calc B old x.1 (S.row (finSigmaFinEquiv ⟨i, p⟩)).1)
        (S.row (finSigmaFinEquiv ⟨i, p⟩)).2 : Fin nv → ℝ) ⬝ᵥ v
      = -(m.r * (((S.c (S.row (finSigmaFinEquiv ⟨i, p⟩)).1).Jc (S.calc B old x.1 (S.row (finSigmaFinEquiv ⟨i, p⟩)).1)
        (S.row (finSigmaFinEquiv ⟨i, p⟩)).2 : Fin nv → ℝ) ⬝ᵥ x.2)) at e
    rw [hr] at e
    exact e
  have hk := Hit.restitution (S.c i) (hF i) (B.kin x.1 0 (S.joint i)) (hB.rot _) (old x.1 i) v x.2 m.r hi
  rw [← hB.vel, ← hB.vel] at hk
  exact hk

/-- **C138 (impacts, momentum, partial).** An impact keeps the configuration, and changes the momentum by the impulses that are reported on the
joints. Missing: impulses that share a joint, of which only the last is reported (`C83_same_joint_counterexample`). -/
theorem C138_momentum_partial (B : Body Q nv nj) (S : Blow nj) (hS : S.Distinct) (hF : ∀ i, Rot (S.c i).jMf.rot)
    (old : Q → ∀ i, (S.c i).Data nv) (imp) (kinv) (hI : Fwd.ImpactsOk (S.impacts B old imp kinv)) (m : Fwd.IMod nv)
    (d : Fwd.IDat Q nv S.rows) (x : Q × Fwd.Vec nv)
    (hreg : Fwd.Regular (B.M x.1 + diagonal (Fwd.inertia m.arm)) ((S.impacts B old imp kinv).J x.1) m.damping) :
    let e := Fwd.impCalc (S.impacts B old imp kinv) m d x
    e.xnext.1 = x.1
    ∧ B.M x.1 *ᵥ (e.xnext.2 - x.2) + Fwd.inertia m.arm * (e.xnext.2 - x.2)
      = ∑ j, (B.kin x.1 0 j).J.tmul (S.fext B old x.1 e.lam j) := by
  intro e
  obtain ⟨h0, h1, -⟩ := Fwd.C83_impact (S.impacts B old imp kinv) hI m d x hreg
  exact ⟨h0, h1.trans (Blow.fext_torque hS hF old x.1 _)⟩

/-- **C138 (derivatives, partial).** Without restitution and armature, for impulses on different joints, `Fx` of `calcDiff` after `calc` gives the
derivative of the velocity after the impact along every curve of states, and so do the derivatives of the impulses, if they are asked for. The error
of the impulses of six dimensions and type `WORLD` (`C89_world_counterexample`) does no harm without damping: their frames are at rest after the impact.
Missing: restitution (`C83_restitution_counterexample`), armature (`C83_armature_counterexample`), impulses that share a joint
(`C83_same_joint_counterexample`), impulses of six dimensions and type `WORLD` with damping. -/
theorem C138_derivatives_partial (B : Body Q nv nj) (S : Blow nj) (hS : S.Distinct) (hF : ∀ i, Rot (S.c i).jMf.rot)
    (old : Q → ∀ i, (S.c i).Data nv) (imp) (kinv) (hI : Fwd.ImpactsOk (S.impacts B old imp kinv)) (grav : Q → Fwd.Vec nv)
    (m : Fwd.IMod nv) (hr : m.r = 0) (harm : m.arm.none = true)
    (hw : m.damping = 0 ∨ ∀ i M, S.c i = .six M → M.type ≠ .world)
    (D : ℝ → Fwd.IDat Q nv S.rows) (q : ℝ → Q) (v : ℝ → Fwd.Vec nv) (δ ν : Fwd.Vec nv)
    (hq : BodyAlong B grav q δ) (hv : HasDerivAt v ν 0)
    (hreg : ∀ᶠ s in 𝓝 0, Fwd.Regular (B.M (q s)) ((S.impacts B old imp kinv).J (q s)) m.damping) :
    let I := S.impacts B old imp kinv
    let e := Fwd.impDiff I m (Fwd.impCalc I m (D 0) (q 0, v 0)) (q 0, v 0)
    (∀ i j, e.Fx (Sum.inl i) (Sum.inl j) = (1 : Fwd.Mat nv nv) i j ∧ e.Fx (Sum.inl i) (Sum.inr j) = 0)
    ∧ HasDerivAt (fun s => (Fwd.impCalc I m (D s) (q s, v s)).xnext.2) (fun i => (e.Fx *ᵥ Sum.elim δ ν) (Sum.inr i)) 0
    ∧ (m.force = true → HasDerivAt (fun s => (Fwd.impCalc I m (D s) (q s, v s)).lam) (e.df_dx *ᵥ Sum.elim δ ν) 0) := by
  intro I e
  set I' : Fwd.Impacts Q nv S.rows := { I with dv0 := S.right B old } with hI'
  have hIok : Fwd.ImpactsOk I' := ⟨hI.imp, hI.kinv⟩
  have hcalc : ∀ d x, Fwd.impCalc I' m d x = Fwd.impCalc I m d x := fun _ _ => rfl
  have hdv : I.dv0 (q 0) (Fwd.impCalc I m (D 0) (q 0, v 0)).xnext.2 = S.right B old (q 0) (Fwd.impCalc I m (D 0) (q 0, v 0)).xnext.2 := by
    have key : ∀ i, (S.c i).dv0 ((S.c i).diff (B.kin (q 0) (Fwd.impCalc I m (D 0) (q 0, v 0)).xnext.2 (S.joint i)) (S.calc B old (q 0) i))
        = (S.c i).right (B.kin (q 0) (Fwd.impCalc I m (D 0) (q 0, v 0)).xnext.2 (S.joint i)) (S.calc B old (q 0) i) := by
      intro i
      refine Hit.right_eq _ _ _ fun M hM ht => ?_
      rcases hw with h0 | h0
      · have hin : Fwd.inertia m.arm = 0 := by simp [Fwd.inertia, harm]
        obtain ⟨k1, k2⟩ := C138_restitution B S hF old imp kinv hI m h0 (D 0) (q 0, v 0) (hq.kin 0)
          (by rw [hin]; simpa using hreg.self_of_nhds) i
        rw [hr, zero_smul, neg_zero] at k1
        have k2 := k2 M hM
        rw [hr, zero_smul, neg_zero] at k2
        rw [hM] at k1 k2
        exact congrArg₂ Six.mk k1 k2
      · exact absurd ht (h0 i M hM)
    funext r
    exact congrFun (key (S.row r).1) (S.row r).2
  have he : Fwd.impDiff I' m (Fwd.impCalc I m (D 0) (q 0, v 0)) (q 0, v 0) = e := by
    simp only [e, Fwd.impDiff, hdv]
    rfl
  have h := Fwd.C83_derivatives_partial I' hIok grav m hr harm D q v δ ν (Blow.lay_distinct hS old (kinv := kinv) (imp := imp) (B := B))
    (Blow.along hq old hS hF) hv hreg
  simp only [hcalc, he] at h
  exact ⟨h.1, h.2.1, fun hf => (h.2.2 hf).1⟩

/-! ### A box and a wall -/

namespace StackDemo

noncomputable section

/-- A floating body with unit inertia, turned as the world; a configuration is where it is. -/
def box : Body V3 6 1 where
  M _ := 1
  kin q v _ :=
    { oMi := ⟨1, q⟩
      v := ⟨fun i => v (Fin.castAdd 3 i), fun i => v (Fin.natAdd 3 i)⟩
      a := ⟨0, 0⟩
      vq := ⟨0, 0⟩
      aq := ⟨0, 0⟩
      av := ⟨0, 0⟩
      J := ⟨of fun i k => if k = Fin.castAdd 3 i then 1 else 0, of fun i k => if k = Fin.natAdd 3 i then 1 else 0⟩ }
  rneaDq _ _ _ := 0
  gravDq _ := 0

/-- Stopped by an impulse of six dimensions and type `WORLD`. -/
def wall : Blow 1 := ⟨1, fun _ => .six ⟨here, .world⟩, fun _ => 0⟩

/-- The impact problem solved with the inverse. -/
def smash (nv nc : ℕ) : Fwd.Impacts ℝ nv nc := Fwd.Demo.imps 0 0

theorem smash_ok {nv nj : ℕ} {Q : Type} (B : Body Q nv nj) (S : Blow nj) (old : Q → ∀ i, (S.c i).Data nv) :
    Fwd.ImpactsOk (S.impacts B old (smash nv S.rows).imp (smash nv S.rows).kinv) :=
  have h : Fwd.ImpactsOk (smash nv S.rows) := Fwd.Demo.imps_ok _ _
  ⟨h.imp, h.kinv⟩

end

theorem box_J (q v : _) (w : Fin 6 → ℝ) :
    (box.kin q v 0).J.mulVec w = ⟨fun i => w (Fin.castAdd 3 i), fun i => w (Fin.natAdd 3 i)⟩ := by
  simp only [Jac.mulVec, box]
  congr 1 <;> funext i <;> simp [mulVec, dotProduct]

theorem box_velocities (q : V3) : Velocities box q where
  rot _ := Rot.one
  oMi _ _ := rfl
  J _ _ := rfl
  vel v j := by
    obtain rfl : j = 0 := Subsingleton.elim _ _
    rw [box_J]
    rfl

theorem box_along (q w : V3) : BodyAlong box (fun _ => 0) (fun s => q + s • w) (below w 0) where
  M := continuousAt_const
  kin _ := box_velocities _
  along v j := by
    obtain rfl : j = 0 := Subsingleton.elim _ _
    have hz : ∀ z : V3, HasDerivAt (fun _ : ℝ => z) 0 0 := fun z => hasDerivAt_const _ _
    refine ⟨?_, ⟨(hz _).congr_deriv ?_, (hz _).congr_deriv ?_⟩, ⟨(hz _).congr_deriv ?_, (hz _).congr_deriv ?_⟩⟩
    · have e : (box.kin (q + (0 : ℝ) • w) v 0).J.mulVec ((Sum.elim (below w 0) 0 : Tan 6 → ℝ) ∘ Sum.inl) = ⟨w, 0⟩ := by
        rw [Sum.elim_comp_inl, box_J]
        congr 1 <;> funext i
        · exact below_lin _ _ _
        · exact below_ang _ _ _
      rw [e]
      refine ⟨fun _ => Rot.one, fun i j => (hasDerivAt_const _ _).congr_deriv ?_, ?_⟩
      · simp [box, skew_zero]
      · simpa [box] using ((hasDerivAt_id (0 : ℝ)).smul_const w).const_add q
    all_goals simp [box, Jac.mulVec, Six.add]
  lin _ _ _ := continuousAt_const
  ang _ _ _ := continuousAt_const
  rnea a φ := by
    simp only [box, zero_mulVec]
    exact hasDerivAt_const _ _
  grav := by
    simp only [box, zero_mulVec]
    exact hasDerivAt_const _ _

theorem box_inj (q : V3) (f : Fin 6 → ℝ) (h1 : (box.kin q 0 0).J.tmul (Six.ofVec f) = 0) : f = 0 := by
  have h4 := dot_tmul (box.kin q 0 0).J (Six.ofVec f) f
  rw [h1, box_J] at h4
  have hsq : ∀ z : V3, 0 ≤ z ⬝ᵥ z := fun z => Finset.sum_nonneg fun i _ => mul_self_nonneg _
  change _ = (Six.ofVec f).lin ⬝ᵥ (Six.ofVec f).lin + (Six.ofVec f).ang ⬝ᵥ (Six.ofVec f).ang at h4
  have hl := hsq (Six.ofVec f).lin
  have ha := hsq (Six.ofVec f).ang
  simp only [dotProduct_zero, zero_dotProduct] at h4
  have e1 := dotProduct_self_eq_zero.1 (show (Six.ofVec f).lin ⬝ᵥ (Six.ofVec f).lin = 0 by linarith)
  have e2 := dotProduct_self_eq_zero.1 (show (Six.ofVec f).ang ⬝ᵥ (Six.ofVec f).ang = 0 by linarith)
  funext i
  exact six_cases (p := fun i => f i = 0) (fun i => congrFun e1 i) (fun i => congrFun e2 i) i

theorem wall_regular (old : _ → ∀ i, (wall.c i).Data 6) (q : V3) {imp kinv} : Fwd.Regular (box.M q) ((wall.impacts box old imp kinv).J q) 0 := by
  refine ⟨spd_one 6, le_rfl, Or.inr fun l hl => ?_⟩
  change (of fun r => (wall.c (wall.row r).1).Jc (wall.calc box old q (wall.row r).1) (wall.row r).2)ᵀ *ᵥ l = 0 at hl
  rw [Blow.tmulVec (fun i => (wall.c i).Jc (wall.calc box old q i))] at hl
  have h0 : ((wall.c (0 : Fin 1)).Jc (wall.calc box old q (0 : Fin 1)))ᵀ *ᵥ wall.part l (0 : Fin 1) = 0 :=
    (Fin.sum_univ_one (fun i : Fin 1 => ((wall.c i).Jc (wall.calc box old q i))ᵀ *ᵥ wall.part l i)).symm.trans hl
  have h1 := (Hit.forces (wall.c (0 : Fin 1)) Rot.one (box.kin q 0 0) (old q (0 : Fin 1)) (wall.part l (0 : Fin 1))).trans h0
  have h2 : ((wall.c (0 : Fin 1)).force (wall.part l (0 : Fin 1)) ((wall.c (0 : Fin 1)).calc (box.kin q 0 0) (old q (0 : Fin 1)))).1
      = Six.ofVec (wall.part l (0 : Fin 1)) := by
    change (Imp.force6 ⟨here, .world⟩ (Six.ofVec (wall.part l (0 : Fin 1))) (Imp.calc6 ⟨here, .world⟩ (box.kin q 0 0) (old q (0 : Fin 1)))).1 = _
    simp [Imp.force6, Imp.calc6, here, DI6.lwaMl, Pose.actF, Pose.actInvF, box, Kin.oMf, Pose.mul]
  rw [h2] at h1
  have h3 : wall.part l (0 : Fin 1) = 0 := by
    have key : ∀ f : Fin 6 → ℝ, (box.kin q 0 0).J.tmul (Six.ofVec f) = 0 → f = 0 := box_inj q
    exact key _ h1
  funext r
  obtain ⟨⟨i, j⟩, rfl⟩ := (finSigmaFinEquiv (n := fun i => (wall.c i).dim)).surjective r
  obtain rfl : i = (0 : Fin 1) := Subsingleton.elim (α := Fin 1) _ _
  exact congrFun h3 j

/-- C138 (restitution): the box bounces off the wall with restitution `r`, moving and turning. -/
example (old : _ → ∀ i, (wall.c i).Data 6) (d : Fwd.IDat V3 6 wall.rows) (q : V3) (v : Fin 6 → ℝ) (r : ℝ) :
    (Fwd.impCalc (wall.impacts box old (smash 6 wall.rows).imp (smash 6 wall.rows).kinv) { r := r } d (q, v)).xnext.2 = -(r • v) := by
  obtain ⟨h1, h2⟩ := C138_restitution box wall (fun _ => Rot.one) old _ _ (smash_ok box wall old) { r := r } rfl d (q, v) (box_velocities q)
    (by rw [diag_none, add_zero]; exact wall_regular old q) (0 : Fin 1)
  have h2 := h2 _ rfl
  funext i
  refine six_cases (p := fun i => (Fwd.impCalc (wall.impacts box old (smash 6 wall.rows).imp (smash 6 wall.rows).kinv) { r := r } d (q, v)).xnext.2 i
    = (-(r • v)) i) (fun i => ?_) (fun i => ?_) i
  · have := congrFun h1 i
    simpa [Kin.vel, Pose.actInv, wall, Hit.jMf, here, box] using this
  · have := congrFun h2 i
    simpa [Kin.vel, Pose.actInv, wall, Hit.jMf, here, box] using this

/-- C138 (momentum): its momentum changes by the impulse that is reported. -/
example (old : _ → ∀ i, (wall.c i).Data 6) (d : Fwd.IDat V3 6 wall.rows) (q : V3) (v : Fin 6 → ℝ) (r : ℝ) :
    let e := Fwd.impCalc (wall.impacts box old (smash 6 wall.rows).imp (smash 6 wall.rows).kinv) { r := r } d (q, v)
    box.M q *ᵥ (e.xnext.2 - v) + Fwd.inertia ({} : Fwd.Arm 6) * (e.xnext.2 - v) = ∑ j, (box.kin q 0 j).J.tmul (wall.fext box old q e.lam j) :=
  (C138_momentum_partial box wall (fun _ _ _ => Subsingleton.elim (α := Fin 1) _ _) (fun _ => Rot.one) old _ _ (smash_ok box wall old) { r := r }
    d (q, v) (by rw [diag_none, add_zero]; exact wall_regular old q)).2

/-- C138 (derivatives): the box at every place, with every velocity, in every direction; the impulse is of six dimensions and type `WORLD`. -/
example (old : _ → ∀ i, (wall.c i).Data 6) (D : ℝ → Fwd.IDat V3 6 wall.rows) (q w : V3) (v ν : Fin 6 → ℝ) :
    let I := wall.impacts box old (smash 6 wall.rows).imp (smash 6 wall.rows).kinv
    let x := fun s : ℝ => (q + s • w, v + s • ν)
    let e := Fwd.impDiff I {} (Fwd.impCalc I {} (D 0) (x 0)) (x 0)
    HasDerivAt (fun s => (Fwd.impCalc I {} (D s) (x s)).xnext.2) (fun i => (e.Fx *ᵥ Sum.elim (below w 0) ν) (Sum.inr i)) 0 := by
  intro I x e
  exact (C138_derivatives_partial box wall (fun _ _ _ => Subsingleton.elim (α := Fin 1) _ _) (fun _ => Rot.one) old _ _ (smash_ok box wall old)
    (fun _ => 0) {} rfl rfl (Or.inl rfl) D (fun s => q + s • w) (fun s => v + s • ν) (below w 0) ν (box_along q w)
    ((((hasDerivAt_id (0 : ℝ)).smul_const ν).const_add v).congr_deriv (one_smul _ ν))
    (Eventually.of_forall fun s => wall_regular old _)).2.1

end StackDemo

end Verif.Con
