import Verif.Lemmas.ContactStack

/-!
# C137: nodes in contact, end to end

The forward dynamics with contacts (C81, C82) over the contact models of the library (C86–C88): what is left to assume is Pinocchio's kinematics
and derivatives of the inverse dynamics of the robot without contacts.
-/

namespace Verif.Con

open Matrix Filter Topology

set_option linter.unusedSectionVars false

variable {nv nj nu : ℕ} {X : Type}

theorem lay_distinct {L : Log} {R : Robot X nv nj} {S : Scene nj} (hS : S.Distinct) (old : X → ∀ i, (S.c i).Data nv) {fwd kinv} :
    (S.contacts L R old fwd kinv).lay.Distinct := by
  intro r r' h
  have h' : ((S.joint (S.row r).1 : Fin nj) : ℕ) = (S.joint (S.row r').1 : Fin nj) := h
  have := hS (Fin.ext h')
  change ((S.row r).1 : ℕ) = ((S.row r').1 : ℕ)
  rw [this]

/-- **C137 (derivatives, partial).** A node holds any number of contacts of the library, on different joints. Along every curve of states and
controls, `Fx` and `Fu` of `calcDiff` after `calc` give the derivative of the acceleration, whatever the gains, types, placements, damping and
armature, and whatever was in the data; if the derivatives of the forces are asked for, they too are right. What is assumed of the robot
(`RobotAlong`) does not mention the contacts. Missing: contacts that share a joint (`C137_shared_joint_counterexample`), contacts of two dimensions
with a gain on the position that lean (`C87_plane_counterexample`). -/
theorem C137_derivatives_partial (P : Fwd.Rigid X nv) (R : Robot X nv nj) (L : Log) (S : Scene nj) (hS : S.Distinct)
    (old : X → ∀ i, (S.c i).Data nv) (fwd) (kinv) (hC : Fwd.ContactsOk (S.contacts L R old fwd kinv)) (A : Fwd.Act X nv nu) (m : Fwd.CMod nv)
    (D : ℝ → Fwd.CDat nv S.rows nu) (x : ℝ → X) (u : ℝ → Fwd.Vec nu) (δ : Tan nv → ℝ) (w : Fwd.Vec nu)
    (hx : RobotAlong P R x δ) (hc : ∀ i, (S.c i).Fits L (fun s => R.kin (x s) 0 (S.joint i)) δ) (hu : Fwd.ActAlong A x u δ w)
    (hreg : ∀ᶠ s in 𝓝 0, Fwd.Regular (P.M (x s) + diagonal (Fwd.inertia m.arm)) ((S.contacts L R old fwd kinv).J (x s)) m.damping) :
    let C := S.contacts L R old fwd kinv
    let e := Fwd.conDiff C A m (Fwd.conCalc P C A m (D 0) (x 0) (u 0)) (x 0) (u 0)
    HasDerivAt (fun s => (Fwd.conCalc P C A m (D s) (x s) (u s)).xout) (e.Fx *ᵥ δ + e.Fu *ᵥ w) 0
    ∧ (m.force = true → HasDerivAt (fun s => (Fwd.conCalc P C A m (D s) (x s) (u s)).lam) (e.df_dx *ᵥ δ + e.df_du *ᵥ w) 0) := by
  intro C e
  obtain ⟨h1, h2, -⟩ := Fwd.C82_contact_partial P C hC A m D x u δ w (Scene.along hx old hS hc) hu (lay_distinct hS old) hreg
  exact ⟨h1, fun hf => (h2 hf).1⟩

/-- The stacked Jacobian turns the forces into the torques of the external forces. -/
theorem Scene.fext_torque {L : Log} {R : Robot X nv nj} {S : Scene nj} (hS : S.Distinct) (hF : ∀ i, Rot (S.c i).jMf.rot)
    (old : X → ∀ i, (S.c i).Data nv) (x : X) (l : Fin S.rows → ℝ) {fwd kinv} :
    ((S.contacts L R old fwd kinv).J x)ᵀ *ᵥ l = ∑ j, (R.kin x 0 j).J.tmul (S.fext L R old x l j) := by
  rw [Scene.sum_fext hS old x l fun j => (R.kin x 0 j).J]
  change (of fun r => (S.c (S.row r).1).Jc (S.calc L R old x (S.row r).1) (S.row r).2)ᵀ *ᵥ l = _
  rw [Scene.tmulVec (fun i => (S.c i).Jc (S.calc L R old x i))]
  refine Finset.sum_congr rfl fun i _ => ?_
  exact (Any.forces L (S.c i) (hF i) (R.kin x 0 (S.joint i)) (old x i) (S.part l i)).symm

/-- **C137 (equations of motion, partial).** The acceleration of `calc` and the forces it reports on the joints obey the equation of motion of the
robot under these forces, and the contacts, moving with that acceleration, obey their stabilised constraints (up to the damping). Missing: contacts
that share a joint. -/
theorem C137_motion_partial (P : Fwd.Rigid X nv) (R : Robot X nv nj) (L : Log) (S : Scene nj) (hS : S.Distinct)
    (hF : ∀ i, Rot (S.c i).jMf.rot) (old : X → ∀ i, (S.c i).Data nv) (fwd) (kinv) (hC : Fwd.ContactsOk (S.contacts L R old fwd kinv))
    (A : Fwd.Act X nv nu) (m : Fwd.CMod nv) (D : Fwd.CDat nv S.rows nu) (x : X) (u : Fwd.Vec nu)
    (hR : ∀ a j, Accelerated (R.kin x 0 j) (R.kin x a j) a)
    (hreg : Fwd.Regular (P.M x + diagonal (Fwd.inertia m.arm)) ((S.contacts L R old fwd kinv).J x) m.damping) :
    let e := Fwd.conCalc P (S.contacts L R old fwd kinv) A m D x u
    P.M x *ᵥ e.xout + Fwd.inertia m.arm * e.xout + P.nle x
      = A.tau x u + ∑ j, (R.kin x 0 j).J.tmul (S.fext L R old x e.lam j)
    ∧ ∀ i d, (S.c i).a0 ((S.c i).calc L (R.kin x e.xout (S.joint i)) d) = -(m.damping • S.part e.lam i) := by
  intro e
  obtain ⟨⟨h1, h2⟩, -⟩ := Fwd.C81_contact P (S.contacts L R old fwd kinv) hC A m D x u hreg
  refine ⟨by rw [h1, Scene.fext_torque hS hF], fun i d => ?_⟩
  rw [Any.affine L (S.c i) (hF i) (hR e.xout (S.joint i)) (old x i) d]
  funext p
  have := congrFun h2 (finSigmaFinEquiv ⟨i, p⟩)
  have hr : S.row (finSigmaFinEquiv ⟨i, p⟩) = ⟨i, p⟩ := Equiv.symm_apply_apply _ _
  simp only [Pi.add_apply, Pi.neg_apply, Pi.smul_apply] at this ⊢
  rw [add_comm, show -(m.damping • S.part e.lam i p) = _ from this.symm]
  change _ = ((S.c (S.row (finSigmaFinEquiv ⟨i, p⟩)).1).Jc (S.calc L R old x (S.row (finSigmaFinEquiv ⟨i, p⟩)).1)
      (S.row (finSigmaFinEquiv ⟨i, p⟩)).2 : Fin nv → ℝ) ⬝ᵥ e.xout
    + (S.c (S.row (finSigmaFinEquiv ⟨i, p⟩)).1).a0 (S.calc L R old x (S.row (finSigmaFinEquiv ⟨i, p⟩)).1)
      (S.row (finSigmaFinEquiv ⟨i, p⟩)).2
  rw [hr]
  rfl

/-- **C137 (contacts hold, partial).** A robot that moves with the acceleration of `calc` at every time, without damping: a contact of three dimensions with gains
that are not negative never gains energy, and one that rests at its reference with a positive gain on the position stays there; a contact of six
dimensions without a gain on the placement never speeds up. The controls may be anything. Missing: contacts of one
or two dimensions, contacts of six dimensions with a gain on the placement, damping, contacts that share a joint. -/
theorem C137_hold_partial (P : Fwd.Rigid X nv) (R : Robot X nv nj) (L : Log) (S : Scene nj) (hS : S.Distinct)
    (hF : ∀ i, Rot (S.c i).jMf.rot) (old : X → ∀ i, (S.c i).Data nv) (fwd) (kinv) (hC : Fwd.ContactsOk (S.contacts L R old fwd kinv))
    (A : Fwd.Act X nv nu) (m : Fwd.CMod nv) (hm : m.damping = 0) (D : ℝ → Fwd.CDat nv S.rows nu) (x : ℝ → X) (u : ℝ → Fwd.Vec nu)
    (hR : ∀ t a j, Accelerated (R.kin (x t) 0 j) (R.kin (x t) a j) a)
    (hreg : ∀ t, Fwd.Regular (P.M (x t) + diagonal (Fwd.inertia m.arm)) ((S.contacts L R old fwd kinv).J (x t)) m.damping)
    (i : Fin S.n)
    (hk : Trajectory fun t => R.kin (x t) (Fwd.conCalc P (S.contacts L R old fwd kinv) A m (D t) (x t) (u t)).xout (S.joint i)) :
    let p := fun F t => position (R.kin (x t) 0 (S.joint i)) F
    let v := fun F t => (R.kin (x t) 0 (S.joint i)).vel F
    (∀ M : C3, S.c i = .three M → 0 ≤ M.g.kp → 0 ≤ M.g.kd →
      Antitone (energy M.g fun t => p M.jMf t - M.xref)
      ∧ ∀ t0, 0 < M.g.kp → p M.jMf t0 = M.xref → deriv (p M.jMf) t0 = 0 → ∀ t ≥ t0, p M.jMf t = M.xref)
    ∧ (∀ M : C6, S.c i = .six M → M.g.kp = 0 → 0 ≤ M.g.kd →
      Antitone (fun t => (v M.jMf t).lin ⬝ᵥ (v M.jMf t).lin) ∧ Antitone fun t => (v M.jMf t).ang ⬝ᵥ (v M.jMf t).ang) := by
  set a : ℝ → Fwd.Vec nv := fun t => (Fwd.conCalc P (S.contacts L R old fwd kinv) A m (D t) (x t) (u t)).xout with ha
  intro p v
  have hz : ∀ t d, (S.c i).a0 ((S.c i).calc L (R.kin (x t) (a t) (S.joint i)) d) = 0 := by
    intro t d
    have := (C137_motion_partial P R L S hS hF old fwd kinv hC A m (D t) (x t) (u t) (hR t) (hreg t)).2 i d
    rw [hm, zero_smul, neg_zero] at this
    exact this
  have hp : ∀ F, p F = fun t => position (R.kin (x t) (a t) (S.joint i)) F := by
    intro F
    funext t
    simp only [p, position, Kin.oMf, (hR t (a t) (S.joint i)).same.oMi]
  have hv : ∀ F, v F = fun t => (R.kin (x t) (a t) (S.joint i)).vel F := by
    intro F
    funext t
    simp only [v, Kin.vel, (hR t (a t) (S.joint i)).same.v]
  refine ⟨fun M hM h1 h2 => ?_, fun M hM h1 h2 => ?_⟩
  · have hf := hF i
    rw [hM] at hf hz
    simp only [hp]
    exact C86_hold M hf h1 h2 _ hk (fun t => (old (x t) i |> cast (by rw [hM]; rfl))) fun t => hz t _
  · have hf := hF i
    rw [hM] at hf hz
    simp only [hv]
    refine C86_frame_hold L M hf h1 h2 _ hk (fun t => (old (x t) i |> cast (by rw [hM]; rfl))) fun t => ?_
    have h0 := hz t (old (x t) i |> cast (by rw [hM]))
    exact below_zero h0

/-! ### Two bodies on hinges -/

namespace StackDemo

noncomputable section

/-- Two bodies, each on a hinge along `z`, with unit inertia. A state is the two angles and the two speeds. -/
def rotors : Robot ((Fin 2 → ℝ) × (Fin 2 → ℝ)) 2 2 where
  kin x a j :=
    { oMi := ⟨turn (x.1 j), 0⟩
      v := ⟨0, ![0, 0, x.2 j]⟩
      a := ⟨0, ![0, 0, a j]⟩
      vq := ⟨0, 0⟩
      aq := ⟨0, 0⟩
      av := ⟨0, 0⟩
      J := ⟨0, of fun i k => if k = j then ![0, 0, 1] i else 0⟩ }
  rneaDx _ _ _ := 0

/-- Their dynamics. -/
def unit (X : Type) (nv : ℕ) : Fwd.Rigid X nv where
  M _ := 1
  nle _ := 0
  aba _ τ := τ
  abaDx _ _ := 0
  abaMinv _ _ := 1
  cholInv _ := 1
  rneaDx _ _ := 0
  rnea _ a := a

theorem column (j : Fin 2) (w : Fin 2 → ℝ) :
    (⟨0, of fun i k => if k = j then (![0, 0, 1] : Fin 3 → ℝ) i else 0⟩ : Jac 2).mulVec w = ⟨0, ![0, 0, w j]⟩ := by
  rw [Jac.mulVec]
  congr 1
  · simp
  · ext i
    simp only [Matrix.mulVec, dotProduct, of_apply, ite_mul, zero_mul, Finset.sum_ite_eq', Finset.mem_univ, if_true]
    fin_cases i <;> simp

theorem turn_moves {θ : ℝ → ℝ} {ω : ℝ} (h : HasDerivAt θ ω 0) : Moves (fun s => ⟨turn (θ s), 0⟩) ⟨0, ![0, 0, ω]⟩ 0 := by
  refine ⟨fun s => turn_rot _, fun i j => ?_, (hasDerivAt_const _ _).congr_deriv (by simp)⟩
  have hs := h.sin
  have hc := h.cos
  have hs' := hs.fun_neg
  have h0 := hasDerivAt_const (0 : ℝ) (0 : ℝ)
  have h1 := hasDerivAt_const (0 : ℝ) (1 : ℝ)
  fin_cases i <;> fin_cases j <;>
    simp [turn, skew, Matrix.mul_apply, Fin.sum_univ_three] <;> first | assumption | (simpa using hs) | (simpa using hc) | (simpa using hs')

/-- A straight curve of states. -/
def line (q v : Fin 2 → ℝ) (δ : Tan 2 → ℝ) (s : ℝ) : (Fin 2 → ℝ) × (Fin 2 → ℝ) :=
  (fun j => q j + s * δ (Sum.inl j), fun j => v j + s * δ (Sum.inr j))

theorem rotors_along (q v : Fin 2 → ℝ) (δ : Tan 2 → ℝ) : RobotAlong (unit _ 2) rotors (line q v δ) δ where
  M := continuousAt_const
  acc s a j := by
    refine ⟨⟨rfl, rfl, rfl, rfl⟩, ?_⟩
    simp only [rotors]
    rw [column]
    simp [Six.add]
  along a j := by
    have hq : HasDerivAt (fun s => q j + s * δ (Sum.inl j)) (δ (Sum.inl j)) 0 := by
      simpa using ((hasDerivAt_id (0 : ℝ)).mul_const (δ (Sum.inl j))).const_add (q j)
    have hv : HasDerivAt (fun s => v j + s * δ (Sum.inr j)) (δ (Sum.inr j)) 0 := by
      simpa using ((hasDerivAt_id (0 : ℝ)).mul_const (δ (Sum.inr j))).const_add (v j)
    refine ⟨?_, ⟨(hasDerivAt_const _ _).congr_deriv (by simp [rotors, Jac.mulVec, Six.add]), ?_⟩,
      ⟨(hasDerivAt_const _ _).congr_deriv (by simp [rotors, Jac.mulVec, Six.add]),
        (hasDerivAt_const _ _).congr_deriv (by simp [rotors, Jac.mulVec, Six.add])⟩⟩
    · simp only [rotors]
      rw [column]
      exact turn_moves hq
    · simp only [rotors]
      rw [column, hasDerivAt_pi]
      intro i
      fin_cases i
      · simpa [Jac.mulVec, Six.add] using hasDerivAt_const (0 : ℝ) (0 : ℝ)
      · simpa [Jac.mulVec, Six.add] using hasDerivAt_const (0 : ℝ) (0 : ℝ)
      · refine hv.congr_deriv ?_
        simp [Jac.mulVec, Six.add]
  lin _ _ _ := continuousAt_const
  ang _ _ _ := continuousAt_const
  rnea a φ := by
    simp only [rotors, unit, zero_mulVec]
    exact hasDerivAt_const _ _

/-- A point of the first body held to a point of the world, the second body held with a gain on its velocity. -/
def grips : Scene 2 where
  n := 2
  c := ![.three ⟨arm, ![1, 0, 0], .lwa, ⟨4, 2⟩⟩, .six ⟨arm, ⟨1, 0⟩, .loc, ⟨0, 2⟩⟩]
  joint := id

/-- The contact problem solved with the inverse. -/
def solver (nv nc : ℕ) : Fwd.Contacts Unit nv nc := Fwd.Demo.con (fun _ => 0) (fun _ => 0) (fun _ _ => 0) fun _ _ _ => 0

theorem solver_ok {nv nj : ℕ} {X : Type} (L : Log) (R : Robot X nv nj) (S : Scene nj) (old : X → ∀ i, (S.c i).Data nv) :
    Fwd.ContactsOk (S.contacts L R old (solver nv S.rows).fwd (solver nv S.rows).kinv) :=
  have h : Fwd.ContactsOk (solver nv S.rows) := Fwd.Demo.con_ok _ _ _ _
  ⟨h.fwd, h.kinv⟩

theorem spd_one (nv : ℕ) : Fwd.Spd (1 : Fwd.Mat nv nv) := by
  refine ⟨transpose_one, fun v hv => ?_⟩
  rw [one_mulVec]
  have h0 : 0 ≤ v ⬝ᵥ v := Finset.sum_nonneg fun i _ => mul_self_nonneg _
  exact lt_of_le_of_ne h0 fun h => hv (dotProduct_self_eq_zero.1 h.symm)

theorem diag_none (nv : ℕ) : (diagonal (Fwd.inertia ({} : Fwd.Arm nv)) : Fwd.Mat nv nv) = 0 := by simp [Fwd.inertia]

end

/-- C137: the two bodies, held, at every state and along every direction: the derivatives are right. -/
example (L : Log) (old : _ → ∀ i, (grips.c i).Data 2) (A : Fwd.Act _ 2 2) (hA : A = ⟨fun _ u => u, fun _ _ => 0, fun _ _ => 1⟩)
    (D : ℝ → Fwd.CDat 2 grips.rows 2) (q v : Fin 2 → ℝ) (δ : Tan 2 → ℝ) (u w : Fin 2 → ℝ) :
    let C := grips.contacts L rotors old (solver 2 grips.rows).fwd (solver 2 grips.rows).kinv
    let m : Fwd.CMod 2 := { damping := 1 }
    let U : ℝ → Fin 2 → ℝ := fun s => u + s • w
    let e := Fwd.conDiff C A m (Fwd.conCalc (unit _ 2) C A m (D 0) (line q v δ 0) (U 0)) (line q v δ 0) (U 0)
    HasDerivAt (fun s => (Fwd.conCalc (unit _ 2) C A m (D s) (line q v δ s) (U s)).xout) (e.Fx *ᵥ δ + e.Fu *ᵥ w) 0 := by
  intro C m U e
  refine (C137_derivatives_partial (unit _ 2) rotors L grips Function.injective_id old _ _ (solver_ok L rotors grips old) A m D
    (line q v δ) U δ w (rotors_along q v δ) (fun i => ?_) ?_ (Eventually.of_forall fun s => ⟨?_, zero_le_one, Or.inl one_pos⟩)).1
  · fin_cases i
    · exact Rot.one
    · exact ⟨Rot.one, Rot.one, fun h => absurd rfl h⟩
  · subst hA
    have : HasDerivAt U w 0 := (((hasDerivAt_id (0 : ℝ)).smul_const w).const_add u).congr_deriv (one_smul _ w)
    simpa [Fwd.ActAlong] using this
  · rw [diag_none, add_zero]
    exact spd_one 2

noncomputable section

/-- A point mass. -/
def mass : Robot (V3 × V3) 3 1 where
  kin x a _ := { oMi := ⟨1, x.1⟩, v := ⟨x.2, 0⟩, a := ⟨a, 0⟩, vq := ⟨0, 0⟩, aq := ⟨0, 0⟩, av := ⟨0, 0⟩, J := ⟨1, 0⟩ }
  rneaDx _ _ _ := 0

/-- Held at a point of the world. -/
def pin (p : V3) : Scene 1 := ⟨1, fun _ => .three ⟨here, p, .world, ⟨4, 2⟩⟩, fun _ => 0⟩

end

theorem mass_acc (x : V3 × V3) (a : V3) (j : Fin 1) : Accelerated (mass.kin x 0 j) (mass.kin x a j) a :=
  ⟨⟨rfl, rfl, rfl, rfl⟩, by simp [mass, Six.add, Jac.mulVec]⟩

/-- C137 (holding): a point mass at rest where it is held, whatever pushes it, does not move: its acceleration is zero, so that resting is a
motion with the acceleration of `calc`. -/
example (L : Log) (p : V3) (old : _ → ∀ i, ((pin p).c i).Data 3) (A : Fwd.Act (V3 × V3) 3 3) (D : Fwd.CDat 3 (pin p).rows 3) (u : Fin 3 → ℝ) :
    let C := (pin p).contacts L mass old (solver 3 (pin p).rows).fwd (solver 3 (pin p).rows).kinv
    Fwd.Regular ((unit (V3 × V3) 3).M (p, 0) + diagonal (Fwd.inertia ({} : Fwd.Arm 3))) (C.J (p, 0)) 0
    ∧ Trajectory (fun _ : ℝ => mass.kin (p, 0) (Fwd.conCalc (unit _ 3) C A {} D (p, 0) u).xout 0) := by
  intro C
  have hJ : ∀ l, (C.J (p, 0))ᵀ *ᵥ l = (pin p).part l (0 : Fin 1) := by
    intro l
    change (of fun r => ((pin p).c ((pin p).row r).1).Jc ((pin p).calc L mass old (p, 0) ((pin p).row r).1) ((pin p).row r).2)ᵀ *ᵥ l = _
    rw [Scene.tmulVec (fun i => ((pin p).c i).Jc ((pin p).calc L mass old (p, 0) i))]
    refine (Fin.sum_univ_one (fun i : Fin 1 => (((pin p).c i).Jc ((pin p).calc L mass old (p, 0) i))ᵀ *ᵥ (pin p).part l i)).trans ?_
    have : ((pin p).c (0 : Fin 1)).Jc ((pin p).calc L mass old (p, 0) (0 : Fin 1)) = (1 : M3) := by
      have h2 : ((pin p).c (0 : Fin 1)).Jc ((pin p).calc L mass old (p, 0) (0 : Fin 1))
          = (C3.calc ⟨here, p, .world, ⟨4, 2⟩⟩ (mass.kin (p, 0) 0 0) (old (p, 0) (0 : Fin 1))).Jc := rfl
      rw [h2]
      simp [C3.calc, locCalc, mass, here, Kin.oMf, Pose.mul, Kin.fJf, fXj, Pose.inv, Pose.action, Mat6.mul]
      rfl
    rw [this]
    exact (congrArg (fun B : M3 => B *ᵥ (pin p).part l (0 : Fin 1)) transpose_one).trans (one_mulVec (m := Fin 3) _)
  have hreg : Fwd.Regular ((unit (V3 × V3) 3).M (p, 0) + diagonal (Fwd.inertia ({} : Fwd.Arm 3))) (C.J (p, 0)) 0 := by
    refine ⟨?_, le_rfl, Or.inr fun l hl => ?_⟩
    · rw [diag_none, add_zero]
      exact spd_one 3
    · rw [hJ] at hl
      funext r
      obtain ⟨⟨i, j⟩, rfl⟩ := (finSigmaFinEquiv (n := fun i => ((pin p).c i).dim)).surjective r
      obtain rfl : i = (0 : Fin 1) := Subsingleton.elim (α := Fin 1) _ _
      exact congrFun hl j
  refine ⟨hreg, ?_⟩
  have h := (C137_motion_partial (unit _ 3) mass L (pin p) (fun _ _ _ => Subsingleton.elim (α := Fin 1) _ _) (fun _ => Rot.one) old _ _
    (solver_ok L mass (pin p) old) A {} D (p, 0) u (mass_acc _) hreg).2 (0 : Fin 1) (old (p, 0) (0 : Fin 1))
  set a := (Fwd.conCalc (unit _ 3) C A {} D (p, 0) u).xout with ha
  have ha0 : a = 0 := by
    have h2 : (C3.calc ⟨here, p, .world, ⟨4, 2⟩⟩ (mass.kin (p, 0) a 0) (old (p, 0) (0 : Fin 1))).a0 = 0 := by
      have h3 : -((0 : ℝ) • (pin p).part (Fwd.conCalc (unit _ 3) C A {} D (p, 0) u).lam (0 : Fin 1)) = 0 := by simp
      exact h.trans h3
    simpa [C3.calc, locCalc, mass, here, Kin.oMf, Pose.mul, Kin.classical, Kin.acc, Kin.vel, Pose.actInv] using h2
  rw [ha0]
  exact ⟨fun t => ⟨fun _ => Rot.one, fun i j => (hasDerivAt_const _ _).congr_deriv (by
      fin_cases i <;> fin_cases j <;> simp [mass, skew]),
    (hasDerivAt_const _ _).congr_deriv (by simp [mass])⟩, fun t => ⟨(hasDerivAt_const _ _).congr_deriv (by simp [mass]),
    (hasDerivAt_const _ _).congr_deriv (by simp [mass])⟩⟩

/-- Two contacts on the first body. -/
def twice : Scene 2 := ⟨2, fun _ => .three ⟨arm, 0, .loc, ⟨0, 0⟩⟩, fun _ => 0⟩

theorem twice_Jc (L : Log) (old : _ → ∀ i, (twice.c i).Data 2) (i : Fin 2) (p : Fin 3) (k : Fin 2) :
    (twice.c i).Jc (twice.calc L rotors old 0 i) p k = if k = 0 then (![0, 1, 0] : Fin 3 → ℝ) p else 0 := by
  change (C3.calc ⟨arm, 0, .loc, ⟨0, 0⟩⟩ (rotors.kin 0 0 0) (old 0 i)).Jc p k = _
  by_cases hk : k = 0 <;> fin_cases p <;> simp [hk, C3.calc, locCalc, rotors, arm, Kin.fJf, fXj, Pose.inv, Pose.action, Mat6.mul, skew,
    Matrix.mul_apply, Fin.sum_univ_three, vecHead, vecTail]

end StackDemo

open StackDemo in
/-- **C137 (contacts that share a joint).** The external forces hold only the last of the two forces: pushed by the torque 1, the body accelerates with
1/3, but under the external forces that are reported (and handed to `computeRNEADerivatives`) it would accelerate with 2/3. -/
theorem C137_shared_joint_counterexample (L : Log) (old : _ → ∀ i, (twice.c i).Data 2) (D : Fwd.CDat 2 twice.rows 2) :
    let A : Fwd.Act ((Fin 2 → ℝ) × (Fin 2 → ℝ)) 2 2 := ⟨fun _ u => u, fun _ _ => 0, fun _ _ => 1⟩
    let m : Fwd.CMod 2 := { damping := 1 }
    let C := twice.contacts L rotors old (solver 2 twice.rows).fwd (solver 2 twice.rows).kinv
    let e := Fwd.conCalc (unit _ 2) C A m D 0 ![1, 0]
    Fwd.ContactsOk C ∧ Fwd.Regular ((unit ((Fin 2 → ℝ) × (Fin 2 → ℝ)) 2).M 0 + diagonal (Fwd.inertia m.arm)) (C.J 0) m.damping
    ∧ e.xout 0 = 1 / 3
    ∧ (A.tau 0 ![1, 0] + ∑ j, (rotors.kin 0 0 j).J.tmul (twice.fext L rotors old 0 e.lam j)) 0 = 2 / 3 := by
  intro A m C e
  have hC : Fwd.ContactsOk C := solver_ok L rotors twice old
  have hreg : Fwd.Regular ((unit ((Fin 2 → ℝ) × (Fin 2 → ℝ)) 2).M 0 + diagonal (Fwd.inertia m.arm)) (C.J 0) m.damping := by
    refine ⟨?_, zero_le_one, Or.inl one_pos⟩
    rw [diag_none, add_zero]
    exact spd_one 2
  obtain ⟨⟨h1, h2⟩, -⟩ := Fwd.C81_contact (unit _ 2) C hC A m D 0 ![1, 0] hreg
  have hl : ∀ i : Fin 2, twice.part e.lam i (1 : Fin 3) = -e.xout 0 := by
    intro i
    have h := congrFun h2 (finSigmaFinEquiv (n := fun i => (twice.c i).dim) ⟨i, (1 : Fin 3)⟩)
    have hr : twice.row (finSigmaFinEquiv ⟨i, (1 : Fin 3)⟩) = ⟨i, (1 : Fin 3)⟩ := Equiv.symm_apply_apply _ _
    have h' : ((twice.c i).Jc (twice.calc L rotors old 0 i) (1 : Fin 3) : Fin 2 → ℝ) ⬝ᵥ e.xout
        + (twice.c i).a0 (twice.calc L rotors old 0 i) (1 : Fin 3) = -(1 * twice.part e.lam i (1 : Fin 3)) := by
      change ((twice.c (twice.row (finSigmaFinEquiv ⟨i, (1 : Fin 3)⟩)).1).Jc
          (twice.calc L rotors old 0 (twice.row (finSigmaFinEquiv ⟨i, (1 : Fin 3)⟩)).1)
          (twice.row (finSigmaFinEquiv ⟨i, (1 : Fin 3)⟩)).2 : Fin 2 → ℝ) ⬝ᵥ e.xout
        + (twice.c (twice.row (finSigmaFinEquiv ⟨i, (1 : Fin 3)⟩)).1).a0
          (twice.calc L rotors old 0 (twice.row (finSigmaFinEquiv ⟨i, (1 : Fin 3)⟩)).1)
          (twice.row (finSigmaFinEquiv ⟨i, (1 : Fin 3)⟩)).2 = _ at h
      rw [hr] at h
      exact h
    have ha : (twice.c i).a0 (twice.calc L rotors old 0 i) (1 : Fin 3) = 0 := by
      change (C3.calc ⟨arm, 0, .loc, ⟨0, 0⟩⟩ (rotors.kin 0 0 0) (old 0 i)).a0 1 = 0
      simp [C3.calc, locCalc, rotors, arm, Kin.classical, Kin.acc, Kin.vel, Pose.actInv, cross_apply]
    rw [ha, dotProduct, Fin.sum_univ_two, twice_Jc, twice_Jc] at h'
    simp at h'
    linarith
  have hJ : ((C.J 0)ᵀ *ᵥ e.lam) 0 = -2 * e.xout 0 := by
    change ((of fun r => (twice.c (twice.row r).1).Jc (twice.calc L rotors old 0 (twice.row r).1) (twice.row r).2)ᵀ *ᵥ e.lam) 0 = _
    rw [Scene.tmulVec (fun i => (twice.c i).Jc (twice.calc L rotors old 0 i))]
    have h3 : ∀ i : Fin 2, (((twice.c i).Jc (twice.calc L rotors old 0 i))ᵀ *ᵥ twice.part e.lam i) 0 = -e.xout 0 := by
      intro i
      change ∑ p : Fin 3, (twice.c i).Jc (twice.calc L rotors old 0 i) p 0 * twice.part e.lam i p = _
      rw [Fin.sum_univ_three, twice_Jc, twice_Jc, twice_Jc, hl]
      simp
    refine (congrFun (Fin.sum_univ_two (fun i : Fin 2 => ((twice.c i).Jc (twice.calc L rotors old 0 i))ᵀ *ᵥ twice.part e.lam i)) 0).trans ?_
    rw [Pi.add_apply, h3, h3]
    ring
  have hx : e.xout 0 = 1 / 3 := by
    have h := congrFun h1 0
    simp only [Pi.add_apply] at h
    rw [hJ] at h
    simp [unit, A, m, Fwd.inertia] at h
    change e.xout 0 = 1 + _ at h
    linarith
  refine ⟨hC, hreg, hx, ?_⟩
  have hf : ∀ j, twice.fext L rotors old 0 e.lam j
      = if j = 0 then arm.actF ⟨twice.part e.lam (1 : Fin 2), 0⟩ else ⟨0, 0⟩ := by
    intro j
    change Function.update (Function.update (fun _ => (⟨0, 0⟩ : Six)) (0 : Fin 2) _) (0 : Fin 2) (arm.actF ⟨twice.part e.lam (1 : Fin 2), 0⟩) j = _
    by_cases hj : j = 0
    · subst hj
      rw [if_pos rfl, Function.update_self]
    · rw [if_neg hj, Function.update_of_ne hj, Function.update_of_ne hj]
  rw [Fin.sum_univ_two, hf, hf]
  simp [A, Jac.tmul, rotors, arm, Pose.actF, Matrix.mulVec, dotProduct, Fin.sum_univ_three, cross_apply, hl, hx]
  norm_num

end Verif.Con
