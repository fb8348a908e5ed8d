import Verif.Spec.ContactStack
import Verif.Props.ContactFrame
import Verif.Props.FwdDyn

/-!
# Stacked contacts
-/

namespace Verif.Con

open Matrix

set_option linter.unusedSectionVars false

variable {nv nj : ℕ} {X : Type}

theorem below_lin {β : Type} (f g : Fin 3 → β) (i : Fin 3) : below f g (Fin.castAdd 3 i) = f i := Fin.append_left f g i

theorem below_ang {β : Type} (f g : Fin 3 → β) (i : Fin 3) : below f g (Fin.natAdd 3 i) = g i := Fin.append_right f g i

/-- A statement about six rows is one about the first and the last three. -/
theorem six_cases {p : Fin 6 → Prop} (h1 : ∀ i : Fin 3, p (Fin.castAdd 3 i)) (h2 : ∀ i : Fin 3, p (Fin.natAdd 3 i)) (i : Fin 6) : p i :=
  Fin.addCases (m := 3) (n := 3) (motive := fun i => p i) h1 h2 i

theorem below_mulVec {ι : Type} [Fintype ι] (A B : Matrix (Fin 3) ι ℝ) (u : ι → ℝ) : of (below A B) *ᵥ u = below (A *ᵥ u) (B *ᵥ u) := by
  funext i
  refine six_cases (p := fun i => (of (below A B) *ᵥ u) i = below (A *ᵥ u) (B *ᵥ u) i) (fun i => ?_) (fun i => ?_) i
  · rw [below_lin]
    exact congrArg (fun r : ι → ℝ => r ⬝ᵥ u) (below_lin A B i)
  · rw [below_ang]
    exact congrArg (fun r : ι → ℝ => r ⬝ᵥ u) (below_ang A B i)

theorem below_add (f g f' g' : Fin 3 → ℝ) : below f g + below f' g' = below (f + f') (g + g') := by
  funext i
  refine six_cases (p := fun i => (below f g + below f' g') i = below (f + f') (g + g') i) (fun i => ?_) (fun i => ?_) i
  · simp only [Pi.add_apply, below_lin]
  · simp only [Pi.add_apply, below_ang]

theorem below_tmul (A : Jac nv) (f : Fin 6 → ℝ) : (of (below A.lin A.ang))ᵀ *ᵥ f = A.tmul (Six.ofVec f) := by
  funext j
  simp only [mulVec, dotProduct, Jac.tmul, Six.ofVec, Pi.add_apply, transpose_apply]
  rw [show ∑ i : Fin 6, of (below A.lin A.ang) i j * f i = ∑ i : Fin (3 + 3), of (below A.lin A.ang) i j * f i from rfl, Fin.sum_univ_add]
  exact congrArg₂ (· + ·)
    (Finset.sum_congr rfl fun i _ => congrArg (fun r : Fin nv → ℝ => r j * f (Fin.castAdd 3 i)) (below_lin A.lin A.ang i))
    (Finset.sum_congr rfl fun i _ => congrArg (fun r : Fin nv → ℝ => r j * f (Fin.natAdd 3 i)) (below_ang A.lin A.ang i))

theorem hasDerivAt_below {f g : ℝ → Fin 3 → ℝ} {f' g' : Fin 3 → ℝ} {t : ℝ} (hf : HasDerivAt f f' t) (hg : HasDerivAt g g' t) :
    HasDerivAt (fun s => below (f s) (g s)) (below f' g') t := by
  rw [hasDerivAt_pi] at hf hg ⊢
  intro i
  refine six_cases (p := fun i => HasDerivAt (fun s => below (f s) (g s) i) (below f' g' i) t) (fun i => ?_) (fun i => ?_) i
  · simp only [below_lin]; exact hf i
  · simp only [below_ang]; exact hg i

/-- The acceleration of a contact is affine in the joint acceleration. -/
theorem Any.affine (L : Log) (c : Any) (hF : Rot c.jMf.rot) {k k' : Kin nv} {α : Fin nv → ℝ} (h : Accelerated k k' α)
    (d d' : c.Data nv) : c.a0 (c.calc L k' d') = c.a0 (c.calc L k d) + c.Jc (c.calc L k d) *ᵥ α := by
  cases c with
  | one m =>
    have := (C86_affine m.jMf hF m.type m.g k k' α h).2.1 m.xref m.axis d d'
    funext i
    exact this
  | two m => exact (C86_affine m.jMf hF .loc m.g k k' α h).2.2.1 m.xref d d'
  | three m => exact (C86_affine m.jMf hF m.type m.g k k' α h).1 m.xref d d'
  | six m =>
    have := (C86_affine m.jMf hF m.type m.g k k' α h).2.2.2 L m.pref d d'
    change below (C6.calc L m k' d').a0.lin (C6.calc L m k' d').a0.ang
      = below (C6.calc L m k d).a0.lin (C6.calc L m k d).a0.ang + of (below (C6.calc L m k d).Jc.lin (C6.calc L m k d).Jc.ang) *ᵥ α
    rw [show C6.calc L m k' d' = C6.calc L ⟨m.jMf, m.pref, m.type, m.g⟩ k' d' from rfl, this, below_mulVec, below_add]
    rfl

theorem Any.Fits.rot {L : Log} {k : ℝ → Kin nv} {δ : Tan nv → ℝ} {c : Any} (h : c.Fits L k δ) : Rot c.jMf.rot := by
  cases c with
  | one m => exact h.1
  | two m => exact h.1
  | three m => exact h
  | six m => exact h.1

/-- The derivative of the acceleration of a contact. -/
theorem Any.deriv (L : Log) (c : Any) (k : ℝ → Kin nv) (δ : Tan nv → ℝ) (hc : c.Fits L k δ) (hk : Along k δ) (k0 : Kin nv)
    (h0 : SameState k0 (k 0)) (d : c.Data nv) (d' : ℝ → c.Data nv) :
    HasDerivAt (fun s => c.a0 (c.calc L (k s) (d' s))) (c.da0 (c.diff L (k 0) (c.calc L k0 d)) *ᵥ δ) 0 := by
  cases c with
  | one m =>
    have := (C87_line m hc.1 hc.2 k δ hk k0 h0 d d').1
    exact hasDerivAt_pi.2 fun _ => this
  | two m => exact C87_plane_partial m hc.1 k δ hk (hc.2.imp_right Or.inl) k0 h0 d d'
  | three m => exact (C87_point m hc k δ hk k0 h0 d d').1
  | six m =>
    have := (C87_frame L m hc.1 hc.2.1 k δ hk hc.2.2 k0 h0 d d').1
    refine (hasDerivAt_below this.lin this.ang).congr_deriv ?_
    exact (below_mulVec (ι := Tan nv) _ _ _).symm

/-- The change of the joint torques of a contact. -/
theorem Any.torque (L : Log) (c : Any) (hF : Rot c.jMf.rot) (k : ℝ → Kin nv) (δ : Tan nv → ℝ) (hk : Along k δ)
    (hJ : ∀ i j, ContinuousAt (fun s => (k s).J.lin i j) 0) (hJ' : ∀ i j, ContinuousAt (fun s => (k s).J.ang i j) 0)
    (T : Fin nv → ℝ) (d : c.Data nv) (d' : ℝ → c.Data nv) (f : Fin c.dim → ℝ)
    (hT : HasDerivAt (fun s => -(k s).J.tmul (c.fext (c.force f (c.calc L (k 0) d)))) T 0) :
    HasDerivAt (fun s => -((c.Jc (c.calc L (k s) (d' s)))ᵀ *ᵥ f)) (T + c.added (c.force f (c.calc L (k 0) d)) *ᵥ (δ ∘ Sum.inl)) 0 := by
  cases c with
  | one m =>
    have h := (C88_torques m.jMf hF m.type m.g k δ hk hJ hJ' T).2.1 m.xref m.axis d d' (f (0 : Fin 1)) hT
    have e : ∀ s, (Any.Jc (.one m) (Any.calc L (.one m) (k s) (d' s)))ᵀ *ᵥ f = f (0 : Fin 1) • (C1.calc m (k s) (d' s)).Jc := by
      intro s
      funext j
      change ∑ i : Fin 1, (C1.calc m (k s) (d' s)).Jc j * f i = f (0 : Fin 1) * (C1.calc m (k s) (d' s)).Jc j
      rw [Fin.sum_univ_one, mul_comm]
    simp only [e]
    refine h.congr_deriv ?_
    congr 2
    rcases m with ⟨F, xr, t, ax, g⟩
    cases t <;> rfl
  | two m =>
    have e := fun s => (C88_forces m.jMf hF .loc m.g (k s)).2.2.1 m.xref (d' s) f
    change HasDerivAt (fun s => -((C2.calc m (k s) (d' s)).Jcᵀ *ᵥ f)) (T + (0 : Mat nv nv) *ᵥ _) 0
    rw [zero_mulVec, add_zero]
    have e' : (fun s => -((C2.calc m (k s) (d' s)).Jcᵀ *ᵥ f)) = fun s => -(k s).J.tmul (C2.force m f (C2.calc m (k 0) d)).fext := by
      funext s
      rw [show (C2.calc m (k s) (d' s)).Jcᵀ *ᵥ f = _ from (e s).symm]
      rfl
    rw [e']
    exact hT
  | three m =>
    have h := (C88_torques m.jMf hF m.type m.g k δ hk hJ hJ' T).1 m.xref d d' f hT
    refine h.congr_deriv ?_
    congr 2
    rcases m with ⟨F, xr, t, g⟩
    cases t <;> rfl
  | six m =>
    have h := (C88_torques m.jMf hF m.type m.g k δ hk hJ hJ' T).2.2 L m.pref d d' (Six.ofVec f) hT
    have e : ∀ s, (Any.Jc (.six m) (Any.calc L (.six m) (k s) (d' s)))ᵀ *ᵥ f = (C6.calc L m (k s) (d' s)).Jc.tmul (Six.ofVec f) :=
      fun s => below_tmul _ _
    simp only [e]
    refine h.congr_deriv ?_
    congr 2
    rcases m with ⟨F, xr, t, g⟩
    cases t <;> rfl

/-- The torque of the force a contact puts on its joint is that of its force. -/
theorem Any.forces (L : Log) (c : Any) (hF : Rot c.jMf.rot) (k : Kin nv) (d : c.Data nv) (f : Fin c.dim → ℝ) :
    k.J.tmul (c.fext (c.force f (c.calc L k d))) = (c.Jc (c.calc L k d))ᵀ *ᵥ f := by
  cases c with
  | one m =>
    refine ((C88_forces m.jMf hF m.type m.g k).2.1 m.xref m.axis d (f (0 : Fin 1))).1.trans ?_
    funext j
    change f (0 : Fin 1) * (C1.calc m k d).Jc j = ∑ i : Fin 1, (C1.calc m k d).Jc j * f i
    rw [Fin.sum_univ_one, mul_comm]
  | two m => exact (C88_forces m.jMf hF .loc m.g k).2.2.1 m.xref d f
  | three m => exact ((C88_forces m.jMf hF m.type m.g k).1 m.xref d f).1
  | six m => exact ((C88_forces m.jMf hF m.type m.g k).2.2.2 L m.pref d (Six.ofVec f)).1.trans (below_tmul _ _).symm

theorem below_zero {m : Six} (h : below m.lin m.ang = 0) : m = ⟨0, 0⟩ := by
  rcases m with ⟨a, b⟩
  congr 1
  · funext i
    rw [← below_lin a b i]
    exact congrFun h _
  · funext i
    rw [← below_ang a b i]
    exact congrFun h _

theorem SameState.symm {k k' : Kin nv} (h : SameState k k') : SameState k' k := ⟨h.oMi.symm, h.v.symm, h.J.symm, h.vq.symm⟩

/-- Whether a contact is covered does not depend on the joint acceleration. -/
theorem Any.Fits.same {L : Log} {k k' : ℝ → Kin nv} {δ : Tan nv → ℝ} {c : Any} (h : c.Fits L k δ) (hs : ∀ s, SameState (k s) (k' s)) :
    c.Fits L k' δ := by
  have ho : ∀ F s, (k' s).oMf F = (k s).oMf F := fun F s => by rw [Kin.oMf, Kin.oMf, (hs s).oMi]
  cases c with
  | one m => exact h
  | two m =>
    refine ⟨h.1, ?_⟩
    simp only [orient, ho]
    exact h.2
  | three m => exact h
  | six m =>
    refine ⟨h.1, h.2.1, ?_⟩
    simp only [ho, ← (hs 0).J]
    exact h.2.2

/-- The forces left by a sequence of assignments to different places. -/
theorem foldl_update {ι κ β : Type} [DecidableEq κ] (e : ι → κ) (he : Function.Injective e) (v : ι → β) (l : List ι) :
    ∀ F : κ → β, (∀ j, (∀ i ∈ l, e i ≠ j) → l.foldl (fun F i => Function.update F (e i) (v i)) F j = F j)
      ∧ ∀ i ∈ l, l.foldl (fun F i => Function.update F (e i) (v i)) F (e i) = v i := by
  induction l with
  | nil => exact fun F => ⟨fun _ _ => rfl, fun i hi => absurd hi (by simp)⟩
  | cons b l ih =>
    intro F
    obtain ⟨h1, h2⟩ := ih (Function.update F (e b) (v b))
    refine ⟨fun j hj => ?_, fun i hi => ?_⟩
    · rw [List.foldl_cons, h1 j fun i hi => hj i (List.mem_cons_of_mem _ hi), Function.update_of_ne]
      exact (hj b List.mem_cons_self).symm
    · rw [List.foldl_cons]
      by_cases hl : i ∈ l
      · exact h2 i hl
      · obtain rfl : i = b := by simpa [hl] using hi
        rw [h1 (e i) fun i' hi' hc => hl (he hc ▸ hi'), Function.update_self]

theorem tmul_zero (J : Jac nv) : J.tmul ⟨0, 0⟩ = 0 := by simp [Jac.tmul]

/-- The torques of the external forces, contact by contact. -/
theorem Scene.sum_fext {L : Log} {R : Robot X nv nj} {S : Scene nj} (hS : S.Distinct) (old : X → ∀ i, (S.c i).Data nv) (x : X)
    (l : Fin S.rows → ℝ) (J : Fin nj → Jac nv) :
    ∑ j, (J j).tmul (S.fext L R old x l j)
      = ∑ i, (J (S.joint i)).tmul ((S.c i).fext ((S.c i).force (S.part l i) (S.calc L R old x i))) := by
  symm
  obtain ⟨h1, h2⟩ := foldl_update S.joint hS (fun i => (S.c i).fext ((S.c i).force (S.part l i) (S.calc L R old x i)))
    (List.finRange S.n) fun _ => ⟨0, 0⟩
  refine Fintype.sum_of_injective S.joint hS _ _ (fun j hj => ?_) fun i => ?_
  · rw [Scene.fext, h1 j fun i _ hc => hj ⟨i, hc⟩, tmul_zero]
  · rw [Scene.fext, h2 i (List.mem_finRange i)]

/-- The transpose of the stacked Jacobian, contact by contact. -/
theorem Scene.tmulVec {S : Scene nj} (J : ∀ i, Matrix (Fin (S.c i).dim) (Fin nv) ℝ) (l : Fin S.rows → ℝ) :
    (of fun r => J (S.row r).1 (S.row r).2)ᵀ *ᵥ l = ∑ i, (J i)ᵀ *ᵥ S.part l i := by
  funext q
  rw [Finset.sum_apply]
  simp only [mulVec, dotProduct, transpose_apply, of_apply]
  have e := Equiv.sum_comp (finSigmaFinEquiv (n := fun i => (S.c i).dim)) (fun r : Fin S.rows => J (S.row r).1 (S.row r).2 q * l r)
  refine e.symm.trans ?_
  rw [Fintype.sum_sigma]
  refine Finset.sum_congr rfl fun i _ => Finset.sum_congr rfl fun j _ => ?_
  have : S.row (finSigmaFinEquiv ⟨i, j⟩) = ⟨i, j⟩ := Equiv.symm_apply_apply _ _
  rw [this]
  rfl

variable {P : Fwd.Rigid X nv} {R : Robot X nv nj} {x : ℝ → X} {δ : Tan nv → ℝ}

/-- The rows of a contact for a joint acceleration. -/
theorem Scene.row_acc {L : Log} {S : Scene nj} (h : RobotAlong P R x δ) (old : X → ∀ i, (S.c i).Data nv) (i : Fin S.n)
    (hc : Rot (S.c i).jMf.rot) (s : ℝ) (a : Fin nv → ℝ) :
    (S.c i).Jc (S.calc L R old (x s) i) *ᵥ a + (S.c i).a0 (S.calc L R old (x s) i)
      = (S.c i).a0 ((S.c i).calc L (R.kin (x s) a (S.joint i)) (old (x s) i)) := by
  rw [Any.affine L (S.c i) hc (h.acc s a (S.joint i)) (old (x s) i) (old (x s) i), add_comm]
  rfl

theorem Scene.row_deriv {L : Log} {S : Scene nj} (h : RobotAlong P R x δ) (old : X → ∀ i, (S.c i).Data nv) (i : Fin S.n)
    (hc : (S.c i).Fits L (fun s => R.kin (x s) 0 (S.joint i)) δ) (a : Fin nv → ℝ) :
    HasDerivAt (fun s => (S.c i).Jc (S.calc L R old (x s) i) *ᵥ a + (S.c i).a0 (S.calc L R old (x s) i))
      ((S.c i).da0 ((S.c i).diff L (R.kin (x 0) a (S.joint i)) (S.calc L R old (x 0) i)) *ᵥ δ) 0 := by
  simp only [Scene.row_acc h old i hc.rot]
  exact Any.deriv L (S.c i) (fun s => R.kin (x s) a (S.joint i)) δ (hc.same fun s => (h.acc s a (S.joint i)).same) (h.along a _)
    (R.kin (x 0) 0 (S.joint i)) (h.acc 0 a _).same (old (x 0) i) fun s => old (x s) i

theorem Scene.row_cont {L : Log} {S : Scene nj} (h : RobotAlong P R x δ) (old : X → ∀ i, (S.c i).Data nv) (i : Fin S.n)
    (hc : (S.c i).Fits L (fun s => R.kin (x s) 0 (S.joint i)) δ) (p : Fin (S.c i).dim) (q : Fin nv) :
    ContinuousAt (fun s => (S.c i).Jc (S.calc L R old (x s) i) p q) 0 := by
  have h1 := (hasDerivAt_pi.1 (Scene.row_deriv h old i hc (Pi.single q 1)) p).continuousAt
  have h0 := (hasDerivAt_pi.1 (Scene.row_deriv h old i hc 0) p).continuousAt
  refine (h1.sub h0).congr (Filter.Eventually.of_forall fun s => ?_)
  simp

/-- The torque of the node for fixed acceleration and forces. -/
theorem Scene.torque {L : Log} {S : Scene nj} (h : RobotAlong P R x δ) (old : X → ∀ i, (S.c i).Data nv) (hS : S.Distinct)
    (hc : ∀ i, (S.c i).Fits L (fun s => R.kin (x s) 0 (S.joint i)) δ) (a : Fin nv → ℝ) (l : Fin S.rows → ℝ) :
    HasDerivAt (fun s => P.M (x s) *ᵥ a + P.nle (x s) - ∑ i, ((S.c i).Jc (S.calc L R old (x s) i))ᵀ *ᵥ S.part l i)
      (R.rneaDx (x 0) a (S.fext L R old (x 0) l) *ᵥ δ
        + (∑ i, (S.c i).added ((S.c i).force (S.part l i) (S.calc L R old (x 0) i))) *ᵥ (δ ∘ Sum.inl)) 0 := by
  -- the torque of one force at one joint
  have hT : ∀ j (φ : Six), ∃ T, HasDerivAt (fun s => -(R.kin (x s) 0 j).J.tmul φ) T 0 := by
    intro j φ
    refine ⟨_, ((h.rnea a (Function.update (fun _ => ⟨0, 0⟩) j φ)).sub (h.rnea a fun _ => ⟨0, 0⟩)).congr_of_eventuallyEq
      (Filter.Eventually.of_forall fun s => ?_)⟩
    have e : ∑ j', (R.kin (x s) 0 j').J.tmul (Function.update (fun _ => (⟨0, 0⟩ : Six)) j φ j') = (R.kin (x s) 0 j).J.tmul φ := by
      rw [Finset.sum_eq_single j]
      · rw [Function.update_self]
      · intro b _ hb
        rw [Function.update_of_ne hb, tmul_zero]
      · exact fun hj => absurd (Finset.mem_univ j) hj
    simp only [Pi.sub_apply, e, tmul_zero, Finset.sum_const_zero]
    abel
  choose T hT using fun i => hT (S.joint i) ((S.c i).fext ((S.c i).force (S.part l i) (S.calc L R old (x 0) i)))
  have h0 := h.rnea a fun _ => ⟨0, 0⟩
  simp only [tmul_zero, Finset.sum_const_zero, sub_zero] at h0
  -- the derivative with held forces, in two ways
  have huniq : R.rneaDx (x 0) a (S.fext L R old (x 0) l) *ᵥ δ = R.rneaDx (x 0) a (fun _ => ⟨0, 0⟩) *ᵥ δ + ∑ i, T i := by
    refine (h.rnea a (S.fext L R old (x 0) l)).unique ?_
    refine (h0.add (HasDerivAt.fun_sum (u := Finset.univ) fun i _ => hT i)).congr_of_eventuallyEq
      (Filter.Eventually.of_forall fun s => ?_)
    simp only [Pi.add_apply]
    rw [Scene.sum_fext hS, Finset.sum_neg_distrib, sub_eq_add_neg]
  have hi := fun i => Any.torque L (S.c i) (hc i).rot (fun s => R.kin (x s) 0 (S.joint i)) δ (h.along 0 _) (h.lin _) (h.ang _) (T i)
    (old (x 0) i) (fun s => old (x s) i) (S.part l i) (hT i)
  refine ((h0.add (HasDerivAt.fun_sum (u := Finset.univ) fun i _ => hi i)).congr_of_eventuallyEq
      (Filter.Eventually.of_forall fun s => ?_)).congr_deriv ?_
  · simp only [Pi.add_apply]
    rw [Finset.sum_neg_distrib, sub_eq_add_neg]
    rfl
  · rw [huniq, Finset.sum_add_distrib, add_assoc]
    congr 2
    rw [Matrix.sum_mulVec]
    rfl

/-- The stacked contacts satisfy what the forward dynamics asks of them. -/
theorem Scene.along {L : Log} {S : Scene nj} (h : RobotAlong P R x δ) (old : X → ∀ i, (S.c i).Data nv) (hS : S.Distinct)
    (hc : ∀ i, (S.c i).Fits L (fun s => R.kin (x s) 0 (S.joint i)) δ) {fwd kinv} :
    Fwd.ContactsAlong P (S.contacts L R old fwd kinv) x δ where
  M := h.M
  J := continuousAt_pi.2 fun r => continuousAt_pi.2 fun q => Scene.row_cont h old (S.row r).1 (hc _) (S.row r).2 q
  rnea a l := by
    have ht := Scene.torque h old hS hc a l
    refine (ht.congr_of_eventuallyEq (Filter.Eventually.of_forall fun s => ?_)).congr_deriv ?_
    · change _ - (of fun r => (S.c (S.row r).1).Jc (S.calc L R old (x s) (S.row r).1) (S.row r).2)ᵀ *ᵥ l = _
      rw [Scene.tmulVec (fun i => (S.c i).Jc (S.calc L R old (x s) i))]
    · rw [add_mulVec, fromCols_mulVec, zero_mulVec, add_zero]
      rfl
  a0 a := hasDerivAt_pi.2 fun r => hasDerivAt_pi.1 (Scene.row_deriv h old (S.row r).1 (hc _) a) (S.row r).2

/-! ### Impulses -/

/-- An impulse of three dimensions acts like a contact without gains. -/
theorem Imp.like3 (m : Imp) (k : Kin nv) (d : DI3 nv) (D : D3 nv) (f : V3) :
    let c : C3 := ⟨m.jMf, 0, m.type, ⟨0, 0⟩⟩
    (m.calc3 k d).Jc = (c.calc k D).Jc ∧ (m.force3 f (m.calc3 k d)).1 = (c.force f (c.calc k D)).fext
      ∧ (m.force3 f (m.calc3 k d)).2 = (c.force f (c.calc k D)).dtau := by
  rcases m with ⟨F, t⟩
  cases t <;> simp [Imp.calc3, C3.calc, Imp.force3, C3.force, locCalc]

/-- An impulse of six dimensions acts like a contact without gains. -/
theorem Imp.like6 (L : Log) (m : Imp) (k : Kin nv) (d : DI6 nv) (D : D6 nv) (f : Six) :
    let c : C6 := ⟨m.jMf, ⟨1, 0⟩, m.type, ⟨0, 0⟩⟩
    (m.calc6 k d).Jc = (c.calc L k D).Jc ∧ (m.force6 f (m.calc6 k d)).1 = (c.force f (c.calc L k D)).fext
      ∧ (m.force6 f (m.calc6 k d)).2 = (c.force f (c.calc L k D)).dtau := by
  rcases m with ⟨F, t⟩
  cases t <;> simp [Imp.calc6, C6.calc, Imp.force6, C6.force, DI6.lwaMl, D6.lwaMl]

/-- The change of the joint torques of an impulse. -/
theorem Hit.torque (c : Hit) (hF : Rot c.jMf.rot) (k : ℝ → Kin nv) (δ : Tan nv → ℝ) (hk : Along k δ)
    (hJ : ∀ i j, ContinuousAt (fun s => (k s).J.lin i j) 0) (hJ' : ∀ i j, ContinuousAt (fun s => (k s).J.ang i j) 0)
    (T : Fin nv → ℝ) (d : c.Data nv) (d' : ℝ → c.Data nv) (f : Fin c.dim → ℝ)
    (hT : HasDerivAt (fun s => -(k s).J.tmul (c.force f (c.calc (k 0) d)).1) T 0) :
    HasDerivAt (fun s => -((c.Jc (c.calc (k s) (d' s)))ᵀ *ᵥ f)) (T + c.added (c.force f (c.calc (k 0) d)) *ᵥ (δ ∘ Sum.inl)) 0 := by
  have hadd : c.added (c.force f (c.calc (k 0) d)) = (c.force f (c.calc (k 0) d)).2 := by
    rcases c with ⟨F, t⟩ | ⟨F, t⟩ <;> cases t <;> rfl
  rw [hadd]
  cases c with
  | three m =>
    have e : ∀ s, _ := fun s => Imp.like3 m (k s) (d' s) ⟨⟨⟨0, 0⟩, ⟨0, 0⟩, ⟨0, 0⟩, 0, 0, 0⟩, 0, 0, 0, ⟨0, 0⟩, ⟨0, 0⟩, 0⟩ f
    have e0 := Imp.like3 m (k 0) d ⟨⟨⟨0, 0⟩, ⟨0, 0⟩, ⟨0, 0⟩, 0, 0, 0⟩, 0, 0, 0, ⟨0, 0⟩, ⟨0, 0⟩, 0⟩ f
    change HasDerivAt (fun s => -(k s).J.tmul (m.force3 f (m.calc3 (k 0) d)).1) T 0 at hT
    change HasDerivAt (fun s => -((m.calc3 (k s) (d' s)).Jcᵀ *ᵥ f)) (T + (m.force3 f (m.calc3 (k 0) d)).2 *ᵥ _) 0
    simp only [fun s => (e s).1, e0.2.2]
    rw [e0.2.1] at hT
    exact (C88_torques m.jMf hF m.type ⟨0, 0⟩ k δ hk hJ hJ' T).1 0 _ (fun _ => _) f hT
  | six m =>
    let L : Log := ⟨fun _ => ⟨0, 0⟩, fun _ => ⟨0, 0, 0, 0⟩⟩
    let D : D6 nv := ⟨⟨0, 0⟩, ⟨0, 0⟩, 0, ⟨0, 0⟩, ⟨0, 0⟩, ⟨0, 0⟩, ⟨0, 0⟩, ⟨0, 0⟩, 0, ⟨0, 0⟩, ⟨0, 0⟩, 0⟩
    have e : ∀ s, _ := fun s => Imp.like6 L m (k s) (d' s) D (Six.ofVec f)
    have e0 := Imp.like6 L m (k 0) d D (Six.ofVec f)
    change HasDerivAt (fun s => -(k s).J.tmul (m.force6 (Six.ofVec f) (m.calc6 (k 0) d)).1) T 0 at hT
    have eJ : ∀ s, (Hit.Jc (.six m) (Hit.calc (.six m) (k s) (d' s)))ᵀ *ᵥ f = (m.calc6 (k s) (d' s)).Jc.tmul (Six.ofVec f) :=
      fun s => below_tmul _ _
    simp only [eJ]
    change HasDerivAt _ (T + (m.force6 (Six.ofVec f) (m.calc6 (k 0) d)).2 *ᵥ _) 0
    simp only [fun s => (e s).1, e0.2.2]
    rw [e0.2.1] at hT
    exact (C88_torques m.jMf hF m.type ⟨0, 0⟩ k δ hk hJ hJ' T).2.2 L _ _ (fun _ => _) _ hT

/-- The torque of the impulse put on the joint is that of the impulse. -/
theorem Hit.forces (c : Hit) (hF : Rot c.jMf.rot) (k : Kin nv) (d : c.Data nv) (f : Fin c.dim → ℝ) :
    k.J.tmul (c.force f (c.calc k d)).1 = (c.Jc (c.calc k d))ᵀ *ᵥ f := by
  cases c with
  | three m =>
    have e := Imp.like3 m k d ⟨⟨⟨0, 0⟩, ⟨0, 0⟩, ⟨0, 0⟩, 0, 0, 0⟩, 0, 0, 0, ⟨0, 0⟩, ⟨0, 0⟩, 0⟩ f
    change k.J.tmul (m.force3 f (m.calc3 k d)).1 = (m.calc3 k d).Jcᵀ *ᵥ f
    rw [e.1, e.2.1]
    exact ((C88_forces m.jMf hF m.type ⟨0, 0⟩ k).1 0 _ f).1
  | six m =>
    let L : Log := ⟨fun _ => ⟨0, 0⟩, fun _ => ⟨0, 0, 0, 0⟩⟩
    have e := Imp.like6 L m k d ⟨⟨0, 0⟩, ⟨0, 0⟩, 0, ⟨0, 0⟩, ⟨0, 0⟩, ⟨0, 0⟩, ⟨0, 0⟩, ⟨0, 0⟩, 0, ⟨0, 0⟩, ⟨0, 0⟩, 0⟩ (Six.ofVec f)
    refine Eq.trans ?_ (below_tmul (m.calc6 k d).Jc f).symm
    change k.J.tmul (m.force6 (Six.ofVec f) (m.calc6 k d)).1 = _
    rw [e.1, e.2.1]
    exact ((C88_forces m.jMf hF m.type ⟨0, 0⟩ k).2.2.2 L _ _ (Six.ofVec f)).1

/-- `calcDiff` of an impulse, with the velocity of a contact of six dimensions and type `WORLD` read in the directions of the world. -/
noncomputable def Hit.right : (c : Hit) → Kin nv → c.Data nv → Matrix (Fin c.dim) (Fin nv) ℝ
  | .three m, k, d => (Imp.diff3 m k d).dv0
  | .six m, k, d =>
    let e := Imp.diff6 { m with type := match m.type with | .world => .lwa | t => t } k d
    of (below e.dv0.lin e.dv0.ang)

/-- The derivative of the velocity of an impulse for a fixed joint velocity. -/
theorem Hit.deriv (c : Hit) (hF : Rot c.jMf.rot) (k : ℝ → Kin nv) (δ : Fin nv → ℝ) (hk : Along k (Sum.elim δ 0))
    (u : Fin nv → ℝ) (hu : ∀ s, (k s).v = (k s).J.mulVec u) (k0 : Kin nv) (h1 : k0.oMi = (k 0).oMi) (h2 : k0.J = (k 0).J)
    (d : c.Data nv) (d' : ℝ → c.Data nv) :
    HasDerivAt (fun s => c.Jc (c.calc (k s) (d' s)) *ᵥ u) (c.right (k 0) (c.calc k0 d) *ᵥ δ) 0 := by
  cases c with
  | three m => exact C89_point m hF k δ hk u hu k0 h1 h2 d d'
  | six m =>
    rcases m with ⟨F, t⟩
    have := C89_frame_partial ⟨F, match t with | .world => .lwa | t => t⟩ hF k δ hk u hu k0 h1 h2 (by cases t <;> simp) d d'
    refine ((hasDerivAt_below this.lin this.ang).congr_of_eventuallyEq (Filter.Eventually.of_forall fun s => ?_)).congr_deriv ?_
    · refine (below_mulVec (ι := Fin nv) _ _ _).trans ?_
      cases t <;> rfl
    · refine Eq.trans ?_ (below_mulVec (ι := Fin nv) _ _ _).symm
      cases t <;> rfl

/-- What `calcDiff` computes for an impulse is right, but for one of six dimensions and type `WORLD` that moves. -/
theorem Hit.right_eq (c : Hit) (k : Kin nv) (d : c.Data nv) (h : ∀ m, c = .six m → m.type = .world → k.vel m.jMf = ⟨0, 0⟩) :
    c.dv0 (c.diff k d) = c.right k d := by
  cases c with
  | three m => rfl
  | six m =>
    rcases m with ⟨F, t⟩
    cases t with
    | loc => rfl
    | lwa => rfl
    | world =>
      have h0 := h _ rfl rfl
      have e : k.velIn F .world = k.velIn F .lwa := by
        simp only [] at h0
        simp [Kin.velIn, h0, Pose.act]
      simp only [Hit.right, Hit.dv0, Hit.diff, Imp.diff6, e]

/-- `calc` of an impulse reads only the placement and the Jacobian. -/
theorem Hit.calc_same (c : Hit) {k k' : Kin nv} (h1 : k'.oMi = k.oMi) (h2 : k'.J = k.J) (d : c.Data nv) : c.calc k' d = c.calc k d := by
  rcases c with ⟨F, t⟩ | ⟨F, t⟩ <;> cases t <;>
    simp [Hit.calc, Imp.calc3, Imp.calc6, Kin.oMf, Kin.fJf, h1, h2] <;> rfl

section

variable {Q : Type} {B : Body Q nv nj} {grav : Q → Fin nv → ℝ} {q : ℝ → Q} {δ : Fin nv → ℝ}

/-- The torques of the external impulses, impulse by impulse. -/
theorem Blow.sum_fext {S : Blow nj} (hS : S.Distinct) (old : Q → ∀ i, (S.c i).Data nv) (q : Q)
    (l : Fin S.rows → ℝ) (J : Fin nj → Jac nv) :
    ∑ j, (J j).tmul (S.fext B old q l j) = ∑ i, (J (S.joint i)).tmul (S.reply B old q l i).1 := by
  symm
  obtain ⟨h1, h2⟩ := foldl_update S.joint hS (fun i => (S.reply B old q l i).1) (List.finRange S.n) fun _ => ⟨0, 0⟩
  refine Fintype.sum_of_injective S.joint hS _ _ (fun j hj => ?_) fun i => ?_
  · rw [Blow.fext, h1 j fun i _ hc => hj ⟨i, hc⟩, tmul_zero]
  · rw [Blow.fext, h2 i (List.mem_finRange i)]

/-- The transpose of the stacked Jacobian, impulse by impulse. -/
theorem Blow.tmulVec {S : Blow nj} (J : ∀ i, Matrix (Fin (S.c i).dim) (Fin nv) ℝ) (l : Fin S.rows → ℝ) :
    (of fun r => J (S.row r).1 (S.row r).2)ᵀ *ᵥ l = ∑ i, (J i)ᵀ *ᵥ S.part l i := by
  funext q
  rw [Finset.sum_apply]
  simp only [mulVec, dotProduct, transpose_apply, of_apply]
  have e := Equiv.sum_comp (finSigmaFinEquiv (n := fun i => (S.c i).dim)) (fun r : Fin S.rows => J (S.row r).1 (S.row r).2 q * l r)
  refine e.symm.trans ?_
  rw [Fintype.sum_sigma]
  refine Finset.sum_congr rfl fun i _ => Finset.sum_congr rfl fun j _ => ?_
  have : S.row (finSigmaFinEquiv ⟨i, j⟩) = ⟨i, j⟩ := Equiv.symm_apply_apply _ _
  rw [this]
  rfl

theorem Blow.row_deriv {S : Blow nj} (h : BodyAlong B grav q δ) (old : Q → ∀ i, (S.c i).Data nv) (i : Fin S.n) (hc : Rot (S.c i).jMf.rot)
    (v : Fin nv → ℝ) :
    HasDerivAt (fun s => (S.c i).Jc (S.calc B old (q s) i) *ᵥ v)
      ((S.c i).right (B.kin (q 0) v (S.joint i)) (S.calc B old (q 0) i) *ᵥ δ) 0 := by
  have := Hit.deriv (S.c i) hc (fun s => B.kin (q s) v (S.joint i)) δ (h.along v _) v
    (fun s => by rw [(h.kin s).vel, ← (h.kin s).J v]) (B.kin (q 0) 0 (S.joint i)) ((h.kin 0).oMi v _).symm ((h.kin 0).J v _).symm (old (q 0) i) fun s => old (q s) i
  refine this.congr_of_eventuallyEq (Filter.Eventually.of_forall fun s => ?_)
  change (S.c i).Jc (S.calc B old (q s) i) *ᵥ v = (S.c i).Jc ((S.c i).calc (B.kin (q s) v (S.joint i)) (old (q s) i)) *ᵥ v
  rw [Hit.calc_same (S.c i) ((h.kin s).oMi v _) ((h.kin s).J v _)]
  rfl

theorem Blow.row_cont {S : Blow nj} (h : BodyAlong B grav q δ) (old : Q → ∀ i, (S.c i).Data nv) (i : Fin S.n) (hc : Rot (S.c i).jMf.rot)
    (p : Fin (S.c i).dim) (j : Fin nv) : ContinuousAt (fun s => (S.c i).Jc (S.calc B old (q s) i) p j) 0 := by
  have h1 := (hasDerivAt_pi.1 (Blow.row_deriv h old i hc (Pi.single j 1)) p).continuousAt
  refine h1.congr (Filter.Eventually.of_forall fun s => ?_)
  simp

/-- The torque at zero velocity for fixed acceleration and impulses. -/
theorem Blow.torque {S : Blow nj} (h : BodyAlong B grav q δ) (old : Q → ∀ i, (S.c i).Data nv) (hS : S.Distinct)
    (hc : ∀ i, Rot (S.c i).jMf.rot) (a : Fin nv → ℝ) (l : Fin S.rows → ℝ) :
    HasDerivAt (fun s => B.M (q s) *ᵥ a + grav (q s) - ∑ i, ((S.c i).Jc (S.calc B old (q s) i))ᵀ *ᵥ S.part l i)
      ((B.rneaDq (q 0) a (S.fext B old (q 0) l) + ∑ i, (S.c i).added (S.reply B old (q 0) l i)) *ᵥ δ) 0 := by
  have hT : ∀ j (φ : Six), ∃ T, HasDerivAt (fun s => -(B.kin (q s) 0 j).J.tmul φ) T 0 := by
    intro j φ
    refine ⟨_, ((h.rnea a (Function.update (fun _ => ⟨0, 0⟩) j φ)).sub (h.rnea a fun _ => ⟨0, 0⟩)).congr_of_eventuallyEq
      (Filter.Eventually.of_forall fun s => ?_)⟩
    have e : ∑ j', (B.kin (q s) 0 j').J.tmul (Function.update (fun _ => (⟨0, 0⟩ : Six)) j φ j') = (B.kin (q s) 0 j).J.tmul φ := by
      rw [Finset.sum_eq_single j]
      · rw [Function.update_self]
      · intro b _ hb
        rw [Function.update_of_ne hb, tmul_zero]
      · exact fun hj => absurd (Finset.mem_univ j) hj
    simp only [Pi.sub_apply, e, tmul_zero, Finset.sum_const_zero]
    abel
  choose T hT using fun i => hT (S.joint i) (S.reply B old (q 0) l i).1
  have h0 := h.rnea a fun _ => ⟨0, 0⟩
  simp only [tmul_zero, Finset.sum_const_zero, sub_zero] at h0
  have huniq : B.rneaDq (q 0) a (S.fext B old (q 0) l) *ᵥ δ = B.rneaDq (q 0) a (fun _ => ⟨0, 0⟩) *ᵥ δ + ∑ i, T i := by
    refine (h.rnea a (S.fext B old (q 0) l)).unique ?_
    refine (h0.add (HasDerivAt.fun_sum (u := Finset.univ) fun i _ => hT i)).congr_of_eventuallyEq
      (Filter.Eventually.of_forall fun s => ?_)
    simp only [Pi.add_apply]
    rw [Blow.sum_fext hS, Finset.sum_neg_distrib, sub_eq_add_neg]
  have hi := fun i => Hit.torque (S.c i) (hc i) (fun s => B.kin (q s) 0 (S.joint i)) (Sum.elim δ 0) (h.along 0 _) (h.lin _) (h.ang _)
    (T i) (old (q 0) i) (fun s => old (q s) i) (S.part l i) (hT i)
  refine ((h0.add (HasDerivAt.fun_sum (u := Finset.univ) fun i _ => hi i)).congr_of_eventuallyEq
      (Filter.Eventually.of_forall fun s => ?_)).congr_deriv ?_
  · simp only [Pi.add_apply]
    rw [Finset.sum_neg_distrib, sub_eq_add_neg]
    rfl
  · rw [add_mulVec, huniq, Finset.sum_add_distrib, add_assoc]
    congr 2
    rw [Matrix.sum_mulVec]
    rfl

/-- The right derivatives of the velocities. -/
noncomputable def Blow.right (B : Body Q nv nj) (S : Blow nj) (old : Q → ∀ i, (S.c i).Data nv) (q : Q) (v : Fin nv → ℝ) : Mat S.rows nv :=
  of fun r => (S.c (S.row r).1).right (B.kin q v (S.joint (S.row r).1)) (S.calc B old q (S.row r).1) (S.row r).2

/-- The stacked impulses with the right derivatives of the velocities satisfy what the impulse dynamics asks of them. -/
theorem Blow.along {S : Blow nj} (h : BodyAlong B grav q δ) (old : Q → ∀ i, (S.c i).Data nv) (hS : S.Distinct)
    (hc : ∀ i, Rot (S.c i).jMf.rot) {imp kinv} : Fwd.ImpactsAlong { S.impacts B old imp kinv with dv0 := S.right B old } grav q δ where
  M := h.M
  J := continuousAt_pi.2 fun r => continuousAt_pi.2 fun j => Blow.row_cont h old (S.row r).1 (hc _) (S.row r).2 j
  rnea a l := by
    refine (Blow.torque h old hS hc a l).congr_of_eventuallyEq (Filter.Eventually.of_forall fun s => ?_)
    change _ - (of fun r => (S.c (S.row r).1).Jc (S.calc B old (q s) (S.row r).1) (S.row r).2)ᵀ *ᵥ l = _
    rw [Blow.tmulVec (fun i => (S.c i).Jc (S.calc B old (q s) i))]
    rfl
  grav := h.grav
  v0 v := hasDerivAt_pi.2 fun r => hasDerivAt_pi.1 (Blow.row_deriv h old (S.row r).1 (hc _) v) (S.row r).2

end

end Verif.Con
