import Verif.Lemmas.Node
import Verif.Props.ContactStack
import Verif.Props.IntegratorsManifold
import Verif.Props.ResidualCost
import Verif.Props.Activations

/-!
# C142: a node of a robot is right end to end

The integrated action model of a robot, with its contacts, actuation and costs, has the derivatives of its next state and of its cost.
-/

namespace Verif.Node

open Matrix Filter Topology Verif.Deriv
open Verif.Mb (Pin)
open Verif.Im (X DM VecJac NumGrad StateJac Exact)
open Verif.Integrators (Ix Ctl stepAfter)

set_option linter.unusedSectionVars false

variable {P : Pin} {nw nj nc nu : ℕ} {V : (Fin P.nq → ℝ) → Prop} {Same : (Fin P.nq → ℝ) → (Fin P.nq → ℝ) → Prop}
  {Small : (Fin P.nv → ℝ) → Prop} {Reg : (Fin P.nq → ℝ) → (Fin P.nq → ℝ) → Prop}

/-! ## The costs -/

theorem term_cost (t : Term P nw) (x : X P) (w : Fin nw → ℝ) : (t.after [.calcXU x w]).cost = t.activation.val (t.res.res x w) :=
  ResidualCost.C52_value _ _ _ _ _ _

theorem term_grad (t : Term P nw) (x : X P) (w : Fin nw → ℝ) (hx : Im.int x 0 = x) (h : TermOk t x w) :
    NumGrad (fun y v => (t.after [.calcXU y v]).cost) (halves (t.after [.calcXU x w, .diffXU x w]).Lx)
      (t.after [.calcXU x w, .diffXU x w]).Lu x w := by
  simp only [term_cost]
  have H := ResidualCost.C52_gauss_newton t.res t.activation (t.hist ++ [.calcXU x w]) x w h.declared
  have hr : (ResidualCost.run t.res t.activation (ResidualCost.costDiff t.res) (t.hist ++ [.calcXU x w])).r = t.res.res x w := by
    simp [ResidualCost.run, ResidualCost.step, ResidualCost.calcXU]
  have hl : t.hist ++ [ResidualCost.Op.calcXU x w] ++ [.diffXU x w] = t.hist ++ [.calcXU x w, .diffXU x w] := by simp
  simp only [hr, hl] at H
  obtain ⟨h1, h2, -⟩ := H
  have hA : HasGrad1 t.activation.val (t.activation.grad (t.res.res x w)) (t.res.res x w) :=
    Activations.C45_gradient_partial t.act h.params t.data _ ((Activations.C45_differentiable t.act h.params t.data _).2 h.smooth)
  have hA' : HasGrad (fun r (_ : Fin 0 → ℝ) => t.activation.val r) (t.activation.grad (t.res.res x w)) 0
      ((fun e v => t.res.res (Im.int x e) v) 0 w) ((fun (_ : Ix P.nv → ℝ) (_ : Fin nw → ℝ) => (0 : Fin 0 → ℝ)) 0 w) := by
    have e0 : (fun e v => t.res.res (Im.int x e) v) 0 w = t.res.res x w := by simp only [hx]
    rw [e0]
    refine (HasFDerivAt.comp (t.res.res x w, (0 : Fin 0 → ℝ)) (g := t.activation.val) (f := Prod.fst) hA hasFDerivAt_fst).congr_fderiv ?_
    ext p <;> simp [form_apply]
  have hc := HasGrad.comp (Y := fun e v => t.res.res (Im.int x e) v) (W := fun _ _ => 0) hA' h.res
    (Wx := 0) (Wu := 0) (fun a => a.elim0)
  refine HasGrad.congr_grad hc ?_ ?_
  · rw [show (t.after [.calcXU x w, .diffXU x w]).Lx = _ from h1]
    funext i
    simp [halves, ResidualCost.Spec.gnLx, Matrix.vecMul, Matrix.mulVec, dotProduct, mul_comm]
  · rw [show (t.after [.calcXU x w, .diffXU x w]).Lu = _ from h2]
    funext i
    simp [ResidualCost.Spec.gnLx, Matrix.vecMul, Matrix.mulVec, dotProduct, mul_comm]

theorem costs_grad (ts : List (Term P nw)) (x : X P) (w : Fin nw → ℝ) (hx : Im.int x 0 = x)
    (h : ∀ t ∈ ts, t.active = true → TermOk t x w) :
    NumGrad (fun y v => weighted ts fun t => (t.after [.calcXU y v]).cost)
      (halves (weighted ts fun t => (t.after [.calcXU x w, .diffXU x w]).Lx))
      (weighted ts fun t => (t.after [.calcXU x w, .diffXU x w]).Lu) x w := by
  induction ts with
  | nil => exact hasGrad_const 0 0 w
  | cons t ts ih =>
    have ih := ih fun t' ht' => h t' (List.mem_cons_of_mem _ ht')
    by_cases ha : t.active = true
    · have h1 := (term_grad t x w hx (h t List.mem_cons_self ha)).const_mul t.weight
      have h2 := HasGrad.add h1 ih
      simp only [weighted, List.filter_cons, ha, if_true, List.map_cons, List.sum_cons]
      exact h2
    · simp only [weighted, List.filter_cons, ha, if_false, Bool.false_eq_true] at ih ⊢
      exact ih

theorem term_gradT (t : Term P nw) (x : X P) (u : Fin nu → ℝ) (hx : Im.int x 0 = x) (h : TermOkT t x) :
    NumGrad (fun y (_ : Fin nu → ℝ) => (t.after [.calcX y]).cost) (halves (t.after [.calcX x, .diffX x]).Lx) 0 x u := by
  have hcost : ∀ y, (t.after [.calcX y]).cost = if t.res.q = true ∨ t.res.v = true then t.activation.val (t.res.resT y) else 0 :=
    fun y => ResidualCost.C52_value_terminal _ _ _ _ _
  simp only [hcost]
  have hl : t.hist ++ [ResidualCost.Op.calcX x] ++ [.diffX x] = t.hist ++ [.calcX x, .diffX x] := by simp
  by_cases hqv : t.res.q = true ∨ t.res.v = true
  · simp only [if_pos hqv]
    have H := ResidualCost.C52_gauss_newton_terminal t.res t.activation (t.hist ++ [.calcX x]) x h.declared
    have hb : (!t.res.q && !t.res.v) = false := by
      rcases hqv with h | h <;> simp [h]
    have hr : (ResidualCost.run t.res t.activation (ResidualCost.costDiff t.res) (t.hist ++ [.calcX x])).r = t.res.resT x := by
      simp [ResidualCost.run, ResidualCost.step, ResidualCost.calcX, hb]
    simp only [hr, hl] at H
    have hA : HasGrad1 t.activation.val (t.activation.grad (t.res.resT x)) (t.res.resT x) :=
      Activations.C45_gradient_partial t.act h.params t.data _ ((Activations.C45_differentiable t.act h.params t.data _).2 (h.smooth hqv))
    have hA' : HasGrad (fun r (_ : Fin 0 → ℝ) => t.activation.val r) (t.activation.grad (t.res.resT x)) 0
        ((fun e (_ : Fin nu → ℝ) => t.res.resT (Im.int x e)) 0 u) ((fun (_ : Ix P.nv → ℝ) (_ : Fin nu → ℝ) => (0 : Fin 0 → ℝ)) 0 u) := by
      have e0 : (fun e (_ : Fin nu → ℝ) => t.res.resT (Im.int x e)) 0 u = t.res.resT x := by simp only [hx]
      rw [e0]
      refine (HasFDerivAt.comp (t.res.resT x, (0 : Fin 0 → ℝ)) (g := t.activation.val) (f := Prod.fst) hA hasFDerivAt_fst).congr_fderiv ?_
      ext p <;> simp [form_apply]
    have hres : HasJac (fun e (_ : Fin nu → ℝ) => t.res.resT (Im.int x e)) ((t.res.diffT x).1.submatrix id finSumFinEquiv) 0 0 u := by
      intro a
      refine (HasFDerivAt.comp ((0 : Ix P.nv → ℝ), u) (g := fun e => t.res.resT (Im.int x e) a) (f := Prod.fst) (h.res hqv a)
        hasFDerivAt_fst).congr_fderiv ?_
      ext p <;> simp [form_apply]
    have hc := HasGrad.comp (Y := fun e (_ : Fin nu → ℝ) => t.res.resT (Im.int x e)) (W := fun _ _ => 0) hA' hres
      (Wx := 0) (Wu := 0) (fun a => a.elim0)
    refine HasGrad.congr_grad hc ?_ ?_
    · rw [show (t.after [.calcX x, .diffX x]).Lx = _ from H.1]
      funext i
      simp [halves, ResidualCost.Spec.gnLx, Matrix.vecMul, Matrix.mulVec, dotProduct, mul_comm]
    · simp
  · simp only [if_neg hqv]
    have hb : (!t.res.q && !t.res.v) = true := by
      rw [not_or] at hqv
      simp [hqv.1, hqv.2]
    have hL : (t.after [.calcX x, .diffX x]).Lx = 0 := by
      simp only [Term.after, ← hl, ResidualCost.run, List.foldl_append, List.foldl_cons, List.foldl_nil, ResidualCost.step, ResidualCost.diffX, hb,
        if_true]
    rw [hL]
    exact hasGrad_const 0 0 u

/-- **C142 (terminal nodes).** At a terminal node the cost is the weighted sum over the active costs that depend on the state, and `Lx` is its
gradient on the manifold. -/
theorem C142_terminal (hP : P.Group V Same Small Reg) (D : DM P nw) (ts : List (Term P nw)) (ho : ∀ t ∈ ts, Activations.Ordered t.act.act)
    (hD : (∃ (nc : ℕ) (B : Fwd.Rigid (X P) P.nv) (C : Fwd.Contacts (X P) P.nv nc) (A : Fwd.Act (X P) P.nv nw) (m : Fwd.CMod P.nv)
        (d : Fwd.CDat P.nv nc nw), D = contactDM B C A m d ts)
      ∨ ∃ (B : Fwd.Rigid (X P) P.nv) (A : Fwd.Act (X P) P.nv nw) (m : Fwd.Arm P.nv) (d : Fwd.FDat P.nv nw), D = freeDM B A m d ts)
    (e : Im.Data P nu) (x : X P) (u : Fin nu → ℝ) (hx : V x.q) (h : ∀ t ∈ ts, t.active = true → TermOkT t x) :
    let r := Im.eulerCalcDiffT D (Im.eulerCalcT D e x) x
    r.xnext = x ∧ r.cost = totalT ts x ∧ NumGrad (fun y (_ : Fin nu → ℝ) => totalT ts y) r.Lx 0 x u := by
  intro r
  have hcT : D.costT = fun y => weighted ts fun t => (t.after [.calcX y]).cost := by
    rcases hD with ⟨_, _, _, _, _, _, rfl⟩ | ⟨_, _, _, _, rfl⟩ <;> rfl
  have hLT : D.LxT x = halves (weighted ts fun t => (t.after [.calcX x, .diffX x]).Lx) := by
    rcases hD with ⟨_, _, _, _, _, _, rfl⟩ | ⟨_, _, _, _, rfl⟩ <;> rfl
  have key : ∀ y, D.costT y = totalT ts y := by
    intro y
    rw [hcT]
    clear h hD hcT hLT
    induction ts with
    | nil => rfl
    | cons t ts ih =>
      have ih := ih fun t' ht' => ho t' (List.mem_cons_of_mem _ ht')
      have hv := Activations.C45_value t.act (ho t List.mem_cons_self) t.data (t.res.resT y)
      have hcost : (t.after [.calcX y]).cost = if t.res.q = true ∨ t.res.v = true then t.activation.val (t.res.resT y) else 0 :=
        ResidualCost.C52_value_terminal _ _ _ _ _
      by_cases ha : t.active = true
      · by_cases hqv : t.res.q = true ∨ t.res.v = true
        · simp only [weighted, totalT, List.filter_cons, ha, if_true, List.map_cons, List.sum_cons, hcost, hqv, and_self] at ih ⊢
          rw [ih, ← hv]
          rfl
        · simp only [weighted, totalT, List.filter_cons, ha, if_true, if_false, List.map_cons, List.sum_cons, hcost, hqv, and_false,
            smul_zero] at ih ⊢
          rw [ih]
      · simp only [weighted, totalT, List.filter_cons, ha, if_false, List.map_cons, List.sum_cons, Bool.false_eq_true, zero_add, false_and]
          at ih ⊢
        exact ih
  refine ⟨rfl, key x, ?_⟩
  have hg : NumGrad (fun y (_ : Fin nu → ℝ) => D.costT y) (D.LxT x) 0 x u := by
    rw [hLT]
    simp only [hcT]
    clear hD hcT hLT key ho
    have h0 := Im.int_zero hP hx
    induction ts with
    | nil => exact hasGrad_const 0 0 u
    | cons t ts ih =>
      have ih := ih fun t' ht' => h t' (List.mem_cons_of_mem _ ht')
      by_cases ha : t.active = true
      · have h1 := (term_gradT (nu := nu) t x u h0 (h t List.mem_cons_self ha)).const_mul t.weight
        have h2 := HasGrad.add h1 ih
        simp only [smul_zero, add_zero] at h2
        simp only [weighted, List.filter_cons, ha, if_true, List.map_cons, List.sum_cons]
        exact h2
      · simp only [weighted, List.filter_cons, ha, if_false, Bool.false_eq_true] at ih ⊢
        exact ih
  simp only [key] at hg
  exact hg

/-- **C142 (cost).** The cost of a node is the weighted sum of the activations of the residuals, over the active costs, whatever was called
before. -/
theorem C142_cost (B : Fwd.Rigid (X P) P.nv) (C : Fwd.Contacts (X P) P.nv nc) (A : Fwd.Act (X P) P.nv nw) (m : Fwd.CMod P.nv)
    (d : Fwd.CDat P.nv nc nw) (a : Fwd.Arm P.nv) (d' : Fwd.FDat P.nv nw) (ts : List (Term P nw))
    (ho : ∀ t ∈ ts, Activations.Ordered t.act.act) (x : X P) (w : Fin nw → ℝ) :
    (contactDM B C A m d ts).cost x w = total ts x w ∧ (freeDM B A a d' ts).cost x w = total ts x w := by
  have key : (weighted ts fun t => (t.after [.calcXU x w]).cost) = total ts x w := by
    induction ts with
    | nil => rfl
    | cons t ts ih =>
      have ih := ih fun t' ht' => ho t' (List.mem_cons_of_mem _ ht')
      have hv := Activations.C45_value t.act (ho t List.mem_cons_self) t.data (t.res.res x w)
      by_cases ha : t.active = true
      · simp only [weighted, total, List.filter_cons, ha, if_true, List.map_cons, List.sum_cons, term_cost] at ih ⊢
        rw [ih, ← hv]
        rfl
      · simp only [weighted, total, List.filter_cons, ha, if_false, List.map_cons, List.sum_cons, Bool.false_eq_true, zero_add] at ih ⊢
        exact ih
  exact ⟨key, key⟩

/-! ## The dynamics -/

theorem through_tendsto {c : ℝ → Ix P.nv → ℝ} {δ : Ix P.nv → ℝ} (h : Through c δ) : Tendsto c (𝓝 0) (𝓝 0) := by
  have := h.tangent.continuousAt.tendsto
  rwa [h.zero] at this

/-- **C142 (contacts, partial).** The differential model of a robot in contact with the contacts of the library is exact. Missing: contacts
that share a joint and planar contacts that lean (C137). -/
theorem C142_contact_partial (hP : P.Group V Same Small Reg) (B : Fwd.Rigid (X P) P.nv) (R : Con.Robot (X P) P.nv nj) (L : Con.Log)
    (S : Con.Scene nj) (hS : S.Distinct) (old : X P → ∀ i, (S.c i).Data P.nv) (fwd) (kinv)
    (hC : Fwd.ContactsOk (S.contacts L R old fwd kinv)) (A : Fwd.Act (X P) P.nv nw) (m : Fwd.CMod P.nv) (d : Fwd.CDat P.nv S.rows nw)
    (ts : List (Term P nw)) (x : X P) (w : Fin nw → ℝ) (hx : V x.q) (h : GroundOk B R L S (S.contacts L R old fwd kinv) A m x w)
    (ht : ∀ t ∈ ts, t.active = true → TermOk t x w) : Exact (contactDM B (S.contacts L R old fwd kinv) A m d ts) x w := by
  have h0 := Im.int_zero hP hx
  refine ⟨hasJac_of_curves fun c v δ ω hc0 hv0 hc hv => ?_, costs_grad ts x w h0 ht⟩
  have hth : Through c δ := ⟨hc0, hc⟩
  have hu : Fwd.ActAlong A (fun s => Im.int x (c s)) v δ ω := by
    have := hasJac_along h.act hc0 hv0 hc hv
    rw [Fwd.ActAlong]
    simp only [hc0, hv0, h0]
    exact this
  have key := (Con.C137_derivatives_partial B R L S hS old fwd kinv hC A m (fun _ => d) (fun s => Im.int x (c s)) v δ ω (h.robot c δ hth)
    (fun i => h.fits i c δ hth) hu ((through_tendsto hth).eventually h.regular)).1
  simp only [hc0, hv0, h0] at key
  exact key

/-- **C142 (no contacts).** The differential model of a robot without contacts is exact. -/
theorem C142_free (hP : P.Group V Same Small Reg) (B : Fwd.Rigid (X P) P.nv) (hB : Fwd.RigidOk B) (A : Fwd.Act (X P) P.nv nw)
    (m : Fwd.Arm P.nv) (d : Fwd.FDat P.nv nw) (ts : List (Term P nw)) (x : X P) (w : Fin nw → ℝ) (hx : V x.q) (h : AirOk B A m x w)
    (ht : ∀ t ∈ ts, t.active = true → TermOk t x w) : Exact (freeDM B A m d ts) x w := by
  have h0 := Im.int_zero hP hx
  refine ⟨hasJac_of_curves fun c v δ ω hc0 hv0 hc hv => ?_, costs_grad ts x w h0 ht⟩
  have hth : Through c δ := ⟨hc0, hc⟩
  have hu : Fwd.ActAlong A (fun s => Im.int x (c s)) v δ ω := by
    have := hasJac_along h.act hc0 hv0 hc hv
    rw [Fwd.ActAlong]
    simp only [hc0, hv0, h0]
    exact this
  have key := (Fwd.C82_free B hB A m (fun _ => d) (fun s => Im.int x (c s)) v δ ω (h.robot c δ hth) hu
    ((through_tendsto hth).eventually h.spd) ((through_tendsto hth).eventually h.spdArm)).1
  simp only [hc0, hv0, h0] at key
  exact key

/-! ## The node -/

/-- **C142 (the step, partial).** `calc` of the Euler node of a robot in contact moves the state with an acceleration that obeys the equation of
motion under the forces it reports on the joints and the stabilised constraints of the contacts (up to the damping), and charges the
weighted costs for the time step. Missing: contacts that share a joint. -/
theorem C142_step_partial (B : Fwd.Rigid (X P) P.nv) (R : Con.Robot (X P) P.nv nj) (L : Con.Log)
    (S : Con.Scene nj) (hS : S.Distinct) (hF : ∀ i, Con.Rot (S.c i).jMf.rot) (old : X P → ∀ i, (S.c i).Data P.nv) (fwd) (kinv)
    (hC : Fwd.ContactsOk (S.contacts L R old fwd kinv)) (A : Fwd.Act (X P) P.nv nw) (m : Fwd.CMod P.nv) (d : Fwd.CDat P.nv S.rows nw)
    (ts : List (Term P nw)) (ho : ∀ t ∈ ts, Activations.Ordered t.act.act) (ctl : Ctl ℝ nw nu) (dt : ℝ) (hist : List ℝ)
    (e : Im.Data P nu) (x : X P) (u : Fin nu → ℝ) (hR : ∀ a j, Con.Accelerated (R.kin x 0 j) (R.kin x a j) a)
    (hreg : Fwd.Regular (B.M x + diagonal (Fwd.inertia m.arm)) ((S.contacts L R old fwd kinv).J x) m.damping) :
    let s := stepAfter dt hist
    let r := Im.eulerCalc (contactDM B (S.contacts L R old fwd kinv) A m d ts) ctl s e x u
    ∃ a lam, (∀ i, r.xnext.v i = x.v i + s.dt * a i) ∧ r.xnext.q = P.integrate x.q (fun i => s.dt * r.xnext.v i)
      ∧ r.cost = s.dt * total ts x (ctl 0 *ᵥ u)
      ∧ B.M x *ᵥ a + Fwd.inertia m.arm * a + B.nle x = A.tau x (ctl 0 *ᵥ u) + ∑ j, (R.kin x 0 j).J.tmul (S.fext L R old x lam j)
      ∧ ∀ i d, (S.c i).a0 ((S.c i).calc L (R.kin x a (S.joint i)) d) = -(m.damping • S.part lam i) := by
  intro s r
  obtain ⟨h1, h2, h3⟩ := Im.C101_euler dt hist (contactDM B (S.contacts L R old fwd kinv) A m d ts) ctl e x u
  obtain ⟨h4, h5⟩ := Con.C137_motion_partial B R L S hS hF old fwd kinv hC A m d x (ctl 0 *ᵥ u) hR hreg
  refine ⟨_, _, h1, h2, h3.trans ?_, h4, h5⟩
  rw [(C142_cost B (S.contacts L R old fwd kinv) A m d {} ⟨0, 0, 0, 0, 0, 0, 0, 0, 0⟩ ts ho x (ctl 0 *ᵥ u)).1]

/-- **C142 (Euler, partial).** After `calc` and `calcDiff` of the Euler node of a robot in contact, `Fx` and `Fu` are the derivatives on the
manifold of the next state and `Lx` and `Lu` those of the weighted costs times the time step, whatever the robot, contacts, actuation, costs, control
parametrisation, armature, damping, and whatever was called before. Missing: contacts that share a joint, planar contacts that lean (C137). -/
theorem C142_euler_partial (hP : P.Group V Same Small Reg) (B : Fwd.Rigid (X P) P.nv) (R : Con.Robot (X P) P.nv nj) (L : Con.Log)
    (S : Con.Scene nj) (hS : S.Distinct) (old : X P → ∀ i, (S.c i).Data P.nv) (fwd) (kinv)
    (hC : Fwd.ContactsOk (S.contacts L R old fwd kinv)) (A : Fwd.Act (X P) P.nv nw) (m : Fwd.CMod P.nv) (d : Fwd.CDat P.nv S.rows nw)
    (ts : List (Term P nw)) (ho : ∀ t ∈ ts, Activations.Ordered t.act.act) (ctl : Ctl ℝ nw nu) (dt : ℝ) (hist : List ℝ)
    (e e' : Im.Data P nu) (x : X P) (u : Fin nu → ℝ) (hx : V x.q)
    (h : GroundOk B R L S (S.contacts L R old fwd kinv) A m x (ctl 0 *ᵥ u)) (ht : ∀ t ∈ ts, t.active = true → TermOk t x (ctl 0 *ᵥ u)) :
    let D := contactDM B (S.contacts L R old fwd kinv) A m d ts
    let s := stepAfter dt hist
    let next := fun y v => (Im.eulerCalc D ctl s e' y v).xnext
    let r := Im.eulerCalcDiff D ctl s (Im.eulerCalc D ctl s e x u) x u
    r.xnext = next x u ∧ r.cost = s.dt * total ts x (ctl 0 *ᵥ u)
    ∧ StateJac next r.Fx r.Fu x u ∧ NumGrad (fun y v => s.dt * total ts y (ctl 0 *ᵥ v)) r.Lx r.Lu x u := by
  intro D s next r
  have hD := C142_contact_partial hP B R L S hS old fwd kinv hC A m d ts x (ctl 0 *ᵥ u) hx h ht
  have hc : ∀ y v, (Im.eulerCalc D ctl s e' y v).cost = s.dt * total ts y (ctl 0 *ᵥ v) := by
    intro y v
    rw [← (C142_cost B (S.contacts L R old fwd kinv) A m d {} ⟨0, 0, 0, 0, 0, 0, 0, 0, 0⟩ ts ho y (ctl 0 *ᵥ v)).1]
    rfl
  obtain ⟨h1, h2⟩ := Im.C101_jacobians hP dt hist D ctl e e' x u hx hD
  refine ⟨rfl, hc x u, h1, ?_⟩
  simp only [hc, s] at h2
  exact h2

/-- **C142 (Euler, no contacts).** The same without contacts: the acceleration obeys the equation of motion, and the derivatives are right. -/
theorem C142_euler_free (hP : P.Group V Same Small Reg) (B : Fwd.Rigid (X P) P.nv) (hB : Fwd.RigidOk B) (A : Fwd.Act (X P) P.nv nw)
    (m : Fwd.Arm P.nv) (d : Fwd.FDat P.nv nw) (ts : List (Term P nw)) (ho : ∀ t ∈ ts, Activations.Ordered t.act.act) (ctl : Ctl ℝ nw nu)
    (dt : ℝ) (hist : List ℝ) (e e' : Im.Data P nu) (x : X P) (u : Fin nu → ℝ) (hx : V x.q) (h : AirOk B A m x (ctl 0 *ᵥ u))
    (ht : ∀ t ∈ ts, t.active = true → TermOk t x (ctl 0 *ᵥ u)) :
    let D := freeDM B A m d ts
    let s := stepAfter dt hist
    let next := fun y v => (Im.eulerCalc D ctl s e' y v).xnext
    let r := Im.eulerCalcDiff D ctl s (Im.eulerCalc D ctl s e x u) x u
    (∃ a, (∀ i, (next x u).v i = x.v i + s.dt * a i) ∧ (next x u).q = P.integrate x.q (fun i => s.dt * (next x u).v i)
      ∧ B.M x *ᵥ a + Fwd.inertia m * a + B.nle x = A.tau x (ctl 0 *ᵥ u))
    ∧ r.xnext = next x u ∧ r.cost = s.dt * total ts x (ctl 0 *ᵥ u)
    ∧ StateJac next r.Fx r.Fu x u ∧ NumGrad (fun y v => s.dt * total ts y (ctl 0 *ᵥ v)) r.Lx r.Lu x u := by
  intro D s next r
  have hD := C142_free hP B hB A m d ts x (ctl 0 *ᵥ u) hx h ht
  have hc : ∀ y v, (Im.eulerCalc D ctl s e' y v).cost = s.dt * total ts y (ctl 0 *ᵥ v) := by
    intro y v
    have C : Fwd.Contacts (X P) P.nv 0 := ⟨fun _ => 0, fun _ => 0, fun _ _ => 0, fun _ _ _ => 0, fun _ _ => 0, ⟨fun _ => 0, fun _ => 0⟩,
      fun _ _ _ _ _ => (0, 0), fun _ _ _ => 0⟩
    rw [← (C142_cost B C A {} ⟨0, 0, 0, 0, 0, 0, 0, 0, 0, 0, 0, 0, 0, 0, 0, 0, 0, 0⟩ m d ts ho y (ctl 0 *ᵥ v)).2]
    rfl
  obtain ⟨h1, h2⟩ := Im.C101_jacobians hP dt hist D ctl e e' x u hx hD
  obtain ⟨g1, g2, -⟩ := Im.C101_euler dt hist D ctl e' x u
  have h0 := Im.int_zero hP hx
  have hs := h.spd.self_of_nhds
  have hsa := h.spdArm.self_of_nhds
  rw [h0] at hs hsa
  refine ⟨⟨_, g1, g2, ?_⟩, rfl, hc x u, h1, ?_⟩
  · exact (Fwd.C81_free B hB A m d x (ctl 0 *ᵥ u) hs hsa).1
  · simp only [hc, s] at h2
    exact h2

open Verif.Controls (RKType) in
/-- **C142 (Runge-Kutta, partial).** For every scheme `Fu` and `Lu` of the node of a robot in contact are the derivatives of the next state and of
the cost with respect to the control if the parts are smooth at the stages, and `Fx` and `Lx` those with respect to the state if the joints are
described by vectors and the scheme is not the one of order three. Missing: contacts that share a joint, planar contacts that lean (C137), `Fx` on other
manifolds and of the scheme of order three (false, C102). -/
theorem C142_rk_partial (hP : P.Group V Same Small Reg) (B : Fwd.Rigid (X P) P.nv) (R : Con.Robot (X P) P.nv nj) (L : Con.Log)
    (S : Con.Scene nj) (hS : S.Distinct) (old : X P → ∀ i, (S.c i).Data P.nv) (fwd) (kinv)
    (hC : Fwd.ContactsOk (S.contacts L R old fwd kinv)) (A : Fwd.Act (X P) P.nv nw) (m : Fwd.CMod P.nv) (d : Fwd.CDat P.nv S.rows nw)
    (ts : List (Term P nw)) (ctl : Ctl ℝ nw nu) (ty : RKType) (dt : ℝ) (x : X P) (u : Fin nu → ℝ) (hx : V x.q)
    (hsame : Im.Respects Same (contactDM B (S.contacts L R old fwd kinv) A m d ts))
    (h : ∀ y w, V y.q → GroundOk B R L S (S.contacts L R old fwd kinv) A m y w)
    (ht : ∀ t ∈ ts, t.active = true → ∀ y w, V y.q → TermOk t y w) :
    let D := contactDM B (S.contacts L R old fwd kinv) A m d ts
    (∃ F l, StateJac (Im.rkNext D ctl ty dt) F (Im.rkFu D ctl ty dt x u) x u ∧ NumGrad (Im.rkCost D ctl ty dt) l (Im.rkLu D ctl ty dt x u) x u)
    ∧ (ty ≠ .three → P.dInt true x.q (fun i => dt / 2 * x.v i) = 1 →
      StateJac (Im.rkNext D ctl ty dt) (Im.rkFx D ctl ty dt x u) (Im.rkFu D ctl ty dt x u) x u
      ∧ NumGrad (Im.rkCost D ctl ty dt) (Im.rkLx D ctl ty dt x u) (Im.rkLu D ctl ty dt x u) x u) := by
  intro D
  have hD : Im.ExactAtStages D ctl ty dt x u := fun i _ =>
    have hv := Im.stage_valid hP D ctl ty dt u hx i
    C142_contact_partial hP B R L S hS old fwd kinv hC A m d ts _ _ hv (h _ _ hv) fun t h1 h2 => ht t h1 h2 _ _ hv
  exact ⟨Im.C102_control hP D hsame ctl ty dt x u hx hD,
    fun h3 h1 => Im.C102_jacobians_partial hP D hsame ctl ty dt x u hx hD (Or.inr ⟨h3, h1⟩)⟩

/-! ### A body on a continuous hinge -/

namespace NodeDemo

open Verif.Con Verif.Con.StackDemo
open Verif.Mb (so2 Unit2)

noncomputable section

/-- A body on a hinge along `z` without limits: the configuration is the cosine and the sine of the angle. -/
def spin : Robot (X so2) 1 1 where
  kin x a _ :=
    { oMi := ⟨!![x.q (0 : Fin 2), -x.q (1 : Fin 2), 0; x.q (1 : Fin 2), x.q (0 : Fin 2), 0; 0, 0, 1], 0⟩
      v := ⟨0, ![0, 0, x.v (0 : Fin 1)]⟩
      a := ⟨0, ![0, 0, a 0]⟩
      vq := ⟨0, 0⟩
      aq := ⟨0, 0⟩
      av := ⟨0, 0⟩
      J := ⟨0, of fun i _ => ![0, 0, 1] i⟩ }
  rneaDx _ _ _ := 0

theorem col (w : Fin 1 → ℝ) : (⟨0, of fun i _ => (![0, 0, 1] : Fin 3 → ℝ) i⟩ : Jac 1).mulVec w = ⟨0, ![0, 0, w 0]⟩ := by
  rw [Jac.mulVec]
  congr 1
  · simp
  · ext i
    fin_cases i <;> simp [Matrix.mulVec, dotProduct]

/-- A point of the body held to a point of the world. -/
def hold : Scene 1 := ⟨1, fun _ => .three ⟨arm, ![1, 0, 0], .lwa, ⟨4, 2⟩⟩, fun _ => 0⟩

/-- A motor at the hinge. -/
def motor : Fwd.Act (X so2) 1 1 := ⟨fun _ u => u, fun _ _ => 0, fun _ _ => 1⟩

/-- The speed and the torque, squared. -/
def effort (hist : List (ResidualCost.Op (X so2) ℝ 1)) : Term so2 1 where
  nr := 2
  res :=
    { nv := 1
      q := false
      v := true
      u := true
      res := fun x w => ![x.v (0 : Fin 1), w 0]
      resT := fun x => ![x.v (0 : Fin 1), 0]
      diff := fun _ _ => (!![0, 1; 0, 0], !![0; 1])
      diffT := fun _ => (!![0, 1; 0, 0], 0) }
  act := .ofAct .quad
  data := ⟨0, 0, 0, 0, 0, 0, 0⟩
  hist := hist
  weight := 3
  active := true

theorem effort_ok (hist) (x : X so2) (w : Fin 1 → ℝ) : TermOk (effort hist) x w where
  res := by
    intro (a : Fin 2)
    change HasGrad (fun (e : Fin 1 ⊕ Fin 1 → ℝ) (v : Fin 1 → ℝ) => (![x.v (0 : Fin 1) + e (Sum.inr 0), v 0] : Fin 2 → ℝ) a)
      (fun j => (!![0, 1; 0, 0] : Matrix (Fin 2) (Fin 2) ℝ) a (finSumFinEquiv (m := 1) (n := 1) j)) ((!![0; 1] : Matrix (Fin 2) (Fin 1) ℝ) a) 0 w
    fin_cases a <;> refine Im.hasGrad_affine 0 w fun e v => ?_ <;>
      simp [form_apply, finSumFinEquiv, Fin.castAdd, Fin.natAdd]
  declared := by
    refine ⟨fun h => absurd h (by simp [effort]), fun _ _ (k : Fin 2) (i : Fin 2) hi => ?_, fun _ h => absurd h (by simp [effort]),
      fun h => absurd h (by simp [effort])⟩
    have hi' : i.val < 1 := hi
    obtain rfl : i = 0 := by ext; simp; omega
    fin_cases k <;> rfl
  params := trivial
  smooth := trivial

theorem angle {q : Fin 2 → ℝ} (h : Unit2 q) : ∃ φ, q 0 = Real.cos φ ∧ q 1 = Real.sin φ := by
  refine ⟨Complex.arg ⟨q 0, q 1⟩, ?_⟩
  have hn : ‖(⟨q 0, q 1⟩ : ℂ)‖ = 1 := by
    rw [Complex.norm_eq_sqrt_sq_add_sq]
    have : q 0 ^ 2 + q 1 ^ 2 = 1 := h
    simp [this]
  have h1 := Complex.norm_mul_cos_arg (⟨q 0, q 1⟩ : ℂ)
  have h2 := Complex.norm_mul_sin_arg (⟨q 0, q 1⟩ : ℂ)
  rw [hn, one_mul] at h1 h2
  exact ⟨h1.symm, h2.symm⟩

theorem spin_along {x : X so2} (hx : Unit2 x.q) {c : ℝ → Ix 1 → ℝ} {δ : Ix 1 → ℝ} (hc : Through (P := so2) c δ) :
    RobotAlong (unit (X so2) 1) spin (fun s => Im.int x (c s)) δ where
  M := continuousAt_const
  acc s a j := by
    refine ⟨⟨rfl, rfl, rfl, rfl⟩, ?_⟩
    simp only [spin]
    rw [col]
    simp [Six.add]
  along a j := by
    obtain ⟨φ, h0, h1⟩ := angle hx
    have hd := hasDerivAt_pi.1 hc.tangent
    have hp : ∀ s, (spin.kin (Im.int x (c s)) a j).oMi = ⟨turn (φ + c s (Sum.inl 0)), 0⟩ := by
      intro s
      have e0 : (Im.int x (c s)).q (0 : Fin 2) = Real.cos (φ + c s (Sum.inl 0)) := by
        rw [Real.cos_add, ← h0, ← h1]; rfl
      have e1 : (Im.int x (c s)).q (1 : Fin 2) = Real.sin (φ + c s (Sum.inl 0)) := by
        rw [Real.sin_add, ← h0, ← h1, add_comm]; rfl
      simp only [spin, turn, e0, e1]
    refine ⟨?_, ⟨(hasDerivAt_const _ _).congr_deriv (by simp [spin, Jac.mulVec, Six.add]), ?_⟩,
      ⟨(hasDerivAt_const _ _).congr_deriv (by simp [spin, Jac.mulVec, Six.add]),
        (hasDerivAt_const _ _).congr_deriv (by simp [spin, Jac.mulVec, Six.add])⟩⟩
    · simp only [hp]
      simp only [spin]
      rw [col]
      exact turn_moves ((hd (Sum.inl 0)).const_add φ)
    · simp only [spin]
      rw [col, hasDerivAt_pi]
      have hv : HasDerivAt (fun s => x.v (0 : Fin 1) + c s (Sum.inr 0)) (δ (Sum.inr 0)) 0 := (hd (Sum.inr 0)).const_add _
      intro i
      fin_cases i
      · simpa [Jac.mulVec, Six.add] using hasDerivAt_const (0 : ℝ) (0 : ℝ)
      · simpa [Jac.mulVec, Six.add] using hasDerivAt_const (0 : ℝ) (0 : ℝ)
      · refine hv.congr_deriv ?_
        simp [Jac.mulVec, Six.add]
  lin _ _ _ := continuousAt_const
  ang _ _ _ := continuousAt_const
  rnea a φ := by
    simp only [spin, unit, zero_mulVec]
    exact hasDerivAt_const _ _

theorem hold_regular (B : Fwd.Rigid (X so2) 1) (hB : B = unit _ 1) (J : Fwd.Mat hold.rows 1) (x : X so2) :
    Fwd.Regular (B.M x + diagonal (Fwd.inertia ({ damping := 1 } : Fwd.CMod 1).arm)) J (1 : ℝ) := by
  subst hB
  refine ⟨?_, zero_le_one, Or.inl one_pos⟩
  rw [diag_none, add_zero]
  exact spd_one 1

theorem motor_jac (x : X so2) (w : Fin 1 → ℝ) : VecJac motor.tau (motor.dx x w) (motor.du x w) x w := by
  have h := Deriv.hasJac_mulVec_snd (ι := Ix 1) (1 : Matrix (Fin 1) (Fin 1) ℝ) 0 w
  simp only [one_mulVec] at h
  exact h

theorem spin_ok (L : Log) (old : X so2 → ∀ i, (hold.c i).Data 1) (x : X so2) (hx : Unit2 x.q) (w : Fin 1 → ℝ) :
    GroundOk (P := so2) (unit (X so2) 1) spin L hold (hold.contacts L spin old (solver 1 hold.rows).fwd (solver 1 hold.rows).kinv) motor
      { damping := 1 } x w where
  robot _ _ hc := spin_along hx hc
  fits _ _ _ _ := Rot.one
  act := motor_jac x w
  regular := Eventually.of_forall fun _ => hold_regular _ rfl _ _

end

/-- C142: the body held by its contact and driven by its motor, at every state, after any calls, with every time step: the node is right. -/
example (L : Log) (old : X so2 → ∀ i, (hold.c i).Data 1) (d : Fwd.CDat 1 hold.rows 1) (hist) (dt : ℝ) (steps : List ℝ) (e e' : Im.Data so2 1)
    (x : X so2) (hx : Unit2 x.q) (u : Fin 1 → ℝ) :
    let D := contactDM (P := so2) (unit (X so2) 1) (hold.contacts L spin old (solver 1 hold.rows).fwd (solver 1 hold.rows).kinv) motor
      { damping := 1 } d [effort hist]
    let s := stepAfter dt steps
    let ctl : Ctl ℝ 1 1 := fun _ => 1
    let r := Im.eulerCalcDiff D ctl s (Im.eulerCalc D ctl s e x u) x u
    StateJac (fun y v => (Im.eulerCalc D ctl s e' y v).xnext) r.Fx r.Fu x u
    ∧ NumGrad (fun y v => s.dt * total [effort hist] y (ctl 0 *ᵥ v)) r.Lx r.Lu x u := by
  intro D s ctl r
  exact (C142_euler_partial Mb.so2_group (unit (X so2) 1) spin L hold (fun _ _ _ => Subsingleton.elim (α := Fin 1) _ _) old _ _
    (solver_ok L spin hold old) motor { damping := 1 } d [effort hist] (fun t ht => by rw [List.mem_singleton.1 ht]; trivial) ctl dt steps e e' x u hx
    (spin_ok L old x hx _) (fun t ht _ => by rw [List.mem_singleton.1 ht]; exact effort_ok hist x _)).2.2

/-- The costs of that node: three halves of the squares of the speed and the torque. -/
example (hist) (x : X so2) (w : Fin 1 → ℝ) : total [effort hist] x w = 3 / 2 * (x.v (0 : Fin 1) ^ 2 + w 0 ^ 2) := by
  have h := Activations.norm2_sq (n := 2) ![x.v (0 : Fin 1), w 0]
  have : total [effort hist] x w = 3 * (1 / 2 * Activations.norm2 (n := 2) ![x.v (0 : Fin 1), w 0] ^ 2) + 0 := rfl
  rw [this, h]
  simp [Activations.sq, Fin.sum_univ_two]
  ring

/-- C142 (the step): the same body. -/
example (L : Log) (old : X so2 → ∀ i, (hold.c i).Data 1) (x : X so2) :
    (∀ a j, Accelerated (spin.kin x 0 j) (spin.kin x a j) a)
    ∧ Fwd.Regular ((unit (X so2) 1).M x + diagonal (Fwd.inertia ({ damping := 1 } : Fwd.CMod 1).arm))
      ((hold.contacts L spin old (solver 1 hold.rows).fwd (solver 1 hold.rows).kinv).J x) 1 := by
  refine ⟨fun a j => ⟨⟨rfl, rfl, rfl, rfl⟩, ?_⟩, hold_regular _ rfl _ _⟩
  simp only [spin]
  rw [col]
  simp [Six.add]

/-- C142 (Runge-Kutta): the same body, with the midpoint rule. -/
example (L : Log) (old : X so2 → ∀ i, (hold.c i).Data 1) (d : Fwd.CDat 1 hold.rows 1) (hist) (dt : ℝ) (x : X so2) (hx : Unit2 x.q) (u : Fin 1 → ℝ) :
    let D := contactDM (P := so2) (unit (X so2) 1) (hold.contacts L spin old (solver 1 hold.rows).fwd (solver 1 hold.rows).kinv) motor
      { damping := 1 } d [effort hist]
    let ctl : Ctl ℝ 1 1 := fun _ => 1
    StateJac (Im.rkNext D ctl .two dt) (Im.rkFx D ctl .two dt x u) (Im.rkFu D ctl .two dt x u) x u := by
  intro D ctl
  exact ((C142_rk_partial Mb.so2_group (unit (X so2) 1) spin L hold (fun _ _ _ => Subsingleton.elim (α := Fin 1) _ _) old _ _
    (solver_ok L spin hold old) motor { damping := 1 } d [effort hist] ctl .two dt x u hx (fun q q' v w h => by rw [h]; exact ⟨rfl, rfl⟩)
    (fun y w hy => spin_ok L old y hy w) (fun t ht _ y w _ => by rw [List.mem_singleton.1 ht]; exact effort_ok hist y w)).2 (by decide) rfl).1

/-- The dynamics of the body. -/
noncomputable def body : Fwd.Rigid (X so2) 1 := { unit (X so2) 1 with cholInv := fun M => M⁻¹ }

theorem body_ok : Fwd.RigidOk body :=
  ⟨fun _ τ _ => by simp [body, unit], fun _ _ _ => by simp [body, unit], fun M hM => Matrix.nonsing_inv_mul M hM.unit,
    fun _ _ => by simp [body, unit]⟩

theorem body_air (x : X so2) (w : Fin 1 → ℝ) : AirOk (P := so2) body motor {} x w where
  robot c δ _ := ⟨continuousAt_const, fun a => (hasDerivAt_const (0 : ℝ) ((1 : Fwd.Mat 1 1) *ᵥ a + 0)).congr_deriv (zero_mulVec δ).symm,
    fun τ => (hasDerivAt_const (0 : ℝ) _).congr_deriv (zero_mulVec δ).symm⟩
  act := motor_jac x w
  spd := Eventually.of_forall fun _ => spd_one 1
  spdArm := Eventually.of_forall fun _ => by
    rw [diag_none, add_zero]
    exact spd_one 1

/-- C142 (no contacts): the body, free. -/
example (d : Fwd.FDat 1 1) (hist) (dt : ℝ) (steps : List ℝ) (e e' : Im.Data so2 1) (x : X so2) (hx : Unit2 x.q) (u : Fin 1 → ℝ) :
    let D := freeDM (P := so2) body motor {} d [effort hist]
    let s := stepAfter dt steps
    let ctl : Ctl ℝ 1 1 := fun _ => 1
    let r := Im.eulerCalcDiff D ctl s (Im.eulerCalc D ctl s e x u) x u
    StateJac (fun y v => (Im.eulerCalc D ctl s e' y v).xnext) r.Fx r.Fu x u := by
  intro D s ctl r
  exact (C142_euler_free Mb.so2_group body body_ok motor {} d [effort hist] (fun t ht => by rw [List.mem_singleton.1 ht]; trivial) ctl dt
    steps e e' x u hx (body_air x _) (fun t ht _ => by rw [List.mem_singleton.1 ht]; exact effort_ok hist x _)).2.2.2.1

/-- C142 (terminal nodes): the body, free. -/
example (hist) (x : X so2) : TermOkT (effort hist) x ∧ totalT [effort hist] x = 3 / 2 * x.v (0 : Fin 1) ^ 2 := by
  refine ⟨⟨fun _ => ?_, ?_, trivial, fun _ => trivial⟩, ?_⟩
  · intro (a : Fin 2)
    change HasGrad1 (fun (e : Fin 1 ⊕ Fin 1 → ℝ) => (![x.v (0 : Fin 1) + e (Sum.inr 0), 0] : Fin 2 → ℝ) a)
      (fun j => (!![0, 1; 0, 0] : Matrix (Fin 2) (Fin 2) ℝ) a (finSumFinEquiv (m := 1) (n := 1) j)) 0
    fin_cases a <;> refine Im.hasGrad1_affine 0 fun e => ?_ <;>
      simp [form_apply, finSumFinEquiv, Fin.castAdd, Fin.natAdd]
  · refine ⟨fun h => absurd h (by simp [effort]), fun _ _ (k : Fin 2) (i : Fin 2) hi => ?_, fun _ h => absurd h (by simp [effort]),
      fun h => absurd h (by simp [effort])⟩
    have hi' : i.val < 1 := hi
    obtain rfl : i = 0 := by ext; simp; omega
    fin_cases k <;> rfl
  · have h := Activations.norm2_sq (n := 2) ![x.v (0 : Fin 1), 0]
    have : totalT [effort hist] x = 3 * (1 / 2 * Activations.norm2 (n := 2) ![x.v (0 : Fin 1), 0] ^ 2) + 0 := rfl
    rw [this, h]
    simp [Activations.sq, Fin.sum_univ_two]
    ring

end NodeDemo

end Verif.Node
