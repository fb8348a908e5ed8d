import Verif.Spec.IntegratorsManifold
import Verif.Props.Integrators
import Verif.Props.StateMultibody

/-!
# C101, C102: the integrators on multibody states
-/

set_option linter.unusedSectionVars false
set_option linter.unusedSimpArgs false

namespace Verif.Im

open Matrix Verif.Deriv
open Verif.Mb (Pin)
open Verif.Integrators (Ix Ctl Step rkC rkN rkSum rkDSum stepAfter C37_step rkSum_grad)
open Verif.Controls (RKType)

variable {P : Pin} {V : (Fin P.nq → ℝ) → Prop} {Same : (Fin P.nq → ℝ) → (Fin P.nq → ℝ) → Prop}
  {Small : (Fin P.nv → ℝ) → Prop} {Reg : (Fin P.nq → ℝ) → (Fin P.nq → ℝ) → Prop} {nw nu : ℕ}

/-! ## Calculus -/

theorem hasGrad_snd {ι κ : Type*} [Fintype ι] [Fintype κ] [DecidableEq κ] (i : κ) (x : ι → ℝ) (u : κ → ℝ) :
    HasGrad (fun (_ : ι → ℝ) v => v i) 0 (fun j => if i = j then 1 else 0) x u := by
  have h : HasFDerivAt (fun p : (ι → ℝ) × (κ → ℝ) => p.2 i)
      ((ContinuousLinearMap.proj (R := ℝ) (φ := fun _ : κ => ℝ) i).comp
        (ContinuousLinearMap.snd ℝ (ι → ℝ) (κ → ℝ))) (x, u) :=
    ((ContinuousLinearMap.proj (R := ℝ) (φ := fun _ : κ => ℝ) i).comp
        (ContinuousLinearMap.snd ℝ (ι → ℝ) (κ → ℝ))).hasFDerivAt
  refine h.congr_fderiv ?_
  ext p <;> simp [form_apply]

/-- The derivative of `integrate` with respect to the increment. -/
noncomputable def J1 (x : X P) (dx : Tan P) : Matrix (Ix P.nv) (Ix P.nv) ℝ := fromBlocks (P.dInt true x.q (hd dx)) 0 0 1

/-- The derivative of `integrate` with respect to the state. -/
noncomputable def J0 (x : X P) (dx : Tan P) : Matrix (Ix P.nv) (Ix P.nv) ℝ := fromBlocks (P.dInt false x.q (hd dx)) 0 0 1

theorem tr_eq (hP : P.Group V Same Small Reg) {κ : Type*} [Fintype κ] {c : ℕ} (e : κ ≃ Fin c) {x : X P} (hx : V x.q) (dx : Tan P)
    (M : Matrix (Ix P.nv) κ ℝ) : trSecond e x dx M = J1 x dx * M := by
  ext a j
  cases a with
  | inl a =>
    simp [trSecond, J1, hP.transport _ _ _ _ _ hx, Matrix.mul_apply, Fintype.sum_sum_type, Matrix.toRows₁]
  | inr a =>
    simp [trSecond, J1, Matrix.mul_apply, Fintype.sum_sum_type, Matrix.toRows₂, Matrix.one_apply]

theorem add_eq (x : X P) (dx : Tan P) (M : Matrix (Ix P.nv) (Ix P.nv) ℝ) : addFirst x dx M = M + J0 x dx := rfl

theorem hd_add (a b : Tan P) : hd (a + b) = hd a + hd b := rfl

/-- The derivative of `integrate` with respect to both arguments. -/
theorem jac_int (hP : P.Group V Same Small Reg) {x : X P} (hx : V x.q) (dx : Tan P) :
    HasJac (fun e d => diff (int x dx) (int (int x e) (dx + d))) (J0 x dx) (J1 x dx) 0 0 := by
  intro a
  cases a with
  | inl a =>
    have h := hP.dInt x.q (hd dx) hx a
    have hY : HasJac (fun (e : Tan P) (_ : Tan P) => hd e) (fun i j => if Sum.inl i = j then 1 else 0) 0 0 0 := fun i =>
      hasGrad_fst (Sum.inl i) 0 0
    have hW : HasJac (fun (_ : Tan P) (d : Tan P) => hd d) 0 (fun i j => if Sum.inl i = j then 1 else 0) 0 0 := fun i =>
      hasGrad_snd (Sum.inl i) 0 0
    refine HasGrad.congr_grad (HasGrad.comp (Y := fun (e : Tan P) (_ : Tan P) => hd e) (W := fun (_ : Tan P) (d : Tan P) => hd d)
      h hY hW) ?_ ?_
    · funext j
      cases j with
      | inl j => simp [J0, Matrix.vecMul, dotProduct]
      | inr j => simp [J0, Matrix.vecMul, dotProduct]
    · funext j
      cases j with
      | inl j => simp [J1, Matrix.vecMul, dotProduct]
      | inr j => simp [J1, Matrix.vecMul, dotProduct]
  | inr a =>
    have h := (hasGrad_fst (κ := Ix P.nv) (Sum.inr a : Ix P.nv) 0 0).add (hasGrad_snd (ι := Ix P.nv) (Sum.inr a : Ix P.nv) 0 0)
    have e : (fun (e d : Tan P) => diff (int x dx) (int (int x e) (dx + d)) (Sum.inr a))
        = fun e d => e (Sum.inr a) + d (Sum.inr a) := by
      funext e d
      simp only [diff, int, Sum.elim_inr, Pi.add_apply]
      ring
    rw [e]
    refine HasGrad.congr_grad h ?_ ?_
    · funext j
      cases j with
      | inl j => simp [J0]
      | inr j => simp [J0, Matrix.one_apply]
    · funext j
      cases j with
      | inl j => simp [J1]
      | inr j => simp [J1, Matrix.one_apply]

/-- The chain rule for `integrate`. -/
theorem jac_step (hP : P.Group V Same Small Reg) {x : X P} (hx : V x.q) {F : Tan P → (Fin nu → ℝ) → Tan P} {u : Fin nu → ℝ}
    {A : Matrix (Ix P.nv) (Ix P.nv) ℝ} {B : Matrix (Ix P.nv) (Fin nu) ℝ} (hF : HasJac F A B 0 u) :
    HasJac (fun e v => diff (int x (F 0 u)) (int (int x e) (F e v))) (J0 x (F 0 u) + J1 x (F 0 u) * A) (J1 x (F 0 u) * B) 0 u := by
  have h := jac_int hP hx (F 0 u)
  have hW : HasJac (fun e v => F e v - F 0 u) A B 0 u := fun a => by
    have := (hF a).add (hasGrad_const (-(F 0 u a)) 0 u)
    refine HasGrad.congr_grad (f := fun e v => (F e v - F 0 u) a) ?_ (add_zero _) (add_zero _)
    simpa only [Pi.sub_apply, sub_eq_add_neg] using this
  have h' : HasJac (fun e d => diff (int x (F 0 u)) (int (int x e) (F 0 u + d))) (J0 x (F 0 u)) (J1 x (F 0 u)) 0 (F 0 u - F 0 u) := by
    rw [sub_self]; exact h
  have h2 := HasJac.comp (Y := fun e (_ : Fin nu → ℝ) => e) (W := fun e v => F e v - F 0 u) h' (hasJac_fst 0 u) hW
  have e : (fun e v => diff (int x (F 0 u)) (int (int x e) (F e v)))
      = fun (e : Tan P) (v : Fin nu → ℝ) => diff (int x (F 0 u)) (int (int x e) (F 0 u + (F e v - F 0 u))) := by
    funext e v
    rw [add_sub_cancel]
  rw [e]
  simpa using h2

theorem int_zero (hP : P.Group V Same Small Reg) {x : X P} (hx : V x.q) : int x 0 = x := by
  have := hP.int_zero x.q hx
  ext i
  · exact congrFun this i
  · simp [int]

theorem diff_self (hP : P.Group V Same Small Reg) {x : X P} (hx : V x.q) : diff x x = 0 := by
  have h := hP.diff_int x.q 0 hx hP.small.self_of_nhds
  rw [hP.int_zero x.q hx] at h
  funext i
  cases i with
  | inl i => exact congrFun h i
  | inr i => simp [diff]

/-- The chain rule for a number that does not distinguish configurations of the same placement. -/
theorem grad_chain (hP : P.Group V Same Small Reg) {G : X P → (Fin nw → ℝ) → ℝ}
    (hG : ∀ q q' v w, Same q q' → G ⟨q, v⟩ w = G ⟨q', v⟩ w) {Y : Tan P → (Fin nu → ℝ) → X P} (hV : ∀ e v, V (Y e v).q)
    {u : Fin nu → ℝ} {M : Matrix (Fin nw) (Fin nu) ℝ} {gx : Ix P.nv → ℝ} {gw : Fin nw → ℝ}
    (h : NumGrad G gx gw (Y 0 u) (M *ᵥ u)) {A : Matrix (Ix P.nv) (Ix P.nv) ℝ} {B : Matrix (Ix P.nv) (Fin nu) ℝ}
    (hY : HasJac (fun e v => diff (Y 0 u) (Y e v)) A B 0 u) :
    HasGrad (fun e v => G (Y e v) (M *ᵥ v)) (gx ᵥ* A) (gx ᵥ* B + gw ᵥ* M) 0 u := by
  have h' : HasGrad (fun e w => G (int (Y 0 u) e) w) gx gw (diff (Y 0 u) (Y 0 u)) (M *ᵥ u) := by
    rw [diff_self hP (hV 0 u)]; exact h
  have h2 := HasGrad.comp (Y := fun e v => diff (Y 0 u) (Y e v)) (W := fun _ v => M *ᵥ v) h' hY (hasJac_mulVec_snd M 0 u)
  have e : (fun e v => G (Y e v) (M *ᵥ v)) = fun e v => G (int (Y 0 u) (diff (Y 0 u) (Y e v))) (M *ᵥ v) := by
    funext e v
    have hs := hP.int_diff (Y 0 u).q (Y e v).q (hV 0 u) (hV e v)
    have := hG _ _ (Y e v).v (M *ᵥ v) hs
    refine this.symm.trans ?_
    congr 1
    ext i
    · rfl
    · simp [int, diff]
  rw [e]
  simpa using h2

theorem int_valid (hP : P.Group V Same Small Reg) {x : X P} (hx : V x.q) (e : Tan P) : V (int x e).q := hP.closed _ _ hx

/-- The increment of a state in the velocity. -/
theorem int_v (x : X P) (e : Tan P) (i : Fin P.nv) : (int x e).v i = x.v i + e (Sum.inr i) := rfl

/-! ## C101 -/

theorem pos_lt {n : ℕ} (i : Ix n) : pos i < 2 * n := by
  cases i <;> simp only [pos] <;> omega

/-- **C101 (the state).** The operations of the state on vectors and buffers of the right sizes are the operations on states,
tangent vectors and matrices used by the integrators. -/
theorem C101_state (hP : P.Group V Same Small Reg) (big : ℝ) (hist : List Mb.LimCall) (x y dx : Dense.DVec ℝ)
    (hx : Mb.Valid P V x) (hy : y.size = P.nq + P.nv) (hd' : dx.size = 2 * P.nv) (J U : Dense.DMat ℝ)
    (hJ : Mb.Square (2 * P.nv) J) (hU : U.rows = 2 * P.nv) :
    let s := Mb.after P big hist
    decX P (s.integrateX x dx).2 = int (decX P x) (decT P dx)
    ∧ decT P (s.diffDx x y).2 = diff (decX P x) (decX P y)
    ∧ (∃ K, s.Jintegrate x dx J J .first .addto = some (.ok, K, J) ∧ decM P K = addFirst (decX P x) (decT P dx) (decM P J))
    ∧ (∃ K, s.JintegrateTransport x dx J .second = some (.ok, K)
      ∧ decM P K = trSecond finSumFinEquiv (decX P x) (decT P dx) (decM P J))
    ∧ ∃ K, s.JintegrateTransport x dx U .second = some (.ok, K)
      ∧ decU P U.cols K = trSecond (Equiv.refl _) (decX P x) (decT P dx) (decU P U.cols U) := by
  intro s
  have hb : Mb.Built s P := Mb.built_after P big hist
  have hs : ¬ s.short x dx := by
    rw [Mb.St.short, hb.nq, hb.nv, hx.1, hd']
    omega
  have hT : hd (decT P dx) = Mb.vec P.nv dx := rfl
  have key : ∀ (M : Dense.DMat ℝ) (i : Ix P.nv) (j : Fin M.cols), (Mb.St.JintegrateTransport.tr s x dx M true).e (pos i) j
      = ∑ k : Ix P.nv, J1 (decX P x) (decT P dx) i k * M.e (pos k) j := by
    intro M i j
    rw [Mb.tr_eq hb, hP.transport _ _ _ _ _ hx.2, Fintype.sum_sum_type]
    simp only [Dense.DMat.opRows, hb.nv]
    cases i with
    | inl i =>
      rw [if_pos ⟨Nat.zero_le _, by simp [pos]⟩]
      simp [Dense.AssignOp.apply, Mb.ent2, pos, J1, Matrix.mul_apply, Mb.topRows, hT]
      rfl
    | inr i =>
      rw [if_neg (by simp [pos])]
      simp [J1, pos, Matrix.one_apply]
  refine ⟨?_, ?_, ?_, ?_, ?_⟩
  · obtain ⟨-, -, h3, h4⟩ := Mb.int_ok (o := ⟨s.nx, fun _ => 0⟩) hb hx.1 hd' hb.nx
    refine X.ext h3 ?_
    funext i
    exact h4 i i.2
  · obtain ⟨-, -, h3, h4⟩ := Mb.diff_ok (o := ⟨s.ndx, fun _ => 0⟩) hb hx.1 hy hb.ndx
    funext i
    cases i with
    | inl i => exact h3 i i.2
    | inr i => exact h4 i i.2
  · have hw : ¬ s.wrong J := by
      simp [Mb.St.wrong, hb.ndx, hJ.1, hJ.2]
    refine ⟨s.ji false .addto x dx J, ?_, ?_⟩
    · simp [Mb.St.Jintegrate, hw, hs]
    · rw [Mb.ji_eq hb]
      ext i j
      simp only [decM, addFirst, Mb.cornerDiag, Mb.corner, hb.nv, hJ.1, Dense.AssignOp.apply, Matrix.add_apply]
      cases i with
      | inl i =>
        have h1 : ¬ (2 * P.nv - P.nv ≤ pos (Sum.inl i : Ix P.nv)) := by simp only [pos]; omega
        cases j with
        | inl j => simp [pos, h1, Mb.ent2, show ¬ (2 * P.nv - P.nv ≤ i.1) by omega]; rfl
        | inr j => simp [pos, h1, Mb.ent2, show ¬ (2 * P.nv - P.nv ≤ i.1) by omega]
      | inr i =>
        cases j with
        | inl j =>
          have : P.nv + i.1 ≠ j.1 := by omega
          simp [pos, this]
        | inr j =>
          by_cases hij : i = j
          · subst hij
            simp [pos, show 2 * P.nv - P.nv ≤ P.nv + i.1 by omega, show P.nv + i.1 < 2 * P.nv by omega]
          · have : i.1 ≠ j.1 := fun h => hij (Fin.ext h)
            simp [pos, this, hij, Matrix.one_apply]
  · have h1 : ¬ (s.short x dx ∨ J.rows < s.nv) := by rw [hb.nv, hJ.1]; simp only [hs, false_or]; omega
    refine ⟨_, by simp only [Mb.St.JintegrateTransport]; rw [if_neg h1], ?_⟩
    rw [tr_eq hP _ (x := decX P x) hx.2]
    ext i j
    have hj : pos j < J.cols := by rw [hJ.2]; exact pos_lt j
    exact key J i ⟨pos j, hj⟩
  · have h1 : ¬ (s.short x dx ∨ U.rows < s.nv) := by rw [hb.nv, hU]; simp only [hs, false_or]; omega
    refine ⟨_, by simp only [Mb.St.JintegrateTransport]; rw [if_neg h1], ?_⟩
    rw [tr_eq hP _ (x := decX P x) hx.2]
    ext i j
    exact key U i j

/-- **C101.** `calc(x, u)` sets the next velocity to `v + dt a` and the next configuration to that reached from the current one
with the next velocity in the time `dt`; the cost is `dt` times the running cost. -/
theorem C101_euler (dt : ℝ) (hist : List ℝ) (D : DM P nw) (C : Ctl ℝ nw nu) (d : Data P nu) (x : X P) (u : Fin nu → ℝ) :
    let s := stepAfter dt hist
    let r := eulerCalc D C s d x u
    let a := D.xout x (C 0 *ᵥ u)
    (∀ i, r.xnext.v i = x.v i + s.dt * a i) ∧ r.xnext.q = P.integrate x.q (fun i => s.dt * r.xnext.v i)
      ∧ r.cost = s.dt * D.cost x (C 0 *ᵥ u) := by
  intro s r a
  have hs : s.dt2 = s.dt ^ 2 := (C37_step dt hist).1
  have h1 : ∀ i, r.xnext.v i = x.v i + s.dt * a i := fun i => by
    simp only [r, eulerCalc, int, Sum.elim_inr, a]; ring
  refine ⟨h1, ?_, rfl⟩
  have : (fun i => s.dt * r.xnext.v i) = fun i => x.v i * s.dt + a i * s.dt2 := by
    funext i
    rw [h1, hs]; ring
  rw [this]
  rfl

private theorem euler_dx (dt : ℝ) (hist : List ℝ) (D : DM P nw) (C : Ctl ℝ nw nu) (x : X P) (u : Fin nu → ℝ)
    (hP : P.Group V Same Small Reg) (hx : V x.q) (hD : Exact D x (C 0 *ᵥ u)) (d : Data P nu) :
    let s := stepAfter dt hist
    HasJac (fun e v => (eulerCalc D C s d (int x e) v).dx) (eulerFx s (D.Fx x (C 0 *ᵥ u)))
      (eulerFu s (D.Fu x (C 0 *ᵥ u) * C 0)) 0 u := by
  intro s
  have ha := HasJac.comp (Y := fun e (_ : Fin nu → ℝ) => e) (W := fun _ v => C 0 *ᵥ v) hD.xout (hasJac_fst 0 u)
    (hasJac_mulVec_snd (C 0) 0 u)
  have hv : ∀ i, HasGrad (fun (e : Tan P) (_ : Fin nu → ℝ) => (int x e).v i) (fun j => if Sum.inr i = j then 1 else 0) 0 0 u := by
    intro i
    have := (hasGrad_fst (Sum.inr i : Ix P.nv) 0 u).add (hasGrad_const (x.v i) 0 u)
    refine HasGrad.congr_grad ?_ (add_zero _) (add_zero _)
    simpa only [int_v, add_comm] using this
  intro a
  cases a with
  | inl i =>
    refine HasGrad.congr_grad (((hv i).mul_const s.dt).add ((ha i).mul_const s.dt2)) ?_ ?_
    · funext j
      simp [eulerFx, eq_comm]
      ring
    · funext j
      simp [eulerFu]
  | inr i =>
    refine HasGrad.congr_grad ((ha i).mul_const s.dt) ?_ ?_
    · funext j
      simp [eulerFx]
      ring
    · funext j
      simp [eulerFu]

/-- **C101.** If the derivatives of the differential model are exact, then after `calc(x, u)` and `calcDiff(x, u)` `Fx` and `Fu`
are the derivatives on the manifold of the next state and `Lx`, `Lu` those of the cost, for every valid configuration. -/
theorem C101_jacobians (hP : P.Group V Same Small Reg) (dt : ℝ) (hist : List ℝ) (D : DM P nw) (C : Ctl ℝ nw nu) (d d' : Data P nu)
    (x : X P) (u : Fin nu → ℝ) (hx : V x.q) (hD : Exact D x (C 0 *ᵥ u)) :
    let s := stepAfter dt hist
    let r := eulerCalcDiff D C s (eulerCalc D C s d x u) x u
    StateJac (fun y v => (eulerCalc D C s d' y v).xnext) r.Fx r.Fu x u
      ∧ NumGrad (fun y v => (eulerCalc D C s d' y v).cost) r.Lx r.Lu x u := by
  intro s r
  constructor
  · have h := jac_step hP hx (euler_dx dt hist D C x u hP hx hD d')
    have e1 : (eulerCalc D C s d' (int x 0) u).dx = (eulerCalc D C s d x u).dx := by
      rw [int_zero hP hx]; rfl
    change HasJac _ _ _ 0 u at h
    have hFx : r.Fx = J0 x (eulerCalc D C s d x u).dx + J1 x (eulerCalc D C s d x u).dx * eulerFx s (D.Fx x (C 0 *ᵥ u)) := by
      simp only [r, eulerCalcDiff, add_eq, tr_eq hP _ hx]
      exact add_comm _ _
    have hFu : r.Fu = J1 x (eulerCalc D C s d x u).dx * eulerFu s (D.Fu x (C 0 *ᵥ u) * C 0) := by
      simp only [r, eulerCalcDiff, tr_eq hP _ hx]
    rw [hFx, hFu, StateJac]
    simp only [s] at e1 ⊢
    rw [e1] at h
    exact h
  · have hc := HasGrad.comp (Y := fun e (_ : Fin nu → ℝ) => e) (W := fun _ v => C 0 *ᵥ v) hD.cost (hasJac_fst 0 u)
      (hasJac_mulVec_snd (C 0) 0 u)
    refine HasGrad.congr_grad (hc.const_mul s.dt) ?_ ?_
    · simp [r, eulerCalcDiff]
    · simp [r, eulerCalcDiff, Matrix.mulVec_transpose]

theorem dInt1_zero (hP : P.Group V Same Small Reg) {q : Fin P.nq → ℝ} (hq : V q) : P.dInt true q 0 = 1 := by
  have h := hP.dInt1 q 0 hq
  ext a j
  have h2 : HasGrad1 (fun w : Fin P.nv → ℝ => w a) ((1 : Matrix (Fin P.nv) (Fin P.nv) ℝ) a) 0 := by
    have := Mb.hasGrad_left (hasGrad_fst (κ := Fin 0) a 0 0)
    refine HasFDerivAt.congr_fderiv this ?_
    congr 1
  have h3 : HasGrad1 (fun w : Fin P.nv → ℝ => P.difference (P.integrate q 0) (P.integrate q (0 + w)) a)
      ((1 : Matrix (Fin P.nv) (Fin P.nv) ℝ) a) 0 := by
    refine HasFDerivAt.congr_of_eventuallyEq h2 ?_
    filter_upwards [hP.small] with w hw
    rw [hP.int_zero q hq, zero_add, hP.diff_int q w hq hw]
  have e := HasFDerivAt.unique (h a) h3
  have := congrArg (fun L => L (Pi.single j 1)) e
  simpa [form_apply, Pi.single_apply] using this

theorem hd_zero : hd (0 : Tan P) = 0 := rfl

/-- **C101 (terminal nodes, partial).** After `calc(x)` and `calcDiff(x)` the next state is the state, `Lx` is the gradient of the
differential model, and `Fx` is the derivative of the next state exactly if the entries of `Fx` that are not written, those outside
the upper left corner and the diagonal, are zero before, as they are in new data. Missing: data on which `calcDiff(x, u)` has been
called (`C101_terminal_counterexample`). -/
theorem C101_terminal_partial (hP : P.Group V Same Small Reg) (D : DM P nw) (d d' : Data P nu) (x : X P) (u : Fin nu → ℝ)
    (hx : V x.q) :
    let r := eulerCalcDiffT D (eulerCalcT D d x) x
    r.xnext = x ∧ r.Lx = D.LxT x ∧
    (StateJac (fun y (_ : Fin nu → ℝ) => (eulerCalcT D d' y).xnext) r.Fx 0 x u ↔
      ∀ i j, i ≠ j → (∃ k, i = Sum.inr k ∨ j = Sum.inr k) → d.Fx i j = 0) := by
  intro r
  refine ⟨rfl, rfl, ?_⟩
  have hI : StateJac (fun y (_ : Fin nu → ℝ) => (eulerCalcT D d' y).xnext) 1 0 x u := by
    intro a
    have hs : ∀ᶠ p : Tan P × (Fin nu → ℝ) in nhds (0, u), Small (hd p.1) := by
      have hc : Continuous fun p : Tan P × (Fin nu → ℝ) => hd p.1 :=
        continuous_pi fun i => (continuous_apply (Sum.inl i)).comp continuous_fst
      exact hc.continuousAt.eventually (by simpa [hd_zero] using hP.small)
    refine HasFDerivAt.congr_of_eventuallyEq (hasJac_fst 0 u a) ?_
    filter_upwards [hs] with p hp
    change diff x (int x p.1) a = p.1 a
    cases a with
    | inl a => exact congrFun (hP.diff_int x.q (hd p.1) hx hp) a
    | inr a => simp [diff, int]
  have e : (StateJac (fun y (_ : Fin nu → ℝ) => (eulerCalcT D d' y).xnext) r.Fx 0 x u) ↔ r.Fx = 1 :=
    ⟨fun h => (HasJac.unique h hI).1, fun h => by rw [h]; exact hI⟩
  have hr : r.Fx = setBoth x 0 d.Fx := rfl
  have hz : P.dInt true x.q (hd 0) = 1 := dInt1_zero hP hx
  rw [e, hr]
  constructor
  · rintro h i j hij ⟨k, hk⟩
    have := congrFun (congrFun h i) j
    rw [Matrix.one_apply_ne hij] at this
    rw [← this]
    cases i <;> cases j <;> simp_all [setBoth]
  · intro h
    ext i j
    cases i with
    | inl i =>
      cases j with
      | inl j => simp [setBoth, hz, Matrix.one_apply]
      | inr j => simpa [setBoth] using h (Sum.inl i) (Sum.inr j) (by simp) ⟨j, Or.inr rfl⟩
    | inr i =>
      cases j with
      | inl j => simpa [setBoth] using h (Sum.inr i) (Sum.inl j) (by simp) ⟨i, Or.inl rfl⟩
      | inr j =>
        by_cases hij : i = j
        · subst hij
          simp [setBoth]
        · simpa [setBoth, hij, Matrix.one_apply] using h (Sum.inr i) (Sum.inr j) (by simpa using hij) ⟨i, Or.inl rfl⟩

/-! ## C102 -/

/-- The loop of `calcDiff` without the shortcut. -/
noncomputable def trueDStage (D : DM P nw) (C : Ctl ℝ nw nu) (ty : RKType) (dt : ℝ) (x : X P) (u : Fin nu → ℝ) : ℕ → DStage P nu
  | 0 => rkDStage D C ty dt x u 0
  | i + 1 =>
    let p := trueDStage D C ty dt x u i
    let s := rkStage D C ty dt x u (i + 1)
    let J := C (rkC ty (i + 1))
    let yx := J0 x s.dx + J1 x s.dx * ((rkC ty (i + 1) * dt) • p.kx)
    let yu := J1 x s.dx * ((rkC ty (i + 1) * dt) • p.ku)
    let Fq := (D.Fx s.y s.w).submatrix id Sum.inl
    let Fv := (D.Fx s.y s.w).submatrix id Sum.inr
    { yx := yx
      yu := yu
      kx := fromBlocks yx.toBlocks₂₁ yx.toBlocks₂₂ (Fq * yx.toBlocks₁₁ + Fv * yx.toBlocks₂₁)
        (Fq * yx.toBlocks₁₂ + Fv * yx.toBlocks₂₂)
      ku := fromRows yu.toRows₂ (Fq * yu.toRows₁ + Fv * yu.toRows₂ + D.Fu s.y s.w * J)
      lx := D.Lx s.y s.w ᵥ* yx
      lu := Jᵀ *ᵥ D.Lu s.y s.w + D.Lx s.y s.w ᵥ* yu }

theorem stage_valid (hP : P.Group V Same Small Reg) (D : DM P nw) (C : Ctl ℝ nw nu) (ty : RKType) (dt : ℝ) {x : X P}
    (u : Fin nu → ℝ) (hx : V x.q) (i : ℕ) : V (rkStage D C ty dt x u i).y.q := by
  cases i with
  | zero => exact hx
  | succ i => exact int_valid hP hx _

theorem grad_v (x : X P) (u : Fin nu → ℝ) (i : Fin P.nv) :
    HasGrad (fun (e : Tan P) (_ : Fin nu → ℝ) => (int x e).v i) (fun j => if Sum.inr i = j then 1 else 0) 0 0 u := by
  have := (hasGrad_fst (Sum.inr i : Ix P.nv) 0 u).add (hasGrad_const (x.v i) 0 u)
  refine HasGrad.congr_grad ?_ (add_zero _) (add_zero _)
  simpa only [int_v, add_comm] using this

/-- The loop without the shortcut computes the derivatives of the stages. -/
theorem true_jac (hP : P.Group V Same Small Reg) (D : DM P nw) (hS : Respects Same D) (C : Ctl ℝ nw nu) (ty : RKType) (dt : ℝ)
    {x : X P} (u : Fin nu → ℝ) (hx : V x.q) (m : ℕ)
    (hD : ∀ i ≤ m, Exact D (rkStage D C ty dt x u i).y (rkStage D C ty dt x u i).w) : ∀ i ≤ m,
    HasJac (fun e v => (rkStage D C ty dt (int x e) v i).k) (trueDStage D C ty dt x u i).kx (trueDStage D C ty dt x u i).ku 0 u ∧
    HasGrad (fun e v => (rkStage D C ty dt (int x e) v i).l) (trueDStage D C ty dt x u i).lx (trueDStage D C ty dt x u i).lu 0 u := by
  intro i hi
  induction i with
  | zero =>
    have hE := hD 0 hi
    have ha := HasJac.comp (Y := fun e (_ : Fin nu → ℝ) => e) (W := fun _ v => C (rkC ty 0) *ᵥ v) hE.xout (hasJac_fst 0 u)
      (hasJac_mulVec_snd (C (rkC ty 0)) 0 u)
    have hc := HasGrad.comp (Y := fun e (_ : Fin nu → ℝ) => e) (W := fun _ v => C (rkC ty 0) *ᵥ v) hE.cost (hasJac_fst 0 u)
      (hasJac_mulVec_snd (C (rkC ty 0)) 0 u)
    refine ⟨fun a => ?_, ?_⟩
    · cases a with
      | inl a =>
        refine HasGrad.congr_grad (grad_v x u a) ?_ ?_
        · funext j
          cases j with
          | inl j => simp [trueDStage, rkDStage]
          | inr j => simp [trueDStage, rkDStage, Matrix.one_apply]
        · funext j; simp [trueDStage, rkDStage]
      | inr a =>
        refine HasGrad.congr_grad (ha a) ?_ ?_
        · funext j
          cases j with
          | inl j => simp [trueDStage, rkDStage]
          | inr j => simp [trueDStage, rkDStage]
        · funext j; simp [trueDStage, rkDStage]
    · refine HasGrad.congr_grad hc ?_ ?_
      · simp [trueDStage, rkDStage]
      · simp [trueDStage, rkDStage, Matrix.mulVec_transpose]
  | succ i ih =>
    have hp := (ih (by omega)).1
    let F : Tan P → (Fin nu → ℝ) → Tan P := fun e v j => dt * rkC ty (i + 1) * (rkStage D C ty dt (int x e) v i).k j
    have hF : HasJac F ((rkC ty (i + 1) * dt) • (trueDStage D C ty dt x u i).kx)
        ((rkC ty (i + 1) * dt) • (trueDStage D C ty dt x u i).ku) 0 u := fun a => by
      refine HasGrad.congr_grad ((hp a).const_mul (dt * rkC ty (i + 1))) ?_ ?_
      · funext j
        simp only [Pi.smul_apply, Matrix.smul_apply, smul_eq_mul]
        ring
      · funext j
        simp only [Pi.smul_apply, Matrix.smul_apply, smul_eq_mul]
        ring
    have hF0 : F 0 u = (rkStage D C ty dt x u (i + 1)).dx := by
      simp only [F, int_zero hP hx]; rfl
    have hy := jac_step hP hx hF
    rw [hF0] at hy
    change HasJac (fun e v => diff (int x (rkStage D C ty dt x u (i + 1)).dx) (rkStage D C ty dt (int x e) v (i + 1)).y)
      (trueDStage D C ty dt x u (i + 1)).yx (trueDStage D C ty dt x u (i + 1)).yu 0 u at hy
    have hY0 : (fun e v => (rkStage D C ty dt (int x e) v (i + 1)).y) 0 u = int x (rkStage D C ty dt x u (i + 1)).dx := by
      change (rkStage D C ty dt (int x 0) u (i + 1)).y = _
      rw [int_zero hP hx]; rfl
    have hE := hD (i + 1) hi
    have hV : ∀ e v, V (rkStage D C ty dt (int x e) v (i + 1)).y.q := fun e v =>
      stage_valid hP D C ty dt v (int_valid hP hx e) (i + 1)
    have hE' : Exact D ((fun e v => (rkStage D C ty dt (int x e) v (i + 1)).y) 0 u) (C (rkC ty (i + 1)) *ᵥ u) := by
      rw [hY0]; exact hE
    have hy' : HasJac (fun e v => diff ((fun e v => (rkStage D C ty dt (int x e) v (i + 1)).y) 0 u)
        (rkStage D C ty dt (int x e) v (i + 1)).y)
        (trueDStage D C ty dt x u (i + 1)).yx (trueDStage D C ty dt x u (i + 1)).yu 0 u := by
      rw [hY0]; exact hy
    have ha : ∀ a, HasGrad (fun e v => D.xout (rkStage D C ty dt (int x e) v (i + 1)).y (C (rkC ty (i + 1)) *ᵥ v) a) _ _ 0 u :=
      fun a => grad_chain hP (G := fun y w => D.xout y w a) (fun q q' v w h => congrFun (hS q q' v w h).1 a) hV
        (hE'.xout a) hy'
    have hc := grad_chain hP (G := D.cost) (fun q q' v w h => (hS q q' v w h).2) hV hE'.cost hy'
    rw [hY0] at hc
    refine ⟨fun a => ?_, ?_⟩
    · cases a with
      | inl a =>
        have h := (hy (Sum.inr a)).add (hasGrad_const ((int x (rkStage D C ty dt x u (i + 1)).dx).v a) 0 u)
        have e : (fun (e : Tan P) (v : Fin nu → ℝ) => (rkStage D C ty dt (int x e) v (i + 1)).k (Sum.inl a))
            = fun e v => diff (int x (rkStage D C ty dt x u (i + 1)).dx) (rkStage D C ty dt (int x e) v (i + 1)).y (Sum.inr a)
              + (int x (rkStage D C ty dt x u (i + 1)).dx).v a := by
          funext e v
          simp [diff, rkStage]
        rw [e]
        refine HasGrad.congr_grad h ?_ ?_
        · funext j
          cases j with
          | inl j => simp [trueDStage, Matrix.toBlocks₂₁]
          | inr j => simp [trueDStage, Matrix.toBlocks₂₂]
        · funext j; simp [trueDStage, Matrix.toRows₂]
      | inr a =>
        refine HasGrad.congr_grad (ha a) ?_ ?_
        · rw [show (trueDStage D C ty dt x u (i + 1)).kx (Sum.inr a)
            = (D.Fx (rkStage D C ty dt x u (i + 1)).y (rkStage D C ty dt x u (i + 1)).w
              * (trueDStage D C ty dt x u (i + 1)).yx) a from Integrators.rows_mul_blocks _ _ a]
          rw [hY0]
          rfl
        · rw [show (trueDStage D C ty dt x u (i + 1)).ku (Sum.inr a)
            = (D.Fx (rkStage D C ty dt x u (i + 1)).y (rkStage D C ty dt x u (i + 1)).w
              * (trueDStage D C ty dt x u (i + 1)).yu
              + D.Fu (rkStage D C ty dt x u (i + 1)).y (rkStage D C ty dt x u (i + 1)).w
                * C (rkC ty (i + 1))) a from Integrators.rows_mul_rows _ _ _ a]
          rw [hY0]
          rfl
    · refine HasGrad.congr_grad hc rfl ?_
      simp [trueDStage, Matrix.mulVec_transpose]
      rw [add_comm]
      rfl

/-- What the shortcut should not change: at the second stage, `dt/2` times the derivative of the accelerations with respect to the
configuration is its product with the derivative of the configuration with respect to the velocity. -/
def Harmless (D : DM P nw) (C : Ctl ℝ nw nu) (ty : RKType) (dt : ℝ) (x : X P) (u : Fin nu → ℝ) : Prop :=
  let s := rkStage D C ty dt x u 1
  (dt / 2) • (D.Fx s.y s.w).submatrix id Sum.inl
    = (rkC ty 1 * dt) • ((D.Fx s.y s.w).submatrix id Sum.inl * P.dInt true x.q (hd s.dx))

theorem yx1 (D : DM P nw) (C : Ctl ℝ nw nu) (ty : RKType) (dt : ℝ) (x : X P) (u : Fin nu → ℝ) :
    (trueDStage D C ty dt x u 1).yx.toBlocks₁₂ = (rkC ty 1 * dt) • P.dInt true x.q (hd (rkStage D C ty dt x u 1).dx) := by
  ext a b
  simp [trueDStage, rkDStage, J0, J1, Matrix.toBlocks₁₂, Matrix.mul_apply, Fintype.sum_sum_type, Matrix.one_apply]

/-- The derivatives with respect to the control do not use the shortcut. -/
theorem true_u (hP : P.Group V Same Small Reg) (D : DM P nw) (C : Ctl ℝ nw nu) (ty : RKType) (dt : ℝ) {x : X P} (u : Fin nu → ℝ)
    (hx : V x.q) (i : ℕ) : (trueDStage D C ty dt x u i).yu = (rkDStage D C ty dt x u i).yu
      ∧ (trueDStage D C ty dt x u i).ku = (rkDStage D C ty dt x u i).ku
      ∧ (trueDStage D C ty dt x u i).lu = (rkDStage D C ty dt x u i).lu := by
  induction i with
  | zero => exact ⟨rfl, rfl, rfl⟩
  | succ i ih =>
    simp only [trueDStage, rkDStage, tr_eq hP _ hx, ih.2.1, and_self]

theorem true_eq (hP : P.Group V Same Small Reg) (D : DM P nw) (C : Ctl ℝ nw nu) (ty : RKType) (dt : ℝ) {x : X P} (u : Fin nu → ℝ)
    (hx : V x.q) (h : Harmless D C ty dt x u) (i : ℕ) : trueDStage D C ty dt x u i = rkDStage D C ty dt x u i := by
  induction i with
  | zero => rfl
  | succ i ih =>
    have key : (if i + 1 = 1 then (dt / 2) • (D.Fx (rkStage D C ty dt x u (i + 1)).y (rkStage D C ty dt x u (i + 1)).w).submatrix id Sum.inl
        else (D.Fx (rkStage D C ty dt x u (i + 1)).y (rkStage D C ty dt x u (i + 1)).w).submatrix id Sum.inl
          * (trueDStage D C ty dt x u (i + 1)).yx.toBlocks₁₂)
        = (D.Fx (rkStage D C ty dt x u (i + 1)).y (rkStage D C ty dt x u (i + 1)).w).submatrix id Sum.inl
          * (trueDStage D C ty dt x u (i + 1)).yx.toBlocks₁₂ := by
      cases i with
      | zero =>
        rw [if_pos rfl, Nat.zero_add, yx1, Matrix.mul_smul]
        exact h
      | succ i => rw [if_neg (by omega)]
    have e : (trueDStage D C ty dt x u (i + 1)).yx = J0 x (rkStage D C ty dt x u (i + 1)).dx
        + J1 x (rkStage D C ty dt x u (i + 1)).dx * ((rkC ty (i + 1) * dt) • (rkDStage D C ty dt x u i).kx) := by
      rw [← ih]; rfl
    rw [e] at key
    simp only [rkDStage, tr_eq hP _ hx, add_eq, add_comm _ (J0 x _), key]
    simp only [trueDStage, ih]

theorem true_total (hP : P.Group V Same Small Reg) (D : DM P nw) (hS : Respects Same D) (C : Ctl ℝ nw nu) (ty : RKType) (dt : ℝ)
    {x : X P} (u : Fin nu → ℝ) (hx : V x.q) (hD : ExactAtStages D C ty dt x u) :
    StateJac (rkNext D C ty dt)
      (J0 x (rkDx D C ty dt x u) + J1 x (rkDx D C ty dt x u) * Matrix.of (fun a b => rkDSum ty dt (fun i => (trueDStage D C ty dt x u i).kx a b)))
      (rkFu D C ty dt x u) x u ∧
    NumGrad (rkCost D C ty dt) (fun b => rkDSum ty dt (fun i => (trueDStage D C ty dt x u i).lx b)) (rkLu D C ty dt x u) x u := by
  have hn : 0 < rkN ty := by cases ty <;> decide
  have h := true_jac hP D hS C ty dt u hx (rkN ty - 1) (fun i hi => hD i (by omega))
  constructor
  · have hF : HasJac (fun e v => rkDx D C ty dt (int x e) v)
        (fun a b => rkDSum ty dt (fun i => (trueDStage D C ty dt x u i).kx a b))
        (fun a b => rkDSum ty dt (fun i => (trueDStage D C ty dt x u i).ku a b)) 0 u := fun a =>
      rkSum_grad ty dt (fun i e v => (rkStage D C ty dt (int x e) v i).k a)
        (fun i => (trueDStage D C ty dt x u i).kx a) (fun i => (trueDStage D C ty dt x u i).ku a) 0 u
        (fun i hi => (h i (by omega)).1 a)
    have hs := jac_step hP hx hF
    simp only [int_zero hP hx] at hs
    have e : rkFu D C ty dt x u
        = J1 x (rkDx D C ty dt x u) * Matrix.of (fun a b => rkDSum ty dt (fun i => (trueDStage D C ty dt x u i).ku a b)) := by
      rw [rkFu, tr_eq hP _ hx]
      simp only [(true_u hP D C ty dt u hx _).2.1]
    rw [e]
    exact hs
  · refine HasGrad.congr_grad (rkSum_grad ty dt (fun i e v => (rkStage D C ty dt (int x e) v i).l)
      (fun i => (trueDStage D C ty dt x u i).lx) (fun i => (trueDStage D C ty dt x u i).lu) 0 u
      (fun i hi => (h i (by omega)).2)) rfl ?_
    funext j
    simp [rkLu, (true_u hP D C ty dt u hx _).2.2]

/-- **C102 (the schemes).** The midpoint rule, Heun's scheme of order three and the classical scheme of order four, every stage
being reached from the state at the beginning of the step; the cost is the same quadrature of the running cost. -/
theorem C102_scheme (D : DM P nw) (C : Ctl ℝ nw nu) (dt : ℝ) (x : X P) (u : Fin nu → ℝ) :
    let k := slope D C u
    let l := running D C u
    (let y2 := int x ((dt / 2) • k x 0);
      rkNext D C .two dt x u = int x (dt • k y2 (1 / 2)) ∧ rkCost D C .two dt x u = dt * l y2 (1 / 2))
    ∧ (let y2 := int x ((dt / 3) • k x 0);
      let y3 := int x ((2 * dt / 3) • k y2 (1 / 3));
      rkNext D C .three dt x u = int x ((dt / 4) • (k x 0 + (3 : ℝ) • k y3 (2 / 3)))
      ∧ rkCost D C .three dt x u = dt / 4 * (l x 0 + 3 * l y3 (2 / 3)))
    ∧ (let y2 := int x ((dt / 2) • k x 0);
      let y3 := int x ((dt / 2) • k y2 (1 / 2));
      let y4 := int x (dt • k y3 (1 / 2));
      rkNext D C .four dt x u = int x ((dt / 6) • (k x 0 + (2 : ℝ) • k y2 (1 / 2) + (2 : ℝ) • k y3 (1 / 2) + k y4 1))
      ∧ rkCost D C .four dt x u = dt / 6 * (l x 0 + 2 * l y2 (1 / 2) + 2 * l y3 (1 / 2) + l y4 1)) := by
  intro k l
  have z : ∀ ty, (rkStage D C ty dt x u 0).k = k x 0 ∧ (rkStage D C ty dt x u 0).l = l x 0 := by
    intro ty; cases ty <;> simp [rkStage, rkC, k, l, slope, running]
  have st : ∀ ty i (c : ℝ) (K : Tan P), (rkStage D C ty dt x u i).k = K → rkC ty (i + 1) = c →
      (rkStage D C ty dt x u (i + 1)).k = k (int x ((c * dt) • K)) c
      ∧ (rkStage D C ty dt x u (i + 1)).l = l (int x ((c * dt) • K)) c := by
    intro ty i c K hK hc
    have e : (fun j => dt * c * K j) = (c * dt) • K := by
      funext j; simp only [Pi.smul_apply, smul_eq_mul]; ring
    simp only [rkStage, hK, hc, e, k, l, slope, running, and_self]
  refine ⟨?_, ?_, ?_⟩
  · intro y2
    have h1 := st .two 0 (1 / 2) _ (z .two).1 (by simp [rkC])
    rw [show 1 / 2 * dt = dt / 2 by ring] at h1
    constructor
    · unfold rkNext rkDx
      congr 1
      funext j
      simp only [rkSum, h1.1, Pi.smul_apply, smul_eq_mul, y2]; ring
    · simp only [rkCost, rkSum, h1.2, y2]; ring
  · intro y2 y3
    have h1 := st .three 0 (1 / 3) _ (z .three).1 (by simp [rkC])
    have h2 := st .three 1 (2 / 3) _ h1.1 (by simp [rkC])
    rw [show 1 / 3 * dt = dt / 3 by ring, show 2 / 3 * dt = 2 * dt / 3 by ring] at h2
    constructor
    · unfold rkNext rkDx
      congr 1
      funext j
      simp only [rkSum, h2.1, (z .three).1, Pi.smul_apply, Pi.add_apply, smul_eq_mul, y2, y3]; ring
    · simp only [rkCost, rkSum, h2.2, (z .three).2, y2, y3]; ring
  · intro y2 y3 y4
    have h1 := st .four 0 (1 / 2) _ (z .four).1 (by simp [rkC])
    rw [show 1 / 2 * dt = dt / 2 by ring] at h1
    have h2 := st .four 1 (1 / 2) _ h1.1 (by simp [rkC])
    rw [show 1 / 2 * dt = dt / 2 by ring] at h2
    have h3 := st .four 2 1 _ h2.1 (by simp [rkC])
    rw [one_mul] at h3
    constructor
    · unfold rkNext rkDx
      congr 1
      funext j
      simp only [rkSum, h1.1, h2.1, h3.1, (z .four).1, Pi.smul_apply, Pi.add_apply, smul_eq_mul, y2, y3, y4]; ring
    · simp only [rkCost, rkSum, h1.2, h2.2, h3.2, (z .four).2, y2, y3, y4]; ring

/-- **C102.** For every scheme `Fu` and `Lu` are the derivatives of the next state and of the cost with respect to the control. -/
theorem C102_control (hP : P.Group V Same Small Reg) (D : DM P nw) (hS : Respects Same D) (C : Ctl ℝ nw nu) (ty : RKType) (dt : ℝ)
    (x : X P) (u : Fin nu → ℝ) (hx : V x.q) (hD : ExactAtStages D C ty dt x u) :
    ∃ A a, StateJac (rkNext D C ty dt) A (rkFu D C ty dt x u) x u ∧ NumGrad (rkCost D C ty dt) a (rkLu D C ty dt x u) x u :=
  ⟨_, _, (true_total hP D hS C ty dt u hx hD).1, (true_total hP D hS C ty dt u hx hD).2⟩

/-- **C102 (partial).** `Fx`, `Fu`, `Lx` and `Lu` are the derivatives of the next state and of the cost on the manifold if, at the
second stage, either the accelerations do not depend on the configuration, or the scheme is not RK3 and the derivative of
`integrate` with respect to the increment is the identity, as it is for joints whose configuration is a vector. Missing: the other
cases, where this fails (`C102_rk2_iff`, `C102_counterexample`, `C40_counterexample`). -/
theorem C102_jacobians_partial (hP : P.Group V Same Small Reg) (D : DM P nw) (hS : Respects Same D) (C : Ctl ℝ nw nu) (ty : RKType)
    (dt : ℝ) (x : X P) (u : Fin nu → ℝ) (hx : V x.q) (hD : ExactAtStages D C ty dt x u)
    (h : (∀ i j, D.Fx (rkStage D C ty dt x u 1).y (rkStage D C ty dt x u 1).w i (Sum.inl j) = 0)
      ∨ (ty ≠ .three ∧ P.dInt true x.q (fun i => dt / 2 * x.v i) = 1)) :
    StateJac (rkNext D C ty dt) (rkFx D C ty dt x u) (rkFu D C ty dt x u) x u
      ∧ NumGrad (rkCost D C ty dt) (rkLx D C ty dt x u) (rkLu D C ty dt x u) x u := by
  have hH : Harmless D C ty dt x u := by
    rcases h with h | ⟨h3, h⟩
    · have : (D.Fx (rkStage D C ty dt x u 1).y (rkStage D C ty dt x u 1).w).submatrix id Sum.inl = 0 := by
        ext i j; exact h i j
      simp only [Harmless, this, smul_zero, Matrix.zero_mul]
    · have hc : rkC ty 1 * dt = dt / 2 := by
        cases ty with
        | two => simp [rkC]; ring
        | three => exact absurd rfl h3
        | four => simp [rkC]; ring
      have hd' : hd (rkStage D C ty dt x u 1).dx = fun i => dt / 2 * x.v i := by
        funext i
        rw [← hc]
        simp only [hd, rkStage, Sum.elim_inl, Nat.zero_add]
        ring
      simp only [Harmless, hd', h, Matrix.mul_one, hc]
  have ht := true_total hP D hS C ty dt u hx hD
  simp only [true_eq hP D C ty dt u hx hH] at ht
  have e : rkFx D C ty dt x u = J0 x (rkDx D C ty dt x u) + J1 x (rkDx D C ty dt x u)
      * Matrix.of (fun a b => rkDSum ty dt (fun i => (rkDStage D C ty dt x u i).kx a b)) := by
    rw [rkFx, add_eq, tr_eq hP _ hx, add_comm]
  rw [e]
  exact ht

/-- **C102 (RK2).** With a step that is not zero, `Fx` of RK2 is the derivative of the next state exactly if the derivative of the
accelerations with respect to the configuration at the second stage does not change when it is multiplied by the derivative of
`integrate` with respect to the increment, at half the step. -/
theorem C102_rk2_iff (hP : P.Group V Same Small Reg) (D : DM P nw) (hS : Respects Same D) (C : Ctl ℝ nw nu)
    (dt : ℝ) (hdt : dt ≠ 0) (x : X P) (u : Fin nu → ℝ) (hx : V x.q) (hD : ExactAtStages D C .two dt x u) :
    let Fq := (D.Fx (rkStage D C .two dt x u 1).y (rkStage D C .two dt x u 1).w).submatrix id Sum.inl
    StateJac (rkNext D C .two dt) (rkFx D C .two dt x u) (rkFu D C .two dt x u) x u ↔
      Fq * P.dInt true x.q (fun i => dt / 2 * x.v i) = Fq := by
  intro Fq
  have hd' : hd (rkStage D C .two dt x u 1).dx = fun i => dt / 2 * x.v i := by
    funext i
    simp only [hd, rkStage, Sum.elim_inl, rkC, Nat.zero_add, if_pos]
    ring
  constructor
  · intro h
    have ht := (HasJac.unique (true_total hP D hS C .two dt u hx hD).1 h).1
    have e : rkFx D C .two dt x u = J0 x (rkDx D C .two dt x u) + J1 x (rkDx D C .two dt x u)
        * Matrix.of (fun a b => rkDSum .two dt (fun i => (rkDStage D C .two dt x u i).kx a b)) := by
      rw [rkFx, add_eq, tr_eq hP _ hx, add_comm]
    rw [e] at ht
    have h2 := add_left_cancel ht
    ext i j
    have h3 := congrFun (congrFun h2 (Sum.inr i)) (Sum.inr j)
    simp [J1, Matrix.mul_apply, Fintype.sum_sum_type, Matrix.one_apply, rkDSum, hdt] at h3
    have hy : (trueDStage D C .two dt x u 1).yx = (rkDStage D C .two dt x u 1).yx := by
      simp only [trueDStage, rkDStage, tr_eq hP _ hx, add_eq, add_comm]
    have h4 : (trueDStage D C .two dt x u 1).kx (Sum.inr i) (Sum.inr j)
        = (Fq * (trueDStage D C .two dt x u 1).yx.toBlocks₁₂) i j
          + ((D.Fx (rkStage D C .two dt x u 1).y (rkStage D C .two dt x u 1).w).submatrix id Sum.inr
            * (trueDStage D C .two dt x u 1).yx.toBlocks₂₂) i j := rfl
    have h5 : (rkDStage D C .two dt x u 1).kx (Sum.inr i) (Sum.inr j)
        = ((dt / 2) • Fq) i j
          + ((D.Fx (rkStage D C .two dt x u 1).y (rkStage D C .two dt x u 1).w).submatrix id Sum.inr
            * (rkDStage D C .two dt x u 1).yx.toBlocks₂₂) i j := rfl
    rw [h4, h5, hy, add_left_inj, ← hy, yx1, hd', Matrix.mul_smul] at h3
    have hc : rkC (K := ℝ) .two 1 * dt = dt / 2 := by simp [rkC]; ring
    rw [hc] at h3
    simp only [Matrix.smul_apply, smul_eq_mul] at h3
    exact mul_left_cancel₀ (by simpa using hdt) h3
  · intro h
    have hc : rkC (K := ℝ) .two 1 * dt = dt / 2 := by simp [rkC]; ring
    have hH : Harmless D C .two dt x u := by
      simp only [Harmless, hd', hc]
      rw [show (D.Fx (rkStage D C .two dt x u 1).y (rkStage D C .two dt x u 1).w).submatrix id Sum.inl = Fq from rfl, h]
    have ht := (true_total hP D hS C .two dt u hx hD).1
    simp only [true_eq hP D C .two dt u hx hH] at ht
    have e : rkFx D C .two dt x u = J0 x (rkDx D C .two dt x u) + J1 x (rkDx D C .two dt x u)
        * Matrix.of (fun a b => rkDSum .two dt (fun i => (rkDStage D C .two dt x u i).kx a b)) := by
      rw [rkFx, add_eq, tr_eq hP _ hx, add_comm]
    rw [e]
    exact ht

/-- **C102 (RK2).** `Lx` of RK2 is always the derivative of the cost: the second stage enters it before the shortcut. -/
theorem C102_rk2_cost (hP : P.Group V Same Small Reg) (D : DM P nw) (hS : Respects Same D) (C : Ctl ℝ nw nu)
    (dt : ℝ) (x : X P) (u : Fin nu → ℝ) (hx : V x.q) (hD : ExactAtStages D C .two dt x u) :
    NumGrad (rkCost D C .two dt) (rkLx D C .two dt x u) (rkLu D C .two dt x u) x u := by
  have hy : (trueDStage D C .two dt x u 1).yx = (rkDStage D C .two dt x u 1).yx := by
    simp only [trueDStage, rkDStage, tr_eq hP _ hx, add_eq, add_comm]
  refine HasGrad.congr_grad (true_total hP D hS C .two dt u hx hD).2 ?_ rfl
  funext b
  have h1 : (trueDStage D C .two dt x u 1).lx = (rkDStage D C .two dt x u 1).lx := by
    change D.Lx _ _ ᵥ* (trueDStage D C .two dt x u 1).yx = D.Lx _ _ ᵥ* (rkDStage D C .two dt x u 1).yx
    rw [hy]
  simp [rkLx, rkDSum, h1]

/-! ## A model that meets the assumptions and whose increments do not commute -/

theorem hasGrad1_affine {ι : Type*} [Fintype ι] {f : (ι → ℝ) → ℝ} {g : ι → ℝ} (x : ι → ℝ) (h : ∀ w, f w = f 0 + form g w) :
    HasGrad1 f g x := by
  have h1 : HasFDerivAt (fun w => f 0 + form g w) (form g) x := (form g).hasFDerivAt.const_add (f 0)
  rwa [← show f = _ from funext h] at h1

theorem hasGrad_affine {ι κ : Type*} [Fintype ι] [Fintype κ] {f : (ι → ℝ) → (κ → ℝ) → ℝ} {g : ι → ℝ} {k : κ → ℝ} (x : ι → ℝ)
    (u : κ → ℝ) (h : ∀ w d, f w d = f 0 0 + form g w + form k d) : HasGrad f g k x u := by
  have h1 : HasFDerivAt (fun p : (ι → ℝ) × (κ → ℝ) => f 0 0 + ((form g).comp (ContinuousLinearMap.fst ℝ (ι → ℝ) (κ → ℝ))
      + (form k).comp (ContinuousLinearMap.snd ℝ (ι → ℝ) (κ → ℝ))) p) _ (x, u) :=
    (ContinuousLinearMap.hasFDerivAt _).const_add (f 0 0)
  refine HasFDerivAt.congr_of_eventuallyEq h1 (Filter.Eventually.of_forall fun p => ?_)
  exact (h p.1 p.2).trans (add_assoc _ _ _)

theorem hasGrad_prod_zero {ι κ : Type*} [Fintype ι] [Fintype κ] [DecidableEq ι] [DecidableEq κ] (i : ι) (j : κ) :
    HasGrad (fun (w : ι → ℝ) (d : κ → ℝ) => w i * d j) 0 0 0 0 := by
  have := HasFDerivAt.mul (hasGrad_fst (κ := κ) i 0 0) (hasGrad_snd (ι := ι) j 0 0)
  refine this.congr_fderiv ?_
  ext p <;> simp [form_apply]

/-- The group of the unitriangular matrices of size three with its exponential coordinates. -/
noncomputable def heis : Pin where
  nq := 3
  nv := 3
  neutral := ![0, 0, 0]
  integrate q v := ![q 0 + v 0, q 1 + v 1, q 2 + v 2 + (q 0 * v 1 - q 1 * v 0) / 2]
  difference q r := ![r 0 - q 0, r 1 - q 1, r 2 - q 2 - (q 0 * r 1 - q 1 * r 0) / 2]
  dInt arg _ v := if arg then !![1, 0, 0; 0, 1, 0; v 1 / 2, -(v 0 / 2), 1] else !![1, 0, 0; 0, 1, 0; v 1, -v 0, 1]
  dDiff arg q r :=
    if arg then !![1, 0, 0; 0, 1, 0; -((r 1 - q 1) / 2), (r 0 - q 0) / 2, 1]
    else !![-1, 0, 0; 0, -1, 0; -((r 1 - q 1) / 2), (r 0 - q 0) / 2, -1]
  transport arg _ v _ M :=
    (if arg then !![1, 0, 0; 0, 1, 0; v 1 / 2, -(v 0 / 2), 1] else !![1, 0, 0; 0, 1, 0; v 1, -v 0, 1] : Matrix (Fin 3) (Fin 3) ℝ) * M
  lower := [⊥, ⊥, ⊥]
  upper := [⊤, ⊤, ⊤]
  vel := [⊤, ⊤, ⊤]
  root := none

theorem heis_group : heis.Group (fun _ => True) (fun q q' => q = q') (fun _ => True) (fun _ _ => True) := by
  constructor
  · trivial
  · intros; trivial
  · intro (q : Fin 3 → ℝ) _
    funext (i : Fin 3)
    change (![q 0 + 0, q 1 + 0, q 2 + 0 + (q 0 * 0 - q 1 * 0) / 2] : Fin 3 → ℝ) i = q i
    fin_cases i <;> simp
  · intro (q : Fin 3 → ℝ) (r : Fin 3 → ℝ) _ _
    funext (i : Fin 3)
    change (![q 0 + (r 0 - q 0), q 1 + (r 1 - q 1), q 2 + (r 2 - q 2 - (q 0 * r 1 - q 1 * r 0) / 2)
      + (q 0 * (r 1 - q 1) - q 1 * (r 0 - q 0)) / 2] : Fin 3 → ℝ) i = r i
    fin_cases i <;> simp <;> ring
  · exact Filter.Eventually.of_forall fun _ => trivial
  · intro (q : Fin 3 → ℝ) (v : Fin 3 → ℝ) _ _
    funext (i : Fin 3)
    change (![q 0 + v 0 - q 0, q 1 + v 1 - q 1, q 2 + v 2 + (q 0 * v 1 - q 1 * v 0) / 2 - q 2
      - (q 0 * (q 1 + v 1) - q 1 * (q 0 + v 0)) / 2] : Fin 3 → ℝ) i = v i
    fin_cases i <;> simp <;> ring
  · intro (q : Fin 3 → ℝ) (v : Fin 3 → ℝ) _ (a : Fin 3)
    change HasGrad (fun (w d : Fin 3 → ℝ) => (![q 0 + w 0 + (v 0 + d 0) - (q 0 + v 0), q 1 + w 1 + (v 1 + d 1) - (q 1 + v 1),
      q 2 + w 2 + (q 0 * w 1 - q 1 * w 0) / 2 + (v 2 + d 2) + ((q 0 + w 0) * (v 1 + d 1) - (q 1 + w 1) * (v 0 + d 0)) / 2
        - (q 2 + v 2 + (q 0 * v 1 - q 1 * v 0) / 2)
        - ((q 0 + v 0) * (q 1 + w 1 + (v 1 + d 1)) - (q 1 + v 1) * (q 0 + w 0 + (v 0 + d 0))) / 2] : Fin 3 → ℝ) a)
      ((!![1, 0, 0; 0, 1, 0; v 1, -v 0, 1] : Matrix (Fin 3) (Fin 3) ℝ) a)
      ((!![1, 0, 0; 0, 1, 0; v 1 / 2, -(v 0 / 2), 1] : Matrix (Fin 3) (Fin 3) ℝ) a) 0 0
    fin_cases a
    · refine hasGrad_affine 0 0 fun w d => ?_
      simp [form_apply, Fin.sum_univ_three]
      ring
    · refine hasGrad_affine 0 0 fun w d => ?_
      simp [form_apply, Fin.sum_univ_three]
      ring
    · have h1 := (hasGrad_prod_zero (0 : Fin 3) (1 : Fin 3)).add ((hasGrad_prod_zero (1 : Fin 3) (0 : Fin 3)).const_mul (-1))
      have h2 : HasGrad (fun w d : Fin 3 → ℝ => w 2 + d 2 + (w 0 * v 1 - w 1 * v 0) - (v 0 * d 1 - v 1 * d 0) / 2)
          ((!![1, 0, 0; 0, 1, 0; v 1, -v 0, 1] : Matrix (Fin 3) (Fin 3) ℝ) 2)
          ((!![1, 0, 0; 0, 1, 0; v 1 / 2, -(v 0 / 2), 1] : Matrix (Fin 3) (Fin 3) ℝ) 2) 0 0 := by
        refine hasGrad_affine 0 0 fun w d => ?_
        simp [form_apply, Fin.sum_univ_three]
        ring
      have h3 := h2.add (h1.const_mul (1 / 2))
      simp only [smul_zero, add_zero] at h3
      have e : ∀ w d : Fin 3 → ℝ, (q 2 + w 2 + (q 0 * w 1 - q 1 * w 0) / 2 + (v 2 + d 2)
          + ((q 0 + w 0) * (v 1 + d 1) - (q 1 + w 1) * (v 0 + d 0)) / 2
          - (q 2 + v 2 + (q 0 * v 1 - q 1 * v 0) / 2)
          - ((q 0 + v 0) * (q 1 + w 1 + (v 1 + d 1)) - (q 1 + v 1) * (q 0 + w 0 + (v 0 + d 0))) / 2)
          = w 2 + d 2 + (w 0 * v 1 - w 1 * v 0) - (v 0 * d 1 - v 1 * d 0) / 2 + 1 / 2 * (w 0 * d 1 + -1 * (w 1 * d 0)) := by
        intro w d; ring
      change HasGrad (fun w d : Fin 3 → ℝ => q 2 + w 2 + (q 0 * w 1 - q 1 * w 0) / 2 + (v 2 + d 2)
          + ((q 0 + w 0) * (v 1 + d 1) - (q 1 + w 1) * (v 0 + d 0)) / 2
          - (q 2 + v 2 + (q 0 * v 1 - q 1 * v 0) / 2)
          - ((q 0 + v 0) * (q 1 + w 1 + (v 1 + d 1)) - (q 1 + v 1) * (q 0 + w 0 + (v 0 + d 0))) / 2)
          ((!![1, 0, 0; 0, 1, 0; v 1, -v 0, 1] : Matrix (Fin 3) (Fin 3) ℝ) 2)
          ((!![1, 0, 0; 0, 1, 0; v 1 / 2, -(v 0 / 2), 1] : Matrix (Fin 3) (Fin 3) ℝ) 2) 0 0
      simp only [e]
      exact h3
  · intro (q : Fin 3 → ℝ) (r : Fin 3 → ℝ) _ _ _ (a : Fin 3)
    change HasGrad1 (fun w : Fin 3 → ℝ => (![r 0 - (q 0 + w 0), r 1 - (q 1 + w 1), r 2 - (q 2 + w 2 + (q 0 * w 1 - q 1 * w 0) / 2)
      - ((q 0 + w 0) * r 1 - (q 1 + w 1) * r 0) / 2] : Fin 3 → ℝ) a)
      ((!![-1, 0, 0; 0, -1, 0; -((r 1 - q 1) / 2), (r 0 - q 0) / 2, -1] : Matrix (Fin 3) (Fin 3) ℝ) a) 0
    fin_cases a <;> refine hasGrad1_affine 0 fun w => ?_ <;> simp [form_apply, Fin.sum_univ_three] <;> ring
  · intro (q : Fin 3 → ℝ) (r : Fin 3 → ℝ) _ _ _ (a : Fin 3)
    change HasGrad1 (fun w : Fin 3 → ℝ => (![r 0 + w 0 - q 0, r 1 + w 1 - q 1, r 2 + w 2 + (r 0 * w 1 - r 1 * w 0) / 2 - q 2
      - (q 0 * (r 1 + w 1) - q 1 * (r 0 + w 0)) / 2] : Fin 3 → ℝ) a)
      ((!![1, 0, 0; 0, 1, 0; -((r 1 - q 1) / 2), (r 0 - q 0) / 2, 1] : Matrix (Fin 3) (Fin 3) ℝ) a) 0
    fin_cases a <;> refine hasGrad1_affine 0 fun w => ?_ <;> simp [form_apply, Fin.sum_univ_three] <;> ring
  · intro arg q v c M _
    rfl

/-- Accelerations that depend on the configuration: the first one is the last coordinate. -/
noncomputable def pull : DM heis 0 where
  xout x _ := (![x.q (2 : Fin 3), 0, 0] : Fin 3 → ℝ)
  cost _ _ := 0
  costT _ := 0
  Fx x _ := (fun i j => if i = 0 then Sum.elim (![-(x.q (1 : Fin 3) / 2), x.q (0 : Fin 3) / 2, 1] : Fin 3 → ℝ) (fun _ => 0) j else 0 :
    Matrix (Fin 3) (Fin 3 ⊕ Fin 3) ℝ)
  Fu _ _ := 0
  Lx _ _ := 0
  Lu _ _ := 0
  LxT _ := 0

theorem form6 (g e : Fin 3 ⊕ Fin 3 → ℝ) : form g e = g (.inl 0) * e (.inl 0) + g (.inl 1) * e (.inl 1) + g (.inl 2) * e (.inl 2)
    + (g (.inr 0) * e (.inr 0) + g (.inr 1) * e (.inr 1) + g (.inr 2) * e (.inr 2)) := by
  rw [form_apply, Fintype.sum_sum_type, Fin.sum_univ_three, Fin.sum_univ_three]

theorem pull_exact (x : X heis) (w : Fin 0 → ℝ) : Exact pull x w := by
  constructor
  · intro (i : Fin 3)
    refine hasGrad_affine 0 w fun e d => ?_
    rw [show form (pull.Fu x w i) d = 0 by rw [form_apply]; simp, add_zero]
    refine Eq.trans ?_ (congrArg (fun t => _ + t) (form6 _ _).symm)
    match i with
    | 0 =>
      change x.q (2 : Fin 3) + e (.inl (2 : Fin 3)) + (x.q (0 : Fin 3) * e (.inl (1 : Fin 3)) - x.q (1 : Fin 3) * e (.inl (0 : Fin 3))) / 2
        = x.q (2 : Fin 3) + 0 + (x.q (0 : Fin 3) * 0 - x.q (1 : Fin 3) * 0) / 2 + (-(x.q (1 : Fin 3) / 2) * e (.inl (0 : Fin 3))
          + x.q (0 : Fin 3) / 2 * e (.inl (1 : Fin 3)) + 1 * e (.inl (2 : Fin 3))
          + (0 * e (.inr (0 : Fin 3)) + 0 * e (.inr (1 : Fin 3)) + 0 * e (.inr (2 : Fin 3))))
      ring
    | 1 =>
      change (0 : ℝ) = 0 + (0 * e (.inl (0 : Fin 3)) + 0 * e (.inl (1 : Fin 3)) + 0 * e (.inl (2 : Fin 3))
        + (0 * e (.inr (0 : Fin 3)) + 0 * e (.inr (1 : Fin 3)) + 0 * e (.inr (2 : Fin 3))))
      ring
    | 2 =>
      change (0 : ℝ) = 0 + (0 * e (.inl (0 : Fin 3)) + 0 * e (.inl (1 : Fin 3)) + 0 * e (.inl (2 : Fin 3))
        + (0 * e (.inr (0 : Fin 3)) + 0 * e (.inr (1 : Fin 3)) + 0 * e (.inr (2 : Fin 3))))
      ring
  · exact hasGrad_const 0 0 w

/-- **C102 (counterexample).** The accelerations of `pull` depend on the configuration and their derivatives are exact, but from the
configuration zero with a velocity that is not zero `Fx` of RK2 is not the derivative of the next state. -/
theorem C102_counterexample (C : Ctl ℝ 0 0) (u : Fin 0 → ℝ) :
    let x : X heis := ⟨fun _ => 0, (![2, 0, 0] : Fin 3 → ℝ)⟩
    ExactAtStages pull C .two 1 x u
      ∧ ¬ StateJac (rkNext pull C .two 1) (rkFx pull C .two 1 x u) (rkFu pull C .two 1 x u) x u := by
  intro x
  have hE : ExactAtStages pull C .two 1 x u := fun i _ => pull_exact _ _
  refine ⟨hE, fun h => ?_⟩
  have h := (C102_rk2_iff heis_group pull (fun q q' v w h => by rw [h]; exact ⟨rfl, rfl⟩) C 1 one_ne_zero x u trivial hE).1 h
  have h2 := congrFun (congrFun h (0 : Fin 3)) (1 : Fin 3)
  have hdx : ∀ i : Fin 3, (rkStage pull C .two 1 x u 1).dx (.inl i) = (![1, 0, 0] : Fin 3 → ℝ) i := by
    intro i
    change 1 * rkC RKType.two 1 * (![2, 0, 0] : Fin 3 → ℝ) i = _
    fin_cases i <;> simp [rkC]
  have hq0 : (rkStage pull C .two 1 x u 1).y.q (0 : Fin 3) = 1 := by
    change 0 + (rkStage pull C .two 1 x u 1).dx (.inl (0 : Fin 3)) = 1
    rw [hdx 0]; simp
  have hq1 : (rkStage pull C .two 1 x u 1).y.q (1 : Fin 3) = 0 := by
    change 0 + (rkStage pull C .two 1 x u 1).dx (.inl (1 : Fin 3)) = 0
    rw [hdx 1]; simp
  change (∑ j : Fin 3, (![-((rkStage pull C .two 1 x u 1).y.q (1 : Fin 3) / 2), (rkStage pull C .two 1 x u 1).y.q (0 : Fin 3) / 2, 1] :
      Fin 3 → ℝ) j * (!![1, 0, 0; 0, 1, 0; 1 / 2 * 0 / 2, -(1 / 2 * 2 / 2), 1] : Matrix (Fin 3) (Fin 3) ℝ) j 1)
    = (rkStage pull C .two 1 x u 1).y.q (0 : Fin 3) / 2 at h2
  rw [Fin.sum_univ_three, hq0, hq1] at h2
  simp at h2

/-- Accelerations that are zero. -/
noncomputable def free (P : Pin) : DM P 0 where
  xout _ _ := 0
  cost _ _ := 0
  costT _ := 0
  Fx _ _ := 0
  Fu _ _ := 0
  Lx _ _ := 0
  Lu _ _ := 0
  LxT _ := 0

theorem free_exact (x : X P) (w : Fin 0 → ℝ) : Exact (free P) x w :=
  ⟨fun _ => hasGrad_const 0 0 w, hasGrad_const 0 0 w⟩

/-- The hypotheses of `C102_jacobians_partial` are met by a rotation of the plane with RK4, for every velocity. -/
example (C : Ctl ℝ 0 0) (u : Fin 0 → ℝ) (v : Fin 1 → ℝ) :
    let x : X Mb.so2 := ⟨(![1, 0] : Fin 2 → ℝ), v⟩
    StateJac (rkNext (free Mb.so2) C .four (1 / 10)) (rkFx (free Mb.so2) C .four (1 / 10) x u) (rkFu (free Mb.so2) C .four (1 / 10) x u)
      x u :=
  (C102_jacobians_partial Mb.so2_group (free Mb.so2) (fun _ _ _ _ _ => ⟨rfl, rfl⟩) C .four (1 / 10) _ u
    (by change Mb.Unit2 ![1, 0]; simp [Mb.Unit2]) (fun _ _ => free_exact _ _) (Or.inr ⟨by simp, rfl⟩)).1

/-- The hypotheses of `C101_jacobians` are met where the derivative of `integrate` is not the identity. -/
example : Exact pull ⟨fun _ => 0, (![2, 0, 0] : Fin 3 → ℝ)⟩ (0 : Fin 0 → ℝ)
    ∧ heis.dInt true (fun _ => 0) (![2, 0, 0] : Fin 3 → ℝ) ≠ 1 := by
  refine ⟨pull_exact _ _, fun h => ?_⟩
  have := congrFun (congrFun h (2 : Fin 3)) (1 : Fin 3)
  change -((2 : ℝ) / 2) = (1 : Matrix (Fin 3) (Fin 3) ℝ) 2 1 at this
  simp at this

/-- **C101 (counterexample).** `calcDiff` uses the increment that the last `calc` left in the data: after `calc(x)` instead of
`calc(x, u)`, `calcDiff(x, u)` does not compute the derivative of the next state. -/
theorem C101_stale_counterexample (C : Ctl ℝ 0 0) (d d' : Data heis 0) (u : Fin 0 → ℝ) :
    let x : X heis := ⟨fun _ => 0, (![1, 0, 0] : Fin 3 → ℝ)⟩
    let s := stepAfter (1 : ℝ) []
    let r := eulerCalcDiff (free heis) C s (eulerCalcT (free heis) d x) x u
    ¬ StateJac (fun y v => (eulerCalc (free heis) C s d' y v).xnext) r.Fx r.Fu x u := by
  intro x s r h
  have h2 := (C101_jacobians heis_group 1 [] (free heis) C d d' x u trivial (free_exact _ _)).1
  have e := congrFun (congrFun (HasJac.unique h h2).1 (.inl (2 : Fin 3))) (.inl (1 : Fin 3))
  have hz : ∀ (dx : Tan heis) (M : Matrix (Ix heis.nv) (Ix heis.nv) ℝ), (∀ k, M k (.inl (1 : Fin 3)) = 0) →
      addFirst x dx (trSecond finSumFinEquiv x dx M) (.inl (2 : Fin 3)) (.inl (1 : Fin 3)) = -dx (.inl (0 : Fin 3)) := by
    intro dx M hM
    rw [tr_eq heis_group _ trivial, add_eq, Matrix.add_apply, Matrix.mul_apply, Finset.sum_eq_zero fun k _ => by rw [hM, mul_zero],
      zero_add]
    rfl
  have hM : ∀ k, eulerFx (P := heis) s 0 k (.inl (1 : Fin 3)) = 0 := by
    intro k
    cases k with
    | inl r => simp [eulerFx]
    | inr r => simp [eulerFx]
  have e1 : r.Fx (.inl (2 : Fin 3)) (.inl (1 : Fin 3)) = -(0 : ℝ) := hz _ _ hM
  have e2 := hz (eulerCalc (free heis) C s d x u).dx _ hM
  have e3 := (e1.symm.trans e).trans e2
  change -(0 : ℝ) = -((1 : ℝ) * s.dt + 0 * s.dt2) at e3
  have : s.dt = 1 := by norm_num [s, stepAfter, Step.init]
  rw [this] at e3
  norm_num at e3

/-- **C101 (terminal nodes, counterexample).** After `calcDiff(x, u)` on the same data, `calc(x)` and `calcDiff(x)` leave an `Fx`
that is not the derivative of the next state. -/
theorem C101_terminal_counterexample (C : Ctl ℝ 0 0) (d d' : Data Mb.so2 0) (x : X Mb.so2) (hx : Mb.Unit2 x.q) (u : Fin 0 → ℝ)
    (dt : ℝ) (hdt : 0 < dt) :
    let D := free Mb.so2
    let s := stepAfter dt []
    let r := eulerCalcDiffT D (eulerCalcT D (eulerCalcDiff D C s (eulerCalc D C s d x u) x u) x) x
    ¬ StateJac (fun y (_ : Fin 0 → ℝ) => (eulerCalcT D d' y).xnext) r.Fx 0 x u := by
  intro D s r h
  have h2 := ((C101_terminal_partial Mb.so2_group D (eulerCalcDiff D C s (eulerCalc D C s d x u) x u) d' x u hx).2.2.1 h)
    (.inl (0 : Fin 1)) (.inr (0 : Fin 1)) (by simp) ⟨(0 : Fin 1), Or.inr rfl⟩
  have h3 : (eulerCalcDiff D C s (eulerCalc D C s d x u) x u).Fx (.inl (0 : Fin 1)) (.inr (0 : Fin 1)) = 0 * s.dt2 + s.dt + 0 := rfl
  have h4 : s.dt = dt := by simp [s, stepAfter, Step.init, not_lt.2 hdt.le]
  rw [h3, h4] at h2
  linarith

end Verif.Im
