import Verif.Model.Integrators
import Verif.Lemmas.Deriv
import Mathlib.Analysis.Calculus.IteratedDeriv.Defs
import Mathlib.Analysis.SpecialFunctions.Trigonometric.Deriv
import Mathlib.Tactic.Ring
import Mathlib.Tactic.Linarith
import Mathlib.Tactic.FieldSimp

/-!
# C37, C38, C39, C40: the integrators
-/

set_option linter.unusedSectionVars false

namespace Verif.Integrators

open Matrix Verif.Deriv
open Verif.Controls (RKType)

/-! ## Specification -/

section Spec

variable {n nw : ℕ}

/-- The differential model is differentiable at `(x, w)` and reports its exact derivatives. -/
structure Exact (D : DiffModel ℝ n nw) (x : X ℝ n) (w : Fin nw → ℝ) : Prop where
  xout : HasJac D.xout (D.Fx x w) (D.Fu x w) x w
  cost : HasGrad D.cost (D.Lx x w) (D.Lu x w) x w

/-- It also reports the exact second derivatives of the cost. -/
structure Exact2 (D : DiffModel ℝ n nw) (x : X ℝ n) (w : Fin nw → ℝ) : Prop where
  lx : HasJac D.Lx (D.Lxx x w) (D.Lxu x w) x w
  lu : HasJac D.Lu (D.Lxu x w)ᵀ (D.Luu x w) x w

/-- `φ` is a trajectory of the second-order system `q'' = f(q, q')` for all times. -/
def IsTrajectory (f : X ℝ n → Fin n → ℝ) (φ : ℝ → X ℝ n) : Prop :=
  ∀ t i, HasDerivAt (fun s => φ s (Sum.inl i)) (φ t (Sum.inr i)) t ∧
    HasDerivAt (fun s => φ s (Sum.inr i)) (f (φ t) i) t

/-- Taylor polynomial of degree `p` of a real function at `0`, evaluated at `h`. -/
noncomputable def taylor (p : ℕ) (f : ℝ → ℝ) (h : ℝ) : ℝ :=
  ∑ j ∈ Finset.range (p + 1), iteratedDeriv j f 0 * h ^ j / (j.factorial : ℝ)

/-- Nominal order of a scheme. -/
def order : RKType → ℕ
  | .two => 2
  | .three => 3
  | .four => 4

end Spec

/-! ## C37 -/

section C37

variable {K : Type*} [Field K] [LinearOrder K] [IsStrictOrderedRing K] {n nw nu : ℕ}

/-- The step after the constructor and a sequence of `set_dt` calls. -/
def stepAfter (dt : K) (hist : List K) : Step K :=
  hist.foldl (fun s d => (s.set d).2) (Step.init dt)

/-- C37: after any history of `set_dt` calls (accepted or not) the stored square is the square of
the step, the step is not negative, and it is the last accepted value. -/
theorem C37_step (dt : K) (hist : List K) :
    let s := stepAfter dt hist
    s.dt2 = s.dt ^ 2 ∧ 0 ≤ s.dt ∧
    ∀ d, (d < 0 → s.set d = (.throw, s)) ∧ (0 ≤ d → (s.set d).1 = .ok ∧ (s.set d).2.dt = d) := by
  have key : (stepAfter dt hist).dt2 = (stepAfter dt hist).dt ^ 2 ∧ 0 ≤ (stepAfter dt hist).dt := by
    unfold stepAfter
    suffices ∀ s : Step K, s.dt2 = s.dt ^ 2 ∧ 0 ≤ s.dt →
        (hist.foldl (fun s d => (s.set d).2) s).dt2
          = (hist.foldl (fun s d => (s.set d).2) s).dt ^ 2 ∧
        0 ≤ (hist.foldl (fun s d => (s.set d).2) s).dt by
      refine this _ ?_
      unfold Step.init
      split
      · exact ⟨by rw [pow_two], by positivity⟩
      · rename_i h; exact ⟨by rw [pow_two], not_lt.mp h⟩
    induction hist with
    | nil => exact fun s h => h
    | cons d l ih =>
      intro s h
      refine ih _ ?_
      dsimp only [Step.set]
      split
      · exact h
      · rename_i h'; exact ⟨by rw [pow_two], not_lt.mp h'⟩
  refine ⟨key.1, key.2, fun d => ⟨fun h => by simp [Step.set, h], fun h => ?_⟩⟩
  simp [Step.set, not_lt.mpr h]

/-- C37: the constructor keeps a non-negative step. -/
theorem C37_init (dt : K) (h : 0 ≤ dt) : (Step.init dt).dt = dt := by
  simp [Step.init, not_lt.mpr h]

/-- C37: `calc(x, u)` maps `(q, v)` to `(q + dt v', v')` with the new velocity `v' = v + dt a`, and
its cost is `dt` times the running cost, `a` and the cost being those of the differential model at
the control value at the beginning of the step. -/
theorem C37_euler (dt : K) (hist : List K) (D : DiffModel K n nw) (C : Ctl K nw nu)
    (d : Data K n nu) (x : X K n) (u : Fin nu → K) :
    let s := stepAfter dt hist
    let r := eulerCalc D C s d x u
    let a := D.xout x (C 0 *ᵥ u)
    (∀ i, r.xnext (Sum.inr i) = x (Sum.inr i) + s.dt * a i) ∧
    (∀ i, r.xnext (Sum.inl i) = x (Sum.inl i) + s.dt * r.xnext (Sum.inr i)) ∧
    r.cost = s.dt * D.cost x (C 0 *ᵥ u) := by
  intro s r a
  have hs : s.dt2 = s.dt ^ 2 := (C37_step dt hist).1
  refine ⟨fun i => ?_, fun i => ?_, rfl⟩
  · simp only [r, eulerCalc, join, Sum.elim_inr, a]; ring
  · simp only [r, eulerCalc, join, Sum.elim_inr, Sum.elim_inl, tail, hs]; ring

/-- C37: with a zero step the state does not change and the cost is zero. -/
theorem C37_zero_step (D : DiffModel K n nw) (C : Ctl K nw nu) (d : Data K n nu) (x : X K n)
    (u : Fin nu → K) (dt : K) (hist : List K) (h : (stepAfter dt hist).dt = 0) :
    (eulerCalc D C (stepAfter dt hist) d x u).xnext = x ∧
    (eulerCalc D C (stepAfter dt hist) d x u).cost = 0 := by
  have := C37_euler dt hist D C d x u
  simp only [h, zero_mul, add_zero] at this
  refine ⟨?_, this.2.2⟩
  funext i
  cases i with
  | inl i => exact this.2.1 i
  | inr i => exact this.1 i

/-- C37: without control (terminal node) the state does not change and the cost is the terminal
cost of the differential model, not scaled by the step. -/
theorem C37_terminal (D : DiffModel K n nw) (d : Data K n nu) (x : X K n) :
    (eulerCalcT D d x).xnext = x ∧ (eulerCalcT D d x).cost = D.costT x := ⟨rfl, rfl⟩

/-- A zero step is reachable, and so is a positive one after a refused negative one. -/
example : (stepAfter (1 / 10 : ℚ) [0]).dt = 0 ∧ (stepAfter (-1 : ℚ) [-1, 1 / 2, -3]).dt = 1 / 2 ∧
    (stepAfter (-1 : ℚ) [-1]).dt = 1 / 1000 := by
  refine ⟨by decide +kernel, by decide +kernel, by decide +kernel⟩

end C37

/-! ## C38 -/

section C38

variable {n nw nu : ℕ}

private theorem hasJac_ctl (C : Ctl ℝ nw nu) (t : ℝ) (x : X ℝ n) (u : Fin nu → ℝ) :
    HasJac (fun (_ : X ℝ n) v => C t *ᵥ v) 0 (C t) x u := hasJac_mulVec_snd _ _ _

/-- C38: when the differential model's derivatives are exact, `Fx` and `Fu` after `calcDiff(x, u)`
are the Jacobians of the next state as a function of `(x, u)`, and `Lx`, `Lu` the gradients of the
cost, whatever the data contained before. -/
theorem C38_jacobians (dt : ℝ) (hist : List ℝ) (D : DiffModel ℝ n nw) (C : Ctl ℝ nw nu)
    (d d' : Data ℝ n nu) (x : X ℝ n) (u : Fin nu → ℝ) (hD : Exact D x (C 0 *ᵥ u)) :
    let s := stepAfter dt hist
    let r := eulerCalcDiff D C s d x u
    HasJac (fun y v => (eulerCalc D C s d' y v).xnext) r.Fx r.Fu x u ∧
    HasGrad (fun y v => (eulerCalc D C s d' y v).cost) r.Lx r.Lu x u := by
  intro s r
  have hs : s.dt2 = s.dt ^ 2 := (C37_step dt hist).1
  have hx := hasJac_fst (κ := Fin nu) x u
  have ha := hD.xout.comp (Y := fun y _ => y) (W := fun _ v => C 0 *ᵥ v) hx (hasJac_ctl C 0 x u)
  have hc := hD.cost.comp (Y := fun y _ => y) (W := fun _ v => C 0 *ᵥ v) hx (hasJac_ctl C 0 x u)
  constructor
  · intro i
    cases i with
    | inl i =>
      have h := ((hx (Sum.inl i)).add (((hx (Sum.inr i)).mul_const s.dt).add
        ((ha i).mul_const s.dt2)))
      refine HasGrad.congr_grad h ?_ ?_
      · funext j
        simp only [r, eulerCalcDiff, eulerFx, Matrix.add_apply, Matrix.one_apply, Pi.add_apply,
          Pi.smul_apply, smul_eq_mul, Matrix.mul_one, Matrix.mul_zero, Matrix.zero_apply, add_zero]
        by_cases hj : j = Sum.inr i
        · subst hj; simp; ring
        · have : ¬ (Sum.inr i = j) := fun h => hj h.symm
          simp [hj, this]; ring
      · funext j
        simp [r, eulerCalcDiff, eulerFu]
    | inr i =>
      have h := ((hx (Sum.inr i)).add ((ha i).mul_const s.dt))
      refine HasGrad.congr_grad h ?_ ?_
      · funext j
        simp only [r, eulerCalcDiff, eulerFx, Matrix.add_apply, Pi.add_apply,
          Pi.smul_apply, smul_eq_mul, Matrix.mul_one, Matrix.mul_zero, Matrix.zero_apply, add_zero]
        ring
      · funext j
        simp [r, eulerCalcDiff, eulerFu]
  · refine HasGrad.congr_grad (hc.const_mul s.dt) ?_ ?_
    · simp [r, eulerCalcDiff]
    · simp [r, eulerCalcDiff, Matrix.mulVec_transpose]

/-- C38: when the differential model's second derivatives are exact, `Lxx`, `Lxu` and `Luu` are the
second derivatives of the cost of the step: the Jacobians of the gradients `Lx` and `Lu`. -/
theorem C38_hessians (dt : ℝ) (hist : List ℝ) (D : DiffModel ℝ n nw) (C : Ctl ℝ nw nu)
    (d d' : Data ℝ n nu) (x : X ℝ n) (u : Fin nu → ℝ) (hD : Exact2 D x (C 0 *ᵥ u)) :
    let s := stepAfter dt hist
    let r := eulerCalcDiff D C s d x u
    HasJac (fun y v => (eulerCalcDiff D C s d' y v).Lx) r.Lxx r.Lxu x u ∧
    HasJac (fun y v => (eulerCalcDiff D C s d' y v).Lu) r.Lxuᵀ r.Luu x u := by
  intro s r
  have hx := hasJac_fst (κ := Fin nu) x u
  have h1 := hD.lx.comp (Y := fun y _ => y) (W := fun _ v => C 0 *ᵥ v) hx (hasJac_ctl C 0 x u)
  have h2 := hD.lu.comp (Y := fun y _ => y) (W := fun _ v => C 0 *ᵥ v) hx (hasJac_ctl C 0 x u)
  constructor
  · intro a
    refine HasGrad.congr_grad ((h1 a).const_mul s.dt) ?_ ?_
    · simp [r, eulerCalcDiff]; rfl
    · simp [r, eulerCalcDiff]; rfl
  · intro a
    have h3 := HasGrad.comp (f := fun (_ : X ℝ n) w => (C 0)ᵀ a ⬝ᵥ w) (fy := 0) (fw := (C 0)ᵀ a)
      (Y := fun y _ => y) (W := fun y v => D.Lu y (C 0 *ᵥ v)) (hasGrad_snd_form _ _ _) hx h2
    refine HasGrad.congr_grad (h3.const_mul s.dt) ?_ ?_
    · funext j
      simp [r, eulerCalcDiff, Matrix.vecMul, Matrix.mul_apply, dotProduct, mul_comm]
    · funext j
      simp [r, eulerCalcDiff, Matrix.vecMul, dotProduct, Matrix.mul_apply]

/-- C38 (partial, terminal call): after `calcDiff(x)`, `Lx` and `Lxx` are those of the terminal
cost, and `Fx` is the identity (the Jacobian of the terminal map) provided no `calcDiff(x, u)` was
made with this data. -/
theorem C38_terminal_partial (D : DiffModel ℝ n nw) (C : Ctl ℝ nw nu) (s : Step ℝ)
    (ops : List (Op ℝ n nu)) (hops : ∀ op ∈ ops, ∀ y v, op ≠ .diff y v) (x : X ℝ n) :
    let r := eulerCalcDiffT D (ops.foldl (eulerStep D C s) Data.init) x
    r.Lx = D.LxT x ∧ r.Lxx = D.LxxT x ∧ r.Fx = 1 := by
  intro r
  refine ⟨rfl, rfl, ?_⟩
  have key : ∀ d : Data ℝ n nu, (∀ i j, i ≠ j → d.Fx i j = 0) →
      ∀ i j, i ≠ j → (ops.foldl (eulerStep D C s) d).Fx i j = 0 := by
    induction ops with
    | nil => exact fun d h => h
    | cons op l ih =>
      intro d h
      refine ih (fun o ho => hops o (List.mem_cons_of_mem _ ho)) _ ?_
      have hop := hops op List.mem_cons_self
      cases op with
      | eval y v => exact h
      | evalT y => exact h
      | diff y v => exact absurd rfl (hop y v)
      | diffT y =>
        intro i j hij
        simp only [eulerStep, eulerCalcDiffT, hij, if_false]
        exact h i j hij
  ext i j
  simp only [r, eulerCalcDiffT, Matrix.one_apply]
  split
  · rfl
  · rename_i hij
    exact key _ (fun _ _ _ => rfl) i j hij

/-- C38 is false of the terminal call on a data that was used for a running node: the off-diagonal
entries of `Fx` survive `calcDiff(x)` although the terminal map is the identity. -/
theorem C38_terminal_counterexample (D : DiffModel ℝ 1 0) (C : Ctl ℝ 0 0) (s : Step ℝ)
    (hs : s.dt2 = s.dt ^ 2) (hdt : 0 < s.dt) (x : X ℝ 1) (u : Fin 0 → ℝ)
    (hF : ∀ w, D.Fx x w = 0) :
    (eulerCalcDiffT D (eulerCalcDiff D C s Data.init x u) x).Fx (Sum.inl 0) (Sum.inr 0) = s.dt ∧
    ¬ HasJac (fun y (_ : Fin 0 → ℝ) => (eulerCalcT D (Data.init : Data ℝ 1 0) y).xnext)
      (eulerCalcDiffT D (eulerCalcDiff D C s Data.init x u) x).Fx 0 x u := by
  have e : (eulerCalcDiffT D (eulerCalcDiff D C s Data.init x u) x).Fx (Sum.inl 0) (Sum.inr 0)
      = s.dt := by
    simp [eulerCalcDiffT, eulerCalcDiff, eulerFx, hF]
  refine ⟨e, fun h => ?_⟩
  have h' : HasJac (fun y (_ : Fin 0 → ℝ) => (eulerCalcT D (Data.init : Data ℝ 1 0) y).xnext)
      1 0 x u := hasJac_fst x u
  have := congrFun (congrFun (h.unique h').1 (Sum.inl 0)) (Sum.inr 0)
  rw [e] at this
  simp at this
  exact hdt.ne' this

end C38

/-! ## C39 -/

section C39

variable {n nw nu : ℕ}

private theorem rkField {D : DiffModel ℝ n nw} {C : Ctl ℝ nw nu} {ty : RKType} {dt : ℝ}
    {u : Fin nu → ℝ} {w : Fin nw → ℝ} (hC : ∀ i < rkN ty, C (rkC ty i) *ᵥ u = w) (x : X ℝ n) :
    (rkStage D C ty dt x u 0).k = join (tail x) (D.xout x w) ∧
    ∀ i, i + 1 < rkN ty → (rkStage D C ty dt x u (i + 1)).k =
      (fun y => join (tail y) (D.xout y w))
        (fun j => x j + dt * rkC ty (i + 1) * (rkStage D C ty dt x u i).k j) := by
  constructor
  · have h0 : C (rkC ty 0) *ᵥ u = w := hC 0 (by cases ty <;> decide)
    simp [rkStage, h0]
  · intro i hi
    simp only [rkStage, hC (i + 1) hi]

/-- C39 (the control is constant over the step; time-varying parametrisations are not
covered).  For a linear differential model, the next state computed by the RK2/RK3/RK4 scheme is
the Taylor polynomial of degree 2/3/4 of the trajectory that starts at the state. -/
theorem C39_order (ty : RKType) (D : DiffModel ℝ n nw) (A : Matrix (Fin n) (Ix n) ℝ)
    (B : Matrix (Fin n) (Fin nw) ℝ) (hD : ∀ x w, D.xout x w = A *ᵥ x + B *ᵥ w)
    (C : Ctl ℝ nw nu) (u : Fin nu → ℝ) (w : Fin nw → ℝ) (hC : ∀ i < rkN ty, C (rkC ty i) *ᵥ u = w)
    (dt : ℝ) (φ : ℝ → X ℝ n) (hφ : IsTrajectory (fun x => D.xout x w) φ) (i : Ix n) :
    rkNext D C ty dt (φ 0) u i = taylor (order ty) (fun t => φ t i) dt := by
  -- the vector field and its linear part
  let F : X ℝ n → X ℝ n := fun y => join (tail y) (D.xout y w)
  let G : X ℝ n → X ℝ n := fun y => join (tail y) (A *ᵥ y)
  have hFG : ∀ (y z : X ℝ n) (c : ℝ) j, F (fun j => y j + c * z j) j = F y j + c * G z j := by
    intro y z c j
    have e : (fun j => y j + c * z j) = y + c • z := rfl
    cases j with
    | inl j => rfl
    | inr j =>
      simp only [F, G, join, Sum.elim_inr, hD, e, Matrix.mulVec_add, Matrix.mulVec_smul,
        Pi.add_apply, Pi.smul_apply, smul_eq_mul]
      ring
  have hGG : ∀ (y z : X ℝ n) (c : ℝ) j, G (fun j => y j + c * z j) j = G y j + c * G z j := by
    intro y z c j
    have e : (fun j => y j + c * z j) = y + c • z := rfl
    cases j with
    | inl j => rfl
    | inr j =>
      simp only [G, join, Sum.elim_inr, e, Matrix.mulVec_add, Matrix.mulVec_smul,
        Pi.add_apply, Pi.smul_apply, smul_eq_mul]
  -- derivatives along the trajectory
  have d1 : ∀ t j, HasDerivAt (fun s => φ s j) (F (φ t) j) t := by
    intro t j
    cases j with
    | inl j => exact (hφ t j).1
    | inr j => exact (hφ t j).2
  have dG : ∀ (ψ ψ' : ℝ → X ℝ n), (∀ t j, HasDerivAt (fun s => ψ s j) (ψ' t j) t) →
      ∀ t j, HasDerivAt (fun s => G (ψ s) j) (G (ψ' t) j) t := by
    intro ψ ψ' h t j
    cases j with
    | inl j => exact h t (Sum.inr j)
    | inr j =>
      simp only [G, join, Sum.elim_inr, Matrix.mulVec, dotProduct]
      exact HasDerivAt.fun_sum fun k _ => (h t k).const_mul _
  have dF : ∀ t j, HasDerivAt (fun s => F (φ s) j) (G (F (φ t)) j) t := by
    intro t j
    cases j with
    | inl j => exact (hφ t j).2
    | inr j =>
      simp only [F, G, join, Sum.elim_inr, hD, Pi.add_apply, Matrix.mulVec, dotProduct]
      refine HasDerivAt.add_const _ ?_
      have := HasDerivAt.fun_sum (u := Finset.univ)
        (A := fun k s => A j k * φ s k) (A' := fun k => A j k * F (φ t) k) (x := t)
        (fun k _ => (d1 t k).const_mul _)
      convert this using 1
      refine Finset.sum_congr rfl fun k _ => ?_
      cases k with
      | inl k => rfl
      | inr k =>
        simp only [F, join, Sum.elim_inr, hD, Pi.add_apply, Matrix.mulVec, dotProduct]
  have d2 := dG (fun t => F (φ t)) (fun t => G (F (φ t))) dF
  have d3 := dG (fun t => G (F (φ t))) (fun t => G (G (F (φ t)))) d2
  have i1 : iteratedDeriv 1 (fun t => φ t i) = fun t => F (φ t) i := by
    rw [iteratedDeriv_one]; funext t; exact (d1 t i).deriv
  have i2 : iteratedDeriv 2 (fun t => φ t i) = fun t => G (F (φ t)) i := by
    rw [iteratedDeriv_succ, i1]; funext t; exact (dF t i).deriv
  have i3 : iteratedDeriv 3 (fun t => φ t i) = fun t => G (G (F (φ t))) i := by
    rw [iteratedDeriv_succ, i2]; funext t; exact (d2 t i).deriv
  have i4 : iteratedDeriv 4 (fun t => φ t i) = fun t => G (G (G (F (φ t)))) i := by
    rw [iteratedDeriv_succ, i3]; funext t; exact (d3 t i).deriv
  obtain ⟨s0, ss⟩ := rkField (D := D) (dt := dt) hC (φ 0)
  set x := φ 0 with hx
  have k0 : ∀ j, (rkStage D C ty dt x u 0).k j = F x j := fun j => by rw [s0]
  have k1 : ∀ j, (rkStage D C ty dt x u 1).k j = F x j + dt * rkC ty 1 * G (F x) j := by
    intro j
    rw [ss 0 (by cases ty <;> decide)]
    rw [show (fun j => x j + dt * rkC ty (0 + 1) * (rkStage D C ty dt x u 0).k j)
      = fun j => x j + (dt * rkC ty 1) * F x j from funext fun j => by rw [k0]]
    exact hFG _ _ _ _
  have k2 : 2 < rkN ty → ∀ j, (rkStage D C ty dt x u 2).k j = F x j + dt * rkC ty 2 *
      (G (F x) j + dt * rkC ty 1 * G (G (F x)) j) := by
    intro h j
    rw [ss 1 h]
    rw [show (fun j => x j + dt * rkC ty (1 + 1) * (rkStage D C ty dt x u 1).k j)
      = fun j => x j + (dt * rkC ty 2) * (fun j => F x j + dt * rkC ty 1 * G (F x) j) j from
      funext fun j => by rw [k1]]
    refine (hFG _ _ _ _).trans ?_
    rw [hGG]
  have k3 : 3 < rkN ty → ∀ j, (rkStage D C ty dt x u 3).k j = F x j + dt * rkC ty 3 *
      (G (F x) j + dt * rkC ty 2 * (G (G (F x)) j + dt * rkC ty 1 * G (G (G (F x))) j)) := by
    intro h j
    rw [ss 2 h]
    rw [show (fun j => x j + dt * rkC ty (2 + 1) * (rkStage D C ty dt x u 2).k j)
      = fun j => x j + (dt * rkC ty 3) * (fun j => F x j + dt * rkC ty 2 *
        (fun j => G (F x) j + dt * rkC ty 1 * G (G (F x)) j) j) j from
      funext fun j => by rw [k2 (by omega)]]
    refine (hFG _ _ _ _).trans ?_
    rw [hGG, hGG]
  have hT0 : iteratedDeriv 0 (fun t => φ t i) 0 = x i := by rw [iteratedDeriv_zero]
  simp only [rkNext]
  cases ty with
  | two =>
    simp only [taylor, order, Finset.sum_range_succ, Finset.range_zero, Finset.sum_empty, hT0, i1,
      i2, rkSum, k1]
    simp [rkC, Nat.factorial]
    ring
  | three =>
    simp only [taylor, order, Finset.sum_range_succ, Finset.range_zero, Finset.sum_empty, hT0, i1,
      i2, i3, rkSum, k0, k2 (by decide)]
    simp [rkC, Nat.factorial]
    ring
  | four =>
    simp only [taylor, order, Finset.sum_range_succ, Finset.range_zero, Finset.sum_empty, hT0, i1,
      i2, i3, i4, rkSum, k0, k1, k2 (by decide), k3 (by decide)]
    simp [rkC, Nat.factorial]
    ring

/-- C39: constant accelerations are integrated exactly by the three schemes, and constant costs
give `dt` times the cost. -/
theorem C39_constant (ty : RKType) (D : DiffModel ℝ n nw) (C : Ctl ℝ nw nu) (u : Fin nu → ℝ)
    (a : Fin n → ℝ) (l : ℝ) (ha : ∀ x w, D.xout x w = a) (hl : ∀ x w, D.cost x w = l) (dt : ℝ)
    (x : X ℝ n) :
    (∀ i, rkNext D C ty dt x u (Sum.inl i)
      = x (Sum.inl i) + dt * x (Sum.inr i) + dt ^ 2 / 2 * a i) ∧
    (∀ i, rkNext D C ty dt x u (Sum.inr i) = x (Sum.inr i) + dt * a i) ∧
    rkCost D C ty dt x u = dt * l := by
  refine ⟨fun i => ?_, fun i => ?_, ?_⟩
  · cases ty <;> simp [rkNext, rkSum, rkStage, join, tail, ha, rkC] <;> ring
  · cases ty <;> simp [rkNext, rkSum, rkStage, join, tail, ha] <;> ring
  · cases ty <;> simp [rkCost, rkSum, rkStage, hl] <;> ring

/-- The hypotheses of `C39_order` are met: the harmonic oscillator `q'' = -q` with a
trajectory. -/
example : IsTrajectory (n := 1) (fun x _ => - x (Sum.inl 0))
    (fun t => Sum.elim (fun _ => Real.cos t) (fun _ => - Real.sin t)) := by
  intro t i
  constructor
  · exact Real.hasDerivAt_cos t
  · exact (Real.hasDerivAt_sin t).neg

end C39

/-! ## C40 -/

section C40

variable {n nw nu : ℕ}

/-- The loop without the shortcut of the first iteration. -/
private noncomputable def trueDStage (D : DiffModel ℝ n nw) (C : Ctl ℝ nw nu) (ty : RKType) (dt : ℝ)
    (x : X ℝ n) (u : Fin nu → ℝ) : ℕ → DStage ℝ n nu
  | 0 => rkDStage D C ty dt x u 0
  | i + 1 =>
    let p := trueDStage D C ty dt x u i
    let s := rkStage D C ty dt x u (i + 1)
    let J := C (rkC ty (i + 1))
    let yx := (rkC ty (i + 1) * dt) • p.kx + 1
    let yu := (rkC ty (i + 1) * dt) • p.ku
    let Fq := (D.Fx s.y s.w).submatrix id Sum.inl
    let Fv := (D.Fx s.y s.w).submatrix id Sum.inr
    { yx := yx
      yu := yu
      kx := fromBlocks yx.toBlocks₂₁ yx.toBlocks₂₂ (Fq * yx.toBlocks₁₁ + Fv * yx.toBlocks₂₁)
        (Fq * yx.toBlocks₁₂ + Fv * yx.toBlocks₂₂)
      ku := fromRows yu.toRows₂ (Fq * yu.toRows₁ + Fv * yu.toRows₂ + D.Fu s.y s.w * J)
      lx := D.Lx s.y s.w ᵥ* yx
      lu := Jᵀ *ᵥ D.Lu s.y s.w + D.Lx s.y s.w ᵥ* yu }

/-- The control derivatives do not depend on the shortcut. -/
private theorem trueDStage_u (D : DiffModel ℝ n nw) (C : Ctl ℝ nw nu) (ty : RKType) (dt : ℝ)
    (x : X ℝ n) (u : Fin nu → ℝ) (i : ℕ) :
    (trueDStage D C ty dt x u i).yu = (rkDStage D C ty dt x u i).yu ∧
    (trueDStage D C ty dt x u i).ku = (rkDStage D C ty dt x u i).ku ∧
    (trueDStage D C ty dt x u i).lu = (rkDStage D C ty dt x u i).lu := by
  induction i with
  | zero => exact ⟨rfl, rfl, rfl⟩
  | succ i ih => simp only [trueDStage, rkDStage, ih.2.1]; exact ⟨trivial, trivial, trivial⟩

/-- With `c1 = 1/2`, or when the accelerations of the first inner stage do not depend on the
configuration, the shortcut is exact. -/
private theorem trueDStage_eq (D : DiffModel ℝ n nw) (C : Ctl ℝ nw nu) (ty : RKType) (dt : ℝ)
    (x : X ℝ n) (u : Fin nu → ℝ)
    (h : ty ≠ .three ∨ (D.Fx (rkStage D C ty dt x u 1).y (rkStage D C ty dt x u 1).w).submatrix id
      Sum.inl = 0) (i : ℕ) :
    trueDStage D C ty dt x u i = rkDStage D C ty dt x u i := by
  induction i with
  | zero => rfl
  | succ i ih =>
    simp only [trueDStage, rkDStage, ih]
    by_cases hi : i + 1 = 1
    · have hi0 : i = 0 := by omega
      subst hi0
      have key : (D.Fx (rkStage D C ty dt x u 1).y (rkStage D C ty dt x u 1).w).submatrix id Sum.inl
          * ((rkC ty 1 * dt) • (rkDStage D C ty dt x u 0).kx + 1).toBlocks₁₂
          = (dt / 2) • (D.Fx (rkStage D C ty dt x u 1).y (rkStage D C ty dt x u 1).w).submatrix id
            Sum.inl := by
        rcases h with h | h
        · have hc : (rkC ty 1 : ℝ) = 1 / 2 := by
            cases ty with
            | two => simp [rkC]
            | three => exact absurd rfl h
            | four => simp [rkC]
          have hb : ((rkC ty 1 * dt) • (rkDStage D C ty dt x u 0).kx + 1).toBlocks₁₂
              = (dt / 2) • (1 : Matrix (Fin n) (Fin n) ℝ) := by
            ext a b
            simp [Matrix.toBlocks₁₂, rkDStage, hc, Matrix.one_apply]
            split
            · ring
            · rfl
          rw [hb, Matrix.mul_smul, Matrix.mul_one]
        · rw [h]; simp
      simp only [if_true, Nat.zero_add, key]
    · simp only [hi, if_false]

theorem rows_mul_blocks (Fx : Matrix (Fin n) (Ix n) ℝ) (Y : Matrix (Ix n) (Ix n) ℝ)
    (a : Fin n) :
    (fromBlocks Y.toBlocks₂₁ Y.toBlocks₂₂
      (Fx.submatrix id Sum.inl * Y.toBlocks₁₁ + Fx.submatrix id Sum.inr * Y.toBlocks₂₁)
      (Fx.submatrix id Sum.inl * Y.toBlocks₁₂ + Fx.submatrix id Sum.inr * Y.toBlocks₂₂))
      (Sum.inr a) = (Fx * Y) a := by
  funext j
  cases j with
  | inl j =>
    simp [Matrix.mul_apply, Fintype.sum_sum_type, Matrix.toBlocks₁₁, Matrix.toBlocks₂₁]
  | inr j =>
    simp [Matrix.mul_apply, Fintype.sum_sum_type, Matrix.toBlocks₁₂, Matrix.toBlocks₂₂]

theorem rows_mul_rows (Fx : Matrix (Fin n) (Ix n) ℝ) (Y : Matrix (Ix n) (Fin nu) ℝ)
    (E : Matrix (Fin n) (Fin nu) ℝ) (a : Fin n) :
    (fromRows Y.toRows₂ (Fx.submatrix id Sum.inl * Y.toRows₁ + Fx.submatrix id Sum.inr * Y.toRows₂
      + E)) (Sum.inr a) = (Fx * Y + E) a := by
  funext j
  simp [Matrix.mul_apply, Fintype.sum_sum_type, Matrix.toRows₁, Matrix.toRows₂]

/-- The loop without the shortcut computes the derivatives of the stage values. -/
private theorem trueDStage_hasJac (D : DiffModel ℝ n nw) (C : Ctl ℝ nw nu) (ty : RKType) (dt : ℝ)
    (x : X ℝ n) (u : Fin nu → ℝ) (m : ℕ)
    (hD : ∀ i ≤ m, Exact D (rkStage D C ty dt x u i).y (rkStage D C ty dt x u i).w) :
    ∀ i ≤ m,
    HasJac (fun y v => (rkStage D C ty dt y v i).k) (trueDStage D C ty dt x u i).kx
      (trueDStage D C ty dt x u i).ku x u ∧
    HasGrad (fun y v => (rkStage D C ty dt y v i).l) (trueDStage D C ty dt x u i).lx
      (trueDStage D C ty dt x u i).lu x u := by
  intro i hi
  have hx := hasJac_fst (κ := Fin nu) x u
  induction i with
  | zero =>
    have hE := hD 0 hi
    have ha := hE.xout.comp (Y := fun y _ => y) (W := fun _ v => C (rkC ty 0) *ᵥ v) hx
      (hasJac_ctl C (rkC ty 0) x u)
    have hc := hE.cost.comp (Y := fun y _ => y) (W := fun _ v => C (rkC ty 0) *ᵥ v) hx
      (hasJac_ctl C (rkC ty 0) x u)
    refine ⟨fun a => ?_, ?_⟩
    · cases a with
      | inl a =>
        refine HasGrad.congr_grad (hx (Sum.inr a)) ?_ ?_
        · funext j
          cases j with
          | inl j => simp [trueDStage, rkDStage]
          | inr j => simp [trueDStage, rkDStage, Matrix.one_apply]
        · funext j; simp [trueDStage, rkDStage]
      | inr a =>
        refine HasGrad.congr_grad (ha a) ?_ ?_
        · funext j
          cases j with
          | inl j => simp [trueDStage, rkDStage]
          | inr j => simp [trueDStage, rkDStage]
        · funext j; simp [trueDStage, rkDStage]
    · refine HasGrad.congr_grad hc ?_ ?_
      · simp [trueDStage, rkDStage]
      · simp [trueDStage, rkDStage, Matrix.mulVec_transpose]
  | succ i ih =>
    have hp := (ih (by omega)).1
    have hy : HasJac (fun y v => (rkStage D C ty dt y v (i + 1)).y)
        (trueDStage D C ty dt x u (i + 1)).yx (trueDStage D C ty dt x u (i + 1)).yu x u := by
      intro a
      refine HasGrad.congr_grad ((hx a).add ((hp a).const_mul (dt * rkC ty (i + 1)))) ?_ ?_
      · funext j
        simp only [trueDStage, Matrix.add_apply, Pi.add_apply, Pi.smul_apply, Matrix.smul_apply,
          smul_eq_mul]
        ring
      · funext j
        simp only [trueDStage, Pi.add_apply, Pi.smul_apply, Matrix.smul_apply, smul_eq_mul,
          Matrix.zero_apply, zero_add]
        ring
    have hE := hD (i + 1) hi
    have hw := hasJac_ctl C (rkC ty (i + 1)) x u
    have ha := hE.xout.comp (Y := fun y v => (rkStage D C ty dt y v (i + 1)).y)
      (W := fun _ v => C (rkC ty (i + 1)) *ᵥ v) hy hw
    have hc := hE.cost.comp (Y := fun y v => (rkStage D C ty dt y v (i + 1)).y)
      (W := fun _ v => C (rkC ty (i + 1)) *ᵥ v) hy hw
    refine ⟨fun a => ?_, ?_⟩
    · cases a with
      | inl a =>
        refine HasGrad.congr_grad (hy (Sum.inr a)) ?_ ?_
        · funext j
          cases j with
          | inl j => simp [trueDStage, Matrix.toBlocks₂₁]
          | inr j => simp [trueDStage, Matrix.toBlocks₂₂]
        · funext j; simp [trueDStage, Matrix.toRows₂]
      | inr a =>
        refine HasGrad.congr_grad (ha a) ?_ ?_
        · rw [show (trueDStage D C ty dt x u (i + 1)).kx (Sum.inr a)
            = (D.Fx (rkStage D C ty dt x u (i + 1)).y (rkStage D C ty dt x u (i + 1)).w
              * (trueDStage D C ty dt x u (i + 1)).yx) a from rows_mul_blocks _ _ a]
          simp
        · rw [show (trueDStage D C ty dt x u (i + 1)).ku (Sum.inr a)
            = (D.Fx (rkStage D C ty dt x u (i + 1)).y (rkStage D C ty dt x u (i + 1)).w
              * (trueDStage D C ty dt x u (i + 1)).yu
              + D.Fu (rkStage D C ty dt x u (i + 1)).y (rkStage D C ty dt x u (i + 1)).w
                * C (rkC ty (i + 1))) a from rows_mul_rows _ _ _ a]
    · refine HasGrad.congr_grad hc ?_ ?_
      · simp [trueDStage]
      · simp [trueDStage, Matrix.mulVec_transpose]
        rw [add_comm]

theorem rkSum_grad (ty : RKType) (dt : ℝ) (f : ℕ → X ℝ n → (Fin nu → ℝ) → ℝ)
    (gx : ℕ → Ix n → ℝ) (gu : ℕ → Fin nu → ℝ) (x : X ℝ n) (u : Fin nu → ℝ)
    (h : ∀ i < rkN ty, HasGrad (f i) (gx i) (gu i) x u) :
    HasGrad (fun y v => rkSum ty dt (fun i => f i y v)) (fun j => rkDSum ty dt (fun i => gx i j))
      (fun j => rkDSum ty dt (fun i => gu i j)) x u := by
  cases ty with
  | two =>
    refine HasGrad.congr_grad ((h 1 (by decide)).mul_const dt) ?_ ?_
    · rfl
    · rfl
  | three =>
    refine HasGrad.congr_grad ((((h 0 (by decide)).add ((h 2 (by decide)).const_mul 3)).mul_const
      dt).div_const 4) ?_ ?_
    · funext j; simp [rkDSum]; ring
    · funext j; simp [rkDSum]; ring
  | four =>
    refine HasGrad.congr_grad (((((h 0 (by decide)).add ((h 1 (by decide)).const_mul 2)).add
      ((h 2 (by decide)).const_mul 2)).add (h 3 (by decide))).mul_const dt |>.div_const 6) ?_ ?_
    · funext j; simp [rkDSum]; ring
    · funext j; simp [rkDSum]; ring

/-- The differential model's derivatives are exact at the points at which the scheme evaluates
it. -/
def ExactAtStages (D : DiffModel ℝ n nw) (C : Ctl ℝ nw nu) (ty : RKType) (dt : ℝ) (x : X ℝ n)
    (u : Fin nu → ℝ) : Prop :=
  ∀ i < rkN ty, Exact D (rkStage D C ty dt x u i).y (rkStage D C ty dt x u i).w

private theorem true_total (D : DiffModel ℝ n nw) (C : Ctl ℝ nw nu) (ty : RKType) (dt : ℝ)
    (x : X ℝ n) (u : Fin nu → ℝ) (hD : ExactAtStages D C ty dt x u) :
    HasJac (fun y v => rkNext D C ty dt y v)
      (Matrix.of (fun a b => rkDSum ty dt (fun i => (trueDStage D C ty dt x u i).kx a b)) + 1)
      (rkFu D C ty dt x u) x u ∧
    HasGrad (fun y v => rkCost D C ty dt y v)
      (fun b => rkDSum ty dt (fun i => (trueDStage D C ty dt x u i).lx b))
      (rkLu D C ty dt x u) x u := by
  have hn : 0 < rkN ty := by cases ty <;> decide
  have h := trueDStage_hasJac D C ty dt x u (rkN ty - 1) (fun i hi => hD i (by omega))
  constructor
  · intro a
    have hs := rkSum_grad ty dt (fun i y v => (rkStage D C ty dt y v i).k a)
      (fun i => (trueDStage D C ty dt x u i).kx a) (fun i => (trueDStage D C ty dt x u i).ku a) x u
      (fun i hi => (h i (by omega)).1 a)
    refine HasGrad.congr_grad (((hasJac_fst (κ := Fin nu) x u) a).add hs) ?_ ?_
    · funext j; simp [add_comm]
    · funext j
      simp [rkFu, (trueDStage_u D C ty dt x u _).2.1]
  · refine HasGrad.congr_grad (rkSum_grad ty dt (fun i y v => (rkStage D C ty dt y v i).l) _ _ x u
      (fun i hi => (h i (by omega)).2)) rfl ?_
    funext j
    simp [rkLu, (trueDStage_u D C ty dt x u _).2.2]

/-- C40 (partial: for RK3, see `C40_rk3_partial` and `C40_counterexample`): for RK2 and RK4, `Fx`
and `Fu` are the Jacobians of the next state and `Lx`, `Lu` the gradients of the cost. -/
theorem C40_jacobians_partial (ty : RKType) (hty : ty ≠ .three) (D : DiffModel ℝ n nw)
    (C : Ctl ℝ nw nu) (dt : ℝ) (x : X ℝ n) (u : Fin nu → ℝ) (hD : ExactAtStages D C ty dt x u) :
    HasJac (fun y v => rkNext D C ty dt y v) (rkFx D C ty dt x u) (rkFu D C ty dt x u) x u ∧
    HasGrad (fun y v => rkCost D C ty dt y v) (rkLx D C ty dt x u) (rkLu D C ty dt x u) x u := by
  have h := true_total D C ty dt x u hD
  simp only [trueDStage_eq D C ty dt x u (Or.inl hty)] at h
  exact h

/-- C40 (partial): for RK3 the derivatives with respect to the control are exact, and those with
respect to the state are if the accelerations at the first inner stage do not depend on the
configuration. -/
theorem C40_rk3_partial (D : DiffModel ℝ n nw)
    (C : Ctl ℝ nw nu) (dt : ℝ) (x : X ℝ n) (u : Fin nu → ℝ) (hD : ExactAtStages D C .three dt x u) :
    (∃ Jx Gx, HasJac (fun y v => rkNext D C .three dt y v) Jx (rkFu D C .three dt x u) x u ∧
      HasGrad (fun y v => rkCost D C .three dt y v) Gx (rkLu D C .three dt x u) x u) ∧
    ((∀ a b, D.Fx (rkStage D C .three dt x u 1).y (rkStage D C .three dt x u 1).w a (Sum.inl b) = 0)
      → HasJac (fun y v => rkNext D C .three dt y v) (rkFx D C .three dt x u)
          (rkFu D C .three dt x u) x u ∧
        HasGrad (fun y v => rkCost D C .three dt y v) (rkLx D C .three dt x u)
          (rkLu D C .three dt x u) x u) := by
  have h := true_total D C .three dt x u hD
  refine ⟨⟨_, _, h.1, h.2⟩, fun hq => ?_⟩
  simp only [trueDStage_eq D C .three dt x u (Or.inr (by ext a b; exact hq a b))] at h
  exact h

/-- The linear model `q'' = A (q, q') + B w` with zero cost. -/
def linModel (A : Matrix (Fin n) (Ix n) ℝ) (B : Matrix (Fin n) (Fin nw) ℝ) : DiffModel ℝ n nw where
  xout := fun x w => A *ᵥ x + B *ᵥ w
  cost := fun _ _ => 0
  costT := fun _ => 0
  Fx := fun _ _ => A
  Fu := fun _ _ => B
  Lx := fun _ _ => 0
  Lu := fun _ _ => 0
  Lxx := fun _ _ => 0
  Lxu := fun _ _ => 0
  Luu := fun _ _ => 0
  LxT := fun _ => 0
  LxxT := fun _ => 0

/-- A linear model reports exact derivatives (so the hypotheses of C38 and C40 are met). -/
theorem linModel_exact (A : Matrix (Fin n) (Ix n) ℝ) (B : Matrix (Fin n) (Fin nw) ℝ) (x : X ℝ n)
    (w : Fin nw → ℝ) : Exact (linModel A B) x w ∧ Exact2 (linModel A B) x w := by
  refine ⟨⟨fun a => ?_, hasGrad_const 0 x w⟩, fun a => hasGrad_const 0 x w,
    fun a => hasGrad_const 0 x w⟩
  have h1 := HasGrad.comp (f := fun (_ : Fin 0 → ℝ) y => A a ⬝ᵥ y) (fy := 0) (fw := A a)
    (Y := fun _ _ => (0 : Fin 0 → ℝ)) (W := fun y (_ : Fin nw → ℝ) => y) (Yx := 0) (Yu := 0)
    (hasGrad_snd_form _ _ _) (fun i => i.elim0) (hasJac_fst x w)
  have h2 := hasJac_mulVec_snd B x w a
  refine HasGrad.congr_grad (h1.add h2) ?_ ?_
  · simp [linModel]
    rfl
  · simp [linModel]

/-- C40 is false of RK3: for `q'' = q` and `dt = 1`, `Fx` reported by `calcDiff` is not the
derivative of the next state: the derivative of the position with respect to the velocity is
reported as `1/4 + 3/4 * (1 + 2/3 * 1/2) = 5/4` and is `1/4 + 3/4 * (1 + 2/3 * 1/3) = 7/6`. -/
theorem C40_counterexample (C : Ctl ℝ 0 0) (x : X ℝ 1) (u : Fin 0 → ℝ) :
    let D : DiffModel ℝ 1 0 := linModel (fun _ j => if j = Sum.inl 0 then 1 else 0) 0
    ExactAtStages D C .three 1 x u ∧
    rkFx D C .three 1 x u (Sum.inl 0) (Sum.inr 0) = 5 / 4 ∧
    (∀ Jx, HasJac (fun y v => rkNext D C .three 1 y v) Jx (rkFu D C .three 1 x u) x u →
      Jx (Sum.inl 0) (Sum.inr 0) = 7 / 6) ∧
    ¬ HasJac (fun y v => rkNext D C .three 1 y v) (rkFx D C .three 1 x u)
      (rkFu D C .three 1 x u) x u := by
  intro D
  have hE : ExactAtStages D C .three 1 x u := fun i _ => (linModel_exact _ _ _ _).1
  have e1 : rkFx D C .three 1 x u (Sum.inl 0) (Sum.inr 0) = 5 / 4 := by
    simp [rkFx, rkDSum, rkDStage, rkC, D, linModel, Matrix.mul_apply, Matrix.toBlocks₁₁,
      Matrix.toBlocks₁₂, Matrix.toBlocks₂₁, Matrix.toBlocks₂₂, Matrix.submatrix]
    norm_num
  have e2 : ∀ Jx, HasJac (fun y v => rkNext D C .three 1 y v) Jx (rkFu D C .three 1 x u) x u →
      Jx (Sum.inl 0) (Sum.inr 0) = 7 / 6 := by
    intro Jx h
    have h' := (true_total D C .three 1 x u hE).1
    rw [(h.unique h').1]
    simp [rkDSum, trueDStage, rkDStage, rkC, D, linModel, Matrix.mul_apply,
      Matrix.toBlocks₁₁, Matrix.toBlocks₁₂, Matrix.toBlocks₂₁, Matrix.toBlocks₂₂, Matrix.submatrix]
    norm_num
  refine ⟨hE, e1, e2, fun h => ?_⟩
  have := e2 _ h
  rw [e1] at this
  norm_num at this

end C40

end Verif.Integrators
