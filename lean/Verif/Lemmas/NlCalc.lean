import Verif.Spec.Nl
import Verif.Lemmas.Lq
import Verif.Lemmas.Deriv
import Mathlib.Analysis.Calculus.Deriv.Add
import Mathlib.Analysis.Calculus.Deriv.Mul
import Mathlib.Analysis.Calculus.Deriv.Pi
import Mathlib.Analysis.Calculus.Deriv.Comp
import Mathlib.Analysis.Calculus.Deriv.Prod
import Mathlib.Tactic.Ring
import Mathlib.Tactic.LinearCombination

set_option linter.unusedSectionVars false

/-! # Lemmas: first-order effect of a step on a nonlinear problem -/

namespace Verif.Nl
open Verif Verif.Solve Verif.Lq Verif.Deriv Matrix

variable {n m : Nat}

theorem form_dot {p : Nat} (v h : Fin p → ℝ) : form v h = v ⬝ᵥ h := by
  rw [form_apply]; rfl

/-- Chain rule along a curve. -/
theorem HasGrad.along {f : (Fin n → ℝ) → (Fin m → ℝ) → ℝ} {gx : Fin n → ℝ} {gu : Fin m → ℝ}
    {X : ℝ → Fin n → ℝ} {U : ℝ → Fin m → ℝ} {dx : Fin n → ℝ} {du : Fin m → ℝ} {a : ℝ}
    (hf : HasGrad f gx gu (X a) (U a)) (hX : HasDerivAt X dx a) (hU : HasDerivAt U du a) :
    HasDerivAt (fun b => f (X b) (U b)) (gx ⬝ᵥ dx + gu ⬝ᵥ du) a := by
  have h := HasFDerivAt.comp_hasDerivAt (x := a) (f := fun b => (X b, U b))
    (l := fun p : (Fin n → ℝ) × (Fin m → ℝ) => f p.1 p.2) hf (hX.prodMk hU)
  refine h.congr_deriv ?_
  simp [form_dot]

theorem HasGrad1.along {f : (Fin n → ℝ) → ℝ} {gx : Fin n → ℝ} {X : ℝ → Fin n → ℝ} {dx : Fin n → ℝ} {a : ℝ}
    (hf : HasGrad1 f gx (X a)) (hX : HasDerivAt X dx a) :
    HasDerivAt (fun b => f (X b)) (gx ⬝ᵥ dx) a := by
  have h := HasFDerivAt.comp_hasDerivAt (x := a) (f := X) (l := f) hf hX
  refine h.congr_deriv ?_
  simp [form_dot]

theorem HasJac.along {f : (Fin n → ℝ) → (Fin m → ℝ) → Fin n → ℝ} {Jx : Matrix (Fin n) (Fin n) ℝ}
    {Ju : Matrix (Fin n) (Fin m) ℝ}
    {X : ℝ → Fin n → ℝ} {U : ℝ → Fin m → ℝ} {dx : Fin n → ℝ} {du : Fin m → ℝ} {a : ℝ}
    (hf : HasJac f Jx Ju (X a) (U a)) (hX : HasDerivAt X dx a) (hU : HasDerivAt U du a) :
    HasDerivAt (fun b => f (X b) (U b)) (Jx *ᵥ dx + Ju *ᵥ du) a := by
  rw [hasDerivAt_pi]
  intro i
  exact HasGrad.along (hf i) hX hU

theorem hasDerivAt_mulVec {p q : Nat} (M : Matrix (Fin p) (Fin q) ℝ) {X : ℝ → Fin q → ℝ} {dx : Fin q → ℝ}
    {a : ℝ} (hX : HasDerivAt X dx a) : HasDerivAt (fun b => M *ᵥ X b) (M *ᵥ dx) a := by
  rw [hasDerivAt_pi]
  intro i
  have h : HasDerivAt (fun b => ∑ j, M i j * X b j) (∑ j, M i j * dx j) a :=
    HasDerivAt.fun_sum fun j _ => ((hasDerivAt_pi.mp hX) j).const_mul (M i j)
  exact h

section curve
variable {P : NlProb n m} {xs : Nat → Fin n → ℝ} {us : Nat → Fin m → ℝ} {L : Lin ℝ n m}

/-- The trial states of a step `a`; the controls are `polyU`. -/
def polyX (P : NlProb n m) (xs : Nat → Fin n → ℝ) (us : Nat → Fin m → ℝ) (g : Arrays ℝ n (fun _ => m))
    (f : Nat → Fin n → ℝ) (a : ℝ) : Nat → Fin n → ℝ
  | 0 => P.x0 + (a - 1) • f 0
  | t + 1 => P.next t (polyX P xs us g f a t)
      (us t - a • (g.out t).k - (g.out t).Kfb *ᵥ (polyX P xs us g f a t - xs t)) + (a - 1) • f (t + 1)

def polyU (P : NlProb n m) (xs : Nat → Fin n → ℝ) (us : Nat → Fin m → ℝ) (g : Arrays ℝ n (fun _ => m))
    (f : Nat → Fin n → ℝ) (a : ℝ) (t : Nat) : Fin m → ℝ :=
  us t - a • (g.out t).k - (g.out t).Kfb *ᵥ (polyX P xs us g f a t - xs t)

/-- The gaps of the candidate. -/
def gapsOf (P : NlProb n m) (xs : Nat → Fin n → ℝ) (us : Nat → Fin m → ℝ) : Nat → Fin n → ℝ
  | 0 => P.x0 - xs 0
  | t + 1 => P.next t (xs t) (us t) - xs (t + 1)

variable {g : Arrays ℝ n (fun _ => m)} {f : Nat → Fin n → ℝ}

theorem poly_zero (hf : ∀ t ≤ P.T, f t = gapsOf P xs us t) (t : Nat) (ht : t ≤ P.T) :
    polyX P xs us g f 0 t = xs t := by
  induction t with
  | zero => rw [polyX, hf 0 ht, gapsOf]; simp
  | succ t ih =>
    rw [polyX, ih (by omega), hf _ ht, gapsOf]
    simp

theorem polyU_zero (hf : ∀ t ≤ P.T, f t = gapsOf P xs us t) (t : Nat) (ht : t ≤ P.T) :
    polyU P xs us g f 0 t = us t := by
  rw [polyU, poly_zero hf t ht]; simp

theorem hasDerivAt_gap (v : Fin n → ℝ) : HasDerivAt (fun a : ℝ => (a - 1) • v) v 0 := by
  simpa using ((hasDerivAt_id (0 : ℝ)).sub_const 1).smul_const v

theorem polyU_deriv {dx : Fin n → ℝ} {t : Nat}
    (h : HasDerivAt (fun a => polyX P xs us g f a t) dx 0) :
    HasDerivAt (fun a => polyU P xs us g f a t) (-(g.out t).k - (g.out t).Kfb *ᵥ dx) 0 := by
  unfold polyU
  have h1 : HasDerivAt (fun a : ℝ => us t - a • (g.out t).k) (-(g.out t).k) 0 := by
    have := ((hasDerivAt_id (0 : ℝ)).smul_const (g.out t).k).const_sub (us t)
    simpa using this
  exact h1.sub (hasDerivAt_mulVec _ (h.sub_const (xs t)))

theorem polyX_deriv (hE : Exact P xs us L) (hf : ∀ t ≤ P.T, f t = gapsOf P xs us t) (t : Nat)
    (ht : t ≤ P.T) : HasDerivAt (fun a => polyX P xs us g f a t) (sens L g f t) 0 := by
  induction t with
  | zero =>
    have := (hasDerivAt_gap (f 0)).const_add P.x0
    exact this
  | succ t ih =>
    have hX := ih (by omega)
    have hU := polyU_deriv hX
    have hd : HasJac (P.next t) (L.d t).Fx (L.d t).Fu (polyX P xs us g f 0 t) (polyU P xs us g f 0 t) := by
      rw [poly_zero hf t (by omega), polyU_zero hf t (by omega)]
      exact hE.dyn t ht
    exact (HasJac.along hd hX hU).add (hasDerivAt_gap (f (t + 1)))

/-- The cost of the trial of a step `a`. -/
def polyCost (P : NlProb n m) (xs : Nat → Fin n → ℝ) (us : Nat → Fin m → ℝ) (g : Arrays ℝ n (fun _ => m))
    (f : Nat → Fin n → ℝ) (a : ℝ) : ℝ :=
  (∑ t ∈ Finset.range P.T, P.cost t (polyX P xs us g f a t) (polyU P xs us g f a t))
    + P.costT (polyX P xs us g f a P.T)

theorem polyCost_deriv (hE : Exact P xs us L) (hf : ∀ t ≤ P.T, f t = gapsOf P xs us t) :
    HasDerivAt (polyCost P xs us g f)
      ((∑ t ∈ Finset.range P.T, ((L.d t).Lx ⬝ᵥ sens L g f t
        + (L.d t).Lu ⬝ᵥ (-(g.out t).k - (g.out t).Kfb *ᵥ sens L g f t))) + L.LxT ⬝ᵥ sens L g f P.T) 0 := by
  unfold polyCost
  refine HasDerivAt.add (HasDerivAt.fun_sum fun t ht => ?_) ?_
  · have ht := Finset.mem_range.mp ht
    have hX := polyX_deriv (g := g) hE hf t ht.le
    refine HasGrad.along ?_ hX (polyU_deriv hX)
    rw [poly_zero hf t ht.le, polyU_zero hf t ht.le]
    exact hE.cost t ht
  · refine HasGrad1.along ?_ (polyX_deriv hE hf P.T le_rfl)
    rw [poly_zero hf P.T le_rfl]
    exact hE.term

/-- The gradient of the value function, with the gap term made explicit. -/
theorem Back.vx {llt : ∀ m, Matrix (Fin m) (Fin m) ℝ → Bool} {preg : Option ℝ} {feas : Bool} {T : Nat}
    (hb : Back llt preg feas T L.d L.LxT L.LxxT f g) (h0 : feas = true → ∀ t ≤ T, f t = 0) :
    (∀ t < T, (g.V t).Vx = (L.d t).Lx + (L.d t).Fxᵀ *ᵥ (g.V (t + 1)).Vx
        - (g.out t).Kfbᵀ *ᵥ (g.out t).Q.Qu + (g.V t).Vxx *ᵥ f t) ∧
    (g.V T).Vx = L.LxT + (g.V T).Vxx *ᵥ f T ∧
    (∀ t < T, (g.out t).Q.Qu = (L.d t).Lu + (L.d t).Fuᵀ *ᵥ (g.V (t + 1)).Vx) := by
  refine ⟨fun t ht => ?_, ?_, fun t ht => ?_⟩
  · obtain ⟨q, -, -, -, v⟩ := backNode_some (hb.node t ht)
    have e : (g.V t).Vx = (if feas then (g.out t).Q.Qx - (g.out t).Kfbᵀ *ᵥ (g.out t).Q.Qu else
        (g.out t).Q.Qx - (g.out t).Kfbᵀ *ᵥ (g.out t).Q.Qu + (g.V t).Vxx *ᵥ f t) := by
      rw [hb.val t ht, v]; rfl
    have hq : (g.out t).Q.Qx = (L.d t).Lx + (L.d t).Fxᵀ *ᵥ (g.V (t + 1)).Vx := by rw [q]; rfl
    rw [e, hq]
    cases hfe : feas
    · simp
    · simp [h0 hfe t ht.le]
  · have e : (g.V T).Vx = (if feas then L.LxT else L.LxT + (g.V T).Vxx *ᵥ f T) := by
      rw [hb.term]; rfl
    rw [e]
    cases hfe : feas
    · simp
    · simp [h0 hfe T le_rfl]
  · obtain ⟨q, -⟩ := backNode_some (hb.node t ht)
    rw [q]; rfl

/-- Telescoping: the first-order change of the cost in terms of the backward pass. -/
theorem slope_eq {llt : ∀ m, Matrix (Fin m) (Fin m) ℝ → Bool} {preg : Option ℝ} {feas : Bool} {T : Nat}
    (hb : Back llt preg feas T L.d L.LxT L.LxxT f g) (h0 : feas = true → ∀ t ≤ T, f t = 0) :
    (∑ t ∈ Finset.range T, ((L.d t).Lx ⬝ᵥ sens L g f t
        + (L.d t).Lu ⬝ᵥ (-(g.out t).k - (g.out t).Kfb *ᵥ sens L g f t))) + L.LxT ⬝ᵥ sens L g f T =
    - (∑ t ∈ Finset.range T, (g.out t).Q.Qu ⬝ᵥ (g.out t).k)
      + ∑ t ∈ Finset.range (T + 1), (g.V t).Vx ⬝ᵥ f t
      - ∑ t ∈ Finset.range (T + 1), ((g.V t).Vxx *ᵥ f t) ⬝ᵥ sens L g f t := by
  obtain ⟨hx, hT, hu⟩ := Back.vx hb h0
  -- each node
  have key : ∀ t < T, (L.d t).Lx ⬝ᵥ sens L g f t
      + (L.d t).Lu ⬝ᵥ (-(g.out t).k - (g.out t).Kfb *ᵥ sens L g f t) =
      ((g.V t).Vx ⬝ᵥ sens L g f t - (g.V (t + 1)).Vx ⬝ᵥ sens L g f (t + 1))
      - (g.out t).Q.Qu ⬝ᵥ (g.out t).k + (g.V (t + 1)).Vx ⬝ᵥ f (t + 1)
      - ((g.V t).Vxx *ᵥ f t) ⬝ᵥ sens L g f t := by
    intro t ht
    have e1 := congrArg (fun v => v ⬝ᵥ sens L g f t) (hx t ht)
    have e2 := congrArg (fun v => v ⬝ᵥ (-(g.out t).k - (g.out t).Kfb *ᵥ sens L g f t)) (hu t ht)
    simp only [add_dotProduct, sub_dotProduct] at e1 e2
    have e3 : (g.V (t + 1)).Vx ⬝ᵥ sens L g f (t + 1) =
        ((L.d t).Fxᵀ *ᵥ (g.V (t + 1)).Vx) ⬝ᵥ sens L g f t
        + ((L.d t).Fuᵀ *ᵥ (g.V (t + 1)).Vx) ⬝ᵥ (-(g.out t).k - (g.out t).Kfb *ᵥ sens L g f t)
        + (g.V (t + 1)).Vx ⬝ᵥ f (t + 1) := by
      rw [sens, dotProduct_add, dotProduct_add]
      congr 2
      · rw [mulVec_transpose, dotProduct_mulVec]
      · rw [mulVec_transpose, dotProduct_mulVec]
    have e4 : ((g.out t).Kfbᵀ *ᵥ (g.out t).Q.Qu) ⬝ᵥ sens L g f t =
        (g.out t).Q.Qu ⬝ᵥ ((g.out t).Kfb *ᵥ sens L g f t) := by
      rw [mulVec_transpose, dotProduct_mulVec]
    have e5 : (g.out t).Q.Qu ⬝ᵥ (-(g.out t).k - (g.out t).Kfb *ᵥ sens L g f t) =
        -((g.out t).Q.Qu ⬝ᵥ (g.out t).k) - (g.out t).Q.Qu ⬝ᵥ ((g.out t).Kfb *ᵥ sens L g f t) := by
      rw [dotProduct_sub, dotProduct_neg]
    linear_combination -e1 - e2 + e3 + e4 + e5
  rw [Finset.sum_congr rfl fun t ht => key t (Finset.mem_range.mp ht)]
  have e6 := congrArg (fun v => v ⬝ᵥ sens L g f T) hT
  simp only [add_dotProduct] at e6
  rw [Finset.sum_sub_distrib, Finset.sum_add_distrib, Finset.sum_sub_distrib, Finset.sum_range_sub',
    Finset.sum_range_succ' (fun t => (g.V t).Vx ⬝ᵥ f t) T,
    Finset.sum_range_succ (fun t => ((g.V t).Vxx *ᵥ f t) ⬝ᵥ sens L g f t) T]
  have e7 : sens L g f 0 = f 0 := rfl
  rw [e7]
  linear_combination -e6

end curve

section open_loop
variable {P : NlProb n m} {us : Nat → Fin m → ℝ} {L : Lin ℝ n m}

/-- First-order effect on the states of a change `v` of the controls. -/
def sensU (L : Lin ℝ n m) (v : Nat → Fin m → ℝ) : Nat → Fin n → ℝ
  | 0 => 0
  | t + 1 => (L.d t).Fx *ᵥ sensU L v t + (L.d t).Fu *ᵥ v t

theorem traj_zero (v : Nat → Fin m → ℝ) : (fun t => us t + (0 : ℝ) • v t) = us := by
  funext t; simp

theorem traj_deriv (hE : Exact P (traj P us) us L) (v : Nat → Fin m → ℝ) (t : Nat) (ht : t ≤ P.T) :
    HasDerivAt (fun a : ℝ => traj P (fun t => us t + a • v t) t) (sensU L v t) 0 := by
  induction t with
  | zero => exact hasDerivAt_const _ _
  | succ t ih =>
    have hU : HasDerivAt (fun a : ℝ => us t + a • v t) (v t) 0 := by
      simpa using ((hasDerivAt_id (0 : ℝ)).smul_const (v t)).const_add (us t)
    refine HasJac.along (X := fun a => traj P (fun t => us t + a • v t) t) ?_ (ih (by omega)) hU
    rw [traj_zero]
    simpa using hE.dyn t ht

theorem total_deriv (hE : Exact P (traj P us) us L) (v : Nat → Fin m → ℝ) :
    HasDerivAt (fun a : ℝ => total P (fun t => us t + a • v t))
      ((∑ t ∈ Finset.range P.T, ((L.d t).Lx ⬝ᵥ sensU L v t + (L.d t).Lu ⬝ᵥ v t))
        + L.LxT ⬝ᵥ sensU L v P.T) 0 := by
  unfold total
  refine HasDerivAt.add (HasDerivAt.fun_sum fun t ht => ?_) ?_
  · have ht := Finset.mem_range.mp ht
    have hU : HasDerivAt (fun a : ℝ => us t + a • v t) (v t) 0 := by
      simpa using ((hasDerivAt_id (0 : ℝ)).smul_const (v t)).const_add (us t)
    refine HasGrad.along (X := fun a => traj P (fun t => us t + a • v t) t) ?_ (traj_deriv hE v t ht.le) hU
    rw [traj_zero]
    simpa using hE.cost t ht
  · refine HasGrad1.along (X := fun a => traj P (fun t => us t + a • v t) P.T) ?_
      (traj_deriv hE v P.T le_rfl)
    rw [traj_zero]
    exact hE.term

/-- Adjoint states. -/
def adj (L : Lin ℝ n m) (T : Nat) : Nat → Fin n → ℝ
  | 0 => L.LxT
  | r + 1 => (L.d (T - (r + 1))).Lx + (L.d (T - (r + 1))).Fxᵀ *ᵥ adj L T r

/-- The derivative of the total cost with the adjoint states. -/
theorem total_slope (T : Nat) (v : Nat → Fin m → ℝ) :
    (∑ t ∈ Finset.range T, ((L.d t).Lx ⬝ᵥ sensU L v t + (L.d t).Lu ⬝ᵥ v t)) + L.LxT ⬝ᵥ sensU L v T =
    ∑ t ∈ Finset.range T, ((L.d t).Lu + (L.d t).Fuᵀ *ᵥ adj L T (T - (t + 1))) ⬝ᵥ v t := by
  have key : ∀ t < T, (L.d t).Lx ⬝ᵥ sensU L v t + (L.d t).Lu ⬝ᵥ v t =
      ((L.d t).Lu + (L.d t).Fuᵀ *ᵥ adj L T (T - (t + 1))) ⬝ᵥ v t
      + (adj L T (T - t) ⬝ᵥ sensU L v t - adj L T (T - (t + 1)) ⬝ᵥ sensU L v (t + 1)) := by
    intro t ht
    have hr : T - t = (T - (t + 1)) + 1 := by omega
    have ht' : T - (T - (t + 1) + 1) = t := by omega
    rw [hr, adj, ht', sensU, add_dotProduct, add_dotProduct, dotProduct_add]
    have e1 : ((L.d t).Fxᵀ *ᵥ adj L T (T - (t + 1))) ⬝ᵥ sensU L v t =
        adj L T (T - (t + 1)) ⬝ᵥ ((L.d t).Fx *ᵥ sensU L v t) := by
      rw [mulVec_transpose, dotProduct_mulVec]
    have e2 : ((L.d t).Fuᵀ *ᵥ adj L T (T - (t + 1))) ⬝ᵥ v t =
        adj L T (T - (t + 1)) ⬝ᵥ ((L.d t).Fu *ᵥ v t) := by
      rw [mulVec_transpose, dotProduct_mulVec]
    linear_combination -e1 - e2
  rw [Finset.sum_congr rfl fun t ht => key t (Finset.mem_range.mp ht), Finset.sum_add_distrib,
    Finset.sum_range_sub' (fun t => adj L T (T - t) ⬝ᵥ sensU L v t)]
  simp [sensU, adj]

theorem stationary_iff (hE : Exact P (traj P us) us L) :
    Stationary P us ↔ ∀ t < P.T, (L.d t).Lu + (L.d t).Fuᵀ *ᵥ adj L P.T (P.T - (t + 1)) = 0 := by
  constructor
  · intro h t ht
    let w : Nat → Fin m → ℝ := fun t => (L.d t).Lu + (L.d t).Fuᵀ *ᵥ adj L P.T (P.T - (t + 1))
    have e := (total_deriv hE w).unique (h w)
    rw [total_slope] at e
    have hz := (Finset.sum_eq_zero_iff_of_nonneg fun t _ => dot_self_nonneg (w t)).mp e t
      (Finset.mem_range.mpr ht)
    by_contra hne
    exact (dot_self_pos hne).ne' hz
  · intro h v
    refine (total_deriv hE v).congr_deriv ?_
    rw [total_slope]
    exact Finset.sum_eq_zero fun t ht => by rw [h t (Finset.mem_range.mp ht), zero_dotProduct]

/-- With no gaps, the adjoint gradient vanishes exactly when the `Qu` of the backward pass do. -/
theorem qu_zero_iff {llt : ∀ m, Matrix (Fin m) (Fin m) ℝ → Bool} {preg : Option ℝ} {feas : Bool} {T : Nat}
    {f : Nat → Fin n → ℝ} {g : Arrays ℝ n (fun _ => m)}
    (hb : Back llt preg feas T L.d L.LxT L.LxxT f g) (h0 : ∀ t ≤ T, f t = 0) :
    (∀ t < T, (g.out t).Q.Qu = 0) ↔ ∀ t < T, (L.d t).Lu + (L.d t).Fuᵀ *ᵥ adj L T (T - (t + 1)) = 0 := by
  obtain ⟨hx, hT, hu⟩ := Back.vx hb fun _ => h0
  have step : ∀ t < T, (g.V (t + 1)).Vx = adj L T (T - (t + 1)) → (g.out t).Q.Qu = 0 →
      (g.V t).Vx = adj L T (T - t) := by
    intro t ht e hq
    have hr : T - t = (T - (t + 1)) + 1 := by omega
    have ht' : T - (T - (t + 1) + 1) = t := by omega
    rw [hx t ht, hq, h0 t ht.le, hr, adj, ht', e]
    simp
  have hlast : (g.V T).Vx = adj L T (T - T) := by
    rw [hT, h0 T le_rfl]; simp [adj]
  have up : ∀ r, ∀ t, t + r = T → ((∀ j, t ≤ j → j < T → (g.out j).Q.Qu = 0) ∨
      (∀ j, t ≤ j → j < T → (L.d j).Lu + (L.d j).Fuᵀ *ᵥ adj L T (T - (j + 1)) = 0)) →
      (g.V t).Vx = adj L T (T - t) := by
    intro r
    induction r with
    | zero => intro t ht _; obtain rfl : t = T := by omega
              exact hlast
    | succ r ih =>
      intro t ht hor
      have e := ih (t + 1) (by omega) (hor.imp (fun h j hj => h j (by omega)) (fun h j hj => h j (by omega)))
      refine step t (by omega) e ?_
      rcases hor with h | h
      · exact h t le_rfl (by omega)
      · rw [hu t (by omega), e]; exact h t le_rfl (by omega)
  constructor
  · intro h t ht
    rw [← up (T - (t + 1)) (t + 1) (by omega) (.inl fun j _ hj => h j hj), ← hu t ht]
    exact h t ht
  · intro h t ht
    rw [hu t ht, up (T - (t + 1)) (t + 1) (by omega) (.inr fun j _ hj => h j hj)]
    exact h t ht

end open_loop
end Verif.Nl
