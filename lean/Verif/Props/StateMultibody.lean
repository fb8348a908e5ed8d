import Verif.Spec.StateMultibody
import Verif.Lemmas.Deriv
import Verif.Props.Limits
import Mathlib.Algebra.BigOperators.Fin
import Mathlib.Analysis.Calculus.Deriv.Basic
import Mathlib.Analysis.SpecialFunctions.Complex.Arg
import Mathlib.Analysis.Calculus.FDeriv.Congr

/-!
# C100: the multibody state
-/

set_option linter.unusedSectionVars false
set_option linter.unusedSimpArgs false

namespace Verif.Mb

open Verif.Dense Verif.StateVector Verif.Deriv
open Verif.Limits (finite)

variable {P : Pin} {V : (Fin P.nq → ℝ) → Prop} {Same : (Fin P.nq → ℝ) → (Fin P.nq → ℝ) → Prop}
  {Small : (Fin P.nv → ℝ) → Prop} {Reg : (Fin P.nq → ℝ) → (Fin P.nq → ℝ) → Prop}

/-! ## The two partial derivatives of `integrate` -/

theorem hasGrad_left {ι κ : Type*} [Fintype ι] [Fintype κ] {f : (ι → ℝ) → (κ → ℝ) → ℝ} {gx : ι → ℝ} {gu : κ → ℝ} {x : ι → ℝ}
    {u : κ → ℝ} (h : HasGrad f gx gu x u) : HasGrad1 (fun y => f y u) gx x := by
  have := HasFDerivAt.comp (f := fun e : ι → ℝ => (e, u)) x (show HasFDerivAt (fun p : (ι → ℝ) × (κ → ℝ) => f p.1 p.2) _ (x, u) from h)
    (hasFDerivAt_prodMk_left x u)
  refine HasFDerivAt.congr_fderiv this ?_
  ext1 w
  simp

theorem hasGrad_right {ι κ : Type*} [Fintype ι] [Fintype κ] {f : (ι → ℝ) → (κ → ℝ) → ℝ} {gx : ι → ℝ} {gu : κ → ℝ} {x : ι → ℝ}
    {u : κ → ℝ} (h : HasGrad f gx gu x u) : HasGrad1 (fun v => f x v) gu u := by
  have := HasFDerivAt.comp (f := fun e : κ → ℝ => (x, e)) u (show HasFDerivAt (fun p : (ι → ℝ) × (κ → ℝ) => f p.1 p.2) _ (x, u) from h)
    (hasFDerivAt_prodMk_right x u)
  refine HasFDerivAt.congr_fderiv this ?_
  ext1 w
  simp

theorem Pin.Group.dInt0 (hP : P.Group V Same Small Reg) (q : Fin P.nq → ℝ) (v : Fin P.nv → ℝ) (hq : V q) :
    HasJac1 (fun w => P.difference (P.integrate q v) (P.integrate (P.integrate q w) v)) (P.dInt false q v) 0 := fun a => by
  have := hasGrad_left (hP.dInt q v hq a)
  simpa only [add_zero] using this

theorem Pin.Group.dInt1 (hP : P.Group V Same Small Reg) (q : Fin P.nq → ℝ) (v : Fin P.nv → ℝ) (hq : V q) :
    HasJac1 (fun w => P.difference (P.integrate q v) (P.integrate q (v + w))) (P.dInt true q v) 0 := fun a => by
  have := hasGrad_right (hP.dInt q v hq a)
  simpa only [hP.int_zero q hq] using this

/-! ## Sizes -/

theorem init_nv (P : Pin) (big : ℝ) : (St.init P big).nv = P.nv := by simp [St.init, St.update]
theorem init_nq (P : Pin) (big : ℝ) : (St.init P big).nq = P.nq := by simp [St.init, St.update]
theorem init_nx (P : Pin) (big : ℝ) : (St.init P big).nx = P.nq + P.nv := rfl
theorem init_ndx (P : Pin) (big : ℝ) : (St.init P big).ndx = 2 * P.nv := rfl
theorem init_P (P : Pin) (big : ℝ) : (St.init P big).P = P := rfl

/-- A state as built by the constructor, possibly with other limits. -/
structure Built (s : St) (P : Pin) : Prop where
  pin : s.P = P
  nx : s.nx = P.nq + P.nv
  ndx : s.ndx = 2 * P.nv
  nq : s.nq = P.nq
  nv : s.nv = P.nv

theorem built_init (P : Pin) (big : ℝ) : Built (St.init P big) P :=
  ⟨rfl, rfl, rfl, init_nq P big, init_nv P big⟩

theorem built_step {s : St} {P : Pin} (h : Built s P) (c : LimCall) : Built (s.step c) P := by
  cases c <;> simp only [St.step, St.setLb, St.setUb] <;> split_ifs <;>
    first | exact h | exact ⟨h.pin, h.nx, h.ndx, h.nq, h.nv⟩

theorem built_after (P : Pin) (big : ℝ) (h : List LimCall) : Built (after P big h) P := by
  unfold after
  have : ∀ s, Built s P → Built (h.foldl St.step s) P := by
    induction h with
    | nil => exact fun s hs => hs
    | cons c h ih => exact fun s hs => ih _ (built_step hs c)
  exact this _ (built_init P big)

theorem diff_ok {s : St} (hb : Built s P) {x y o : DVec ℝ} (hx : x.size = P.nq + P.nv) (hy : y.size = P.nq + P.nv)
    (ho : o.size = 2 * P.nv) :
    (s.diff x y o).1 = .ok ∧ (s.diff x y o).2.size = 2 * P.nv
    ∧ (∀ i (h : i < P.nv), (s.diff x y o).2.e i = P.difference (conf P x) (conf P y) ⟨i, h⟩)
    ∧ ∀ i, i < P.nv → (s.diff x y o).2.e (P.nv + i) = y.e (P.nq + i) - x.e (P.nq + i) := by
  obtain ⟨rfl, h1, h2, h3, h4⟩ := hb
  have e1 : 2 * s.P.nv - s.P.nv = s.P.nv := by omega
  have e2 : s.P.nq + s.P.nv - s.P.nv = s.P.nq := by omega
  simp only [St.diff, h1, h2, h3, h4, hx, hy, ho, ne_eq, not_true_eq_false, if_false, DVec.setSeg, e1, e2, true_and]
  refine ⟨fun i h => ?_, fun i h => ?_⟩
  · rw [if_neg (by omega), if_pos (by omega)]
    simp only [ent, Nat.sub_zero, h, dif_pos]
    rfl
  · rw [if_pos (by omega), Nat.add_sub_cancel_left]

theorem int_ok {s : St} (hb : Built s P) {x dx o : DVec ℝ} (hx : x.size = P.nq + P.nv) (hdx : dx.size = 2 * P.nv)
    (ho : o.size = P.nq + P.nv) :
    (s.integrate x dx o).1 = .ok ∧ (s.integrate x dx o).2.size = P.nq + P.nv
    ∧ conf P (s.integrate x dx o).2 = P.integrate (conf P x) (vec P.nv dx)
    ∧ ∀ i, i < P.nv → (s.integrate x dx o).2.e (P.nq + i) = x.e (P.nq + i) + dx.e (P.nv + i) := by
  obtain ⟨rfl, h1, h2, h3, h4⟩ := hb
  have e1 : 2 * s.P.nv - s.P.nv = s.P.nv := by omega
  have e2 : s.P.nq + s.P.nv - s.P.nv = s.P.nq := by omega
  simp only [St.integrate, h1, h2, h3, h4, hx, hdx, ho, ne_eq, not_true_eq_false, if_false, DVec.setSeg, e1, e2, true_and]
  refine ⟨funext fun i => ?_, fun i h => ?_⟩
  · have hi := i.2
    simp only [conf]
    rw [if_neg (by omega), if_pos (by omega)]
    simp only [ent, Nat.sub_zero, hi, dif_pos]
    rfl
  · rw [if_pos (by omega), Nat.add_sub_cancel_left]

/-! ## C100: states and their differences -/

/-- **C100 (sizes).** `diff` and `integrate` throw exactly on a wrong size, and then leave the output. -/
theorem C100_rejects (P : Pin) (big : ℝ) (hist : List LimCall) (a b o : DVec ℝ) :
    let s := after P big hist
    ((s.diff a b o).1 = .throw ↔ a.size ≠ P.nq + P.nv ∨ b.size ≠ P.nq + P.nv ∨ o.size ≠ 2 * P.nv)
    ∧ ((s.integrate a b o).1 = .throw ↔ a.size ≠ P.nq + P.nv ∨ b.size ≠ 2 * P.nv ∨ o.size ≠ P.nq + P.nv)
    ∧ ((s.diff a b o).1 = .throw → (s.diff a b o).2 = o) ∧ ((s.integrate a b o).1 = .throw → (s.integrate a b o).2 = o) := by
  intro s
  have hb : Built s P := built_after P big hist
  unfold St.diff St.integrate
  rw [hb.nx, hb.ndx]
  refine ⟨?_, ?_, ?_, ?_⟩
  · by_cases h1 : a.size = P.nq + P.nv <;> by_cases h2 : b.size = P.nq + P.nv <;> by_cases h3 : o.size = 2 * P.nv <;>
      simp [h1, h2, h3]
  · by_cases h1 : a.size = P.nq + P.nv <;> by_cases h2 : b.size = 2 * P.nv <;> by_cases h3 : o.size = P.nq + P.nv <;>
      simp [h1, h2, h3]
  · split_ifs <;> simp
  · split_ifs <;> simp

/-- **C100 (integration of a difference).** From `x`, the difference to `y` leads to `y`. -/
theorem C100_integrate_diff (hP : P.Group V Same Small Reg) (big : ℝ) (hist : List LimCall) (x y d o : DVec ℝ)
    (hx : Valid P V x) (hy : Valid P V y) (hd : d.size = 2 * P.nv) (ho : o.size = P.nq + P.nv) :
    let s := after P big hist
    (s.diff x y d).1 = .ok ∧ (s.integrate x (s.diff x y d).2 o).1 = .ok
    ∧ SameState P Same (s.integrate x (s.diff x y d).2 o).2 y ∧ Valid P V (s.integrate x (s.diff x y d).2 o).2 := by
  intro s
  have hb : Built s P := built_after P big hist
  obtain ⟨a1, a2, a3, a4⟩ := diff_ok hb hx.1 hy.1 hd
  obtain ⟨b1, b2, b3, b4⟩ := int_ok hb hx.1 a2 ho
  have hv : vec P.nv (s.diff x y d).2 = P.difference (conf P x) (conf P y) := funext fun i => a3 i i.2
  refine ⟨a1, b1, ⟨b2.trans hy.1.symm, ?_, funext fun i => ?_⟩, b2, ?_⟩
  · rw [b3, hv]; exact hP.int_diff _ _ hx.2 hy.2
  · simp only [veloc]; rw [b4 i i.2, a4 i i.2]; ring
  · rw [b3]; exact hP.closed _ _ hx.2

/-- **C100 (difference of an integration).** The difference from `x` to the integration of `dx` at `x` is `dx`, if its part
on the configuration is before the cut of the group. -/
theorem C100_diff_integrate (hP : P.Group V Same Small Reg) (big : ℝ) (hist : List LimCall) (x dx d o : DVec ℝ)
    (hx : Valid P V x) (hdx : dx.size = 2 * P.nv) (hs : Small (vec P.nv dx)) (hd : d.size = 2 * P.nv)
    (ho : o.size = P.nq + P.nv) :
    let s := after P big hist
    (s.integrate x dx o).1 = .ok ∧ (s.diff x (s.integrate x dx o).2 d).1 = .ok
    ∧ vec (2 * P.nv) (s.diff x (s.integrate x dx o).2 d).2 = vec (2 * P.nv) dx := by
  intro s
  have hb : Built s P := built_after P big hist
  obtain ⟨b1, b2, b3, b4⟩ := int_ok hb hx.1 hdx ho
  obtain ⟨a1, a2, a3, a4⟩ := diff_ok hb hx.1 b2 hd
  refine ⟨b1, a1, funext fun i => ?_⟩
  by_cases hi : (i : ℕ) < P.nv
  · simp only [vec]
    rw [a3 i hi, b3, hP.diff_int _ _ hx.2 hs]
    rfl
  · have hi' : (i : ℕ) - P.nv < P.nv := by have := i.2; omega
    have e : (i : ℕ) = P.nv + (i - P.nv) := by omega
    simp only [vec]
    rw [e, a4 _ hi', b4 _ hi']
    ring

/-- **C100 (zero).** The zero state is valid and at rest, and integrating no displacement changes nothing. -/
theorem C100_zero (hP : P.Group V Same Small Reg) (big : ℝ) (hist : List LimCall) (x o : DVec ℝ) (hx : Valid P V x)
    (ho : o.size = P.nq + P.nv) :
    let s := after P big hist
    Valid P V s.zero ∧ veloc P s.zero = 0 ∧ conf P s.zero = P.neutral
    ∧ conf P (s.integrate x ⟨2 * P.nv, fun _ => 0⟩ o).2 = conf P x
    ∧ veloc P (s.integrate x ⟨2 * P.nv, fun _ => 0⟩ o).2 = veloc P x := by
  intro s
  have hb : Built s P := built_after P big hist
  have hz : s.zero = (St.init P big).zero := by
    have : ∀ (h : List LimCall) (s : St), (h.foldl St.step s).x0 = s.x0 := by
      intro h
      induction h with
      | nil => exact fun s => rfl
      | cons c h ih =>
        intro s
        rw [List.foldl_cons, ih]
        cases c <;> simp only [St.step, St.setLb, St.setUb] <;> split_ifs <;> rfl
    exact this hist _
  have hc : conf P (St.init P big).zero = P.neutral := by
    funext i
    have hi := i.2
    have e : (P.nq + P.nv - 2 * P.nv / 2) = P.nq := by omega
    simp only [conf, St.zero, St.init, St.update, DVec.setSeg, e]
    rw [if_pos (by omega)]
    simp [ent]
  obtain ⟨b1, b2, b3, b4⟩ := int_ok (dx := ⟨2 * P.nv, fun _ => 0⟩) hb hx.1 rfl ho
  rw [hz]
  refine ⟨⟨rfl, by rw [hc]; exact hP.neutral⟩, ?_, hc, ?_, ?_⟩
  · funext i
    have e : (P.nq + P.nv - 2 * P.nv / 2) = P.nq := by omega
    simp only [veloc, St.zero, St.init, St.update, DVec.setSeg, e]
    rw [if_neg (by omega)]
    rfl
  · rw [b3]; exact hP.int_zero _ hx.2
  · funext i; simp only [veloc]; rw [b4 i i.2]; simp

/-! ## Jacobians -/

/-- The block matrix with `D` in the upper left corner and `σ` times the identity below. -/
noncomputable def blk (n : ℕ) (D : Matrix (Fin n) (Fin n) ℝ) (σ : ℝ) : Matrix (Fin (2 * n)) (Fin (2 * n)) ℝ :=
  fun i j => if i.1 < n ∧ j.1 < n then ent2 D i j else if n ≤ i.1 ∧ i = j then σ else 0

private theorem sum_half (n N : ℕ) (hN : N = n + n) (g : Fin n → ℝ) (h : Fin N → ℝ) :
    ∑ i : Fin N, (if i.1 < n then ent g i else 0) * h i = ∑ i : Fin n, g i * h ⟨i, by omega⟩ := by
  subst hN
  rw [Fin.sum_univ_add]
  have h2 : ∑ i : Fin n, (if (Fin.natAdd n i : Fin (n + n)).1 < n then ent g (Fin.natAdd n i : Fin (n + n)) else 0)
      * h (Fin.natAdd n i) = 0 := Finset.sum_eq_zero fun i _ => by
    rw [if_neg (by simp)]; ring
  rw [h2, add_zero]
  refine Finset.sum_congr rfl fun i _ => ?_
  rw [if_pos (by simp)]
  simp only [ent, Fin.val_castAdd, i.2, dif_pos]
  rfl

/-- The projection on the first half. -/
noncomputable def lo (n : ℕ) : (Fin (2 * n) → ℝ) →L[ℝ] (Fin n → ℝ) :=
  ContinuousLinearMap.pi fun i => ContinuousLinearMap.proj (R := ℝ) (φ := fun _ : Fin (2 * n) => ℝ) ⟨i, by omega⟩

theorem block_jac {n : ℕ} {f : (Fin (2 * n) → ℝ) → Fin (2 * n) → ℝ} {g : (Fin n → ℝ) → Fin n → ℝ}
    {D : Matrix (Fin n) (Fin n) ℝ} {σ : ℝ} {c : ℕ → ℝ} (hg : HasJac1 g D 0)
    (h1 : ∀ w i (h : i < n), f w ⟨i, by omega⟩ = g (lo n w) ⟨i, h⟩)
    (h2 : ∀ w i (h : i < n), f w ⟨n + i, by omega⟩ = c i + σ * w ⟨n + i, by omega⟩) :
    HasJac1 f (blk n D σ) 0 := by
  intro a
  by_cases ha : a.1 < n
  · have e : (fun w => f w a) = fun w => g (lo n w) ⟨a, ha⟩ := funext fun w => h1 w a ha
    rw [HasGrad1, e]
    have hg' : HasFDerivAt (fun y => g y ⟨a, ha⟩) (form (D ⟨a, ha⟩)) (lo n 0) := by
      rw [map_zero]; exact hg ⟨a, ha⟩
    refine (hg'.comp (0 : Fin (2 * n) → ℝ) (lo n).hasFDerivAt).congr_fderiv ?_
    ext1 w
    rw [ContinuousLinearMap.comp_apply, form_apply, form_apply]
    have := sum_half n (2 * n) (two_mul n) (D ⟨a, ha⟩) w
    refine (this.symm.trans (Finset.sum_congr rfl fun j _ => ?_))
    simp only [blk, ha, true_and]
    by_cases hj : j.1 < n
    · simp [hj, ent, ent2, ha]
    · have : ¬ n ≤ a.1 := by omega
      simp [hj, this]
  · have ha' : a.1 - n < n := by have := a.2; omega
    have hae : a = ⟨n + (a.1 - n), by omega⟩ := Fin.ext (by simp; omega)
    have e : (fun w => f w a) = fun w => c (a.1 - n) + σ * w a := by
      funext w
      have := h2 w _ ha'
      rw [← hae] at this
      exact this
    rw [HasGrad1, e]
    have hp : HasFDerivAt (fun w : Fin (2 * n) → ℝ => w a) (ContinuousLinearMap.proj (R := ℝ) (φ := fun _ => ℝ) a) 0 :=
      (ContinuousLinearMap.proj (R := ℝ) (φ := fun _ : Fin (2 * n) => ℝ) a).hasFDerivAt
    refine ((hp.const_mul σ).const_add (c (a.1 - n))).congr_fderiv ?_
    ext1 w
    rw [form_apply]
    have hn : n ≤ a.1 := not_lt.1 ha
    simp only [blk, ha, false_and, if_false, hn, true_and]
    simp [Finset.sum_ite_eq]

theorem mat_ji {s : St} (hb : Built s P) (op : AssignOp) (D : Matrix (Fin P.nv) (Fin P.nv) ℝ) (σ : ℝ) (J : DMat ℝ)
    (hJ : Square (2 * P.nv) J) (hz : op = .setto → CleanOff P.nv J) :
    Wrote (2 * P.nv) op J (cornerDiag op s.nv σ (corner op s.nv (ent2 D) J)) (blk P.nv D σ) := by
  refine ⟨hJ, ?_⟩
  have key : ∀ i j : Fin (2 * P.nv), (cornerDiag op s.nv σ (corner op s.nv (ent2 D) J)).e i j
      = if i.1 < P.nv ∧ j.1 < P.nv then op.apply (J.e i j) (blk P.nv D σ i j)
        else if P.nv ≤ i.1 ∧ i = j then op.apply (J.e i j) (blk P.nv D σ i j) else J.e i j := by
    intro i j
    have hi := i.2
    have hr : J.rows = 2 * P.nv := hJ.1
    simp only [cornerDiag, corner, hb.nv, hr, blk]
    by_cases c1 : i.1 < P.nv ∧ j.1 < P.nv
    · rw [if_neg (by omega), if_pos c1, if_pos c1, if_pos c1]
    · rw [if_neg c1, if_neg c1, if_neg c1]
      by_cases c2 : P.nv ≤ i.1 ∧ i = j
      · rw [if_pos ⟨by omega, by omega, congrArg Fin.val c2.2⟩, if_pos c2, if_pos c2]
      · rw [if_neg (fun h => c2 ⟨by omega, Fin.ext h.2.2⟩), if_neg c2]
  have hblk : ∀ i j : Fin (2 * P.nv), ¬ (i.1 < P.nv ∧ j.1 < P.nv) → ¬ (P.nv ≤ i.1 ∧ i = j) → blk P.nv D σ i j = 0 := by
    intro i j c1 c2
    simp only [blk]
    rw [if_neg c1, if_neg c2]
  cases op with
  | setto =>
    funext i j
    simp only [mat]
    rw [key]
    split_ifs with c1 c2
    · rfl
    · rfl
    · rw [hblk i j c1 c2]
      refine hz rfl i i.2 j j.2 (by omega) (fun h => ?_)
      have : i = j := Fin.ext h
      subst this
      exact c2 ⟨by omega, rfl⟩
  | addto =>
    funext i j
    change (_ : ℝ) = J.e i j + blk P.nv D σ i j
    simp only [mat]
    rw [key]
    split_ifs with c1 c2
    · rfl
    · rfl
    · rw [hblk i j c1 c2, add_zero]
  | rmfrom =>
    funext i j
    change (_ : ℝ) = J.e i j - blk P.nv D σ i j
    simp only [mat]
    rw [key]
    split_ifs with c1 c2
    · rfl
    · rfl
    · rw [hblk i j c1 c2, sub_zero]

private theorem vec_dvec (n : ℕ) (w : Fin (2 * n) → ℝ) : vec n (dvec w) = lo n w := by
  funext i
  have : (i : ℕ) < 2 * n := by have := i.2; omega
  simp [vec, dvec, lo, this]

private theorem dvec_e (n : ℕ) (w : Fin (2 * n) → ℝ) (i : ℕ) (h : i < n) : (dvec w).e (n + i) = w ⟨n + i, by omega⟩ := by
  have : n + i < 2 * n := by omega
  simp [dvec, this]

section

variable {s : St} (hb : Built s P) (hP : P.Group V Same Small Reg)
include hb hP

theorem jac_diff0 {x y : DVec ℝ} (hx : Valid P V x) (hy : Valid P V y) (hr : Reg (conf P x) (conf P y)) :
    HasJac1 (fun w => vec (2 * P.nv) (s.diffDx (s.integrateX x (dvec w)).2 y).2) (blk P.nv (P.dDiff false (conf P x) (conf P y)) (-1)) 0 := by
  refine block_jac (c := fun i => y.e (P.nq + i) - x.e (P.nq + i)) (hP.dDiff0 _ _ hx.2 hy.2 hr) (fun w i h => ?_) (fun w i h => ?_)
  all_goals
    obtain ⟨-, b2, b3, b4⟩ := int_ok (o := ⟨s.nx, fun _ => 0⟩) (dx := dvec w) hb hx.1 rfl hb.nx
    obtain ⟨-, -, a3, a4⟩ := diff_ok (o := ⟨s.ndx, fun _ => 0⟩) hb b2 hy.1 hb.ndx
  · refine (a3 i h).trans ?_
    rw [b3, vec_dvec]
  · refine (a4 i h).trans ?_
    rw [b4 i h, dvec_e _ _ _ h]
    ring

theorem jac_diff1 {x y : DVec ℝ} (hx : Valid P V x) (hy : Valid P V y) (hr : Reg (conf P x) (conf P y)) :
    HasJac1 (fun w => vec (2 * P.nv) (s.diffDx x (s.integrateX y (dvec w)).2).2) (blk P.nv (P.dDiff true (conf P x) (conf P y)) 1) 0 := by
  refine block_jac (c := fun i => y.e (P.nq + i) - x.e (P.nq + i)) (hP.dDiff1 _ _ hx.2 hy.2 hr) (fun w i h => ?_) (fun w i h => ?_)
  all_goals
    obtain ⟨-, b2, b3, b4⟩ := int_ok (o := ⟨s.nx, fun _ => 0⟩) (dx := dvec w) hb hy.1 rfl hb.nx
    obtain ⟨-, -, a3, a4⟩ := diff_ok (o := ⟨s.ndx, fun _ => 0⟩) hb hx.1 b2 hb.ndx
  · refine (a3 i h).trans ?_
    rw [b3, vec_dvec]
  · refine (a4 i h).trans ?_
    rw [b4 i h, dvec_e _ _ _ h]
    ring

theorem jac_int0 {x dx : DVec ℝ} (hx : Valid P V x) (hd : dx.size = 2 * P.nv) :
    HasJac1 (fun w => vec (2 * P.nv) (s.diffDx (s.integrateX x dx).2 (s.integrateX (s.integrateX x (dvec w)).2 dx).2).2)
      (blk P.nv (P.dInt false (conf P x) (vec P.nv dx)) 1) 0 := by
  refine block_jac (c := fun _ => 0) (hP.dInt0 _ (vec P.nv dx) hx.2) (fun w i h => ?_) (fun w i h => ?_)
  all_goals
    obtain ⟨-, b2, b3, b4⟩ := int_ok (o := ⟨s.nx, fun _ => 0⟩) (dx := dvec w) hb hx.1 rfl hb.nx
    obtain ⟨-, c2, c3, c4⟩ := int_ok (o := ⟨s.nx, fun _ => 0⟩) hb hx.1 hd hb.nx
    obtain ⟨-, d2, d3, d4⟩ := int_ok (o := ⟨s.nx, fun _ => 0⟩) hb b2 hd hb.nx
    obtain ⟨-, -, a3, a4⟩ := diff_ok (o := ⟨s.ndx, fun _ => 0⟩) hb c2 d2 hb.ndx
  · refine (a3 i h).trans ?_
    rw [c3, d3, b3, vec_dvec]
  · refine (a4 i h).trans ?_
    rw [d4 i h, c4 i h, b4 i h, dvec_e _ _ _ h]
    ring

theorem jac_int1 {x dx : DVec ℝ} (hx : Valid P V x) (hd : dx.size = 2 * P.nv) :
    HasJac1 (fun w => vec (2 * P.nv) (s.diffDx (s.integrateX x dx).2 (s.integrateX x (dvec (vec (2 * P.nv) dx + w))).2).2)
      (blk P.nv (P.dInt true (conf P x) (vec P.nv dx)) 1) 0 := by
  refine block_jac (c := fun _ => 0) (hP.dInt1 _ (vec P.nv dx) hx.2) (fun w i h => ?_) (fun w i h => ?_)
  all_goals
    obtain ⟨-, c2, c3, c4⟩ := int_ok (o := ⟨s.nx, fun _ => 0⟩) hb hx.1 hd hb.nx
    obtain ⟨-, d2, d3, d4⟩ := int_ok (o := ⟨s.nx, fun _ => 0⟩) (dx := dvec (vec (2 * P.nv) dx + w)) hb hx.1 rfl hb.nx
    obtain ⟨-, -, a3, a4⟩ := diff_ok (o := ⟨s.ndx, fun _ => 0⟩) hb c2 d2 hb.ndx
  · refine (a3 i h).trans ?_
    rw [c3, d3, vec_dvec, map_add]
    rfl
  · refine (a4 i h).trans ?_
    rw [d4 i h, c4 i h, dvec_e _ _ _ h]
    simp only [Pi.add_apply, vec]
    ring

end

theorem jd_eq {s : St} (hb : Built s P) (arg : Bool) (x y : DVec ℝ) (J : DMat ℝ) :
    s.jd arg x y J = cornerDiag .setto s.nv (if arg then 1 else -1)
      (corner .setto s.nv (ent2 (P.dDiff arg (conf P x) (conf P y))) J) := by
  obtain ⟨rfl, -⟩ := hb
  rfl

theorem ji_eq {s : St} (hb : Built s P) (arg : Bool) (op : AssignOp) (x dx : DVec ℝ) (J : DMat ℝ) :
    s.ji arg op x dx J
      = cornerDiag op s.nv 1 (corner op s.nv (ent2 (P.dInt arg (conf P x) (vec P.nv dx))) J) := by
  obtain ⟨rfl, -⟩ := hb
  rfl

/-- The rows of a buffer that the transport reads. -/
def topRows (n c : ℕ) (J : DMat ℝ) : Matrix (Fin n) (Fin c) ℝ := fun i j => J.e i j

theorem tr_eq {s : St} (hb : Built s P) (arg : Bool) (x dx : DVec ℝ) (J : DMat ℝ) :
    St.JintegrateTransport.tr s x dx J arg = J.opRows .setto 0 s.nv
        (ent2 (P.transport arg (conf P x) (vec P.nv dx) J.cols (topRows P.nv J.cols J))) := by
  obtain ⟨rfl, -⟩ := hb
  rfl

/-- **C100 (`Jdiff`, partial).** With buffers of the right size whose entries off the corner and off the diagonal are zero,
`Jdiff` writes into the requested buffers the Jacobians of the difference with respect to displacements of the first and of the
second state, and leaves the other buffer. Missing, and false: buffers with other entries (`C100_stale_counterexample`). -/
theorem C100_Jdiff_partial (hP : P.Group V Same Small Reg) (big : ℝ) (hist : List LimCall) (x y : DVec ℝ) (hx : Valid P V x)
    (hy : Valid P V y) (hr : Reg (conf P x) (conf P y)) (J0 J1 : DMat ℝ) (fs : Jcomp)
    (h0 : fs ≠ .second → Square (2 * P.nv) J0 ∧ CleanOff P.nv J0) (h1 : fs ≠ .first → Square (2 * P.nv) J1 ∧ CleanOff P.nv J1) :
    let s := after P big hist
    let r := s.Jdiff x y J0 J1 fs
    r.1 = .ok
    ∧ (fs ≠ .second → HasJac1 (fun w => vec (2 * P.nv) (s.diffDx (s.integrateX x (dvec w)).2 y).2) (mat (2 * P.nv) r.2.1) 0)
    ∧ (fs = .second → r.2.1 = J0)
    ∧ (fs ≠ .first → HasJac1 (fun w => vec (2 * P.nv) (s.diffDx x (s.integrateX y (dvec w)).2).2) (mat (2 * P.nv) r.2.2) 0)
    ∧ (fs = .first → r.2.2 = J1) := by
  intro s r
  have hb : Built s P := built_after P big hist
  have k0 := fun h => (mat_ji hb .setto (P.dDiff false (conf P x) (conf P y)) (-1) J0 (h0 h).1 (fun _ => (h0 h).2)).2
  have k1 := fun h => (mat_ji hb .setto (P.dDiff true (conf P x) (conf P y)) 1 J1 (h1 h).1 (fun _ => (h1 h).2)).2
  have j0 := jac_diff0 hb hP hx hy hr
  have j1 := jac_diff1 hb hP hx hy hr
  have e0 : s.jd false x y J0 = cornerDiag .setto s.nv (-1) (corner .setto s.nv (ent2 (P.dDiff false (conf P x) (conf P y))) J0) := by
    exact (jd_eq hb _ x y _).trans (by simp [s])
  have e1 : s.jd true x y J1 = cornerDiag .setto s.nv 1 (corner .setto s.nv (ent2 (P.dDiff true (conf P x) (conf P y))) J1) := by
    exact (jd_eq hb _ x y _).trans (by simp [s])
  have w0 : fs ≠ .second → ¬ s.wrong J0 := fun h hw => by
    have := (h0 h).1
    rw [St.wrong, hb.ndx, this.1, this.2] at hw
    simp at hw
  have w1 : fs ≠ .first → ¬ s.wrong J1 := fun h hw => by
    have := (h1 h).1
    rw [St.wrong, hb.ndx, this.1, this.2] at hw
    simp at hw
  have hxs : x.size = s.nx := hx.1.trans hb.nx.symm
  have hys : y.size = s.nx := hy.1.trans hb.nx.symm
  have hr1 : r = s.Jdiff x y J0 J1 fs := rfl
  cases fs with
  | both =>
    have hr2 : r = (.ok, s.jd false x y J0, s.jd true x y J1) := by
      simp [hr1, St.Jdiff, hxs, hys, w0, w1]
    rw [hr2]
    refine ⟨rfl, fun h => ?_, fun h => by simp at h, fun h => ?_, fun h => by simp at h⟩
    · rw [show mat (2 * P.nv) (s.jd false x y J0) = _ from e0 ▸ k0 h]; exact j0
    · rw [show mat (2 * P.nv) (s.jd true x y J1) = _ from e1 ▸ k1 h]; exact j1
  | first =>
    have hr2 : r = (.ok, s.jd false x y J0, J1) := by
      simp [hr1, St.Jdiff, hxs, hys, w0]
    rw [hr2]
    refine ⟨rfl, fun h => ?_, fun h => by simp at h, fun h => by simp at h, fun _ => rfl⟩
    rw [show mat (2 * P.nv) (s.jd false x y J0) = _ from e0 ▸ k0 h]; exact j0
  | second =>
    have hr2 : r = (.ok, J0, s.jd true x y J1) := by
      simp [hr1, St.Jdiff, hxs, hys, w1]
    rw [hr2]
    refine ⟨rfl, fun h => by simp at h, fun _ => rfl, fun h => ?_, fun h => by simp at h⟩
    rw [show mat (2 * P.nv) (s.jd true x y J1) = _ from e1 ▸ k1 h]; exact j1

/-- **C100 (`Jintegrate`, partial).** With states and buffers of the right sizes, `Jintegrate` writes into, adds to or subtracts
from the requested buffers the Jacobians of the integration with respect to displacements of the state and changes of the
increment, and leaves the other buffer; when writing, the entries of the buffers off the corner and off the diagonal must be
zero. Missing, and false: writing into other buffers (`C100_stale_counterexample`). -/
theorem C100_Jintegrate_partial (hP : P.Group V Same Small Reg) (big : ℝ) (hist : List LimCall) (x dx : DVec ℝ)
    (hx : Valid P V x) (hd : dx.size = 2 * P.nv) (J0 J1 : DMat ℝ) (fs : Jcomp) (op : AssignOp)
    (h0 : fs ≠ .second → Square (2 * P.nv) J0 ∧ (op = .setto → CleanOff P.nv J0))
    (h1 : fs ≠ .first → Square (2 * P.nv) J1 ∧ (op = .setto → CleanOff P.nv J1)) :
    let s := after P big hist
    ∃ K0 K1 D0 D1, s.Jintegrate x dx J0 J1 fs op = some (.ok, K0, K1)
    ∧ HasJac1 (fun w => vec (2 * P.nv)
        (s.diffDx (s.integrateX x dx).2 (s.integrateX (s.integrateX x (dvec w)).2 dx).2).2) D0 0
    ∧ HasJac1 (fun w => vec (2 * P.nv)
        (s.diffDx (s.integrateX x dx).2 (s.integrateX x (dvec (vec (2 * P.nv) dx + w))).2).2) D1 0
    ∧ (fs ≠ .second → Wrote (2 * P.nv) op J0 K0 D0) ∧ (fs = .second → K0 = J0)
    ∧ (fs ≠ .first → Wrote (2 * P.nv) op J1 K1 D1) ∧ (fs = .first → K1 = J1) := by
  intro s
  have hb : Built s P := built_after P big hist
  have e : ∀ arg J, s.ji arg op x dx J
      = cornerDiag op s.nv 1 (corner op s.nv (ent2 (P.dInt arg (conf P x) (vec P.nv dx))) J) := by
    exact fun arg J => ji_eq hb arg op x dx J
  have w0 : ¬ (fs ≠ .second ∧ s.wrong J0) := fun ⟨h, hw⟩ => by
    have := (h0 h).1
    rw [St.wrong, hb.ndx, this.1, this.2] at hw
    simp at hw
  have w1 : ¬ (fs ≠ .first ∧ s.wrong J1) := fun ⟨h, hw⟩ => by
    have := (h1 h).1
    rw [St.wrong, hb.ndx, this.1, this.2] at hw
    simp at hw
  have hs : ¬ s.short x dx := by
    rw [St.short, hb.nq, hb.nv, hx.1, hd]
    omega
  refine ⟨if fs ≠ .second then s.ji false op x dx J0 else J0, if fs ≠ .first then s.ji true op x dx J1 else J1, _, _, ?_,
    jac_int0 hb hP hx hd, jac_int1 hb hP hx hd, fun h => ?_, fun h => ?_, fun h => ?_, fun h => ?_⟩
  · simp only [St.Jintegrate]
    rw [if_neg w0, if_neg (fun h => hs h.2), if_neg w1, if_neg (fun h => hs h.2)]
  · rw [if_pos h, e]; exact mat_ji hb op _ 1 J0 (h0 h).1 (h0 h).2
  · rw [if_neg (not_not.2 h)]
  · rw [if_pos h, e]; exact mat_ji hb op _ 1 J1 (h1 h).1 (h1 h).2
  · rw [if_neg (not_not.2 h)]

private theorem square_zero (n : ℕ) : Square (2 * n) ⟨2 * n, 2 * n, fun _ _ => 0⟩ ∧ CleanOff n ⟨2 * n, 2 * n, fun _ _ => 0⟩ :=
  ⟨⟨rfl, rfl⟩, fun _ _ _ _ _ _ => rfl⟩

/-- **C100 (`Jdiff_Js`, `Jintegrate_Js`).** The calls that return the Jacobians return the right ones, for all valid states. -/
theorem C100_Js (hP : P.Group V Same Small Reg) (big : ℝ) (hist : List LimCall) (x y dx : DVec ℝ)
    (hx : Valid P V x) (hy : Valid P V y) (hr : Reg (conf P x) (conf P y)) (hd : dx.size = 2 * P.nv) (fs : Jcomp) :
    let s := after P big hist
    (∃ J0 J1, s.JdiffJs x y fs = (.ok, match fs with
        | .both => [J0, J1]
        | .first => [J0]
        | .second => [J1])
      ∧ (fs ≠ .second → HasJac1 (fun w => vec (2 * P.nv) (s.diffDx (s.integrateX x (dvec w)).2 y).2) (mat (2 * P.nv) J0) 0)
      ∧ (fs ≠ .first → HasJac1 (fun w => vec (2 * P.nv) (s.diffDx x (s.integrateX y (dvec w)).2).2) (mat (2 * P.nv) J1) 0))
    ∧ ∃ J0 J1, s.JintegrateJs x dx fs = some (.ok, match fs with
        | .both => [J0, J1]
        | .first => [J0]
        | .second => [J1])
      ∧ (fs ≠ .second → HasJac1 (fun w => vec (2 * P.nv)
        (s.diffDx (s.integrateX x dx).2 (s.integrateX (s.integrateX x (dvec w)).2 dx).2).2) (mat (2 * P.nv) J0) 0)
      ∧ (fs ≠ .first → HasJac1 (fun w => vec (2 * P.nv)
        (s.diffDx (s.integrateX x dx).2 (s.integrateX x (dvec (vec (2 * P.nv) dx + w))).2).2) (mat (2 * P.nv) J1) 0) := by
  intro s
  have hb : Built s P := built_after P big hist
  have hn : s.ndx = 2 * P.nv := hb.ndx
  have z := square_zero P.nv
  constructor
  · obtain ⟨r1, r2, -, r4, -⟩ := C100_Jdiff_partial hP big hist x y hx hy hr ⟨2 * P.nv, 2 * P.nv, fun _ _ => 0⟩
      ⟨2 * P.nv, 2 * P.nv, fun _ _ => 0⟩ fs (fun _ => z) (fun _ => z)
    refine ⟨_, _, ?_, r2, r4⟩
    simp only [St.JdiffJs, hn]
    rw [if_neg (by rw [show (s.Jdiff x y _ _ fs).1 = _ from r1]; simp)]
    cases fs <;> rfl
  · obtain ⟨K0, K1, D0, D1, r1, d0, d1, k0, -, k1, -⟩ := C100_Jintegrate_partial hP big hist x dx hx hd
      ⟨2 * P.nv, 2 * P.nv, fun _ _ => 0⟩ ⟨2 * P.nv, 2 * P.nv, fun _ _ => 0⟩ fs .setto
      (fun _ => ⟨z.1, fun _ => z.2⟩) (fun _ => ⟨z.1, fun _ => z.2⟩)
    refine ⟨K0, K1, ?_, fun h => ?_, fun h => ?_⟩
    · simp only [St.JintegrateJs, hn]
      rw [show s.Jintegrate x dx _ _ fs .setto = _ from r1]
      cases fs <;> rfl
    · rw [show mat (2 * P.nv) K0 = D0 from (k0 h).2]; exact d0
    · rw [show mat (2 * P.nv) K1 = D1 from (k1 h).2]; exact d1

/-- **C100 (transport).** `JintegrateTransport` multiplies the given matrix, of any number of columns, by the Jacobian of the
integration with respect to the state (`first`) or to the increment (`second`); `both` throws and leaves the matrix. -/
theorem C100_transport (hP : P.Group V Same Small Reg) (big : ℝ) (hist : List LimCall) (x dx : DVec ℝ)
    (hx : Valid P V x) (hd : dx.size = 2 * P.nv) (J : DMat ℝ) (hJ : J.rows = 2 * P.nv) :
    let s := after P big hist
    s.JintegrateTransport x dx J .both = some (.throw, J)
    ∧ (∃ (K : DMat ℝ) (D : Matrix (Fin (2 * P.nv)) (Fin (2 * P.nv)) ℝ), s.JintegrateTransport x dx J .first = some (.ok, K) ∧ K.rows = 2 * P.nv ∧ K.cols = J.cols
      ∧ HasJac1 (fun w => vec (2 * P.nv)
        (s.diffDx (s.integrateX x dx).2 (s.integrateX (s.integrateX x (dvec w)).2 dx).2).2) D 0
      ∧ ∀ (i : Fin (2 * P.nv)) (j : Fin J.cols), K.e i j = ∑ k : Fin (2 * P.nv), D i k * J.e k j)
    ∧ ∃ (K : DMat ℝ) (D : Matrix (Fin (2 * P.nv)) (Fin (2 * P.nv)) ℝ), s.JintegrateTransport x dx J .second = some (.ok, K) ∧ K.rows = 2 * P.nv ∧ K.cols = J.cols
      ∧ HasJac1 (fun w => vec (2 * P.nv)
        (s.diffDx (s.integrateX x dx).2 (s.integrateX x (dvec (vec (2 * P.nv) dx + w))).2).2) D 0
      ∧ ∀ (i : Fin (2 * P.nv)) (j : Fin J.cols), K.e i j = ∑ k : Fin (2 * P.nv), D i k * J.e k j := by
  intro s
  have hb : Built s P := built_after P big hist
  have hs : ¬ (s.short x dx ∨ J.rows < s.nv) := by
    rw [St.short, hb.nq, hb.nv, hx.1, hd, hJ]
    omega
  have key : ∀ arg, ∀ (i : Fin (2 * P.nv)) (j : Fin J.cols), (St.JintegrateTransport.tr s x dx J arg).e i j
      = ∑ k : Fin (2 * P.nv), blk P.nv (P.dInt arg (conf P x) (vec P.nv dx)) 1 i k * J.e k j := by
    intro arg i j
    rw [tr_eq hb, hP.transport _ _ _ _ _ hx.2]
    simp only [DMat.opRows, hb.nv]
    by_cases hi : i.1 < P.nv
    · rw [if_pos ⟨Nat.zero_le _, by omega⟩]
      have h1 := sum_half P.nv (2 * P.nv) (two_mul _) (P.dInt arg (conf P x) (vec P.nv dx) ⟨i, hi⟩) (fun k => J.e k j)
      simp only [AssignOp.apply, Nat.sub_zero, ent2, hi, dif_pos, j.2, Matrix.mul_apply]
      refine h1.symm.trans (Finset.sum_congr rfl fun k _ => ?_)
      simp only [blk, hi, true_and]
      by_cases hk : k.1 < P.nv
      · simp [hk, ent, ent2, hi]
      · have : ¬ P.nv ≤ i.1 := by omega
        simp [hk, this]
    · rw [if_neg (by omega)]
      have hn : P.nv ≤ i.1 := not_lt.1 hi
      simp only [blk, hi, false_and, if_false, hn, true_and]
      simp
  refine ⟨rfl, ⟨St.JintegrateTransport.tr s x dx J false, _, ?_, ?_, rfl, jac_int0 hb hP hx hd, key false⟩,
    ⟨St.JintegrateTransport.tr s x dx J true, _, ?_, ?_, rfl, jac_int1 hb hP hx hd, key true⟩⟩
  · simp only [St.JintegrateTransport]; rw [if_neg hs]
  · exact hJ
  · simp only [St.JintegrateTransport]; rw [if_neg hs]
  · exact hJ

/-- **C100 (rejections of the Jacobians).** `Jdiff` throws exactly on a wrong size of a state or of a requested buffer, and then
leaves both buffers. -/
theorem C100_Jdiff_rejects (P : Pin) (big : ℝ) (hist : List LimCall) (x y : DVec ℝ) (J0 J1 : DMat ℝ) (fs : Jcomp) :
    let s := after P big hist
    ((s.Jdiff x y J0 J1 fs).1 = .throw ↔ x.size ≠ P.nq + P.nv ∨ y.size ≠ P.nq + P.nv
      ∨ (fs ≠ .second ∧ ¬ Square (2 * P.nv) J0) ∨ (fs ≠ .first ∧ ¬ Square (2 * P.nv) J1))
    ∧ ((s.Jdiff x y J0 J1 fs).1 = .throw → (s.Jdiff x y J0 J1 fs).2 = (J0, J1)) := by
  intro s
  have hb : Built s P := built_after P big hist
  have hw : ∀ J, s.wrong J ↔ ¬ Square (2 * P.nv) J := by
    intro J
    rw [St.wrong, hb.ndx, Square]
    tauto
  unfold St.Jdiff
  rw [hb.nx]
  by_cases h1 : x.size = P.nq + P.nv <;> by_cases h2 : y.size = P.nq + P.nv <;>
    by_cases h3 : Square (2 * P.nv) J0 <;> by_cases h4 : Square (2 * P.nv) J1 <;> cases fs <;>
    simp [h1, h2, h3, h4, hw]

/-- **C100 (unchecked sizes, counterexample).** `Jintegrate` and `JintegrateTransport` do not check the sizes of the state and
the increment: for every state that has configurations, an empty state vector is read out of range. -/
theorem C100_unchecked_counterexample (P : Pin) (big : ℝ) (hist : List LimCall) (hq : 0 < P.nq) (dx : DVec ℝ) :
    let s := after P big hist
    s.JintegrateJs ⟨0, fun _ => 0⟩ dx .both = none
    ∧ s.JintegrateTransport ⟨0, fun _ => 0⟩ dx ⟨2 * P.nv, 2 * P.nv, fun _ _ => 0⟩ .first = none := by
  intro s
  have hb : Built s P := built_after P big hist
  have hs : s.short ⟨0, fun _ => 0⟩ dx := Or.inl (by rw [hb.nq]; exact hq)
  constructor
  · simp only [St.JintegrateJs, St.Jintegrate]
    rw [if_neg (by simp [St.wrong]), if_pos ⟨by simp, hs⟩]
    rfl
  · simp only [St.JintegrateTransport]
    rw [if_pos (Or.inl hs)]

/-- **C100 (buffers in use, counterexample).** In a buffer that is not zero, `Jdiff` and `Jintegrate` with `setto` leave the
entries between configuration and velocity: for every state with joints and all valid arguments, the results for a buffer of fives
are not the Jacobians (the vector state clears the buffer in `Jdiff`). -/
theorem C100_stale_counterexample (hP : P.Group V Same Small Reg) (big : ℝ) (hist : List LimCall) (hn : 0 < P.nv) (x y dx : DVec ℝ)
    (hx : Valid P V x) (hy : Valid P V y) (hr : Reg (conf P x) (conf P y)) (hd : dx.size = 2 * P.nv) :
    let s := after P big hist
    let J : DMat ℝ := ⟨2 * P.nv, 2 * P.nv, fun _ _ => 5⟩
    (s.Jdiff x y J J .both).1 = .ok
    ∧ ¬ HasJac1 (fun w => vec (2 * P.nv) (s.diffDx (s.integrateX x (dvec w)).2 y).2) (mat (2 * P.nv) (s.Jdiff x y J J .both).2.1) 0
    ∧ ∃ K0 K1, s.Jintegrate x dx J J .both .setto = some (.ok, K0, K1)
      ∧ ¬ HasJac1 (fun w => vec (2 * P.nv)
        (s.diffDx (s.integrateX x dx).2 (s.integrateX (s.integrateX x (dvec w)).2 dx).2).2) (mat (2 * P.nv) K0) 0 := by
  intro s J
  have hb : Built s P := built_after P big hist
  have huniq : ∀ {f : (Fin (2 * P.nv) → ℝ) → Fin (2 * P.nv) → ℝ} {A B : Matrix (Fin (2 * P.nv)) (Fin (2 * P.nv)) ℝ},
      HasJac1 f A 0 → HasJac1 f B 0 → ∀ i j, A i j = B i j := by
    intro f A B hA hB i j
    have h := HasFDerivAt.unique (hA i) (hB i)
    have h' := congrArg (fun L => L (Pi.single j 1)) h
    simp only [form_apply] at h'
    simpa [Pi.single_apply] using h'
  have hoff : ∀ D σ, blk P.nv D σ ⟨0, by omega⟩ ⟨P.nv, by omega⟩ = 0 := by
    intro D σ
    simp only [blk]
    rw [if_neg (by simp), if_neg (by simp; omega)]
  have hw : ¬ s.wrong J := by simp [St.wrong, hb.ndx, J]
  have hs : ¬ s.short x dx := by
    rw [St.short, hb.nq, hb.nv, hx.1, hd]
    omega
  have hxs : x.size = s.nx := hx.1.trans hb.nx.symm
  have hys : y.size = s.nx := hy.1.trans hb.nx.symm
  have hr2 : s.Jdiff x y J J .both = (.ok, s.jd false x y J, s.jd true x y J) := by
    simp [St.Jdiff, hxs, hys, hw]
  have h5 : ∀ (op : AssignOp) σ D, (cornerDiag op s.nv σ (corner op s.nv D J)).e 0 P.nv = 5 := by
    intro op σ D
    simp only [cornerDiag, corner, hb.nv, J]
    rw [if_neg (by omega), if_neg (by omega)]
  refine ⟨by rw [hr2], fun h => ?_, s.ji false .setto x dx J, s.ji true .setto x dx J, ?_, fun h => ?_⟩
  · rw [hr2] at h
    have := huniq (jac_diff0 hb hP hx hy hr) h ⟨0, by omega⟩ ⟨P.nv, by omega⟩
    rw [hoff] at this
    have h6 : mat (2 * P.nv) (s.jd false x y J) ⟨0, by omega⟩ ⟨P.nv, by omega⟩ = 5 := h5 _ _ _
    rw [h6] at this
    norm_num at this
  · simp only [St.Jintegrate]
    rw [if_neg (fun h => hw h.2), if_neg (fun h => hs h.2), if_neg (fun h => hw h.2), if_neg (fun h => hs h.2)]
    rfl
  · have := huniq (jac_int0 hb hP hx hd) h ⟨0, by omega⟩ ⟨P.nv, by omega⟩
    rw [hoff] at this
    have h6 : mat (2 * P.nv) (s.ji false .setto x dx J) ⟨0, by omega⟩ ⟨P.nv, by omega⟩ = 5 := h5 _ _ _
    rw [h6] at this
    norm_num at this

/-! ## Limits -/

private theorem mid (n : ℕ) (a : EReal) (L C : List EReal) (i : ℕ) (h1 : n ≤ i) (h2 : i < L.length) :
    (List.replicate n a ++ L.drop n ++ C)[i]? = L[i]? := by
  rw [List.append_assoc, List.getElem?_append_right (by simpa using h1), List.length_replicate,
    List.getElem?_append_left (by rw [List.length_drop]; omega), List.getElem?_drop, Nat.add_sub_cancel' h1]

/-- **C100 (limits, partial).** If the root joint comes first in the configuration, or there is none, a new state has the limits
of the Pinocchio model, except the largest numbers for the root joint; the flag says whether any limit is finite, and it is set
if there is a root joint. Missing, and false: a root joint that comes later (`C100_root_counterexample`). -/
theorem C100_limits_partial (hS : P.Sized) (big : ℝ) (n : ℕ) (hroot : P.root = some (0, n) ∨ P.root = none ∧ n = 0) :
    let s := St.init P big
    s.lb.length = P.nq + P.nv ∧ s.ub.length = P.nq + P.nv
    ∧ (∀ i < n, s.lb[i]? = some ((-big : ℝ) : EReal) ∧ s.ub[i]? = some (big : EReal))
    ∧ (∀ i, n ≤ i → i < P.nq → s.lb[i]? = P.lower[i]? ∧ s.ub[i]? = P.upper[i]?)
    ∧ (∀ i < P.nv, s.lb[P.nq + i]? = P.vel[i]?.map (fun v => -v) ∧ s.ub[P.nq + i]? = P.vel[i]?)
    ∧ (s.has = true ↔ (∃ r : ℝ, (r : EReal) ∈ s.lb) ∨ ∃ r : ℝ, (r : EReal) ∈ s.ub) ∧ (0 < n → s.has = true) := by
  intro s
  have hn : n ≤ P.nq := by
    rcases hroot with h | ⟨-, h⟩
    · simpa using hS.root _ _ h
    · omega
  have e : P.nq + P.nv - 2 * P.nv / 2 = P.nq := by omega
  have hlb : s.lb = List.replicate n ((-big : ℝ) : EReal) ++ P.lower.drop n ++ P.vel.map (fun v => -v) := by
    rcases hroot with h | ⟨h, rfl⟩ <;> simp only [s, St.init, St.update, h, e, hS.lower] <;> congr 3 <;> omega
  have hub : s.ub = List.replicate n (big : EReal) ++ P.upper.drop n ++ P.vel := by
    rcases hroot with h | ⟨h, rfl⟩ <;> simp only [s, St.init, St.update, h, e, hS.upper] <;> congr 3 <;> omega
  have hhas : s.has = true ↔ (∃ r : ℝ, (r : EReal) ∈ s.lb) ∨ ∃ r : ℝ, (r : EReal) ∈ s.ub := by
    rw [← Verif.Limits.any_iff, ← Verif.Limits.any_iff, ← Bool.or_eq_true]
    rfl
  refine ⟨?_, ?_, fun i hi => ?_, fun i h1 h2 => ?_, fun i hi => ?_, hhas, fun h => ?_⟩
  · rw [hlb]; simp only [List.length_append, List.length_replicate, List.length_drop, List.length_map, hS.lower, hS.vel]; omega
  · rw [hub]; simp only [List.length_append, List.length_replicate, List.length_drop, hS.upper, hS.vel]; omega
  · rw [hlb, hub, List.append_assoc, List.append_assoc, List.getElem?_append_left (by simpa using hi),
      List.getElem?_append_left (by simpa using hi)]
    simp [List.getElem?_replicate, hi]
  · rw [hlb, hub, mid n _ _ _ i h1 (by rw [hS.lower]; exact h2), mid n _ _ _ i h1 (by rw [hS.upper]; exact h2)]
    exact ⟨rfl, rfl⟩
  · have l1 : (List.replicate n ((-big : ℝ) : EReal) ++ P.lower.drop n).length = P.nq := by
      simp only [List.length_append, List.length_replicate, List.length_drop, hS.lower]; omega
    have l2 : (List.replicate n (big : EReal) ++ P.upper.drop n).length = P.nq := by
      simp only [List.length_append, List.length_replicate, List.length_drop, hS.upper]; omega
    rw [hlb, hub, List.getElem?_append_right (by rw [l1]; omega), List.getElem?_append_right (by rw [l2]; omega), l1, l2,
      Nat.add_sub_cancel_left, List.getElem?_map]
    exact ⟨rfl, rfl⟩
  · rw [hhas]
    refine Or.inr ⟨big, ?_⟩
    rw [hub]
    simp [h.ne']

/-- **C100 (root joint, counterexample).** If the root joint has one entry and comes second, the limits of the joint before it are
dropped and the root joint gets its own limits. -/
theorem C100_root_counterexample (P : Pin) (big l0 u0 l1 u1 : ℝ) (hq : P.nq = 2) (hl : P.lower = [(l0 : EReal), (l1 : EReal)])
    (hu : P.upper = [(u0 : EReal), (u1 : EReal)]) (hroot : P.root = some (1, 1)) :
    let s := St.init P big
    s.lb[0]? = some ((-big : ℝ) : EReal) ∧ s.ub[0]? = some (big : EReal)
    ∧ s.lb[1]? = some (l1 : EReal) ∧ s.ub[1]? = some (u1 : EReal) := by
  intro s
  have e : P.nq + P.nv - 2 * P.nv / 2 = 2 := by omega
  have e1 : s.lb = [((-big : ℝ) : EReal)] ++ [(l1 : EReal)] ++ P.vel.map (fun v => -v) := by
    simp only [s, St.init, St.update, hroot, e, hl]
    rfl
  have e2 : s.ub = [(big : EReal)] ++ [(u1 : EReal)] ++ P.vel := by
    simp only [s, St.init, St.update, hroot, e, hu]
    rfl
  rw [e1, e2]
  exact ⟨rfl, rfl, rfl, rfl⟩

/-- **C100 (setters).** `set_lb` and `set_ub` throw exactly on a wrong size and then change nothing; otherwise the given limits
are in force. -/
theorem C100_limit_setters (P : Pin) (big : ℝ) (hist : List LimCall) (v : List EReal) :
    let s := after P big hist
    ((s.setLb v).1 = .throw ↔ v.length ≠ P.nq + P.nv) ∧ ((s.setUb v).1 = .throw ↔ v.length ≠ P.nq + P.nv)
    ∧ (v.length = P.nq + P.nv → (s.setLb v).2.lb = v ∧ (s.setLb v).2.ub = s.ub ∧ (s.setUb v).2.ub = v ∧ (s.setUb v).2.lb = s.lb)
    ∧ (v.length ≠ P.nq + P.nv → (s.setLb v).2 = s ∧ (s.setUb v).2 = s) := by
  intro s
  have hb : Built s P := built_after P big hist
  have hn : s.nx = P.nq + P.nv := hb.nx
  by_cases h : v.length = P.nq + P.nv <;> simp [St.setLb, St.setUb, hn, h, St.update]

/-- **C100 (limits flag).** After any history of setters a state says that it has limits exactly when some limit in force is a
number. -/
theorem C100_has_limits (P : Pin) (big : ℝ) (hist : List LimCall) :
    let s := after P big hist
    s.has = true ↔ ∃ v, (v ∈ s.lb ∨ v ∈ s.ub) ∧ v ≠ ⊥ ∧ v ≠ ⊤ := by
  intro s
  have key : ∀ t : St, (∃ r : St, t = r.update) → (t.has = true ↔ ∃ v, (v ∈ t.lb ∨ v ∈ t.ub) ∧ v ≠ ⊥ ∧ v ≠ ⊤) := by
    rintro t ⟨r, rfl⟩
    simp only [St.update, Bool.or_eq_true, List.any_eq_true, finite, decide_eq_true_eq]
    constructor
    · rintro (⟨v, h1, h2⟩ | ⟨v, h1, h2⟩)
      exacts [⟨v, Or.inl h1, h2⟩, ⟨v, Or.inr h1, h2⟩]
    · rintro ⟨v, h1 | h1, h2⟩
      exacts [Or.inl ⟨v, h1, h2⟩, Or.inr ⟨v, h1, h2⟩]
  refine key s ?_
  have : ∀ (l : List LimCall) (t : St), (∃ r : St, t = r.update) → ∃ r : St, l.foldl St.step t = r.update := by
    intro l
    induction l with
    | nil => intro t h; exact h
    | cons c l ih =>
      intro t h
      refine ih _ ?_
      cases c <;> simp only [St.step, St.setLb, St.setUb] <;> split_ifs
      exacts [h, ⟨_, rfl⟩, h, ⟨_, rfl⟩]
  exact this hist _ ⟨_, rfl⟩

/-- Both answers occur: a Pinocchio model with infinite limits and no root joint, before and after `set_lb`. -/
example (P : Pin) (hl : P.lower = [⊥]) (hu : P.upper = [⊤]) (hv : P.vel = [⊤]) (hr : P.root = none) (hq : P.nq = 1)
    (hnv : P.nv = 1) (big : ℝ) :
    (after P big []).has = false ∧ (after P big [.lb [0, ⊥]]).has = true := by
  constructor
  · rw [← Bool.not_eq_true]
    intro h
    obtain ⟨v, h1, h2, h3⟩ := (C100_has_limits P big []).1 h
    simp [after, St.init, St.update, hl, hu, hv, hr, hq, hnv] at h1
    rcases h1 with (h | h) | h <;> tauto
  · refine (C100_has_limits P big _).2 ⟨0, Or.inl ?_, by simp, by simp⟩
    simp [after, St.step, St.setLb, St.init, St.update, hq, hnv]

/-- **C100 (cast, counterexample).** A cast state has the limits of the Pinocchio model again: limits set before are lost. -/
theorem C100_cast_counterexample (P : Pin) (big : ℝ) (v : List EReal) (hv : v.length = P.nq + P.nv)
    (hne : v ≠ (St.init P big).lb) :
    let s := after P big [.lb v]
    s.lb = v ∧ (s.cast big).lb ≠ v ∧ (s.cast big).lb = (St.init P big).lb := by
  intro s
  have hb : Built s P := built_after P big [.lb v]
  have h1 : s.lb = v := by
    have h : (v.length ≠ (St.init P big).nx) = False := by rw [init_nx]; simp [hv]
    simp [s, after, St.step, St.setLb, init_nx, hv, St.update]
  have h2 : s.cast big = St.init P big := by
    rw [St.cast, show s.P = P from hb.pin]
  exact ⟨h1, by rw [h2]; exact hne.symm, by rw [h2]⟩

/-! ## A model that meets the assumptions: rotations of the plane as unit complex numbers -/

/-- A planar rotation: the configuration is the cosine and the sine of the angle. -/
noncomputable def so2 : Pin where
  nq := 2
  nv := 1
  neutral := ![1, 0]
  integrate q v := ![q 0 * Real.cos (v 0) - q 1 * Real.sin (v 0), q 0 * Real.sin (v 0) + q 1 * Real.cos (v 0)]
  difference q q' := ![Complex.arg ⟨q 0 * q' 0 + q 1 * q' 1, q 0 * q' 1 - q 1 * q' 0⟩]
  dInt _ _ _ := 1
  dDiff arg _ _ := if arg then 1 else -1
  transport _ _ _ _ M := M
  lower := [⊥, ⊥]
  upper := [⊤, ⊤]
  vel := [⊤]
  root := none

private theorem arg_rot {z : ℂ} (hz : z ∈ Complex.slitPlane) (h1 : z.re ^ 2 + z.im ^ 2 = 1) (σ : ℝ) :
    HasFDerivAt (fun w : Fin 1 → ℝ => Complex.arg ⟨z.re * Real.cos (σ * w 0) - z.im * Real.sin (σ * w 0),
      z.re * Real.sin (σ * w 0) + z.im * Real.cos (σ * w 0)⟩) (form (fun _ : Fin 1 => σ)) 0 := by
  have hn : ‖z‖ = 1 := by
    rw [Complex.norm_eq_sqrt_sq_add_sq, h1, Real.sqrt_one]
  have hre : z.re = Real.cos z.arg := by
    have := Complex.norm_mul_cos_arg z
    rw [hn, one_mul] at this
    exact this.symm
  have him : z.im = Real.sin z.arg := by
    have := Complex.norm_mul_sin_arg z
    rw [hn, one_mul] at this
    exact this.symm
  have hlt : z.arg < Real.pi := lt_of_le_of_ne (Complex.arg_le_pi z) (Complex.slitPlane_arg_ne_pi hz)
  have hgt := Complex.neg_pi_lt_arg z
  have hp : HasFDerivAt (fun w : Fin 1 → ℝ => z.arg + σ * w 0) (form (fun _ : Fin 1 => σ)) 0 := by
    have h0 : HasFDerivAt (fun w : Fin 1 → ℝ => w 0) (ContinuousLinearMap.proj (R := ℝ) (φ := fun _ => ℝ) 0) 0 :=
      (ContinuousLinearMap.proj (R := ℝ) (φ := fun _ : Fin 1 => ℝ) 0).hasFDerivAt
    refine ((h0.const_mul σ).const_add z.arg).congr_fderiv ?_
    ext1 w
    rw [form_apply]
    simp
  refine hp.congr_of_eventuallyEq ?_
  have hc : Filter.Tendsto (fun w : Fin 1 → ℝ => z.arg + σ * w 0) (nhds 0) (nhds z.arg) := by
    have := hp.continuousAt
    simpa [ContinuousAt] using this
  filter_upwards [hc (Ioo_mem_nhds hgt hlt)] with w hw
  have e : (⟨z.re * Real.cos (σ * w 0) - z.im * Real.sin (σ * w 0), z.re * Real.sin (σ * w 0) + z.im * Real.cos (σ * w 0)⟩ : ℂ)
      = Complex.cos ((z.arg + σ * w 0 : ℝ) : ℂ) + Complex.sin ((z.arg + σ * w 0 : ℝ) : ℂ) * Complex.I := by
    rw [← Complex.ofReal_cos, ← Complex.ofReal_sin, Real.cos_add, Real.sin_add, ← hre, ← him]
    apply Complex.ext <;> simp only [Complex.add_re, Complex.add_im, Complex.mul_re, Complex.mul_im, Complex.ofReal_re, Complex.ofReal_im, Complex.I_re, Complex.I_im] <;> ring
  rw [e]
  exact Complex.arg_cos_add_sin_mul_I ⟨hw.1, hw.2.le⟩

/-- A vector of norm one. -/
def Unit2 (q : Fin 2 → ℝ) : Prop := q 0 ^ 2 + q 1 ^ 2 = 1

/-- An angle up to half a turn. -/
def Half2 (v : Fin 1 → ℝ) : Prop := v 0 ∈ Set.Ioc (-Real.pi) Real.pi

/-- The two directions are not opposite. -/
def Reg2 (q q' : Fin 2 → ℝ) : Prop := (⟨q 0 * q' 0 + q 1 * q' 1, q 0 * q' 1 - q 1 * q' 0⟩ : ℂ) ∈ Complex.slitPlane

/-- Rotations of the plane meet the assumptions on Pinocchio: valid configurations have norm one, increments are angles up to
half a turn, and regular pairs are not opposite. -/
theorem so2_group : so2.Group Unit2 (fun q q' => q = q') Half2 Reg2 := by
  have cs : ∀ t, Real.sin t ^ 2 = 1 - Real.cos t ^ 2 := Real.sin_sq
  have one_rot : ∀ (f : (Fin 1 → ℝ) → ℝ), (∀ w, f w = Complex.arg ⟨Real.cos (w 0), Real.sin (w 0)⟩) →
      HasFDerivAt f (form (fun _ : Fin 1 => (1 : ℝ))) 0 := by
    intro f hf
    have h := arg_rot (z := 1) Complex.one_mem_slitPlane (by simp) 1
    simp only [Complex.one_re, Complex.one_im, one_mul, zero_mul, sub_zero, add_zero] at h
    rwa [show f = _ from funext hf]
  have m1 : ∀ a : Fin 1, ((1 : Matrix (Fin 1) (Fin 1) ℝ) a) = fun _ => 1 := by
    intro a; funext j; rw [Subsingleton.elim a j]; simp
  constructor
  · change (1 : ℝ) ^ 2 + (0 : ℝ) ^ 2 = 1
    norm_num
  · intro (q : Fin 2 → ℝ) (v : Fin 1 → ℝ) (hq : q 0 ^ 2 + q 1 ^ 2 = 1)
    change (q 0 * Real.cos (v 0) - q 1 * Real.sin (v 0)) ^ 2 + (q 0 * Real.sin (v 0) + q 1 * Real.cos (v 0)) ^ 2 = 1
    linear_combination (q 0 ^ 2 + q 1 ^ 2) * cs (v 0) + hq
  · intro (q : Fin 2 → ℝ) _
    funext i
    revert i
    change ∀ i : Fin 2, (![q 0 * Real.cos 0 - q 1 * Real.sin 0, q 0 * Real.sin 0 + q 1 * Real.cos 0] : Fin 2 → ℝ) i = q i
    intro i
    fin_cases i <;> simp
  · intro (q : Fin 2 → ℝ) (q' : Fin 2 → ℝ) (hq : q 0 ^ 2 + q 1 ^ 2 = 1) (hq' : q' 0 ^ 2 + q' 1 ^ 2 = 1)
    set z : ℂ := ⟨q 0 * q' 0 + q 1 * q' 1, q 0 * q' 1 - q 1 * q' 0⟩ with hz
    have hn : ‖z‖ = 1 := by
      rw [Complex.norm_eq_sqrt_sq_add_sq, show z.re ^ 2 + z.im ^ 2 = (q 0 ^ 2 + q 1 ^ 2) * (q' 0 ^ 2 + q' 1 ^ 2) by rw [hz]; ring,
        hq, hq']
      simp
    have hc : Real.cos z.arg = q 0 * q' 0 + q 1 * q' 1 := by
      have := Complex.norm_mul_cos_arg z
      rw [hn, one_mul] at this
      exact this
    have hs : Real.sin z.arg = q 0 * q' 1 - q 1 * q' 0 := by
      have := Complex.norm_mul_sin_arg z
      rw [hn, one_mul] at this
      exact this
    funext (i : Fin 2)
    fin_cases i
    · change q 0 * Real.cos z.arg - q 1 * Real.sin z.arg = q' 0
      rw [hc, hs]
      linear_combination (q' 0) * hq
    · change q 0 * Real.sin z.arg + q 1 * Real.cos z.arg = q' 1
      rw [hc, hs]
      linear_combination (q' 1) * hq
  · have hc : Continuous fun v : Fin 1 → ℝ => v 0 := continuous_apply 0
    have := hc.continuousAt (x := 0) (Ioo_mem_nhds (by simpa using Real.pi_pos) (by simpa using Real.pi_pos) :
      Set.Ioo (-Real.pi) Real.pi ∈ nhds ((0 : Fin 1 → ℝ) 0))
    filter_upwards [this] with v hv
    exact ⟨hv.1, hv.2.le⟩
  · intro (q : Fin 2 → ℝ) (v : Fin 1 → ℝ) (hq : q 0 ^ 2 + q 1 ^ 2 = 1) (hv : v 0 ∈ Set.Ioc (-Real.pi) Real.pi)
    funext (i : Fin 1)
    obtain rfl : i = 0 := Subsingleton.elim i 0
    change Complex.arg ⟨q 0 * (q 0 * Real.cos (v 0) - q 1 * Real.sin (v 0)) + q 1 * (q 0 * Real.sin (v 0) + q 1 * Real.cos (v 0)),
      q 0 * (q 0 * Real.sin (v 0) + q 1 * Real.cos (v 0)) - q 1 * (q 0 * Real.cos (v 0) - q 1 * Real.sin (v 0))⟩ = v 0
    have e : (⟨q 0 * (q 0 * Real.cos (v 0) - q 1 * Real.sin (v 0)) + q 1 * (q 0 * Real.sin (v 0) + q 1 * Real.cos (v 0)),
        q 0 * (q 0 * Real.sin (v 0) + q 1 * Real.cos (v 0)) - q 1 * (q 0 * Real.cos (v 0) - q 1 * Real.sin (v 0))⟩ : ℂ)
        = Complex.cos ((v 0 : ℝ) : ℂ) + Complex.sin ((v 0 : ℝ) : ℂ) * Complex.I := by
      rw [← Complex.ofReal_cos, ← Complex.ofReal_sin]
      apply Complex.ext
      · simp only [Complex.add_re, Complex.add_im, Complex.mul_re, Complex.mul_im, Complex.ofReal_re, Complex.ofReal_im, Complex.I_re, Complex.I_im]
        linear_combination Real.cos (v 0) * hq
      · simp only [Complex.add_re, Complex.add_im, Complex.mul_re, Complex.mul_im, Complex.ofReal_re, Complex.ofReal_im, Complex.I_re, Complex.I_im]
        linear_combination Real.sin (v 0) * hq
    rw [e]
    exact Complex.arg_cos_add_sin_mul_I hv
  · intro (q : Fin 2 → ℝ) (v : Fin 1 → ℝ) (hq : q 0 ^ 2 + q 1 ^ 2 = 1) (a : Fin 1)
    have h := one_rot _ (fun w => rfl)
    have h2 : HasFDerivAt (fun p : (Fin 1 → ℝ) × (Fin 1 → ℝ) => p.1 + p.2)
        (ContinuousLinearMap.fst ℝ (Fin 1 → ℝ) (Fin 1 → ℝ) + ContinuousLinearMap.snd ℝ (Fin 1 → ℝ) (Fin 1 → ℝ)) (0, 0) :=
      (ContinuousLinearMap.fst ℝ (Fin 1 → ℝ) (Fin 1 → ℝ) + ContinuousLinearMap.snd ℝ (Fin 1 → ℝ) (Fin 1 → ℝ)).hasFDerivAt
    have h3 := HasFDerivAt.comp ((0 : Fin 1 → ℝ), (0 : Fin 1 → ℝ)) (by simpa using h) h2
    obtain rfl : a = 0 := Subsingleton.elim a 0
    refine (h3.congr_fderiv ?_).congr_of_eventuallyEq (Filter.Eventually.of_forall fun p => ?_)
    · change _ = (form ((1 : Matrix (Fin 1) (Fin 1) ℝ) 0)).comp _ + (form ((1 : Matrix (Fin 1) (Fin 1) ℝ) 0)).comp _
      rw [m1 0]
      exact ContinuousLinearMap.comp_add _ _ _
    obtain ⟨w, d⟩ := p
    refine congrArg Complex.arg (Complex.ext ?_ ?_)
    · change (q 0 * Real.cos (v 0) - q 1 * Real.sin (v 0)) * ((q 0 * Real.cos (w 0) - q 1 * Real.sin (w 0)) * Real.cos (v 0 + d 0)
        - (q 0 * Real.sin (w 0) + q 1 * Real.cos (w 0)) * Real.sin (v 0 + d 0))
        + (q 0 * Real.sin (v 0) + q 1 * Real.cos (v 0)) * ((q 0 * Real.cos (w 0) - q 1 * Real.sin (w 0)) * Real.sin (v 0 + d 0)
        + (q 0 * Real.sin (w 0) + q 1 * Real.cos (w 0)) * Real.cos (v 0 + d 0)) = Real.cos (w 0 + d 0)
      rw [Real.cos_add, Real.sin_add, Real.cos_add]
      linear_combination (Real.cos (w 0) * Real.cos (d 0) - Real.sin (w 0) * Real.sin (d 0)) * (q 0 ^ 2 + q 1 ^ 2) * (cs (v 0))
        + (Real.cos (w 0) * Real.cos (d 0) - Real.sin (w 0) * Real.sin (d 0)) * hq
    · change (q 0 * Real.cos (v 0) - q 1 * Real.sin (v 0)) * ((q 0 * Real.cos (w 0) - q 1 * Real.sin (w 0)) * Real.sin (v 0 + d 0)
        + (q 0 * Real.sin (w 0) + q 1 * Real.cos (w 0)) * Real.cos (v 0 + d 0))
        - (q 0 * Real.sin (v 0) + q 1 * Real.cos (v 0)) * ((q 0 * Real.cos (w 0) - q 1 * Real.sin (w 0)) * Real.cos (v 0 + d 0)
        - (q 0 * Real.sin (w 0) + q 1 * Real.cos (w 0)) * Real.sin (v 0 + d 0)) = Real.sin (w 0 + d 0)
      rw [Real.cos_add, Real.sin_add, Real.sin_add]
      linear_combination (Real.sin (w 0) * Real.cos (d 0) + Real.cos (w 0) * Real.sin (d 0)) * (q 0 ^ 2 + q 1 ^ 2) * (cs (v 0))
        + (Real.sin (w 0) * Real.cos (d 0) + Real.cos (w 0) * Real.sin (d 0)) * hq
  · intro (q : Fin 2 → ℝ) (q' : Fin 2 → ℝ) (hq : q 0 ^ 2 + q 1 ^ 2 = 1) (hq' : q' 0 ^ 2 + q' 1 ^ 2 = 1) (hr : Reg2 q q') (a : Fin 1)
    have h := arg_rot hr (by linear_combination (q' 0 ^ 2 + q' 1 ^ 2) * hq + hq') (-1)
    have hD : (so2.dDiff false q q') a = fun _ => (-1 : ℝ) := by
      change (-1 : Matrix (Fin 1) (Fin 1) ℝ) a = _
      funext j
      have : a = j := Subsingleton.elim (α := Fin 1) a j
      subst this
      simp
    rw [HasGrad1, hD]
    obtain rfl : a = 0 := Subsingleton.elim a 0
    refine h.congr_of_eventuallyEq (Filter.Eventually.of_forall fun w => congrArg Complex.arg (Complex.ext ?_ ?_))
    · change (q 0 * Real.cos (w 0) - q 1 * Real.sin (w 0)) * q' 0 + (q 0 * Real.sin (w 0) + q 1 * Real.cos (w 0)) * q' 1
        = (q 0 * q' 0 + q 1 * q' 1) * Real.cos (-1 * w 0) - (q 0 * q' 1 - q 1 * q' 0) * Real.sin (-1 * w 0)
      rw [neg_one_mul, Real.cos_neg, Real.sin_neg]
      ring
    · change (q 0 * Real.cos (w 0) - q 1 * Real.sin (w 0)) * q' 1 - (q 0 * Real.sin (w 0) + q 1 * Real.cos (w 0)) * q' 0
        = (q 0 * q' 0 + q 1 * q' 1) * Real.sin (-1 * w 0) + (q 0 * q' 1 - q 1 * q' 0) * Real.cos (-1 * w 0)
      rw [neg_one_mul, Real.cos_neg, Real.sin_neg]
      ring
  · intro (q : Fin 2 → ℝ) (q' : Fin 2 → ℝ) (hq : q 0 ^ 2 + q 1 ^ 2 = 1) (hq' : q' 0 ^ 2 + q' 1 ^ 2 = 1) (hr : Reg2 q q') (a : Fin 1)
    have h := arg_rot hr (by linear_combination (q' 0 ^ 2 + q' 1 ^ 2) * hq + hq') 1
    rw [HasGrad1, show so2.dDiff true q q' a = fun _ => (1 : ℝ) from m1 a]
    obtain rfl : a = 0 := Subsingleton.elim a 0
    refine h.congr_of_eventuallyEq (Filter.Eventually.of_forall fun w => congrArg Complex.arg (Complex.ext ?_ ?_))
    · change q 0 * (q' 0 * Real.cos (w 0) - q' 1 * Real.sin (w 0)) + q 1 * (q' 0 * Real.sin (w 0) + q' 1 * Real.cos (w 0))
        = (q 0 * q' 0 + q 1 * q' 1) * Real.cos (1 * w 0) - (q 0 * q' 1 - q 1 * q' 0) * Real.sin (1 * w 0)
      rw [one_mul]
      ring
    · change q 0 * (q' 0 * Real.sin (w 0) + q' 1 * Real.cos (w 0)) - q 1 * (q' 0 * Real.cos (w 0) - q' 1 * Real.sin (w 0))
        = (q 0 * q' 0 + q 1 * q' 1) * Real.sin (1 * w 0) + (q 0 * q' 1 - q 1 * q' 0) * Real.cos (1 * w 0)
      rw [one_mul]
      ring
  · intro arg q v c M _
    exact (Matrix.one_mul M).symm

/-- The neutral state and a quarter turn with velocity three. -/
example : Valid so2 Unit2 ⟨3, fun i => if i = 0 then 1 else 0⟩
    ∧ Valid so2 Unit2 ⟨3, fun i => if i = 1 then 1 else if i = 2 then 3 else 0⟩ := by
  constructor <;> exact ⟨rfl, by simp [conf, Unit2]⟩

/-- The theorems apply: the difference from the neutral state to a quarter turn leads there. -/
example (d o : DVec ℝ) (hd : d.size = 2) (ho : o.size = 3) :
    let s := after so2 1000 []
    let x : DVec ℝ := ⟨3, fun i => if i = 0 then 1 else 0⟩
    let y : DVec ℝ := ⟨3, fun i => if i = 1 then 1 else if i = 2 then 3 else 0⟩
    SameState so2 (fun q q' => q = q') (s.integrate x (s.diff x y d).2 o).2 y :=
  (C100_integrate_diff so2_group 1000 [] _ _ d o ⟨rfl, by simp [conf, Unit2]⟩ ⟨rfl, by simp [conf, Unit2]⟩ hd ho).2.2.1

/-- The pair is regular, and the limits have the right sizes. -/
example : (⟨(1 : ℝ) * 0 + 0 * 1, 1 * 1 - 0 * 0⟩ : ℂ) ∈ Complex.slitPlane ∧ so2.Sized :=
  ⟨Complex.mem_slitPlane_iff.2 (Or.inr (by norm_num)), ⟨rfl, rfl, rfl, by simp [so2]⟩⟩

end Verif.Mb
