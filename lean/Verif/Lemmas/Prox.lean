import Verif.Spec.Prox
import Verif.Props.Lq
import Mathlib.Tactic.Module

set_option linter.unusedSectionVars false

/-! # Lemmas: a regularised backward pass is a plain one on a problem with a proximal term -/

namespace Verif.Lq
open Verif Verif.Solve Matrix

variable {K : Type} [Field K] [LinearOrder K] [IsStrictOrderedRing K] {n : Nat} {nu : Nat → Nat}
variable {llt : ∀ m, Matrix (Fin m) (Fin m) K → Bool}

/-- Derivatives with `rho` added to the diagonal of the Hessians. -/
def proxDerivs {m : Nat} (rho : K) (d : Derivs K n m) : Derivs K n m :=
  { d with Lxx := d.Lxx + rho • 1, Luu := d.Luu + rho • 1 }

def bumpOut {m : Nat} (rho : K) (o : NodeOut K n m) : NodeOut K n m :=
  { o with Q := { o.Q with Qxx := o.Q.Qxx + rho • 1 } }

def bumpArr (rho : K) (s : Arrays K n nu) : Arrays K n nu := ⟨s.V, fun t => bumpOut rho (s.out t)⟩

theorem backNode_bump {m : Nat} (rho : K) (feas : Bool) (d : Derivs K n m) (V : Value K n) (f : Fin n → K) :
    backNode llt (some 0) feas (proxDerivs rho d) V f = (backNode llt (some rho) feas d V f).map (bumpOut rho) := by
  have hq : actionValue (some 0) (proxDerivs rho d) V =
      { actionValue (some rho) d V with Qxx := (actionValue (some rho) d V).Qxx + rho • 1 } := by
    simp only [actionValue, proxDerivs, addDiag, zero_smul, add_zero]
    congr 1 <;> abel
  unfold backNode
  simp only [hq, computeGains]
  by_cases h : m = 0 ∨ llt m (actionValue (some rho) d V).Quu = true
  · simp only [if_pos h, Option.map_some, bumpOut]
    congr 2
    have hM : (1 / 2 : K) • (((actionValue (some rho) d V).Qxx + rho • 1 -
          (actionValue (some rho) d V).Qxu * ((actionValue (some rho) d V).Quu⁻¹ * (actionValue (some rho) d V).Qxuᵀ)) +
        ((actionValue (some rho) d V).Qxx + rho • 1 -
          (actionValue (some rho) d V).Qxu * ((actionValue (some rho) d V).Quu⁻¹ * (actionValue (some rho) d V).Qxuᵀ))ᵀ) =
        (1 / 2 : K) • (((actionValue (some rho) d V).Qxx -
          (actionValue (some rho) d V).Qxu * ((actionValue (some rho) d V).Quu⁻¹ * (actionValue (some rho) d V).Qxuᵀ)) +
        ((actionValue (some rho) d V).Qxx -
          (actionValue (some rho) d V).Qxu * ((actionValue (some rho) d V).Quu⁻¹ * (actionValue (some rho) d V).Qxuᵀ))ᵀ) +
        rho • (1 : Matrix (Fin n) (Fin n) K) := by
      simp only [transpose_sub, transpose_add, transpose_smul, transpose_one]
      module
    simp only [computeValue, addDiag, zero_smul, add_zero, hM]
  · simp only [if_neg h, Option.map_none]

theorem backLoop_bump (rho : K) (feas : Bool) (d : ∀ t, Derivs K n (nu t)) (f : Nat → Fin n → K) (t : Nat)
    (s : Arrays K n nu) :
    backLoop llt (some 0) feas (fun t => proxDerivs rho (d t)) f t (bumpArr rho s) =
      (backLoop llt (some rho) feas d f t s).map (bumpArr rho) := by
  induction t generalizing s with
  | zero => rfl
  | succ t ih =>
    simp only [backLoop]
    rw [backNode_bump]
    show (match (backNode llt (some rho) feas (d t) (s.V (t + 1)) (f t)).map (bumpOut rho) with
      | none => none
      | some o => _) = _
    cases backNode llt (some rho) feas (d t) (s.V (t + 1)) (f t) with
    | none => rfl
    | some o =>
      simp only [Option.map_some]
      rw [← ih]
      congr 1
      simp only [bumpArr, bumpOut]
      congr 1
      funext j
      by_cases hj : j = t
      · subst hj; simp
      · simp [Function.update_of_ne hj]

theorem backwardPass_bump (rho : K) (feas : Bool) (T : Nat) (d : ∀ t, Derivs K n (nu t)) (LxT : Fin n → K)
    (LxxT : Matrix (Fin n) (Fin n) K) (f : Nat → Fin n → K) (s : Arrays K n nu) :
    backwardPass llt (some 0) feas T (fun t => proxDerivs rho (d t)) LxT (LxxT + rho • 1) f (bumpArr rho s) =
      (backwardPass llt (some rho) feas T d LxT LxxT f s).map (bumpArr rho) := by
  unfold backwardPass
  rw [← backLoop_bump]
  congr 1
  simp only [bumpArr, termValue, addDiag, zero_smul, add_zero]

/-- The problem `P` with the proximal term `½ rho ‖(x - xs, u - us)‖²` added to its costs, up to a constant. -/
def prox (P : LqProb K n nu) (rho : K) (xs : Nat → Fin n → K) (us : ∀ t, Fin (nu t) → K) : LqProb K n nu where
  T := P.T
  node := fun t => { P.node t with
    Q := (P.node t).Q + rho • 1
    R := (P.node t).R + rho • 1
    q := (P.node t).q - rho • xs t
    r := (P.node t).r - rho • us t }
  term := { P.term with
    Q := P.term.Q + rho • 1
    q := P.term.q - rho • xs P.T }
  x0 := P.x0

variable {P : LqProb K n nu} {rho : K} {feas : Bool} {xs : Nat → Fin n → K} {us : ∀ t, Fin (nu t) → K}
variable {s g : Arrays K n nu}

theorem prox_traj (vs : ∀ t, Fin (nu t) → K) (t0 : Nat) (x : Fin n → K) (i : Nat) :
    traj (prox P rho xs us) vs t0 x i = traj P vs t0 x i := by
  induction i with
  | zero => rfl
  | succ i ih => rw [traj, traj, ih]; rfl

theorem prox_gaps (ys : Nat → Fin n → K) (vs : ∀ t, Fin (nu t) → K) : gaps (prox P rho xs us) ys vs = gaps P ys vs := by
  funext t; cases t <;> rfl

theorem prox_symm (h : Symmetric P) : Symmetric (prox P rho xs us) :=
  ⟨fun t => by simp [prox, h.Q t], fun t => by simp [prox, h.R t], by simp [prox, h.term]⟩

theorem smul_one_mulVec {p : Nat} (r : K) (x : Fin p → K) : (r • (1 : Matrix (Fin p) (Fin p) K)) *ᵥ x = r • x := by
  rw [smul_mulVec, one_mulVec]

theorem dot_sub_self {p : Nat} (x y : Fin p → K) :
    (x - y) ⬝ᵥ (x - y) = x ⬝ᵥ x - 2 * (y ⬝ᵥ x) + y ⬝ᵥ y := by
  rw [sub_dotProduct, dotProduct_sub, dotProduct_sub, dotProduct_comm x y]; ring

theorem prox_cost (t : Nat) (x : Fin n → K) (u : Fin (nu t) → K) :
    ((prox P rho xs us).node t).cost x u = (P.node t).cost x u +
      ((1 / 2) * rho * ((x - xs t) ⬝ᵥ (x - xs t) + (u - us t) ⬝ᵥ (u - us t)) -
        (1 / 2) * rho * (xs t ⬝ᵥ xs t + us t ⬝ᵥ us t)) := by
  simp only [prox, Lqr.cost, add_mulVec, smul_one_mulVec, dotProduct_add, dotProduct_smul, sub_dotProduct,
    smul_dotProduct, smul_eq_mul]
  rw [dotProduct_sub, dotProduct_sub, dotProduct_sub, dotProduct_sub, dotProduct_comm x (xs t),
    dotProduct_comm u (us t)]
  ring

theorem prox_costT (x : Fin n → K) :
    (prox P rho xs us).term.costT x = P.term.costT x +
      ((1 / 2) * rho * ((x - xs P.T) ⬝ᵥ (x - xs P.T)) - (1 / 2) * rho * (xs P.T ⬝ᵥ xs P.T)) := by
  simp only [prox, Lqr.costT, add_mulVec, smul_one_mulVec, dotProduct_add, dotProduct_smul, sub_dotProduct,
    smul_dotProduct, smul_eq_mul]
  rw [dotProduct_sub, dotProduct_sub, dotProduct_comm x (xs P.T)]
  ring

/-- The constant left out of the proximal term. -/
def proxConst (P : LqProb K n nu) (rho : K) (xs : Nat → Fin n → K) (us : ∀ t, Fin (nu t) → K) : K :=
  (1 / 2) * rho * (∑ t ∈ Finset.range P.T, (xs t ⬝ᵥ xs t + us t ⬝ᵥ us t) + xs P.T ⬝ᵥ xs P.T)

theorem total_eq (P : LqProb K n nu) (vs : ∀ t, Fin (nu t) → K) : total P vs = costOf P (traj P vs 0 P.x0) vs := by
  unfold total costToGo costOf
  rw [Nat.sub_zero]
  congr 1
  refine Finset.sum_congr rfl fun t _ => ?_
  rw [Nat.zero_add]

theorem prox_total (vs : ∀ t, Fin (nu t) → K) :
    total (prox P rho xs us) vs = total P vs + (1 / 2) * rho * moved P xs us vs - proxConst P rho xs us := by
  rw [total_eq, total_eq]
  unfold costOf moved proxConst
  have hT : (prox P rho xs us).T = P.T := rfl
  have hx : (prox P rho xs us).x0 = P.x0 := rfl
  simp only [prox_traj, hT, hx]
  rw [prox_costT, Finset.sum_congr rfl fun t _ => prox_cost t _ _, Finset.sum_range_succ]
  simp only [Finset.sum_add_distrib, Finset.sum_sub_distrib, ← Finset.mul_sum]
  ring

/-- The cost of any candidate, for the problem with the proximal term around it. -/
theorem prox_costOf : costOf (prox P rho xs us) xs us = costOf P xs us - proxConst P rho xs us := by
  unfold costOf proxConst
  have hT : (prox P rho xs us).T = P.T := rfl
  rw [hT, prox_costT, Finset.sum_congr rfl fun t _ => prox_cost t _ _]
  simp only [sub_self, zero_dotProduct, add_zero, mul_zero, zero_sub, Finset.sum_add_distrib, Finset.sum_neg_distrib,
    ← Finset.mul_sum]
  ring

theorem prox_derivs (t : Nat) :
    ((prox P rho xs us).node t).derivs (xs t) (us t) = proxDerivs rho ((P.node t).derivs (xs t) (us t)) := by
  simp only [prox, Lqr.derivs, proxDerivs, add_mulVec, smul_one_mulVec]
  congr 1 <;> abel

/-- The regularised pass on `P` is the plain pass on the proximal problem. -/
theorem backwardOn_prox (h : backwardOn P llt (some rho) feas xs us s = some g) :
    backwardOn (prox P rho xs us) llt (some 0) feas xs us (bumpArr rho s) = some (bumpArr rho g) := by
  unfold backwardOn at h ⊢
  rw [prox_gaps]
  have hT : (prox P rho xs us).T = P.T := rfl
  have e1 : (fun t => ((prox P rho xs us).node t).derivs (xs t) (us t)) =
      fun t => proxDerivs rho ((P.node t).derivs (xs t) (us t)) := funext prox_derivs
  have e2 : (prox P rho xs us).term.q + (prox P rho xs us).term.Q *ᵥ xs P.T = P.term.q + P.term.Q *ᵥ xs P.T := by
    simp only [prox, add_mulVec, smul_one_mulVec]; abel
  rw [e1, hT, e2]
  show backwardPass llt (some 0) feas P.T _ _ (P.term.Q + rho • 1) _ _ = _
  rw [backwardPass_bump, h]
  rfl

theorem closedLoop_prox {a : K} {xs' : Nat → Fin n → K} {us' : ∀ t, Fin (nu t) → K}
    (h : ClosedLoop P xs us g a xs' us') : ClosedLoop (prox P rho xs us) xs us (bumpArr rho g) a xs' us' :=
  ⟨h.init, h.control, h.step⟩

theorem moved_nonneg (vs : ∀ t, Fin (nu t) → K) : 0 ≤ moved P xs us vs :=
  add_nonneg (Finset.sum_nonneg fun _ _ => dot_self_nonneg _) (Finset.sum_nonneg fun _ _ => dot_self_nonneg _)

theorem moved_self (h : ∀ t ≤ P.T, traj P us 0 P.x0 t = xs t) : moved P xs us us = 0 := by
  unfold moved
  rw [Finset.sum_eq_zero fun t _ => by simp, Finset.sum_eq_zero fun t ht => by
    rw [h t (by have := Finset.mem_range.mp ht; omega)]; simp]
  simp

theorem moved_eq_zero {vs : ∀ t, Fin (nu t) → K} (h : moved P xs us vs = 0) :
    (∀ t < P.T, vs t = us t) ∧ ∀ t ≤ P.T, traj P vs 0 P.x0 t = xs t := by
  unfold moved at h
  have h1 := Finset.sum_nonneg (s := Finset.range P.T) fun t _ => dot_self_nonneg (vs t - us t)
  have h2 := Finset.sum_nonneg (s := Finset.range (P.T + 1)) fun t _ => dot_self_nonneg (traj P vs 0 P.x0 t - xs t)
  have e1 := (Finset.sum_eq_zero_iff_of_nonneg (s := Finset.range P.T)
    fun t _ => dot_self_nonneg (vs t - us t)).mp (by linarith)
  have e2 := (Finset.sum_eq_zero_iff_of_nonneg (s := Finset.range (P.T + 1))
    fun t _ => dot_self_nonneg (traj P vs 0 P.x0 t - xs t)).mp (by linarith)
  have hz : ∀ {p : Nat} (v : Fin p → K), v ⬝ᵥ v = 0 → v = 0 := fun v hv => by
    by_contra hne
    exact (dot_self_pos hne).ne' hv
  exact ⟨fun t ht => sub_eq_zero.mp (hz _ (e1 t (Finset.mem_range.mpr ht))),
    fun t ht => sub_eq_zero.mp (hz _ (e2 t (Finset.mem_range.mpr (by omega))))⟩

/-- The full step minimises the cost plus the proximal term. -/
theorem prox_optimal (h : backwardOn P llt (some rho) feas xs us s = some g) (hs : Symmetric P) (hl : LltSound llt)
    (hf : feas = true → ∀ t ≤ P.T, gaps P xs us t = 0)
    (xs' : Nat → Fin n → K) (us' : ∀ t, Fin (nu t) → K) (hc : ClosedLoop P xs us g 1 xs' us')
    (vs : ∀ t, Fin (nu t) → K) :
    total P us' + (1 / 2) * rho * moved P xs us us' ≤ total P vs + (1 / 2) * rho * moved P xs us vs := by
  have := C29_optimal (backwardOn_prox h) (prox_symm hs) hl (.inr rfl)
    (fun e t ht => by rw [prox_gaps]; exact hf e t ht) xs' us' (closedLoop_prox hc) vs
  rw [prox_total, prox_total] at this
  linarith

/-- Actual against predicted improvement, from a candidate without gaps. -/
theorem prox_improvement (h : backwardOn P llt (some rho) feas xs us s = some g) (hs : Symmetric P) (hl : LltSound llt)
    (hf : ∀ t ≤ P.T, gaps P xs us t = 0) (hx : ∀ t ≤ P.T, traj P us 0 P.x0 t = xs t) (a : K)
    (xs' : Nat → Fin n → K) (us' : ∀ t, Fin (nu t) → K) (hc : ClosedLoop P xs us g a xs' us') :
    total P us - total P us' =
      a * ((expectedImprovement P.T g).1 + (1 / 2) * a * (expectedImprovement P.T g).2)
        + (1 / 2) * rho * moved P xs us us' := by
  have := C30_exact (backwardOn_prox h) (prox_symm hs) hl (.inr rfl)
    (fun t ht => by rw [prox_gaps]; exact hf t ht) a xs' us' (closedLoop_prox hc)
  rw [prox_total, prox_total, moved_self hx] at this
  have e : expectedImprovement (prox P rho xs us).T (bumpArr rho g) = expectedImprovement P.T g := rfl
  rw [e] at this
  linarith

/-- Actual against predicted improvement of the full step of FDDP, from a candidate with gaps. -/
theorem prox_improvement_fddp (h : backwardOn P llt (some rho) false xs us s = some g) (hs : Symmetric P)
    (hl : LltSound llt) (dx xs' : Nat → Fin n → K) (us' : ∀ t, Fin (nu t) → K) (hc : ClosedLoop P xs us g 1 xs' us') :
    costOf P xs us - total P us' =
      (expectedImprovementFddp P.T false (gaps P xs us) dx g).1
        + (1 / 2) * (expectedImprovementFddp P.T false (gaps P xs us) dx g).2 + (1 / 2) * rho * moved P xs us us' := by
  have := C30_fddp_full_step (backwardOn_prox h) (prox_symm hs) hl (.inr rfl) dx xs' us' (closedLoop_prox hc)
  have e : expectedImprovementFddp (prox P rho xs us).T false (gaps (prox P rho xs us) xs us) dx (bumpArr rho g) =
      expectedImprovementFddp P.T false (gaps P xs us) dx g := by rw [prox_gaps]; rfl
  rw [e, prox_total] at this
  have e2 := prox_costOf (P := P) (rho := rho) (xs := xs) (us := us)
  unfold costOf at e2 ⊢
  rw [e2] at this
  linarith

end Verif.Lq
