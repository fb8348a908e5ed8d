import Verif.Lemmas.BoxQp
import Mathlib.Tactic.NormNum.Basic
import Mathlib.Tactic.NormNum.Inv
import Mathlib.Tactic.NormNum.Ineq
import Mathlib.Algebra.Order.Ring.Rat
import Mathlib.Algebra.Order.Field.Rat
import Mathlib.Data.Fin.VecNotation
import Mathlib.LinearAlgebra.Matrix.Notation

/-! # Properties of the box QP solver (C32, C33, C34) and of the BoxDDP gains (C68) -/

set_option linter.unusedSectionVars false

namespace Verif.BoxQp
open Verif Matrix

section
variable {K : Type} [Field K] [LinearOrder K] [IsStrictOrderedRing K] {n : Nat}
variable {fac : Fac K} {p : Params K} {H : Matrix (Fin n) (Fin n) K} {q lb ub xinit : Fin n → K}
  {s0 s : Sol K n} {c : Bool}

/-! ### C32: the returned point is in the box and the index sets partition the coordinates -/

/-- C32. Whatever the Hessian, gradient, warm start, parameters and factorisation, the returned point is
inside the box. -/
theorem C32_in_box (hb : ∀ i, lb i ≤ ub i) (h : solve fac p H q lb ub xinit s0 = some (s, c)) :
    InBox lb ub s.x :=
  (loop_last (InBox lb ub) (fun _ _ _ hx hi => iter_inBox hb hx hi) _ _ _ _ _ (clamp_inBox hb xinit) h).1

/-- C32, partial: when at least one iteration is allowed, every coordinate is in exactly one of the two index
sets, exactly once. (With `maxiter = 0` this fails, see `C32_partition_counterexample`.) -/
theorem C32_partition_partial (hm : p.maxiter ≠ 0) (h : solve fac p H q lb ub xinit s0 = some (s, c)) :
    (s.free ++ s.clamped).Perm (List.finRange n) := by
  obtain ⟨-, ⟨h0, -⟩ | ⟨y, -, hy⟩⟩ := loop_last (fun _ => True) (fun _ _ _ _ _ => trivial) _ _ _ _ _ trivial h
  · exact absurd h0 hm
  · obtain ⟨sol, -, rfl, -⟩ := iter_some hy
    exact (List.perm_append_comm).trans (List.filter_append_perm _ _)

/-- C32. Every coordinate listed as clamped is at one of its bounds in the returned point. -/
theorem C32_clamped_at_bound (hb : ∀ i, lb i ≤ ub i) (hm : p.maxiter ≠ 0)
    (h : solve fac p H q lb ub xinit s0 = some (s, c)) :
    ∀ j ∈ s.clamped, s.x j = lb j ∨ s.x j = ub j := by
  obtain ⟨-, ⟨h0, -⟩ | ⟨y, hy, hi⟩⟩ := loop_last (InBox lb ub) (fun _ _ _ hx hi => iter_inBox hb hx hi)
    _ _ _ _ _ (clamp_inBox hb xinit) h
  · exact absurd h0 hm
  · intro j hj
    rw [iter_clamped_fixed hy hi j hj]
    obtain ⟨sol, -, rfl, -⟩ := iter_some hi
    rcases (isClamped_iff _ _ _ _ _).mp ((mem_cset _ _ _ _ _).mp hj) with h | h
    · exact .inl h.1
    · exact .inr h.1

/-! ### C34: convergence implies optimality -/

/-- What convergence says of the last point at which the gradient was computed. -/
theorem converged_pass (hb : ∀ i, lb i ≤ ub i) (h : solve fac p H q lb ub xinit s0 = some (s, true)) :
    ∃ x, InBox lb ub x ∧ iter fac p H q lb ub x = some (s, true) := by
  obtain ⟨-, ⟨-, -, h0⟩ | h1⟩ := loop_last (InBox lb ub) (fun _ _ _ hx hi => iter_inBox hb hx hi)
    _ _ _ _ _ (clamp_inBox hb xinit) h
  · simp at h0
  · exact h1

/-- C34, partial (no regularisation): if the solver stops on its convergence test with `th_grad = 0`, the
returned point satisfies the KKT conditions. (With a regularisation it need not, see
`C34_reg_counterexample`.) -/
theorem C34_kkt_partial (hf : FacSound fac) (hH : Hᵀ = H) (hb : ∀ i, lb i ≤ ub i) (hr : p.reg = 0)
    (hg : p.thGrad = 0) (h : solve fac p H q lb ub xinit s0 = some (s, true)) : Kkt H q lb ub s.x := by
  obtain ⟨x, hx, hi⟩ := converged_pass hb h
  refine ⟨C32_in_box hb h, ?_⟩
  obtain ⟨sol, hs, rfl, hc⟩ := iter_some hi
  rw [hr] at hs
  simp only [hr] at hc ⊢
  rw [hg] at hc
  have hq := ((normInf_le _ _).mp (of_decide_eq_true hc.symm)).2
  have hq0 : (fun i => - qf H q 0 (fset lb ub (grad H q x) x) (cset lb ub (grad H q x) x) x i) = 0 := by
    funext i
    have := abs_nonpos_iff.mp (hq i)
    simp [this]
  obtain ⟨hpd, hsol⟩ := hf _ _ _ (Hff_symm hH 0 _) hs
  have hd : sol 0 = 0 := by
    by_contra hne
    have h1 := hpd _ hne
    rw [hsol 0, dotProduct_zero] at h1
    exact lt_irrefl _ h1
  have hdx : scatter (fset lb ub (grad H q x) x) (sol (fun i => - qf H q 0 (fset lb ub (grad H q x) x)
      (cset lb ub (grad H q x) x) x i)) (fun _ => 0) = fun _ => 0 := by
    rw [hq0, hd]
    funext j
    by_cases hj : j ∈ fset lb ub (grad H q x) x
    · obtain ⟨i, rfl⟩ := List.mem_iff_get.mp hj
      rw [scatter_get _ (fset_nodup _ _ _ _)]; rfl
    · rw [scatter_not _ _ _ _ hj]
  have hxs : ∀ (g : Fin n → K) as, lineSearch H q lb ub p.thAccept g x (fun _ => 0) as = x := by
    intro g as
    rcases lineSearch_cases (H := H) (q := q) (lb := lb) (ub := ub) (th := p.thAccept) (g := g) (x := x)
      (dx := fun _ => 0) as with h | ⟨a, -, h, -⟩
    · exact h
    · rw [h, show (x + a • (fun _ => (0 : K)) : Fin n → K) = x by funext i; simp, clamp_of_inBox hx]
  rw [hdx, hxs]
  intro j
  by_cases hj : j ∈ fset lb ub (grad H q x) x
  · obtain ⟨i, rfl⟩ := List.mem_iff_get.mp hj
    left
    have := abs_nonpos_iff.mp (hq i)
    rw [qf_eq, zero_mul, add_zero] at this
    exact this
  · have hj' : isClamped lb ub (grad H q x) x j = true := by
      rw [mem_fset] at hj; simpa using hj
    rcases (isClamped_iff _ _ _ _ _).mp hj' with h | h
    · exact .inr (.inl ⟨h.1, h.2.le⟩)
    · exact .inr (.inr ⟨h.1, h.2.le⟩)

/-- C34. For every tolerance: if the solver stops on its convergence test and `H` is positive semidefinite,
the value of the returned point exceeds the minimum over the box by at most
`th_grad * (1 + |th_acceptstep|)` times the sum of the widths of the box. -/
theorem C34_near_optimal_partial (hH : Hᵀ = H) (hpsd : PosSemidef H) (hb : ∀ i, lb i ≤ ub i) (hr : p.reg = 0)
    (h : solve fac p H q lb ub xinit s0 = some (s, true)) (y : Fin n → K) (hy : InBox lb ub y) :
    cost H q s.x ≤ cost H q y + p.thGrad * (1 + |p.thAccept|) * ∑ i, (ub i - lb i) := by
  obtain ⟨x, hx, hi⟩ := converged_pass hb h
  have hsb := C32_in_box hb h
  have hfix := iter_clamped_fixed hx hi
  obtain ⟨sol, -, hs, hc⟩ := iter_some hi
  rw [hr] at hc hs
  have hq' := (normInf_le _ _).mp (of_decide_eq_true hc.symm)
  have hq : ∀ j ∈ fset lb ub (grad H q x) x, |grad H q x j| ≤ p.thGrad := by
    intro j hj
    obtain ⟨i, rfl⟩ := List.mem_iff_get.mp hj
    have := hq'.2 i
    rwa [qf_eq, zero_mul, add_zero] at this
  have hth := hq'.1
  rw [← objective_eq_cost, ← objective_eq_cost]
  -- the value at `x`
  have hwidth : ∀ {u v : Fin n → K}, InBox lb ub u → InBox lb ub v → ∀ i, |u i - v i| ≤ ub i - lb i := by
    intro u v hu hv i
    rw [abs_le]
    constructor <;> linarith [(hu i).1, (hu i).2, (hv i).1, (hv i).2]
  have h1 : objective H q x ≤ objective H q y + p.thGrad * ∑ i, (ub i - lb i) := by
    have he := objective_expand hH q x (y - x)
    rw [add_sub_cancel] at he
    have hq2 : - (p.thGrad * ∑ i, (ub i - lb i)) ≤ grad H q x ⬝ᵥ (y - x) := by
      rw [Finset.mul_sum, ← Finset.sum_neg_distrib]
      refine Finset.sum_le_sum fun i _ => ?_
      have hw : 0 ≤ ub i - lb i := sub_nonneg.mpr (hb i)
      by_cases hj : i ∈ fset lb ub (grad H q x) x
      · have h2 : |grad H q x i * (y - x) i| ≤ p.thGrad * (ub i - lb i) := by
          rw [abs_mul]
          exact mul_le_mul (hq i hj) (hwidth hy hx i) (abs_nonneg _) hth
        exact (abs_le.mp h2).1
      · have hj' : isClamped lb ub (grad H q x) x i = true := by
          rw [mem_fset] at hj; simpa using hj
        have hnn : 0 ≤ grad H q x i * (y - x) i := by
          rcases (isClamped_iff _ _ _ _ _).mp hj' with h | h
          · exact mul_nonneg h.2.le (by simp only [Pi.sub_apply, h.1]; linarith [(hy i).1])
          · exact mul_nonneg_of_nonpos_of_nonpos h.2.le (by simp only [Pi.sub_apply, h.1]; linarith [(hy i).2])
        have := mul_nonneg hth hw
        linarith
    have hq3 := hpsd (y - x)
    linarith
  -- the last step
  have h2 : objective H q s.x ≤ objective H q x + p.thGrad * |p.thAccept| * ∑ i, (ub i - lb i) := by
    have hx2 : s.x = lineSearch H q lb ub p.thAccept _ x _ p.alphas := congrArg Sol.x hs
    have hcl : s.clamped = cset lb ub (grad H q x) x := congrArg Sol.clamped hs
    rcases lineSearch_cases (H := H) (q := q) (lb := lb) (ub := ub) (th := p.thAccept)
      (g := scatter (fset lb ub (grad H q x) x) (fun i => - qf H q 0 (fset lb ub (grad H q x) x)
              (cset lb ub (grad H q x) x) x i) (grad H q x)) (x := x)
      (dx := scatter (fset lb ub (grad H q x) x) (sol (fun i => - qf H q 0 (fset lb ub (grad H q x) x)
              (cset lb ub (grad H q x) x) x i)) (fun _ => 0)) p.alphas with h3 | ⟨a, -, h3, h4⟩
    · rw [hx2, h3]
      have : 0 ≤ p.thGrad * |p.thAccept| * ∑ i, (ub i - lb i) :=
        mul_nonneg (mul_nonneg hth (abs_nonneg _)) (Finset.sum_nonneg fun i _ => sub_nonneg.mpr (hb i))
      linarith
    · rw [← h3, ← hx2] at h4
      generalize hgdef : scatter (fset lb ub (grad H q x) x) (fun i => - qf H q 0 (fset lb ub (grad H q x) x)
              (cset lb ub (grad H q x) x) x i) (grad H q x) = g' at h4
      have hgs : |g' ⬝ᵥ (x - s.x)| ≤ p.thGrad * ∑ i, (ub i - lb i) := by
        rw [Finset.mul_sum]
        refine (Finset.abs_sum_le_sum_abs _ _).trans (Finset.sum_le_sum fun i _ => ?_)
        by_cases hj : i ∈ fset lb ub (grad H q x) x
        · have hgi : |g' i| ≤ p.thGrad := by
            have := hq i hj
            obtain ⟨k, rfl⟩ := List.mem_iff_get.mp hj
            rw [← hgdef, scatter_get _ (fset_nodup _ _ _ _), abs_neg, qf_eq, zero_mul, add_zero]
            exact this
          rw [abs_mul]
          exact mul_le_mul hgi (hwidth hx hsb i) (abs_nonneg _) hth
        · have hj' : i ∈ s.clamped := by
            rw [hcl, mem_cset]; rw [mem_fset] at hj; simpa using hj
          rw [Pi.sub_apply, hfix i hj', sub_self, mul_zero, abs_zero]
          exact mul_nonneg hth (sub_nonneg.mpr (hb i))
      have h5 : |p.thAccept * (g' ⬝ᵥ (x - s.x))| ≤ p.thGrad * |p.thAccept| * ∑ i, (ub i - lb i) := by
        rw [abs_mul]
        have := mul_le_mul_of_nonneg_left hgs (abs_nonneg p.thAccept)
        linarith
      have := (abs_le.mp h5).1
      linarith
  have : p.thGrad * (1 + |p.thAccept|) * ∑ i, (ub i - lb i) =
      p.thGrad * ∑ i, (ub i - lb i) + p.thGrad * |p.thAccept| * ∑ i, (ub i - lb i) := by ring
  linarith

/-- C34, partial (no regularisation): with `th_grad = 0` and `H` positive semidefinite a point returned on
convergence is a global minimiser over the box. -/
theorem C34_minimises_partial (hH : Hᵀ = H) (hpsd : PosSemidef H) (hb : ∀ i, lb i ≤ ub i) (hr : p.reg = 0)
    (hg : p.thGrad = 0) (h : solve fac p H q lb ub xinit s0 = some (s, true)) : Minimises H q lb ub s.x :=
  ⟨C32_in_box hb h, fun y hy => by
    have := C34_near_optimal_partial hH hpsd hb hr h y hy
    rwa [hg, zero_mul, zero_mul, add_zero] at this⟩

/-! ### C33: the objective along the iterations -/

/-- C33, partial: with `th_acceptstep = 0` the objective never increases from the (clamped) warm start to the
returned point. -/
theorem C33_no_threshold_partial (hth : p.thAccept = 0) (h : solve fac p H q lb ub xinit s0 = some (s, c)) :
    cost H q s.x ≤ cost H q (clamp lb ub xinit) := by
  refine (loop_last (fun x => cost H q x ≤ cost H q (clamp lb ub xinit)) (fun x s c hx hi => ?_)
    _ _ _ _ _ le_rfl h).1
  refine le_trans ?_ hx
  obtain ⟨sol, -, rfl, -⟩ := iter_some hi
  simp only [← objective_eq_cost]
  rw [hth]
  rcases lineSearch_cases (H := H) (q := q) (lb := lb) (ub := ub) (th := 0) (x := x) p.alphas with h | ⟨a, -, h, h2⟩
  · rw [h]
  · rw [h]
    linarith

/-- C33, partial: one pass of the solver (no regularisation, step lengths in `[0,2]`) whose result is
strictly inside the box at every coordinate that was free does not increase the objective. -/
theorem C33_interior_partial {x : Fin n → K} (hf : FacSound fac) (hH : Hᵀ = H) (hr : p.reg = 0)
    (ha : ∀ a ∈ p.alphas, 0 ≤ a ∧ a ≤ 2) (hx : InBox lb ub x) (h : iter fac p H q lb ub x = some (s, c))
    (hint : ∀ j ∈ s.free, lb j < s.x j ∧ s.x j < ub j) : cost H q s.x ≤ cost H q x := by
  have hsb := hint
  have hfix := iter_clamped_fixed hx h
  obtain ⟨sol, hs, hseq, -⟩ := iter_some h
  rw [hr] at hs hseq
  have hfree : s.free = fset lb ub (grad H q x) x := congrArg Sol.free hseq
  have hcl : s.clamped = cset lb ub (grad H q x) x := congrArg Sol.clamped hseq
  have hx2 : s.x = lineSearch H q lb ub p.thAccept _ x _ p.alphas := congrArg Sol.x hseq
  obtain ⟨hn1, hn2, hn3⟩ := newton hf hH q lb ub x sol hs
  generalize hdxf : sol (fun i => - qf H q 0 (fset lb ub (grad H q x) x) (cset lb ub (grad H q x) x) x i) = dxf at *
  simp only [← objective_eq_cost]
  rcases lineSearch_cases (H := H) (q := q) (lb := lb) (ub := ub) (th := p.thAccept)
      (g := scatter (fset lb ub (grad H q x) x) (fun i => - qf H q 0 (fset lb ub (grad H q x) x)
              (cset lb ub (grad H q x) x) x i) (grad H q x)) (x := x)
      (dx := scatter (fset lb ub (grad H q x) x) dxf (fun _ => 0)) p.alphas with h3 | ⟨a, ham, h3, h4⟩
  · rw [hx2, h3]
  · rw [← hx2] at h3
    have hstep : s.x = x + a • scatter (fset lb ub (grad H q x) x) dxf (fun _ => 0) := by
      funext j
      by_cases hj : j ∈ s.free
      · have h5 := hint j hj
        rw [h3] at h5 ⊢
        simp only [clamp] at h5 ⊢
        obtain ⟨h6, h7⟩ := h5
        have h8 : lb j < min ((x + a • scatter (fset lb ub (grad H q x) x) dxf (fun _ => 0)) j) (ub j) := by
          rcases lt_max_iff.mp h6 with h | h
          · exact h
          · exact absurd h (lt_irrefl _)
        rw [max_eq_left h8.le] at h7 ⊢
        rcases min_lt_iff.mp h7 with h | h
        · exact min_eq_left h.le
        · exact absurd h (lt_irrefl _)
      · have hj' : j ∈ s.clamped := by
          rw [hcl, mem_cset]; rw [hfree, mem_fset] at hj; simpa using hj
        rw [hfix j hj']
        rw [hfree] at hj
        simp [scatter_not _ _ _ _ hj]
    rw [hstep, objective_expand hH, dotProduct_smul, mulVec_smul, dotProduct_smul, smul_dotProduct]
    simp only [smul_eq_mul]
    rw [hn1, hn2]
    have h5 : 0 ≤ a * (2 - a) * (dxf ⬝ᵥ (Hff H 0 (fset lb ub (grad H q x) x) *ᵥ dxf)) :=
      mul_nonneg (mul_nonneg (ha a ham).1 (by linarith [(ha a ham).2])) hn3
    nlinarith [h5]

/-- C33, partial: for a diagonal Hessian (no regularisation, step lengths in `[0,1]`) the objective never
increases from the clamped warm start to the returned point, truncated steps included. -/
theorem C33_diagonal_partial (hf : FacSound fac) (hd : ∀ i j, i ≠ j → H i j = 0) (hr : p.reg = 0)
    (ha : ∀ a ∈ p.alphas, 0 ≤ a ∧ a ≤ 1) (hb : ∀ i, lb i ≤ ub i)
    (h : solve fac p H q lb ub xinit s0 = some (s, c)) :
    cost H q s.x ≤ cost H q (clamp lb ub xinit) := by
  have hH : Hᵀ = H := by
    funext i j
    by_cases hij : i = j
    · subst hij; rfl
    · rw [transpose_apply, hd i j hij, hd j i (Ne.symm hij)]
  have hsep : ∀ x, objective H q x = ∑ i, ((1 / 2) * (H i i * x i ^ 2) + q i * x i) := by
    intro x
    unfold objective dotProduct mulVec dotProduct
    rw [Finset.mul_sum, ← Finset.sum_add_distrib]
    refine Finset.sum_congr rfl fun i _ => ?_
    rw [Finset.sum_eq_single i (fun j _ hj => by simp only [hd i j (Ne.symm hj), zero_mul])
      (fun h => absurd (Finset.mem_univ i) h)]
    ring
  refine (loop_last (fun x => InBox lb ub x ∧ cost H q x ≤ cost H q (clamp lb ub xinit)) (fun x s c hx hi => ?_)
    _ _ _ _ _ ⟨clamp_inBox hb xinit, le_rfl⟩ h).1.2
  refine ⟨iter_inBox hb hx.1 hi, le_trans ?_ hx.2⟩
  obtain ⟨sol, hs, rfl, -⟩ := iter_some hi
  rw [hr] at hs ⊢
  obtain ⟨hpd, hsol⟩ := hf _ _ _ (Hff_symm hH 0 _) hs
  simp only [← objective_eq_cost]
  rcases lineSearch_cases (H := H) (q := q) (lb := lb) (ub := ub) (th := p.thAccept)
      (g := scatter (fset lb ub (grad H q x) x) (fun i => - qf H q 0 (fset lb ub (grad H q x) x)
              (cset lb ub (grad H q x) x) x i) (grad H q x)) (x := x)
      (dx := scatter (fset lb ub (grad H q x) x) (sol (fun i => - qf H q 0 (fset lb ub (grad H q x) x)
              (cset lb ub (grad H q x) x) x i)) (fun _ => 0)) p.alphas with h3 | ⟨a, ham, h3, -⟩
  · rw [h3]
  · rw [h3, hsep, hsep]
    refine Finset.sum_le_sum fun j _ => ?_
    obtain ⟨ha0, ha1⟩ := ha a ham
    by_cases hj : j ∈ fset lb ub (grad H q x) x
    · obtain ⟨i, hji⟩ := List.mem_iff_get.mp hj
      have hgi : grad H q x j = q j + H j j * x j := by
        show q j + ∑ k, H j k * x k = _
        rw [Finset.sum_eq_single j (fun k _ hk => by rw [hd j k (Ne.symm hk), zero_mul])
          (fun h => absurd (Finset.mem_univ j) h)]
      have hrow := congrFun (hsol (fun i => - qf H q 0 (fset lb ub (grad H q x) x)
              (cset lb ub (grad H q x) x) x i)) i
      rw [qf_eq, zero_mul, add_zero, hji, hgi, Hff_zero] at hrow
      have hinj := List.nodup_iff_injective_get.mp (fset_nodup lb ub (grad H q x) x)
      have hrow2 : H j j * (sol (fun i => - qf H q 0 (fset lb ub (grad H q x) x)
              (cset lb ub (grad H q x) x) x i)) i = -(q j + H j j * x j) := by
        rw [← hrow]
        show _ = ∑ k, H ((fset lb ub (grad H q x) x).get i) ((fset lb ub (grad H q x) x).get k) * _
        rw [Finset.sum_eq_single i (fun k _ hk => by rw [hd _ _ (fun e => hk (hinj e).symm), zero_mul])
          (fun h => absurd (Finset.mem_univ i) h), hji]
      have hpos : 0 < H j j := by
        have := hpd (Pi.single i 1) (by intro h; have := congrFun h i; simp at this)
        simp only [mulVec_single_one, single_dotProduct, one_mul, col_apply] at this
        rw [Hff_zero] at this
        simp only [hji] at this
        exact this
      have hdx : scatter (fset lb ub (grad H q x) x) (sol (fun i => - qf H q 0 (fset lb ub (grad H q x) x)
              (cset lb ub (grad H q x) x) x i)) (fun _ => 0) j =
          (sol (fun i => - qf H q 0 (fset lb ub (grad H q x) x) (cset lb ub (grad H q x) x) x i)) i := by
        rw [← hji, scatter_get _ (fset_nodup _ _ _ _)]
      simp only [clamp, Pi.add_apply, Pi.smul_apply, smul_eq_mul, hdx]
      generalize (sol (fun i => - qf H q 0 (fset lb ub (grad H q x) x) (cset lb ub (grad H q x) x) x i)) i = d at *
      obtain ⟨hl, hu⟩ := hx.1 j
      -- the truncated displacement
      obtain ⟨t, ht⟩ : ∃ t, max (min (x j + a * d) (ub j)) (lb j) = x j + t :=
        ⟨max (min (x j + a * d) (ub j)) (lb j) - x j, by ring⟩
      have htd : (0 ≤ t ∧ t ≤ a * d) ∨ (a * d ≤ t ∧ t ≤ 0) := by
        rcases le_total 0 (a * d) with h | h
        · left
          have e1 : max (min (x j + a * d) (ub j)) (lb j) = min (x j + a * d) (ub j) :=
            max_eq_left (le_min (by linarith) (hb j))
          rw [e1] at ht
          constructor
          · have : x j ≤ min (x j + a * d) (ub j) := le_min (by linarith) hu
            linarith
          · have := min_le_left (x j + a * d) (ub j)
            linarith
        · right
          have e1 : min (x j + a * d) (ub j) = x j + a * d := min_eq_left (by linarith)
          rw [e1] at ht
          constructor
          · have := le_max_left (x j + a * d) (lb j)
            linarith
          · have : max (x j + a * d) (lb j) ≤ x j := max_le (by linarith) hl
            linarith
      rw [ht]
      have hkey : t * (t - 2 * d) ≤ 0 := by
        rcases htd with ⟨h1, h2⟩ | ⟨h1, h2⟩
        · rcases le_total 0 d with hd0 | hd0
          · have : t ≤ d := h2.trans (by nlinarith)
            exact mul_nonpos_of_nonneg_of_nonpos h1 (by linarith)
          · have : t = 0 := le_antisymm (h2.trans (mul_nonpos_of_nonneg_of_nonpos ha0 hd0)) h1
            rw [this, zero_mul]
        · rcases le_total 0 d with hd0 | hd0
          · have : t = 0 := le_antisymm h2 ((mul_nonneg ha0 hd0).trans h1)
            rw [this, zero_mul]
          · have : d ≤ t := le_trans (by nlinarith) h1
            exact mul_nonpos_of_nonpos_of_nonneg h2 (by linarith)
      have hfin : (1 / 2) * (H j j * (x j + t) ^ 2) + q j * (x j + t) -
          ((1 / 2) * (H j j * x j ^ 2) + q j * x j) = (1 / 2) * H j j * (t * (t - 2 * d)) := by
        have hq : q j = - H j j * x j - H j j * d := by linarith
        rw [hq]; ring
      have : (1 / 2) * H j j * (t * (t - 2 * d)) ≤ 0 :=
        mul_nonpos_of_nonneg_of_nonpos (by linarith) hkey
      linarith
    · simp only [clamp, Pi.add_apply, Pi.smul_apply, smul_eq_mul, scatter_not _ _ _ _ hj, mul_zero, add_zero]
      rw [min_eq_left (hx.1 j).2, max_eq_left (hx.1 j).1]

/-! ### C68: the gains of BoxDDP -/

variable {nx : Nat} {Q : Lq.QTerms K nx n} {ulb uub us k0 k Qu : Fin n → K} {Kfb : Matrix (Fin n) (Fin nx) K}

/-- The QP behind the gains. -/
theorem boxGains_some (h : boxGains fac p Q ulb uub us k0 s0 = some (k, Kfb, Qu, s)) :
    ∃ c, solve fac p Q.Quu Q.Qu (ulb - us) (uub - us) k0 s0 = some (s, c) ∧ k = - s.x ∧
      Kfb = projInv s * Q.Qxuᵀ ∧ Qu = scatter s.clamped (fun _ => 0) Q.Qu := by
  unfold boxGains at h
  split at h
  · simp at h
  · rename_i s' c hs
    simp only [Option.some.injEq, Prod.mk.injEq] at h
    obtain ⟨rfl, rfl, rfl, rfl⟩ := h
    exact ⟨c, hs, rfl, rfl, rfl⟩

/-- C68. The full step of the BoxDDP feed-forward term is within the control limits, whatever the current
control, the Hessian, the gradient and the warm start. -/
theorem C68_full_step_in_limits (hb : ∀ i, ulb i ≤ uub i)
    (h : boxGains fac p Q ulb uub us k0 s0 = some (k, Kfb, Qu, s)) : ∀ i, ulb i ≤ us i - k i ∧ us i - k i ≤ uub i := by
  obtain ⟨c, hs, rfl, -, -⟩ := boxGains_some h
  intro i
  have := C32_in_box (fun i => by simp [hb i]) hs i
  simp only [Pi.sub_apply, Pi.neg_apply] at this ⊢
  constructor <;> linarith [this.1, this.2]

/-- C68. At a clamped coordinate the full step puts the control at one of its limits, the feedback row is
zero and the projected gradient is zero. -/
theorem C68_clamped_rows (hb : ∀ i, ulb i ≤ uub i) (hm : p.maxiter ≠ 0)
    (h : boxGains fac p Q ulb uub us k0 s0 = some (k, Kfb, Qu, s)) :
    ∀ j ∈ s.clamped, (us j - k j = ulb j ∨ us j - k j = uub j) ∧ (∀ i, Kfb j i = 0) ∧ Qu j = 0 := by
  obtain ⟨c, hs, rfl, rfl, rfl⟩ := boxGains_some h
  intro j hj
  have hp := C32_partition_partial hm hs
  have hnd : (s.free ++ s.clamped).Nodup := hp.nodup_iff.mpr (List.nodup_finRange n)
  have hnf : j ∉ s.free := fun hf => (List.nodup_append.mp hnd).2.2 j hf j hj rfl
  refine ⟨?_, fun i => ?_, ?_⟩
  · have := C32_clamped_at_bound (fun i => by simp [hb i]) hm hs j hj
    simp only [Pi.sub_apply, Pi.neg_apply] at this ⊢
    rcases this with h | h
    · left; linarith
    · right; linarith
  · rw [Matrix.mul_apply]
    exact Finset.sum_eq_zero fun l _ => by rw [projInv_row_not s j hnf, zero_mul]
  · obtain ⟨i, rfl⟩ := List.mem_iff_get.mp hj
    exact scatter_get _ (List.nodup_append.mp hnd).2.1 _ _ _

/-- C68. At a free coordinate the projected gradient is the gradient, and the feedback gain solves the
reduced Newton system `Σ_{j free} Quu(i,j) K(j,·) = Qux(i,·)` (no regularisation in the QP). -/
theorem C68_free_rows (hf : FacSound fac) (hQ : Q.Quuᵀ = Q.Quu) (hr : p.reg = 0) (hm : p.maxiter ≠ 0)
    (h : boxGains fac p Q ulb uub us k0 s0 = some (k, Kfb, Qu, s)) :
    ∀ i ∈ s.free, Qu i = Q.Qu i ∧ ∀ a, ∑ j, Q.Quu i j * Kfb j a = Q.Qxu a i := by
  obtain ⟨c, hs, rfl, rfl, rfl⟩ := boxGains_some h
  intro i hi
  have hp := C32_partition_partial hm hs
  have hnd : (s.free ++ s.clamped).Nodup := hp.nodup_iff.mpr (List.nodup_finRange n)
  have hnf : i ∉ s.clamped := fun hf => (List.nodup_append.mp hnd).2.2 i hi i hf rfl
  refine ⟨scatter_not _ _ _ _ hnf, fun a => ?_⟩
  obtain ⟨-, ⟨h0, -⟩ | ⟨y, -, hy⟩⟩ := loop_last (fun _ => True) (fun _ _ _ _ _ => trivial) _ _ _ _ _ trivial hs
  · exact absurd h0 hm
  obtain ⟨sol, hsol, hseq, -⟩ := iter_some hy
  rw [hr] at hsol
  obtain ⟨-, hinv⟩ := hf _ _ _ (Hff_symm hQ 0 _) hsol
  generalize hl : fset (ulb - us) (uub - us) (grad Q.Quu Q.Qu y) y = l at *
  have hln : l.Nodup := hl ▸ fset_nodup _ _ _ _
  subst hseq
  simp only at hi ⊢
  obtain ⟨r, rfl⟩ := List.mem_iff_get.mp hi
  -- the feedback rows
  have hK : ∀ x' cl j, (projInv (⟨x', l, cl, fun i j => sol (fun k => if k = j then 1 else 0) i⟩ : Sol K n) * Q.Qxuᵀ) j a =
      scatter l (fun t => ∑ m, (sol (fun k => if k = m then 1 else 0)) t * Q.Qxu a (l.get m)) (fun _ => 0) j := by
    intro x' cl j
    rw [Matrix.mul_apply]
    by_cases hj : j ∈ l
    · obtain ⟨t, rfl⟩ := List.mem_iff_get.mp hj
      rw [scatter_get _ hln]
      have hrow := projInv_row (⟨x', l, cl,
        fun i j => sol (fun k => if k = j then 1 else 0) i⟩ : Sol K n) hln t
      simp only at hrow
      rw [hrow]
      have := scatter_dot l hln (fun m => sol (fun k => if k = m then 1 else 0) t) (fun m => Q.Qxu a m)
      rw [dotProduct] at this
      rw [Finset.sum_congr rfl (fun m _ => mul_comm _ _)] at this
      rw [show ∑ m, sol (fun k => if k = m then 1 else 0) t * Q.Qxu a (l.get m) =
        ∑ m, Q.Qxu a (l.get m) * sol (fun k => if k = m then 1 else 0) t from
        Finset.sum_congr rfl (fun m _ => mul_comm _ _), ← this]
      rfl
    · rw [scatter_not _ _ _ _ hj]
      exact Finset.sum_eq_zero fun m _ => by rw [projInv_row_not _ j (by exact hj), zero_mul]
  rw [Finset.sum_congr rfl (fun j _ => by rw [hK _ _ j])]
  have hdot := scatter_dot l hln (fun t => ∑ m, (sol (fun k => if k = m then 1 else 0)) t * Q.Qxu a (l.get m))
    (fun j => Q.Quu (l.get r) j)
  rw [dotProduct] at hdot
  rw [hdot]
  have hswap : ∑ t, Q.Quu (l.get r) (l.get t) * ∑ m, sol (fun k => if k = m then 1 else 0) t * Q.Qxu a (l.get m) =
      ∑ m, (∑ t, Q.Quu (l.get r) (l.get t) * sol (fun k => if k = m then 1 else 0) t) * Q.Qxu a (l.get m) := by
    simp only [Finset.mul_sum, Finset.sum_mul]
    rw [Finset.sum_comm]
    refine Finset.sum_congr rfl fun m _ => Finset.sum_congr rfl fun t _ => by ring
  rw [hswap]
  have hone : ∀ m, ∑ t, Q.Quu (l.get r) (l.get t) * sol (fun k => if k = m then 1 else 0) t =
      if r = m then 1 else 0 := by
    intro m
    have := congrFun (hinv (fun k => if k = m then 1 else 0)) r
    rw [Hff_zero] at this
    exact this
  rw [Finset.sum_congr rfl (fun m _ => by rw [hone m])]
  simp

/-- C68. When the box QP converges and `Quu` is positive semidefinite, the full feed-forward step minimises
the local quadratic model over the control limits up to `th_grad (1+|th_acceptstep|)` times the sum of the
widths of the limits; with `th_grad = 0` it is an exact minimiser. -/
theorem C68_near_optimal (hQ : Q.Quuᵀ = Q.Quu) (hpsd : PosSemidef Q.Quu) (hr : p.reg = 0)
    (hb : ∀ i, ulb i ≤ uub i) (h : boxGains fac p Q ulb uub us k0 s0 = some (k, Kfb, Qu, s))
    (hc : ∀ s' c, solve fac p Q.Quu Q.Qu (ulb - us) (uub - us) k0 s0 = some (s', c) → c = true)
    (u : Fin n → K) (hu : ∀ i, ulb i ≤ u i ∧ u i ≤ uub i) :
    cost Q.Quu Q.Qu (- k) ≤ cost Q.Quu Q.Qu (u - us) + p.thGrad * (1 + |p.thAccept|) * ∑ i, (uub i - ulb i) := by
  obtain ⟨c, hs, rfl, -, -⟩ := boxGains_some h
  have hct := hc _ _ hs
  subst hct
  have := C34_near_optimal_partial hQ hpsd (fun i => by simp [hb i]) hr hs (u - us)
    (fun i => by simp [hu i])
  rw [neg_neg]
  simpa using this

end

/-! ### Concrete cases -/

namespace Demo

/-- An exact factorisation for dimensions up to two. -/
def fac : Fac ℚ := fun m => match m with
  | 0 => fun _ => some (fun b => b)
  | 1 => fun M => if 0 < M 0 0 then some (fun b => ![b 0 / M 0 0]) else none
  | 2 => fun M => if 0 < M 0 0 ∧ 0 < M 0 0 * M 1 1 - M 0 1 * M 1 0 then
      some (fun b => ![(M 1 1 * b 0 - M 0 1 * b 1) / (M 0 0 * M 1 1 - M 0 1 * M 1 0),
        (M 0 0 * b 1 - M 1 0 * b 0) / (M 0 0 * M 1 1 - M 0 1 * M 1 0)]) else none
  | _ + 3 => fun _ => none

theorem fac_sound : FacSound fac := by
  intro m M sol hM h
  match m, M, sol, hM, h with
  | 0, M, sol, hM, h =>
    refine ⟨fun v hv => absurd (funext fun i => i.elim0) hv, fun b => funext fun i => i.elim0⟩
  | 1, M, sol, hM, h =>
    simp only [fac] at h
    split at h
    · rename_i hp
      simp only [Option.some.injEq] at h
      subst h
      refine ⟨fun v hv => ?_, fun b => ?_⟩
      · have h1 := Lq.dot_self_pos hv
        simp only [dotProduct, mulVec, Fin.sum_univ_one, Fin.isValue] at h1 ⊢
        have := mul_pos hp h1
        linarith
      · funext i
        have hi : i = 0 := Subsingleton.elim _ _
        subst hi
        simp only [mulVec, dotProduct, Fin.sum_univ_one, Fin.isValue, cons_val_fin_one]
        field_simp
    · simp at h
  | 2, M, sol, hM, h =>
    simp only [fac] at h
    split at h
    · rename_i hp
      obtain ⟨hp1, hp2⟩ := hp
      simp only [Option.some.injEq] at h
      subst h
      have hs : M 1 0 = M 0 1 := congrFun (congrFun hM 0) 1
      refine ⟨fun v hv => ?_, fun b => ?_⟩
      · simp only [dotProduct, mulVec, Fin.sum_univ_two, Fin.isValue, hs] at hp2 ⊢
        have hid : M 0 0 * (v 0 * (M 0 0 * v 0 + M 0 1 * v 1) + v 1 * (M 0 1 * v 0 + M 1 1 * v 1)) =
            (M 0 0 * v 0 + M 0 1 * v 1) ^ 2 + (M 0 0 * M 1 1 - M 0 1 * M 0 1) * v 1 ^ 2 := by ring
        have hpos : 0 < (M 0 0 * v 0 + M 0 1 * v 1) ^ 2 + (M 0 0 * M 1 1 - M 0 1 * M 0 1) * v 1 ^ 2 := by
          by_cases h1 : v 1 = 0
          · have h0 : v 0 ≠ 0 := by
              intro h0
              apply hv
              funext i
              match i with
              | 0 => exact h0
              | 1 => exact h1
            rw [h1]
            have : 0 < (M 0 0 * v 0) ^ 2 := by positivity
            simpa using this
          · have : 0 < (M 0 0 * M 1 1 - M 0 1 * M 0 1) * v 1 ^ 2 := by positivity
            have := sq_nonneg (M 0 0 * v 0 + M 0 1 * v 1)
            linarith
        rw [← hid] at hpos
        exact pos_of_mul_pos_right hpos hp1.le
      · rw [hs] at hp2 ⊢
        funext i
        match i with
        | 0 =>
          simp only [mulVec, dotProduct, Fin.sum_univ_two, Fin.isValue, cons_val_zero, cons_val_one]
          rw [← mul_div_assoc, ← mul_div_assoc, ← add_div, div_eq_iff hp2.ne']
          ring
        | 1 =>
          simp only [mulVec, dotProduct, Fin.sum_univ_two, Fin.isValue, cons_val_zero, cons_val_one, hs]
          rw [← mul_div_assoc, ← mul_div_assoc, ← add_div, div_eq_iff hp2.ne']
          ring
    · simp at h
  | _ + 3, M, sol, hM, h => simp [fac] at h

/-- The parameters used by BoxDDP but for `maxiter` and `th_grad`: `BoxQP(nu, 100, 0.1, 1e-5, 0)`. -/
def params (maxiter : Nat) (thGrad reg : ℚ) : Params ℚ := ⟨maxiter, 1 / 10, thGrad, reg, defaultAlphas ℚ⟩

/-- The solution stored by the constructor. -/
def sol0 (n : Nat) : Sol ℚ n := ⟨fun _ => 0, [], [], fun _ _ => 0⟩

def H : Matrix (Fin 2) (Fin 2) ℚ := !![2, -2; -2, 3]
def q : Fin 2 → ℚ := ![-2, 0]
def lb : Fin 2 → ℚ := ![-3, -3]
def ub : Fin 2 → ℚ := ![0, 2]
def x0 : Fin 2 → ℚ := ![-1, -2]

theorem H_psd : PosDef H := by
  intro v hv
  have hp := (fac_sound 2 H _ (by decide) (by
    show (if _ then _ else _) = _
    rw [if_pos (by constructor <;> norm_num [H])])).1
  exact hp v hv

/-- Runs of the solver decided by evaluation. -/
theorem exists_of_check {n : Nat} {r : Option (Sol ℚ n × Bool)} {P : (Fin n → ℚ) → Bool → Bool}
    (h : (match r with | some (s, c) => P s.x c | none => false) = true) :
    ∃ s c, r = some (s, c) ∧ P s.x c = true := by
  match r, h with
  | some (s, c), h => exact ⟨s, c, rfl, h⟩

/-- The hypotheses of C32, C34 and C68 are met: BoxDDP's parameters with `th_grad = 0` converge on a
two-dimensional problem whose solution `(0, 0)` is at a bound. -/
example : ∃ s c, solve fac (params 100 0 0) H q lb ub x0 (sol0 2) = some (s, c) ∧
    (decide (s.x = ![0, 0]) && c) = true :=
  exists_of_check (P := fun x c => decide (x = ![0, 0]) && c) (by decide +kernel)

/-- C33, counterexample: on a positive definite problem, one pass of the solver with BoxDDP's parameters
accepts a truncated step that increases the objective (from 5 to 6): the acceptance test uses the wrong sign
of the gradient. -/
theorem C33_counterexample : PosDef H ∧ InBox lb ub x0 ∧
    ∃ s c, solve fac (params 1 (1 / 100000) 0) H q lb ub x0 (sol0 2) = some (s, c) ∧
      cost H q x0 = 5 ∧ cost H q s.x = 6 := by
  refine ⟨H_psd, by unfold InBox lb ub x0; decide, ?_⟩
  obtain ⟨s, c, h1, h2⟩ := exists_of_check (r := solve fac (params 1 (1 / 100000) 0) H q lb ub x0 (sol0 2))
    (P := fun x _ => decide (x = ![0, 2])) (by decide +kernel)
  refine ⟨s, c, h1, by decide +kernel, ?_⟩
  rw [of_decide_eq_true h2]
  decide +kernel

/-- C32, counterexample: with `maxiter = 0` the solver returns the index sets of the previous call (none after
construction), which do not partition the coordinates. -/
theorem C32_partition_counterexample :
    ∃ s c, solve fac (params 0 0 0) H q lb ub x0 (sol0 2) = some (s, c) ∧
      ¬ (s.free ++ s.clamped).Perm (List.finRange 2) := by
  refine ⟨_, _, rfl, ?_⟩
  decide

/-- C34, counterexample: with a regularisation the convergence test is about the regularised gradient; the
solver stops with `th_grad = 0` at an interior point where the gradient of the objective is not zero and
which is not a minimiser. -/
theorem C34_reg_counterexample :
    ∃ s c, solve (n := 1) fac (params 100 0 1) !![1] ![-1] ![0] ![10] ![1 / 2] (sol0 1) = some (s, c) ∧ c = true ∧
      ¬ Kkt !![1] ![-1] ![0] ![10] s.x ∧ ¬ Minimises !![1] ![-1] ![0] ![10] s.x := by
  obtain ⟨s, c, h1, h2⟩ := exists_of_check
    (r := solve (n := 1) fac (params 100 0 1) !![1] ![-1] ![0] ![10] ![1 / 2] (sol0 1))
    (P := fun x c => decide (x = ![1 / 2]) && c) (by decide +kernel)
  rw [Bool.and_eq_true] at h2
  refine ⟨s, c, h1, h2.2, ?_, ?_⟩
  · rw [of_decide_eq_true h2.1]
    rintro ⟨-, h⟩
    have := h 0
    norm_num at this
  · rw [of_decide_eq_true h2.1]
    rintro ⟨-, h⟩
    have := h ![1] (by intro i; have : i = 0 := Subsingleton.elim _ _; subst this; norm_num)
    norm_num [cost] at this

/-- The hypotheses of the partial forms of C33: a diagonal problem with a bound that truncates the step. -/
example : ∃ s c, solve (n := 2) fac (params 100 0 0) !![2, 0; 0, 1] ![-4, 1] lb ub x0 (sol0 2) = some (s, c) ∧
    (decide (s.x = ![0, -1]) && c) = true :=
  exists_of_check (P := fun x c => decide (x = ![0, -1]) && c) (by decide +kernel)

/-- A pass that ends strictly inside the box. -/
example : ∃ s c, iter (n := 2) fac (params 100 0 0) !![2, 1; 1, 2] ![0, 0] ![-3, -3] ![3, 3] ![1, -2] = some (s, c) ∧
    (decide (s.x = ![0, 0])) = true :=
  exists_of_check (P := fun x _ => decide (x = ![0, 0])) (by decide +kernel)

/-- BoxDDP gains on a problem with one clamped and one free control. -/
def Q : Lq.QTerms ℚ 1 2 := ⟨![1], q, !![1], !![1, 2], H⟩

example : ∃ k Kfb Qu s, boxGains fac (params 100 0 0) Q ![0, 0] ![3, 5] ![3, 3] ![1, 2] (sol0 2) = some (k, Kfb, Qu, s) := by
  cases h : solve fac (params 100 0 0) Q.Quu Q.Qu (![0, 0] - ![3, 3]) (![3, 5] - ![3, 3]) ![1, 2] (sol0 2) with
  | none =>
    obtain ⟨s, c, h1, -⟩ := exists_of_check
      (r := solve fac (params 100 0 0) Q.Quu Q.Qu (![0, 0] - ![3, 3]) (![3, 5] - ![3, 3]) ![1, 2] (sol0 2))
      (P := fun _ _ => true) (by decide +kernel)
    rw [h] at h1
    simp at h1
  | some r => exact ⟨_, _, _, _, by unfold boxGains; rw [h]⟩

end Demo

end Verif.BoxQp
