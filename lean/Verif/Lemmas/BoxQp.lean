import Verif.Spec.BoxQp
import Verif.Lemmas.Lq
import Mathlib.Data.List.FinRange
import Mathlib.Algebra.BigOperators.Fin
import Mathlib.Data.Fin.Tuple.Basic
import Mathlib.Algebra.Order.BigOperators.Group.Finset
import Mathlib.Tactic.Ring
import Mathlib.Tactic.Linarith
import Mathlib.Tactic.Positivity
import Mathlib.Tactic.FieldSimp

/-! # Lemmas about the box QP model -/

set_option linter.unusedSectionVars false

namespace Verif.BoxQp
open Verif Matrix

variable {K : Type} [Field K] [LinearOrder K] [IsStrictOrderedRing K] {n : Nat}

/-! ### scatter -/

theorem foldl_update_not {α : Type} (is : List α) (f : α → Fin n) (v : α → K) (base : Fin n → K) (j : Fin n)
    (h : ∀ i ∈ is, f i ≠ j) :
    (is.foldl (fun b i => Function.update b (f i) (v i)) base) j = base j := by
  induction is generalizing base with
  | nil => rfl
  | cons i is ih =>
    rw [List.foldl_cons, ih _ (fun k hk => h k (List.mem_cons_of_mem _ hk)),
      Function.update_of_ne (h i List.mem_cons_self).symm]

theorem foldl_update_mem {α : Type} (is : List α) (f : α → Fin n) (v : α → K) (base : Fin n → K)
    (hn : is.Nodup) (hf : ∀ i ∈ is, ∀ k ∈ is, f i = f k → i = k) (i : α) (hi : i ∈ is) :
    (is.foldl (fun b i => Function.update b (f i) (v i)) base) (f i) = v i := by
  induction is generalizing base with
  | nil => simp at hi
  | cons a is ih =>
    rw [List.foldl_cons]
    rw [List.nodup_cons] at hn
    rcases List.mem_cons.mp hi with rfl | hi'
    · rw [foldl_update_not]
      · rw [Function.update_self]
      · intro k hk he
        exact hn.1 (hf _ List.mem_cons_self _ (List.mem_cons_of_mem _ hk) he.symm ▸ hk)
    · exact ih _ hn.2 (fun x hx y hy => hf x (List.mem_cons_of_mem _ hx) y (List.mem_cons_of_mem _ hy)) hi'

theorem scatter_get (l : List (Fin n)) (hl : l.Nodup) (v : Fin l.length → K) (base : Fin n → K)
    (i : Fin l.length) : scatter l v base (l.get i) = v i :=
  foldl_update_mem _ _ _ _ (List.nodup_finRange _)
    (fun _ _ _ _ h => (List.nodup_iff_injective_get.mp hl) h) _ (List.mem_finRange _)

theorem scatter_not (l : List (Fin n)) (v : Fin l.length → K) (base : Fin n → K) (j : Fin n) (h : j ∉ l) :
    scatter l v base j = base j :=
  foldl_update_not _ _ _ _ _ (fun i _ he => h (he ▸ List.get_mem l i))

/-! ### Splitting a sum over the free and the clamped coordinates -/

theorem sum_get (l : List (Fin n)) (f : Fin n → K) : ∑ i : Fin l.length, f (l.get i) = (l.map f).sum := by
  induction l with
  | nil => simp
  | cons a l ih =>
    rw [List.map_cons, List.sum_cons, ← ih]
    exact Fin.sum_univ_succ (n := l.length) (fun i => f ((a :: l).get i))

theorem sum_split (p : Fin n → Bool) (f : Fin n → K) :
    (((List.finRange n).filter (fun j => !p j)).map f).sum + (((List.finRange n).filter p).map f).sum =
      ∑ j, f j := by
  have h : ∀ l : List (Fin n), ((l.filter (fun j => !p j)).map f).sum + ((l.filter p).map f).sum =
      (l.map f).sum := by
    intro l
    induction l with
    | nil => simp
    | cons a l ih =>
      cases ha : p a <;> simp [List.filter_cons, ha, ← ih] <;> ring
  rw [h, ← List.ofFn_eq_map, List.sum_ofFn]

/-- The index sets of a pass. -/
abbrev cset (lb ub g x : Fin n → K) : List (Fin n) :=
  (List.finRange n).filter (fun j => isClamped lb ub g x j)
abbrev fset (lb ub g x : Fin n → K) : List (Fin n) :=
  (List.finRange n).filter (fun j => !isClamped lb ub g x j)

theorem fset_nodup (lb ub g x : Fin n → K) : (fset lb ub g x).Nodup := (List.nodup_finRange _).filter _
theorem cset_nodup (lb ub g x : Fin n → K) : (cset lb ub g x).Nodup := (List.nodup_finRange _).filter _

theorem mem_fset (lb ub g x : Fin n → K) (j : Fin n) : j ∈ fset lb ub g x ↔ isClamped lb ub g x j = false := by
  simp [fset]
theorem mem_cset (lb ub g x : Fin n → K) (j : Fin n) : j ∈ cset lb ub g x ↔ isClamped lb ub g x j = true := by
  simp [cset]

theorem isClamped_iff (lb ub g x : Fin n → K) (j : Fin n) : isClamped lb ub g x j = true ↔
    (x j = lb j ∧ 0 < g j) ∨ (x j = ub j ∧ g j < 0) := by
  simp [isClamped]

/-- The reduced gradient is the gradient at the free coordinates plus the regularisation term. -/
theorem qf_eq (H : Matrix (Fin n) (Fin n) K) (q : Fin n → K) (reg : K) (lb ub g x : Fin n → K)
    (i : Fin (fset lb ub g x).length) :
    qf H q reg (fset lb ub g x) (cset lb ub g x) x i =
      grad H q x ((fset lb ub g x).get i) + reg * x ((fset lb ub g x).get i) := by
  have hff : (Hff H reg (fset lb ub g x) *ᵥ fun j => x ((fset lb ub g x).get j)) i =
      ((fset lb ub g x).map (fun j => H ((fset lb ub g x).get i) j * x j)).sum
        + reg * x ((fset lb ub g x).get i) := by
    rw [← sum_get]
    unfold Hff mulVec dotProduct
    by_cases hr : reg = 0
    · simp [hr]
    · simp only [ne_eq, hr, not_false_iff, if_true]
      have : ∀ j : Fin (fset lb ub g x).length,
          (if i = j then H ((fset lb ub g x).get i) ((fset lb ub g x).get j) + reg
            else H ((fset lb ub g x).get i) ((fset lb ub g x).get j)) * x ((fset lb ub g x).get j) =
          H ((fset lb ub g x).get i) ((fset lb ub g x).get j) * x ((fset lb ub g x).get j) +
            (if i = j then reg * x ((fset lb ub g x).get j) else 0) := by
        intro j; split <;> ring
      rw [Finset.sum_congr rfl (fun j _ => this j), Finset.sum_add_distrib]
      simp
  have hfc : (if (cset lb ub g x).length ≠ 0 then
      ((fun (i : Fin (fset lb ub g x).length) (j : Fin (cset lb ub g x).length) =>
        H ((fset lb ub g x).get i) ((cset lb ub g x).get j) :
          Matrix _ _ K) *ᵥ fun j => x ((cset lb ub g x).get j)) i else 0) =
      ((cset lb ub g x).map (fun j => H ((fset lb ub g x).get i) j * x j)).sum := by
    rw [← sum_get]
    split
    · rfl
    · rename_i h
      rw [not_not] at h
      symm
      apply Finset.sum_eq_zero
      intro j
      exact absurd j.2 (by omega)
  have hsplit := sum_split (fun j => isClamped lb ub g x j) (fun j => H ((fset lb ub g x).get i) j * x j)
  have : qf H q reg (fset lb ub g x) (cset lb ub g x) x i =
      q ((fset lb ub g x).get i) + (Hff H reg (fset lb ub g x) *ᵥ fun j => x ((fset lb ub g x).get j)) i +
      (if (cset lb ub g x).length ≠ 0 then
      ((fun (i : Fin (fset lb ub g x).length) (j : Fin (cset lb ub g x).length) =>
        H ((fset lb ub g x).get i) ((cset lb ub g x).get j) :
          Matrix _ _ K) *ᵥ fun j => x ((cset lb ub g x).get j)) i else 0) := by
    unfold qf
    simp only
    split
    · rfl
    · rw [add_zero]
  rw [this, hff, hfc]
  have hg : grad H q x ((fset lb ub g x).get i) = q ((fset lb ub g x).get i) +
      ∑ j, H ((fset lb ub g x).get i) j * x j := rfl
  rw [hg, ← hsplit]
  ring

/-! ### The box -/

theorem clamp_inBox {lb ub : Fin n → K} (h : ∀ i, lb i ≤ ub i) (v : Fin n → K) : InBox lb ub (clamp lb ub v) :=
  fun i => ⟨le_max_right _ _, max_le (min_le_right _ _) (h i)⟩

theorem clamp_of_inBox {lb ub x : Fin n → K} (h : InBox lb ub x) : clamp lb ub x = x := by
  funext i
  simp [clamp, h i]

theorem lineSearch_inBox {H : Matrix (Fin n) (Fin n) K} {q lb ub : Fin n → K} {th : K} {g x dx : Fin n → K}
    (h : ∀ i, lb i ≤ ub i) (hx : InBox lb ub x) : ∀ as, InBox lb ub (lineSearch H q lb ub th g x dx as)
  | [] => hx
  | a :: as => by
    unfold lineSearch
    simp only
    split
    · exact clamp_inBox h _
    · exact lineSearch_inBox h hx as

/-- The line search keeps the point or takes a step that passed the test. -/
theorem lineSearch_cases {H : Matrix (Fin n) (Fin n) K} {q lb ub : Fin n → K} {th : K} {g x dx : Fin n → K} :
    ∀ as, lineSearch H q lb ub th g x dx as = x ∨ ∃ a ∈ as,
      lineSearch H q lb ub th g x dx as = clamp lb ub (x + a • dx) ∧
      th * (g ⬝ᵥ (x - clamp lb ub (x + a • dx))) < objective H q x - objective H q (clamp lb ub (x + a • dx))
  | [] => .inl rfl
  | a :: as => by
    unfold lineSearch
    simp only
    split
    · rename_i h
      exact .inr ⟨a, List.mem_cons_self, rfl, h⟩
    · rcases lineSearch_cases as with h | ⟨b, hb, h⟩
      · exact .inl h
      · exact .inr ⟨b, List.mem_cons_of_mem _ hb, h⟩

theorem normInf_le {m : Nat} (v : Fin m → K) (t : K) : normInf v ≤ t ↔ 0 ≤ t ∧ ∀ i, |v i| ≤ t := by
  have h : ∀ (l : List (Fin m)) (a : K), l.foldl (fun a i => max a |v i|) a ≤ t ↔ a ≤ t ∧ ∀ i ∈ l, |v i| ≤ t := by
    intro l
    induction l with
    | nil => intro a; simp
    | cons i l ih => intro a; rw [List.foldl_cons, ih]; simp [and_assoc]
  unfold normInf
  rw [h]
  simp

/-! ### One pass -/

/-- What a successful pass computes. -/
theorem iter_some {fac : Fac K} {p : Params K} {H : Matrix (Fin n) (Fin n) K} {q lb ub x : Fin n → K}
    {s : Sol K n} {c : Bool} (h : iter fac p H q lb ub x = some (s, c)) :
    ∃ sol, fac (fset lb ub (grad H q x) x).length (Hff H p.reg (fset lb ub (grad H q x) x)) = some sol ∧
      s = ⟨lineSearch H q lb ub p.thAccept
            (scatter (fset lb ub (grad H q x) x) (fun i => - qf H q p.reg (fset lb ub (grad H q x) x)
              (cset lb ub (grad H q x) x) x i) (grad H q x)) x
            (scatter (fset lb ub (grad H q x) x) (sol (fun i => - qf H q p.reg (fset lb ub (grad H q x) x)
              (cset lb ub (grad H q x) x) x i)) (fun _ => 0)) p.alphas,
          fset lb ub (grad H q x) x, cset lb ub (grad H q x) x,
          fun i j => sol (fun k => if k = j then 1 else 0) i⟩ ∧
      c = decide (normInf (qf H q p.reg (fset lb ub (grad H q x) x) (cset lb ub (grad H q x) x) x) ≤ p.thGrad) := by
  unfold iter at h
  simp only at h
  split at h
  · simp at h
  · rename_i sol hs
    simp only [Option.some.injEq, Prod.mk.injEq] at h
    exact ⟨sol, hs, h.1.symm, h.2.symm⟩

/-- An invariant of the points of the loop holds of its result, and the result of a loop that made at least
one pass comes from a pass. -/
theorem loop_last {fac : Fac K} {p : Params K} {H : Matrix (Fin n) (Fin n) K} {q lb ub : Fin n → K}
    (P : (Fin n → K) → Prop)
    (hstep : ∀ x s c, P x → iter fac p H q lb ub x = some (s, c) → P s.x) :
    ∀ (k : Nat) (x : Fin n → K) (s0 s : Sol K n) (c : Bool), P x →
      loop fac p H q lb ub k x s0 = some (s, c) →
      P s.x ∧ ((k = 0 ∧ s = { s0 with x := x } ∧ c = false) ∨
        ∃ y, P y ∧ iter fac p H q lb ub y = some (s, c))
  | 0, x, s0, s, c, hx, h => by
    simp only [loop, Option.some.injEq, Prod.mk.injEq] at h
    obtain ⟨rfl, rfl⟩ := h
    exact ⟨hx, .inl ⟨rfl, rfl, rfl⟩⟩
  | k + 1, x, s0, s, c, hx, h => by
    unfold loop at h
    split at h
    · simp at h
    · rename_i s' hi
      simp only [Option.some.injEq, Prod.mk.injEq] at h
      obtain ⟨rfl, rfl⟩ := h
      exact ⟨hstep _ _ _ hx hi, .inr ⟨x, hx, hi⟩⟩
    · rename_i s' hi
      have hs' := hstep _ _ _ hx hi
      obtain ⟨h1, h2⟩ := loop_last P hstep k _ _ _ _ hs' h
      refine ⟨h1, .inr ?_⟩
      rcases h2 with ⟨-, rfl, rfl⟩ | h2
      · exact ⟨x, hx, by rw [hi]⟩
      · exact h2

theorem iter_inBox {fac : Fac K} {p : Params K} {H : Matrix (Fin n) (Fin n) K} {q lb ub x : Fin n → K}
    {s : Sol K n} {c : Bool} (hb : ∀ i, lb i ≤ ub i) (hx : InBox lb ub x)
    (h : iter fac p H q lb ub x = some (s, c)) : InBox lb ub s.x := by
  obtain ⟨sol, -, rfl, -⟩ := iter_some h
  exact lineSearch_inBox hb hx _

/-- A pass does not move the clamped coordinates. -/
theorem iter_clamped_fixed {fac : Fac K} {p : Params K} {H : Matrix (Fin n) (Fin n) K} {q lb ub x : Fin n → K}
    {s : Sol K n} {c : Bool} (hx : InBox lb ub x) (h : iter fac p H q lb ub x = some (s, c)) (j : Fin n)
    (hj : j ∈ s.clamped) : s.x j = x j := by
  obtain ⟨sol, -, rfl, -⟩ := iter_some h
  simp only at hj ⊢
  have hnf : j ∉ fset lb ub (grad H q x) x := by
    rw [mem_fset]; rw [mem_cset] at hj; simp [hj]
  rcases lineSearch_cases (H := H) (q := q) (lb := lb) (ub := ub) (th := p.thAccept) (x := x) p.alphas with h | ⟨a, -, h, -⟩
  · rw [h]
  · rw [h]
    simp [clamp, scatter_not _ _ _ _ hnf, hx j]

theorem objective_eq_cost (H : Matrix (Fin n) (Fin n) K) (q x : Fin n → K) : objective H q x = cost H q x := by
  unfold objective cost mulVec dotProduct
  congr 1
  rw [one_div, mul_comm, ← div_eq_mul_inv]
  congr 1
  refine Finset.sum_congr rfl fun i _ => ?_
  rw [Finset.mul_sum]
  refine Finset.sum_congr rfl fun j _ => by ring

/-- Second-order expansion of the objective. -/
theorem objective_expand {H : Matrix (Fin n) (Fin n) K} (hH : Hᵀ = H) (q x e : Fin n → K) :
    objective H q (x + e) = objective H q x + grad H q x ⬝ᵥ e + (1 / 2) * (e ⬝ᵥ (H *ᵥ e)) := by
  unfold objective grad
  have h1 : x ⬝ᵥ (H *ᵥ e) = e ⬝ᵥ (H *ᵥ x) := by
    rw [dotProduct_mulVec, ← mulVec_transpose, hH, dotProduct_comm]
  have h2 : (H *ᵥ x) ⬝ᵥ e = e ⬝ᵥ (H *ᵥ x) := dotProduct_comm _ _
  simp only [mulVec_add, dotProduct_add, add_dotProduct, h1, h2]
  ring

/-- The dot product with a scattered vector. -/
theorem scatter_dot (l : List (Fin n)) (hl : l.Nodup) (v : Fin l.length → K) (w : Fin n → K) :
    w ⬝ᵥ scatter l v (fun _ => 0) = ∑ i, w (l.get i) * v i := by
  have h1 : ∑ i, w (l.get i) * v i = ∑ i : Fin l.length, (fun j => w j * scatter l v (fun _ => 0) j) (l.get i) := by
    refine Finset.sum_congr rfl fun i _ => ?_
    simp only [scatter_get l hl]
  rw [h1, sum_get l (fun j => w j * scatter l v (fun _ => 0) j), dotProduct]
  have h2 := Finset.sum_list_map_count l (fun j => w j * scatter l v (fun _ => 0) j)
  rw [h2]
  symm
  have h3 : ∀ j ∈ l.toFinset, List.count j l • (w j * scatter l v (fun _ => 0) j) = w j * scatter l v (fun _ => 0) j := by
    intro j hj
    rw [List.count_eq_one_of_mem hl (List.mem_toFinset.mp hj), one_smul]
  rw [Finset.sum_congr rfl h3]
  apply Finset.sum_subset (Finset.subset_univ _)
  intro j _ hj
  rw [scatter_not _ _ _ _ (fun h => hj (List.mem_toFinset.mpr h)), mul_zero]

/-- `Hff` with zero regularisation is the block of `H`. -/
theorem Hff_zero (H : Matrix (Fin n) (Fin n) K) (l : List (Fin n)) :
    Hff H 0 l = fun i j => H (l.get i) (l.get j) := by
  funext i j; simp [Hff]

theorem Hff_symm {H : Matrix (Fin n) (Fin n) K} (hH : Hᵀ = H) (reg : K) (l : List (Fin n)) :
    (Hff H reg l)ᵀ = Hff H reg l := by
  funext i j
  have : ∀ a b, H a b = H b a := fun a b => congrFun (congrFun hH b) a
  simp only [Hff, transpose_apply, this (l.get j) (l.get i), eq_comm (a := j)]

/-- The quadratic form of `H` on a scattered vector is the one of the block. -/
theorem scatter_quad (H : Matrix (Fin n) (Fin n) K) (l : List (Fin n)) (hl : l.Nodup) (v : Fin l.length → K) :
    scatter l v (fun _ => 0) ⬝ᵥ (H *ᵥ scatter l v (fun _ => 0)) = v ⬝ᵥ (Hff H 0 l *ᵥ v) := by
  rw [dotProduct_comm, scatter_dot l hl, Hff_zero, dotProduct]
  refine Finset.sum_congr rfl fun i _ => ?_
  have : (H *ᵥ scatter l v (fun _ => 0)) (l.get i) = ∑ j, H (l.get i) (l.get j) * v j :=
    scatter_dot l hl v (H (l.get i))
  rw [this]
  simp only [mulVec, dotProduct]
  ring

/-- The Newton direction of a pass: its slope and curvature. -/
theorem newton {fac : Fac K} {H : Matrix (Fin n) (Fin n) K} (hf : FacSound fac) (hH : Hᵀ = H)
    (q lb ub x : Fin n → K)
    (sol : (Fin (fset lb ub (grad H q x) x).length → K) → (Fin (fset lb ub (grad H q x) x).length → K))
    (hs : fac _ (Hff H 0 (fset lb ub (grad H q x) x)) = some sol) :
    let l := fset lb ub (grad H q x) x
    let dxf := sol (fun i => - qf H q 0 l (cset lb ub (grad H q x) x) x i)
    let dx := scatter l dxf (fun _ => 0)
    grad H q x ⬝ᵥ dx = - (dxf ⬝ᵥ (Hff H 0 l *ᵥ dxf)) ∧ dx ⬝ᵥ (H *ᵥ dx) = dxf ⬝ᵥ (Hff H 0 l *ᵥ dxf) ∧
      0 ≤ dxf ⬝ᵥ (Hff H 0 l *ᵥ dxf) := by
  intro l dxf dx
  obtain ⟨hpd, hsol⟩ := hf _ _ _ (Hff_symm hH 0 _) hs
  refine ⟨?_, scatter_quad H l (fset_nodup _ _ _ _) dxf, ?_⟩
  · rw [show grad H q x ⬝ᵥ dx = _ from scatter_dot l (fset_nodup _ _ _ _) dxf (grad H q x), hsol, dotProduct,
      ← Finset.sum_neg_distrib]
    refine Finset.sum_congr rfl fun i _ => ?_
    rw [qf_eq]
    ring
  · by_cases h0 : dxf = 0
    · rw [h0]; simp
    · exact (hpd _ h0).le

/-! ### The projected inverse -/

theorem inner_fold {α : Type} (is : List α) (r : Fin n) (f : α → Fin n) (v : α → K)
    (M : Fin n → Fin n → K) :
    is.foldl (fun M j => Function.update M r (Function.update (M r) (f j) (v j))) M =
      Function.update M r (is.foldl (fun b j => Function.update b (f j) (v j)) (M r)) := by
  induction is generalizing M with
  | nil => simp
  | cons a is ih => simp [List.foldl_cons, ih]

theorem outer_not {α : Type} (is js : List α) (f : α → Fin n) (v : α → α → K) (M : Fin n → Fin n → K)
    (r : Fin n) (h : ∀ i ∈ is, f i ≠ r) :
    (is.foldl (fun M i => js.foldl (fun M j =>
      Function.update M (f i) (Function.update (M (f i)) (f j) (v i j))) M) M) r = M r := by
  induction is generalizing M with
  | nil => rfl
  | cons a is ih =>
    rw [List.foldl_cons, ih _ (fun k hk => h k (List.mem_cons_of_mem _ hk)), inner_fold,
      Function.update_of_ne (h a List.mem_cons_self).symm]

theorem outer_mem {α : Type} (is js : List α) (f : α → Fin n) (v : α → α → K) (M : Fin n → Fin n → K)
    (hn : is.Nodup) (hf : ∀ i ∈ is, ∀ k ∈ is, f i = f k → i = k) (i : α) (hi : i ∈ is) :
    (is.foldl (fun M i => js.foldl (fun M j =>
      Function.update M (f i) (Function.update (M (f i)) (f j) (v i j))) M) M) (f i) =
      js.foldl (fun b j => Function.update b (f j) (v i j)) (M (f i)) := by
  induction is generalizing M with
  | nil => simp at hi
  | cons a is ih =>
    rw [List.foldl_cons]
    rw [List.nodup_cons] at hn
    rcases List.mem_cons.mp hi with rfl | hi'
    · rw [outer_not]
      · rw [inner_fold, Function.update_self]
      · intro k hk he
        exact hn.1 (hf _ List.mem_cons_self _ (List.mem_cons_of_mem _ hk) he.symm ▸ hk)
    · rw [ih _ hn.2 (fun x hx y hy => hf x (List.mem_cons_of_mem _ hx) y (List.mem_cons_of_mem _ hy)) hi',
        inner_fold, Function.update_of_ne]
      intro he
      have := hf _ hi _ List.mem_cons_self he
      exact hn.1 (this ▸ hi')

/-- Each row of the projected inverse: zero at a coordinate that is not free. -/
theorem projInv_row_not (s : Sol K n) (r : Fin n) (h : r ∉ s.free) : projInv s r = fun _ => 0 :=
  outer_not (List.finRange s.free.length) (List.finRange s.free.length) s.free.get s.Hinv (fun _ _ => 0) r
    (fun i _ he => h (he ▸ List.get_mem _ i))

/-- Each row of the projected inverse: the scattered row of `Hff_inv` at a free coordinate. -/
theorem projInv_row (s : Sol K n) (hn : s.free.Nodup) (i : Fin s.free.length) :
    projInv s (s.free.get i) = scatter s.free (s.Hinv i) (fun _ => 0) :=
  outer_mem (List.finRange s.free.length) (List.finRange s.free.length) s.free.get s.Hinv (fun _ _ => 0)
    (List.nodup_finRange _) (fun _ _ _ _ h => (List.nodup_iff_injective_get.mp hn) h) i (List.mem_finRange _)

end Verif.BoxQp
