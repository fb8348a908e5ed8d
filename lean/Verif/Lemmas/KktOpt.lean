import Verif.Lemmas.KktQp
import Verif.Lemmas.LqSolve
import Verif.Lemmas.NlCalc
import Verif.Lemmas.Nl
import Verif.Model.KktLq
import Mathlib.LinearAlgebra.FiniteDimensional.Basic

/-! # Lemmas: optimality of the KKT direction -/

namespace Verif.Kkt
open Verif Verif.Lq Matrix

set_option linter.unusedSectionVars false

variable {n : ℕ} {nu : ℕ → ℕ} {K : Type} [Field K]

theorem memAfter_clean (T : ℕ) (ls : List (Local K n nu)) : Clean n nu T (memAfter T ls) := by
  unfold memAfter
  have : ∀ (ls : List (Local K n nu)) (m : Mem K), Clean n nu T m →
      Clean n nu T (ls.foldl (fun m l => assembleOn { l with T := T } m) m) := by
    intro ls
    induction ls with
    | nil => exact fun m h => h
    | cons l ls ih => exact fun m h => ih _ (Clean.assemble (l := { l with T := T }) h)
  exact this ls _ Clean.zero

theorem LinFeas.hom {l : Local K n nu} {X Y : ℕ → Fin n → K} {U V : ∀ t, Fin (nu t) → K} (h : LinFeas l X U)
    (h' : LinFeas l Y V) : Hom l (Y - X) (V - U) := by
  refine ⟨?_, fun t ht => ?_⟩
  · have := h.init.trans h'.init.symm
    simpa [sub_eq_zero] using (add_left_cancel this).symm
  · have e1 := h.step t ht
    have e2 := h'.step t ht
    have : (Y - X) (t + 1) = (l.xs (t + 1) + Y (t + 1)) - (l.xs (t + 1) + X (t + 1)) := by
      rw [Pi.sub_apply]; abel
    rw [this, e1, e2, Pi.sub_apply, Pi.sub_apply, mulVec_sub, mulVec_sub]
    abel

theorem Eqs.linFeas {l : Local K n nu} {X : ℕ → Fin n → K} {U : ∀ t, Fin (nu t) → K} {L : ℕ → Fin n → K}
    (h : Eqs l 1 X U L) : LinFeas l X U := by
  refine ⟨?_, fun t ht => ?_⟩
  · rw [h.c0, one_smul]; abel
  · have := h.c t ht
    rw [one_smul, sub_sub, sub_eq_iff_eq_add] at this
    rw [this]; abel

theorem Eqs.sub {l : Local K n nu} {k : K} {X X' : ℕ → Fin n → K} {U U' : ∀ t, Fin (nu t) → K} {L L' : ℕ → Fin n → K}
    (h : Eqs l k X U L) (h' : Eqs l k X' U' L') : Eqs l 0 (X - X') (U - U') (L - L') := by
  refine ⟨fun t ht => ?_, fun t ht => ?_, ?_, ?_, fun t ht => ?_⟩
  · have := congrArg₂ (· - ·) (h.x t ht) (h'.x t ht)
    simp only [sub_self] at this
    simp only [Pi.sub_apply, mulVec_sub, zero_smul, neg_zero]
    rw [← this]; abel
  · have := congrArg₂ (· - ·) (h.u t ht) (h'.u t ht)
    simp only [sub_self] at this
    simp only [Pi.sub_apply, mulVec_sub, zero_smul, neg_zero]
    rw [← this]; abel
  · have := congrArg₂ (· - ·) h.xT h'.xT
    simp only [sub_self] at this
    simp only [Pi.sub_apply, mulVec_sub, zero_smul, neg_zero]
    rw [← this]; abel
  · simp only [Pi.sub_apply, h.c0, h'.c0, sub_self, zero_smul, neg_zero]
  · have := congrArg₂ (· - ·) (h.c t ht) (h'.c t ht)
    simp only [sub_self] at this
    simp only [Pi.sub_apply, mulVec_sub, zero_smul, neg_zero]
    rw [← this]; abel

theorem slope_add (l : Local K n nu) (X Y : ℕ → Fin n → K) (U V : ∀ t, Fin (nu t) → K) :
    slope l (X + Y) (U + V) = slope l X U + slope l Y V := by
  unfold slope
  simp only [Pi.add_apply, dotProduct_add, Finset.sum_add_distrib]
  ring

theorem slope_smul (l : Local K n nu) (a : K) (X : ℕ → Fin n → K) (U : ∀ t, Fin (nu t) → K) :
    slope l (fun t => a • X t) (fun t => a • U t) = a * slope l X U := by
  unfold slope
  simp only [dotProduct_smul, smul_eq_mul, mul_add, Finset.mul_sum]

theorem curv_smul (l : Local K n nu) (a : K) (X : ℕ → Fin n → K) (U : ∀ t, Fin (nu t) → K) :
    curv l (fun t => a • X t) (fun t => a • U t) = a * a * curv l X U := by
  unfold curv
  simp only [dotProduct_smul, smul_dotProduct, mulVec_smul, smul_eq_mul, mul_add, Finset.mul_sum]
  congr 1
  · refine Finset.sum_congr rfl fun t _ => ?_
    ring
  · ring

theorem sym_dot {p : ℕ} {M : Matrix (Fin p) (Fin p) K} (h : Mᵀ = M) (x y : Fin p → K) :
    x ⬝ᵥ (M *ᵥ y) = y ⬝ᵥ (M *ᵥ x) := by
  rw [dotProduct_mulVec, ← mulVec_transpose, h, dotProduct_comm]

theorem tr_dot {p q : ℕ} (M : Matrix (Fin p) (Fin q) K) (x : Fin p → K) (y : Fin q → K) :
    y ⬝ᵥ (Mᵀ *ᵥ x) = x ⬝ᵥ (M *ᵥ y) := by
  rw [dotProduct_comm, mulVec_transpose, dotProduct_mulVec]

theorem curv_add {l : Local K n nu} (h1 : ∀ t < l.T, (l.d t).Lxxᵀ = (l.d t).Lxx)
    (h2 : ∀ t < l.T, (l.d t).Luuᵀ = (l.d t).Luu) (h3 : l.LxxTᵀ = l.LxxT) (X Y : ℕ → Fin n → K)
    (U V : ∀ t, Fin (nu t) → K) :
    curv l (X + Y) (U + V) = curv l X U + 2 * bil l X U Y V + curv l Y V := by
  have e : ∀ t ∈ Finset.range l.T, ((X + Y) t ⬝ᵥ ((l.d t).Lxx *ᵥ (X + Y) t)
      + 2 * ((X + Y) t ⬝ᵥ ((l.d t).Lxu *ᵥ (U + V) t)) + (U + V) t ⬝ᵥ ((l.d t).Luu *ᵥ (U + V) t))
      = (X t ⬝ᵥ ((l.d t).Lxx *ᵥ X t) + 2 * (X t ⬝ᵥ ((l.d t).Lxu *ᵥ U t)) + U t ⬝ᵥ ((l.d t).Luu *ᵥ U t))
        + 2 * (Y t ⬝ᵥ ((l.d t).Lxx *ᵥ X t + (l.d t).Lxu *ᵥ U t) + V t ⬝ᵥ ((l.d t).Lxuᵀ *ᵥ X t + (l.d t).Luu *ᵥ U t))
        + (Y t ⬝ᵥ ((l.d t).Lxx *ᵥ Y t) + 2 * (Y t ⬝ᵥ ((l.d t).Lxu *ᵥ V t)) + V t ⬝ᵥ ((l.d t).Luu *ᵥ V t)) := by
    intro t ht
    have ht := Finset.mem_range.1 ht
    simp only [Pi.add_apply, mulVec_add, dotProduct_add, add_dotProduct]
    rw [sym_dot (h1 t ht) (X t) (Y t), sym_dot (h2 t ht) (U t) (V t), tr_dot (l.d t).Lxu (X t) (V t)]
    ring
  unfold curv bil
  rw [Finset.sum_congr rfl e]
  simp only [Finset.sum_add_distrib, ← Finset.mul_sum, Pi.add_apply, mulVec_add, dotProduct_add, add_dotProduct]
  rw [sym_dot h3 (X l.T) (Y l.T)]
  ring

section ordered
variable [LinearOrder K] [IsStrictOrderedRing K]

/-- A solution of the system is the unique minimiser of the quadratic program. -/
theorem Eqs.optimal {l : Local K n nu} (hc : ConvexLocal l) {X : ℕ → Fin n → K} {U : ∀ t, Fin (nu t) → K}
    {L : ℕ → Fin n → K} (h : Eqs l 1 X U L) {Y : ℕ → Fin n → K} {V : ∀ t, Fin (nu t) → K} (hf : LinFeas l Y V) :
    quad l X U ≤ quad l Y V ∧ (quad l Y V ≤ quad l X U → (∀ t ≤ l.T, Y t = X t) ∧ ∀ t < l.T, V t = U t) := by
  have hh := h.linFeas.hom hf
  have e : quad l Y V = quad l X U + (1 / 2) * curv l (Y - X) (V - U) := by
    have hb := h.bil_eq (Y - X) (V - U)
    rw [hh.dynDot] at hb
    have h1 := slope_add l X (Y - X) U (V - U)
    have h2 := curv_add (fun t ht => (hc.node t ht).Lxx) (fun t ht => (hc.node t ht).Luu) hc.symm X (Y - X) U (V - U)
    rw [add_sub_cancel, add_sub_cancel] at h1 h2
    rw [quad_eq, quad_eq, h1, h2, hb]
    ring
  have hn := curv_nonneg hc (Y - X) (V - U)
  refine ⟨by linarith, fun hle => ?_⟩
  obtain ⟨z1, z2⟩ := hh.zero hc (by linarith)
  exact ⟨fun t ht => by simpa [sub_eq_zero] using z1 t ht, fun t ht => by simpa [sub_eq_zero] using z2 t ht⟩

/-- Uniqueness. -/
theorem Eqs.unique {l : Local K n nu} (hc : ConvexLocal l) {k : K} {X X' : ℕ → Fin n → K} {U U' : ∀ t, Fin (nu t) → K}
    {L L' : ℕ → Fin n → K} (h : Eqs l k X U L) (h' : Eqs l k X' U' L') :
    (∀ t ≤ l.T, X t = X' t) ∧ (∀ t < l.T, U t = U' t) ∧ ∀ t ≤ l.T, L t = L' t := by
  obtain ⟨z1, z2, z3⟩ := (h.sub h').zero hc
  exact ⟨fun t ht => by simpa [sub_eq_zero] using z1 t ht, fun t ht => by simpa [sub_eq_zero] using z2 t ht,
    fun t ht => by simpa [sub_eq_zero] using z3 t ht⟩

/-- First-order conditions are the system with a zero direction. -/
theorem eqs_zero_dir {l : Local K n nu} (hg : NoGaps l) {lam : ℕ → Fin n → K}
    (h1 : ∀ t < l.T, (l.d t).Lx + lam t - (l.d t).Fxᵀ *ᵥ lam (t + 1) = 0)
    (h2 : ∀ t < l.T, (l.d t).Lu - (l.d t).Fuᵀ *ᵥ lam (t + 1) = 0) (h3 : l.LxT + lam l.T = 0) :
    Eqs l 1 (fun _ => 0) (fun _ => 0) lam := by
  refine ⟨fun t ht => ?_, fun t ht => ?_, ?_, ?_, fun t ht => ?_⟩
  · simp only [mulVec_zero, one_smul, zero_add]
    rw [eq_neg_iff_add_eq_zero, ← h1 t ht]; abel
  · simp only [mulVec_zero, one_smul, zero_add, zero_sub]
    rw [sub_eq_zero.1 (h2 t ht)]
  · simp only [mulVec_zero, one_smul, zero_add]
    exact (neg_eq_of_add_eq_zero_right h3).symm
  · simp [hg.init]
  · simp [hg.step t ht]

theorem sum_sq_zero {T : ℕ} {p : ℕ → ℕ} {f : ∀ t, Fin (p t) → K} :
    ∑ t ∈ Finset.range T, ∑ i, f t i ^ 2 = 0 ↔ ∀ t < T, f t = 0 := by
  rw [Finset.sum_eq_zero_iff_of_nonneg fun t _ => Finset.sum_nonneg fun i _ => sq_nonneg _]
  refine ⟨fun h t ht => ?_, fun h t ht => by rw [h t (Finset.mem_range.1 ht)]; simp⟩
  have := (Finset.sum_eq_zero_iff_of_nonneg fun i _ => sq_nonneg _).1 (h t (Finset.mem_range.2 ht))
  funext i
  exact pow_eq_zero_iff two_ne_zero |>.1 (this i (Finset.mem_univ i))

theorem sq_zero {p : ℕ} {f : Fin p → K} : ∑ i, f i ^ 2 = 0 ↔ f = 0 := by
  rw [Finset.sum_eq_zero_iff_of_nonneg fun i _ => sq_nonneg _]
  refine ⟨fun h => funext fun i => pow_eq_zero_iff two_ne_zero |>.1 (h i (Finset.mem_univ i)), fun h i _ => by simp [h]⟩

/-- When the stopping criterion is zero. -/
theorem stop_zero_iff (l : Local K n nu) (m : Mem K) (hT : 0 < l.T) (lam : ℕ → Fin n → K) (w : ℕ → K) :
    0 ≤ stopOf l (assembleOn l m) lam w ∧ (stopOf l (assembleOn l m) lam w = 0 ↔
      NoGaps l ∧ (∀ t < l.T, (l.d t).Lx + lam t - (l.d t).Fxᵀ *ᵥ lam (t + 1) = 0) ∧
        (∀ t < l.T, (l.d t).Lu - (l.d t).Fuᵀ *ᵥ lam (t + 1) = 0) ∧ l.LxT + lam l.T = 0) := by
  rw [stopOf_eq l m hT]
  have n1 : 0 ≤ ∑ t ∈ Finset.range l.T, ∑ i, ((l.d t).Lx + lam t - (l.d t).Fxᵀ *ᵥ lam (t + 1)) i ^ 2 :=
    Finset.sum_nonneg fun t _ => Finset.sum_nonneg fun i _ => sq_nonneg _
  have n2 : 0 ≤ ∑ i, (l.LxT + lam l.T) i ^ 2 := Finset.sum_nonneg fun i _ => sq_nonneg _
  have n3 : 0 ≤ ∑ t ∈ Finset.range l.T, ∑ i, ((l.d t).Lu - (l.d t).Fuᵀ *ᵥ lam (t + 1)) i ^ 2 :=
    Finset.sum_nonneg fun t _ => Finset.sum_nonneg fun i _ => sq_nonneg _
  have n4 : 0 ≤ ∑ t ∈ Finset.range l.T, ∑ i, (l.xs (t + 1) - l.xnext t) i ^ 2 :=
    Finset.sum_nonneg fun t _ => Finset.sum_nonneg fun i _ => sq_nonneg _
  have n5 : 0 ≤ ∑ i, (l.xs 0 - l.x0) i ^ 2 := Finset.sum_nonneg fun i _ => sq_nonneg _
  refine ⟨by linarith, fun h => ?_, fun ⟨hg, h1, h2, h3⟩ => ?_⟩
  · refine ⟨⟨?_, ?_⟩, ?_, ?_, ?_⟩
    · exact sub_eq_zero.1 (sq_zero.1 (by linarith))
    · exact fun t ht => sub_eq_zero.1 ((sum_sq_zero (f := fun t => l.xs (t + 1) - l.xnext t)).1 (by linarith) t ht)
    · exact sum_sq_zero.1 (by linarith)
    · exact sum_sq_zero.1 (by linarith)
    · exact sq_zero.1 (by linarith)
  · rw [sum_sq_zero.2 h1, sq_zero.2 h3, sum_sq_zero.2 h2,
      (sum_sq_zero (f := fun t => l.xs (t + 1) - l.xnext t)).2 fun t ht => sub_eq_zero.2 (hg.step t ht),
      sq_zero.2 (sub_eq_zero.2 hg.init)]
    ring

end ordered

/-! ### A sound linear solver exists -/

theorem exists_luSound : ∃ lu : ℕ → (ℕ → ℕ → K) → (ℕ → K) → ℕ → K, LuSound lu := by
  classical
  have : ∀ (N : ℕ) (A : ℕ → ℕ → K) (b : ℕ → K), ∃ x : ℕ → K,
      (∀ z : ℕ → K, (∀ i < N, ∑ j ∈ Finset.range N, A i j * z j = 0) → ∀ j < N, z j = 0) →
      ∀ i < N, ∑ j ∈ Finset.range N, A i j * x j = b i := by
    intro N A b
    by_cases hA : ∀ z : ℕ → K, (∀ i < N, ∑ j ∈ Finset.range N, A i j * z j = 0) → ∀ j < N, z j = 0
    · let M : Matrix (Fin N) (Fin N) K := fun i j => A i j
      have hs : ∀ (v : Fin N → K) (i : Fin N),
          (M *ᵥ v) i = ∑ j ∈ Finset.range N, A i j * flat1 v j := by
        intro v i
        rw [Finset.sum_range]
        simp only [flat1_fin]
        rfl
      have hinj : Function.Injective M.mulVecLin := by
        rw [injective_iff_map_eq_zero]
        intro v hv
        funext j
        have := hA (flat1 v) (fun i hi => by rw [← hs v ⟨i, hi⟩]; exact congrFun hv ⟨i, hi⟩) j j.2
        rwa [flat1_fin] at this
      obtain ⟨v, hv⟩ := (LinearMap.injective_iff_surjective.1 hinj) fun i => b i
      exact ⟨flat1 v, fun _ i hi => by rw [← hs v ⟨i, hi⟩]; exact congrFun hv ⟨i, hi⟩⟩
    · exact ⟨fun _ => 0, fun h => absurd h hA⟩
  choose lu h using this
  exact ⟨lu, h⟩

/-! ### Linear-quadratic problems -/

theorem lq_cost [LinearOrder K] [IsStrictOrderedRing K] {P : LqProb K n nu} (hs : Symmetric P) (xs X : ℕ → Fin n → K)
    (us U : ∀ t, Fin (nu t) → K) :
    costOf P (fun t => xs t + X t) (fun t => us t + U t) = costOf P xs us + quad (Local.ofLq P xs us) X U := by
  unfold costOf quad Local.ofLq
  simp only
  rw [Lqr.costT_expand _ hs.term]
  simp only [Lqr.cost_expand _ (hs.Q _) (hs.R _), Finset.sum_add_distrib, ← Finset.mul_sum, Lqr.derivs]
  ring

theorem lq_convex [LinearOrder K] {m : ℕ} {P : LqProb K n (fun _ => m)} (h : ConvexLq P) (xs : ℕ → Fin n → K)
    (us : ℕ → Fin m → K) : ConvexLocal (Local.ofLq P xs us) :=
  ⟨fun t _ => ⟨h.symm.Q t, h.symm.R t, h.psd t⟩, fun t _ => h.pd t, h.symm.term, h.term⟩

theorem lq_linFeas [LinearOrder K] [IsStrictOrderedRing K] {P : LqProb K n nu} (xs X : ℕ → Fin n → K)
    (us U : ∀ t, Fin (nu t) → K) :
    LinFeas (Local.ofLq P xs us) X U ↔
      xs 0 + X 0 = P.x0 ∧ ∀ t < P.T, xs (t + 1) + X (t + 1) = (P.node t).next (xs t + X t) (us t + U t) := by
  constructor
  · intro h
    refine ⟨h.init, fun t ht => ?_⟩
    rw [Lqr.next_expand, ← add_assoc]
    exact h.step t ht
  · intro h
    refine ⟨h.1, fun t ht => ?_⟩
    have := h.2 t ht
    rw [Lqr.next_expand, ← add_assoc] at this
    exact this

end Verif.Kkt
