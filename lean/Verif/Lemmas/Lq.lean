import Verif.Spec.Lq
import Verif.Lemmas.Solve
import Mathlib.LinearAlgebra.Matrix.ToLinearEquiv
import Mathlib.Algebra.Order.BigOperators.Ring.Finset
import Mathlib.Tactic.Linarith
import Mathlib.Tactic.Ring
import Mathlib.Tactic.Abel

set_option linter.unusedSectionVars false

/-! # Lemmas on the backward pass -/

namespace Verif.Lq
open Verif Matrix

variable {K : Type} [Field K] [LinearOrder K] [IsStrictOrderedRing K] {n m : Nat}

theorem dot_symm {p : Nat} {M : Matrix (Fin p) (Fin p) K} (h : Mᵀ = M) (x y : Fin p → K) :
    x ⬝ᵥ (M *ᵥ y) = y ⬝ᵥ (M *ᵥ x) := by
  rw [dotProduct_mulVec, ← mulVec_transpose, h, dotProduct_comm]

theorem dot_tr {p q : Nat} (M : Matrix (Fin p) (Fin q) K) (x : Fin p → K) (y : Fin q → K) :
    (Mᵀ *ᵥ x) ⬝ᵥ y = x ⬝ᵥ (M *ᵥ y) := by
  rw [mulVec_transpose, dotProduct_mulVec]

theorem dot_tr' {p q : Nat} (M : Matrix (Fin p) (Fin q) K) (x : Fin p → K) (y : Fin q → K) :
    y ⬝ᵥ (Mᵀ *ᵥ x) = x ⬝ᵥ (M *ᵥ y) := by
  rw [dotProduct_comm, dot_tr]

/-- Quadratic completion at a node. -/
theorem node_identity (d : Derivs K n m) (V : Value K n) (hV : V.Vxxᵀ = V.Vxx)
    (Q : QTerms K n m) (hQ : Q = actionValue none d V) (hLuu : d.Luuᵀ = d.Luu)
    (k : Fin m → K) (Kfb : Matrix (Fin m) (Fin n) K) (hk : Q.Quu *ᵥ k = Q.Qu)
    (hK : Q.Quu * Kfb = Q.Qxuᵀ) (x : Fin n → K) (u : Fin m → K) :
    d.Lx ⬝ᵥ x + d.Lu ⬝ᵥ u + (1/2) * (x ⬝ᵥ (d.Lxx *ᵥ x)) + x ⬝ᵥ (d.Lxu *ᵥ u) + (1/2) * (u ⬝ᵥ (d.Luu *ᵥ u))
      + V.Vx ⬝ᵥ (d.Fx *ᵥ x + d.Fu *ᵥ u)
      + (1/2) * ((d.Fx *ᵥ x + d.Fu *ᵥ u) ⬝ᵥ (V.Vxx *ᵥ (d.Fx *ᵥ x + d.Fu *ᵥ u)))
    = (Q.Qx - Kfbᵀ *ᵥ Q.Qu) ⬝ᵥ x
      + (1/2) * (x ⬝ᵥ (((1/2 : K) • ((Q.Qxx - Q.Qxu * Kfb) + (Q.Qxx - Q.Qxu * Kfb)ᵀ)) *ᵥ x))
      - (1/2) * (k ⬝ᵥ (Q.Quu *ᵥ k))
      + (1/2) * ((u + k + Kfb *ᵥ x) ⬝ᵥ (Q.Quu *ᵥ (u + k + Kfb *ᵥ x))) := by
  have hs : Q.Quuᵀ = Q.Quu := by
    subst hQ
    simp only [actionValue, addDiag, transpose_add, transpose_mul, transpose_transpose, hLuu, hV,
      Matrix.mul_assoc]
  have e1 : (1/2 : K) * (x ⬝ᵥ (((1/2 : K) • ((Q.Qxx - Q.Qxu * Kfb) + (Q.Qxx - Q.Qxu * Kfb)ᵀ)) *ᵥ x))
      = (1/2) * (x ⬝ᵥ (Q.Qxx *ᵥ x)) - (1/2) * (x ⬝ᵥ (Q.Qxu *ᵥ (Kfb *ᵥ x))) := by
    rw [smul_mulVec, dotProduct_smul, add_mulVec, dotProduct_add, dot_tr', sub_mulVec,
      dotProduct_sub, ← mulVec_mulVec, smul_eq_mul]
    ring
  have e2 : (u + k + Kfb *ᵥ x) ⬝ᵥ (Q.Quu *ᵥ (u + k + Kfb *ᵥ x))
      = u ⬝ᵥ (Q.Quu *ᵥ u) + 2 * (Q.Qu ⬝ᵥ u) + 2 * (x ⬝ᵥ (Q.Qxu *ᵥ u)) + k ⬝ᵥ (Q.Quu *ᵥ k)
        + 2 * (Q.Qu ⬝ᵥ (Kfb *ᵥ x)) + x ⬝ᵥ (Q.Qxu *ᵥ (Kfb *ᵥ x)) := by
    have hKx : Q.Quu *ᵥ (Kfb *ᵥ x) = Q.Qxuᵀ *ᵥ x := by rw [mulVec_mulVec, hK]
    have a1 : k ⬝ᵥ (Q.Quu *ᵥ u) = Q.Qu ⬝ᵥ u := by rw [dot_symm hs, hk, dotProduct_comm]
    have a2 : (Kfb *ᵥ x) ⬝ᵥ (Q.Quu *ᵥ u) = x ⬝ᵥ (Q.Qxu *ᵥ u) := by
      rw [dot_symm hs, hKx, dot_tr']
    have a3 : (Kfb *ᵥ x) ⬝ᵥ (Q.Quu *ᵥ k) = Q.Qu ⬝ᵥ (Kfb *ᵥ x) := by rw [hk, dotProduct_comm]
    have a4 : u ⬝ᵥ (Q.Quu *ᵥ k) = Q.Qu ⬝ᵥ u := by rw [hk, dotProduct_comm]
    have a5 : u ⬝ᵥ (Q.Quu *ᵥ (Kfb *ᵥ x)) = x ⬝ᵥ (Q.Qxu *ᵥ u) := by rw [hKx, dot_tr']
    have a6 : k ⬝ᵥ (Q.Quu *ᵥ (Kfb *ᵥ x)) = Q.Qu ⬝ᵥ (Kfb *ᵥ x) := by rw [dot_symm hs, a3]
    have a7 : (Kfb *ᵥ x) ⬝ᵥ (Q.Quu *ᵥ (Kfb *ᵥ x)) = x ⬝ᵥ (Q.Qxu *ᵥ (Kfb *ᵥ x)) := by rw [hKx, dot_tr']
    simp only [mulVec_add, dotProduct_add, add_dotProduct]
    rw [a1, a2, a3, a4, a5, a6, a7]
    ring
  have e3 : (Q.Qx - Kfbᵀ *ᵥ Q.Qu) ⬝ᵥ x = Q.Qx ⬝ᵥ x - Q.Qu ⬝ᵥ (Kfb *ᵥ x) := by
    rw [sub_dotProduct, dot_tr]
  rw [e1, e2, e3]
  subst hQ
  simp only [actionValue, addDiag, add_mulVec, mulVec_add, dotProduct_add, add_dotProduct, dot_tr,
    ← mulVec_mulVec]
  have b1 : (d.Fx *ᵥ x) ⬝ᵥ (V.Vxx *ᵥ (d.Fu *ᵥ u)) = (d.Fu *ᵥ u) ⬝ᵥ (V.Vxx *ᵥ (d.Fx *ᵥ x)) := dot_symm hV _ _
  have c1 : x ⬝ᵥ (d.Fxᵀ *ᵥ (V.Vxx *ᵥ (d.Fx *ᵥ x))) = (d.Fx *ᵥ x) ⬝ᵥ (V.Vxx *ᵥ (d.Fx *ᵥ x)) := by
    rw [dot_tr', dotProduct_comm]
  have c2 : x ⬝ᵥ (d.Fxᵀ *ᵥ (V.Vxx *ᵥ (d.Fu *ᵥ u))) = (d.Fx *ᵥ x) ⬝ᵥ (V.Vxx *ᵥ (d.Fu *ᵥ u)) := by
    rw [dot_tr', dotProduct_comm]
  have c3 : u ⬝ᵥ (d.Fuᵀ *ᵥ (V.Vxx *ᵥ (d.Fu *ᵥ u))) = (d.Fu *ᵥ u) ⬝ᵥ (V.Vxx *ᵥ (d.Fu *ᵥ u)) := by
    rw [dot_tr', dotProduct_comm]
  rw [c1, c2, c3]
  linarith

theorem addDiag_zero {p : Nat} (preg : Option K) (h : preg = none ∨ preg = some 0)
    (M : Matrix (Fin p) (Fin p) K) : addDiag preg M = M := by
  rcases h with rfl | rfl <;> simp [addDiag]

theorem addDiag_symm {p : Nat} (preg : Option K) {M : Matrix (Fin p) (Fin p) K} (h : Mᵀ = M) :
    (addDiag preg M)ᵀ = addDiag preg M := by
  cases preg <;> simp [addDiag, h, transpose_add, transpose_smul]

variable {nu : Nat → Nat}

/-- The arrays after a successful backward pass. -/
structure Back (llt : ∀ m, Matrix (Fin m) (Fin m) K → Bool) (preg : Option K) (feas : Bool) (T : Nat)
    (d : ∀ t, Derivs K n (nu t)) (LxT : Fin n → K) (LxxT : Matrix (Fin n) (Fin n) K)
    (f : Nat → Fin n → K) (g : Arrays K n nu) : Prop where
  term : g.V T = termValue preg feas LxT LxxT (f T)
  node : ∀ t < T, backNode llt preg feas (d t) (g.V (t + 1)) (f t) = some (g.out t)
  val : ∀ t < T, g.V t = (g.out t).V

theorem backLoop_spec {llt : ∀ m, Matrix (Fin m) (Fin m) K → Bool} {preg : Option K} {feas : Bool}
    {d : ∀ t, Derivs K n (nu t)} {f : Nat → Fin n → K} (t : Nat) (s g : Arrays K n nu)
    (h : backLoop llt preg feas d f t s = some g) :
    (∀ j, t ≤ j → g.V j = s.V j) ∧ (∀ j, t ≤ j → g.out j = s.out j) ∧
    (∀ j < t, backNode llt preg feas (d j) (g.V (j + 1)) (f j) = some (g.out j)) ∧
    (∀ j < t, g.V j = (g.out j).V) := by
  induction t generalizing s with
  | zero =>
    simp only [backLoop, Option.some.injEq] at h
    subst h
    exact ⟨fun _ _ => rfl, fun _ _ => rfl, fun _ hj => absurd hj (Nat.not_lt_zero _),
      fun _ hj => absurd hj (Nat.not_lt_zero _)⟩
  | succ t ih =>
    rw [backLoop] at h
    cases hb : backNode llt preg feas (d t) (s.V (t + 1)) (f t) with
    | none => simp [hb] at h
    | some o =>
      simp only [hb] at h
      obtain ⟨h1, h2, h3, h4⟩ := ih _ h
      have hV : ∀ j, t + 1 ≤ j → g.V j = s.V j := fun j hj => by
        rw [h1 j (by omega)]; simp only; rw [Function.update_of_ne (by omega)]
      have hoT : g.out t = o := by rw [h2 t le_rfl]; simp only [Function.update_self]
      have hVT : g.V t = o.V := by rw [h1 t le_rfl]; simp only [Function.update_self]
      refine ⟨hV, fun j hj => ?_, fun j hj => ?_, fun j hj => ?_⟩
      · rw [h2 j (by omega)]; simp only; rw [Function.update_of_ne (by omega)]
      · rcases Nat.lt_succ_iff_lt_or_eq.mp hj with hj | rfl
        · exact h3 j hj
        · rw [hV _ le_rfl, hb, hoT]
      · rcases Nat.lt_succ_iff_lt_or_eq.mp hj with hj | rfl
        · exact h4 j hj
        · rw [hVT, hoT]

theorem backwardPass_spec {llt : ∀ m, Matrix (Fin m) (Fin m) K → Bool} {preg : Option K} {feas : Bool}
    {T : Nat} {d : ∀ t, Derivs K n (nu t)} {LxT : Fin n → K} {LxxT : Matrix (Fin n) (Fin n) K}
    {f : Nat → Fin n → K} {s g : Arrays K n nu}
    (h : backwardPass llt preg feas T d LxT LxxT f s = some g) :
    Back llt preg feas T d LxT LxxT f g := by
  obtain ⟨h1, _, h3, h4⟩ := backLoop_spec T _ _ h
  refine ⟨?_, h3, h4⟩
  rw [h1 T le_rfl]
  simp only [Function.update_self]

theorem backNode_some {llt : ∀ m, Matrix (Fin m) (Fin m) K → Bool} {preg : Option K} {feas : Bool}
    {d : Derivs K n m} {V : Value K n} {f : Fin n → K} {o : NodeOut K n m}
    (h : backNode llt preg feas d V f = some o) :
    o.Q = actionValue preg d V ∧ (m = 0 ∨ llt m o.Q.Quu = true) ∧ o.k = o.Q.Quu⁻¹ *ᵥ o.Q.Qu ∧
    o.Kfb = o.Q.Quu⁻¹ * o.Q.Qxuᵀ ∧ o.V = computeValue preg feas o.Q o.Kfb f := by
  unfold backNode computeGains at h
  simp only at h
  by_cases hc : m = 0 ∨ llt m (actionValue preg d V).Quu = true
  · simp only [if_pos hc, Option.some.injEq] at h
    subst h
    exact ⟨rfl, hc, rfl, rfl, rfl⟩
  · simp only [if_neg hc] at h
    cases h

theorem Quu_symm {preg : Option K} {d : Derivs K n m} {V : Value K n} (hL : d.Luuᵀ = d.Luu)
    (hV : V.Vxxᵀ = V.Vxx) : (actionValue preg d V).Quuᵀ = (actionValue preg d V).Quu := by
  refine addDiag_symm _ ?_
  simp only [transpose_add, transpose_mul, transpose_transpose, hL, hV, Matrix.mul_assoc]

theorem Back.symm {llt : ∀ m, Matrix (Fin m) (Fin m) K → Bool} {preg : Option K} {feas : Bool}
    {T : Nat} {d : ∀ t, Derivs K n (nu t)} {LxT : Fin n → K} {LxxT : Matrix (Fin n) (Fin n) K}
    {f : Nat → Fin n → K} {g : Arrays K n nu} (h : Back llt preg feas T d LxT LxxT f g)
    (hL : LxxTᵀ = LxxT) (t : Nat) (ht : t ≤ T) : (g.V t).Vxxᵀ = (g.V t).Vxx := by
  rcases Nat.lt_or_eq_of_le ht with ht | rfl
  · rw [h.val t ht, (backNode_some (h.node t ht)).2.2.2.2]
    refine addDiag_symm _ ?_
    rw [transpose_smul, transpose_add, transpose_transpose, add_comm]
  · rw [h.term]
    exact addDiag_symm _ hL

/-- Positive definite matrices are invertible. -/
theorem unit_of_posdef {p : Nat} {M : Matrix (Fin p) (Fin p) K}
    (h : ∀ v, v ≠ 0 → 0 < v ⬝ᵥ (M *ᵥ v)) : IsUnit M.det := by
  rw [isUnit_iff_ne_zero]
  intro h0
  obtain ⟨v, hv, hm⟩ := Matrix.exists_mulVec_eq_zero_iff.mpr h0
  have := h v hv
  rw [hm, dotProduct_zero] at this
  exact lt_irrefl _ this

/-- What holds at each node after a successful backward pass. -/
theorem Back.facts {llt : ∀ m, Matrix (Fin m) (Fin m) K → Bool} {preg : Option K} {feas : Bool}
    {T : Nat} {d : ∀ t, Derivs K n (nu t)} {LxT : Fin n → K} {LxxT : Matrix (Fin n) (Fin n) K}
    {f : Nat → Fin n → K} {g : Arrays K n nu} (h : Back llt preg feas T d LxT LxxT f g)
    (hl : LltSound llt) (hL : LxxTᵀ = LxxT) (t : Nat) (ht : t < T) (hLu : (d t).Luuᵀ = (d t).Luu) :
    (g.out t).Q = actionValue preg (d t) (g.V (t + 1)) ∧ (g.V (t + 1)).Vxxᵀ = (g.V (t + 1)).Vxx ∧
    (g.out t).Q.Quuᵀ = (g.out t).Q.Quu ∧ (∀ v, v ≠ 0 → 0 < v ⬝ᵥ ((g.out t).Q.Quu *ᵥ v)) ∧
    (g.out t).Q.Quu *ᵥ (g.out t).k = (g.out t).Q.Qu ∧ (g.out t).Q.Quu * (g.out t).Kfb = (g.out t).Q.Qxuᵀ ∧
    g.V t = computeValue preg feas (g.out t).Q (g.out t).Kfb (f t) := by
  obtain ⟨hQ, hok, hk, hK, hv⟩ := backNode_some (h.node t ht)
  have hVs := h.symm hL (t + 1) ht
  have hs : (g.out t).Q.Quuᵀ = (g.out t).Q.Quu := by rw [hQ]; exact Quu_symm hLu hVs
  have hpd : ∀ v, v ≠ 0 → 0 < v ⬝ᵥ ((g.out t).Q.Quu *ᵥ v) := by
    rcases hok with h0 | hok
    · intro v hv
      refine absurd (funext fun i => ?_) hv
      exact absurd i.2 (by omega)
    · exact hl _ _ hs hok
  have hu := unit_of_posdef hpd
  refine ⟨hQ, hVs, hs, hpd, ?_, ?_, ?_⟩
  · rw [hk, mulVec_mulVec, Matrix.mul_nonsing_inv _ hu, one_mulVec]
  · rw [hK, ← Matrix.mul_assoc, Matrix.mul_nonsing_inv _ hu, Matrix.one_mul]
  · rw [h.val t ht, hv]

/-! ### Linear-quadratic problems -/

theorem Lqr.cost_expand (a : Lqr K n m) (hQ : a.Qᵀ = a.Q) (hR : a.Rᵀ = a.R) (x e : Fin n → K)
    (u v : Fin m → K) :
    a.cost (x + e) (u + v) = a.cost x u + (a.derivs x u).Lx ⬝ᵥ e + (a.derivs x u).Lu ⬝ᵥ v
      + (1/2) * (e ⬝ᵥ (a.Q *ᵥ e)) + e ⬝ᵥ (a.N *ᵥ v) + (1/2) * (v ⬝ᵥ (a.R *ᵥ v)) := by
  simp only [Lqr.cost, Lqr.derivs, mulVec_add, dotProduct_add, add_dotProduct, dot_tr]
  rw [dot_symm hQ x e, dot_symm hR u v, dotProduct_comm (a.Q *ᵥ x) e, dotProduct_comm (a.N *ᵥ u) e,
    dotProduct_comm (a.R *ᵥ u) v]
  ring

theorem Lqr.costT_expand (a : Lqr K n m) (hQ : a.Qᵀ = a.Q) (x e : Fin n → K) :
    a.costT (x + e) = a.costT x + (a.q + a.Q *ᵥ x) ⬝ᵥ e + (1/2) * (e ⬝ᵥ (a.Q *ᵥ e)) := by
  simp only [Lqr.costT, mulVec_add, dotProduct_add, add_dotProduct]
  rw [dot_symm hQ x e, dotProduct_comm (a.Q *ᵥ x) e]
  ring

theorem Lqr.next_expand (a : Lqr K n m) (x e : Fin n → K) (u v : Fin m → K) :
    a.next (x + e) (u + v) = a.next x u + (a.A *ᵥ e + a.B *ᵥ v) := by
  simp only [Lqr.next, mulVec_add]
  abel

section
variable (P : LqProb K n nu)

theorem traj_shift (us : ∀ t, Fin (nu t) → K) (t : Nat) (x : Fin n → K) (i : Nat) :
    traj P us t x (i + 1) = traj P us (t + 1) ((P.node t).next x (us t)) i := by
  induction i with
  | zero => rfl
  | succ i ih =>
    rw [traj, ih, traj, ← show t + 1 + i = t + (i + 1) by omega]

theorem costToGo_end (us : ∀ t, Fin (nu t) → K) (x : Fin n → K) :
    costToGo P us P.T x = P.term.costT x := by
  simp [costToGo, traj]

theorem costToGo_step (us : ∀ t, Fin (nu t) → K) (t : Nat) (ht : t < P.T) (x : Fin n → K) :
    costToGo P us t x = (P.node t).cost x (us t) + costToGo P us (t + 1) ((P.node t).next x (us t)) := by
  obtain ⟨r, hr⟩ : ∃ r, P.T - t = r + 1 := ⟨P.T - t - 1, by omega⟩
  have hr' : P.T - (t + 1) = r := by omega
  unfold costToGo
  rw [hr, hr', Finset.sum_range_succ', traj_shift]
  simp only [traj_shift]
  have : ∀ i y, (P.node (t + (i + 1))).cost y (us (t + (i + 1))) = (P.node (t + 1 + i)).cost y (us (t + 1 + i)) :=
    fun i y => by rw [show t + (i + 1) = t + 1 + i by omega]
  simp only [this]
  simp only [traj, Nat.add_zero]
  ring

/-- Deviation of a control from the one the full-step policy would apply. -/
def dev (xs : Nat → Fin n → K) (us : ∀ t, Fin (nu t) → K) (g : Arrays K n nu)
    (vs : ∀ t, Fin (nu t) → K) (t : Nat) (x : Fin n → K) : Fin (nu t) → K :=
  vs t - us t + (g.out t).k + (g.out t).Kfb *ᵥ (x - xs t)

/-- The quadratic value function of node `t`, without its constant. -/
def valAt (xs : Nat → Fin n → K) (us : ∀ t, Fin (nu t) → K) (g : Arrays K n nu) (t : Nat)
    (x : Fin n → K) : K :=
  (g.V t).Vx ⬝ᵥ (x - xs t - gaps P xs us t)
    + (1/2) * ((x - xs t - gaps P xs us t) ⬝ᵥ ((g.V t).Vxx *ᵥ (x - xs t - gaps P xs us t)))

/-- Half the change of the value function caused by the gap. -/
def gapTerm (xs : Nat → Fin n → K) (us : ∀ t, Fin (nu t) → K) (g : Arrays K n nu) (t : Nat) : K :=
  (g.V t).Vx ⬝ᵥ gaps P xs us t - (1/2) * (gaps P xs us t ⬝ᵥ ((g.V t).Vxx *ᵥ gaps P xs us t))

/-- The backward pass run on the derivatives of `P` at the candidate. -/
def BackLq (llt : ∀ m, Matrix (Fin m) (Fin m) K → Bool) (preg : Option K) (feas : Bool)
    (xs : Nat → Fin n → K) (us : ∀ t, Fin (nu t) → K) (g : Arrays K n nu) : Prop :=
  Back llt preg feas P.T (fun t => (P.node t).derivs (xs t) (us t)) (P.term.q + P.term.Q *ᵥ xs P.T)
    P.term.Q (gaps P xs us) g

variable {P}
variable {llt : ∀ m, Matrix (Fin m) (Fin m) K → Bool} {preg : Option K} {feas : Bool}
    {xs : Nat → Fin n → K} {us : ∀ t, Fin (nu t) → K} {g : Arrays K n nu}

theorem shift_quad {V : Matrix (Fin n) (Fin n) K} (hV : Vᵀ = V) (v f e : Fin n → K) :
    v ⬝ᵥ e + (1/2) * (e ⬝ᵥ (V *ᵥ e)) =
      (v + V *ᵥ f) ⬝ᵥ (e - f) + (1/2) * ((e - f) ⬝ᵥ (V *ᵥ (e - f)))
        + ((v + V *ᵥ f) ⬝ᵥ f - (1/2) * (f ⬝ᵥ (V *ᵥ f))) := by
  simp only [mulVec_sub, dotProduct_sub, sub_dotProduct, add_dotProduct]
  rw [dot_symm hV e f, dotProduct_comm (V *ᵥ f) e, dot_symm hV e f, dotProduct_comm (V *ᵥ f) f]
  ring

theorem value_end (h : BackLq P llt preg feas xs us g) (hs : Symmetric P)
    (hp : preg = none ∨ preg = some 0) (hf : feas = true → ∀ t ≤ P.T, gaps P xs us t = 0)
    (x : Fin n → K) :
    P.term.costT x = P.term.costT (xs P.T) + valAt P xs us g P.T x + gapTerm P xs us g P.T := by
  have hT := h.term
  have := P.term.costT_expand hs.term (xs P.T) (x - xs P.T)
  rw [add_sub_cancel] at this
  rw [this, add_assoc, shift_quad hs.term _ (gaps P xs us P.T)]
  unfold valAt gapTerm
  rw [hT]
  simp only [termValue, addDiag_zero preg hp]
  cases feas with
  | false => simp only [Bool.false_eq_true, if_false]; ring
  | true =>
    rw [hf rfl P.T le_rfl]
    simp only [mulVec_zero, add_zero, if_true]; ring

theorem value_step (h : BackLq P llt preg feas xs us g) (hs : Symmetric P) (hl : LltSound llt)
    (hp : preg = none ∨ preg = some 0) (hf : feas = true → ∀ t ≤ P.T, gaps P xs us t = 0)
    (t : Nat) (ht : t < P.T) (x : Fin n → K) (vs : ∀ t, Fin (nu t) → K) :
    (P.node t).cost x (vs t) + valAt P xs us g (t + 1) ((P.node t).next x (vs t)) =
      (P.node t).cost (xs t) (us t) + valAt P xs us g t x + gapTerm P xs us g t
        - (1/2) * ((g.out t).k ⬝ᵥ ((g.out t).Q.Quu *ᵥ (g.out t).k))
        + (1/2) * (dev xs us g vs t x ⬝ᵥ ((g.out t).Q.Quu *ᵥ dev xs us g vs t x)) := by
  obtain ⟨hQ, hVs, hQs, -, hk, hK, hv⟩ := Back.facts h hl hs.term t ht (hs.R t)
  have hQ' : (g.out t).Q = actionValue none ((P.node t).derivs (xs t) (us t)) (g.V (t + 1)) := by
    rw [hQ]; rcases hp with rfl | rfl
    · rfl
    · simp [actionValue, addDiag]
  have hc := (P.node t).cost_expand (hs.Q t) (hs.R t) (xs t) (x - xs t) (us t) (vs t - us t)
  have hn := (P.node t).next_expand (xs t) (x - xs t) (us t) (vs t - us t)
  rw [add_sub_cancel, add_sub_cancel] at hc hn
  have hnode := node_identity ((P.node t).derivs (xs t) (us t)) (g.V (t + 1)) hVs (g.out t).Q hQ'
    (hs.R t) (g.out t).k (g.out t).Kfb hk hK (x - xs t) (vs t - us t)
  have hsub : (P.node t).next x (vs t) - xs (t + 1) - gaps P xs us (t + 1) =
      (P.node t).A *ᵥ (x - xs t) + (P.node t).B *ᵥ (vs t - us t) := by
    rw [hn, gaps]; abel
  have hVxx : ((1/2 : K) • (((g.out t).Q.Qxx - (g.out t).Q.Qxu * (g.out t).Kfb) +
      ((g.out t).Q.Qxx - (g.out t).Q.Qxu * (g.out t).Kfb)ᵀ)) = (g.V t).Vxx := by
    rw [hv]; simp only [computeValue, addDiag_zero preg hp]
  have hVts := Back.symm h hs.term t ht.le
  rw [hVxx, shift_quad hVts _ (gaps P xs us t)] at hnode
  have hVx : (g.out t).Q.Qx - (g.out t).Kfbᵀ *ᵥ (g.out t).Q.Qu + (g.V t).Vxx *ᵥ gaps P xs us t
      = (g.V t).Vx := by
    rw [← hVxx]
    rw [hv]; simp only [computeValue, addDiag_zero preg hp]
    cases feas with
    | false => rfl
    | true => rw [hf rfl t ht.le]; simp
  rw [hVx] at hnode
  unfold valAt gapTerm dev
  rw [hsub, hc]
  have hd : ((P.node t).derivs (xs t) (us t)).Lxx = (P.node t).Q := rfl
  have hd1 : ((P.node t).derivs (xs t) (us t)).Lxu = (P.node t).N := rfl
  have hd2 : ((P.node t).derivs (xs t) (us t)).Luu = (P.node t).R := rfl
  have hd3 : ((P.node t).derivs (xs t) (us t)).Fx = (P.node t).A := rfl
  have hd4 : ((P.node t).derivs (xs t) (us t)).Fu = (P.node t).B := rfl
  rw [hd, hd1, hd2, hd3, hd4] at hnode
  linarith

variable (P) in
/-- `f (t) y` summed along the trajectory driven by `vs`. -/
def along (F : Nat → (Fin n → K) → K) (vs : ∀ t, Fin (nu t) → K) (t : Nat) (x : Fin n → K) : K :=
  ∑ i ∈ Finset.range (P.T - t), F (t + i) (traj P vs t x i)

theorem along_end (F : Nat → (Fin n → K) → K) (vs : ∀ t, Fin (nu t) → K) (x : Fin n → K) :
    along P F vs P.T x = 0 := by
  simp [along]

theorem along_step (F : Nat → (Fin n → K) → K) (vs : ∀ t, Fin (nu t) → K) (t : Nat) (ht : t < P.T)
    (x : Fin n → K) :
    along P F vs t x = F t x + along P F vs (t + 1) ((P.node t).next x (vs t)) := by
  obtain ⟨r, hr⟩ : ∃ r, P.T - t = r + 1 := ⟨P.T - t - 1, by omega⟩
  have hr' : P.T - (t + 1) = r := by omega
  unfold along
  rw [hr, hr', Finset.sum_range_succ']
  simp only [traj_shift]
  have : ∀ i y, F (t + (i + 1)) y = F (t + 1 + i) y :=
    fun i y => by rw [show t + (i + 1) = t + 1 + i by omega]
  simp only [this]
  simp only [traj, Nat.add_zero]
  ring

variable (P) in
/-- The excess of node `t` at state `x`: half the squared `Quu`-norm of the deviation from the policy. -/
def excess (xs : Nat → Fin n → K) (us : ∀ t, Fin (nu t) → K) (g : Arrays K n nu)
    (vs : ∀ t, Fin (nu t) → K) (t : Nat) (x : Fin n → K) : K :=
  (1/2) * (dev xs us g vs t x ⬝ᵥ ((g.out t).Q.Quu *ᵥ dev xs us g vs t x))

variable (P) in
/-- The constant of the value function of node `T - r`. -/
def base (xs : Nat → Fin n → K) (us : ∀ t, Fin (nu t) → K) (g : Arrays K n nu) (t : Nat) : K :=
  (∑ i ∈ Finset.Ico t P.T, ((P.node i).cost (xs i) (us i) + gapTerm P xs us g i
    - (1/2) * ((g.out i).k ⬝ᵥ ((g.out i).Q.Quu *ᵥ (g.out i).k))))
    + (P.term.costT (xs P.T) + gapTerm P xs us g P.T)

/-- The cost-to-go is the value function plus the accumulated excess. -/
theorem costToGo_value (h : BackLq P llt preg feas xs us g) (hs : Symmetric P) (hl : LltSound llt)
    (hp : preg = none ∨ preg = some 0) (hf : feas = true → ∀ t ≤ P.T, gaps P xs us t = 0)
    (vs : ∀ t, Fin (nu t) → K) (t : Nat) (ht : t ≤ P.T) (x : Fin n → K) :
    costToGo P vs t x = base P xs us g t + valAt P xs us g t x + along P (excess xs us g vs) vs t x := by
  obtain ⟨r, hr⟩ : ∃ r, t + r = P.T := ⟨P.T - t, by omega⟩
  induction r generalizing t x with
  | zero =>
    obtain rfl : t = P.T := by omega
    rw [costToGo_end, along_end, value_end h hs hp hf]
    simp only [base, Finset.Ico_self, Finset.sum_empty]
    ring
  | succ r ih =>
    have ht' : t < P.T := by omega
    rw [costToGo_step P vs t ht', ih (t + 1) (by omega) _ (by omega), along_step _ _ _ ht']
    have := value_step h hs hl hp hf t ht' x vs
    have hb : base P xs us g t = (P.node t).cost (xs t) (us t) + gapTerm P xs us g t
        - (1/2) * ((g.out t).k ⬝ᵥ ((g.out t).Q.Quu *ᵥ (g.out t).k)) + base P xs us g (t + 1) := by
      unfold base
      rw [Finset.sum_eq_sum_Ico_succ_bot ht']
      ring
    rw [hb]
    unfold excess at *
    linarith

theorem excess_nonneg (h : BackLq P llt preg feas xs us g) (hs : Symmetric P) (hl : LltSound llt)
    (vs : ∀ t, Fin (nu t) → K) (t : Nat) (ht : t < P.T) (x : Fin n → K) : 0 ≤ excess xs us g vs t x := by
  obtain ⟨-, -, -, hpd, -⟩ := Back.facts h hl hs.term t ht (hs.R t)
  unfold excess
  by_cases h0 : dev xs us g vs t x = 0
  · rw [h0]; simp
  · have := hpd _ h0
    linarith

theorem excess_eq_zero (h : BackLq P llt preg feas xs us g) (hs : Symmetric P) (hl : LltSound llt)
    (vs : ∀ t, Fin (nu t) → K) (t : Nat) (ht : t < P.T) (x : Fin n → K)
    (h0 : excess xs us g vs t x = 0) : dev xs us g vs t x = 0 := by
  obtain ⟨-, -, -, hpd, -⟩ := Back.facts h hl hs.term t ht (hs.R t)
  unfold excess at h0
  by_contra hn
  have := hpd _ hn
  linarith

theorem along_nonneg (h : BackLq P llt preg feas xs us g) (hs : Symmetric P) (hl : LltSound llt)
    (vs : ∀ t, Fin (nu t) → K) (t : Nat) (x : Fin n → K) :
    0 ≤ along P (excess xs us g vs) vs t x :=
  Finset.sum_nonneg fun i hi => excess_nonneg h hs hl vs _ (by have := Finset.mem_range.mp hi; omega) _

/-- The closed loop is a trajectory. -/
theorem ClosedLoop.traj_eq {a : K} {xs' : Nat → Fin n → K} {us' : ∀ t, Fin (nu t) → K}
    (hc : ClosedLoop P xs us g a xs' us') (t : Nat) (ht : t ≤ P.T) : traj P us' 0 P.x0 t = xs' t := by
  induction t with
  | zero => exact hc.init.symm
  | succ t ih =>
    have e : 0 + t = t := Nat.zero_add t
    rw [traj, ih (by omega), hc.step t ht, e]

/-- The deviation of the closed loop with step `a`. -/
theorem ClosedLoop.dev_eq {a : K} {xs' : Nat → Fin n → K} {us' : ∀ t, Fin (nu t) → K}
    (hc : ClosedLoop P xs us g a xs' us') (t : Nat) (ht : t < P.T) :
    dev xs us g us' t (xs' t) = (1 - a) • (g.out t).k := by
  unfold dev
  rw [hc.control t ht, sub_smul, one_smul]
  abel

theorem ClosedLoop.along_eq {a : K} {xs' : Nat → Fin n → K} {us' : ∀ t, Fin (nu t) → K}
    (hc : ClosedLoop P xs us g a xs' us') :
    along P (excess xs us g us') us' 0 P.x0 =
      (1/2) * (1 - a) ^ 2 * ∑ t ∈ Finset.range P.T, (g.out t).k ⬝ᵥ ((g.out t).Q.Quu *ᵥ (g.out t).k) := by
  unfold along
  rw [Finset.mul_sum]
  refine Finset.sum_congr rfl fun t ht => ?_
  have ht := Finset.mem_range.mp ht
  rw [Nat.zero_add, hc.traj_eq t ht.le]
  unfold excess
  rw [hc.dev_eq t ht, mulVec_smul, dotProduct_smul, smul_dotProduct, smul_eq_mul, smul_eq_mul]
  ring

variable (P xs us g) in
/-- States and controls produced by the policy with step `a`. -/
def policyTraj (a : K) : Nat → (Fin n → K)
  | 0 => P.x0
  | t + 1 => (P.node t).next (policyTraj a t)
      (us t - a • (g.out t).k - (g.out t).Kfb *ᵥ (policyTraj a t - xs t))

variable (P xs us g) in
theorem closedLoop_exists (a : K) : ClosedLoop P xs us g a (policyTraj P xs us g a)
    (fun t => us t - a • (g.out t).k - (g.out t).Kfb *ᵥ (policyTraj P xs us g a t - xs t)) :=
  ⟨rfl, fun _ _ => rfl, fun _ _ => rfl⟩

end

/-! ### Convex problems -/

theorem dot_self_nonneg {p : Nat} (v : Fin p → K) : 0 ≤ v ⬝ᵥ v :=
  Finset.sum_nonneg fun _ _ => mul_self_nonneg _

theorem dot_self_pos {p : Nat} {v : Fin p → K} (h : v ≠ 0) : 0 < v ⬝ᵥ v := by
  refine lt_of_le_of_ne (dot_self_nonneg v) fun h0 => h (funext fun i => ?_)
  have := (Finset.sum_eq_zero_iff_of_nonneg (fun i _ => mul_self_nonneg (v i))).mp h0.symm i (Finset.mem_univ i)
  exact mul_self_eq_zero.mp this

theorem addDiag_quad {p : Nat} (preg : Option K) (M : Matrix (Fin p) (Fin p) K) (v : Fin p → K) :
    v ⬝ᵥ (addDiag preg M *ᵥ v) = v ⬝ᵥ (M *ᵥ v) + preg.getD 0 * (v ⬝ᵥ v) := by
  cases preg <;> simp [addDiag, add_mulVec, dotProduct_add, smul_mulVec, dotProduct_smul]

/-- One step of the backward pass on a convex stage: it succeeds and keeps the value function convex. -/
theorem backNode_convex {llt : ∀ m, Matrix (Fin m) (Fin m) K → Bool} {preg : Option K} {feas : Bool}
    {d : Derivs K n m} {V : Value K n} {f : Fin n → K} (hl : LltComplete llt) (hd : Convex d)
    (hp : 0 ≤ preg.getD 0) (hpd : ∀ v, v ≠ 0 → 0 < v ⬝ᵥ (d.Luu *ᵥ v) + preg.getD 0 * (v ⬝ᵥ v))
    (hV : V.Vxxᵀ = V.Vxx) (hV0 : ∀ v, 0 ≤ v ⬝ᵥ (V.Vxx *ᵥ v)) :
    ∃ o, backNode llt preg feas d V f = some o ∧ ∀ v, 0 ≤ v ⬝ᵥ (o.V.Vxx *ᵥ v) := by
  -- the same stage with the regularisation moved into `Luu` and without linear terms
  let d' : Derivs K n m := { d with Luu := addDiag preg d.Luu, Lx := 0, Lu := 0 }
  let V' : Value K n := { V with Vx := 0 }
  have hQuu : (actionValue none d' V').Quu = (actionValue preg d V).Quu := by
    cases preg with
    | none => rfl
    | some r =>
      simp only [actionValue, addDiag, d', V']
      abel
  have hs : (actionValue preg d V).Quuᵀ = (actionValue preg d V).Quu := Quu_symm hd.Luu hV
  have hquad : ∀ v, v ⬝ᵥ ((actionValue preg d V).Quu *ᵥ v) =
      (v ⬝ᵥ (d.Luu *ᵥ v) + preg.getD 0 * (v ⬝ᵥ v)) + (d.Fu *ᵥ v) ⬝ᵥ (V.Vxx *ᵥ (d.Fu *ᵥ v)) := fun v => by
    simp only [actionValue]
    rw [addDiag_quad, add_mulVec, dotProduct_add, Matrix.mul_assoc, ← mulVec_mulVec, ← mulVec_mulVec,
      dot_tr', dotProduct_comm (V.Vxx *ᵥ (d.Fu *ᵥ v))]
    ring
  have hPD : ∀ v, v ≠ 0 → 0 < v ⬝ᵥ ((actionValue preg d V).Quu *ᵥ v) := fun v hv => by
    rw [hquad]
    have := hpd v hv
    have := hV0 (d.Fu *ᵥ v)
    linarith
  have hok : llt m (actionValue preg d V).Quu = true := hl _ _ hs hPD
  have hu := unit_of_posdef hPD
  refine ⟨⟨actionValue preg d V, (actionValue preg d V).Quu⁻¹ *ᵥ (actionValue preg d V).Qu,
    (actionValue preg d V).Quu⁻¹ * (actionValue preg d V).Qxuᵀ,
    computeValue preg feas (actionValue preg d V)
      ((actionValue preg d V).Quu⁻¹ * (actionValue preg d V).Qxuᵀ) f⟩, ?_, ?_⟩
  · unfold backNode computeGains
    simp only
    rw [if_pos (Or.inr hok)]
  · intro v
    simp only [computeValue]
    rw [addDiag_quad]
    have hv0 := mul_nonneg hp (dot_self_nonneg v)
    refine add_nonneg ?_ hv0
    let Kfb := (actionValue preg d V).Quu⁻¹ * (actionValue preg d V).Qxuᵀ
    have hK : (actionValue none d' V').Quu * Kfb = (actionValue none d' V').Qxuᵀ := by
      rw [hQuu]
      show (actionValue preg d V).Quu * ((actionValue preg d V).Quu⁻¹ * (actionValue preg d V).Qxuᵀ) =
        (actionValue preg d V).Qxuᵀ
      rw [← Matrix.mul_assoc, Matrix.mul_nonsing_inv _ hu, Matrix.one_mul]
    have hk : (actionValue none d' V').Quu *ᵥ 0 = (actionValue none d' V').Qu := by
      simp [actionValue, d', V']
    have hid := node_identity d' V' hV _ rfl (addDiag_symm preg hd.Luu) 0 Kfb hk hK v (-(Kfb *ᵥ v))
    have e0 : -(Kfb *ᵥ v) + 0 + Kfb *ᵥ v = 0 := by simp
    have eQx : (actionValue none d' V').Qx = 0 := by simp [actionValue, d', V']
    have eQu : (actionValue none d' V').Qu = 0 := by simp [actionValue, d', V']
    rw [e0, eQx, eQu] at hid
    simp only [mulVec_zero, zero_dotProduct, mul_zero, sub_zero, zero_add, add_zero, sub_self] at hid
    have eM : (actionValue none d' V').Qxx - (actionValue none d' V').Qxu * Kfb =
        (actionValue preg d V).Qxx - (actionValue preg d V).Qxu * Kfb := rfl
    rw [eM] at hid
    have hpsd := hd.psd v (-(Kfb *ᵥ v))
    have hVn := hV0 (d.Fx *ᵥ v + d.Fu *ᵥ -(Kfb *ᵥ v))
    have hdiag := addDiag_quad preg d.Luu (-(Kfb *ᵥ v))
    have hpp := mul_nonneg hp (dot_self_nonneg (-(Kfb *ᵥ v)))
    have l1 : d'.Lx = 0 := rfl
    have l2 : d'.Lu = 0 := rfl
    have l3 : d'.Lxx = d.Lxx := rfl
    have l4 : d'.Lxu = d.Lxu := rfl
    have l5 : d'.Luu = addDiag preg d.Luu := rfl
    have l6 : d'.Fx = d.Fx := rfl
    have l7 : d'.Fu = d.Fu := rfl
    have l8 : V'.Vx = 0 := rfl
    have l9 : V'.Vxx = V.Vxx := rfl
    rw [l1, l2, l3, l4, l5, l6, l7, l8, l9] at hid
    simp only [zero_dotProduct, zero_add, add_zero] at hid
    linarith

theorem backLoop_convex {llt : ∀ m, Matrix (Fin m) (Fin m) K → Bool} {preg : Option K} {feas : Bool}
    {d : ∀ t, Derivs K n (nu t)} {f : Nat → Fin n → K} (hl : LltComplete llt)
    (hp : 0 ≤ preg.getD 0) (t : Nat) (hd : ∀ j < t, Convex (d j))
    (hpd : ∀ j < t, ∀ v, v ≠ 0 → 0 < v ⬝ᵥ ((d j).Luu *ᵥ v) + preg.getD 0 * (v ⬝ᵥ v)) (s : Arrays K n nu)
    (hV : (s.V t).Vxxᵀ = (s.V t).Vxx) (hV0 : ∀ v, 0 ≤ v ⬝ᵥ ((s.V t).Vxx *ᵥ v)) :
    ∃ g, backLoop llt preg feas d f t s = some g := by
  induction t generalizing s with
  | zero => exact ⟨s, rfl⟩
  | succ t ih =>
    obtain ⟨o, ho, hov⟩ := backNode_convex (feas := feas) (f := f t) hl (hd t (Nat.lt_succ_self t)) hp
      (hpd t (Nat.lt_succ_self t)) hV hV0
    rw [backLoop, ho]
    refine ih (fun j hj => hd j (by omega)) (fun j hj => hpd j (by omega)) _ ?_ ?_
    · simp only [Function.update_self]
      rw [(backNode_some ho).2.2.2.2]
      refine addDiag_symm _ ?_
      rw [transpose_smul, transpose_add, transpose_transpose, add_comm]
    · simp only [Function.update_self]
      exact hov

end Verif.Lq
