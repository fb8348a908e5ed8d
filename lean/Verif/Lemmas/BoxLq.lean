import Verif.Spec.BoxLq
import Verif.Props.BoxQp
import Verif.Lemmas.ProxRate
import Verif.Lemmas.Policy

set_option linter.unusedSectionVars false

/-! # Lemmas: BoxDDP and BoxFDDP on linear-quadratic problems with control limits -/

namespace Verif.BoxQp
open Verif Matrix
variable {K : Type} [Field K] [LinearOrder K] [IsStrictOrderedRing K] {n : Nat}
variable {fac : Fac K} {p : Params K} {H : Matrix (Fin n) (Fin n) K} {q lb ub xinit : Fin n → K}
  {s0 s : Sol K n}

/-- With `th_grad = 0` the last pass of a converged solve does not move the point, and the gradient vanishes at the free
coordinates. -/
theorem converged_exact (hf : FacSound fac) (hH : Hᵀ = H) (hb : ∀ i, lb i ≤ ub i) (hr : p.reg = 0) (hg : p.thGrad = 0)
    (h : solve fac p H q lb ub xinit s0 = some (s, true)) :
    (∀ j ∈ s.free, q j + ∑ i, H j i * s.x i = 0) ∧ ∀ j ∈ s.clamped, (s.x j = lb j ∧ 0 < q j + ∑ i, H j i * s.x i) ∨
      (s.x j = ub j ∧ q j + ∑ i, H j i * s.x i < 0) := by
  obtain ⟨x, hx, hi⟩ := converged_pass hb h
  obtain ⟨sol, hs, rfl, hc⟩ := iter_some hi
  rw [hr] at hs
  simp only [hr] at hc ⊢
  rw [hg] at hc
  have hq := ((normInf_le _ _).mp (of_decide_eq_true hc.symm)).2
  have hq0 : (fun i => - qf H q 0 (fset lb ub (grad H q x) x) (cset lb ub (grad H q x) x) x i) = 0 := by
    funext i
    have := abs_nonpos_iff.mp (hq i)
    simp [this]
  obtain ⟨hpd, hsol⟩ := hf _ _ _ (Hff_symm hH 0 _) hs
  have hd : sol 0 = 0 := by
    by_contra hne
    have h1 := hpd _ hne
    rw [hsol 0, dotProduct_zero] at h1
    exact lt_irrefl _ h1
  have hdx : scatter (fset lb ub (grad H q x) x) (sol (fun i => - qf H q 0 (fset lb ub (grad H q x) x)
      (cset lb ub (grad H q x) x) x i)) (fun _ => 0) = fun _ => 0 := by
    rw [hq0, hd]
    funext j
    by_cases hj : j ∈ fset lb ub (grad H q x) x
    · obtain ⟨i, rfl⟩ := List.mem_iff_get.mp hj
      rw [scatter_get _ (fset_nodup _ _ _ _)]; rfl
    · rw [scatter_not _ _ _ _ hj]
  have hxs : ∀ (g : Fin n → K) as, lineSearch H q lb ub p.thAccept g x (fun _ => 0) as = x := by
    intro g as
    rcases lineSearch_cases (H := H) (q := q) (lb := lb) (ub := ub) (th := p.thAccept) (g := g) (x := x)
      (dx := fun _ => 0) as with h | ⟨a, -, h, -⟩
    · exact h
    · rw [h, show (x + a • (fun _ => (0 : K)) : Fin n → K) = x by funext i; simp, clamp_of_inBox hx]
  rw [hdx, hxs]
  refine ⟨fun j hj => ?_, fun j hj => ?_⟩
  · obtain ⟨i, rfl⟩ := List.mem_iff_get.mp hj
    have := abs_nonpos_iff.mp (hq i)
    rw [qf_eq, zero_mul, add_zero] at this
    exact this
  · exact (isClamped_iff _ _ _ _ _).mp ((mem_cset _ _ _ _ _).mp hj)

/-- A positive definite box QP has at most one KKT point. -/
theorem Kkt.unique (hpd : PosDef H) {x y : Fin n → K} (hx : Kkt H q lb ub x) (hy : Kkt H q lb ub y) : x = y := by
  by_contra hne
  have h1 := hpd (x - y) (sub_ne_zero.mpr hne)
  have key : ∀ {x y : Fin n → K}, Kkt H q lb ub x → InBox lb ub y → ∀ i, (x i - y i) * (q i + ∑ j, H i j * x j) ≤ 0 := by
    intro x y hx hy i
    rcases hx.2 i with h | ⟨h, h'⟩ | ⟨h, h'⟩
    · rw [h, mul_zero]
    · exact mul_nonpos_of_nonpos_of_nonneg (by linarith [(hy i).1]) h'
    · exact mul_nonpos_of_nonneg_of_nonpos (by linarith [(hy i).2]) h'
  have h2 : (x - y) ⬝ᵥ (H *ᵥ (x - y)) = ∑ i, ((x i - y i) * (q i + ∑ j, H i j * x j) +
      (y i - x i) * (q i + ∑ j, H i j * y j)) := by
    refine Finset.sum_congr rfl fun i _ => ?_
    rw [mulVec_sub]
    show (x i - y i) * ((∑ j, H i j * x j) - ∑ j, H i j * y j) = _
    ring
  rw [h2] at h1
  have h3 : ∑ i, ((x i - y i) * (q i + ∑ j, H i j * x j) + (y i - x i) * (q i + ∑ j, H i j * y j)) ≤ 0 :=
    Finset.sum_nonpos fun i _ => add_nonpos (key hx hy.1 i) (key hy hx.1 i)
  linarith

end Verif.BoxQp

namespace Verif.Lq
open Verif Verif.Solve Matrix

variable {K : Type} [Field K] [LinearOrder K] [IsStrictOrderedRing K] {n m : Nat}
variable {llt : ∀ m, Matrix (Fin m) (Fin m) K → Bool} {fac : BoxQp.Fac K} {p : BoxQp.Params K} {lim : CtrlLimits K m}

/-! ### The loop -/

/-- What the loop leaves at each node. -/
theorem boxBackLoop_spec {us : Nat → Fin m → K} {preg : Option K} {feas : Bool} {d : Nat → Derivs K n m} {f : Nat → Fin n → K}
    (t : Nat) (s g : BoxDir K n m) (h : boxBackLoop llt fac p lim us preg feas d f t s = some g) :
    (∀ j, t ≤ j → g.arr.V j = s.arr.V j) ∧ (∀ j, t ≤ j → g.arr.out j = s.arr.out j) ∧ (g.conv = true → s.conv = true) ∧
    (∀ j < t, g.arr.V j = (g.arr.out j).V) ∧
    ∀ j < t, if lim.has j = true ∧ feas = true ∧ 0 < m then
        ∃ k s s' c, boxNode fac p preg feas (lim.lb j) (lim.ub j) (us j) (d j) (g.arr.V (j + 1)) (f j) k s =
          some (g.arr.out j, s', c) ∧ (g.conv = true → c = true)
      else backNode llt preg feas (d j) (g.arr.V (j + 1)) (f j) = some (g.arr.out j) := by
  induction t generalizing s with
  | zero =>
    simp only [boxBackLoop, Option.some.injEq] at h
    subst h
    exact ⟨fun _ _ => rfl, fun _ _ => rfl, id, fun _ hj => absurd hj (Nat.not_lt_zero _),
      fun _ hj => absurd hj (Nat.not_lt_zero _)⟩
  | succ t ih =>
    rw [boxBackLoop] at h
    by_cases hc : lim.has t = true ∧ feas = true ∧ 0 < m
    · rw [if_pos hc] at h
      cases hb : boxNode fac p preg feas (lim.lb t) (lim.ub t) (us t) (d t) (s.arr.V (t + 1)) (f t) (s.arr.out t).k s.sol with
      | none => simp [hb] at h
      | some r =>
        obtain ⟨o, s', c⟩ := r
        simp only [hb] at h
        obtain ⟨h1, h2, h5, h4, h3⟩ := ih _ h
        simp only [Bool.and_eq_true] at h5
        have hV : ∀ j, t + 1 ≤ j → g.arr.V j = s.arr.V j := fun j hj => by
          rw [h1 j (by omega)]; simp only; rw [Function.update_of_ne (by omega)]
        have hoT : g.arr.out t = o := by rw [h2 t le_rfl]; simp only [Function.update_self]
        have hVT : g.arr.V t = o.V := by rw [h1 t le_rfl]; simp only [Function.update_self]
        refine ⟨hV, fun j hj => ?_, fun hh => (h5 hh).1, fun j hj => ?_, fun j hj => ?_⟩
        · rw [h2 j (by omega)]; simp only; rw [Function.update_of_ne (by omega)]
        · rcases Nat.lt_succ_iff_lt_or_eq.mp hj with hj | rfl
          · exact h4 j hj
          · rw [hVT, hoT]
        · rcases Nat.lt_succ_iff_lt_or_eq.mp hj with hj | rfl
          · exact h3 j hj
          · rw [if_pos hc, hV _ le_rfl, hoT]
            exact ⟨_, _, s', c, hb, fun hh => (h5 hh).2⟩
    · rw [if_neg hc] at h
      cases hb : backNode llt preg feas (d t) (s.arr.V (t + 1)) (f t) with
      | none => simp [hb] at h
      | some o =>
        simp only [hb] at h
        obtain ⟨h1, h2, h5, h4, h3⟩ := ih _ h
        have hV : ∀ j, t + 1 ≤ j → g.arr.V j = s.arr.V j := fun j hj => by
          rw [h1 j (by omega)]; simp only; rw [Function.update_of_ne (by omega)]
        have hoT : g.arr.out t = o := by rw [h2 t le_rfl]; simp only [Function.update_self]
        have hVT : g.arr.V t = o.V := by rw [h1 t le_rfl]; simp only [Function.update_self]
        refine ⟨hV, fun j hj => ?_, h5, fun j hj => ?_, fun j hj => ?_⟩
        · rw [h2 j (by omega)]; simp only; rw [Function.update_of_ne (by omega)]
        · rcases Nat.lt_succ_iff_lt_or_eq.mp hj with hj | rfl
          · exact h4 j hj
          · rw [hVT, hoT]
        · rcases Nat.lt_succ_iff_lt_or_eq.mp hj with hj | rfl
          · exact h3 j hj
          · rw [if_neg hc, hV _ le_rfl, hb, hoT]

/-- What a node of the backward pass satisfies, with or without limits: `bounded` tells whether its box QP was solved. -/
structure NodeOk (preg : Option K) (feas : Bool) (bounded : Bool) (lb ub us : Fin m → K) (d : Derivs K n m) (V : Value K n)
    (f : Fin n → K) (o : NodeOut K n m) : Prop where
  Q : o.Q = { actionValue preg d V with Qu := o.Q.Qu }
  row : ∀ i, (o.Q.Qu i = (actionValue preg d V).Qu i ∧ (actionValue preg d V).Qu i = (o.Q.Quu *ᵥ o.k) i ∧
      ∀ a, ∑ j, o.Q.Quu i j * o.Kfb j a = o.Q.Qxu a i) ∨
    (bounded = true ∧ o.Q.Qu i = 0 ∧ (∀ a, o.Kfb i a = 0) ∧
      ((us i - o.k i = lb i ∧ (o.Q.Quu *ᵥ o.k) i < (actionValue preg d V).Qu i) ∨
       (us i - o.k i = ub i ∧ (actionValue preg d V).Qu i < (o.Q.Quu *ᵥ o.k) i)))
  inside : bounded = true → ∀ i, lb i ≤ us i - o.k i ∧ us i - o.k i ≤ ub i
  val : o.V = computeValue preg feas o.Q o.Kfb f

theorem boxNode_ok (hf : BoxQp.FacSound fac) (hr : p.reg = 0) (hg : p.thGrad = 0) {preg : Option K} {feas : Bool}
    {lb ub us : Fin m → K} (hb : ∀ i, lb i ≤ ub i) {d : Derivs K n m} (hd : d.Luuᵀ = d.Luu) {V : Value K n} (hV : V.Vxxᵀ = V.Vxx)
    {f : Fin n → K} {k : Fin m → K} {s s' : BoxQp.Sol K m} {o : NodeOut K n m}
    (h : boxNode fac p preg feas lb ub us d V f k s = some (o, s', true)) : NodeOk preg feas true lb ub us d V f o := by
  unfold boxNode at h
  simp only at h
  split at h
  · simp at h
  · rename_i k' Kfb Qu s1 hb1
    simp only [Option.some.injEq, Prod.mk.injEq] at h
    obtain ⟨rfl, rfl, hc⟩ := h
    obtain ⟨c, hs, hk, hK, hQ⟩ := BoxQp.boxGains_some hb1
    rw [hs] at hc
    simp only [Option.map_some, Option.getD_some] at hc
    subst hc
    have hQs := Quu_symm (preg := preg) hd hV
    have hb' : ∀ i, (lb - us) i ≤ (ub - us) i := fun i => by simp [hb i]
    have hm : p.maxiter ≠ 0 := by
      intro h0
      unfold BoxQp.solve at hs
      rw [h0] at hs
      simp [BoxQp.loop] at hs
    obtain ⟨e1, e2⟩ := BoxQp.converged_exact hf hQs hb' hr hg hs
    have hrow := BoxQp.C68_free_rows hf hQs hr hm hb1
    have hcl := BoxQp.C68_clamped_rows hb hm hb1
    have hpart := BoxQp.C32_partition_partial hm hs
    have hgr : ∀ i, ∑ j, (actionValue preg d V).Quu i j * s1.x j = - ((actionValue preg d V).Quu *ᵥ k') i := by
      intro i
      rw [hk, mulVec_neg, Pi.neg_apply, neg_neg]
      rfl
    refine ⟨rfl, fun i => ?_, fun _ => BoxQp.C68_full_step_in_limits hb hb1, rfl⟩
    have hi : i ∈ s1.free ∨ i ∈ s1.clamped := List.mem_append.mp (hpart.mem_iff.mpr (List.mem_finRange i))
    rcases hi with hi | hi
    · left
      refine ⟨(hrow i hi).1, ?_, (hrow i hi).2⟩
      have := e1 i hi
      rw [hgr] at this
      show _ = ((actionValue preg d V).Quu *ᵥ k') i
      linarith
    · right
      refine ⟨rfl, (hcl i hi).2.2, (hcl i hi).2.1, ?_⟩
      have := e2 i hi
      rw [hgr] at this
      have hxk : s1.x i = - k' i := by rw [hk]; simp
      simp only [Pi.sub_apply, hxk] at this
      rcases this with ⟨h1, h2⟩ | ⟨h1, h2⟩
      · left; exact ⟨by linarith, by show ((actionValue preg d V).Quu *ᵥ k') i < _; linarith⟩
      · right; exact ⟨by linarith, by show _ < ((actionValue preg d V).Quu *ᵥ k') i; linarith⟩

theorem backNode_ok (hl : LltSound llt) {preg : Option K} {feas : Bool} {lb ub us : Fin m → K} {d : Derivs K n m}
    (hd : d.Luuᵀ = d.Luu) {V : Value K n} (hV : V.Vxxᵀ = V.Vxx) {f : Fin n → K} {o : NodeOut K n m}
    (h : backNode llt preg feas d V f = some o) : NodeOk preg feas false lb ub us d V f o := by
  obtain ⟨hQ, hok, hk, hK, hv⟩ := backNode_some h
  have hs : o.Q.Quuᵀ = o.Q.Quu := by rw [hQ]; exact Quu_symm hd hV
  have hpd : ∀ v, v ≠ 0 → 0 < v ⬝ᵥ (o.Q.Quu *ᵥ v) := by
    rcases hok with h0 | hok
    · intro v hv
      refine absurd (funext fun i => ?_) hv
      exact absurd i.2 (by omega)
    · exact hl _ _ hs hok
  have hu := unit_of_posdef hpd
  have e1 : o.Q.Quu *ᵥ o.k = o.Q.Qu := by rw [hk, mulVec_mulVec, Matrix.mul_nonsing_inv _ hu, one_mulVec]
  have e2 : o.Q.Quu * o.Kfb = o.Q.Qxuᵀ := by rw [hK, ← Matrix.mul_assoc, Matrix.mul_nonsing_inv _ hu, Matrix.one_mul]
  refine ⟨by rw [hQ], fun i => .inl ⟨by rw [hQ], by rw [e1, hQ], fun a => ?_⟩, fun hb => by simp at hb, hv⟩
  exact congrFun (congrFun e2 i) a

/-! ### Convexity -/

variable {preg : Option K} {feas bounded : Bool} {lb ub us : Fin m → K} {d : Derivs K n m} {V : Value K n} {f : Fin n → K}
  {o : NodeOut K n m}

theorem NodeOk.Quu (h : NodeOk preg feas bounded lb ub us d V f o) : o.Q.Quu = (actionValue preg d V).Quu := by rw [h.Q]
theorem NodeOk.Qx (h : NodeOk preg feas bounded lb ub us d V f o) : o.Q.Qx = (actionValue preg d V).Qx := by rw [h.Q]
theorem NodeOk.Qxx (h : NodeOk preg feas bounded lb ub us d V f o) : o.Q.Qxx = (actionValue preg d V).Qxx := by rw [h.Q]
theorem NodeOk.Qxu (h : NodeOk preg feas bounded lb ub us d V f o) : o.Q.Qxu = (actionValue preg d V).Qxu := by rw [h.Q]

theorem NodeOk.symm (h : NodeOk preg feas bounded lb ub us d V f o) : o.V.Vxxᵀ = o.V.Vxx := by
  rw [h.val]
  refine addDiag_symm _ ?_
  rw [transpose_smul, transpose_add, transpose_transpose, add_comm]

theorem Quu_quad (v : Fin m → K) : v ⬝ᵥ ((actionValue preg d V).Quu *ᵥ v) =
    (v ⬝ᵥ (d.Luu *ᵥ v) + preg.getD 0 * (v ⬝ᵥ v)) + (d.Fu *ᵥ v) ⬝ᵥ (V.Vxx *ᵥ (d.Fu *ᵥ v)) := by
  simp only [actionValue]
  rw [addDiag_quad, add_mulVec, dotProduct_add, Matrix.mul_assoc, ← mulVec_mulVec, ← mulVec_mulVec,
    dot_tr', dotProduct_comm (V.Vxx *ᵥ (d.Fu *ᵥ v))]
  ring

theorem Quu_posdef (hp : 0 ≤ preg.getD 0) (hpd : ∀ v, v ≠ 0 → 0 < v ⬝ᵥ (d.Luu *ᵥ v)) (hV0 : ∀ v, 0 ≤ v ⬝ᵥ (V.Vxx *ᵥ v)) :
    BoxQp.PosDef (actionValue preg d V).Quu := by
  intro v hv
  rw [Quu_quad]
  have := hpd v hv
  have := hV0 (d.Fu *ᵥ v)
  have := mul_nonneg hp (dot_self_nonneg v)
  linarith

/-- The quadratic form of the action-value function. -/
theorem action_quad (hV : V.Vxxᵀ = V.Vxx) (x : Fin n → K) (u : Fin m → K) :
    x ⬝ᵥ ((actionValue preg d V).Qxx *ᵥ x) + 2 * (x ⬝ᵥ ((actionValue preg d V).Qxu *ᵥ u)) +
      u ⬝ᵥ ((actionValue preg d V).Quu *ᵥ u) =
    (x ⬝ᵥ (d.Lxx *ᵥ x) + 2 * (x ⬝ᵥ (d.Lxu *ᵥ u)) + u ⬝ᵥ (d.Luu *ᵥ u)) + preg.getD 0 * (u ⬝ᵥ u) +
      (d.Fx *ᵥ x + d.Fu *ᵥ u) ⬝ᵥ (V.Vxx *ᵥ (d.Fx *ᵥ x + d.Fu *ᵥ u)) := by
  have e1 : x ⬝ᵥ ((actionValue preg d V).Qxx *ᵥ x) = x ⬝ᵥ (d.Lxx *ᵥ x) + (d.Fx *ᵥ x) ⬝ᵥ (V.Vxx *ᵥ (d.Fx *ᵥ x)) := by
    simp only [actionValue]
    rw [add_mulVec, dotProduct_add, Matrix.mul_assoc, ← mulVec_mulVec, ← mulVec_mulVec, dot_tr', dotProduct_comm (V.Vxx *ᵥ _)]
  have e2 : x ⬝ᵥ ((actionValue preg d V).Qxu *ᵥ u) = x ⬝ᵥ (d.Lxu *ᵥ u) + (d.Fx *ᵥ x) ⬝ᵥ (V.Vxx *ᵥ (d.Fu *ᵥ u)) := by
    simp only [actionValue]
    rw [add_mulVec, dotProduct_add, Matrix.mul_assoc, ← mulVec_mulVec, ← mulVec_mulVec, dot_tr', dotProduct_comm (V.Vxx *ᵥ _)]
  rw [e1, e2, Quu_quad, mulVec_add, dotProduct_add, add_dotProduct, add_dotProduct, dot_symm hV (d.Fu *ᵥ u) (d.Fx *ᵥ x)]
  ring

theorem NodeOk.psd (h : NodeOk preg feas bounded lb ub us d V f o) (hd : Convex d) (hp : 0 ≤ preg.getD 0)
    (hV : V.Vxxᵀ = V.Vxx) (hV0 : ∀ v, 0 ≤ v ⬝ᵥ (V.Vxx *ᵥ v)) : ∀ v, 0 ≤ v ⬝ᵥ (o.V.Vxx *ᵥ v) := by
  intro v
  rw [h.val]
  simp only [computeValue]
  rw [addDiag_quad]
  refine add_nonneg ?_ (mul_nonneg hp (dot_self_nonneg v))
  have e0 : ∀ M : Matrix (Fin n) (Fin n) K, v ⬝ᵥ (((1 / 2 : K) • (M + Mᵀ)) *ᵥ v) = v ⬝ᵥ (M *ᵥ v) := fun M => by
    have : v ⬝ᵥ (Mᵀ *ᵥ v) = v ⬝ᵥ (M *ᵥ v) := by rw [dotProduct_comm, dot_tr]
    rw [smul_mulVec, dotProduct_smul, add_mulVec, dotProduct_add, this, smul_eq_mul]
    ring
  rw [e0, sub_mulVec, dotProduct_sub, ← mulVec_mulVec]
  -- the feedback step
  have e1 : (o.Kfb *ᵥ v) ⬝ᵥ (o.Q.Quu *ᵥ (o.Kfb *ᵥ v)) = v ⬝ᵥ (o.Q.Qxu *ᵥ (o.Kfb *ᵥ v)) := by
    rw [← dot_tr o.Q.Qxu v (o.Kfb *ᵥ v), dotProduct_comm (o.Q.Qxuᵀ *ᵥ v)]
    refine Finset.sum_congr rfl fun i _ => ?_
    rcases h.row i with ⟨-, -, hK⟩ | ⟨-, -, hK, -⟩
    · congr 1
      rw [mulVec_mulVec]
      show ∑ a, (o.Q.Quu * o.Kfb) i a * v a = ∑ a, o.Q.Qxuᵀ i a * v a
      exact Finset.sum_congr rfl fun a _ => by rw [Matrix.mul_apply, hK a, transpose_apply]
    · have : (o.Kfb *ᵥ v) i = 0 := by
        show ∑ a, o.Kfb i a * v a = 0
        exact Finset.sum_eq_zero fun a _ => by rw [hK a, zero_mul]
      rw [this, zero_mul, zero_mul]
  have hq := action_quad (preg := preg) (d := d) hV v (-(o.Kfb *ᵥ v))
  rw [← h.Qxx, ← h.Qxu, ← h.Quu] at hq
  simp only [mulVec_neg, dotProduct_neg, neg_dotProduct, neg_neg] at hq
  rw [e1] at hq
  have h1 := hd.psd v (-(o.Kfb *ᵥ v))
  simp only [mulVec_neg, dotProduct_neg, neg_dotProduct, neg_neg] at h1
  have h2 := hV0 (d.Fx *ᵥ v + -(d.Fu *ᵥ (o.Kfb *ᵥ v)))
  have h3 := mul_nonneg hp (dot_self_nonneg (o.Kfb *ᵥ v))
  linarith

/-- Where the feed-forward term vanishes the projected gradient does, and the value gradient is the action-value one. -/
theorem NodeOk.stationary (h : NodeOk preg true bounded lb ub us d V f o) (hk : o.k = 0) : o.V.Vx = (actionValue preg d V).Qx := by
  have : o.Q.Qu = 0 := by
    funext i
    rcases h.row i with ⟨h1, h2, -⟩ | ⟨-, h1, -⟩
    · rw [h1, h2, hk, mulVec_zero]
    · rw [h1]; rfl
  rw [h.val]
  simp only [computeValue, this, mulVec_zero, sub_zero, if_true, h.Qx]

/-- The full feed-forward step is a KKT point of the node's box QP. -/
theorem NodeOk.kkt (h : NodeOk preg feas true lb ub us d V f o) :
    BoxQp.Kkt (actionValue preg d V).Quu (actionValue preg d V).Qu (lb - us) (ub - us) (-o.k) := by
  have hgr : ∀ i, ∑ j, (actionValue preg d V).Quu i j * (-o.k) j = - (o.Q.Quu *ᵥ o.k) i := by
    intro i
    rw [h.Quu, ← Pi.neg_apply (f := (actionValue preg d V).Quu *ᵥ o.k), ← mulVec_neg]
    rfl
  refine ⟨fun i => ?_, fun i => ?_⟩
  · have := h.inside rfl i
    simp only [Pi.sub_apply, Pi.neg_apply]
    constructor <;> linarith [this.1, this.2]
  · rw [hgr]
    simp only [Pi.sub_apply, Pi.neg_apply]
    rcases h.row i with ⟨-, h2, -⟩ | ⟨-, -, -, ⟨h1, h2⟩ | ⟨h1, h2⟩⟩
    · left; linarith
    · right; left; exact ⟨by linarith, by linarith⟩
    · right; right; exact ⟨by linarith, by linarith⟩

/-! ### The pass -/

/-- What the backward pass of the box solvers leaves. -/
structure BoxPass (P : LqProb K n (fun _ => m)) (lim : CtrlLimits K m) (preg : Option K) (us : Nat → Fin m → K)
    (xs : Nat → Fin n → K) (f : Nat → Fin n → K) (g : Arrays K n (fun _ => m)) : Prop where
  term : g.V P.T = termValue preg true (P.term.q + P.term.Q *ᵥ xs P.T) P.term.Q (f P.T)
  val : ∀ t < P.T, g.V t = (g.out t).V
  node : ∀ t < P.T, NodeOk preg true (lim.has t && decide (0 < m)) (lim.lb t) (lim.ub t) (us t)
    ((P.node t).derivs (xs t) (us t)) (g.V (t + 1)) (f t) (g.out t)

theorem boxPass_of {P : LqProb K n (fun _ => m)} {us : Nat → Fin m → K} {xs : Nat → Fin n → K} {f : Nat → Fin n → K}
    {s g : BoxDir K n m} (hs : Symmetric P) (hf : BoxQp.FacSound fac) (hl : LltSound llt) (hr : p.reg = 0)
    (hg : p.thGrad = 0) (hw : lim.Within P.T us) (h : boxBackward llt fac p lim us preg true P.T
      (fun t => (P.node t).derivs (xs t) (us t)) (P.term.q + P.term.Q *ᵥ xs P.T) P.term.Q f s = some g)
    (hc : g.conv = true) : BoxPass P lim preg us xs f g.arr := by
  obtain ⟨h1, -, -, h4, h3⟩ := boxBackLoop_spec _ _ _ h
  have hT : g.arr.V P.T = termValue preg true (P.term.q + P.term.Q *ᵥ xs P.T) P.term.Q (f P.T) := by
    rw [h1 P.T le_rfl]
    simp only [Function.update_self]
  have hstep : ∀ t < P.T, (g.arr.V (t + 1)).Vxxᵀ = (g.arr.V (t + 1)).Vxx →
      NodeOk preg true (lim.has t && decide (0 < m)) (lim.lb t) (lim.ub t) (us t)
        ((P.node t).derivs (xs t) (us t)) (g.arr.V (t + 1)) (f t) (g.arr.out t) := by
    intro t ht hV
    have h5 := h3 t ht
    by_cases hb : lim.has t = true ∧ 0 < m
    · rw [if_pos ⟨hb.1, rfl, hb.2⟩] at h5
      obtain ⟨k, s1, s2, c, h6, h7⟩ := h5
      have := h7 hc
      subst this
      have e : (lim.has t && decide (0 < m)) = true := by simp [hb.1, hb.2]
      rw [e]
      exact boxNode_ok hf hr hg (fun i => (hw t ht hb.1 i).1.trans (hw t ht hb.1 i).2) (hs.R t) hV h6
    · rw [if_neg (fun h => hb ⟨h.1, h.2.2⟩)] at h5
      have e : (lim.has t && decide (0 < m)) = false := by
        by_contra he
        simp only [Bool.not_eq_false, Bool.and_eq_true, decide_eq_true_eq] at he
        exact hb he
      rw [e]
      exact backNode_ok hl (hs.R t) hV h5
  have hsym : ∀ i, i ≤ P.T → (g.arr.V (P.T - i)).Vxxᵀ = (g.arr.V (P.T - i)).Vxx := by
    intro i
    induction i with
    | zero =>
      intro _
      rw [Nat.sub_zero, hT]
      exact addDiag_symm _ hs.term
    | succ i ih =>
      intro hi
      have e : P.T - i = P.T - (i + 1) + 1 := by omega
      have := ih (by omega)
      rw [e] at this
      rw [h4 _ (by omega)]
      exact (hstep _ (by omega) this).symm
  refine ⟨hT, h4, fun t ht => hstep t ht ?_⟩
  have := hsym (P.T - (t + 1)) (by omega)
  rwa [show P.T - (P.T - (t + 1)) = t + 1 by omega] at this

section
variable {P : LqProb K n (fun _ => m)} {xs : Nat → Fin n → K} {f' : Nat → Fin n → K} {us' : Nat → Fin m → K}
  {g : Arrays K n (fun _ => m)}

theorem ConvexLq.convex (h : ConvexLq P) (t : Nat) (x : Fin n → K) (u : Fin m → K) : Convex ((P.node t).derivs x u) :=
  ⟨h.symm.Q t, h.symm.R t, h.psd t⟩

theorem BoxPass.vxx (hb : BoxPass P lim preg us' xs f' g) (h : ConvexLq P) (hp : 0 ≤ preg.getD 0) (t : Nat) (ht : t ≤ P.T) :
    (g.V t).Vxxᵀ = (g.V t).Vxx ∧ ∀ v, 0 ≤ v ⬝ᵥ ((g.V t).Vxx *ᵥ v) := by
  have : ∀ i, i ≤ P.T → (g.V (P.T - i)).Vxxᵀ = (g.V (P.T - i)).Vxx ∧ ∀ v, 0 ≤ v ⬝ᵥ ((g.V (P.T - i)).Vxx *ᵥ v) := by
    intro i
    induction i with
    | zero =>
      intro _
      rw [Nat.sub_zero, hb.term]
      refine ⟨addDiag_symm _ h.symm.term, fun v => ?_⟩
      simp only [termValue]
      rw [addDiag_quad]
      exact add_nonneg (h.term v) (mul_nonneg hp (dot_self_nonneg v))
    | succ i ih =>
      intro hi
      have e : P.T - i = P.T - (i + 1) + 1 := by omega
      have h1 := ih (by omega)
      rw [e] at h1
      rw [hb.val _ (by omega)]
      exact ⟨(hb.node _ (by omega)).symm, (hb.node _ (by omega)).psd (h.convex _ _ _) hp h1.1 h1.2⟩
  have h1 := this (P.T - t) (by omega)
  rwa [show P.T - (P.T - t) = t by omega] at h1

/-- The adjoint of the candidate: `costate i` is the one of node `T - i`. -/
def costateAux (P : LqProb K n (fun _ => m)) (xs : Nat → Fin n → K) (us : Nat → Fin m → K) : Nat → Fin n → K
  | 0 => P.term.q + P.term.Q *ᵥ xs P.T
  | i + 1 => ((P.node (P.T - (i + 1))).derivs (xs (P.T - (i + 1))) (us (P.T - (i + 1)))).Lx +
      (P.node (P.T - (i + 1))).Aᵀ *ᵥ costateAux P xs us i

/-- The adjoint at node `t`. -/
def costate (P : LqProb K n (fun _ => m)) (xs : Nat → Fin n → K) (us : Nat → Fin m → K) (t : Nat) : Fin n → K :=
  costateAux P xs us (P.T - t)

theorem costate_T : costate P xs us' P.T = P.term.q + P.term.Q *ᵥ xs P.T := by
  unfold costate
  rw [Nat.sub_self]
  rfl

theorem costate_step {t : Nat} (ht : t < P.T) : costate P xs us' t =
    ((P.node t).derivs (xs t) (us' t)).Lx + (P.node t).Aᵀ *ᵥ costate P xs us' (t + 1) := by
  unfold costate
  rw [show P.T - t = P.T - (t + 1) + 1 by omega, costateAux, show P.T - (P.T - (t + 1) + 1) = t by omega]

/-- The derivative of the cost in the control of node `t`. -/
def gradU (P : LqProb K n (fun _ => m)) (xs : Nat → Fin n → K) (us : Nat → Fin m → K) (t : Nat) : Fin m → K :=
  ((P.node t).derivs (xs t) (us t)).Lu + (P.node t).Bᵀ *ᵥ costate P xs us (t + 1)

theorem total_grad (hs : Symmetric P) (es : Nat → Fin m → K) :
    total P (fun t => us' t + es t) = total P us' +
      (∑ t ∈ Finset.range P.T, gradU P (traj P us' 0 P.x0) us' t ⬝ᵥ es t) + total (hom P) es := by
  have h1 : ∀ j, j ≤ P.T → (∑ t ∈ Finset.range j, (((P.node t).derivs (traj P us' 0 P.x0 t) (us' t)).Lx ⬝ᵥ
        traj (hom P) es 0 (hom P).x0 t + ((P.node t).derivs (traj P us' 0 P.x0 t) (us' t)).Lu ⬝ᵥ es t)) +
      costate P (traj P us' 0 P.x0) us' j ⬝ᵥ traj (hom P) es 0 (hom P).x0 j =
      ∑ t ∈ Finset.range j, gradU P (traj P us' 0 P.x0) us' t ⬝ᵥ es t := by
    intro j
    induction j with
    | zero => intro _; simp [traj, hom]
    | succ j ih =>
      intro hj
      rw [Finset.sum_range_succ, Finset.sum_range_succ, ← ih (by omega), costate_step (t := j) (by omega)]
      have e : traj (hom P) es 0 (hom P).x0 (j + 1) =
          (P.node j).A *ᵥ traj (hom P) es 0 (hom P).x0 j + (P.node j).B *ᵥ es j := by
        rw [traj]
        simp only [Lqr.next, hom, add_zero, Nat.zero_add]
      rw [e]
      unfold gradU
      simp only [dotProduct_add, add_dotProduct, dot_tr]
      ring
  have h2 := h1 P.T le_rfl
  rw [costate_T] at h2
  have h3 : ∀ i, traj P (fun t => us' t + es t) 0 P.x0 i = traj P us' 0 P.x0 i + traj (hom P) es 0 (hom P).x0 i := by
    intro i
    have := traj_line (P := P) us' es 1 i
    simpa using this
  rw [← h2, total_eq, total_eq, total_eq]
  unfold costOf
  simp only [h3]
  rw [Lqr.costT_expand _ hs.term, Finset.sum_congr rfl fun t _ => Lqr.cost_expand _ (hs.Q t) (hs.R t) _ _ _ _]
  simp only [Lqr.cost, Lqr.costT, hom, zero_dotProduct, add_zero]
  simp only [Finset.sum_add_distrib]
  ring

/-- First-order optimality within the limits is enough on a convex problem. -/
theorem optimal_of_grad (h : ConvexLq P) (hw : lim.Within P.T us')
    (hg : ∀ vs, lim.Within P.T vs → ∀ t < P.T, 0 ≤ gradU P (traj P us' 0 P.x0) us' t ⬝ᵥ (vs t - us' t)) :
    OptimalWithin P lim us' := by
  refine ⟨hw, fun vs hv => ?_⟩
  have h1 := total_grad (us' := us') h.symm (fun t => vs t - us' t)
  have e : (fun t => us' t + (vs t - us' t)) = vs := by funext t; simp
  rw [e] at h1
  have h2 := total_hom_nonneg h (fun t => vs t - us' t)
  have h3 : 0 ≤ ∑ t ∈ Finset.range P.T, gradU P (traj P us' 0 P.x0) us' t ⬝ᵥ (vs t - us' t) :=
    Finset.sum_nonneg fun t ht => hg vs hv t (Finset.mem_range.mp ht)
  linarith

/-- And necessary. -/
theorem grad_of_optimal (hs : Symmetric P) (ho : OptimalWithin P lim us') (t : Nat) (ht : t < P.T)
    (v : Fin m → K) (hv : lim.has t = true → ∀ i, lim.lb t i ≤ v i ∧ v i ≤ lim.ub t i) :
    0 ≤ gradU P (traj P us' 0 P.x0) us' t ⬝ᵥ (v - us' t) := by
  by_contra hlt
  push Not at hlt
  set D := gradU P (traj P us' 0 P.x0) us' t ⬝ᵥ (v - us' t) with hD
  let es : Nat → Fin m → K := Function.update (fun _ => 0) t (v - us' t)
  set C := total (hom P) es with hC
  -- a small step
  have hline : ∀ a : K, total P (fun j => us' j + a • es j) = total P us' + a * D + a ^ 2 * C := by
    intro a
    rw [total_grad hs, total_hom_smul, ← hC]
    congr 2
    rw [Finset.sum_eq_single t]
    · simp only [es, Function.update_self, dotProduct_smul, smul_eq_mul, hD]
    · intro j _ hj
      simp only [es, Function.update_of_ne hj, smul_zero, dotProduct_zero]
    · intro hn
      exact absurd (Finset.mem_range.mpr ht) hn
  have hin : ∀ a : K, 0 ≤ a → a ≤ 1 → total P us' ≤ total P us' + a * D + a ^ 2 * C := by
    intro a h0 h1
    rw [← hline a]
    refine ho.2 _ fun j hj hh i => ?_
    obtain ⟨hl, hu⟩ := ho.1 j hj hh i
    by_cases hjt : j = t
    · subst hjt
      obtain ⟨hvl, hvu⟩ := hv hh i
      have e : (us' j + a • es j) i = us' j i + a * (v i - us' j i) := by
        simp only [es, Function.update_self, Pi.add_apply, Pi.smul_apply, Pi.sub_apply, smul_eq_mul]
      rw [e]
      constructor
      · nlinarith [mul_nonneg h0 (sub_nonneg.mpr hvl), mul_nonneg (sub_nonneg.mpr h1) (sub_nonneg.mpr hl)]
      · nlinarith [mul_nonneg h0 (sub_nonneg.mpr hvu), mul_nonneg (sub_nonneg.mpr h1) (sub_nonneg.mpr hu)]
    · simp only [es, Function.update_of_ne hjt, smul_zero, add_zero]
      exact ⟨hl, hu⟩
  by_cases hC0 : C ≤ 0
  · have := hin 1 zero_le_one le_rfl
    linarith
  · push Not at hC0
    have hCD : 0 < C - D := by linarith
    have hle : -D / (2 * (C - D)) ≤ 1 := by
      rw [div_le_one (by linarith)]
      linarith
    have h0 : 0 < -D / (2 * (C - D)) := div_pos (by linarith) (by linarith)
    have := hin _ h0.le hle
    have h2 : -D / (2 * (C - D)) * C ≤ -D / 2 := by
      rw [div_mul_eq_mul_div, div_le_div_iff₀ (by linarith) (by norm_num)]
      nlinarith
    nlinarith

/-- While the feed-forward terms of the later nodes vanish, the value gradients are the adjoints. -/
theorem BoxPass.vx (hb : BoxPass P lim preg us' xs f' g) (t : Nat) (ht : t ≤ P.T)
    (hk : ∀ j, t ≤ j → j < P.T → (g.out j).k = 0) : (g.V t).Vx = costate P xs us' t := by
  have : ∀ i, i ≤ P.T → t ≤ P.T - i → (g.V (P.T - i)).Vx = costate P xs us' (P.T - i) := by
    intro i
    induction i with
    | zero =>
      intro _ _
      rw [Nat.sub_zero, hb.term, costate_T]
      simp [termValue]
    | succ i ih =>
      intro hi hti
      have e : P.T - i = P.T - (i + 1) + 1 := by omega
      have h1 := ih (by omega) (by omega)
      rw [e] at h1
      rw [hb.val _ (by omega), (hb.node _ (by omega)).stationary (hk _ hti (by omega)), costate_step (by omega), ← h1]
      rfl
  have h1 := this (P.T - t) (by omega) (by omega)
  rwa [show P.T - (P.T - t) = t by omega] at h1

theorem BoxPass.qu (hb : BoxPass P lim preg us' xs f' g) (t : Nat) (ht : t < P.T)
    (hk : ∀ j, t < j → j < P.T → (g.out j).k = 0) :
    (actionValue preg ((P.node t).derivs (xs t) (us' t)) (g.V (t + 1))).Qu = gradU P xs us' t := by
  simp only [actionValue, gradU, hb.vx (t + 1) (by omega) (fun j hj => hk j (by omega))]
  rfl

end

end Verif.Lq

namespace Verif.Solve
open Verif
variable {K X DX U L D : Type}
variable [Field K] [LinearOrder K] [AddCommGroup DX] [Module K DX] [AddCommGroup U] [Module K U]
variable {P : Prob K X DX U} {c : Cfg K} {O : Oracle K X DX U L D} {kind : Kind}

/-- From a feasible candidate no step with a negative prediction is accepted. -/
theorem lineSearch_blocked {d : K × K} (as : List K) (s : St K X DX U L D) (hf : s.feas = true)
    (hfd : kind.feasibilityDriven = true → ∀ s' : St K X DX U L D, s'.dir = s.dir → s'.feas = true → O.expImp s' = d)
    (hdd : kind.feasibilityDriven = false → s.d0 = d.1 ∧ s.d1 = d.2)
    (hneg : ∀ a ∈ as, a * (d.1 + (1 / 2) * a * d.2) < 0) :
    (lineSearch P c O kind as s).xs = s.xs ∧ (lineSearch P c O kind as s).us = s.us := by
  induction as generalizing s with
  | nil => exact ⟨rfl, rfl⟩
  | cons a as ih =>
    have h := probe_spec (P := P) (O := O) (kind := kind) a s
    have hdir := probe_keeps_dir (P := P) (O := O) (kind := kind) a s
    have hexp : kind.feasibilityDriven = true → ∀ u s', probe P O kind a s = (some u, s') → s'.d0 = d.1 ∧ s'.d1 = d.2 := by
      intro hk u s' hp
      have ht := tryStep_spec (P := P) (O := O) (kind := kind) a { s with steplength := a }
      unfold probe at hp
      simp only at hp
      cases hft : tryStep P O kind a { s with steplength := a } with
      | ub => rw [hft] at hp; simp at hp
      | throw s1 => rw [hft] at hp; simp at hp
      | ok u s1 =>
        rw [hft] at ht hp
        obtain ⟨s2, ht2, rfl⟩ := ht
        have hfr := ht2.frame
        simp only [hk, if_true, Prod.mk.injEq, true_and] at hp
        have e := hfd hk { s2 with dV := s2.cost - s2.costTry } (by simp only; rw [hfr]) (by simp only; rw [hfr]; exact hf)
        rw [← hp]
        simp only
        rw [e]
        exact ⟨rfl, rfl⟩
    simp only [lineSearch]
    rcases hp : probe P O kind a s with ⟨o, s'⟩
    rw [hp] at h hdir
    simp only at hdir
    have hneg' : ∀ b ∈ as, b * (d.1 + (1 / 2) * b * d.2) < 0 := fun b hb => hneg b (List.mem_cons_of_mem _ hb)
    cases o with
    | none =>
      simp only at h ⊢
      have := ih s' (by rw [h.feas, hf]) (fun hk s'' h1 h2 => hfd hk s'' (by rw [h1, hdir]) h2)
        (fun hk => by rw [(h.grad hk).1, (h.grad hk).2]; exact hdd hk) hneg'
      rw [this.1, this.2, h.xs, h.us]
      exact ⟨rfl, rfl⟩
    | some u =>
      simp only at h ⊢
      have hk' := h.keeps
      have hd01 : s'.d0 = d.1 ∧ s'.d1 = d.2 := by
        cases hk : kind.feasibilityDriven
        · rw [(hk'.grad hk).1, (hk'.grad hk).2]; exact hdd hk
        · exact hexp hk u s' hp
      have hve : s'.dVexp < 0 := by
        rw [h.dVexp, hd01.1, hd01.2]
        exact hneg a List.mem_cons_self
      have hacc : accepts c kind s' = false := by
        unfold accepts
        have : ¬ (0 ≤ s'.dVexp) := not_le.mpr hve
        cases hk : kind.feasibilityDriven
        · simp [this]
        · simp [this, hk'.feas, hf]
      rw [hacc]
      simp only [Bool.false_eq_true, if_false]
      have := ih s' (by rw [hk'.feas, hf]) (fun hk s'' h1 h2 => hfd hk s'' (by rw [h1, hdir]) h2)
        (fun _ => hd01) hneg'
      rw [this.1, this.2, hk'.xs, hk'.us]
      exact ⟨rfl, rfl⟩

/-- The same when no trial throws: what the search leaves. -/
theorem lineSearch_blocked_full [IsStrictOrderedRing K] (hb : ∀ v, O.bad v = false) (hbx : ∀ v, O.badX v = false) {d : K × K} (as : List K)
    (s : St K X DX U L D) (hf : s.feas = true)
    (hfd : kind.feasibilityDriven = true → ∀ s' : St K X DX U L D, s'.dir = s.dir → s'.feas = true → O.expImp s' = d)
    (hdd : kind.feasibilityDriven = false → s.d0 = d.1 ∧ s.d1 = d.2)
    (hr : ∀ a ∈ as, 0 ≤ a ∧ a ≤ 1)
    (hneg : ∀ a ∈ as, a * (d.1 + (1 / 2) * a * d.2) < 0) :
    Keeps kind s (lineSearch P c O kind as s) ∧
      ((s.d0 = d.1 ∧ s.d1 = d.2) ∨ as ≠ [] → (lineSearch P c O kind as s).d0 = d.1 ∧ (lineSearch P c O kind as s).d1 = d.2) ∧
      (lineSearch P c O kind as s).steplength = as.getLastD s.steplength := by
  induction as generalizing s with
  | nil => exact ⟨Keeps.refl s, fun h => h.resolve_right (by simp), rfl⟩
  | cons a as ih =>
    obtain ⟨ha0, ha1⟩ := hr a List.mem_cons_self
    obtain ⟨s', hp, h⟩ := probe_some (P := P) (O := O) (kind := kind) hb hbx a ha0 ha1 s
    have hdir := probe_keeps_dir (P := P) (O := O) (kind := kind) a s
    rw [hp] at hdir
    simp only at hdir
    have hk' := h.keeps
    have hd01 : s'.d0 = d.1 ∧ s'.d1 = d.2 := by
      cases hk : kind.feasibilityDriven
      · rw [(hk'.grad hk).1, (hk'.grad hk).2]; exact hdd hk
      · have ht := tryStep_spec (P := P) (O := O) (kind := kind) a { s with steplength := a }
        unfold probe at hp
        simp only at hp
        cases hft : tryStep P O kind a { s with steplength := a } with
        | ub => rw [hft] at hp; simp at hp
        | throw s1 => rw [hft] at hp; simp at hp
        | ok u s1 =>
          rw [hft] at ht hp
          obtain ⟨s2, ht2, rfl⟩ := ht
          have hfr := ht2.frame
          simp only [hk, if_true, Prod.mk.injEq, true_and] at hp
          have e := hfd hk { s2 with dV := s2.cost - s2.costTry } (by simp only; rw [hfr]) (by simp only; rw [hfr]; exact hf)
          rw [← hp]
          simp only
          rw [e]
          exact ⟨rfl, rfl⟩
    have hve : s'.dVexp < 0 := by
      rw [h.dVexp, hd01.1, hd01.2]
      exact hneg a List.mem_cons_self
    have hacc : accepts c kind s' = false := by
      unfold accepts
      have : ¬ (0 ≤ s'.dVexp) := not_le.mpr hve
      cases hk : kind.feasibilityDriven
      · simp [this]
      · simp [this, hk'.feas, hf]
    have e : lineSearch P c O kind (a :: as) s = lineSearch P c O kind as s' := by
      simp [lineSearch, hp, hacc]
    have := ih s' (by rw [hk'.feas, hf]) (fun hk s'' h1 h2 => hfd hk s'' (by rw [h1, hdir]) h2)
      (fun _ => hd01) (fun b hb => hr b (List.mem_cons_of_mem _ hb)) (fun b hb => hneg b (List.mem_cons_of_mem _ hb))
    rw [e]
    refine ⟨hk'.trans this.1, fun _ => this.2.1 (.inl hd01), ?_⟩
    rw [this.2.2, h.steplength, List.getLastD_cons]

end Verif.Solve
