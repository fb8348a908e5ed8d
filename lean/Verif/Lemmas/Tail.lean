import Verif.Spec.Tail
import Verif.Lemmas.Policy
import Verif.Props.LqFddp

set_option linter.unusedSectionVars false

/-! # Solving again the rest of a problem: lemmas -/

namespace Verif.Lq
open Verif Verif.Solve Matrix

section
variable {K : Type} [Field K] [LinearOrder K] [IsStrictOrderedRing K] {n : Nat} {nu : Nat → Nat}

/-- The gains of a node do not depend on its gap. -/
theorem backNode_gap {m : Nat} {llt : ∀ m, Matrix (Fin m) (Fin m) K → Bool} {preg : Option K} {feas : Bool}
    {d : Derivs K n m} {V : Value K n} {f : Fin n → K} {o : NodeOut K n m}
    (h : backNode llt preg feas d V f = some o) (f' : Fin n → K) :
    ∃ o', backNode llt preg feas d V f' = some o' ∧ o'.Q = o.Q ∧ o'.k = o.k ∧ o'.Kfb = o.Kfb := by
  unfold backNode computeGains at h ⊢
  simp only at h ⊢
  by_cases hc : m = 0 ∨ llt m (actionValue preg d V).Quu = true
  · simp only [if_pos hc, Option.some.injEq] at h ⊢
    subst h
    exact ⟨_, rfl, rfl, rfl, rfl⟩
  · simp only [if_neg hc] at h
    cases h

/-- A loop over nodes whose results are known succeeds with those results. -/
theorem backLoop_of_rel {llt : ∀ m, Matrix (Fin m) (Fin m) K → Bool} {preg : Option K} {feas : Bool}
    {d : ∀ t, Derivs K n (nu t)} {f : Nat → Fin n → K} {W : Nat → Value K n} {O : ∀ t, NodeOut K n (nu t)}
    (j : Nat) (s : Arrays K n nu) (hs : s.V j = W j)
    (h : ∀ t < j, backNode llt preg feas (d t) (W (t + 1)) (f t) = some (O t))
    (hW : ∀ t < j, W t = (O t).V) :
    ∃ g, backLoop llt preg feas d f j s = some g ∧ (∀ t ≤ j, g.V t = W t) ∧ ∀ t < j, g.out t = O t := by
  induction j generalizing s with
  | zero => exact ⟨s, rfl, fun t ht => by rw [Nat.le_zero.mp ht, hs], fun t ht => absurd ht (Nat.not_lt_zero _)⟩
  | succ j ih =>
    rw [backLoop, hs, h j (Nat.lt_succ_self j)]
    simp only
    obtain ⟨g, hg, h1, h2⟩ := ih ⟨Function.update s.V j (O j).V, Function.update s.out j (O j)⟩
      (by simp only [Function.update_self]; rw [hW j (Nat.lt_succ_self j)])
      (fun t ht => h t (by omega)) (fun t ht => hW t (by omega))
    obtain ⟨k1, k2, -, -⟩ := backLoop_spec _ _ _ hg
    refine ⟨g, hg, fun t ht => ?_, fun t ht => ?_⟩
    · rcases Nat.lt_or_eq_of_le ht with ht | rfl
      · exact h1 t (by omega)
      · rw [k1 _ (Nat.le_succ _)]; simp only; rw [Function.update_of_ne (by omega), hs]
    · rcases Nat.lt_succ_iff_lt_or_eq.mp ht with ht | rfl
      · exact h2 t ht
      · rw [k2 _ le_rfl]; simp only [Function.update_self]

/-- A backward pass over the last nodes only. -/
theorem backwardPass_tail {llt : ∀ m, Matrix (Fin m) (Fin m) K → Bool} {preg : Option K} {feas : Bool}
    {T : Nat} {d : ∀ t, Derivs K n (nu t)} {LxT : Fin n → K} {LxxT : Matrix (Fin n) (Fin n) K}
    {f : Nat → Fin n → K} {g : Arrays K n nu} (hb : Back llt preg feas T d LxT LxxT f g)
    {k : Nat} (hk : k ≤ T) {f' : Nat → Fin n → K} (hf : ∀ t, 0 < t → t ≤ T - k → f' t = f (k + t))
    (s' : Arrays K n (fun t => nu (k + t))) :
    ∃ g', backwardPass llt preg feas (T - k) (fun t => d (k + t)) LxT LxxT f' s' = some g' ∧
      (∀ t < T - k, (g'.out t).Q = (g.out (k + t)).Q ∧ (g'.out t).k = (g.out (k + t)).k ∧
        (g'.out t).Kfb = (g.out (k + t)).Kfb) ∧
      ∀ t, 0 < t → t ≤ T - k → g'.V t = g.V (k + t) := by
  have hT : k + (T - k) = T := by omega
  by_cases hN : T - k = 0
  · exact ⟨_, by unfold backwardPass; rw [hN]; rfl, fun t ht => by omega, fun t h0 ht => by omega⟩
  have h0 := hb.node k (by omega)
  obtain ⟨o0, ho0, q1, q2, q3⟩ := backNode_gap h0 (f' 0)
  let W : Nat → Value K n := fun t => if t = 0 then o0.V else g.V (k + t)
  let O : ∀ t, NodeOut K n (nu (k + t)) := fun t => match t with
    | 0 => o0
    | t + 1 => g.out (k + (t + 1))
  obtain ⟨g', hg, h1, h2⟩ := backLoop_of_rel (llt := llt) (preg := preg) (feas := feas)
    (d := fun t => d (k + t)) (f := f') (W := W) (O := O) (T - k)
    { s' with V := Function.update s'.V (T - k) (termValue preg feas LxT LxxT (f' (T - k))) }
    (by
      simp only [Function.update_self]
      show _ = if T - k = 0 then _ else _
      rw [if_neg hN, hT, hb.term, hf _ (by omega) le_rfl, hT])
    (fun t ht => by
      have hW : W (t + 1) = g.V (k + t + 1) := by
        show (if t + 1 = 0 then _ else _) = _
        rw [if_neg (Nat.succ_ne_zero t)]; rfl
      rw [hW]
      cases t with
      | zero => exact ho0
      | succ t =>
        rw [hf (t + 1) (Nat.succ_pos t) ht.le]
        exact hb.node (k + (t + 1)) (by omega))
    (fun t ht => by
      cases t with
      | zero => rfl
      | succ t => exact hb.val (k + (t + 1)) (by omega))
  refine ⟨g', hg, fun t ht => ?_, fun t h0 ht => ?_⟩
  · rw [h2 t ht]
    cases t with
    | zero => exact ⟨q1, q2, q3⟩
    | succ t => exact ⟨rfl, rfl, rfl⟩
  · rw [h1 t ht]
    show (if t = 0 then _ else _) = _
    rw [if_neg h0.ne']

/-! ### Optimal plans -/

theorem traj_tail (P : LqProb K n nu) (vs : ∀ t, Fin (nu t) → K) (k : Nat) (x : Fin n → K) (i : Nat) :
    traj (tail P k x) (fun t => vs (k + t)) 0 x i = traj P vs k x i := by
  induction i with
  | zero => rfl
  | succ i ih =>
    rw [traj, traj, ih]
    have e : ∀ j, j = i → ∀ y, (P.node (k + j)).next y (vs (k + j)) = (P.node (k + i)).next y (vs (k + i)) := by
      rintro _ rfl y; rfl
    exact e (0 + i) (Nat.zero_add i) _

/-- The total cost of the rest is the cost-to-go. -/
theorem total_tail (P : LqProb K n nu) (vs : ∀ t, Fin (nu t) → K) (k : Nat) (x : Fin n → K) :
    total (tail P k x) (fun t => vs (k + t)) = costToGo P vs k x := by
  unfold total costToGo
  show _ + P.term.costT (traj (tail P k x) _ 0 x (P.T - k - 0)) = _
  rw [Nat.sub_zero, traj_tail]
  congr 1
  refine Finset.sum_congr rfl fun i _ => ?_
  have e : ∀ j, j = i → ∀ y, (P.node (k + j)).cost y (vs (k + j)) = (P.node (k + i)).cost y (vs (k + i)) := by
    rintro _ rfl y; rfl
  exact (congrArg (fun y => (P.node (k + (0 + i))).cost y (vs (k + (0 + i)))) (traj_tail P vs k x i)).trans
    (e (0 + i) (Nat.zero_add i) _)

theorem costToGo_congr (P : LqProb K n nu) {us vs : ∀ t, Fin (nu t) → K} {k : Nat}
    (h : ∀ t, k ≤ t → us t = vs t) (x : Fin n → K) : costToGo P us k x = costToGo P vs k x := by
  have ht : ∀ i, traj P us k x i = traj P vs k x i := fun i => by
    induction i with
    | zero => rfl
    | succ i ih => rw [traj, traj, ih, h _ (Nat.le_add_right _ _)]
  unfold costToGo
  rw [ht]
  congr 1
  exact Finset.sum_congr rfl fun i _ => by rw [ht, h _ (Nat.le_add_right _ _)]

/-- Two control sequences with the same first `k` controls differ in cost by their costs-to-go from there. -/
theorem total_split (P : LqProb K n nu) {us vs : ∀ t, Fin (nu t) → K} {k : Nat} (hk : k ≤ P.T)
    (h : ∀ t < k, us t = vs t) (x : Fin n → K) :
    traj P us 0 x k = traj P vs 0 x k ∧
    costToGo P us 0 x - costToGo P us k (traj P us 0 x k)
      = costToGo P vs 0 x - costToGo P vs k (traj P vs 0 x k) := by
  induction k with
  | zero => exact ⟨rfl, by simp [traj]⟩
  | succ k ih =>
    obtain ⟨h1, h2⟩ := ih (by omega) (fun t ht => h t (by omega))
    have hu := h k (Nat.lt_succ_self k)
    have hx : traj P us 0 x (k + 1) = traj P vs 0 x (k + 1) := by
      rw [traj, traj, h1, h (0 + k) (by omega)]
    refine ⟨hx, ?_⟩
    have hs : ∀ ws : ∀ t, Fin (nu t) → K, costToGo P ws k (traj P ws 0 x k)
        = (P.node k).cost (traj P ws 0 x k) (ws k) + costToGo P ws (k + 1) (traj P ws 0 x (k + 1)) := fun ws => by
      rw [costToGo_step P ws k (by omega), traj]
      have e : ∀ j, j = k → ∀ y, (P.node j).next y (ws j) = (P.node k).next y (ws k) := by rintro _ rfl y; rfl
      rw [e (0 + k) (Nat.zero_add k)]
    have a := hs us
    have b := hs vs
    rw [h1, hu] at a
    rw [h1] at h2
    rw [a, b] at h2
    linear_combination h2
end

variable {K : Type} [Field K] [LinearOrder K] [IsStrictOrderedRing K] {n m : Nat}
variable {P : LqProb K n (fun _ => m)} {llt : ∀ m, Matrix (Fin m) (Fin m) K → Bool} {kind : Kind}

theorem ConvexLq.tail (h : ConvexLq P) (k : Nat) (x : Fin n → K) :
    ConvexLq (m := m) (Verif.Lq.tail P k x) where
  symm := ⟨fun t => h.symm.Q _, fun t => h.symm.R _, h.symm.term⟩
  psd := fun t => h.psd _
  pd := fun t => h.pd _
  term := h.term

/-- A convex linear-quadratic problem has one optimal control sequence. -/
theorem optimal_unique (h : ConvexLq P) (hl : LltComplete llt) (hls : LltSound llt)
    {us vs : Nat → Fin m → K} (hu : ∀ ws, total P us ≤ total P ws) (hv : ∀ ws, total P vs ≤ total P ws) :
    ∀ t < P.T, us t = vs t := by
  obtain ⟨g, hb⟩ := ConvexLq.back (P := P) h hl le_rfl false (fun _ => 0) (fun _ => 0)
    ⟨fun _ => ⟨0, 0⟩, fun _ => ⟨⟨0, 0, 0, 0, 0⟩, 0, 0, ⟨0, 0⟩⟩⟩
  have hcl := closedLoop_exists (P := P) (xs := fun _ => 0) (us := fun _ => 0) (g := g) 1
  intro t ht
  rw [C29_unique hb h.symm hls (.inr rfl) (fun e => by cases e) _ _ hcl us (hu _) t ht,
    C29_unique hb h.symm hls (.inr rfl) (fun e => by cases e) _ _ hcl vs (hv _) t ht]

/-- The rest of an optimal plan is optimal for the rest of the problem. -/
theorem optimal_rest {us : Nat → Fin m → K} (hu : ∀ ws, total P us ≤ total P ws) {k : Nat} (hk : k ≤ P.T)
    (ws : Nat → Fin m → K) :
    costToGo P us k (traj P us 0 P.x0 k) ≤ costToGo P ws k (traj P us 0 P.x0 k) := by
  let zs : Nat → Fin m → K := fun t => if t < k then us t else ws t
  obtain ⟨h1, h2⟩ := total_split P (us := us) (vs := zs) hk (fun t ht => by
    show us t = if t < k then us t else ws t
    rw [if_pos ht]) P.x0
  have h3 := hu zs
  unfold total at h3
  have h4 : costToGo P zs k (traj P zs 0 P.x0 k) = costToGo P ws k (traj P zs 0 P.x0 k) :=
    costToGo_congr P (fun t ht => by
      show (if t < k then us t else ws t) = _
      rw [if_neg (by omega)]) _
  rw [← h1] at h2 h4
  linarith

/-- Two rollouts from the same state with the same controls. -/
theorem rest_of_controls {k : Nat} {x : Fin n → K} {xs ys : Nat → Fin n → K} {us vs : Nat → Fin m → K}
    (hro : Rollout (Verif.Lq.tail P k x).toProb xs us) (h0 : ys k = x)
    (hs : ∀ j, k ≤ j → j < P.T → ys (j + 1) = (P.node j).next (ys j) (vs j))
    (hu : ∀ t < P.T - k, us t = vs (k + t)) : IsRest (P.T - k) k xs ys us vs := by
  refine ⟨fun t => ?_, hu⟩
  induction t with
  | zero => exact fun _ => hro.1.trans h0.symm
  | succ t ih =>
    intro ht
    have h1 : xs (t + 1) = (P.node (k + t)).next (xs t) (us t) := hro.2 t ht
    rw [h1, ih (by omega), hu t (by omega)]
    exact (hs (k + t) (by omega) (by omega)).symm

end Verif.Lq
