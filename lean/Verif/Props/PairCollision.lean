import Verif.Spec.PairCollision
import Verif.Lemmas.ContactFrame
import Mathlib.Analysis.Calculus.LocalExtr.Basic

/-!
# The pair-collision residual (C112)
-/

namespace Verif.Pc
open Matrix Verif.Con

variable {nv : ℕ}

/-- The columns of the cached Jacobian outside the support are zero. -/
def Clean (supp : Fin nv → Bool) (D : Data nv) : Prop :=
  (∀ j, supp j = false → ∀ i, D.J.lin i j = 0 ∧ D.J.ang i j = 0) ∧ D.right = 0

theorem clean_run (supp : Fin nv → Bool) (ops : List (Op nv)) (D : Data nv) (h : Clean supp D) :
    Clean supp (D.run supp ops) := by
  induction ops generalizing D with
  | nil => exact h
  | cons o ops ih =>
    refine ih _ ?_
    rcases o with near | k
    · exact h
    · refine ⟨fun j hj i => ⟨?_, ?_⟩, h.2⟩
      · have hl : (jointJacobian supp k D.J).lin i j = 0 := by simp [jointJacobian, hj, (h.1 j hj _).1]
        have ha : ∀ i, (jointJacobian supp k D.J).ang i j = 0 := fun i => by
          simp [jointJacobian, hj, (h.1 j hj _).2]
        show (jointJacobian supp k D.J).lin i j
          + ((skew (D.near.1 - k.oMi.trans))ᵀ * (jointJacobian supp k D.J).ang) i j = 0
        rw [hl, Matrix.mul_apply, zero_add]
        exact Finset.sum_eq_zero fun l _ => by rw [ha l, mul_zero]
      · simp [Data.step, Data.calcDiff, jointJacobian, hj, (h.1 j hj _).2]

theorem jacobian_eq {supp : Fin nv → Bool} {k : Kin nv} {D : Data nv} (hs : Supported supp k) (h : Clean supp D) :
    jointJacobian supp k D.J = ⟨k.oMi.rot * k.J.lin, k.oMi.rot * k.J.ang⟩ := by
  unfold jointJacobian
  congr 1 <;> (ext i j; cases hj : supp j)
  · simp [(h.1 j hj i).1, Matrix.mul_apply, (hs j hj _).1]
  · simp
  · simp [(h.1 j hj i).2, Matrix.mul_apply, (hs j hj _).2]
  · simp

/-- Value of `Rx δ`. -/
theorem rx_eq {supp : Fin nv → Bool} {k : Kin nv} {D : Data nv} (hs : Supported supp k) (h : Clean supp D)
    (δ : Tan nv → ℝ) : (D.calcDiff supp k).Rx *ᵥ δ = k.oMi.rot *ᵥ (k.J.lin *ᵥ (δ ∘ Sum.inl))
      + (k.oMi.rot *ᵥ (k.J.ang *ᵥ (δ ∘ Sum.inl))) ⨯₃ (D.near.1 - k.oMi.trans) := by
  have e : (D.calcDiff supp k).Rx = fromCols (k.oMi.rot * k.J.lin
      + (skew (D.near.1 - k.oMi.trans))ᵀ * (k.oMi.rot * k.J.ang)) 0 := by
    unfold Data.Rx Data.calcDiff
    simp only [jacobian_eq hs h]
    rw [h.2]
  rw [e, fromCols_mulVec, zero_mulVec, add_zero, add_mulVec, ← mulVec_mulVec, ← mulVec_mulVec, ← mulVec_mulVec,
    skew_transpose, neg_mulVec, skew_mulVec, cross_anticomm]

theorem hasDerivAt_at {M : ℝ → Pose} {m : Six} (h : Moves M m 0) (a : V3) :
    HasDerivAt (fun s => at_ (M s) a) ((M 0).rot *ᵥ m.lin + ((M 0).rot *ᵥ m.ang) ⨯₃ ((M 0).rot *ᵥ a)) 0 := by
  unfold at_
  have h1 : HasDerivAt (fun s => (M s).rot *ᵥ a) (((M 0).rot * skew m.ang) *ᵥ a) 0 := by
    rw [hasDerivAt_pi]
    intro i
    simp only [mulVec, dotProduct]
    exact HasDerivAt.fun_sum fun j _ => (h.drot i j).mul_const (a j)
  have e : ((M 0).rot * skew m.ang) *ᵥ a = ((M 0).rot *ᵥ m.ang) ⨯₃ ((M 0).rot *ᵥ a) := by
    rw [← mulVec_mulVec, skew_mulVec, (h.rot 0).cross]
  rw [← e]
  exact h.dtrans.add h1

/-- C112. After any history of calls on a data, `calc` and `calcDiff` at a state give as `Rx` the velocity of the point
of the robot's body that is nearest: along every curve of states, the derivative of the position of that
material point. -/
theorem C112_material (supp : Fin nv → Bool) (near0 : V3 × V3) (ops : List (Op nv)) (k : ℝ → Kin nv)
    (δ : Tan nv → ℝ) (hk : Along k δ) (hs : Supported supp (k 0)) (near : V3 × V3) (a : V3)
    (ha : near.1 = at_ (k 0).oMi a) :
    let D := (((Data.new near0).run supp ops).calc near).calcDiff supp (k 0)
    D.r = near.1 - near.2 ∧ HasDerivAt (fun s => at_ (k s).oMi a) (D.Rx *ᵥ δ) 0 := by
  intro D
  have hc : Clean supp (((Data.new near0).run supp ops).calc near) := by
    have := clean_run supp ops (Data.new near0) ⟨fun _ _ _ => ⟨rfl, rfl⟩, rfl⟩
    exact this
  refine ⟨rfl, ?_⟩
  have h := hasDerivAt_at hk.pose a
  rw [show D.Rx *ᵥ δ = _ from rx_eq hs hc δ]
  have e : near.1 - (k 0).oMi.trans = (k 0).oMi.rot *ᵥ a := by rw [ha, at_]; abel
  show HasDerivAt _ ((k 0).oMi.rot *ᵥ _ + _ ⨯₃ (near.1 - (k 0).oMi.trans)) 0
  rw [e]
  exact h

/-- C112. If the same material points stay nearest and the second object does not move, `Rx` is the derivative of the
residual. Missing: nearest points that slide along the surfaces, and a second object that moves. -/
theorem C112_jacobian_partial (supp : Fin nv → Bool) (near0 : V3 × V3) (ops : List (Op nv)) (k : ℝ → Kin nv)
    (δ : Tan nv → ℝ) (hk : Along k δ) (hs : Supported supp (k 0)) (near : ℝ → V3 × V3) (a b : V3)
    (hn : ∀ s, near s = (at_ (k s).oMi a, b)) :
    let D := (((Data.new near0).run supp ops).calc (near 0)).calcDiff supp (k 0)
    HasDerivAt (fun s => (near s).1 - (near s).2) (D.Rx *ᵥ δ) 0 := by
  intro D
  have h := (C112_material supp near0 ops k δ hk hs (near 0) a (by rw [hn])).2
  simp only [hn]
  exact h.sub_const b

/-- C112. Gradient of the cost with the quadratic activation: for every pair of objects, the first carried by the
joint and the second fixed in the world, and whatever the nearest points do, the slope of half the squared distance
along every curve of states is `(Rxᵀ r)·δ` (where it has a slope). -/
theorem C112_gradient (supp : Fin nv → Bool) (near0 : V3 × V3) (ops : List (Op nv)) (k : ℝ → Kin nv)
    (δ : Tan nv → ℝ) (hk : Along k δ) (hs : Supported supp (k 0)) (A B : Set V3) (near : ℝ → V3 × V3)
    (hn : ∀ s, Nearest (k s).oMi A B (near s)) (c : ℝ) (hc : HasDerivAt (fun s => half (near s)) c 0) :
    let D := (((Data.new near0).run supp ops).calc (near 0)).calcDiff supp (k 0)
    c = (D.Rxᵀ *ᵥ D.r) ⬝ᵥ δ := by
  intro D
  obtain ⟨a, haA, ha⟩ := (hn 0).fst
  have hm := (C112_material supp near0 ops k δ hk hs (near 0) a ha).2
  let w : ℝ → V3 := fun s => at_ (k s).oMi a - (near 0).2
  have hw : HasDerivAt w (D.Rx *ᵥ δ) 0 := hm.sub_const _
  have hg : HasDerivAt (fun s => (1 / 2 : ℝ) * (w s ⬝ᵥ w s)) (w 0 ⬝ᵥ (D.Rx *ᵥ δ)) 0 := by
    have hd : HasDerivAt (fun s => w s ⬝ᵥ w s) ((D.Rx *ᵥ δ) ⬝ᵥ w 0 + w 0 ⬝ᵥ (D.Rx *ᵥ δ)) 0 := by
      simp only [dotProduct, ← Finset.sum_add_distrib]
      exact HasDerivAt.fun_sum fun i _ => (hasDerivAt_pi.1 hw i).mul (hasDerivAt_pi.1 hw i)
    refine (hd.const_mul (1 / 2)).congr_deriv ?_
    rw [dotProduct_comm]; ring
  have hmax : IsLocalMax (fun s => half (near s) - (1 / 2) * (w s ⬝ᵥ w s)) 0 := by
    refine Filter.Eventually.of_forall fun s => ?_
    have h0 : half (near 0) = (1 / 2) * (w 0 ⬝ᵥ w 0) := by
      unfold half; simp only [w, ← ha]
    have h1 := (hn s).le a haA (near 0).2 (hn 0).snd
    show half (near s) - _ ≤ half (near 0) - _
    rw [h0]
    unfold half
    have : w s ⬝ᵥ w s = (at_ (k s).oMi a - (near 0).2) ⬝ᵥ (at_ (k s).oMi a - (near 0).2) := rfl
    rw [this]
    linarith
  have h0 := hmax.hasDerivAt_eq_zero (hc.sub hg)
  have hr : w 0 = D.r := by
    show at_ (k 0).oMi a - (near 0).2 = (near 0).1 - (near 0).2
    rw [ha]
  rw [hr] at h0
  rw [mulVec_transpose, ← dotProduct_mulVec]
  linarith

/-! ### Counterexamples: a body that only translates -/

namespace Demo

/-- The position of the body along a straight motion. -/
def pos (p e : V3) (s : ℝ) : Kin 1 where
  oMi := ⟨1, p + s • e⟩
  v := ⟨0, 0⟩
  a := ⟨0, 0⟩
  vq := ⟨0, 0⟩
  aq := ⟨0, 0⟩
  av := ⟨0, 0⟩
  J := ⟨fun i _ => e i, 0⟩

/-- The tangent vector that moves the only joint. -/
def dir : Tan 1 → ℝ := Sum.elim (fun _ => 1) fun _ => 0

theorem along (p e : V3) : Along (pos p e) dir := by
  refine ⟨⟨fun _ => Rot.one, fun i j => ?_, ?_⟩, ?_, ?_⟩
  · have : skew ((pos p e 0).J.mulVec (dir ∘ Sum.inl)).ang = 0 := by
      ext i j; fin_cases i <;> fin_cases j <;> simp [skew, Jac.mulVec, pos]
    rw [this]
    simpa [pos] using hasDerivAt_const (0 : ℝ) ((1 : M3) i j)
  · have e1 : (pos p e 0).oMi.rot *ᵥ ((pos p e 0).J.mulVec (dir ∘ Sum.inl)).lin = e := by
      have : (pos p e 0).oMi.rot = 1 := rfl
      rw [this, one_mulVec]
      ext i; simp [pos, Jac.mulVec, mulVec, dotProduct, dir]
    rw [e1]
    have := ((hasDerivAt_id (0 : ℝ)).smul_const e).const_add p
    simpa [pos] using this
  · have e0 : (dir ∘ Sum.inr : Fin 1 → ℝ) = 0 := rfl
    have e1 : (fun (i : Fin 3) (_ : Fin 1) => e i : Mat 3 1) *ᵥ (0 : Fin 1 → ℝ) = 0 := mulVec_zero _
    constructor
    · refine (hasDerivAt_const (0 : ℝ) (0 : V3)).congr_deriv ?_
      simp only [pos, Jac.mulVec, Six.add, e0, e1, zero_mulVec, add_zero]
    · refine (hasDerivAt_const (0 : ℝ) (0 : V3)).congr_deriv ?_
      simp only [pos, Jac.mulVec, Six.add, zero_mulVec, add_zero]
  · have e0 : (dir ∘ Sum.inr : Fin 1 → ℝ) = 0 := rfl
    constructor <;> simpa [pos, Jac.mulVec, Six.add, e0, mulVec_zero] using hasDerivAt_const (0 : ℝ) (0 : V3)

theorem supported (p e : V3) (s : ℝ) : Supported (fun _ => true) (pos p e s) := by
  intro j hj; simp at hj

theorem rx (near : V3 × V3) (p e : V3) :
    (((Data.new near).calc near).calcDiff (fun _ => true) (pos p e 0)).Rx *ᵥ dir = e := by
  rw [rx_eq (supported p e 0) ⟨fun _ h => by simp at h, rfl⟩]
  ext i
  fin_cases i <;> simp [pos, mulVec, dotProduct, dir, Data.calc]

end Demo
open Demo

/-- C112. `Rx` is not the derivative of the residual: a point that moves along the plane `z = 0` at height one. The
nearest point of the plane follows it, so the residual does not change, but `Rx δ` is its velocity. -/
theorem C112_jacobian_counterexample :
    ∃ (k : ℝ → Kin 1) (near : ℝ → V3 × V3), Along k dir ∧ (∀ s, Supported (fun _ => true) (k s)) ∧
      (∀ s, Nearest (k s).oMi {0} {z | z 2 = 0} (near s)) ∧
      (∀ s, (near s).1 - (near s).2 = ![0, 0, 1]) ∧
      (((Data.new (near 0)).calc (near 0)).calcDiff (fun _ => true) (k 0)).Rx *ᵥ dir = ![1, 0, 0] := by
  refine ⟨pos ![0, 0, 1] ![1, 0, 0], fun s => (![s, 0, 1], ![s, 0, 0]), along _ _, supported _ _, fun s => ?_,
    fun s => ?_, rx _ _ _⟩
  · refine ⟨⟨0, rfl, ?_⟩, rfl, ?_⟩
    · ext i; fin_cases i <;> simp [at_, pos]
    · rintro a rfl b hb
      have hb : b 2 = 0 := hb
      simp [at_, pos, dotProduct, Fin.sum_univ_three, hb]
      nlinarith [mul_self_nonneg (s - b 0), mul_self_nonneg (b 1)]
  · ext i; fin_cases i <;> simp

/-- C112. If the second object moves with the robot, the gradient is wrong too: two points carried by the same joint
keep their distance, but the gradient says it changes. -/
theorem C112_moving_counterexample :
    ∃ (k : ℝ → Kin 1) (B : ℝ → Set V3) (near : ℝ → V3 × V3), Along k dir ∧
      (∀ s, Supported (fun _ => true) (k s)) ∧ (∀ s, Nearest (k s).oMi {0} (B s) (near s)) ∧
      (∀ s, half (near s) = 1 / 2) ∧
      let D := ((Data.new (near 0)).calc (near 0)).calcDiff (fun _ => true) (k 0)
      (D.Rxᵀ *ᵥ D.r) ⬝ᵥ dir = 1 := by
  refine ⟨pos ![0, 0, 1] ![0, 0, 1], fun s => {![0, 0, s]}, fun s => (![0, 0, 1 + s], ![0, 0, s]), along _ _,
    supported _ _, fun s => ?_, fun s => ?_, ?_⟩
  · refine ⟨⟨0, rfl, ?_⟩, rfl, ?_⟩
    · ext i; fin_cases i <;> simp [at_, pos]
    · rintro a rfl b rfl
      simp [at_, pos, dotProduct, Fin.sum_univ_three]
  · simp [half, dotProduct, Fin.sum_univ_three]
  · intro D
    rw [mulVec_transpose, ← dotProduct_mulVec, rx]
    simp [D, Data.calc, Data.calcDiff, dotProduct, Fin.sum_univ_three]

/-- Non-vacuity of C112: a point that approaches the plane, where the distance has a slope. -/
example : ∃ (k : ℝ → Kin 1) (near : ℝ → V3 × V3) (c : ℝ), Along k dir ∧ Supported (fun _ => true) (k 0) ∧
    (∀ s, Nearest (k s).oMi {0} {z | z 2 = 0} (near s)) ∧ HasDerivAt (fun s => half (near s)) c 0 ∧ c = 1 := by
  let near : ℝ → V3 × V3 := fun s => (![s, 0, 1 + s], ![s, 0, 0])
  have hn : ∀ s, Nearest (pos ![0, 0, 1] ![1, 0, 1] s).oMi {0} {z | z 2 = 0} (near s) := by
    intro s
    refine ⟨⟨0, rfl, ?_⟩, rfl, ?_⟩
    · ext i; fin_cases i <;> simp [at_, pos, near]
    · rintro a rfl b hb
      have hb : b 2 = 0 := hb
      simp [at_, pos, dotProduct, Fin.sum_univ_three, hb, near]
      nlinarith [mul_self_nonneg (s - b 0), mul_self_nonneg (b 1)]
  have hd : HasDerivAt (fun s => half (near s)) 1 0 := by
    have e : (fun s => half (near s)) = fun s : ℝ => (1 / 2) * ((1 + s) * (1 + s)) := by
      funext s; simp [half, near, dotProduct, Fin.sum_univ_three]
    rw [e]
    have h1 : HasDerivAt (fun s : ℝ => 1 + s) 1 0 := (hasDerivAt_id 0).const_add 1
    refine ((h1.mul h1).const_mul (1 / 2)).congr_deriv ?_
    norm_num
  exact ⟨_, near, 1, along _ _, supported _ _ _, hn, hd,
    (C112_gradient (fun _ => true) (near 0) [] _ dir (along _ _) (supported _ _ _) {0} {z | z 2 = 0} near hn 1 hd).trans
      (by
        rw [mulVec_transpose, ← dotProduct_mulVec]
        show _ ⬝ᵥ ((((Data.new (near 0)).calc (near 0)).calcDiff (fun _ => true) (pos _ _ 0)).Rx *ᵥ dir) = _
        rw [rx]
        simp [Data.run, Data.calc, Data.calcDiff, dotProduct, Fin.sum_univ_three, near])⟩

end Verif.Pc
