import Verif.Spec.NumDiffDiff
import Verif.Lemmas.NumDiffDiff
import Verif.Props.NumDiff

/-!
# C105: the finite-difference differential action model

`calcXU m d x u` then `diffXU m _ x u` is `calc(data, x, u)` followed by `calcDiff(data, x, u)` on any data `d`.
-/

set_option linter.unusedSectionVars false
set_option linter.unusedSimpArgs false
set_option linter.unusedVariables false

namespace Verif.NumDiffD

open Matrix
open Verif.NumDiff (StateOps setCol setAt hessRow foldl_frame foldl_touch update_zero hessRow_fold hessEntry
  hessEntry_symm mixed second euclid cost_add quad_single affine_add sum_single_mul tendsto_quot hasDerivAt_line_x
  hasDerivAt_line_u)

variable {X : Type} {nv n nu nr ng nh : ℕ}

theorem stepX_pos (m : Model X nv n nu nr ng nh) (e : ℝ) (he : 0 < e) (x : X) : 0 < stepX m e x :=
  mul_pos he (lt_of_lt_of_le one_pos (le_max_left _ _))

theorem stepU_pos (e : ℝ) (he : 0 < e) (u : Fin nu → ℝ) : 0 < stepU e u :=
  mul_pos he (lt_of_lt_of_le one_pos (le_max_left _ _))

/-- What the Hessian loops leave alone. -/
def frameH (d : Data nv n nu nr ng nh) :=
  (d.d0, d.xout, d.cost, d.g, d.h, d.Fx, d.Fu, d.Lx, d.Lu, d.Rx, d.Ru, d.Gx, d.Gu, d.Hx, d.Hu)

theorem hessians_eq (m : Model X nv n nu nr ng nh) (d : Data nv n nu nr ng nh) (x : X) (u : Fin nu → ℝ)
    (h1 : d.dx = 0) (h2 : d.du = 0) :
    frameH (hessians m d x u) = frameH d ∧
    (∀ i j, (hessians m d x u).Lxx i j =
      hessEntry (fun dx => (m.ev (m.st.integrate x dx) u).cost)
        (fun dx => (m.ev (m.st.integrate x (-dx)) u).cost) d.d0.cost (stepX m m.ehess x) (i, j)) ∧
    (∀ i j, (hessians m d x u).Luu i j =
      hessEntry (fun du => (m.ev x (u + du)).cost) (fun du => (m.ev x (u - du)).cost) d.d0.cost
        (stepU m.ehess u) (i, j)) ∧
    (∀ i j, (hessians m d x u).Lxu i j =
      ((m.ev (m.st.integrate x (Pi.single i (stepX m m.ehess x))) (u + Pi.single j (stepU m.ehess u))).cost
        - (m.ev (m.st.integrate x (Pi.single i (stepX m m.ehess x))) (u - Pi.single j (stepU m.ehess u))).cost
        - (m.ev (m.st.integrate x (-Pi.single i (stepX m m.ehess x))) (u + Pi.single j (stepU m.ehess u))).cost
        + (m.ev (m.st.integrate x (-Pi.single i (stepX m m.ehess x))) (u - Pi.single j (stepU m.ehess u))).cost)
        / (4 * stepX m m.ehess x * stepU m.ehess u)) := by
  obtain ⟨a1, a2⟩ := hessRow_fold (fun dx => (m.ev (m.st.integrate x dx) u).cost)
        (fun dx => (m.ev (m.st.integrate x (-dx)) u).cost) d.d0.cost (stepX m m.ehess x) d.Lxx
  obtain ⟨b1, b2⟩ := hessRow_fold (fun du => (m.ev x (u + du)).cost) (fun du => (m.ev x (u - du)).cost)
        d.d0.cost (stepU m.ehess u) d.Luu
  unfold hessians
  simp only [h1, h2]
  generalize hA : (List.finRange n).foldl (hessRow (fun dx => (m.ev (m.st.integrate x dx) u).cost)
        (fun dx => (m.ev (m.st.integrate x (-dx)) u).cost) d.d0.cost (stepX m m.ehess x)) (0, d.Lxx) = A at *
  generalize hB : (List.finRange nu).foldl (hessRow (fun du => (m.ev x (u + du)).cost)
        (fun du => (m.ev x (u - du)).cost) d.d0.cost (stepU m.ehess u)) (0, d.Luu) = B at *
  obtain ⟨c1, c2⟩ := hessXU_fold m x u (stepX m m.ehess x) (stepU m.ehess u)
    { d with dx := A.1, Lxx := A.2, du := B.1, Luu := B.2 } a1 b1
  simp only [frameXU, Prod.mk.injEq] at c1
  obtain ⟨e1, e2, e3, e4, e5, ⟨e6, e7, e8, e9, e10, e11, e12, e13, e14, e15⟩, e16, e17⟩ := c1
  refine ⟨?_, ?_, ?_, c2⟩
  · simp only [frameH, e1, e2, e3, e4, e5, e6, e7, e8, e9, e10, e11, e12, e13, e14, e15]
  · intro i j; rw [e16]; exact a2 i j
  · intro i j; rw [e17]; exact b2 i j

/-- **C105**, general form. For every differentiated model, state, data and point with a positive disturbance, the
results of `calcDiff(data, x, u)` after `calc(data, x, u)` are the forward difference quotients of the model at
`x` and `u`. -/
theorem C105_quotients (m : Model X nv n nu nr ng nh) (d : Data nv n nu nr ng nh) (x : X) (u : Fin nu → ℝ) :
    let e := diffXU m (calcXU m d x u) x u
    let hx := m.ejac * max 1 (NumDiff.norm (m.st.diff m.st.zero x))
    let hu := m.ejac * max 1 (NumDiff.norm u)
    let px := fun j : Fin n => m.ev (m.st.integrate x (Pi.single j hx)) u
    let pu := fun j : Fin nu => m.ev x (u + Pi.single j hu)
    let p := m.ev x u
    e.xout = p.xout ∧ e.cost = p.cost ∧ e.g = p.g ∧ e.h = p.h ∧
    (∀ i j, e.Fx i j = ((px j).xout i - p.xout i) / hx) ∧
    (∀ i j, e.Fu i j = ((pu j).xout i - p.xout i) / hu) ∧
    (∀ j, e.Lx j = ((px j).cost - p.cost) / hx) ∧
    (∀ j, e.Lu j = ((pu j).cost - p.cost) / hu) ∧
    (∀ i j, e.Gx i j = ((px j).g i - p.g i) / hx) ∧
    (∀ i j, e.Gu i j = ((pu j).g i - p.g i) / hu) ∧
    (∀ i j, e.Hx i j = ((px j).h i - p.h i) / hx) ∧
    (∀ i j, e.Hu i j = ((pu j).h i - p.h i) / hu) ∧
    (m.gauss = true →
      (∀ i j, e.Lxx i j = ∑ k, ((px i).r k - p.r k) / hx * (((px j).r k - p.r k) / hx)) ∧
      (∀ i j, e.Lxu i j = ∑ k, ((px i).r k - p.r k) / hx * (((pu j).r k - p.r k) / hu)) ∧
      (∀ i j, e.Luu i j = ∑ k, ((pu i).r k - p.r k) / hu * (((pu j).r k - p.r k) / hu))) ∧
    (m.gauss = false → m.ndebug = true →
      (∀ i j, e.Lxx i j = hessEntry (fun dx => (m.ev (m.st.integrate x dx) u).cost)
        (fun dx => (m.ev (m.st.integrate x (-dx)) u).cost) p.cost (stepX m m.ehess x) (i, j)) ∧
      (∀ i j, e.Luu i j = hessEntry (fun du => (m.ev x (u + du)).cost) (fun du => (m.ev x (u - du)).cost)
        p.cost (stepU m.ehess u) (i, j)) ∧
      (∀ i j, e.Lxu i j =
        ((m.ev (m.st.integrate x (Pi.single i (stepX m m.ehess x))) (u + Pi.single j (stepU m.ehess u))).cost
        - (m.ev (m.st.integrate x (Pi.single i (stepX m m.ehess x))) (u - Pi.single j (stepU m.ehess u))).cost
        - (m.ev (m.st.integrate x (-Pi.single i (stepX m m.ehess x))) (u + Pi.single j (stepU m.ehess u))).cost
        + (m.ev (m.st.integrate x (-Pi.single i (stepX m m.ehess x))) (u - Pi.single j (stepU m.ehess u))).cost)
        / (4 * stepX m m.ehess x * stepU m.ehess u))) ∧
    (m.gauss = false → m.ndebug = false → e.Lxx = d.Lxx ∧ e.Lxu = d.Lxu ∧ e.Luu = d.Luu) := by
  intro e hx hu px pu p
  -- the four stages
  let d1 : Data nv n nu nr ng nh := { calcXU m d x u with du := 0, dx := 0 }
  let d2 := (List.finRange n).foldl (jacX m (fun y => m.ev y u) true x hx) d1
  let d3 := (List.finRange nu).foldl (jacU m x u hu) d2
  let d5 := if m.ndebug then hessians m d3 x u else d3
  have he : e = if m.gauss then { d5 with Lxx := d5.Rxᵀ * d5.Rx, Lxu := d5.Rxᵀ * d5.Ru, Luu := d5.Ruᵀ * d5.Ru }
      else d5 := rfl
  obtain ⟨x0, x1, -, x2, x3, x4, x5⟩ := jacX_fold m (fun y => m.ev y u) true x hx d1 rfl
  have f2 := jacX_frame m (fun y => m.ev y u) true x hx (List.finRange n) d1
  simp only [frameX, Prod.mk.injEq] at f2
  obtain ⟨f2a, f2b, f2c, f2d, f2e, -, -, -, -, -, f2f, f2g, f2h, f2i⟩ := f2
  have hdu : d2.du = 0 := f2i
  obtain ⟨u0, u1, u2, u3, u4, u5⟩ := jacU_fold m x u hu d2 hdu
  have f3 := jacU_frame m x u hu (List.finRange nu) d2
  simp only [frameU, Prod.mk.injEq] at f3
  obtain ⟨f3a, f3b, f3c, f3d, f3e, f3f, f3g, f3h, f3i, f3j, f3k, f3l, f3m, f3n⟩ := f3
  have hd3x : d3.dx = 0 := by show d3.dx = 0; rw [f3n]; exact x0
  have hd3u : d3.du = 0 := u0
  have hd30 : d3.d0 = p := by show d3.d0 = p; rw [f3a]; exact f2a
  have hd20 : d2.d0 = p := f2a
  obtain ⟨q1, q2, q3, q4⟩ := hessians_eq m d3 x u hd3x hd3u
  rw [hd30] at q2 q3
  -- the fields left alone by the last two stages
  have hF : frameH e = frameH d3 := by
    have h5 : frameH d5 = frameH d3 := by
      simp only [d5]; split_ifs
      · exact q1
      · rfl
    rw [he, ← h5]; split_ifs <;> rfl
  have hF' := hF
  simp only [frameH, Prod.mk.injEq] at hF'
  obtain ⟨g1, g2, g3, g4, g5, g6, g7, g8, g9, g10, g11, g12, g13, g14, g15⟩ := hF'
  have h5R : d5.Rx = d3.Rx ∧ d5.Ru = d3.Ru := by
    simp only [d5]; split_ifs
    · simp only [frameH, Prod.mk.injEq] at q1; tauto
    · exact ⟨rfl, rfl⟩
  have k4g : d2.g = p.g := f2d
  have k4h : d2.h = p.h := f2e
  have hRx : d3.Rx = d2.Rx := f3h
  refine ⟨?_, ?_, ?_, ?_, ?_, ?_, ?_, ?_, ?_, ?_, ?_, ?_, ?_, ?_, ?_⟩
  · rw [g2]; show d3.xout = _; rw [f3b]; exact f2b
  · rw [g3]; show d3.cost = _; rw [f3c]; exact f2c
  · rw [g4]; show d3.g = _; rw [f3d]; exact f2d
  · rw [g5]; show d3.h = _; rw [f3e]; exact f2e
  · intro i j; rw [g6]; show d3.Fx i j = _; rw [f3f]; show d2.Fx i j = _
    rw [x1 i j rfl]; rfl
  · intro i j; rw [g7]; show d3.Fu i j = _; rw [u1 i j, hd20]
  · intro j; rw [g8]; show d3.Lx j = _; rw [f3g]; show d2.Lx j = _; rw [x2 j]; rfl
  · intro j; rw [g9]; show d3.Lu j = _; rw [u2 j, hd20]
  · intro i j; rw [g12]; show d3.Gx i j = _; rw [f3i]; show d2.Gx i j = _; rw [x4 i j]; rfl
  · intro i j; rw [g13]; show d3.Gu i j = _; rw [u4 i j, k4g]
  · intro i j; rw [g14]; show d3.Hx i j = _; rw [f3j]; show d2.Hx i j = _; rw [x5 i j]; rfl
  · intro i j; rw [g15]; show d3.Hu i j = _; rw [u5 i j, k4h]
  · intro hg
    have r1 : ∀ i j, d5.Rx i j = ((px j).r i - p.r i) / hx := by
      intro i j; rw [h5R.1, hRx, x3 i j]; rfl
    have r2 : ∀ i j, d5.Ru i j = ((pu j).r i - p.r i) / hu := by
      intro i j; rw [h5R.2]; show d3.Ru i j = _; rw [u3 i j, hd20]
    rw [hg, if_pos rfl] at he
    refine ⟨fun i j => ?_, fun i j => ?_, fun i j => ?_⟩
    · rw [he]; simp only [Matrix.mul_apply, Matrix.transpose_apply, r1]
    · rw [he]; simp only [Matrix.mul_apply, Matrix.transpose_apply, r1, r2]
    · rw [he]; simp only [Matrix.mul_apply, Matrix.transpose_apply, r2]
  · intro hg hn
    have he' : e = hessians m d3 x u := by
      rw [he, hg, if_neg (by simp)]; simp only [d5, hn, if_true]
    rw [he']
    exact ⟨q2, q3, q4⟩
  · intro hg hn
    have he' : e = d3 := by
      rw [he, hg, if_neg (by simp)]; simp [d5, hn]
    rw [he']
    refine ⟨?_, ?_, ?_⟩
    · show d3.Lxx = _; rw [f3k]; exact f2f
    · show d3.Lxu = _; rw [f3l]; exact f2g
    · show d3.Luu = _; rw [f3m]; exact f2h

/-- The same for a terminal node. -/
theorem C105_quotients_terminal (m : Model X nv n nu nr ng nh) (d : Data nv n nu nr ng nh) (x : X) :
    let e := diffX m (calcX m d x) x
    let hx := m.ejac * max 1 (NumDiff.norm (m.st.diff m.st.zero x))
    let px := fun j : Fin n => m.evT (m.st.integrate x (Pi.single j hx))
    let p := m.evT x
    e.cost = p.cost ∧ e.g = p.g ∧ e.h = p.h ∧ e.Fx = d.Fx ∧
    (∀ j, e.Lx j = ((px j).cost - p.cost) / hx) ∧
    (∀ i j, e.Gx i j = ((px j).g i - p.g i) / hx) ∧
    (∀ i j, e.Hx i j = ((px j).h i - p.h i) / hx) ∧
    (m.gauss = true → ∀ i j, e.Lxx i j = ∑ k, ((px i).r k - p.r k) / hx * (((px j).r k - p.r k) / hx)) ∧
    (m.gauss = false → m.ndebug = true →
      ∀ i j, e.Lxx i j = hessEntry (fun dx => (m.evT (m.st.integrate x dx)).cost)
        (fun dx => (m.evT (m.st.integrate x (-dx))).cost) p.cost (stepX m m.ehess x) (i, j)) ∧
    (m.gauss = false → m.ndebug = false → e.Lxx = d.Lxx) := by
  intro e hx px p
  let d1 : Data nv n nu nr ng nh := { calcX m d x with dx := 0 }
  let d2 := (List.finRange n).foldl (jacX m m.evT false x hx) d1
  obtain ⟨x0, -, x1, x2, x3, x4, x5⟩ := jacX_fold m m.evT false x hx d1 rfl
  have f2 := jacX_frame m m.evT false x hx (List.finRange n) d1
  simp only [frameX, Prod.mk.injEq] at f2
  obtain ⟨f2a, f2b, f2c, f2d, f2e, -, -, -, -, -, f2f, f2g, f2h, f2i⟩ := f2
  let a := (List.finRange n).foldl
        (hessRow (fun dx => (m.evT (m.st.integrate x dx)).cost)
          (fun dx => (m.evT (m.st.integrate x (-dx))).cost) d2.d0.cost (stepX m m.ehess x)) (d2.dx, d2.Lxx)
  let d3 : Data nv n nu nr ng nh := if m.ndebug then { d2 with dx := a.1, Lxx := a.2 } else d2
  have he : e = if m.gauss then { d3 with Lxx := d3.Rxᵀ * d3.Rx } else d3 := rfl
  have hF : frameH e = frameH d2 := by
    rw [he]; simp only [d3]; split_ifs <;> rfl
  simp only [frameH, Prod.mk.injEq] at hF
  obtain ⟨g1, g2, g3, g4, g5, g6, g7, g8, g9, g10, g11, g12, g13, g14, g15⟩ := hF
  refine ⟨?_, ?_, ?_, ?_, ?_, ?_, ?_, ?_, ?_, ?_⟩
  · rw [g3]; exact f2c
  · rw [g4]; exact f2d
  · rw [g5]; exact f2e
  · rw [g6]; exact x1 rfl
  · intro j; rw [g8]; exact x2 j
  · intro i j; rw [g12]; exact x4 i j
  · intro i j; rw [g14]; exact x5 i j
  · intro hg i j
    have r1 : ∀ i j, d3.Rx i j = ((px j).r i - p.r i) / hx := by
      intro i j
      have : d3.Rx = d2.Rx := by simp only [d3]; split_ifs <;> rfl
      rw [this]; exact x3 i j
    rw [he, hg, if_pos rfl]; simp only [Matrix.mul_apply, Matrix.transpose_apply, r1]
  · intro hg hn i j
    have he' : e.Lxx = a.2 := by
      rw [he, hg, if_neg (by simp)]; simp only [d3, hn, if_true]
    have H := (hessRow_fold (fun dx => (m.evT (m.st.integrate x dx)).cost)
          (fun dx => (m.evT (m.st.integrate x (-dx))).cost) d2.d0.cost (stepX m m.ehess x) d2.Lxx).2 i j
    have h0 : d2.dx = 0 := x0
    rw [he']; simp only [a, h0]; rw [H]
    have hd : d2.d0 = p := f2a
    rw [hd]
  · intro hg hn
    rw [he, hg, if_neg (by simp)]; simp only [d3, hn]
    exact f2f

/-! ### Linear-quadratic models -/

section LQ
variable (q : LQ nv n nu nr ng nh)

theorem hess_x (hQ : q.p.Q.IsSymm) (hR : q.p.R.IsSymm) (x : Fin n → ℝ) (u : Fin nu → ℝ) (h : ℝ) (hh : 0 < h)
    (i j : Fin n) :
    hessEntry (fun dx => (q.res (x + dx) u).cost) (fun dx => (q.res (x + -dx) u).cost) (q.res x u).cost h (i, j)
      = q.p.Q i j := by
  have c := fun y => cost_add q.p hQ hR x y u 0
  simp only [add_zero] at c
  have hs : q.p.Q j i = q.p.Q i j := hQ.apply i j
  unfold hessEntry mixed second
  simp only [LQ.res, c, zero_dotProduct, mulVec_zero, dotProduct_zero]
  simp only [mulVec_add, mulVec_neg, add_dotProduct, dotProduct_add, neg_dotProduct, dotProduct_neg, quad_single]
  have : h ≠ 0 := hh.ne'
  split_ifs with h1 h2
  · subst h1; field_simp; ring
  · field_simp; rw [hs]; ring
  · field_simp; rw [hs]; ring

theorem hess_u (hQ : q.p.Q.IsSymm) (hR : q.p.R.IsSymm) (x : Fin n → ℝ) (u : Fin nu → ℝ) (h : ℝ) (hh : 0 < h)
    (i j : Fin nu) :
    hessEntry (fun du => (q.res x (u + du)).cost) (fun du => (q.res x (u - du)).cost) (q.res x u).cost h (i, j)
      = q.p.R i j := by
  have c := fun v => cost_add q.p hQ hR x 0 u v
  simp only [add_zero] at c
  have hs : q.p.R j i = q.p.R i j := hR.apply i j
  unfold hessEntry mixed second
  simp only [LQ.res, sub_eq_add_neg, c, zero_dotProduct, mulVec_zero, dotProduct_zero]
  simp only [mulVec_add, mulVec_neg, add_dotProduct, dotProduct_add, neg_dotProduct, dotProduct_neg, quad_single]
  have : h ≠ 0 := hh.ne'
  split_ifs with h1 h2
  · subst h1; field_simp; ring
  · field_simp; rw [hs]; ring
  · field_simp; rw [hs]; ring

/-- **C105.** On a linear-quadratic model over a vector space the finite-difference wrapper returns exactly the
dynamics and constraint Jacobians and, compiled with `NDEBUG` and without the Gauss approximation, exactly the
Hessian of the cost; with the Gauss approximation, exactly `RxᵀRx`, `RxᵀRu`, `RuᵀRu`. The cost gradients are off
by half the step times the diagonal curvature. For every positive disturbance, point, and previous content of the
data. -/
theorem C105_exact (hQ : q.p.Q.IsSymm) (hR : q.p.R.IsSymm) (qs : (Fin n → ℝ) → ℕ → ℝ → Fin nu → ℝ) (ejac ehess : ℝ) (hj : 0 < ejac) (hh : 0 < ehess)
    (gauss ndebug : Bool) (d : Data nv n nu nr ng nh) (x : Fin n → ℝ) (u : Fin nu → ℝ) :
    let m := q.wrap qs ejac ehess gauss ndebug
    let e := diffXU m (calcXU m d x u) x u
    e.Fx = q.p.A ∧ e.Fu = q.p.B ∧ e.Gx = q.p.Gx ∧ e.Gu = q.p.Gu ∧ e.Hx = q.p.Hx ∧ e.Hu = q.p.Hu ∧
    (∀ i, e.Lx i = (q.p.Q *ᵥ x + q.p.N *ᵥ u + q.p.q) i
      + ejac * max 1 √(∑ k, x k * x k) / 2 * q.p.Q i i) ∧
    (∀ i, e.Lu i = (q.p.R *ᵥ u + q.p.Nᵀ *ᵥ x + q.p.r) i
      + ejac * max 1 √(∑ k, u k * u k) / 2 * q.p.R i i) ∧
    (gauss = false → ndebug = true → e.Lxx = q.p.Q ∧ e.Luu = q.p.R ∧ e.Lxu = q.p.N) ∧
    (gauss = true → e.Lxx = q.Sxᵀ * q.Sx ∧ e.Lxu = q.Sxᵀ * q.Su ∧ e.Luu = q.Suᵀ * q.Su) := by
  intro m e
  have hx0 : 0 < stepX m m.ejac x := stepX_pos m _ hj x
  have hu0 : 0 < stepU m.ejac u := stepU_pos _ hj u
  have hx1 : 0 < stepX m m.ehess x := stepX_pos m _ hh x
  have hu1 : 0 < stepU m.ehess u := stepU_pos _ hh u
  have hxe : stepX m m.ejac x = ejac * max 1 √(∑ k, x k * x k) := by
    simp [stepX, m, LQ.wrap, euclid, NumDiff.norm]
  have hue : stepU m.ejac u = ejac * max 1 √(∑ k, u k * u k) := by
    simp [stepU, m, LQ.wrap, NumDiff.norm]
  have H := C105_quotients m d x u
  have wx : m.ejac * max 1 (NumDiff.norm (m.st.diff m.st.zero x)) = stepX m m.ejac x := rfl
  have wu : m.ejac * max 1 (NumDiff.norm u) = stepU m.ejac u := rfl
  simp only [wx, wu] at H
  obtain ⟨-, -, -, -, a1, a2, a3, a4, a5, a6, a7, a8, a9, a10, -⟩ := H
  have wev : ∀ y v, (m.ev y v).cost = Lqr.Spec.cost q.p y v := fun _ _ => rfl
  have wevT : ∀ y, (m.evT y).cost = Lqr.Spec.cost q.p y 0 := fun _ => rfl
  have win : ∀ y z, m.st.integrate y z = y + z := fun _ _ => rfl
  have n1 : ∀ {a : ℕ} (A : Matrix (Fin a) (Fin n) ℝ) (B : Matrix (Fin a) (Fin nu) ℝ) (c : Fin a → ℝ) (i : Fin a)
      (j : Fin n) (h : ℝ), 0 < h →
      ((∑ k, A i k * (x + Pi.single j h : Fin n → ℝ) k + ∑ k, B i k * u k + c i) - (∑ k, A i k * x k + ∑ k, B i k * u k + c i)) / h
        = A i j := by
    intro a A B c i j h hh
    have := affine_add A B c x (Pi.single j h) u 0 i
    simp only [add_zero, Pi.zero_apply, mul_zero, Finset.sum_const_zero, sum_single_mul] at this
    rw [this]; field_simp; ring
  have n2 : ∀ {a : ℕ} (A : Matrix (Fin a) (Fin n) ℝ) (B : Matrix (Fin a) (Fin nu) ℝ) (c : Fin a → ℝ) (i : Fin a)
      (j : Fin nu) (h : ℝ), 0 < h →
      ((∑ k, A i k * x k + ∑ k, B i k * (u + Pi.single j h : Fin nu → ℝ) k + c i) - (∑ k, A i k * x k + ∑ k, B i k * u k + c i)) / h
        = B i j := by
    intro a A B c i j h hh
    have := affine_add A B c x 0 u (Pi.single j h) i
    simp only [add_zero, zero_add, Pi.zero_apply, mul_zero, Finset.sum_const_zero, sum_single_mul] at this
    rw [this]; field_simp; ring
  refine ⟨?_, ?_, ?_, ?_, ?_, ?_, ?_, ?_, ?_, ?_⟩
  · ext i j; rw [a1 i j]; exact n1 q.p.A q.p.B q.p.f i j _ hx0
  · ext i j; rw [a2 i j]; exact n2 q.p.A q.p.B q.p.f i j _ hu0
  · ext i j; rw [a5 i j]; exact n1 q.p.Gx q.p.Gu q.p.g i j _ hx0
  · ext i j; rw [a6 i j]; exact n2 q.p.Gx q.p.Gu q.p.g i j _ hu0
  · ext i j; rw [a7 i j]; exact n1 q.p.Hx q.p.Hu q.p.h i j _ hx0
  · ext i j; rw [a8 i j]; exact n2 q.p.Hx q.p.Hu q.p.h i j _ hu0
  · intro i
    rw [a3 i, ← hxe]
    rw [wev, wev, win]
    generalize stepX m m.ejac x = h at hx0
    have := cost_add q.p hQ hR x (Pi.single i h) u 0
    simp only [add_zero, zero_dotProduct, mulVec_zero, dotProduct_zero, quad_single] at this
    simp only [single_dotProduct] at this
    rw [this]; field_simp; ring
  · intro i
    rw [a4 i, ← hue]
    rw [wev, wev]
    generalize stepU m.ejac u = h at hu0
    have := cost_add q.p hQ hR x 0 u (Pi.single i h)
    simp only [add_zero, zero_dotProduct, mulVec_zero, dotProduct_zero, quad_single, zero_add] at this
    simp only [single_dotProduct] at this
    rw [this]; field_simp; ring
  · intro hg hn
    obtain ⟨b1, b2, b3⟩ := a10 hg hn
    refine ⟨?_, ?_, ?_⟩
    · ext i j; rw [b1 i j]; exact hess_x q hQ hR x u _ hx1 i j
    · ext i j; rw [b2 i j]; exact hess_u q hQ hR x u _ hu1 i j
    · ext i j; rw [b3 i j]
      generalize stepX m m.ehess x = h at hx1
      generalize stepU m.ehess u = k at hu1
      simp only [wev, win]
      simp only [sub_eq_add_neg u, cost_add q.p hQ hR]
      simp only [mulVec_neg, neg_dotProduct, dotProduct_neg, quad_single]
      field_simp; ring
  · intro hg
    obtain ⟨b1, b2, b3⟩ := a9 hg
    have r1 : ∀ i j, ((m.ev (m.st.integrate x (Pi.single j (stepX m m.ejac x))) u).r i - (m.ev x u).r i)
        / stepX m m.ejac x = q.Sx i j := fun i j => n1 q.Sx q.Su q.s i j _ hx0
    have r2 : ∀ i j, ((m.ev x (u + Pi.single j (stepU m.ejac u))).r i - (m.ev x u).r i)
        / stepU m.ejac u = q.Su i j := fun i j => n2 q.Sx q.Su q.s i j _ hu0
    refine ⟨?_, ?_, ?_⟩
    · ext i j; rw [b1 i j, Matrix.mul_apply]
      exact Finset.sum_congr rfl fun k _ => by rw [Matrix.transpose_apply, ← r1 k i, ← r1 k j]
    · ext i j; rw [b2 i j, Matrix.mul_apply]
      exact Finset.sum_congr rfl fun k _ => by rw [Matrix.transpose_apply, ← r1 k i, ← r2 k j]
    · ext i j; rw [b3 i j, Matrix.mul_apply]
      exact Finset.sum_congr rfl fun k _ => by rw [Matrix.transpose_apply, ← r2 k i, ← r2 k j]

/-- The same for a terminal node. -/
theorem C105_exact_terminal (hQ : q.p.Q.IsSymm) (hR : q.p.R.IsSymm) (qs : (Fin n → ℝ) → ℕ → ℝ → Fin nu → ℝ) (ejac ehess : ℝ) (hj : 0 < ejac)
    (hh : 0 < ehess) (gauss ndebug : Bool) (d : Data nv n nu nr ng nh) (x : Fin n → ℝ) :
    let m := q.wrap qs ejac ehess gauss ndebug
    let e := diffX m (calcX m d x) x
    e.Gx = q.p.Gx ∧ e.Hx = q.p.Hx ∧
    (∀ i, e.Lx i = (q.p.Q *ᵥ x + q.p.q) i + ejac * max 1 √(∑ k, x k * x k) / 2 * q.p.Q i i) ∧
    (gauss = false → ndebug = true → e.Lxx = q.p.Q) ∧
    (gauss = true → e.Lxx = q.Sxᵀ * q.Sx) := by
  intro m e
  have hx0 : 0 < stepX m m.ejac x := stepX_pos m _ hj x
  have hx1 : 0 < stepX m m.ehess x := stepX_pos m _ hh x
  have hxe : stepX m m.ejac x = ejac * max 1 √(∑ k, x k * x k) := by
    simp [stepX, m, LQ.wrap, euclid, NumDiff.norm]
  have H := C105_quotients_terminal m d x
  have wx : m.ejac * max 1 (NumDiff.norm (m.st.diff m.st.zero x)) = stepX m m.ejac x := rfl
  simp only [wx] at H
  obtain ⟨-, -, -, -, a3, a5, a7, a9, a10, -⟩ := H
  have wev : ∀ y v, (m.ev y v).cost = Lqr.Spec.cost q.p y v := fun _ _ => rfl
  have wevT : ∀ y, (m.evT y).cost = Lqr.Spec.cost q.p y 0 := fun _ => rfl
  have win : ∀ y z, m.st.integrate y z = y + z := fun _ _ => rfl
  have n1 : ∀ {a : ℕ} (A : Matrix (Fin a) (Fin n) ℝ) (B : Matrix (Fin a) (Fin nu) ℝ) (c : Fin a → ℝ) (i : Fin a)
      (j : Fin n) (h : ℝ), 0 < h →
      ((∑ k, A i k * (x + Pi.single j h : Fin n → ℝ) k + ∑ k, B i k * (0 : Fin nu → ℝ) k + c i)
        - (∑ k, A i k * x k + ∑ k, B i k * (0 : Fin nu → ℝ) k + c i)) / h = A i j := by
    intro a A B c i j h hh
    have := affine_add A B c x (Pi.single j h) 0 0 i
    simp only [add_zero, Pi.zero_apply, mul_zero, Finset.sum_const_zero, sum_single_mul] at this ⊢
    rw [this]; field_simp; ring
  refine ⟨?_, ?_, ?_, ?_, ?_⟩
  · ext i j; rw [a5 i j]; exact n1 q.p.Gx q.p.Gu q.p.g i j _ hx0
  · ext i j; rw [a7 i j]; exact n1 q.p.Hx q.p.Hu q.p.h i j _ hx0
  · intro i
    rw [a3 i, ← hxe]
    rw [wevT, wevT, win]
    generalize stepX m m.ejac x = h at hx0
    have := cost_add q.p hQ hR x (Pi.single i h) 0 0
    simp only [add_zero, zero_dotProduct, mulVec_zero, dotProduct_zero, quad_single] at this
    simp only [single_dotProduct] at this
    rw [this]; field_simp; ring
  · intro hg hn
    ext i j; rw [a10 hg hn i j]; exact hess_x q hQ hR x 0 _ hx1 i j
  · intro hg
    have r1 : ∀ i j, ((m.evT (m.st.integrate x (Pi.single j (stepX m m.ejac x)))).r i - (m.evT x).r i)
        / stepX m m.ejac x = q.Sx i j := fun i j => n1 q.Sx q.Su q.s i j _ hx0
    ext i j; rw [a9 hg i j, Matrix.mul_apply]
    exact Finset.sum_congr rfl fun k _ => by rw [Matrix.transpose_apply, ← r1 k i, ← r1 k j]

end LQ

/-! ### Arbitrary models -/

/-- The approximated Hessians are symmetric, whatever the model and state are (release build, no Gauss
approximation). -/
theorem C105_symmetric (m : Model X nv n nu nr ng nh) (hg : m.gauss = false) (hn : m.ndebug = true)
    (d : Data nv n nu nr ng nh) (x : X) (u : Fin nu → ℝ) :
    (diffXU m (calcXU m d x u) x u).Lxx.IsSymm ∧ (diffXU m (calcXU m d x u) x u).Luu.IsSymm := by
  obtain ⟨-, -, -, -, -, -, -, -, -, -, -, -, -, a10, -⟩ := C105_quotients m d x u
  obtain ⟨b1, b2, -⟩ := a10 hg hn
  constructor
  · ext i j; rw [Matrix.transpose_apply, b1, b1]; exact hessEntry_symm _ _ _ _ _ _
  · ext i j; rw [Matrix.transpose_apply, b2, b2]; exact hessEntry_symm _ _ _ _ _ _

open Filter Topology in
/-- **C105**, arbitrary differentiable models over a vector space: as the disturbance goes to `0`, the returned
Jacobians and gradients converge to the derivatives of the model. -/
theorem C105_consistent (m : Model (Fin n → ℝ) nv n nu nr ng nh) (hst : m.st = euclid n)
    (d : Data nv n nu nr ng nh) (x : Fin n → ℝ) (u : Fin nu → ℝ)
    (w : ℝ → Model (Fin n → ℝ) nv n nu nr ng nh) (hw : ∀ e, 0 < e → setDisturbance m e = some (w e))
    (Fx : Matrix (Fin nv) (Fin n) ℝ) (Fu : Matrix (Fin nv) (Fin nu) ℝ)
    (hF : Deriv.HasJac (fun y v => (m.ev y v).xout) Fx Fu x u)
    (Lx : Fin n → ℝ) (Lu : Fin nu → ℝ) (hL : Deriv.HasGrad (fun y v => (m.ev y v).cost) Lx Lu x u)
    (Gx : Matrix (Fin ng) (Fin n) ℝ) (Gu : Matrix (Fin ng) (Fin nu) ℝ)
    (hG : Deriv.HasJac (fun y v => (m.ev y v).g) Gx Gu x u)
    (Hx : Matrix (Fin nh) (Fin n) ℝ) (Hu : Matrix (Fin nh) (Fin nu) ℝ)
    (hH : Deriv.HasJac (fun y v => (m.ev y v).h) Hx Hu x u) :
    let r := fun e : ℝ => diffXU (w e) (calcXU (w e) d x u) x u
    (∀ i j, Tendsto (fun e => (r e).Fx i j) (𝓝[>] 0) (𝓝 (Fx i j))) ∧
    (∀ i j, Tendsto (fun e => (r e).Fu i j) (𝓝[>] 0) (𝓝 (Fu i j))) ∧
    (∀ j, Tendsto (fun e => (r e).Lx j) (𝓝[>] 0) (𝓝 (Lx j))) ∧
    (∀ j, Tendsto (fun e => (r e).Lu j) (𝓝[>] 0) (𝓝 (Lu j))) ∧
    (∀ i j, Tendsto (fun e => (r e).Gx i j) (𝓝[>] 0) (𝓝 (Gx i j))) ∧
    (∀ i j, Tendsto (fun e => (r e).Gu i j) (𝓝[>] 0) (𝓝 (Gu i j))) ∧
    (∀ i j, Tendsto (fun e => (r e).Hx i j) (𝓝[>] 0) (𝓝 (Hx i j))) ∧
    (∀ i j, Tendsto (fun e => (r e).Hu i j) (𝓝[>] 0) (𝓝 (Hu i j))) := by
  intro r
  have hMx : 0 < max 1 (NumDiff.norm (m.st.diff m.st.zero x)) := lt_of_lt_of_le one_pos (le_max_left _ _)
  have hMu : 0 < max 1 (NumDiff.norm u) := lt_of_lt_of_le one_pos (le_max_left _ _)
  generalize hMX : max 1 (NumDiff.norm (m.st.diff m.st.zero x)) = MX at hMx
  generalize hMU : max 1 (NumDiff.norm u) = MU at hMu
  have hint : ∀ y z, m.st.integrate y z = y + z := by intro y z; rw [hst]; rfl
  have key : ∀ e : ℝ, 0 < e →
      (∀ i j, (r e).Fx i j = ((m.ev (x + Pi.single j (e * MX)) u).xout i - (m.ev x u).xout i) / (e * MX)) ∧
      (∀ i j, (r e).Fu i j = ((m.ev x (u + Pi.single j (e * MU))).xout i - (m.ev x u).xout i) / (e * MU)) ∧
      (∀ j, (r e).Lx j = ((m.ev (x + Pi.single j (e * MX)) u).cost - (m.ev x u).cost) / (e * MX)) ∧
      (∀ j, (r e).Lu j = ((m.ev x (u + Pi.single j (e * MU))).cost - (m.ev x u).cost) / (e * MU)) ∧
      (∀ i j, (r e).Gx i j = ((m.ev (x + Pi.single j (e * MX)) u).g i - (m.ev x u).g i) / (e * MX)) ∧
      (∀ i j, (r e).Gu i j = ((m.ev x (u + Pi.single j (e * MU))).g i - (m.ev x u).g i) / (e * MU)) ∧
      (∀ i j, (r e).Hx i j = ((m.ev (x + Pi.single j (e * MX)) u).h i - (m.ev x u).h i) / (e * MX)) ∧
      (∀ i j, (r e).Hu i j = ((m.ev x (u + Pi.single j (e * MU))).h i - (m.ev x u).h i) / (e * MU)) := by
    intro e he
    have hs : w e = { m with ejac := e, ehess := √(2 * e) } := by
      have := hw e he
      rw [setDisturbance, if_neg (not_lt.mpr he.le)] at this
      exact (Option.some.inj this).symm
    have H := C105_quotients { m with ejac := e, ehess := √(2 * e) } d x u
    simp only [hMX, hMU, hint] at H
    simp only [r, hs]
    obtain ⟨-, -, -, -, a1, a2, a3, a4, a5, a6, a7, a8, -⟩ := H
    exact ⟨a1, a2, a3, a4, a5, a6, a7, a8⟩
  have evx : ∀ {φ : ℝ → ℝ} {φ' : ℝ} {R : ℝ → ℝ} {M : ℝ}, 0 < M → HasDerivAt φ φ' 0 →
      (∀ e, 0 < e → R e = (φ (e * M) - φ 0) / (e * M)) → Tendsto R (𝓝[>] 0) (𝓝 φ') := by
    intro φ φ' R M hM h hR
    refine (tendsto_quot h M hM).congr' ?_
    filter_upwards [self_mem_nhdsWithin] with e he
    exact (hR e he).symm
  refine ⟨fun i j => ?_, fun i j => ?_, fun j => ?_, fun j => ?_, fun i j => ?_, fun i j => ?_, fun i j => ?_,
    fun i j => ?_⟩
  · exact evx hMx (hasDerivAt_line_x (hF i) j) fun e he => by simpa using (key e he).1 i j
  · exact evx hMu (hasDerivAt_line_u (hF i) j) fun e he => by simpa using (key e he).2.1 i j
  · exact evx hMx (hasDerivAt_line_x hL j) fun e he => by simpa using (key e he).2.2.1 j
  · exact evx hMu (hasDerivAt_line_u hL j) fun e he => by simpa using (key e he).2.2.2.1 j
  · exact evx hMx (hasDerivAt_line_x (hG i) j) fun e he => by simpa using (key e he).2.2.2.2.1 i j
  · exact evx hMu (hasDerivAt_line_u (hG i) j) fun e he => by simpa using (key e he).2.2.2.2.2.1 i j
  · exact evx hMx (hasDerivAt_line_x (hH i) j) fun e he => by simpa using (key e he).2.2.2.2.2.2.1 i j
  · exact evx hMu (hasDerivAt_line_u (hH i) j) fun e he => by simpa using (key e he).2.2.2.2.2.2.2 i j


open Filter Topology in
/-- **C105**, the Hessians of an arbitrary twice differentiable cost over a vector space: compiled with `NDEBUG` and
without the Gauss approximation, the returned blocks converge to the second derivatives as the disturbance goes to
`0`. -/
theorem C105_hessians_consistent (m : Model (Fin n → ℝ) nv n nu nr ng nh) (hst : m.st = euclid n)
    (hg : m.gauss = false) (hn : m.ndebug = true)
    (w : ℝ → Model (Fin n → ℝ) nv n nu nr ng nh) (hw : ∀ e, 0 < e → setDisturbance m e = some (w e))
    (d : Data nv n nu nr ng nh) (x : Fin n → ℝ) (u : Fin nu → ℝ)
    (D : (Fin n → ℝ) × (Fin nu → ℝ) → (Fin n → ℝ) × (Fin nu → ℝ) →L[ℝ] ℝ)
    (D2 : (Fin n → ℝ) × (Fin nu → ℝ) →L[ℝ] (Fin n → ℝ) × (Fin nu → ℝ) →L[ℝ] ℝ)
    (hD : SecondDiff.Twice (fun y => (m.ev y.1 y.2).cost) D D2 (x, u)) :
    let r := fun e : ℝ => diffXU (w e) (calcXU (w e) d x u) x u
    (∀ i j, Tendsto (fun e => (r e).Lxx i j) (𝓝[>] 0) (𝓝 (D2 (Pi.single i 1, 0) (Pi.single j 1, 0)))) ∧
    (∀ i j, Tendsto (fun e => (r e).Luu i j) (𝓝[>] 0) (𝓝 (D2 (0, Pi.single i 1) (0, Pi.single j 1)))) ∧
    (∀ i j, Tendsto (fun e => (r e).Lxu i j) (𝓝[>] 0) (𝓝 (D2 (Pi.single i 1, 0) (0, Pi.single j 1)))) := by
  intro r
  let F : (Fin n → ℝ) × (Fin nu → ℝ) → ℝ := fun y => (m.ev y.1 y.2).cost
  let bx : (Fin n → ℝ) →ₗ[ℝ] (Fin n → ℝ) × (Fin nu → ℝ) := LinearMap.inl ℝ _ _
  let bu : (Fin nu → ℝ) →ₗ[ℝ] (Fin n → ℝ) × (Fin nu → ℝ) := LinearMap.inr ℝ _ _
  have hMx : 0 < max 1 (NumDiff.norm (m.st.diff m.st.zero x)) := lt_of_lt_of_le one_pos (le_max_left _ _)
  have hMu : 0 < max 1 (NumDiff.norm u) := lt_of_lt_of_le one_pos (le_max_left _ _)
  generalize hMX : max 1 (NumDiff.norm (m.st.diff m.st.zero x)) = MX at hMx
  generalize hMU : max 1 (NumDiff.norm u) = MU at hMu
  have hint : ∀ y z, m.st.integrate y z = y + z := by intro y z; rw [hst]; rfl
  have key : ∀ e : ℝ, 0 < e →
      (∀ i j, (r e).Lxx i j = hessEntry (fun dx => F ((x, u) + bx dx)) (fun dx => F ((x, u) - bx dx)) (F (x, u))
        (√(2 * e) * MX) (i, j)) ∧
      (∀ i j, (r e).Luu i j = hessEntry (fun du => F ((x, u) + bu du)) (fun du => F ((x, u) - bu du)) (F (x, u))
        (√(2 * e) * MU) (i, j)) ∧
      (∀ i j, (r e).Lxu i j = (F ((x, u) + bx (Pi.single i (√(2 * e) * MX)) + bu (Pi.single j (√(2 * e) * MU)))
        - F ((x, u) + bx (Pi.single i (√(2 * e) * MX)) - bu (Pi.single j (√(2 * e) * MU)))
        - F ((x, u) - bx (Pi.single i (√(2 * e) * MX)) + bu (Pi.single j (√(2 * e) * MU)))
        + F ((x, u) - bx (Pi.single i (√(2 * e) * MX)) - bu (Pi.single j (√(2 * e) * MU))))
        / (4 * (√(2 * e) * MX) * (√(2 * e) * MU))) := by
    intro e he
    have hs : w e = { m with ejac := e, ehess := √(2 * e) } := by
      have := hw e he
      rw [setDisturbance, if_neg (not_lt.mpr he.le)] at this
      exact (Option.some.inj this).symm
    have H := C105_quotients { m with ejac := e, ehess := √(2 * e) } d x u
    obtain ⟨-, -, -, -, -, -, -, -, -, -, -, -, -, a, -⟩ := H
    have H := a hg hn
    simp only [stepX, stepU, hMX, hMU, hint] at H
    simp only [r, hs]
    simpa only [F, bx, bu, LinearMap.inl_apply, LinearMap.inr_apply, Prod.mk_add_mk, Prod.mk_sub_mk, add_zero,
      sub_zero, ← sub_eq_add_neg] using H
  have conv : ∀ {R G : ℝ → ℝ} {a : ℝ}, Tendsto G (𝓝[>] 0) (𝓝 a) → (∀ e, 0 < e → R e = G e) →
      Tendsto R (𝓝[>] 0) (𝓝 a) := by
    intro R G a hG hR
    refine hG.congr' ?_
    filter_upwards [self_mem_nhdsWithin] with e he
    exact (hR e he).symm
  refine ⟨fun i j => ?_, fun i j => ?_, fun i j => ?_⟩
  · exact conv (SecondDiff.tendsto_hessEntry hD bx i j MX hMx) fun e he => (key e he).1 i j
  · exact conv (SecondDiff.tendsto_hessEntry hD bu i j MU hMu) fun e he => (key e he).2.1 i j
  · refine conv (SecondDiff.tendsto_crossEntry hD (bx (Pi.single i 1)) (bu (Pi.single j 1)) MX MU hMx hMu)
      fun e he => ?_
    rw [(key e he).2.2 i j]
    simp only [← map_smul, ← Pi.single_smul, smul_eq_mul, mul_one]
    rfl

/-- With the Gauss approximation the approximated Hessian of the state is positive semi-definite. -/
theorem C105_gauss_psd (m : Model X nv n nu nr ng nh) (hg : m.gauss = true) (d : Data nv n nu nr ng nh) (x : X)
    (u : Fin nu → ℝ) (v : Fin n → ℝ) (w : Fin nu → ℝ) :
    let e := diffXU m (calcXU m d x u) x u
    0 ≤ v ⬝ᵥ e.Lxx *ᵥ v + 2 * (v ⬝ᵥ e.Lxu *ᵥ w) + w ⬝ᵥ e.Luu *ᵥ w := by
  intro e
  obtain ⟨-, -, -, -, -, -, -, -, -, -, -, -, a, -⟩ := C105_quotients m d x u
  obtain ⟨b1, b2, b3⟩ := a hg
  let Rx : Matrix (Fin nr) (Fin n) ℝ := fun k j => ((m.ev (m.st.integrate x (Pi.single j (stepX m m.ejac x))) u).r k
    - (m.ev x u).r k) / stepX m m.ejac x
  let Ru : Matrix (Fin nr) (Fin nu) ℝ := fun k j => ((m.ev x (u + Pi.single j (stepU m.ejac u))).r k
    - (m.ev x u).r k) / stepU m.ejac u
  have e1 : e.Lxx = Rxᵀ * Rx := by ext i j; rw [b1 i j]; rfl
  have e2 : e.Lxu = Rxᵀ * Ru := by ext i j; rw [b2 i j]; rfl
  have e3 : e.Luu = Ruᵀ * Ru := by ext i j; rw [b3 i j]; rfl
  have k : ∀ {a b : ℕ} (A : Matrix (Fin nr) (Fin a) ℝ) (B : Matrix (Fin nr) (Fin b) ℝ) (y : Fin a → ℝ)
      (z : Fin b → ℝ), y ⬝ᵥ (Aᵀ * B) *ᵥ z = (A *ᵥ y) ⬝ᵥ (B *ᵥ z) := by
    intro a b A B y z
    rw [← Matrix.mulVec_mulVec, Matrix.dotProduct_mulVec, Matrix.vecMul_transpose]
  have : v ⬝ᵥ e.Lxx *ᵥ v + 2 * (v ⬝ᵥ e.Lxu *ᵥ w) + w ⬝ᵥ e.Luu *ᵥ w
      = (Rx *ᵥ v + Ru *ᵥ w) ⬝ᵥ (Rx *ᵥ v + Ru *ᵥ w) := by
    rw [e1, e2, e3, k, k, k]
    simp only [add_dotProduct, dotProduct_add, dotProduct_comm (Ru *ᵥ w) (Rx *ᵥ v)]
    ring
  rw [this]
  exact Finset.sum_nonneg fun i _ => mul_self_nonneg _

/-- The calls that are refused: a Gauss approximation of a model with one residual, and a negative disturbance;
everything else is accepted with the values given. -/
theorem C105_refusals (st : StateOps X n) (ev : X → (Fin nu → ℝ) → Res nv nr ng nh) (evT : X → Res nv nr ng nh)
    (qs : X → ℕ → ℝ → Fin nu → ℝ) (eps : ℝ) (gauss ndebug : Bool) (m : Model X nv n nu nr ng nh) (e : ℝ) :
    (create st ev evT qs eps gauss ndebug = none ↔ gauss = true ∧ nr = 1) ∧
    (∀ w, create st ev evT qs eps gauss ndebug = some w →
      w.ejac = √(2 * eps) ∧ w.ehess = √(2 * w.ejac) ∧ w.gauss = gauss ∧ w.ev = ev ∧ w.evT = evT) ∧
    (setDisturbance m e = none ↔ e < 0) ∧
    (∀ w, setDisturbance m e = some w → w = { m with ejac := e, ehess := √(2 * e) }) := by
  refine ⟨?_, ?_, ?_, ?_⟩
  · unfold create; split_ifs with h <;> simp [h]
  · intro w h
    unfold create at h
    split_ifs at h
    obtain rfl := Option.some.inj h
    exact ⟨rfl, rfl, rfl, rfl, rfl⟩
  · unfold setDisturbance; split_ifs with h <;> simp [h]
  · intro w h
    unfold setDisturbance at h
    split_ifs at h
    exact (Option.some.inj h).symm

/-- `quasiStatic` is the differentiated model's, whatever the disturbance and approximation are. -/
theorem C105_quasiStatic (m w : Model X nv n nu nr ng nh) (e : ℝ) (hw : setDisturbance m e = some w) (x : X)
    (maxiter : ℕ) (tol : ℝ) : quasiStatic w x maxiter tol = m.qs x maxiter tol := by
  unfold setDisturbance at hw
  split_ifs at hw
  obtain rfl := Option.some.inj hw
  rfl

/-- A double integrator with a coupled cost, two residuals and a control, in the hypotheses of `C105_exact`. -/
noncomputable def demoLQ : LQ 1 2 1 2 1 1 where
  p :=
    { A := !![1, 2], B := !![5], Q := !![2, 1; 1, 3], R := !![4], N := !![7; 8], Gx := !![1, 0],
      Gu := !![1], Hx := !![0, 1], Hu := !![2], f := ![1], q := ![3, 4], r := ![5], g := ![0], h := ![1] }
  Sx := !![1, 1; 0, 2]
  Su := !![2; 3]
  s := ![0, 1]

example : demoLQ.p.Q.IsSymm ∧ demoLQ.p.R.IsSymm ∧ demoLQ.p.Q 0 1 ≠ 0 := by
  refine ⟨?_, ?_, ?_⟩
  · ext i j; fin_cases i <;> fin_cases j <;> rfl
  · ext i j; fin_cases i; fin_cases j; rfl
  · show (1 : ℝ) ≠ 0; exact one_ne_zero

/-- Its wrapper can be constructed, with and without the Gauss approximation, and disturbed. -/
example (gauss : Bool) (qs : (Fin 2 → ℝ) → ℕ → ℝ → Fin 1 → ℝ) :
    ∃ w w', create (euclid 2) demoLQ.res (fun x => demoLQ.res x 0) qs 1 gauss true = some w ∧
      setDisturbance w (1 / 100) = some w' ∧ 0 < w'.ejac ∧ 0 < w'.ehess := by
  refine ⟨demoLQ.wrap qs (√(2 * 1)) (√(2 * √(2 * 1))) gauss true,
    demoLQ.wrap qs (1 / 100) (√(2 * (1 / 100))) gauss true, by simp [create]; rfl, ?_, ?_, ?_⟩
  · unfold setDisturbance; rw [if_neg (by norm_num)]; rfl
  · show (0 : ℝ) < 1 / 100; norm_num
  · exact Real.sqrt_pos.mpr (by norm_num)

/-- Without `NDEBUG` the Hessians are not written at all: a fresh (zero) data keeps `Lxx = 0`. -/
theorem C105_debug_counterexample (qs : (Fin 2 → ℝ) → ℕ → ℝ → Fin 1 → ℝ) (ejac ehess : ℝ)
    (d : Data 1 2 1 2 1 1) (hd : d.Lxx = 0) (x : Fin 2 → ℝ) (u : Fin 1 → ℝ) :
    let m := demoLQ.wrap qs ejac ehess false false
    (diffXU m (calcXU m d x u) x u).Lxx ≠ demoLQ.p.Q := by
  intro m
  obtain ⟨-, -, -, -, -, -, -, -, -, -, -, -, -, -, a⟩ := C105_quotients m d x u
  rw [(a rfl rfl).1, hd]
  intro h
  have : (0 : ℝ) = 1 := congrFun (congrFun h 0) 1
  exact zero_ne_one this

/-- `set_disturbance(0)` is accepted, and then every quotient divides by `0`. -/
theorem C105_zero_disturbance_counterexample (m : Model X nv n nu nr ng nh) (x : X) (u : Fin nu → ℝ) :
    ∃ w, setDisturbance m 0 = some w ∧ stepX w w.ejac x = 0 ∧ stepU w.ejac u = 0 := by
  refine ⟨_, by unfold setDisturbance; rw [if_neg (lt_irrefl _)], ?_, ?_⟩ <;> simp [stepX, stepU]

/-- C70 is false for this wrapper: the cast loses the Gauss approximation and the disturbance. -/
theorem C70_diffnumdiff_counterexample (st : StateOps X n) (ev : X → (Fin nu → ℝ) → Res nv nr ng nh)
    (evT : X → Res nv nr ng nh) (qs : X → ℕ → ℝ → Fin nu → ℝ) (eps eps' : ℝ) (nd : Bool) (hnr : nr ≠ 1) :
    ∃ w c, create st ev evT qs eps true nd = some w ∧ castM eps' w = some c ∧ c.gauss ≠ w.gauss ∧
    ∃ e w' c', 0 < e ∧ setDisturbance w e = some w' ∧ castM eps' w' = some c' ∧ c'.ejac ≠ w'.ejac := by
  refine ⟨_, _, by unfold create; rw [if_neg (fun h => hnr h.2)], by unfold castM create; rw [if_neg (by simp)],
    by simp, √(2 * eps') + 1, _, _, by positivity,
    by unfold setDisturbance; rw [if_neg (not_lt.mpr (by positivity))],
    by unfold castM create; rw [if_neg (by simp)], ?_⟩
  exact (lt_add_one _).ne

end Verif.NumDiffD
