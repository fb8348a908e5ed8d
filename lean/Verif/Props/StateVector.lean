import Verif.Model.StateVector
import Verif.Spec.Dense
import Mathlib.Algebra.BigOperators.Ring.Finset
import Mathlib.Algebra.Field.Rat
import Mathlib.Tactic.Ring

/-!
# C44: the vector state
-/

set_option linter.unusedSectionVars false

namespace Verif.StateVector

open Verif.Dense

/-! ## Specification -/

section Spec

variable {K : Type*} [Field K]

/-- Two vectors with the same size and the same entries. -/
def SameVec (x y : DVec K) : Prop := x.size = y.size ∧ ∀ i < x.size, x.e i = y.e i

/-- `J0` and `J1` are the Jacobians of a function `f` of two vectors (affine in both): increments
of `f` are the products with the increments of the arguments. -/
def AreJacobians (n : ℕ) (f : DVec K → DVec K → ℕ → K) (J0 J1 : ℕ → ℕ → K) : Prop :=
  ∀ a b h k : ℕ → K, ∀ i < n,
    f ⟨n, fun j => a j + h j⟩ ⟨n, fun j => b j + k j⟩ i - f ⟨n, a⟩ ⟨n, b⟩ i
      = ∑ j ∈ Finset.range n, (J0 i j * h j + J1 i j * k j)

/-- The buffer `J'` is the buffer `J` after `J op= D`. -/
def Assigned (n : ℕ) (op : AssignOp) (J J' : DMat K) (D : ℕ → ℕ → K) : Prop :=
  J'.rows = J.rows ∧ J'.cols = J.cols ∧
    ∀ i < n, ∀ j < n, op.Gives (J.e i j) (J'.e i j) (D i j)

/-- A matrix of the given size. -/
def IsSquare (n : ℕ) (J : DMat K) : Prop := J.rows = n ∧ J.cols = n

end Spec

section Lemmas

variable {K : Type*} [Field K]

private theorem jac_unique (n : ℕ) (f : DVec K → DVec K → ℕ → K) (J0 J1 D0 D1 : ℕ → ℕ → K)
    (h : AreJacobians n f J0 J1) (h' : AreJacobians n f D0 D1) :
    ∀ i < n, ∀ j < n, J0 i j = D0 i j ∧ J1 i j = D1 i j := by
  intro i hi j hj
  constructor
  · have a := h (fun _ => 0) (fun _ => 0) (fun l => if l = j then 1 else 0) (fun _ => 0) i hi
    have b := h' (fun _ => 0) (fun _ => 0) (fun l => if l = j then 1 else 0) (fun _ => 0) i hi
    rw [a] at b
    simpa [hj] using b
  · have a := h (fun _ => 0) (fun _ => 0) (fun _ => 0) (fun l => if l = j then 1 else 0) i hi
    have b := h' (fun _ => 0) (fun _ => 0) (fun _ => 0) (fun l => if l = j then 1 else 0) i hi
    rw [a] at b
    simpa [hj] using b

private theorem jac_diff (n : ℕ) (o : DVec K) (ho : o.size = n) :
    AreJacobians n (fun a b => (diff n a b o).2.e)
      (fun i j => if i = j then (-1 : K) else 0) (fun i j => if i = j then 1 else 0) := by
  intro a b h k i hi
  simp only [diff, ho]
  simp [Finset.sum_add_distrib, hi]
  ring

private theorem jac_integrate (n : ℕ) (o : DVec K) (ho : o.size = n) :
    AreJacobians n (fun a b => (integrate n a b o).2.e)
      (fun i j => if i = j then (1 : K) else 0) (fun i j => if i = j then 1 else 0) := by
  intro a b h k i hi
  simp only [integrate, ho]
  simp [Finset.sum_add_distrib, hi]
  ring

end Lemmas

section C44

variable {K : Type*} [Field K]

/-- C44: integrating the difference from `x` to `y` gives `y`. -/
theorem C44_integrate_diff (n : ℕ) (x y d o : DVec K) (hx : x.size = n) (hy : y.size = n)
    (hd : d.size = n) (ho : o.size = n) :
    (diff n x y d).1 = .ok ∧ (integrate n x (diff n x y d).2 o).1 = .ok ∧
    SameVec (integrate n x (diff n x y d).2 o).2 y := by
  simp [diff, integrate, SameVec, hx, hy, hd, ho]

/-- C44: the difference from `x` to the integration of `dx` at `x` is `dx`. -/
theorem C44_diff_integrate (n : ℕ) (x dx d o : DVec K) (hx : x.size = n) (hdx : dx.size = n)
    (hd : d.size = n) (ho : o.size = n) :
    (integrate n x dx o).1 = .ok ∧ (diff n x (integrate n x dx o).2 d).1 = .ok ∧
    SameVec (diff n x (integrate n x dx o).2 d).2 dx := by
  simp [diff, integrate, SameVec, hx, hdx, hd, ho]

/-- C44: the difference of a state with itself is zero and integration of zero is the identity. -/
theorem C44_neutral (n : ℕ) (x d o : DVec K) (hx : x.size = n) (hd : d.size = n)
    (ho : o.size = n) :
    SameVec (diff n x x d).2 ⟨n, fun _ => 0⟩ ∧ SameVec (integrate n x ⟨n, fun _ => 0⟩ o).2 x := by
  simp [diff, integrate, SameVec, hx, hd, ho]

/-- C44: `diff` and `integrate` throw exactly on a wrong size, and then leave the output. -/
theorem C44_rejects (n : ℕ) (a b o : DVec K) :
    ((diff n a b o).1 = .throw ↔ a.size ≠ n ∨ b.size ≠ n ∨ o.size ≠ n) ∧
    ((integrate n a b o).1 = .throw ↔ a.size ≠ n ∨ b.size ≠ n ∨ o.size ≠ n) ∧
    ((diff n a b o).1 = .throw → (diff n a b o).2 = o) ∧
    ((integrate n a b o).1 = .throw → (integrate n a b o).2 = o) := by
  unfold diff integrate
  by_cases h1 : a.size = n <;> by_cases h2 : b.size = n <;> by_cases h3 : o.size = n <;>
    simp [h1, h2, h3]

/-- C44: `Jdiff` writes the Jacobians of `diff` into the requested buffers and leaves the
other. -/
theorem C44_Jdiff (n : ℕ) (o : DVec K) (ho : o.size = n) (D0 D1 : ℕ → ℕ → K)
    (hD : AreJacobians n (fun a b => (diff n a b o).2.e) D0 D1) (J0 J1 : DMat K) (fs : Jcomp)
    (h0 : fs = .second ∨ IsSquare n J0) (h1 : fs = .first ∨ IsSquare n J1) :
    let r := Jdiff n J0 J1 fs
    r.1 = .ok ∧
    (fs ≠ .second → Assigned n .setto J0 r.2.1 D0) ∧ (fs = .second → r.2.1 = J0) ∧
    (fs ≠ .first → Assigned n .setto J1 r.2.2 D1) ∧ (fs = .first → r.2.2 = J1) := by
  have hu := jac_unique n _ _ _ _ _ (jac_diff n o ho) hD
  have a0 : Assigned n .setto J0 (setDiag (-1) J0) D0 :=
    ⟨rfl, rfl, fun i hi j hj => (AssignOp.gives_iff _ _ _ _).mpr (hu i hi j hj).1⟩
  have a1 : Assigned n .setto J1 (setDiag 1 J1) D1 :=
    ⟨rfl, rfl, fun i hi j hj => (AssignOp.gives_iff _ _ _ _).mpr (hu i hi j hj).2⟩
  cases fs <;> simp_all [Jdiff, IsSquare]

/-- C44 (partial: with `setto`, the off-diagonal entries of the buffer must be zero already, see
`C44_setto_counterexample`): `Jintegrate` sets, adds to or subtracts from the requested buffers
the Jacobians of `integrate` and leaves the other buffer. -/
theorem C44_Jintegrate_partial (n : ℕ) (o : DVec K) (ho : o.size = n) (D0 D1 : ℕ → ℕ → K)
    (hD : AreJacobians n (fun a b => (integrate n a b o).2.e) D0 D1) (J0 J1 : DMat K) (fs : Jcomp)
    (op : AssignOp)
    (h0 : fs = .second ∨ IsSquare n J0) (h1 : fs = .first ∨ IsSquare n J1)
    (z0 : op = .setto → ∀ i < n, ∀ j < n, i ≠ j → J0.e i j = 0)
    (z1 : op = .setto → ∀ i < n, ∀ j < n, i ≠ j → J1.e i j = 0) :
    let r := Jintegrate n J0 J1 fs op
    r.1 = .ok ∧
    (fs ≠ .second → Assigned n op J0 r.2.1 D0) ∧ (fs = .second → r.2.1 = J0) ∧
    (fs ≠ .first → Assigned n op J1 r.2.2 D1) ∧ (fs = .first → r.2.2 = J1) := by
  have hu := jac_unique n _ _ _ _ _ (jac_integrate n o ho) hD
  have key : ∀ (J : DMat K) (D : ℕ → ℕ → K),
      (∀ i < n, ∀ j < n, (if i = j then (1 : K) else 0) = D i j) →
      (op = .setto → ∀ i < n, ∀ j < n, i ≠ j → J.e i j = 0) →
      Assigned n op J (J.opDiag op 0 n 1) D := by
    intro J D hD hz
    refine ⟨rfl, rfl, fun i hi j hj => ?_⟩
    rw [← hD i hi j hj, AssignOp.gives_iff]
    by_cases hij : i = j
    · subst hij; simp [DMat.opDiag, hi]
    · have : ¬ (i < n ∧ j = 0 + i) := by omega
      simp only [DMat.opDiag, this, if_false, hij]
      cases op with
      | setto => exact hz rfl i hi j hj hij
      | addto => simp [AssignOp.apply]
      | rmfrom => simp [AssignOp.apply]
  have a0 := key J0 D0 (fun i hi j hj => (hu i hi j hj).1) z0
  have a1 := key J1 D1 (fun i hi j hj => (hu i hi j hj).2) z1
  cases fs <;> simp_all [Jintegrate, IsSquare]

/-- C44 is false of `Jintegrate` with `setto`: off-diagonal entries of the buffer are left as they
are, so the buffer ends up different from the Jacobian (the identity). -/
theorem C44_setto_counterexample :
    ∃ J : DMat ℚ, IsSquare 2 J ∧ (Jintegrate 2 J J .both .setto).1 = .ok ∧
      ∀ D0 D1, AreJacobians 2 (fun a b => (integrate 2 a b ⟨2, fun _ => 0⟩).2.e) D0 D1 →
        ¬ Assigned 2 .setto J (Jintegrate 2 J J .both .setto).2.1 D0 := by
  refine ⟨⟨2, 2, fun _ _ => 5⟩, ⟨rfl, rfl⟩, by decide, fun D0 D1 hD hA => ?_⟩
  have hu := jac_unique 2 _ _ _ _ _ (jac_integrate 2 ⟨2, fun _ => (0 : ℚ)⟩ rfl) hD
  have h1 := (AssignOp.gives_iff _ _ _ _).mp (hA.2.2 0 (by decide) 1 (by decide))
  rw [show AssignOp.apply .setto _ (D0 0 1) = D0 0 1 from rfl,
    ← (hu 0 (by decide) 1 (by decide)).1] at h1
  exact absurd h1 (by decide)

/-- C44: the derivative functions throw exactly when a requested buffer has a wrong size; with
`both` the first buffer may have been written before. -/
theorem C44_J_rejects (n : ℕ) (J0 J1 : DMat K) (fs : Jcomp) (op : AssignOp) :
    ((Jdiff n J0 J1 fs).1 = .throw ↔
      (fs ≠ .second ∧ ¬ IsSquare n J0) ∨ (fs ≠ .first ∧ ¬ IsSquare n J1)) ∧
    ((Jintegrate n J0 J1 fs op).1 = .throw ↔
      (fs ≠ .second ∧ ¬ IsSquare n J0) ∨ (fs ≠ .first ∧ ¬ IsSquare n J1)) := by
  unfold Jdiff Jintegrate IsSquare
  cases fs <;> by_cases h1 : J0.rows = n <;> by_cases h2 : J0.cols = n <;>
    by_cases h3 : J1.rows = n <;> by_cases h4 : J1.cols = n <;> simp [h1, h2, h3, h4]

/-- C44: the parallel transport is the identity for the vector state and is refused for
`both`. -/
theorem C44_transport (J : DMat K) (fs : Jcomp) :
    (JintegrateTransport J fs).2 = J ∧ ((JintegrateTransport J fs).1 = .throw ↔ fs = .both) := by
  cases fs <;> simp [JintegrateTransport]

/-- C44: passing one buffer twice with `both` counts the identity twice when adding. -/
theorem C44_alias (n : ℕ) (J : DMat K) (hJ : IsSquare n J) (i : ℕ) (hi : i < n) :
    (JintegrateInto n J .both .addto).2.e i i = J.e i i + 1 + 1 ∧
    (JintegrateInto n J .first .addto).2.e i i = J.e i i + 1 ∧
    (JintegrateInto n J .both .setto).2.e i i = 1 := by
  obtain ⟨h1, h2⟩ := hJ
  simp [JintegrateInto, DMat.opDiag, AssignOp.apply, h1, h2, hi]

/-- Jacobians as in the hypotheses exist (and the theorem applies to buffers of size three). -/
example : ∃ D0 D1, AreJacobians 3 (fun a b => (integrate 3 a b ⟨3, fun _ => (0 : ℚ)⟩).2.e) D0 D1 ∧
    IsSquare 3 (⟨3, 3, fun _ _ => (0 : ℚ)⟩ : DMat ℚ) :=
  ⟨_, _, jac_integrate 3 _ rfl, rfl, rfl⟩

/-- C44 (limits): after any sequence of `set_lb`/`set_ub` calls, the vectors have `nx` entries and
`has_limits` says whether some entry of either is finite. -/
theorem C44_limits (nx : ℕ) (ops : List (LimOp K)) :
    let s := ops.foldl Limits.step (Limits.init nx)
    s.nx = nx ∧ s.lb.length = nx ∧ s.ub.length = nx ∧
      (s.has_limits = true ↔ (∃ v, some v ∈ s.lb) ∨ (∃ v, some v ∈ s.ub)) := by
  suffices ∀ s : Limits K, (s.nx = nx ∧ s.lb.length = nx ∧ s.ub.length = nx ∧
      (s.has_limits = true ↔ (∃ v, some v ∈ s.lb) ∨ (∃ v, some v ∈ s.ub))) →
      (let s := ops.foldl Limits.step s
      s.nx = nx ∧ s.lb.length = nx ∧ s.ub.length = nx ∧
      (s.has_limits = true ↔ (∃ v, some v ∈ s.lb) ∨ (∃ v, some v ∈ s.ub))) from
    this _ ⟨rfl, by simp [Limits.init], by simp [Limits.init], by simp [Limits.init]⟩
  have key : ∀ s : Limits K, s.update.has_limits = true ↔
      (∃ v, some v ∈ s.lb) ∨ (∃ v, some v ∈ s.ub) := by
    intro s
    simp only [Limits.update, Bool.or_eq_true, List.any_eq_true, Option.isSome_iff_exists]
    constructor
    · rintro (⟨_, h, v, rfl⟩ | ⟨_, h, v, rfl⟩)
      · exact Or.inl ⟨v, h⟩
      · exact Or.inr ⟨v, h⟩
    · rintro (⟨v, h⟩ | ⟨v, h⟩)
      · exact Or.inl ⟨_, h, v, rfl⟩
      · exact Or.inr ⟨_, h, v, rfl⟩
  induction ops with
  | nil => exact fun s h => h
  | cons a l ih =>
    intro s h
    refine ih _ ?_
    obtain ⟨hn, hl, hu, hh⟩ := h
    cases a with
    | lb v =>
      simp only [Limits.step, Limits.setLb]
      split
      · exact ⟨hn, hl, hu, hh⟩
      · rename_i hv
        exact ⟨hn, by simp only [Limits.update]; omega, hu, key _⟩
    | ub v =>
      simp only [Limits.step, Limits.setUb]
      split
      · exact ⟨hn, hl, hu, hh⟩
      · rename_i hv
        exact ⟨hn, hl, by simp only [Limits.update]; omega, key _⟩

end C44

end Verif.StateVector
