import Verif.Model.PyWrap
import Mathlib.Algebra.Order.Ring.Int

/-!
# C122: models written in Python are called as models in C++ are
-/

namespace Verif.PyWrap

variable {K : Type}

/-! ### Specification -/

/-- What is assumed of `std::isnan(u.lpNorm<Infinity>())`: true for a non-empty vector of NaN, false for a vector
without NaN. For vectors with some NaN the library gives no guarantee. -/
structure NanNorm (nan : Vec K → Bool) : Prop where
  all : ∀ u : Vec K, u ≠ [] → (∀ a ∈ u, a = none) → nan u = true
  no : ∀ u : Vec K, (∀ a ∈ u, a ≠ none) → nan u = false

/-- The classes that pass on the absence of a control. -/
def Optional (c : Cls) : Prop := c ≠ .integrated ∧ c ≠ .actuation

theorem run_optional (nan : Vec K → Bool) (m : Model K) (hm : Optional m.cls) (f : Method) (x u : Vec K)
    (hx : x.length = m.nx) (hu : u.length = m.nu) :
    m.run nan f x u = .py (if nan u then .one f x else .two f x u) := by
  unfold Model.run
  rw [if_neg (not_not.2 hx), if_neg (not_not.2 hu)]
  rcases hm with ⟨h1, h2⟩
  cases h : m.cls <;> simp_all <;> split <;> rfl

/-! ### Theorems -/

/-- C122 (sizes): for every class, a state or a control of the wrong size raises an exception and Python is not
entered; with the right sizes Python is entered exactly once. -/
theorem C122_sizes (nan : Vec K → Bool) (m : Model K) (f : Method) (x u : Vec K) :
    (m.run nan f x u = .raised ↔ x.length ≠ m.nx ∨ u.length ≠ m.nu) ∧
    ((∃ c, m.run nan f x u = .py c) ↔ x.length = m.nx ∧ u.length = m.nu) := by
  by_cases hx : x.length = m.nx
  · by_cases hu : u.length = m.nu
    · have : ∃ c, m.run nan f x u = .py c := by
        unfold Model.run
        rw [if_neg (not_not.2 hx), if_neg (not_not.2 hu)]
        split
        · exact ⟨_, rfl⟩
        · exact ⟨_, rfl⟩
        · split <;> exact ⟨_, rfl⟩
      obtain ⟨c, hc⟩ := this
      rw [hc]
      exact ⟨⟨fun h => (nomatch h), fun h => absurd h (by simp [hx, hu])⟩, ⟨fun _ => ⟨hx, hu⟩, fun _ => ⟨c, rfl⟩⟩⟩
    · have : m.run nan f x u = .raised := by
        unfold Model.run
        rw [if_neg (not_not.2 hx), if_pos hu]
      rw [this]
      exact ⟨⟨fun _ => Or.inr hu, fun _ => rfl⟩, ⟨fun ⟨_, h⟩ => (nomatch h), fun h => absurd h.2 hu⟩⟩
  · have : m.run nan f x u = .raised := by
      unfold Model.run
      rw [if_pos hx]
    rw [this]
    exact ⟨⟨fun _ => Or.inl hx, fun _ => rfl⟩, ⟨fun ⟨_, h⟩ => (nomatch h), fun h => absurd h.1 hx⟩⟩

/-- C122 (running nodes): a call with a state and a control without NaN reaches the Python method of the same name
with the same state and control, for every class. -/
theorem C122_running {nan : Vec K → Bool} (hnan : NanNorm nan) (m : Model K) (f : Method) (x u : Vec K)
    (hx : x.length = m.nx) (hu : u.length = m.nu) (hn : ∀ a ∈ u, a ≠ none) :
    m.run nan f x u = .py (.two f x u) := by
  by_cases hm : Optional m.cls
  · rw [run_optional nan m hm f x u hx hu, hnan.no u hn]; rfl
  · unfold Model.run
    rw [if_neg (not_not.2 hx), if_neg (not_not.2 hu)]
    have : m.cls = .integrated ∨ m.cls = .actuation := by
      unfold Optional at hm
      by_contra h
      exact hm (not_or.1 h)
    rcases this with h | h <;> rw [h]

/-- C122 (terminal nodes). Action, differential, residual, cost and constraint models with at least one control: a call
without control reaches the Python method of the same name without control. -/
theorem C122_terminal_partial [Zero K] {nan : Vec K → Bool} (hnan : NanNorm nan) (c : Cls) (hc : Optional c) (nx nu : Nat)
    (hnu : 0 < nu) (f : Method) (x : Vec K) (hx : x.length = nx) :
    (Model.make (K := K) c nx nu).runX nan f x = .py (.one f x) := by
  have hun : (Model.make (K := K) c nx nu).unone = List.replicate nu none := by
    rcases hc with ⟨h1, h2⟩
    cases c <;> first | rfl | exact absurd rfl h1 | exact absurd rfl h2
  have hX : (Model.make (K := K) c nx nu).runX nan f x =
      (Model.make (K := K) c nx nu).run nan f x (Model.make (K := K) c nx nu).unone := by
    rcases hc with ⟨h1, h2⟩
    cases c <;> first | rfl | exact absurd rfl h2
  rw [hX, hun, run_optional nan _ (show Optional c from hc) f x _ hx (by simp [Model.make]),
    hnan.all _ (by simp; omega) (by simp)]
  rfl

/-- C122 (problems): evaluating a problem whose nodes are Python action models with controls calls, node by node, the
method with the state and control of the node, and the terminal one with the last state alone. -/
theorem C122_problem_partial [Zero K] {nan : Vec K → Bool} (hnan : NanNorm nan) (nx : Nat) (nus : List Nat) (nuT : Nat)
    (hT : 0 < nuT) (f : Method) (xs us : List (Vec K)) (xT : Vec K) (hxs : ∀ x ∈ xs, x.length = nx)
    (hlen : xs.length = nus.length) (hus : us.map List.length = nus)
    (hn : ∀ u ∈ us, ∀ a ∈ u, a ≠ none) (hxT : xT.length = nx) :
    problemRun nan (nus.map (Model.make .action nx)) (Model.make .action nx nuT) f xs us xT =
      (xs.zip us).map (fun p => .py (.two f p.1 p.2)) ++ [.py (.one f xT)] := by
  unfold problemRun
  rw [C122_terminal_partial hnan .action ⟨by decide, by decide⟩ nx nuT hT f xT hxT]
  congr 1
  clear hxT hT
  subst hus
  induction us generalizing xs with
  | nil => simp
  | cons u us ih =>
    cases xs with
    | nil => simp
    | cons x xs =>
      simp only [List.map_cons, List.zip_cons_cons, List.cons.injEq]
      refine ⟨C122_running hnan _ f x u (hxs x List.mem_cons_self) rfl (hn u List.mem_cons_self), ?_⟩
      exact ih xs (fun y hy => hxs y (List.mem_cons_of_mem _ hy)) (fun w hw => hn w (List.mem_cons_of_mem _ hw))
        (by simpa using hlen)

/-- C122 (quasi-static controls): the control that Python computes is what the caller gets, if it has the size of the
caller's vector and that is the number of controls. -/
theorem C122_quasi_static_partial (nu : Nat) (ret u : Vec K) (hr : ret.length = nu) (hu : u.length = nu) :
    quasiStatic nu ret u = .ok ret := by
  unfold quasiStatic
  rw [if_neg (by simp [hr, hu]), if_neg (by simp [hu])]

/-- C122 (copies in another scalar type): the dimensions of action models are kept. -/
theorem C122_cast_action (d : Dims) : castAction d = d := rfl

/-- Those of differential models are kept exactly if it has as many residuals as controls. -/
theorem C122_cast_diff_partial (d : Dims) : castDiff d = d ↔ d.nu = d.nr := by
  cases d
  simp only [castDiff, Dims.ctor, Dims.mk.injEq, and_true]
  exact ⟨fun h => h.1.symm, fun h => ⟨h.symm, h⟩⟩

/-! ### Non-vacuity -/

/-- The test that looks at the whole vector. -/
def exNan : Vec Int → Bool := fun u => u.any fun a => decide (a = none)

theorem exNan_ok : NanNorm exNan where
  all u hu h := by
    cases u with
    | nil => exact absurd rfl hu
    | cons a u => simp [exNan, h a List.mem_cons_self]
  no u h := by
    simp only [exNan, List.any_eq_false, decide_eq_true_eq]
    exact h

example : problemRun exNan [Model.make .action 2 1] (Model.make .action 2 1) .calc [[some 1, some 2]] [[some 3]] [some 4, some 5]
    = [.py (.two .calc [some 1, some 2] [some 3]), .py (.one .calc [some 4, some 5])] :=
  C122_problem_partial exNan_ok 2 [1] 1 (by decide) .calc _ _ _ (by decide) rfl rfl (by decide) rfl

/-! ### Where the claim fails -/

/-- A model without controls is called with an (empty) control also at the terminal node. -/
theorem C122_autonomous_counterexample (nan : Vec Int → Bool) (hnan : NanNorm nan) (x : Vec Int) (hx : x.length = 2) :
    (Model.make (K := Int) .action 2 0).runX nan .calc x = .py (.two .calc x []) :=
  C122_running hnan (Model.make .action 2 0) .calc x [] hx rfl (by simp)

/-- An integrated model is called at the terminal node with a zero control: the Python method cannot tell it from a
running node with zero control. An actuation is not called at all. -/
theorem C122_integrated_counterexample (nan : Vec Int → Bool) (x : Vec Int) (hx : x.length = 2) :
    (Model.make (K := Int) .integrated 2 1).runX nan .calc x = .py (.two .calc x [some 0]) ∧
    (Model.make (K := Int) .integrated 2 1).runX nan .calc x =
      (Model.make (K := Int) .integrated 2 1).run nan .calc x [some 0] ∧
    (Model.make (K := Int) .actuation 2 1).runX nan .calc x = .nothing := by
  refine ⟨?_, rfl, rfl⟩
  simp [Model.runX, Model.make, Model.run, hx]

/-- A running node whose controls are NaN is evaluated as a terminal node. -/
theorem C122_nan_counterexample (nan : Vec Int → Bool) (hnan : NanNorm nan) (x : Vec Int) (hx : x.length = 2) :
    (Model.make (K := Int) .action 2 1).run nan .calc x [none] = .py (.one .calc x) := by
  rw [run_optional nan _ ⟨by decide, by decide⟩ .calc x [none] hx rfl, hnan.all _ (by simp) (by simp)]; rfl

/-- A quasi-static control of the wrong size returned by Python is not rejected: it is read out of range. The check
that follows looks at the caller's vector. -/
theorem C122_quasi_static_counterexample : quasiStatic 2 [some (1 : Int)] [some 0, some 0] = .ub := by decide

/-- The copy of a differential model with three controls and one residual has one control and three residuals. -/
theorem C122_cast_counterexample : castDiff ⟨3, 1, 0, 0, 0, 0⟩ = ⟨1, 3, 0, 0, 0, 0⟩ := rfl

end Verif.PyWrap
