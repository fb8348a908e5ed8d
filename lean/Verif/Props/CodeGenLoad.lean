import Mathlib.Tactic.Ring
import Mathlib.Tactic.Positivity
import Mathlib.Analysis.Calculus.Deriv.Pow
import Mathlib.Analysis.Calculus.Deriv.Add
import Mathlib.Analysis.Calculus.Deriv.Mul
import Verif.Props.CodeGenDiff

/-!
# C94: where it fails. C95: loading and copying code-generated models
-/

namespace Verif.Cg

set_option linter.unusedSectionVars false
set_option linter.unusedSimpArgs false

/-! ## Models used as examples -/

section models

variable (K : Type) [CommRing K]

/-- A model without constraints: state and control of dimension one, one parameter, `x' = x + u`, cost `x² + p u²`. -/
def lq : Action K Unit where
  nx := 1
  ndx := 1
  nu := 1
  ng := 0
  nh := 0
  ngT := 0
  nhT := 0
  ulb := [-1]
  uub := [1]
  limits := true
  branch _ _ := ()
  run _ p x u := ⟨x.getD 0 0 ^ 2 + p.getD 0 0 * u.getD 0 0 ^ 2, [x.getD 0 0 + u.getD 0 0], [], []⟩
  runT _ _ x := ⟨x.getD 0 0 ^ 2, [], []⟩
  diff _ p x u :=
    { Fx := ⟨1, 1, [1]⟩, Fu := ⟨1, 1, [1]⟩, Lx := ⟨1, 1, [2 * x.getD 0 0]⟩, Lu := ⟨1, 1, [2 * p.getD 0 0 * u.getD 0 0]⟩,
      Lxx := ⟨1, 1, [2]⟩, Lxu := ⟨1, 1, [0]⟩, Luu := ⟨1, 1, [2 * p.getD 0 0]⟩, Gx := ⟨0, 1, []⟩, Gu := ⟨0, 1, []⟩, Hx := ⟨0, 1, []⟩,
      Hu := ⟨0, 1, []⟩ }
  diffT _ _ x := { Lx := ⟨1, 1, [2 * x.getD 0 0]⟩, Lxx := ⟨1, 1, [2]⟩, Gx := ⟨0, 1, []⟩, Hx := ⟨0, 1, []⟩ }
  quasi _ p _ x := [p.getD 0 0 * x.getD 0 0]
  checkOwn := true
  checkOther := false

theorem lq_wf : (lq K).Wf 1 where
  value _ _ _ _ _ _ _ := by simp [lq]
  diff _ _ _ _ _ _ _ := by simp [lq, Mx.Shape, Mx.Ok]
  terminal := ⟨0, 0, by simp [lq], by simp [lq], by simp [lq], by simp [lq, Mx.Shape, Mx.Ok]⟩
  quasi _ _ _ _ _ _ _ := by simp [lq]

end models

/-- The same dynamics, cost `|x|` (computed with a comparison). -/
def absModel : Action ℤ Bool where
  nx := 1
  ndx := 1
  nu := 1
  ng := 0
  nh := 0
  ngT := 0
  nhT := 0
  ulb := [-1]
  uub := [1]
  limits := true
  branch _ X := decide (0 ≤ X.getD 0 0)
  run b _ x u := ⟨if b then x.getD 0 0 else - x.getD 0 0, [x.getD 0 0 + u.getD 0 0], [], []⟩
  runT b _ x := ⟨if b then x.getD 0 0 else - x.getD 0 0, [], []⟩
  diff b _ _ _ :=
    { Fx := ⟨1, 1, [1]⟩, Fu := ⟨1, 1, [1]⟩, Lx := ⟨1, 1, [if b then 1 else -1]⟩, Lu := ⟨1, 1, [0]⟩,
      Lxx := ⟨1, 1, [0]⟩, Lxu := ⟨1, 1, [0]⟩, Luu := ⟨1, 1, [0]⟩, Gx := ⟨0, 1, []⟩, Gu := ⟨0, 1, []⟩, Hx := ⟨0, 1, []⟩,
      Hu := ⟨0, 1, []⟩ }
  diffT b _ _ := { Lx := ⟨1, 1, [if b then 1 else -1]⟩, Lxx := ⟨1, 1, [0]⟩, Gx := ⟨0, 1, []⟩, Hx := ⟨0, 1, []⟩ }
  quasi _ _ _ _ := [0]
  checkOwn := true
  checkOther := false

theorem absModel_wf : absModel.Wf 0 where
  value _ _ _ _ _ _ _ := by simp [absModel]
  diff _ _ _ _ _ _ _ := by simp [absModel, Mx.Shape, Mx.Ok]
  terminal := ⟨0, 0, by simp [absModel], by simp [absModel], by simp [absModel], by simp [absModel, Mx.Shape, Mx.Ok]⟩
  quasi _ _ _ _ _ _ _ := by simp [absModel]

/-- State of dimensions `n` and `m`, which does not move, one control, no cost, constraints `c` (numbering `k`). -/
def plane (n m k : ℕ) (c : List ℤ → List ℤ) : Action ℤ Unit where
  nx := n
  ndx := m
  nu := 1
  ng := k
  nh := 0
  ngT := 0
  nhT := 0
  ulb := [-1]
  uub := [1]
  limits := true
  branch _ _ := ()
  run _ _ x _ := ⟨0, x, c x, []⟩
  runT _ _ _ := ⟨0, [], []⟩
  diff _ _ _ _ :=
    { Fx := zeroMx m m, Fu := zeroMx m 1, Lx := zeroMx m 1, Lu := zeroMx 1 1, Lxx := zeroMx m m, Lxu := zeroMx m 1,
      Luu := zeroMx 1 1, Gx := zeroMx k m, Gu := zeroMx k 1, Hx := zeroMx 0 m, Hu := zeroMx 0 1 }
  diffT _ _ _ := { Lx := zeroMx m 1, Lxx := zeroMx m m, Gx := zeroMx 0 m, Hx := zeroMx 0 m }
  quasi _ _ _ _ := [0]
  checkOwn := true
  checkOther := false

theorem plane_wf (n m k : ℕ) (c : List ℤ → List ℤ) (np : ℕ) (hc : ∀ x, (c x).length = k) : (plane n m k c).Wf np where
  value _ _ _ _ _ h _ := by simp only [plane] at h ⊢; simp [h, hc]
  diff _ _ _ _ _ _ _ := by simp [plane, Mx.Shape, Mx.Ok, zeroMx, zeros]
  terminal := ⟨0, 0, by simp [plane], by simp [plane], by simp [plane], by simp [plane, Mx.Shape, Mx.Ok, zeroMx, zeros]⟩
  quasi _ _ _ _ _ _ _ := by simp [plane]

/-- A state with two coordinates and one direction (a point of a circle), which does not move; cost `u`. -/
noncomputable def circle : Action ℝ Unit where
  nx := 2
  ndx := 1
  nu := 1
  ng := 0
  nh := 0
  ngT := 0
  nhT := 0
  ulb := [-1]
  uub := [1]
  limits := true
  branch _ _ := ()
  run _ _ x u := ⟨u.getD 0 0, x, [], []⟩
  runT _ _ _ := ⟨0, [], []⟩
  diff _ _ _ _ :=
    { Fx := ⟨1, 1, [1]⟩, Fu := ⟨1, 1, [0]⟩, Lx := ⟨1, 1, [0]⟩, Lu := ⟨1, 1, [1]⟩, Lxx := ⟨1, 1, [0]⟩, Lxu := ⟨1, 1, [0]⟩,
      Luu := ⟨1, 1, [0]⟩, Gx := ⟨0, 1, []⟩, Gu := ⟨0, 1, []⟩, Hx := ⟨0, 1, []⟩, Hu := ⟨0, 1, []⟩ }
  diffT _ _ _ := { Lx := ⟨1, 1, [0]⟩, Lxx := ⟨1, 1, [0]⟩, Gx := ⟨0, 1, []⟩, Hx := ⟨0, 1, []⟩ }
  quasi _ _ _ _ := [0]
  checkOwn := true
  checkOther := false

theorem circle_wf : circle.Wf 0 where
  value _ _ _ _ _ h _ := by simp only [circle] at h ⊢; simp [h]
  diff _ _ _ _ _ _ _ := by simp [circle, Mx.Shape, Mx.Ok]
  terminal := ⟨0, 0, by simp [circle], by simp [circle], by simp [circle], by simp [circle, Mx.Shape, Mx.Ok]⟩
  quasi _ _ _ _ _ _ _ := by simp [circle]

/-! ## Non-vacuity of C94 -/

/-- The example model can be generated, both ways, and run: after `update_p([3])`, `calc` at `x = 2`, `u = 1` gives the cost 7 and
`calcDiff` the derivative 6 by the control. -/
example : ∃ G, make (lq ℤ) false 1 ⟨[0, 0, 0], [0, 0], [0], [0]⟩ = some G ∧ ∀ D, ∃ s,
    G.run D (G.create 0) [.calc [1] [1], .params [3], .diff [0] [5], .calc [2] [1], .diff [2] [1]] = some s ∧ s.data.cost = 7
      ∧ s.data.xnext = [3] ∧ s.data.d.Lu.entry 0 0 = some 6 := by
  refine ⟨_, rfl, fun D => ⟨_, rfl, ?_, ?_, ?_⟩⟩ <;> decide

/-- An automatic differentiation that is exact for every function: the (mathematical) derivatives. -/
noncomputable def mathDiff : Diff ℝ where
  jac f X := List.ofFn fun k : Fin (((f X).getD []).length * X.length) =>
    deriv (fun t => ((f (X.set (k.1 % X.length) t)).getD []).getD (k.1 / X.length) 0) (X.getD (k.1 % X.length) 0)
  hess f X _ := List.ofFn fun k : Fin (X.length * X.length) =>
    deriv (fun t => deriv (fun s => ((f ((X.set (k.1 / X.length) t).set (k.1 % X.length) s)).getD []).getD 0 0)
      ((X.set (k.1 / X.length) t).getD (k.1 % X.length) 0)) (X.getD (k.1 / X.length) 0)

theorem index {i j n m : ℕ} (hi : i < m) (hj : j < n) : i * n + j < m * n ∧ (i * n + j) % n = j ∧ (i * n + j) / n = i := by
  refine ⟨?_, ?_, ?_⟩
  · calc i * n + j < i * n + n := by omega
      _ = (i + 1) * n := by ring
      _ ≤ m * n := Nat.mul_le_mul_right n hi
  · rw [Nat.add_comm, Nat.add_mul_mod_self_right, Nat.mod_eq_of_lt hj]
  · rw [Nat.add_comm, Nat.add_mul_div_right _ _ (by omega), Nat.div_eq_of_lt hj, Nat.zero_add]

theorem mathDiff_exact (f : List ℝ → Option (List ℝ)) : mathDiff.Exact f where
  size_jac X Y h := by simp [mathDiff, h]
  size_hess X w := by simp [mathDiff]
  jac X Y i j d hY hi hj h := by
    obtain ⟨h1, h2, h3⟩ := index hi hj
    simp only [mathDiff]
    rw [List.getElem?_eq_getElem (by simpa [hY] using h1), List.getElem_ofFn]
    simp only [h2, h3, h.deriv]
  hess X w n i j d _ hi hj h := by
    obtain ⟨h1, h2, h3⟩ := index hi hj
    simp only [mathDiff]
    rw [List.getElem?_eq_getElem (by simpa using h1), List.getElem_ofFn]
    simp only [h2, h3, h.deriv]

/-- `C94_autodiff_partial` applies to the example: with automatic derivatives, after `update_p([3])`, the derivative of the cost by the
control at `x = 2`, `u = 1` is 6. -/
example : ∃ G, make (lq ℝ) true 1 ⟨[0, 0, 0], [0, 0], [0], [0]⟩ = some G ∧ ∃ s', G.run mathDiff (G.create 0) [.params [3], .diff [2] [1]]
    = some s' ∧ s'.data.d.Lu.entry 0 0 = some 6 := by
  obtain ⟨G, hG⟩ := (C94_made_iff (lq ℝ) 1 (lq_wf ℝ) true ⟨[0, 0, 0], [0, 0], [0], [0]⟩ (by simp [Point.Sized, lq])).2
    (by simp [Action.Free, lq])
  refine ⟨G, hG, ?_⟩
  obtain ⟨s, hs, live⟩ : ∃ s, G.run mathDiff (G.create 0) [.params [3]] = some s ∧ s.ng = 0 ∧ s.nh = 0 ∧ s.ngT = 0 ∧ s.nhT = 0 := by
    obtain ⟨rfl, -, -⟩ := make_some _ _ _ _ _ hG
    exact ⟨_, rfl, rfl, rfl, rfl, rfl⟩
  obtain ⟨⟨s', h', -, hLu, -⟩, -⟩ := C94_autodiff_partial mathDiff (lq ℝ) 1 (lq_wf ℝ) ⟨[0, 0, 0], [0, 0], [0], [0]⟩
    (by simp [Point.Sized, lq]) rfl (fun _ _ _ => rfl) G hG (mathDiff_exact _) (mathDiff_exact _) 0 [.params [3]] s hs live [2] [1] rfl
    rfl
  refine ⟨s', ?_, hLu 0 6 (by simp [lq]) ?_⟩
  · rw [show ([Op.params [3], .diff [2] [1]] : List (Op ℝ)) = [.params [3]] ++ [.diff [2] [1]] from rfl, run_snoc, hs]
    exact h'
  · have e : (fun t : ℝ => ((lq ℝ).value (lastParams 1 [Op.params [3]]) [2] ([1].set 0 t)).cost) = fun t => 2 ^ 2 + 3 * t ^ 2 := by
      funext t; simp [lq, Action.value, lastParams]
    rw [e]
    have h1 := ((hasDerivAt_pow 2 (1 : ℝ)).const_mul 3).const_add ((2 : ℝ) ^ 2)
    norm_num at h1
    simpa using h1

/-! ## Where C94 fails -/

/-- Comparisons are not replayed: wherever `|x|` is recorded, the generated cost is wrong for some state. -/
theorem C94_branch_counterexample (D : Diff ℤ) (autodiff : Bool) (P : Point ℤ) (hP : P.Sized absModel 0) (nr : ℕ) :
    ∃ G, make absModel autodiff 0 P = some G ∧ ∃ x, x.length = absModel.nx ∧ ∃ s', G.step D (G.create nr) (.calc x [0]) = some s'
      ∧ s'.data.cost ≠ (absModel.value [] x [0]).cost := by
  obtain ⟨G, hG⟩ := (C94_made_iff absModel 0 absModel_wf autodiff P hP).2 (by simp [Action.Free, absModel])
  refine ⟨G, hG, ?_⟩
  have hF : absModel.Free := by simp [Action.Free, absModel]
  obtain ⟨rfl, -, -⟩ := make_some _ _ _ _ _ hG
  have key : ∀ x : List ℤ, x.length = 1 → ∃ s', Gen.step D (made absModel autodiff 0 P) ((made absModel autodiff 0 P).create nr)
      (.calc x [0]) = some s' ∧ s'.data.cost = (absModel.run (absModel.branch .calc P.X) [] x [0]).cost := fun x hx =>
    ⟨_, calc_eq absModel 0 nr absModel_wf hF autodiff P [] _ (create_inv absModel autodiff 0 nr P) ⟨rfl, rfl, rfl, rfl⟩ x [0] hx rfl, rfl⟩
  by_cases h : 0 ≤ P.X.getD 0 0
  · obtain ⟨s', h1, h2⟩ := key [-1] rfl
    refine ⟨[-1], rfl, s', h1, ?_⟩
    rw [h2]
    simp only [absModel, Action.value, h, decide_true]
    decide
  · obtain ⟨s', h1, h2⟩ := key [1] rfl
    refine ⟨[1], rfl, s', h1, ?_⟩
    rw [h2]
    simp only [absModel, Action.value, h, decide_false]
    decide

/-- The residual is never computed: it keeps the zeros of the new data, after any calls. -/
theorem C94_residual_counterexample {K B : Type} [Zero K] [One K] (D : Diff K) (A : Action K B) (autodiff : Bool) (np nr : ℕ)
    (P : Point K) (G : Gen K B) (hG : make A autodiff np P = some G) (ops : List (Op K)) (s : St K)
    (hs : G.run D (G.create nr) ops = some s) : s.data.r = List.replicate nr 0 := by
  obtain ⟨rfl, -, -⟩ := make_some _ _ _ _ _ hG
  exact (run_inv D A autodiff np nr P ops s hs).r

/-- The control limits of the wrapped model are lost, and it is asked to recognise a data that is not its own. -/
theorem C94_limits_counterexample : ∃ (A : Action ℤ Unit) (P : Point ℤ) (G : Gen ℤ Unit), A.Wf 1 ∧ P.Sized A 1
    ∧ make A false 1 P = some G ∧ A.limits = true ∧ G.limits = false :=
  ⟨lq ℤ, ⟨[0, 0, 0], [0, 0], [0], [0]⟩, _, lq_wf ℤ, by simp [Point.Sized, lq], rfl, rfl, rfl⟩

/-- A code-generated model does not recognise the data it creates, if the wrapped one recognises only its own. -/
theorem C94_check_counterexample : ∃ (A : Action ℤ Unit) (P : Point ℤ) (G : Gen ℤ Unit), A.Wf 1 ∧ P.Sized A 1
    ∧ make A false 1 P = some G ∧ A.checkOwn = true ∧ G.checkData = false :=
  ⟨lq ℤ, ⟨[0, 0, 0], [0, 0], [0], [0]⟩, _, lq_wf ℤ, by simp [Point.Sized, lq], rfl, rfl, rfl⟩

/-- `quasiStatic` ignores the parameters that were set: wherever it is recorded, it returns another control than the model does with
those parameters. -/
theorem C94_quasi_counterexample (D : Diff ℤ) (autodiff : Bool) (P : Point ℤ) (hP : P.Sized (lq ℤ) 1) (nr : ℕ) :
    ∃ G, make (lq ℤ) autodiff 1 P = some G ∧ ∃ p s, p.length = 1 ∧ G.run D (G.create nr) [.params p] = some s
      ∧ ∃ u s', G.quasi s [1] = some (u, s') ∧ ∀ guess, u ≠ (lq ℤ).quasi ((lq ℤ).branch .quasi [1]) p guess [1] := by
  obtain ⟨G, hG⟩ := (C94_made_iff (lq ℤ) 1 (lq_wf ℤ) autodiff P hP).2 (by simp [Action.Free, lq])
  refine ⟨G, hG, ?_⟩
  obtain ⟨rfl, -, -⟩ := make_some _ _ _ _ _ hG
  refine ⟨[(P.XT.drop 1).getD 0 0 + 1], _, rfl, rfl, _, _, rfl, fun guess => ?_⟩
  simp [lq, made, recordQuasi]

/-- With automatic derivatives, a state with more coordinates than directions gets wrong derivatives: the derivative of the cost `u` by
`u` is read as 0, wherever the model is evaluated and however exact the differentiation is. -/
theorem C94_manifold_counterexample (D : Diff ℝ) (P : Point ℝ) (hP : P.Sized circle 0) (nr : ℕ) (a b c : ℝ) :
    ∃ G, make circle true 0 P = some G ∧ (D.Exact G.calcFun → ∃ s', G.step D (G.create nr) (.diff [a, b] [c]) = some s'
      ∧ s'.data.d.Lu.entry 0 0 = some 0 ∧ (circle.derivs [] [a, b] [c]).Lu.entry 0 0 = some 1) := by
  obtain ⟨G, hG⟩ := (C94_made_iff circle 0 circle_wf true P hP).2 (by simp [Action.Free, circle])
  refine ⟨G, hG, ?_⟩
  obtain ⟨rfl, -, -⟩ := make_some _ _ _ _ _ hG
  intro hD
  set f := (made circle true 0 P).calcFun with hf
  have hY : ∀ x y u, f [x, y, u] = some [u, x, y] := fun x y u => rfl
  have lJ : (D.jac f [a, b, c]).length = 9 := hD.size_jac _ _ (hY a b c)
  have lH : ∀ w, (D.hess f [a, b, c] w).length = 9 := hD.size_hess _
  have h0 : (D.jac f [a, b, c])[1]? = some 0 := by
    refine hD.jac [a, b, c] _ 0 1 0 (hY a b c) (by simp) (by simp) ?_
    simpa [hY] using hasDerivAt_const b c
  obtain ⟨d, hd, hLu⟩ : ∃ d, (made circle true 0 P).setD1 ((made circle true 0 P).create nr) (D.jac f [a, b, c])
      (D.hess f [a, b, c] (made circle true 0 P).w) = some d ∧ d.Lu.entry 0 0 = some 0 := by
    simp [Gen.setD1, view, viewT, viewB, lJ, lH, show (made circle true 0 P).A = circle from rfl,
      show (made circle true 0 P).np = 0 from rfl, show circle.ndx = 1 from rfl, show circle.nu = 1 from rfl,
      show ((made circle true 0 P).create nr).ng = 0 from rfl, show ((made circle true 0 P).create nr).nh = 0 from rfl,
      Mx.entry, List.getElem?_take, List.getElem?_drop, h0]
    exact (List.getElem?_eq_some_iff.1 h0).2
  refine ⟨{ (made circle true 0 P).create nr with data := { ((made circle true 0 P).create nr).data with X := [a, b, c], d } }, ?_, hLu,
    by simp [Action.derivs, circle, Mx.entry]⟩
  simp only [Gen.step, Gen.diff]
  rw [show assign ((made circle true 0 P).create nr).data.X 0 (made circle true 0 P).A.nx [a, b] = some [a, b, 0] from rfl]
  simp only [Option.bind_eq_bind, Option.bind_some]
  rw [show assign [a, b, 0] (made circle true 0 P).A.nx (made circle true 0 P).A.nu [c] = some [a, b, c] from rfl]
  simp only [Option.bind_eq_bind, Option.bind_some]
  rw [show (made circle true 0 P).autodiff = true from rfl, if_pos rfl, if_pos (by simp [made, zeros]), ← hf, hd]
  rfl

/-- A constraint that is activated in the wrapped model after generation makes `calc` read outside the outputs of the library. -/
theorem C94_activated_counterexample {K B : Type} [Zero K] [One K] (D : Diff K) (A : Action K B) (np : ℕ) (hA : A.Wf np)
    (autodiff : Bool) (P : Point K) (hP : P.Sized A np) (G : Gen K B) (hG : make A autodiff np P = some G) (nr : ℕ)
    (x u : List K) (hx : x.length = A.nx) (hu : u.length = A.nu) (ng : ℕ) (pos : 0 < ng) :
    G.run D (G.create nr) [.constraints ng 0 0 0, .calc x u] = none := by
  have hF := (C94_made_iff A np hA autodiff P hP).1 ⟨G, hG⟩
  obtain ⟨rfl, -, -⟩ := make_some _ _ _ _ _ hG
  obtain ⟨hp, ⟨x₀, u₀, eX, hx₀, hu₀⟩, -, -⟩ := create_inv A autodiff np nr P
  obtain ⟨hv, hg, hh⟩ := hA.value (A.branch .calc P.X) _ x u hp hx hu
  rw [hF.1] at hg
  rw [hF.2.1] at hh
  simp only [Gen.run, List.foldlM_cons, List.foldlM_nil, Gen.step, Gen.calc, Option.bind_eq_bind, Option.bind_some]
  rw [← Option.bind_assoc (x := assign _ _ _ _), eX, show (made A autodiff np P).A = A from rfl, assign_xu A hx₀ hu₀, if_pos ⟨hx, hu⟩,
    Option.bind_some, show (made A autodiff np P).calcFun = recordCalc A (A.branch .calc P.X) from rfl, record_calc A hA _ hx hu hp, Option.bind_some]
  rw [read, read, read]
  simp [view, hv, List.length_eq_zero_iff.1 hg, List.length_eq_zero_iff.1 hh, col]
  rw [if_neg (show ¬ 1 + A.nx + ng ≤ A.nx + 1 by omega)]
  simp

/-! ## C95 -/

section c95

variable {K B : Type} [Zero K] [One K]

theorem wrap_lt (n : ℕ) : wrap n < 2 ^ 64 := Nat.mod_lt _ (by positivity)

/-- Which fields calls depend on. -/
theorem step_congr {G G' : Gen K B} (h1 : G'.A.nx = G.A.nx) (h2 : G'.A.ndx = G.A.ndx) (h3 : G'.A.nu = G.A.nu) (h4 : G'.np = G.np)
    (h5 : G'.autodiff = G.autodiff) (h6 : G'.nX3 = G.nX3) (h7 : G'.calcFun = G.calcFun) (h8 : G'.calcFunT = G.calcFunT)
    (h9 : G'.diffFun = G.diffFun) (h10 : G'.diffFunT = G.diffFunT) (h11 : G'.quasiFun = G.quasiFun)
    (h12 : G.autodiff = true → G'.nY1 = G.nY1 ∧ G'.nY1T = G.nY1T ∧ G'.w = G.w ∧ G'.wT = G.wT) (D : Diff K) (s : St K) (o : Op K) :
    G'.step D s o = G.step D s o := by
  by_cases ha : G.autodiff = true
  · obtain ⟨h13, h14, h15, h16⟩ := h12 ha
    cases o <;> simp only [Gen.step, Gen.params, Gen.calc, Gen.calcT, Gen.diff, Gen.diffT, Gen.setD1, Gen.setD1T, Gen.quasi, h1, h2,
      h3, h4, h5, h6, h7, h8, h9, h10, h11, h13, h14, h15, h16]
  · have ha : G.autodiff = false := by simpa using ha
    cases o <;> simp only [Gen.step, Gen.params, Gen.calc, Gen.calcT, Gen.diff, Gen.diffT, Gen.setD1, Gen.setD1T, Gen.quasi, h1, h2,
      h3, h4, h5, h6, h7, h8, h9, h10, h11, ha, Bool.false_eq_true, if_false]

theorem run_congr {G G' : Gen K B} (D : Diff K) (h : ∀ s o, G'.step D s o = G.step D s o) (s : St K) (ops : List (Op K)) :
    G'.run D s ops = G.run D s ops := by
  simp only [Gen.run]
  congr 1
  funext s o
  exact h s o

theorem load_iff (A : Action K B) (L : Sizes) (np : ℕ) : load A L = some np ↔ np = wrap (L.nXT + 2 ^ 64 - A.nx)
    ∧ L.nX = wrap (A.nx + A.nu + np) ∧ L.nXT = wrap (A.nx + np) ∧ L.nY1 = 1 + A.nx + A.ng + A.nh ∧ L.nY1T = 1 ∧ L.nY3 = A.nu := by
  simp only [load]
  generalize wrap (L.nXT + 2 ^ 64 - A.nx) = m
  by_cases h1 : L.nX = wrap (A.nx + A.nu + m)
  · by_cases h2 : L.nXT = wrap (A.nx + m)
    · by_cases h3 : L.nY1 = 1 + A.nx + A.ng + A.nh
      · by_cases h4 : L.nY1T = 1
        · by_cases h5 : L.nY3 = A.nu
          · simp only [ne_eq, ← h1, ← h2, h3, h4, h5, not_true_eq_false, if_false, Option.some.injEq, and_true]
            constructor
            · rintro rfl; exact ⟨rfl, h1, h2⟩
            · rintro ⟨rfl, -⟩; rfl
          · simp [← h1, ← h2, h3, h4, h5]
        · simp [← h1, ← h2, h3, h4]
      · simp [← h1, ← h2, h3]
    · simp only [ne_eq, ← h1, h2, not_true_eq_false, not_false_eq_true, if_false, if_true, reduceCtorEq, false_iff]
      rintro ⟨rfl, -, h, -⟩
      exact h2 h
  · simp only [ne_eq, h1, not_false_eq_true, if_true, reduceCtorEq, false_iff]
    rintro ⟨rfl, h, -⟩
    exact h1 h

theorem diff_none (D : Diff K) (G : Gen K B) (s : St K) (x u : List K) (ha : G.autodiff = true) (h : G.w.length ≠ G.nY1) :
    G.step D s (.diff x u) = none := by
  simp only [Gen.step, Gen.diff, ha, if_true, if_neg h, Option.bind_eq_bind, Option.bind_fun_none]

theorem diffT_none (D : Diff K) (G : Gen K B) (s : St K) (x : List K) (ha : G.autodiff = true) (h : G.wT.length ≠ G.nY1T) :
    G.step D s (.diffT x) = none := by
  simp only [Gen.step, Gen.diffT, ha, if_true, if_neg h, Option.bind_eq_bind, Option.bind_fun_none]

/-- **C95**. A library is accepted for the model it was generated from, with the number of parameters it was generated with; the loaded
model has the same sizes, and does for every list of calls, from every state, the same as the generated one. Moreover, any
other model of the same dimensions gets the functions in the library, not its own. -/
theorem C95_reload (A A' : Action K B) (np : ℕ) (hA : A.Wf np) (autodiff : Bool) (P : Point K) (hP : P.Sized A np) (G : Gen K B)
    (hG : make A autodiff np P = some G) (small : A.nx + A.nu + np < 2 ^ 64)
    (same : A'.nx = A.nx ∧ A'.ndx = A.ndx ∧ A'.nu = A.nu ∧ A'.ng = A.ng ∧ A'.nh = A.nh ∧ A'.ngT = A.ngT ∧ A'.nhT = A.nhT) :
    ∃ G', G.reload A' = some G' ∧ G'.np = np ∧ (∀ nr, G'.create nr = G.create nr)
      ∧ ∀ D s ops, G'.run D s ops = G.run D s ops := by
  have hF := (C94_made_iff A np hA autodiff P hP).1 ⟨G, hG⟩
  obtain ⟨rfl, -, -⟩ := make_some _ _ _ _ _ hG
  obtain ⟨e1, e2, e3, e4, e5, e6, e7⟩ := same
  have hl : load A' (made A autodiff np P).sizes = some np := by
    have w1 : wrap (A.nx + np + 2 ^ 64 - A.nx) = np := by
      rw [wrap, show A.nx + np + 2 ^ 64 - A.nx = np + 2 ^ 64 by omega, Nat.add_mod_right, Nat.mod_eq_of_lt (by omega)]
    have w2 : wrap (A.nx + A.nu + np) = A.nx + A.nu + np := Nat.mod_eq_of_lt small
    have w3 : wrap (A.nx + np) = A.nx + np := Nat.mod_eq_of_lt (by omega)
    refine (load_iff _ _ _).2 ⟨?_, ?_, ?_, ?_, rfl, ?_⟩
    · rw [e1]; exact w1.symm
    · rw [e1, e3]; exact w2.symm
    · rw [e1]; exact w3.symm
    · rw [e1, e4, e5]; rfl
    · rw [e3]; rfl
  refine ⟨{ made A autodiff np P with A := A', source := false }, by rw [Gen.reload, hl]; rfl, rfl, fun nr => ?_, fun D s ops => ?_⟩
  · simp only [Gen.create, e1, e2, e3, e4, e5, e6, e7]; rfl
  · exact run_congr D (step_congr (G := made A autodiff np P) (G' := { made A autodiff np P with A := A', source := false }) e1 e2 e3 rfl rfl
      rfl rfl rfl rfl rfl rfl (fun _ => ⟨rfl, rfl, rfl, rfl⟩) D) s ops

/-- **C95**, the other direction: a library that is accepted for a model without constraints was generated from one with the same
number of state coordinates, controls and parameters. What is missing: the dimension of the tangent space is not compared
(`C95_tangent_counterexample`), and for a model with constraints not even the number of state coordinates is
(`C95_load_counterexample`). -/
theorem C95_load_partial (A A' : Action K B) (np : ℕ) (hA : A.Wf np) (autodiff : Bool) (P : Point K) (hP : P.Sized A np) (G : Gen K B)
    (hG : make A autodiff np P = some G) (small : A.nx + A.nu + np < 2 ^ 64) (free : A'.ng = 0 ∧ A'.nh = 0) (np' : ℕ)
    (hl : load A' G.sizes = some np') : A'.nx = A.nx ∧ A'.nu = A.nu ∧ np' = np := by
  have hF := (C94_made_iff A np hA autodiff P hP).1 ⟨G, hG⟩
  obtain ⟨rfl, -, -⟩ := make_some _ _ _ _ _ hG
  obtain ⟨h1, h2, h3, h4, h5, h6⟩ := (load_iff _ _ _).1 hl
  have h4 : 1 + A.nx + A.ng + A.nh = 1 + A'.nx + A'.ng + A'.nh := h4
  rw [free.1, free.2, hF.1, hF.2.1] at h4
  have en : A'.nx = A.nx := by omega
  refine ⟨en, h6.symm, ?_⟩
  rw [h1, show (made A autodiff np P).sizes.nXT = A.nx + np from rfl, en, wrap, show A.nx + np + 2 ^ 64 - A.nx = np + 2 ^ 64 by omega, Nat.add_mod_right, Nat.mod_eq_of_lt (by omega)]

/-- **C95**: a copy of a generated model with analytical derivatives behaves as the original. What is missing:
automatic derivatives and loaded models (`C95_copy_counterexample`). -/
theorem C95_copy_partial (A : Action K B) (np : ℕ) (P : Point K) (G : Gen K B) (hG : make A false np P = some G) :
    ∃ G', G.copy = some G' ∧ (∀ nr, G'.create nr = G.create nr) ∧ ∀ D s ops, G'.run D s ops = G.run D s ops := by
  obtain ⟨rfl, -, -⟩ := make_some _ _ _ _ _ hG
  exact ⟨{ made A false np P with w := [], wT := [] }, rfl, fun nr => rfl, fun D =>
    run_congr D (step_congr rfl rfl rfl rfl rfl rfl rfl rfl rfl rfl rfl (fun h => by cases h) D)⟩

/-- Copies of generated models with automatic derivatives cannot compute derivatives (the weights of the Hessians are not copied);
loaded models cannot be copied at all (a null pointer is dereferenced). -/
theorem C95_copy_counterexample (A : Action K B) (np : ℕ) (autodiff : Bool) (P : Point K) (G : Gen K B)
    (hG : make A autodiff np P = some G) :
    (autodiff = true → ∃ G', G.copy = some G' ∧ ∀ D s x u, G'.step D s (.diff x u) = none ∧ G'.step D s (.diffT x) = none)
    ∧ ∀ A' G', G.reload A' = some G' → G'.copy = none := by
  obtain ⟨rfl, -, -⟩ := make_some _ _ _ _ _ hG
  constructor
  · rintro rfl
    refine ⟨{ made A true np P with w := [], wT := [] }, rfl, fun D s x u => ⟨?_, ?_⟩⟩
    · exact diff_none D _ s x u rfl (show 0 ≠ 1 + A.nx + A.ng + A.nh by omega)
    · exact diffT_none D _ s x rfl (show 0 ≠ 1 by omega)
  · intro A' G' h
    rw [Gen.reload] at h
    simp only [Option.bind_eq_bind, Option.bind_eq_some_iff] at h
    obtain ⟨np', -, h⟩ := h
    cases h
    rfl

end c95

/-- The library of a model with two state coordinates and no constraint is accepted for one with one state coordinate and one
constraint; `calc` then takes the second coordinate of the next state for the value of the constraint. -/
theorem C95_load_counterexample (D : Diff ℤ) (nr : ℕ) : ∃ (A A' : Action ℤ Unit) (P : Point ℤ) (G : Gen ℤ Unit), A.Wf 0 ∧ A'.Wf 1
    ∧ P.Sized A 0 ∧ make A false 0 P = some G ∧ A'.nx ≠ A.nx ∧ A'.ng ≠ A.ng ∧ ∃ G', G.reload A' = some G'
    ∧ ∃ s, G'.run D (G'.create nr) [.params [7], .calc [3] [0]] = some s ∧ s.data.g ≠ (A'.value [7] [3] [0]).g := by
  have hw : ∀ x : List ℤ, ((fun x : List ℤ => [x.getD 0 0 - 1]) x).length = 1 := fun _ => rfl
  refine ⟨plane 2 1 0 (fun _ => []), plane 1 1 1 (fun x => [x.getD 0 0 - 1]), ⟨[0, 0, 0], [0, 0], [0, 0], [0]⟩, _,
    plane_wf _ _ _ _ _ (by simp), plane_wf _ _ _ _ _ hw, by simp [Point.Sized, plane], rfl, by simp [plane], by simp [plane],
    { made (plane 2 1 0 (fun _ => [])) false 0 ⟨[0, 0, 0], [0, 0], [0, 0], [0]⟩ with
      A := plane 1 1 1 (fun x => [x.getD 0 0 - 1]), np := 1, source := false },
    (by rw [Gen.reload, (load_iff _ _ 1).2 (by decide)]; rfl), _, rfl, ?_⟩
  exact fun h => absurd (show ([0] : List ℤ) = [2] from h) (by decide)

/-- The library of a model whose state has two coordinates and one direction is accepted for one with two directions; `calcDiff` then
reads outside its outputs. -/
theorem C95_tangent_counterexample (D : Diff ℤ) (nr : ℕ) : ∃ (A A' : Action ℤ Unit) (P : Point ℤ) (G : Gen ℤ Unit), A.Wf 0 ∧ A'.Wf 0
    ∧ P.Sized A 0 ∧ make A false 0 P = some G ∧ A'.Free ∧ A'.nx = A.nx ∧ A'.ndx ≠ A.ndx ∧ ∃ G', G.reload A' = some G'
    ∧ ∀ a b c, G'.run D (G'.create nr) [.diff [a, b] [c]] = none := by
  refine ⟨plane 2 1 0 (fun _ => []), plane 2 2 0 (fun _ => []), ⟨[0, 0, 0], [0, 0], [0, 0], [0]⟩, _,
    plane_wf _ _ _ _ _ (by simp), plane_wf _ _ _ _ _ (by simp), by simp [Point.Sized, plane], rfl, by simp [Action.Free, plane],
    by simp [plane], by simp [plane],
    { made (plane 2 1 0 (fun _ => [])) false 0 ⟨[0, 0, 0], [0, 0], [0, 0], [0]⟩ with A := plane 2 2 0 (fun _ => []), source := false },
    (by rw [Gen.reload, (load_iff _ _ 0).2 (by decide)]; rfl), fun a b c => ?_⟩
  simp [Gen.run, Gen.step, Gen.diff, made, plane, Gen.create, zeros, assign, put, recordDiff, write, zeroMx, read, view, sizeY2, split3]

/-- The hypotheses of `C95_reload` hold for the example. -/
example : ∃ G G', make (lq ℤ) false 1 ⟨[0, 0, 0], [0, 0], [0], [0]⟩ = some G ∧ G.reload (lq ℤ) = some G' ∧ G'.np = 1 ∧ ∀ D, ∃ s,
    G'.run D (G'.create 0) [.params [3], .calc [2] [1]] = some s ∧ s.data.cost = 7 := by
  obtain ⟨G, hG⟩ : ∃ G, make (lq ℤ) false 1 ⟨[0, 0, 0], [0, 0], [0], [0]⟩ = some G := ⟨_, rfl⟩
  obtain ⟨G', h1, h2, h3, h4⟩ := C95_reload (lq ℤ) (lq ℤ) 1 (lq_wf ℤ) false ⟨[0, 0, 0], [0, 0], [0], [0]⟩ (by simp [Point.Sized, lq])
    G hG (by norm_num [lq]) (by simp)
  refine ⟨G, G', hG, h1, h2, fun D => ?_⟩
  rw [h4, h3]
  obtain ⟨rfl, -, -⟩ := make_some _ _ _ _ _ hG
  exact ⟨_, rfl, by decide⟩

end Verif.Cg
