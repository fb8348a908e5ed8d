import Verif.Lemmas.CodeGen

/-!
# C94, C95: code-generated action models
-/

namespace Verif.Cg

set_option linter.unusedSectionVars false
set_option linter.unusedSimpArgs false

variable {K B : Type} [Zero K] [One K]

theorem zeros_length (n : ℕ) : (zeros n : List K).length = n := by simp [zeros]

theorem col_ok (v : List K) : (col v).Ok := by simp [col, Mx.Ok]

theorem split3_append (A : Action K B) {x u p : List K} (hx : x.length = A.nx) (hu : u.length = A.nu) :
    split3 A.nx A.nu (x ++ u ++ p) = (x, u, p) := by
  simp [split3, ← hx, ← hu, List.drop_append]

theorem record_calc (A : Action K B) {np : ℕ} (hA : A.Wf np) (b : B) {x u p : List K} (hx : x.length = A.nx) (hu : u.length = A.nu)
    (hp : p.length = np) :
    recordCalc A b (x ++ u ++ p) = some ([col [(A.run b p x u).cost], col (A.run b p x u).xnext, col (A.run b p x u).g,
      col (A.run b p x u).h].flatMap Mx.data) := by
  obtain ⟨h1, h2, h3⟩ := hA.value b p x u hp hx hu
  simp only [recordCalc, split3_append A hx hu]
  rw [write_full]
  · simp [flat]
  · simp [Fits, col, Mx.Ok, h1, h2, h3]
  · simp [flat, zeros_length, col, h1, h2, h3]; omega

theorem record_diff (A : Action K B) {np : ℕ} (hA : A.Wf np) (b : B) {x u p : List K} (hx : x.length = A.nx) (hu : u.length = A.nu)
    (hp : p.length = np) :
    recordDiff A b (x ++ u ++ p) = some (let d := A.diff b p x u
      [d.Fx, d.Fu, d.Lx, d.Lu, d.Lxx, d.Lxu, d.Luu, d.Gx, d.Gu, d.Hx, d.Hu].flatMap Mx.data) := by
  obtain ⟨h1, h2, h3, h4, h5, h6, h7, h8, h9, h10, h11⟩ := hA.diff b p x u hp hx hu
  simp only [recordDiff, split3_append A hx hu]
  simp only [Mx.Shape, Mx.Ok] at *
  rw [write_full]
  · simp [flat]
  · simp [Fits, Mx.Ok, h1, h2, h3, h4, h5, h6, h7, h8, h9, h10, h11]
  · simp [flat, zeros_length, sizeY2, h1, h2, h3, h4, h5, h6, h7, h8, h9, h10, h11]; ring

theorem terminal_free (A : Action K B) {np : ℕ} (hA : A.Wf np) (hF : A.Free) (b : B) {x p : List K} (hx : x.length = A.nx)
    (hp : p.length = np) :
    (A.runT b p x).g = [] ∧ (A.runT b p x).h = [] ∧ (A.diffT b p x).Gx = ⟨0, A.ndx, []⟩ ∧ (A.diffT b p x).Hx = ⟨0, A.ndx, []⟩ := by
  obtain ⟨gT, hT, e1, e2, v, d⟩ := hA.terminal
  obtain ⟨f1, f2, f3, f4⟩ := hF
  have g0 : gT = 0 := by simp_all
  have h0 : hT = 0 := by simp_all
  obtain ⟨v1, v2⟩ := v b p x hp hx
  obtain ⟨-, -, ⟨a1, a2, a3⟩, ⟨b1, b2, b3⟩⟩ := d b p x hp hx
  subst g0 h0
  refine ⟨List.length_eq_zero_iff.1 v1, List.length_eq_zero_iff.1 v2, ?_, ?_⟩
  · ext1
    · exact a1
    · exact a2
    · exact List.length_eq_zero_iff.1 (by rw [a3, a1, Nat.zero_mul])
  · ext1
    · exact b1
    · exact b2
    · exact List.length_eq_zero_iff.1 (by rw [b3, b1, Nat.zero_mul])

theorem record_calcT (A : Action K B) {np : ℕ} (hA : A.Wf np) (hF : A.Free) (b : B) {x p : List K} (hx : x.length = A.nx)
    (hp : p.length = np) : recordCalcT A b (x ++ p) = some [(A.runT b p x).cost] := by
  obtain ⟨h1, h2, -, -⟩ := terminal_free A hA hF b hx hp
  simp only [recordCalcT, ← hx, List.take_left', List.drop_left', h1, h2]
  rw [write_full]
  · simp [flat, col]
  · simp [Fits, col, Mx.Ok]
  · simp [flat, zeros_length, col]

theorem record_diffT (A : Action K B) {np : ℕ} (hA : A.Wf np) (hF : A.Free) (b : B) {x p : List K} (hx : x.length = A.nx)
    (hp : p.length = np) :
    recordDiffT A b (x ++ p) = some ([(A.diffT b p x).Lx, (A.diffT b p x).Lxx, ⟨0, A.ndx, []⟩, ⟨0, A.ndx, []⟩].flatMap Mx.data) := by
  obtain ⟨-, -, h3, h4⟩ := terminal_free A hA hF b hx hp
  obtain ⟨gT, hT, e1, e2, v, d⟩ := hA.terminal
  obtain ⟨⟨l1, l2, l3⟩, ⟨k1, k2, k3⟩, -, -⟩ := d b p x hp hx
  simp only [Mx.Ok] at *
  simp only [recordDiffT, List.take_left' hx, List.drop_left' hx, h3, h4, hF.1, hF.2.1]
  rw [write_full]
  · simp [flat]
  · simp [Fits, Mx.Ok, l1, l2, l3, k1, k2, k3]
  · simp [flat, zeros_length, l1, l2, l3, k1, k2, k3]; ring

theorem sized_split (A : Action K B) {np : ℕ} {X : List K} (h : X.length = A.nx + A.nu + np) :
    ∃ x u p, X = x ++ u ++ p ∧ x.length = A.nx ∧ u.length = A.nu ∧ p.length = np :=
  ⟨X.take A.nx, (X.drop A.nx).take A.nu, X.drop (A.nx + A.nu), by simp [← List.drop_drop, List.append_assoc], by simp; omega,
    by simp; omega, by simp; omega⟩

theorem sized_splitT (A : Action K B) {np : ℕ} {X : List K} (h : X.length = A.nx + np) :
    ∃ x p, X = x ++ p ∧ x.length = A.nx ∧ p.length = np :=
  ⟨X.take A.nx, X.drop A.nx, by simp, by simp; omega, by simp; omega⟩

/-- The generated model that `make` returns. -/
def made (A : Action K B) (autodiff : Bool) (np : ℕ) (P : Point K) : Gen K B :=
  { A, np, autodiff, nX := A.nx + A.nu + np, nXT := A.nx + np, nX3 := A.nx, nY1 := 1 + A.nx + A.ng + A.nh, nY1T := 1,
    nY2 := sizeY2 A, nY2T := A.ndx * A.ndx + A.ndx, nY3 := A.nu, limits := false,
    calcFun := recordCalc A (A.branch .calc P.X), calcFunT := recordCalcT A (A.branch .calcT P.XT),
    diffFun := recordDiff A (A.branch .diff P.X), diffFunT := recordDiffT A (A.branch .diffT P.XT),
    quasiFun := recordQuasi A (A.branch .quasi P.X3) (P.XT.drop A.nx) P.Y3,
    w := (zeros (1 + A.nx + A.ng + A.nh)).set 0 1, wT := (zeros 1).set 0 1, source := true }

theorem make_some (A : Action K B) (autodiff : Bool) (np : ℕ) (P : Point K) (G : Gen K B) (h : make A autodiff np P = some G) :
    G = made A autodiff np P ∧ (recordCalcT A (A.branch .calcT P.XT) P.XT).isSome
      ∧ (recordDiffT A (A.branch .diffT P.XT) P.XT).isSome := by
  simp only [make, Option.bind_eq_bind, Option.bind_eq_some_iff, Option.pure_def, Option.some.injEq] at h
  obtain ⟨_, -, _, h2, _, -, _, h4, _, -, h⟩ := h
  exact ⟨h.symm, by simp [h2], by simp [h4]⟩

/-- **C94**: a model can be generated (without undefined behaviour) exactly if it has no constraints: terminal ones have no room in
the outputs, and the terminal derivatives of running ones are written past the end of their buffer or have another shape. -/
theorem C94_made_iff (A : Action K B) (np : ℕ) (hA : A.Wf np) (autodiff : Bool) (P : Point K) (hP : P.Sized A np) :
    (∃ G, make A autodiff np P = some G) ↔ A.Free := by
  obtain ⟨hX, hXT, -, -⟩ := hP
  obtain ⟨x, u, p, eX, hx, hu, hp⟩ := sized_split A hX
  obtain ⟨x', p', eT, hx', hp'⟩ := sized_splitT A hXT
  constructor
  · rintro ⟨G, hG⟩
    obtain ⟨-, h1, h2⟩ := make_some A autodiff np P G hG
    obtain ⟨gT, hT, e1, e2, v, d⟩ := hA.terminal
    rw [eT] at h1 h2
    simp only [recordCalcT, recordDiffT, List.take_left' hx', List.drop_left' hx'] at h1 h2
    obtain ⟨v1, v2⟩ := v (A.branch .calcT (x' ++ p')) p' x' hp' hx'
    obtain ⟨-, -, d1, d2⟩ := d (A.branch .diffT (x' ++ p')) p' x' hp' hx'
    have g0 : gT = 0 := by
      by_contra hne
      rw [show ∀ a b c : Cell K, [a, b, c] = [a] ++ b :: [c] from fun _ _ _ => rfl, write_fails] at h1
      · cases h1
      · simpa [col, v1] using hne
    have h0 : hT = 0 := by
      by_contra hne
      rw [show ∀ a b c : Cell K, [a, b, c] = [a, b] ++ c :: [] from fun _ _ _ => rfl, write_fails] at h1
      · cases h1
      · simpa [col, v2] using hne
    have n0 : A.ng = 0 := by
      by_contra hne
      rw [show ∀ a b c d : Cell K, [a, b, c, d] = [a, b] ++ c :: [d] from fun _ _ _ _ => rfl, write_fails] at h2
      · cases h2
      · simp only [d1.1, g0]; tauto
    have m0 : A.nh = 0 := by
      by_contra hne
      rw [show ∀ a b c d : Cell K, [a, b, c, d] = [a, b, c] ++ d :: [] from fun _ _ _ _ => rfl, write_fails] at h2
      · cases h2
      · simp only [d2.1, h0]; tauto
    refine ⟨n0, m0, ?_, ?_⟩ <;> omega
  · intro hF
    refine ⟨made A autodiff np P, ?_⟩
    simp only [make, eX, eT, record_calc A hA _ hx hu hp, record_calcT A hA hF _ hx' hp', record_diff A hA _ hx hu hp,
      record_diffT A hA hF _ hx' hp', recordQuasi, Option.bind_eq_bind, Option.bind_some, Option.pure_def, made, sizeY2]

/-! ## Histories of calls -/

/-- What every history of calls keeps. -/
structure Inv (A : Action K B) (np nr : ℕ) (p : List K) (s : St K) : Prop where
  size : p.length = np
  X : ∃ x u, s.data.X = x ++ u ++ p ∧ x.length = A.nx ∧ u.length = A.nu
  XT : ∃ x, s.data.XT = x ++ p ∧ x.length = A.nx
  r : s.data.r = zeros nr

theorem assign_xu (A : Action K B) {x₀ u₀ p x u : List K} (h1 : x₀.length = A.nx) (h2 : u₀.length = A.nu) :
    ((assign (x₀ ++ u₀ ++ p) 0 A.nx x).bind fun X => assign X A.nx A.nu u)
      = if x.length = A.nx ∧ u.length = A.nu then some (x ++ u ++ p) else none := by
  by_cases hx : x.length = A.nx
  · have e : put (x₀ ++ u₀ ++ p) 0 x = x ++ (u₀ ++ p) := by
      rw [put_zero, hx, List.append_assoc, List.drop_left' h1]
    by_cases hu : u.length = A.nu
    · have e' : put (x ++ (u₀ ++ p)) A.nx u = x ++ u ++ p := by
        rw [← hx, put_append, hu, List.drop_left' h2]
      rw [assign, if_pos ⟨hx, by simp [h1]⟩, Option.bind_some, e, assign, if_pos ⟨hu, by simp [hx, h2]⟩, e', if_pos ⟨hx, hu⟩]
    · simp [assign, hx, hu, h1, h2]
  · simp [assign, hx]

theorem assign_x (A : Action K B) {x₀ p x : List K} (h1 : x₀.length = A.nx) :
    assign (x₀ ++ p) 0 A.nx x = if x.length = A.nx then some (x ++ p) else none := by
  by_cases hx : x.length = A.nx
  · have e : put (x₀ ++ p) 0 x = x ++ p := by rw [put_zero, hx, List.drop_left' h1]
    simp [assign, hx, h1, e]
  · simp [assign, hx]

theorem assign_p {a p₀ p : List K} {np : ℕ} (h : p₀.length = np) (hp : p.length = np) :
    assign (a ++ p₀) ((a ++ p₀).length - np) np p = some (a ++ p) := by
  have e : (a ++ p₀).length - np = a.length := by simp [h]
  rw [e, assign, if_pos ⟨hp, by simp [h]⟩, put_append, hp, ← h, List.drop_length, List.append_nil]

theorem lastParams_snoc (np : ℕ) (ops : List (Op K)) (o : Op K) :
    lastParams np (ops ++ [o]) = match o with
      | .params p => if p.length = np then p else lastParams np ops
      | _ => lastParams np ops := by
  cases o with
  | params p => by_cases h : p.length = np <;> simp [lastParams, h]
  | _ => simp [lastParams]

theorem create_inv (A : Action K B) (autodiff : Bool) (np nr : ℕ) (P : Point K) :
    Inv A np nr (lastParams np []) ((made A autodiff np P).create nr) := by
  refine ⟨by simp [lastParams], ⟨zeros A.nx, zeros A.nu, ?_, by simp [zeros], by simp [zeros]⟩,
    ⟨zeros A.nx, ?_, by simp [zeros]⟩, rfl⟩ <;> simp [Gen.create, made, zeros, lastParams]

theorem step_inv (D : Diff K) (G : Gen K B) (nr : ℕ) (ops : List (Op K)) (o : Op K)
    (s s' : St K) (hs : Inv G.A G.np nr (lastParams G.np ops) s) (h : G.step D s o = some s') :
    Inv G.A G.np nr (lastParams G.np (ops ++ [o])) s' := by
  rw [lastParams_snoc]
  obtain ⟨hp, ⟨x₀, u₀, eX, hx₀, hu₀⟩, ⟨x₁, eT, hx₁⟩, hr⟩ := hs
  generalize lastParams G.np ops = p at *
  cases o with
  | params q =>
    simp only [Gen.step, Gen.params] at h
    by_cases hq : q.length = G.np
    · rw [if_neg (by simpa using hq), eX, eT, assign_p hp hq, assign_p hp hq] at h
      cases h
      simp only [hq, if_true]
      exact ⟨hq, ⟨x₀, u₀, rfl, hx₀, hu₀⟩, ⟨x₁, rfl, hx₁⟩, hr⟩
    · rw [if_pos (by simpa using hq)] at h
      cases h
      simp only [hq, if_false]
      exact ⟨hp, ⟨x₀, u₀, eX, hx₀, hu₀⟩, ⟨x₁, eT, hx₁⟩, hr⟩
  | «calc» x u =>
    simp only [Gen.step, Gen.calc, Option.bind_eq_bind] at h
    rw [← Option.bind_assoc, eX, assign_xu G.A hx₀ hu₀] at h
    split at h
    · rename_i hh
      simp only [Option.bind_some, Option.bind_eq_some_iff] at h
      obtain ⟨Y, -, Ms, -, h⟩ := h
      split at h
      · cases h; exact ⟨hp, ⟨x, u, rfl, hh.1, hh.2⟩, ⟨x₁, eT, hx₁⟩, hr⟩
      · cases h
    · cases h
  | calcT x =>
    simp only [Gen.step, Gen.calcT, Option.bind_eq_bind] at h
    rw [eT, assign_x G.A hx₁] at h
    split at h
    · rename_i hh
      simp only [Option.bind_some, Option.bind_eq_some_iff] at h
      obtain ⟨Y, -, Ms, -, h⟩ := h
      split at h
      · cases h; exact ⟨hp, ⟨x₀, u₀, eX, hx₀, hu₀⟩, ⟨x, rfl, hh⟩, hr⟩
      · cases h
    · cases h
  | diff x u =>
    simp only [Gen.step, Gen.diff, Option.bind_eq_bind] at h
    rw [← Option.bind_assoc, eX, assign_xu G.A hx₀ hu₀] at h
    split at h
    · rename_i hh
      rw [Option.bind_some] at h
      split at h
      · split at h
        · simp only [Option.bind_eq_some_iff] at h
          obtain ⟨d, -, h⟩ := h
          cases h; exact ⟨hp, ⟨x, u, rfl, hh.1, hh.2⟩, ⟨x₁, eT, hx₁⟩, hr⟩
        · cases h
      · simp only [Option.bind_eq_some_iff] at h
        obtain ⟨Y, -, Ms, -, h⟩ := h
        split at h
        · cases h; exact ⟨hp, ⟨x, u, rfl, hh.1, hh.2⟩, ⟨x₁, eT, hx₁⟩, hr⟩
        · cases h
    · cases h
  | diffT x =>
    simp only [Gen.step, Gen.diffT, Option.bind_eq_bind] at h
    rw [eT, assign_x G.A hx₁] at h
    split at h
    · rename_i hh
      rw [Option.bind_some] at h
      split at h
      · split at h
        · simp only [Option.bind_eq_some_iff] at h
          obtain ⟨d, -, h⟩ := h
          cases h; exact ⟨hp, ⟨x₀, u₀, eX, hx₀, hu₀⟩, ⟨x, rfl, hh⟩, hr⟩
        · cases h
      · simp only [Option.bind_eq_some_iff] at h
        obtain ⟨Y, -, Ms, -, h⟩ := h
        split at h
        · cases h; exact ⟨hp, ⟨x₀, u₀, eX, hx₀, hu₀⟩, ⟨x, rfl, hh⟩, hr⟩
        · cases h
    · cases h
  | quasi x =>
    simp only [Gen.step, Gen.quasi, Option.map_eq_some_iff] at h
    obtain ⟨⟨u, s''⟩, h, rfl⟩ := h
    split at h
    · simp only [Option.bind_eq_bind, Option.bind_eq_some_iff] at h
      obtain ⟨Y, -, M, -, h⟩ := h
      cases h
      exact ⟨hp, ⟨x₀, u₀, eX, hx₀, hu₀⟩, ⟨x₁, eT, hx₁⟩, hr⟩
    · cases h
  | constraints ng nh ngT nhT =>
    simp only [Gen.step, Option.some.injEq] at h
    subst h
    exact ⟨hp, ⟨x₀, u₀, eX, hx₀, hu₀⟩, ⟨x₁, eT, hx₁⟩, hr⟩

theorem run_snoc (D : Diff K) (G : Gen K B) (s : St K) (ops : List (Op K)) (o : Op K) :
    G.run D s (ops ++ [o]) = (G.run D s ops).bind fun s' => G.step D s' o := by
  simp [Gen.run, List.foldlM_append]

theorem run_inv (D : Diff K) (A : Action K B) (autodiff : Bool) (np nr : ℕ) (P : Point K) (ops : List (Op K)) (s : St K)
    (h : (made A autodiff np P).run D ((made A autodiff np P).create nr) ops = some s) : Inv A np nr (lastParams np ops) s := by
  induction ops using List.reverseRecOn generalizing s with
  | nil => cases h; exact create_inv A autodiff np nr P
  | append_singleton ops o ih =>
    rw [run_snoc, Option.bind_eq_some_iff] at h
    obtain ⟨s', h1, h2⟩ := h
    exact step_inv D (made A autodiff np P) nr ops o s' s (ih s' h1) h2

/-- The wrapped model has the same constraints as when it was generated: none. -/
def St.Free (s : St K) : Prop := s.ng = 0 ∧ s.nh = 0 ∧ s.ngT = 0 ∧ s.nhT = 0

section calls

variable (D : Diff K) (A : Action K B) (np nr : ℕ) (hA : A.Wf np) (hF : A.Free) (autodiff : Bool) (P : Point K) (p : List K) (s : St K)
  (hs : Inv A np nr p s) (live : s.Free)

include hA hF hs live

theorem calc_eq (x u : List K) (hx : x.length = A.nx) (hu : u.length = A.nu) :
    let v := A.run (A.branch .calc P.X) p x u
    (made A autodiff np P).calc s x u = some { s with data :=
      { s.data with X := x ++ u ++ p, cost := v.cost, xnext := v.xnext, g := v.g, h := v.h } } := by
  obtain ⟨hp, ⟨x₀, u₀, eX, hx₀, hu₀⟩, -, -⟩ := hs
  obtain ⟨h1, h2, h3⟩ := hA.value (A.branch .calc P.X) p x u hp hx hu
  intro v
  simp only [Gen.calc, Option.bind_eq_bind]
  rw [← Option.bind_assoc, eX, show (made A autodiff np P).A = A from rfl, assign_xu A hx₀ hu₀, if_pos ⟨hx, hu⟩, Option.bind_some,
    show (made A autodiff np P).calcFun = recordCalc A (A.branch .calc P.X) from rfl, record_calc A hA _ hx hu hp, Option.bind_some]
  have hr := read_full [col [v.cost], col v.xnext, col v.g, col v.h] (by simp [col_ok])
  rw [show ([col [v.cost], col v.xnext, col v.g, col v.h].map fun M => (M.rows, M.cols)) = [(1, 1), (A.nx, 1), (s.ng, 1), (s.nh, 1)] from by
    simp only [List.map_cons, List.map_nil, col, v, h1, h2, h3, hF.1, hF.2.1, live.1, live.2.1]; rfl] at hr
  rw [hr]
  rfl

theorem calcT_eq (x : List K) (hx : x.length = A.nx) :
    let v := A.runT (A.branch .calcT P.XT) p x
    (made A autodiff np P).calcT s x = some { s with data :=
      { s.data with XT := x ++ p, xnext := x, cost := v.cost, g := v.g, h := v.h } } := by
  obtain ⟨hp, -, ⟨x₁, eT, hx₁⟩, -⟩ := hs
  obtain ⟨h1, h2, -, -⟩ := terminal_free A hA hF (A.branch .calcT P.XT) hx hp
  intro v
  simp only [Gen.calcT, Option.bind_eq_bind]
  rw [eT, show (made A autodiff np P).A = A from rfl, assign_x A hx₁, if_pos hx, Option.bind_some,
    show (made A autodiff np P).calcFunT = recordCalcT A (A.branch .calcT P.XT) from rfl, record_calcT A hA hF _ hx hp,
    Option.bind_some, live.2.2.1, live.2.2.2]
  simp [read, view, v, h1, h2]

theorem diff_eq (x u : List K) (hx : x.length = A.nx) (hu : u.length = A.nu) :
    (made A false np P).diff D s x u = some { s with data :=
      { s.data with X := x ++ u ++ p, d := A.diff (A.branch .diff P.X) p x u } } := by
  obtain ⟨hp, ⟨x₀, u₀, eX, hx₀, hu₀⟩, -, -⟩ := hs
  obtain ⟨h1, h2, h3, h4, h5, h6, h7, h8, h9, h10, h11⟩ := hA.diff (A.branch .diff P.X) p x u hp hx hu
  simp only [Gen.diff, Option.bind_eq_bind]
  rw [← Option.bind_assoc, eX, show (made A false np P).A = A from rfl, assign_xu A hx₀ hu₀, if_pos ⟨hx, hu⟩, Option.bind_some,
    show (made A false np P).autodiff = false from rfl, if_neg (by decide),
    show (made A false np P).diffFun = recordDiff A (A.branch .diff P.X) from rfl, record_diff A hA _ hx hu hp, Option.bind_some]
  generalize A.diff (A.branch .diff P.X) p x u = d at *
  have hr := read_full [d.Fx, d.Fu, d.Lx, d.Lu, d.Lxx, d.Lxu, d.Luu, d.Gx, d.Gu, d.Hx, d.Hu]
    (by simp [h1.2.2, h2.2.2, h3.2.2, h4.2.2, h5.2.2, h6.2.2, h7.2.2, h8.2.2, h9.2.2, h10.2.2, h11.2.2])
  simp only [List.map_cons, List.map_nil, h1.1, h1.2.1, h2.1, h2.2.1, h3.1, h3.2.1, h4.1, h4.2.1, h5.1, h5.2.1, h6.1, h6.2.1, h7.1,
    h7.2.1, h8.1, h8.2.1, h9.1, h9.2.1, h10.1, h10.2.1, h11.1, h11.2.1, hF.1, hF.2.1] at hr
  simp only [live.1, live.2.1]
  rw [hr]
  rfl

theorem diffT_eq (x : List K) (hx : x.length = A.nx) :
    let d := A.diffT (A.branch .diffT P.XT) p x
    (made A false np P).diffT D s x = some { s with data :=
      { s.data with XT := x ++ p, d := { s.data.d with Lx := d.Lx, Lxx := d.Lxx, Gx := d.Gx, Hx := d.Hx } } } := by
  obtain ⟨hp, -, ⟨x₁, eT, hx₁⟩, -⟩ := hs
  obtain ⟨-, -, h3, h4⟩ := terminal_free A hA hF (A.branch .diffT P.XT) hx hp
  obtain ⟨gT, hT, e1, e2, v, d⟩ := hA.terminal
  obtain ⟨l1, l2, -, -⟩ := d (A.branch .diffT P.XT) p x hp hx
  intro d
  simp only [Gen.diffT, Option.bind_eq_bind]
  rw [eT, show (made A false np P).A = A from rfl, assign_x A hx₁, if_pos hx, Option.bind_some,
    show (made A false np P).autodiff = false from rfl, if_neg (by decide),
    show (made A false np P).diffFunT = recordDiffT A (A.branch .diffT P.XT) from rfl, record_diffT A hA hF _ hx hp, Option.bind_some]
  have hr := read_full [d.Lx, d.Lxx, ⟨0, A.ndx, []⟩, ⟨0, A.ndx, []⟩] (by
    simp only [List.mem_cons, List.not_mem_nil, or_false]
    rintro M (rfl | rfl | rfl | rfl)
    · exact l1.2.2
    · exact l2.2.2
    · simp [Mx.Ok]
    · simp [Mx.Ok])
  simp only [List.map_cons, List.map_nil, d, l1.1, l1.2.1, l2.1, l2.2.1] at hr
  simp only [live.2.2.1, live.2.2.2]
  rw [hr]
  simp [d, h3, h4]

end calls

/-- **C94**. A code-generated model (with analytical derivatives for the last two parts) of a model without constraints computes what
the model computes: after any history of calls, cost, next state and derivatives are those of the model with the parameters that were
set last, for inputs whose comparisons turn out as they did at the recording point. What is missing: constraints, which cannot be
generated (`C94_made_iff`); other outcomes of comparisons (`C94_branch_counterexample`); the residual, the control limits, the
quasi-static control and `checkData`
(`C94_residual_counterexample`, `C94_limits_counterexample`, `C94_quasi_counterexample`, `C94_check_counterexample`). -/
theorem C94_generated_partial (D : Diff K) (A : Action K B) (np : ℕ) (hA : A.Wf np) (autodiff : Bool) (P : Point K)
    (hP : P.Sized A np) (G : Gen K B) (hG : make A autodiff np P = some G) (nr : ℕ) (ops : List (Op K)) (s : St K)
    (hs : G.run D (G.create nr) ops = some s) (live : s.ng = 0 ∧ s.nh = 0 ∧ s.ngT = 0 ∧ s.nhT = 0) (x u : List K)
    (hx : x.length = A.nx) (hu : u.length = A.nu) :
    let p := lastParams np ops
    (A.branch .calc (x ++ u ++ p) = A.branch .calc P.X → ∃ s', G.step D s (.calc x u) = some s'
      ∧ s'.data.cost = (A.value p x u).cost ∧ s'.data.xnext = (A.value p x u).xnext
      ∧ s'.data.g = (A.value p x u).g ∧ s'.data.h = (A.value p x u).h)
    ∧ (A.branch .calcT (x ++ p) = A.branch .calcT P.XT → ∃ s', G.step D s (.calcT x) = some s'
      ∧ s'.data.cost = (A.valueT p x).cost ∧ s'.data.xnext = x ∧ s'.data.g = (A.valueT p x).g ∧ s'.data.h = (A.valueT p x).h)
    ∧ (autodiff = false → A.branch .diff (x ++ u ++ p) = A.branch .diff P.X → ∃ s', G.step D s (.diff x u) = some s'
      ∧ s'.data.d = A.derivs p x u)
    ∧ (autodiff = false → A.branch .diffT (x ++ p) = A.branch .diffT P.XT → ∃ s', G.step D s (.diffT x) = some s'
      ∧ s'.data.d.Lx = (A.derivsT p x).Lx ∧ s'.data.d.Lxx = (A.derivsT p x).Lxx ∧ s'.data.d.Gx = (A.derivsT p x).Gx
      ∧ s'.data.d.Hx = (A.derivsT p x).Hx) := by
  have hF := (C94_made_iff A np hA autodiff P hP).1 ⟨G, hG⟩
  obtain ⟨rfl, -, -⟩ := make_some A autodiff np P G hG
  have hi := run_inv D A autodiff np nr P ops s hs
  intro p
  refine ⟨fun hb => ⟨_, calc_eq A np nr hA hF autodiff P p s hi live x u hx hu, ?_⟩,
    fun hb => ⟨_, calcT_eq A np nr hA hF autodiff P p s hi live x hx, ?_⟩, fun ha hb => ?_, fun ha hb => ?_⟩
  · simp only [Action.value, hb, and_self]
  · simp [Action.valueT, hb]
  · subst ha
    exact ⟨_, diff_eq D A np nr hA hF P p s hi live x u hx hu, by simp only [Action.derivs, hb]⟩
  · subst ha
    exact ⟨_, diffT_eq D A np nr hA hF P p s hi live x hx, by simp [Action.derivsT, hb]⟩

/-- **C94**: with analytical derivatives, legal calls never leave the defined behaviour, and never change the constraints. -/
theorem C94_defined (D : Diff K) (A : Action K B) (np : ℕ) (hA : A.Wf np) (P : Point K) (hP : P.Sized A np) (G : Gen K B)
    (hG : make A false np P = some G) (nr : ℕ) (ops : List (Op K)) (legal : ∀ o ∈ ops, o.Legal A) :
    ∃ s, G.run D (G.create nr) ops = some s ∧ s.ng = 0 ∧ s.nh = 0 ∧ s.ngT = 0 ∧ s.nhT = 0 := by
  have hF := (C94_made_iff A np hA false P hP).1 ⟨G, hG⟩
  obtain ⟨rfl, -, -⟩ := make_some A false np P G hG
  induction ops using List.reverseRecOn with
  | nil => exact ⟨_, rfl, hF.1, hF.2.1, hF.2.2.1, hF.2.2.2⟩
  | append_singleton ops o ih =>
    obtain ⟨s, hs, live⟩ := ih fun o ho => legal o (by simp [ho])
    have hi := run_inv D A false np nr P ops s hs
    have lo := legal o (by simp)
    rw [run_snoc, hs, Option.bind_some]
    cases o with
    | params q =>
      obtain ⟨hp, ⟨x₀, u₀, eX, hx₀, hu₀⟩, ⟨x₁, eT, hx₁⟩, -⟩ := hi
      by_cases hq : q.length = np
      · refine ⟨{ s with data := { s.data with X := x₀ ++ u₀ ++ q, XT := x₁ ++ q } }, ?_, live⟩
        simp only [Gen.step, Gen.params]
        rw [if_neg (by simpa [made] using hq), eX, eT, show (made A false np P).np = np from rfl, assign_p hp hq, assign_p hp hq]
        rfl
      · exact ⟨s, by simp only [Gen.step, Gen.params]; rw [if_pos (by simpa [made] using hq)], live⟩
    | «calc» x u => exact ⟨_, calc_eq A np nr hA hF false P _ s hi live x u lo.1 lo.2, live⟩
    | calcT x => exact ⟨_, calcT_eq A np nr hA hF false P _ s hi live x lo, live⟩
    | diff x u => exact ⟨_, diff_eq D A np nr hA hF P _ s hi live x u lo.1 lo.2, live⟩
    | diffT x => exact ⟨_, diffT_eq D A np nr hA hF P _ s hi live x lo, live⟩
    | quasi x =>
      have hq := hA.quasi (A.branch .quasi P.X3) (P.XT.drop A.nx) P.Y3 x (by rw [List.length_drop, hP.2.1]; omega) hP.2.2.2 lo
      refine ⟨{ s with data := { s.data with X3 := x } }, ?_, live⟩
      simp only [Gen.step, Gen.quasi]
      rw [if_pos (show x.length = (made A false np P).nX3 from lo),
        show (made A false np P).quasiFun x = some (A.quasi (A.branch .quasi P.X3) (P.XT.drop A.nx) P.Y3 x) from rfl]
      simp [view, hq, made]
    | constraints ng nh ngT nhT => exact lo.elim

end Verif.Cg
