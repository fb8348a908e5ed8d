import Verif.Props.CodeGen

/-!
# C94 with automatic derivatives
-/

namespace Verif.Cg

set_option linter.unusedSectionVars false
set_option linter.unusedSimpArgs false

variable {B : Type}

theorem view_entry {b : List ℝ} {off r : ℕ} {M : Mx ℝ} (h : view b off r 1 = some M) {i : ℕ} (hi : i < r) :
    M.entry i 0 = b[off + i]? := by
  rw [view] at h
  split at h
  · cases h
    simp [Mx.entry, hi, List.getElem?_take, List.getElem?_drop]
  · cases h

theorem viewT_entry {b : List ℝ} {off ld c lo n : ℕ} {M : Mx ℝ} (h : viewT b off ld c lo n = some M) {i j : ℕ} (hi : i < c)
    (hj : j < n) : M.entry i j = some (b.getD (off + (lo + j) + i * ld) 0) := by
  rw [viewT] at h
  split at h
  · cases h
    have hlt : i + j * c < c * n := by
      calc i + j * c < c + j * c := by omega
        _ = c * (j + 1) := by ring
        _ ≤ c * n := Nat.mul_le_mul_left c hj
    have e1 : (i + j * c) / c = j := by rw [Nat.add_mul_div_right _ _ (by omega), Nat.div_eq_of_lt hi, Nat.zero_add]
    have e2 : (i + j * c) % c = i := by rw [Nat.add_mul_mod_self_right, Nat.mod_eq_of_lt hi]
    rw [Mx.entry, if_pos ⟨hi, hj⟩, List.getElem?_eq_getElem (by simpa using hlt), List.getElem_ofFn]
    simp only [e1, e2]
  · cases h

theorem viewB_entry {b : List ℝ} {ld lr r lc c : ℕ} {M : Mx ℝ} (h : viewB b ld lr r lc c = some M) {i j : ℕ} (hi : i < r)
    (hj : j < c) : M.entry i j = some (b.getD ((lr + i) + (lc + j) * ld) 0) := by
  rw [viewB] at h
  split at h
  · cases h
    have hlt : i + j * r < r * c := by
      calc i + j * r < r + j * r := by omega
        _ = r * (j + 1) := by ring
        _ ≤ r * c := Nat.mul_le_mul_left r hj
    have e1 : (i + j * r) / r = j := by rw [Nat.add_mul_div_right _ _ (by omega), Nat.div_eq_of_lt hi, Nat.zero_add]
    have e2 : (i + j * r) % r = i := by rw [Nat.add_mul_mod_self_right, Nat.mod_eq_of_lt hi]
    rw [Mx.entry, if_pos ⟨hi, hj⟩, List.getElem?_eq_getElem (by simpa using hlt), List.getElem_ofFn]
    simp only [e1, e2]
  · cases h

theorem getD_of {b : List ℝ} {k : ℕ} {d : ℝ} (h : b[k]? = some d) : b.getD k 0 = d := by
  rw [List.getD_eq_getElem?_getD, h]; rfl

theorem set_x {x u p : List ℝ} {j : ℕ} (hj : j < x.length) (t : ℝ) : (x ++ u ++ p).set j t = x.set j t ++ u ++ p := by
  rw [List.append_assoc, List.set_append_left _ _ hj, List.append_assoc]

theorem set_u {x u p : List ℝ} {j : ℕ} (hj : j < u.length) (t : ℝ) :
    (x ++ u ++ p).set (x.length + j) t = x ++ u.set j t ++ p := by
  rw [List.append_assoc, List.set_append_right _ _ (by omega), Nat.add_sub_cancel_left, List.set_append_left _ _ hj,
    List.append_assoc]

theorem get_x {x u p : List ℝ} {j : ℕ} (hj : j < x.length) : (x ++ u ++ p).getD j 0 = x.getD j 0 := by
  simp [List.getD_eq_getElem?_getD, List.getElem?_append, hj]

theorem get_u {x u p : List ℝ} {j : ℕ} (hj : j < u.length) : (x ++ u ++ p).getD (x.length + j) 0 = u.getD j 0 := by
  simp [List.getD_eq_getElem?_getD, List.getElem?_append, hj]

section

variable (A : Action ℝ B) {np : ℕ} (hA : A.Wf np) (hb : ∀ f X Y, A.branch f X = A.branch f Y) (b : List ℝ)

include hA hb

theorem replay_cost {x u p : List ℝ} (hx : x.length = A.nx) (hu : u.length = A.nu) (hp : p.length = np) :
    ((recordCalc A (A.branch .calc b) (x ++ u ++ p)).getD []).getD 0 0 = (A.value p x u).cost := by
  rw [record_calc A hA _ hx hu hp, hb .calc b (x ++ u ++ p)]
  simp [Action.value, col]

theorem replay_next {x u p : List ℝ} (hx : x.length = A.nx) (hu : u.length = A.nu) (hp : p.length = np) {i : ℕ} (hi : i < A.nx) :
    ((recordCalc A (A.branch .calc b) (x ++ u ++ p)).getD []).getD (1 + i) 0 = (A.value p x u).xnext.getD i 0 := by
  obtain ⟨h1, -, -⟩ := hA.value (A.branch .calc (x ++ u ++ p)) p x u hp hx hu
  rw [record_calc A hA _ hx hu hp, hb .calc b (x ++ u ++ p)]
  simp only [Action.value]
  generalize A.run (A.branch .calc (x ++ u ++ p)) p x u = v at *
  simp [col, List.getD_eq_getElem?_getD, Nat.add_comm 1 i, List.getElem?_append, h1, hi]

end

section

variable (A : Action ℝ B) {np : ℕ} (hA : A.Wf np) (hF : A.Free) (hb : ∀ f X Y, A.branch f X = A.branch f Y) (b : List ℝ)

include hA hF hb

theorem replay_costT {x p : List ℝ} (hx : x.length = A.nx) (hp : p.length = np) :
    ((recordCalcT A (A.branch .calcT b) (x ++ p)).getD []).getD 0 0 = (A.valueT p x).cost := by
  rw [record_calcT A hA hF _ hx hp, hb .calcT b (x ++ p)]
  simp [Action.valueT, col]

end

/-- The first output has weight one. -/
theorem weights (n : ℕ) : ((zeros (1 + n)).set 0 1 : List ℝ) = (List.replicate (n + 1) (0 : ℝ)).set 0 1 := by
  rw [zeros, Nat.add_comm]

/-- **C94** with automatic derivatives: if automatic differentiation is exact, the state has as many coordinates as directions and
the model makes no comparisons, then after any history of calls the entries that `calcDiff` stores are the partial derivatives of
cost and next state of the model, with the parameters set last. What is missing: states with more coordinates than directions, for
which it is false (`C94_manifold_counterexample`). -/
theorem C94_autodiff_partial (D : Diff ℝ) (A : Action ℝ B) (np : ℕ) (hA : A.Wf np) (P : Point ℝ) (hP : P.Sized A np)
    (euclid : A.nx = A.ndx) (hb : ∀ f X Y, A.branch f X = A.branch f Y) (G : Gen ℝ B) (hG : make A true np P = some G)
    (hD : D.Exact G.calcFun) (hT : D.Exact G.calcFunT) (nr : ℕ) (ops : List (Op ℝ)) (s : St ℝ)
    (hs : G.run D (G.create nr) ops = some s)
    (live : s.ng = 0 ∧ s.nh = 0 ∧ s.ngT = 0 ∧ s.nhT = 0) (x u : List ℝ) (hx : x.length = A.nx) (hu : u.length = A.nu) :
    let p := lastParams np ops
    (∃ s', G.step D s (.diff x u) = some s'
      ∧ (∀ j d, j < A.nx → HasDerivAt (fun t => (A.value p (x.set j t) u).cost) d (x.getD j 0) → s'.data.d.Lx.entry j 0 = some d)
      ∧ (∀ j d, j < A.nu → HasDerivAt (fun t => (A.value p x (u.set j t)).cost) d (u.getD j 0) → s'.data.d.Lu.entry j 0 = some d)
      ∧ (∀ i j d, i < A.nx → j < A.nx → HasDerivAt (fun t => (A.value p (x.set j t) u).xnext.getD i 0) d (x.getD j 0) →
        s'.data.d.Fx.entry i j = some d)
      ∧ (∀ i j d, i < A.nx → j < A.nu → HasDerivAt (fun t => (A.value p x (u.set j t)).xnext.getD i 0) d (u.getD j 0) →
        s'.data.d.Fu.entry i j = some d)
      ∧ (∀ i j d, i < A.nx → j < A.nx →
        HasDerivAt (fun t => deriv (fun r => (A.value p ((x.set j t).set i r) u).cost) ((x.set j t).getD i 0)) d (x.getD j 0) →
        s'.data.d.Lxx.entry i j = some d)
      ∧ (∀ i j d, i < A.nx → j < A.nu →
        HasDerivAt (fun t => deriv (fun r => (A.value p (x.set i r) (u.set j t)).cost) (x.getD i 0)) d (u.getD j 0) →
        s'.data.d.Lxu.entry i j = some d)
      ∧ (∀ i j d, i < A.nu → j < A.nu →
        HasDerivAt (fun t => deriv (fun r => (A.value p x ((u.set j t).set i r)).cost) ((u.set j t).getD i 0)) d (u.getD j 0) →
        s'.data.d.Luu.entry i j = some d))
    ∧ ∃ s', G.step D s (.diffT x) = some s'
      ∧ (∀ j d, j < A.nx → HasDerivAt (fun t => (A.valueT p (x.set j t)).cost) d (x.getD j 0) → s'.data.d.Lx.entry j 0 = some d)
      ∧ (∀ i j d, i < A.nx → j < A.nx →
        HasDerivAt (fun t => deriv (fun r => (A.valueT p ((x.set j t).set i r)).cost) ((x.set j t).getD i 0)) d (x.getD j 0) →
        s'.data.d.Lxx.entry i j = some d) := by
  have hF := (C94_made_iff A np hA true P hP).1 ⟨G, hG⟩
  obtain ⟨rfl, -, -⟩ := make_some A true np P G hG
  have hi := run_inv D A true np nr P ops s hs
  intro p
  change Inv A np nr p s at hi
  obtain ⟨hp, ⟨x₀, u₀, eX, hx₀, hu₀⟩, ⟨x₁, eT, hx₁⟩, -⟩ := hi
  clear_value p
  constructor
  · set f := recordCalc A (A.branch .calc P.X) with hf
    change D.Exact f at hD
    set X := x ++ u ++ p with hX
    have lX : X.length = A.nx + A.nu + np := by simp [hX, hx, hu, hp, Nat.add_assoc]
    have hv := hA.value (A.branch .calc P.X) p x u hp hx hu
    obtain ⟨Y, hY, lY⟩ : ∃ Y, f X = some Y ∧ Y.length = 1 + A.nx := by
      refine ⟨_, record_calc A hA _ hx hu hp, ?_⟩
      simp [col, hv, hF.1, hF.2.1, Nat.add_comm]
    have lJ : (D.jac f X).length = (1 + A.nx) * (A.nx + A.nu + np) := by rw [hD.size_jac X Y hY, lY, lX]
    have lH : (D.hess f X (made A true np P).w).length = (A.nx + A.nu + np) * (A.nx + A.nu + np) := by rw [hD.size_hess, lX]
    have hw : (made A true np P).w = (List.replicate (A.nx + 1) (0 : ℝ)).set 0 1 := by
      rw [← weights]; simp [made, hF.1, hF.2.1]
    have JX : ∀ i j d, i < 1 + A.nx → j < A.nx → HasDerivAt (fun t => ((f (x.set j t ++ u ++ p)).getD []).getD i 0) d (x.getD j 0) →
        (D.jac f X)[i * (A.nx + A.nu + np) + j]? = some d := by
      intro i j d hi hj h
      rw [← lX]
      refine hD.jac X Y i j d hY (by omega) (by omega) ?_
      rw [get_x (by omega)]
      simpa only [hX, set_x (show j < x.length by omega)] using h
    have JU : ∀ i j d, i < 1 + A.nx → j < A.nu → HasDerivAt (fun t => ((f (x ++ u.set j t ++ p)).getD []).getD i 0) d (u.getD j 0) →
        (D.jac f X)[i * (A.nx + A.nu + np) + (A.nx + j)]? = some d := by
      intro i j d hi hj h
      rw [← lX]
      refine hD.jac X Y i (A.nx + j) d hY (by omega) (by omega) ?_
      rw [← hx, get_u (by omega)]
      simpa only [hX, set_u (show j < u.length by omega)] using h
    have HD : ∀ i j d, i < A.nx + A.nu + np → j < A.nx + A.nu + np →
        HasDerivAt (fun t => deriv (fun r => ((f ((X.set i t).set j r)).getD []).getD 0 0) ((X.set i t).getD j 0)) d (X.getD i 0) →
        (D.hess f X (made A true np P).w)[i * (A.nx + A.nu + np) + j]? = some d := by
      intro i j d hi hj h
      rw [← lX]
      exact hD.hess X _ A.nx i j d hw (by omega) (by omega) h
    have lJ' : (D.jac f X).length = (A.nx + A.nu + np) + A.nx * (A.nx + A.nu + np) := by rw [lJ]; ring
    generalize hq : A.nx * (A.nx + A.nu + np) = q at lJ'
    have hq' : (A.nx + A.nu + np) * A.nx = q := by rw [← hq, Nat.mul_comm]
    obtain ⟨Lx, hLx⟩ : ∃ M, view (D.jac f X) 0 A.nx 1 = some M := by
      rw [view, if_pos (by rw [lJ']; first | omega | (rw [hq']; omega))]; exact ⟨_, rfl⟩
    obtain ⟨Lu, hLu⟩ : ∃ M, view (D.jac f X) A.nx A.nu 1 = some M := by
      rw [view, if_pos (by rw [lJ']; first | omega | (rw [hq']; omega))]; exact ⟨_, rfl⟩
    obtain ⟨Fx, hFx⟩ : ∃ M, viewT (D.jac f X) (A.nx + (A.nu + np)) (A.nx + A.nu + np) A.nx 0 A.nx = some M := by
      rw [viewT, if_pos ⟨by rw [lJ']; first | omega | (rw [hq']; omega), by omega⟩]; exact ⟨_, rfl⟩
    obtain ⟨Fu, hFu⟩ : ∃ M, viewT (D.jac f X) (A.nx + (A.nu + np)) (A.nx + A.nu + np) A.nx A.nx A.nu = some M := by
      rw [viewT, if_pos ⟨by rw [lJ']; first | omega | (rw [hq']; omega), by omega⟩]; exact ⟨_, rfl⟩
    obtain ⟨C1, hC1⟩ : ∃ M, viewT (D.jac f X) (A.nx + (A.nu + np) + q) (A.nx + A.nu + np) 0 0 A.nx = some M := by
      rw [viewT, if_pos ⟨by rw [lJ']; first | omega | (rw [hq']; omega), by omega⟩]; exact ⟨_, rfl⟩
    obtain ⟨C2, hC2⟩ : ∃ M, viewT (D.jac f X) (A.nx + (A.nu + np) + q) (A.nx + A.nu + np) 0 A.nx A.nu
        = some M := by
      rw [viewT, if_pos ⟨by rw [lJ']; first | omega | (rw [hq']; omega), by omega⟩]; exact ⟨_, rfl⟩
    obtain ⟨Lxx, hLxx⟩ : ∃ M, viewB (D.hess f X (made A true np P).w) (A.nx + A.nu + np) 0 A.nx 0 A.nx = some M := by
      rw [viewB, if_pos ⟨by rw [lH], by omega, by omega⟩]; exact ⟨_, rfl⟩
    obtain ⟨Luu, hLuu⟩ : ∃ M, viewB (D.hess f X (made A true np P).w) (A.nx + A.nu + np) A.nx A.nu A.nx A.nu = some M := by
      rw [viewB, if_pos ⟨by rw [lH], by omega, by omega⟩]; exact ⟨_, rfl⟩
    obtain ⟨Lxu, hLxu⟩ : ∃ M, viewB (D.hess f X (made A true np P).w) (A.nx + A.nu + np) 0 A.nx A.nx A.nu = some M := by
      rw [viewB, if_pos ⟨by rw [lH], by omega, by omega⟩]; exact ⟨_, rfl⟩
    refine ⟨{ s with data := { s.data with X := X, d := ⟨Fx, Fu, Lx, Lu, Lxx, Lxu, Luu, C1, C2, C1, C2⟩ } }, ?_, ?_, ?_, ?_, ?_, ?_, ?_, ?_⟩
    · simp only [Gen.step, Gen.diff, Option.bind_eq_bind]
      rw [← Option.bind_assoc, eX, show (made A true np P).A = A from rfl, assign_xu A hx₀ hu₀, if_pos ⟨hx, hu⟩, Option.bind_some,
        show (made A true np P).autodiff = true from rfl, if_pos rfl, if_pos (by simp [made, zeros]),
        show (made A true np P).calcFun = f from rfl, ← hX]
      simp only [Gen.setD1, show (made A true np P).A = A from rfl, show (made A true np P).np = np from rfl, live.1, live.2.1,
        ← euclid, hq, Nat.zero_mul, Nat.add_zero, hLx, hLu, hFx, hFu, hC1, hC2, hLxx, hLuu, hLxu, Option.bind_eq_bind, Option.bind_some,
        Option.pure_def]
    · intro j d hj h
      rw [view_entry hLx hj]
      simpa using JX 0 j d (by omega) hj (by
        simpa only [hf, replay_cost A hA hb P.X (show (x.set j _).length = A.nx by simpa using hx) hu hp] using h)
    · intro j d hj h
      rw [view_entry hLu hj]
      simpa using JU 0 j d (by omega) hj (by
        simpa only [hf, replay_cost A hA hb P.X hx (show (u.set j _).length = A.nu by simpa using hu) hp] using h)
    · intro i j d hi hj h
      rw [viewT_entry hFx hi hj]
      refine congrArg some (getD_of ?_)
      have := JX (1 + i) j d (by omega) hj (by
        simpa only [hf, replay_next A hA hb P.X (show (x.set j _).length = A.nx by simpa using hx) hu hp hi] using h)
      rw [← this]; congr 1; ring
    · intro i j d hi hj h
      rw [viewT_entry hFu hi hj]
      refine congrArg some (getD_of ?_)
      have := JU (1 + i) j d (by omega) hj (by
        simpa only [hf, replay_next A hA hb P.X hx (show (u.set j _).length = A.nu by simpa using hu) hp hi] using h)
      rw [← this]; congr 1; ring
    · intro i j d hi hj h
      rw [viewB_entry hLxx hi hj]
      refine congrArg some (getD_of ?_)
      have := HD j i d (by omega) (by omega) (by
        have e1 : ∀ t, X.set j t = x.set j t ++ u ++ p := fun t => set_x (by omega) t
        have e2 : ∀ t r, (x.set j t ++ u ++ p).set i r = (x.set j t).set i r ++ u ++ p := fun t r =>
          set_x (by simpa using (show i < x.length by omega)) r
        have e3 : ∀ t, (x.set j t ++ u ++ p).getD i 0 = (x.set j t).getD i 0 := fun t =>
          get_x (by simpa using (show i < x.length by omega))
        rw [hX, get_x (by omega), ← hX]
        simpa only [e1, e2, e3, hf, replay_cost A hA hb P.X (show ((x.set j _).set i _).length = A.nx by simpa using hx) hu hp] using h)
      rw [← this]; congr 1; ring
    · intro i j d hi hj h
      rw [viewB_entry hLxu hi hj]
      refine congrArg some (getD_of ?_)
      have := HD (A.nx + j) i d (by omega) (by omega) (by
        have e1 : ∀ t, X.set (A.nx + j) t = x ++ u.set j t ++ p := fun t => by rw [← hx]; exact set_u (by omega) t
        have e2 : ∀ t r, (x ++ u.set j t ++ p).set i r = x.set i r ++ u.set j t ++ p := fun t r => set_x (by omega) r
        have e3 : ∀ t, (x ++ u.set j t ++ p).getD i 0 = x.getD i 0 := fun t => get_x (by omega)
        have e4 : X.getD (A.nx + j) 0 = u.getD j 0 := by rw [← hx]; exact get_u (by omega)
        simpa only [e1, e2, e3, e4, hf, replay_cost A hA hb P.X (show (x.set i _).length = A.nx by simpa using hx)
          (show (u.set j _).length = A.nu by simpa using hu) hp] using h)
      rw [← this]; congr 1; ring
    · intro i j d hi hj h
      rw [viewB_entry hLuu hi hj]
      refine congrArg some (getD_of ?_)
      have := HD (A.nx + j) (A.nx + i) d (by omega) (by omega) (by
        have e1 : ∀ t, X.set (A.nx + j) t = x ++ u.set j t ++ p := fun t => by rw [← hx]; exact set_u (by omega) t
        have e2 : ∀ t r, (x ++ u.set j t ++ p).set (A.nx + i) r = x ++ (u.set j t).set i r ++ p := fun t r => by
          rw [← hx]; exact set_u (by simpa using (show i < u.length by omega)) r
        have e3 : ∀ t, (x ++ u.set j t ++ p).getD (A.nx + i) 0 = (u.set j t).getD i 0 := fun t => by
          rw [← hx]; exact get_u (by simpa using (show i < u.length by omega))
        have e4 : X.getD (A.nx + j) 0 = u.getD j 0 := by rw [← hx]; exact get_u (by omega)
        simpa only [e1, e2, e3, e4, hf, replay_cost A hA hb P.X hx (show ((u.set j _).set i _).length = A.nu by simpa using hu) hp]
          using h)
      rw [← this]; congr 1; ring
  · set f := recordCalcT A (A.branch .calcT P.XT) with hf
    change D.Exact f at hT
    set X := x ++ p with hX
    have lX : X.length = A.nx + np := by simp [hX, hx, hp]
    obtain ⟨Y, hY, lY⟩ : ∃ Y, f X = some Y ∧ Y.length = 1 := by
      exact ⟨_, record_calcT A hA hF _ hx hp, rfl⟩
    have lJ : (D.jac f X).length = A.nx + np := by rw [hT.size_jac X Y hY, lY, lX, Nat.one_mul]
    have lH : (D.hess f X (made A true np P).wT).length = (A.nx + np) * (A.nx + np) := by rw [hT.size_hess, lX]
    have hw : (made A true np P).wT = (List.replicate (0 + 1) (0 : ℝ)).set 0 1 := by
      rw [← weights]; simp [made, hF.2.2.1, hF.2.2.2]
    have e1 : ∀ j, j < A.nx → ∀ t, X.set j t = x.set j t ++ p := fun j hj t => List.set_append_left _ _ (by omega)
    have e2 : ∀ j, j < A.nx → X.getD j 0 = x.getD j 0 := fun j hj => by
      simp [hX, List.getD_eq_getElem?_getD, List.getElem?_append, hx, hj]
    obtain ⟨Lx, hLx⟩ : ∃ M, view (D.jac f X) 0 A.nx 1 = some M := by
      rw [view, if_pos (by rw [lJ]; omega)]; exact ⟨_, rfl⟩
    obtain ⟨C1, hC1⟩ : ∃ M, viewT (D.jac f X) (A.nx + np) (A.nx + np) 0 0 A.nx = some M := by
      rw [viewT, if_pos ⟨by rw [lJ]; omega, by omega⟩]; exact ⟨_, rfl⟩
    obtain ⟨Lxx, hLxx⟩ : ∃ M, viewB (D.hess f X (made A true np P).wT) (A.nx + np) 0 A.nx 0 A.nx = some M := by
      rw [viewB, if_pos ⟨by rw [lH], by omega, by omega⟩]; exact ⟨_, rfl⟩
    refine ⟨{ s with data := { s.data with XT := X, d := { s.data.d with Lx := Lx, Lxx := Lxx, Gx := C1, Hx := C1 } } }, ?_, ?_, ?_⟩
    · simp only [Gen.step, Gen.diffT, Option.bind_eq_bind]
      rw [eT, show (made A true np P).A = A from rfl, assign_x A hx₁, if_pos hx, Option.bind_some,
        show (made A true np P).autodiff = true from rfl, if_pos rfl, if_pos (by simp [made, zeros]),
        show (made A true np P).calcFunT = f from rfl, ← hX]
      simp only [Gen.setD1T, show (made A true np P).A = A from rfl, show (made A true np P).np = np from rfl, live.1,
        ← euclid, Nat.zero_mul, Nat.add_zero, hLx, hC1, hLxx, Option.bind_eq_bind, Option.bind_some, Option.pure_def]
    · intro j d hj h
      rw [view_entry hLx hj]
      have := hT.jac X Y 0 j d hY (by omega) (by omega) (by
        simpa only [e1 j hj, e2 j hj, hf, replay_costT A hA hF hb P.XT (show (x.set j _).length = A.nx by simpa using hx) hp] using h)
      simpa using this
    · intro i j d hi hj h
      rw [viewB_entry hLxx hi hj]
      refine congrArg some (getD_of ?_)
      have e3 : ∀ t r, (x.set j t ++ p).set i r = (x.set j t).set i r ++ p := fun t r =>
        List.set_append_left _ _ (by simpa using (show i < x.length by omega))
      have e4 : ∀ t, (x.set j t ++ p).getD i 0 = (x.set j t).getD i 0 := fun t => by
        simp [List.getD_eq_getElem?_getD, List.getElem?_append, hx, hi]
      have := hT.hess X _ 0 j i d hw (by omega) (by omega) (by
        simpa only [e1 j hj, e2 j hj, e3, e4, hf,
          replay_costT A hA hF hb P.XT (show ((x.set j _).set i _).length = A.nx by simpa using hx) hp] using h)
      rw [← this, lX]; congr 1; ring

end Verif.Cg
