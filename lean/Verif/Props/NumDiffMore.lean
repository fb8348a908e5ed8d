import Verif.Model.NumDiffMore
import Verif.Props.NumDiff

/-!
# C78-C80: the other finite-difference wrappers

C78: residual, constraint, actuation and cost (first derivatives). C79: the second derivatives of a cost and of an
activation. C80: control parametrisation and state.
-/

set_option linter.unusedSectionVars false
set_option linter.unusedSimpArgs false
set_option linter.unusedVariables false

namespace Verif.NdMore

open Verif.NumDiff Matrix Filter Topology

variable {W X ι : Type} {n nu nr nw : ℕ}

/-! ### Loops -/

/-- If the value at a disturbed point does not depend on what the shared data were, the loop computes the
difference quotients. -/
theorem fdLoop_eq {k : ℕ} (ev : W → (Fin k → ℝ) → W × (ι → ℝ)) (g : (Fin k → ℝ) → ι → ℝ)
    (hg : ∀ w dx, (ev w dx).2 = g dx) (base : ι → ℝ) (h : ℝ) (w : W) (J : Matrix ι (Fin k) ℝ) :
    (fdLoop ev base h (w, 0, J)).2.1 = 0
    ∧ ∀ a j, (fdLoop ev base h (w, 0, J)).2.2 a j = (g (Pi.single j h) a - base a) / h := by
  unfold fdLoop
  set stp := fun (s : W × (Fin k → ℝ) × Matrix ι (Fin k) ℝ) (i : Fin k) =>
    ((ev s.1 (Function.update s.2.1 i h)).1, Function.update (Function.update s.2.1 i h) i 0,
      (fun a j => if j = i then ((ev s.1 (Function.update s.2.1 i h)).2 a - base a) / h else s.2.2 a j : Matrix ι (Fin k) ℝ)) with hs
  have H := foldl_touch stp (fun s => s.2.1 = 0) (fun s (b : ι × Fin k) => s.2.2 b.1 b.2)
    (fun b => (g (Pi.single b.2 h) b.1 - base b.1) / h) (fun i b => b.2 = i)
    (by
      intro s i h0
      simp only [hs, h0]
      exact update_zero i h)
    (by
      rintro s i ⟨a, j⟩ h0
      simp only [hs, h0, hg]
      split_ifs with hb
      · subst hb; rfl
      · rfl) (List.finRange k) (w, 0, J) rfl
  exact ⟨H.1, fun a j => (H.2 (a, j)).1 ⟨j, List.mem_finRange _, rfl⟩⟩

theorem stLoop_eq {k a : ℕ} (ev : (Fin k → ℝ) → Fin a → ℝ) (h : ℝ) (J : Matrix (Fin a) (Fin k) ℝ) (i : Fin a)
    (j : Fin k) : stLoop ev h J i j = ev (Pi.single j h) i := by
  unfold stLoop
  set stp := fun (s : (Fin k → ℝ) × Matrix (Fin a) (Fin k) ℝ) (i : Fin k) =>
    ((Function.update (Function.update s.1 i h) i 0, setCol s.2 i (ev (Function.update s.1 i h))) :
      (Fin k → ℝ) × Matrix (Fin a) (Fin k) ℝ) with hs
  have H := foldl_touch stp (fun s => s.1 = 0) (fun s (b : Fin a × Fin k) => s.2 b.1 b.2)
    (fun b => ev (Pi.single b.2 h) b.1) (fun i b => b.2 = i)
    (by
      intro s i h0
      simp only [hs, h0]
      exact update_zero i h)
    (by
      rintro s i ⟨a, j⟩ h0
      simp only [hs, h0, setCol]
      split_ifs with hb
      · subst hb; rfl
      · rfl) (List.finRange k) (0, J) rfl
  exact (H.2 (i, j)).1 ⟨j, List.mem_finRange _, rfl⟩

theorem maxpos (a : ℝ) : 0 < max 1 a := lt_of_lt_of_le one_pos (le_max_left _ _)

/-! ### C78: first derivatives -/

/-- **C78 (what is computed).** In every state of the wrapper (so after every history of calls, whatever the shared
data went through), if the results after a re-evaluation at a point are a function `f` of the point and the
shared data are up to date at `(x, u)`: `calc(x, u)` followed by `calcDiff(x, u)` gives `f(x, u)` and the forward
difference quotients of `f` at `(x, u)`, with the current disturbance. -/
theorem C78_quotients (m : Wrap W X ι n nu) (f : X → (Fin nu → ℝ) → ι → ℝ)
    (hre : ∀ w x u, m.ev (m.re x u w) x u = f x u) (s : World W ι n nu) (x : X) (u : Fin nu → ℝ)
    (hw : m.ev s.sh x u = f x u) :
    let e := (diff m (calcU m s x u) x u).d
    let hx := s.ejac * max 1 (NumDiff.norm (m.st.diff m.st.zero x))
    let hu := s.ejac * max 1 (NumDiff.norm u)
    e.r = f x u
    ∧ (∀ a j, e.Jx a j = (f (m.st.integrate x (Pi.single j hx)) u a - f x u a) / hx)
    ∧ (∀ a j, e.Ju a j = (f x (u + Pi.single j hu) a - f x u a) / hu) := by
  intro e hx hu
  refine ⟨hw, ?_, ?_⟩
  · intro a j
    have := (fdLoop_eq (fun w dx => (m.re (m.st.integrate x dx) u w, m.ev (m.re (m.st.integrate x dx) u w) (m.st.integrate x dx) u))
      (fun dx => f (m.st.integrate x dx) u) (fun w dx => hre _ _ _) (m.ev s.sh x u) hx s.sh s.d.Jx).2 a j
    rw [hw] at this
    simpa only [e, diff, calcU, hw] using this
  · intro a j
    have := (fdLoop_eq (fun w du => (m.re x (u + du) w, m.ev (m.re x (u + du) w) x (u + du)))
      (fun du => f x (u + du)) (fun w dx => hre _ _ _) (m.ev s.sh x u) hu
      ((fdLoop (fun w dx => (m.re (m.st.integrate x dx) u w, m.ev (m.re (m.st.integrate x dx) u w) (m.st.integrate x dx) u))
        (m.ev s.sh x u) hx (s.sh, 0, s.d.Jx)).1) s.d.Ju).2 a j
    rw [hw] at this
    simpa only [e, diff, calcU, hw] using this

/-- `calc(x)` and `calcDiff(x)` with a step `h`. -/
theorem diffT_step (m : Wrap W X ι n nu) (f : X → ι → ℝ)
    (hre : ∀ w x, m.evT (m.reT x w) x = f x) (s : World W ι n nu) (x : X) (hw : m.evT s.sh x = f x) (h : ℝ)
    (hs : termStep m (calcT m s x) x = some h) :
    ∃ e, diffT m (calcT m s x) x = some e ∧ e.ejac = s.ejac ∧ e.d.r = f x
    ∧ ∀ a j, e.d.Jx a j = (f (m.st.integrate x (Pi.single j h)) a - f x a) / h := by
  obtain ⟨e, he, hE⟩ : ∃ e, diffT m (calcT m s x) x = some e ∧ e = { calcT m s x with
      sh := (fdLoop (fun w dx => (m.reT (m.st.integrate x dx) w, m.evT (m.reT (m.st.integrate x dx) w) (m.st.integrate x dx)))
        (m.evT s.sh x) h (s.sh, 0, s.d.Jx)).1
      d := { (calcT m s x).d with
        Jx := (fdLoop (fun w dx => (m.reT (m.st.integrate x dx) w, m.evT (m.reT (m.st.integrate x dx) w) (m.st.integrate x dx)))
          (m.evT s.sh x) h (s.sh, 0, s.d.Jx)).2.2
        dx := (fdLoop (fun w dx => (m.reT (m.st.integrate x dx) w, m.evT (m.reT (m.st.integrate x dx) w) (m.st.integrate x dx)))
          (m.evT s.sh x) h (s.sh, 0, s.d.Jx)).2.1
        xh := some h } } := by
    refine ⟨_, ?_, rfl⟩
    simp only [diffT, hs]
    rfl
  refine ⟨e, he, by rw [hE]; rfl, by rw [hE]; exact hw, fun a j => ?_⟩
  rw [hE]
  have := (fdLoop_eq (fun w dx => (m.reT (m.st.integrate x dx) w, m.evT (m.reT (m.st.integrate x dx) w) (m.st.integrate x dx)))
      (fun dx => f (m.st.integrate x dx)) (fun w dx => hre _ _) (m.evT s.sh x) h s.sh s.d.Jx).2 a j
  rw [hw] at this ⊢
  exact this

/-- **C78 (terminal node; constraint, actuation and cost).** The same without control, with a positive multiple of the
disturbance as step. Missing, and false, for a residual: see `C78_residual_counterexample`. -/
theorem C78_quotients_terminal_partial (m : Wrap W X ι n nu) (hm : m.term ≠ .stale) (f : X → ι → ℝ)
    (hre : ∀ w x, m.evT (m.reT x w) x = f x) (s : World W ι n nu) (x : X) (hw : m.evT s.sh x = f x) :
    ∃ e M, diffT m (calcT m s x) x = some e ∧ 1 ≤ M ∧ e.d.r = f x
    ∧ (m.term = .dist → M = max 1 (NumDiff.norm (m.st.diff m.st.zero x)))
    ∧ (m.term = .xnorm → M = max 1 (m.xnorm x))
    ∧ ∀ a j, e.d.Jx a j = (f (m.st.integrate x (Pi.single j (s.ejac * M))) a - f x a) / (s.ejac * M) := by
  cases ht : m.term with
  | stale => exact absurd ht hm
  | xnorm =>
    obtain ⟨e, h1, -, h2, h3⟩ := diffT_step m f hre s x hw (s.ejac * max 1 (m.xnorm x)) (by simp only [termStep, ht]; rfl)
    exact ⟨e, _, h1, le_max_left _ _, h2, by simp, by simp, h3⟩
  | dist =>
    obtain ⟨e, h1, -, h2, h3⟩ := diffT_step m f hre s x hw (s.ejac * max 1 (NumDiff.norm (m.st.diff m.st.zero x)))
      (by simp only [termStep, ht]; rfl)
    exact ⟨e, _, h1, le_max_left _ _, h2, by simp, by simp, h3⟩

/-- **C78 (terminal node of a residual).** If some `calcDiff(y, v)` was made on the data before, the quotients are taken
with the step of that call. -/
theorem C78_quotients_stale_partial (m : Wrap W X ι n nu) (hm : m.term = .stale) (f : X → ι → ℝ)
    (hre : ∀ w x, m.evT (m.reT x w) x = f x) (s : World W ι n nu) (y : X) (v : Fin nu → ℝ) (ops : List (Op W X nu))
    (hops : ∀ o ∈ ops, ∀ y v, o ≠ .diff y v) (s' : World W ι n nu) (hs' : run m (diff m s y v) ops = some s') (x : X)
    (hw : m.evT s'.sh x = f x) :
    ∃ e h, diffT m (calcT m s' x) x = some e ∧ e.d.r = f x
    ∧ h = s.ejac * max 1 (NumDiff.norm (m.st.diff m.st.zero y))
    ∧ ∀ a j, e.d.Jx a j = (f (m.st.integrate x (Pi.single j h)) a - f x a) / h := by
  have inv : ∀ (ops : List (Op W X nu)) (t t' : World W ι n nu), (∀ o ∈ ops, ∀ y v, o ≠ .diff y v) → run m t ops = some t' →
      ∀ h, t.d.xh = some h → t'.d.xh = some h := by
    intro ops
    induction ops with
    | nil =>
      intro t t' _ ht h hh
      simp only [run, List.foldlM_nil] at ht
      have ht : some t = some t' := ht
      rw [← Option.some.inj ht]; exact hh
    | cons o ops ih =>
      intro t t' ho ht h hh
      simp only [run, List.foldlM_cons, Option.bind_eq_bind, Option.bind_eq_some_iff] at ht
      obtain ⟨t1, h1, h2⟩ := ht
      refine ih t1 t' (fun o' h' => ho o' (List.mem_cons_of_mem _ h')) h2 h ?_
      cases o with
      | eval x u => rw [← Option.some.inj h1]; exact hh
      | evalT x => rw [← Option.some.inj h1]; exact hh
      | diff x u => exact absurd rfl (ho _ List.mem_cons_self x u)
      | diffT x =>
        have h1 : diffT m t x = some t1 := h1
        simp only [diffT, termStep, hm, hh] at h1
        rw [← Option.some.inj h1]
      | setDist e =>
        rw [← Option.some.inj h1]
        unfold setDist
        split_ifs <;> exact hh
      | update f => rw [← Option.some.inj h1]; exact hh
  have hx := inv ops _ _ hops hs' _ rfl
  obtain ⟨e, h1, -, h2, h3⟩ := diffT_step m f hre s' x hw (s.ejac * max 1 (NumDiff.norm (m.st.diff m.st.zero y)))
    (by simp only [termStep, hm]; exact hx)
  exact ⟨e, _, h1, h2, rfl, h3⟩

/-- A quotient with step `e M` along a differentiable function. -/
theorem tendsto_of_quot {φ : ℝ → ℝ} {φ' : ℝ} {R : ℝ → ℝ} {M : ℝ} (hM : 0 < M) (h : HasDerivAt φ φ' 0)
    (hR : ∀ e, 0 < e → R e = (φ (e * M) - φ 0) / (e * M)) : Tendsto R (𝓝[>] 0) (𝓝 φ') := by
  refine (tendsto_quot h M hM).congr' ?_
  filter_upwards [self_mem_nhdsWithin] with e he
  exact (hR e he).symm

/-- **C78 (consistency).** If `f` is differentiable at `(x, u)` along every coordinate of the tangent space and of
the control, with derivatives `Dx` and `Du`, then the Jacobians computed after `set_disturbance(e)` converge to them as
`e → 0`. For every state of the wrapper. -/
theorem C78_consistent (m : Wrap W X ι n nu) (f : X → (Fin nu → ℝ) → ι → ℝ)
    (hre : ∀ w x u, m.ev (m.re x u w) x u = f x u) (s : World W ι n nu) (x : X) (u : Fin nu → ℝ)
    (hw : m.ev s.sh x u = f x u) (h0 : m.st.integrate x 0 = x)
    (Dx : Matrix ι (Fin n) ℝ) (Du : Matrix ι (Fin nu) ℝ)
    (hDx : ∀ a j, HasDerivAt (fun t : ℝ => f (m.st.integrate x (Pi.single j t)) u a) (Dx a j) 0)
    (hDu : ∀ a j, HasDerivAt (fun t : ℝ => f x (u + Pi.single j t) a) (Du a j) 0) :
    let r := fun e : ℝ => (diff m (calcU m (setDist s e) x u) x u).d
    (∀ a j, Tendsto (fun e => (r e).Jx a j) (𝓝[>] 0) (𝓝 (Dx a j)))
    ∧ (∀ a j, Tendsto (fun e => (r e).Ju a j) (𝓝[>] 0) (𝓝 (Du a j))) := by
  intro r
  have key : ∀ e : ℝ, 0 < e → setDist s e = { s with ejac := e } := fun e he => by
    rw [setDist, if_neg (not_lt.mpr he.le)]
  refine ⟨fun a j => ?_, fun a j => ?_⟩
  · refine tendsto_of_quot (maxpos (NumDiff.norm (m.st.diff m.st.zero x))) (hDx a j) fun e he => ?_
    obtain ⟨-, h1, -⟩ := C78_quotients m f hre (setDist s e) x u (by rw [key e he]; exact hw)
    rw [show (r e).Jx a j = _ from h1 a j, key e he]
    simp only [Pi.single_zero, h0]
  · refine tendsto_of_quot (maxpos (NumDiff.norm u)) (hDu a j) fun e he => ?_
    obtain ⟨-, -, h1⟩ := C78_quotients m f hre (setDist s e) x u (by rw [key e he]; exact hw)
    rw [show (r e).Ju a j = _ from h1 a j, key e he]
    simp only [Pi.single_zero, add_zero]

/-- **C78 (consistency, terminal node; constraint, actuation and cost).** Missing, and false, for a residual. -/
theorem C78_consistent_terminal_partial (m : Wrap W X ι n nu) (hm : m.term ≠ .stale) (f : X → ι → ℝ)
    (hre : ∀ w x, m.evT (m.reT x w) x = f x) (s : World W ι n nu) (x : X) (hw : m.evT s.sh x = f x)
    (h0 : m.st.integrate x 0 = x) (Dx : Matrix ι (Fin n) ℝ)
    (hDx : ∀ a j, HasDerivAt (fun t : ℝ => f (m.st.integrate x (Pi.single j t)) a) (Dx a j) 0) :
    ∃ r : ℝ → World W ι n nu, (∀ e, diffT m (calcT m (setDist s e) x) x = some (r e))
    ∧ ∀ a j, Tendsto (fun e => (r e).d.Jx a j) (𝓝[>] 0) (𝓝 (Dx a j)) := by
  have hsh : ∀ e, (setDist s e).sh = s.sh := fun e => by unfold setDist; split_ifs <;> rfl
  have H := fun e => C78_quotients_terminal_partial m hm f hre (setDist s e) x (by rw [hsh e]; exact hw)
  choose r M h1 h2 h3 h4 h5 h6 using H
  refine ⟨r, h1, fun a j => ?_⟩
  obtain ⟨M0, hM0, hM⟩ : ∃ M0, 0 < M0 ∧ ∀ e, M e = M0 := by
    cases ht : m.term with
    | stale => exact absurd ht hm
    | xnorm => exact ⟨_, maxpos _, fun e => h5 e ht⟩
    | dist => exact ⟨_, maxpos _, fun e => h4 e ht⟩
  refine tendsto_of_quot hM0 (hDx a j) fun e he => ?_
  have key : setDist s e = { s with ejac := e } := by rw [setDist, if_neg (not_lt.mpr he.le)]
  rw [h6 e a j, hM e, key]
  simp only [Pi.single_zero, h0]

/-- **C78 (affine models, exact).** On a vector space, if `f(x, u) = Sx x + Su u + c`, the Jacobians are exact for
every positive disturbance. -/
theorem C78_exact (m : Wrap W (Fin n → ℝ) ι n nu) (hst : m.st = euclid n) (Sx : Matrix ι (Fin n) ℝ)
    (Su : Matrix ι (Fin nu) ℝ) (c : ι → ℝ)
    (hre : ∀ w x u, m.ev (m.re x u w) x u = Sx *ᵥ x + Su *ᵥ u + c) (s : World W ι n nu) (hs : 0 < s.ejac)
    (x : Fin n → ℝ) (u : Fin nu → ℝ) (hw : m.ev s.sh x u = Sx *ᵥ x + Su *ᵥ u + c) :
    (diff m (calcU m s x u) x u).d.Jx = Sx ∧ (diff m (calcU m s x u) x u).d.Ju = Su := by
  obtain ⟨-, h1, h2⟩ := C78_quotients m (fun x u => Sx *ᵥ x + Su *ᵥ u + c) hre s x u hw
  have hx := mul_pos hs (maxpos (NumDiff.norm (m.st.diff m.st.zero x)))
  have hu := mul_pos hs (maxpos (NumDiff.norm u))
  have col : ∀ {k : ℕ} (M : Matrix ι (Fin k) ℝ) (j : Fin k) (h : ℝ) a, (M *ᵥ (Pi.single j h)) a = M a j * h := by
    intro k M j h a
    simp [mulVec_single, mul_comm]
  constructor
  · ext a j
    rw [h1 a j]
    generalize s.ejac * max 1 (NumDiff.norm (m.st.diff m.st.zero x)) = h at hx
    simp only [hst, euclid, mulVec_add, Pi.add_apply, col]
    field_simp
    ring
  · ext a j
    rw [h2 a j]
    generalize s.ejac * max 1 (NumDiff.norm u) = h at hu
    simp only [mulVec_add, Pi.add_apply, col]
    field_simp
    ring

/-- The residual wrapper of `r(x) = x²` on the line, without shared data. -/
noncomputable def sqRes : Wrap Unit (Fin 1 → ℝ) (Fin 1) 1 1 where
  st := euclid 1
  xnorm := NumDiff.norm
  re _ _ w := w
  reT _ w := w
  ev _ x _ := fun _ => x 0 * x 0
  evT _ x := fun _ => x 0 * x 0
  term := .stale

/-- **C78 (disturbance).** The disturbance of a wrapper is the last one set that is not negative, and before that `√(2 ε)`, for
the accuracy `ε` of the scalar type, whatever else is called. -/
theorem C78_disturbance (m : Wrap W X ι n nu) (eps : ℝ) (w : W) (ops : List (Op W X nu)) (s : World W ι n nu)
    (h : run m (fresh eps w) ops = some s) :
    s.ejac = ((ops.filterMap fun o => match o with | .setDist e => if 0 ≤ e then some e else none | _ => none).getLast?).getD
      (√(2 * eps)) := by
  induction ops using List.reverseRecOn generalizing s with
  | nil =>
    simp only [run, List.foldlM_nil, Option.pure_def, Option.some.injEq] at h
    subst h
    rfl
  | append_singleton ops o ih =>
    simp only [run, List.foldlM_append, List.foldlM_cons, List.foldlM_nil, bind_pure, Option.bind_eq_bind,
      Option.bind_eq_some_iff] at h
    obtain ⟨s1, h1, h2⟩ := h
    have h1' := ih s1 h1
    cases o with
    | setDist e =>
      simp only [step, setDist, Option.some.injEq] at h2
      subst h2
      by_cases he : e < 0
      · simp [he, h1']
      · simp [he, not_lt.1 he]
    | eval x u => simp only [step, Option.some.injEq] at h2; subst h2; simpa [calcU] using h1'
    | evalT x => simp only [step, Option.some.injEq] at h2; subst h2; simpa [calcT] using h1'
    | diff x u => simp only [step, Option.some.injEq] at h2; subst h2; simpa [NdMore.diff] using h1'
    | diffT x =>
      simp only [step, diffT] at h2
      split at h2
      · cases h2
      · simp only [Option.some.injEq] at h2; subst h2; simpa using h1'
    | update f => simp only [step, Option.some.injEq] at h2; subst h2; simpa using h1'

/-- A history with a rejected disturbance. -/
example (m : Wrap W X ι n nu) (w : W) (x : X) (u : Fin nu → ℝ) (s : World W ι n nu)
    (h : run m (fresh 2 w) [.setDist 5, .eval x u, .setDist (-1), .diff x u] = some s) : s.ejac = 5 := by
  rw [C78_disturbance m 2 w _ s h]
  norm_num

/-- **C78: terminal residuals.** `calcDiff(x)` of a residual reads a step that only `calcDiff(x, u)` writes. On new data it
reads an uninitialised member, even after `calc(x)`; and after a running `calcDiff`, whatever disturbance is set,
the quotient keeps the old step: with the disturbance going to `0` it stays `1` away from the derivative. -/
theorem C78_residual_counterexample :
    (∀ (eps : ℝ) (x : Fin 1 → ℝ), run sqRes (fresh eps ()) [.evalT x, .diffT x] = none)
    ∧ ∀ e : ℝ, 0 < e → ∃ s : World Unit (Fin 1) 1 1, run sqRes (fresh 0 ()) [.setDist 1, .eval 0 0, .diff 0 0, .setDist e, .evalT 0, .diffT 0] = some s
      ∧ s.ejac = e ∧ s.d.r 0 = 0 ∧ s.d.Jx 0 0 = 1 ∧ HasDerivAt (fun t : ℝ => t * t) 0 0 := by
  refine ⟨fun eps x => rfl, fun e he => ?_⟩
  set s1 := diff sqRes (calcU sqRes (setDist (fresh 0 ()) 1) 0 0) 0 0 with hs1
  have hx : s1.d.xh = some 1 := by
    have h10 : ¬ ((1 : ℝ) < 0) := by norm_num
    simp [hs1, diff, calcU, setDist, h10, sqRes, euclid, NumDiff.norm, fresh]
  obtain ⟨s, h1, h2, h3, h4⟩ := diffT_step sqRes (fun x _ => x 0 * x 0) (fun _ _ => rfl) (setDist s1 e) 0 rfl 1 (by
    simp only [termStep, sqRes, calcT, setDist, not_lt.mpr he.le, if_false]
    exact hx)
  refine ⟨s, ?_, ?_, ?_, ?_, ?_⟩
  · simp only [run, List.foldlM_cons, List.foldlM_nil, step, Option.bind_eq_bind, Option.bind_some]
    rw [← hs1, h1]
    rfl
  · rw [h2, setDist, if_neg (not_lt.mpr he.le)]
  · rw [h3]; simp
  · rw [h4]; simp [sqRes, euclid]
  · have := (hasDerivAt_id (0 : ℝ)).mul (hasDerivAt_id (0 : ℝ))
    have e : (fun t : ℝ => t * t) = id * id := rfl
    rw [e]
    simpa using this

/-- Hypotheses of C78: shared data that hold the point itself, as the kinematics do, refreshed by the re-evaluation
function; the residual reads only the shared data. -/
example : ∃ m : Wrap (ℝ × ℝ) (Fin 1 → ℝ) (Fin 1) 1 1, (∀ w x u, m.ev (m.re x u w) x u = fun _ => x 0 * u 0)
    ∧ (∃ w x u, m.ev w x u ≠ fun _ => x 0 * u 0) ∧ ∃ w, m.ev w (fun _ => 2) (fun _ => 3) = fun _ => 2 * 3 :=
  ⟨{ st := euclid 1, xnorm := NumDiff.norm, re := fun x u _ => (x 0, u 0), reT := fun x w => (x 0, w.2),
     ev := fun w _ _ => fun _ => w.1 * w.2, evT := fun w _ => fun _ => w.1, term := .dist },
    fun _ _ _ => rfl, ⟨(1, 1), 0, 0, fun h => by simpa using congrFun h 0⟩, ⟨(2, 3), rfl⟩⟩

/-! ### C79: second derivatives of a cost and of an activation -/

/-- **C79 (what is computed).** The Hessians of a cost are the Gauss approximation: the difference quotients of the
residual, weighted with the Hessian of the activation at the residual. -/
theorem C79_gauss (m : Wrap W X (Unit ⊕ Fin nr) n nu) (arr : (Fin nr → ℝ) → Matrix (Fin nr) (Fin nr) ℝ)
    (f : X → (Fin nu → ℝ) → Unit ⊕ Fin nr → ℝ) (hre : ∀ w x u, m.ev (m.re x u w) x u = f x u)
    (s : World W (Unit ⊕ Fin nr) n nu) (x : X) (u : Fin nu → ℝ) (hw : m.ev s.sh x u = f x u) :
    let H := (costDiff m arr (calcU m s x u) x u).2
    let hx := s.ejac * max 1 (NumDiff.norm (m.st.diff m.st.zero x))
    let hu := s.ejac * max 1 (NumDiff.norm u)
    let r := fun a => f x u (Sum.inr a)
    let qx := fun a j => (f (m.st.integrate x (Pi.single j hx)) u (Sum.inr a) - r a) / hx
    let qu := fun a j => (f x (u + Pi.single j hu) (Sum.inr a) - r a) / hu
    (∀ i j, H.Lxx i j = ∑ a, ∑ b, qx a i * arr r a b * qx b j)
    ∧ (∀ i j, H.Lxu i j = ∑ a, ∑ b, qx a i * arr r a b * qu b j)
    ∧ (∀ i j, H.Luu i j = ∑ a, ∑ b, qu a i * arr r a b * qu b j) := by
  intro H hx hu r qx qu
  obtain ⟨h0, h1, h2⟩ := C78_quotients m f hre s x u hw
  set d := (diff m (calcU m s x u) x u).d with hd
  have eqx : rows d.Jx = Matrix.of qx := by ext a j; exact h1 (Sum.inr a) j
  have equ : rows d.Ju = Matrix.of qu := by ext a j; exact h2 (Sum.inr a) j
  have er : (fun a => d.r (Sum.inr a)) = r := by rw [h0]
  have tri : ∀ {p q : ℕ} (A : Matrix (Fin nr) (Fin p) ℝ) (M : Matrix (Fin nr) (Fin nr) ℝ) (B : Matrix (Fin nr) (Fin q) ℝ) i j,
      (Aᵀ * M * B) i j = ∑ a, ∑ b, A a i * M a b * B b j := by
    intro p q A M B i j
    simp only [Matrix.mul_apply, Matrix.transpose_apply, Finset.sum_mul]
    rw [Finset.sum_comm]
  have hH : H = costHess arr d := rfl
  rw [hH]
  unfold costHess
  simp only [er, eqx, equ]
  by_cases hn : 0 < nr
  · simp only [hn, if_true]
    exact ⟨fun i j => tri _ _ _ i j, fun i j => tri _ _ _ i j, fun i j => tri _ _ _ i j⟩
  · have h0 : nr = 0 := by omega
    subst h0
    simp

/-- **C79 (terminal node).** -/
theorem C79_gauss_terminal (m : Wrap W X (Unit ⊕ Fin nr) n nu) (hm : m.term = .xnorm)
    (arr : (Fin nr → ℝ) → Matrix (Fin nr) (Fin nr) ℝ)
    (f : X → Unit ⊕ Fin nr → ℝ) (hre : ∀ w x, m.evT (m.reT x w) x = f x)
    (s : World W (Unit ⊕ Fin nr) n nu) (H0 : Hess n nu) (x : X) (hw : m.evT s.sh x = f x) :
    ∃ e H, costDiffT m arr (calcT m s x) H0 x = some (e, H) ∧ H.Lxu = H0.Lxu ∧ H.Luu = H0.Luu ∧
    let hx := s.ejac * max 1 (m.xnorm x)
    let r := fun a => f x (Sum.inr a)
    let qx := fun a j => (f (m.st.integrate x (Pi.single j hx)) (Sum.inr a) - r a) / hx
    ∀ i j, H.Lxx i j = ∑ a, ∑ b, qx a i * arr r a b * qx b j := by
  obtain ⟨e, M, h1, -, h2, -, h3, h4⟩ := C78_quotients_terminal_partial m (by rw [hm]; simp) f hre s x hw
  rw [h3 hm] at h4
  refine ⟨e, costHessT arr e.d H0, by simp [costDiffT, h1], ?_, ?_, ?_⟩
  · unfold costHessT; dsimp only; split_ifs <;> rfl
  · unfold costHessT; dsimp only; split_ifs <;> rfl
  · intro hx r qx i j
    have eqx : rows e.d.Jx = Matrix.of qx := by ext a j; exact h4 (Sum.inr a) j
    have er : (fun a => e.d.r (Sum.inr a)) = r := by rw [h2]
    unfold costHessT
    simp only [er, eqx]
    by_cases hn : 0 < nr
    · simp only [hn, if_true, Matrix.mul_apply, Matrix.transpose_apply, Finset.sum_mul]
      rw [Finset.sum_comm]
      rfl
    · have h0 : nr = 0 := by omega
      subst h0
      simp

/-- **C79 (affine residuals, exact).** On a vector space, if the residual is affine, `r = Sx x + Su u + c`, and the activation
has gradient `A` with Jacobian `arr` at the residual, then for every positive disturbance the computed blocks are the
derivatives of the gradients `Sxᵀ A(r(x, u))` and `Suᵀ A(r(x, u))` of the cost. -/
theorem C79_exact (m : Wrap W (Fin n → ℝ) (Unit ⊕ Fin nr) n nu) (hst : m.st = euclid n)
    (arr : (Fin nr → ℝ) → Matrix (Fin nr) (Fin nr) ℝ) (Sx : Matrix (Fin nr) (Fin n) ℝ) (Su : Matrix (Fin nr) (Fin nu) ℝ)
    (c : Fin nr → ℝ) (f : (Fin n → ℝ) → (Fin nu → ℝ) → Unit ⊕ Fin nr → ℝ)
    (hf : ∀ x u a, f x u (Sum.inr a) = (Sx *ᵥ x + Su *ᵥ u + c) a)
    (hre : ∀ w x u, m.ev (m.re x u w) x u = f x u)
    (s : World W (Unit ⊕ Fin nr) n nu) (hs : 0 < s.ejac) (x : Fin n → ℝ) (u : Fin nu → ℝ) (hw : m.ev s.sh x u = f x u)
    (A : (Fin nr → ℝ) → Fin nr → ℝ)
    (hA : Deriv.HasJac1 A (arr (Sx *ᵥ x + Su *ᵥ u + c)) (Sx *ᵥ x + Su *ᵥ u + c)) :
    let H := (costDiff m arr (calcU m s x u) x u).2
    (∀ i j, HasDerivAt (fun t : ℝ => (Sxᵀ *ᵥ A (Sx *ᵥ (x + Pi.single j t) + Su *ᵥ u + c)) i) (H.Lxx i j) 0)
    ∧ (∀ i j, HasDerivAt (fun t : ℝ => (Sxᵀ *ᵥ A (Sx *ᵥ x + Su *ᵥ (u + Pi.single j t) + c)) i) (H.Lxu i j) 0)
    ∧ (∀ i j, HasDerivAt (fun t : ℝ => (Suᵀ *ᵥ A (Sx *ᵥ x + Su *ᵥ (u + Pi.single j t) + c)) i) (H.Luu i j) 0) := by
  intro H
  have hH := C79_gauss m arr f hre s x u hw
  have hx := mul_pos hs (maxpos (NumDiff.norm (m.st.diff m.st.zero x)))
  have hu := mul_pos hs (maxpos (NumDiff.norm u))
  set r0 := Sx *ᵥ x + Su *ᵥ u + c with hr0
  have er : (fun a => f x u (Sum.inr a)) = r0 := by funext a; rw [hf]
  have col : ∀ {k : ℕ} (M : Matrix (Fin nr) (Fin k) ℝ) (j : Fin k) (h : ℝ), (M *ᵥ (Pi.single j h)) = h • fun a => M a j := by
    intro k M j h
    ext a
    simp [mulVec_single, mul_comm]
  have qx : ∀ a j, (f (m.st.integrate x (Pi.single j (s.ejac * max 1 (NumDiff.norm (m.st.diff m.st.zero x))))) u (Sum.inr a) - f x u (Sum.inr a))
      / (s.ejac * max 1 (NumDiff.norm (m.st.diff m.st.zero x))) = Sx a j := by
    intro a j
    generalize s.ejac * max 1 (NumDiff.norm (m.st.diff m.st.zero x)) = h at hx
    simp only [hf, hst, euclid, mulVec_add, Pi.add_apply, col, Pi.smul_apply, smul_eq_mul]
    field_simp
    ring
  have qu : ∀ a j, (f x (u + Pi.single j (s.ejac * max 1 (NumDiff.norm u))) (Sum.inr a) - f x u (Sum.inr a))
      / (s.ejac * max 1 (NumDiff.norm u)) = Su a j := by
    intro a j
    generalize s.ejac * max 1 (NumDiff.norm u) = h at hu
    simp only [hf, mulVec_add, Pi.add_apply, col, Pi.smul_apply, smul_eq_mul]
    field_simp
    ring
  simp only [qx, qu, er] at hH
  obtain ⟨h1, h2, h3⟩ := hH
  -- the derivative of `A` along a line
  have line : ∀ (v : Fin nr → ℝ) a, HasDerivAt (fun t : ℝ => A (r0 + t • v) a) (∑ b, arr r0 a b * v b) 0 := by
    intro v a
    have hc : HasDerivAt (fun t : ℝ => r0 + t • v) v 0 := by
      simpa using ((hasDerivAt_id (0 : ℝ)).smul_const v).const_add r0
    have h0 : r0 + (0 : ℝ) • v = r0 := by simp
    have hA' := hA a
    unfold Deriv.HasGrad1 at hA'
    rw [← h0] at hA'
    have := hA'.comp_hasDerivAt (0 : ℝ) hc
    rw [h0] at this
    simpa only [Deriv.form_apply, Function.comp_def] using this
  have comb : ∀ {p : ℕ} (M : Matrix (Fin nr) (Fin p) ℝ) (v : Fin nr → ℝ) (i : Fin p),
      HasDerivAt (fun t : ℝ => (Mᵀ *ᵥ A (r0 + t • v)) i) (∑ a, ∑ b, M a i * arr r0 a b * v b) 0 := by
    intro p M v i
    have := HasDerivAt.fun_sum (u := Finset.univ) fun a (_ : a ∈ Finset.univ) => (line v a).const_mul (M a i)
    simp only [mulVec, dotProduct, Matrix.transpose_apply]
    refine this.congr_deriv ?_
    simp only [Finset.mul_sum, mul_assoc]
  refine ⟨fun i j => ?_, fun i j => ?_, fun i j => ?_⟩
  · have e : (fun t : ℝ => (Sxᵀ *ᵥ A (Sx *ᵥ (x + Pi.single j t) + Su *ᵥ u + c)) i)
        = fun t : ℝ => (Sxᵀ *ᵥ A (r0 + t • fun a => Sx a j)) i := by
      funext t
      rw [mulVec_add, col, hr0]
      congr 2
      abel
    rw [e, h1]
    exact comb Sx _ i
  · have e : (fun t : ℝ => (Sxᵀ *ᵥ A (Sx *ᵥ x + Su *ᵥ (u + Pi.single j t) + c)) i)
        = fun t : ℝ => (Sxᵀ *ᵥ A (r0 + t • fun a => Su a j)) i := by
      funext t
      rw [mulVec_add, col, hr0]
      congr 2
      abel
    rw [e, h2]
    exact comb Sx _ i
  · have e : (fun t : ℝ => (Suᵀ *ᵥ A (Sx *ᵥ x + Su *ᵥ (u + Pi.single j t) + c)) i)
        = fun t : ℝ => (Suᵀ *ᵥ A (r0 + t • fun a => Su a j)) i := by
      funext t
      rw [mulVec_add, col, hr0]
      congr 2
      abel
    rw [e, h3]
    exact comb Su _ i

/-- What `calc` and `calcDiff` of the activation wrapper compute. -/
theorem actDiff_eq (f : (Fin nr → ℝ) → ℝ) (ejac : ℝ) (d : ActDat nr) (r : Fin nr → ℝ) :
    let e := actDiff f ejac (actCalc f d r) r
    let h := ejac * max 1 (NumDiff.norm r)
    e.a = f r ∧ (∀ i, e.Ar i = (f (r + Pi.single i h) - f r) / h) ∧ ∀ i, e.Arr i = e.Ar i * e.Ar i := by
  intro e h
  refine ⟨rfl, fun i => ?_, fun _ => rfl⟩
  have H := foldl_touch (actBody f (f r) h) (fun s => s.1 = r) (fun s b => s.2 b)
    (fun b => (f (r + Pi.single b h) - f r) / h) (fun i b => b = i)
    (by
      intro s i h0
      simp only [actBody, h0]
      simp)
    (by
      intro s i b h0
      simp only [actBody, h0, Function.update_apply]
      split_ifs with hb
      · subst hb
        congr 3
        ext k
        by_cases hk : k = b
        · subst hk; simp
        · simp [hk]
      · rfl) (List.finRange nr) (r, (actCalc f d r).Ar) rfl
  exact (H.2 i).1 ⟨i, List.mem_finRange _, rfl⟩

/-- **C79 (activation, gradient).** After `calc(r)`, and after `calcDiff(r)`, the value is the activation's and the gradient
converges to the derivative as the disturbance goes to `0`. Missing, and false: the second derivative
(`C79_activation_counterexample`). -/
theorem C79_activation_partial (f : (Fin nr → ℝ) → ℝ) (d : ActDat nr) (r : Fin nr → ℝ) (g : Fin nr → ℝ)
    (hg : ∀ i, HasDerivAt (fun t : ℝ => f (r + Pi.single i t)) (g i) 0) :
    (actCalc f d r).a = f r ∧ (∀ ejac, (actDiff f ejac (actCalc f d r) r).a = f r)
    ∧ ∀ i, Tendsto (fun ejac => (actDiff f ejac (actCalc f d r) r).Ar i) (𝓝[>] 0) (𝓝 (g i)) := by
  refine ⟨rfl, fun _ => rfl, fun i => ?_⟩
  refine tendsto_of_quot (maxpos (NumDiff.norm r)) (hg i) fun e he => ?_
  rw [(actDiff_eq f e d r).2.1 i]
  simp

/-- **C79: the second derivative of an activation is not approximated.** For every differentiable activation the reported
`Arr` converges to the square of the gradient. For the quadratic activation `½ r²` that is `r²`; the second derivative
is `1`. -/
theorem C79_activation_counterexample (d : ActDat 1) (r : Fin 1 → ℝ) :
    let f := fun r : Fin 1 → ℝ => 1 / 2 * (r 0 * r 0)
    Tendsto (fun ejac => (actDiff f ejac (actCalc f d r) r).Arr 0) (𝓝[>] 0) (𝓝 (r 0 * r 0))
    ∧ (∀ r : Fin 1 → ℝ, HasDerivAt (fun t : ℝ => f (r + Pi.single 0 t)) (r 0) 0) ∧ HasDerivAt (fun t : ℝ => t) 1 0 := by
  intro f
  have hg : ∀ r : Fin 1 → ℝ, HasDerivAt (fun t : ℝ => f (r + Pi.single 0 t)) (r 0) 0 := by
    intro r
    have h1 : HasDerivAt (fun t : ℝ => r 0 + t) 1 0 := (hasDerivAt_id (0 : ℝ)).const_add (r 0)
    have h2 := (h1.mul h1).const_mul (1 / 2)
    have e : (fun t : ℝ => f (r + Pi.single 0 t)) = fun t : ℝ => 1 / 2 * (((fun t : ℝ => r 0 + t) * fun t : ℝ => r 0 + t) t) := by
      funext t; simp [f]
    rw [e]
    refine h2.congr_deriv ?_
    simp
    ring
  refine ⟨?_, hg, hasDerivAt_id 0⟩
  have := (C79_activation_partial f d r r fun i => by
    have : i = 0 := Subsingleton.elim _ _
    subst this; exact hg r).2.2 0
  have h2 := this.mul this
  exact h2.congr fun e => ((actDiff_eq f e d r).2.2 0).symm

/-- Hypotheses of `C79_exact`: the gradient of the quadratic activation. -/
example (r : Fin 2 → ℝ) : Deriv.HasJac1 (fun r : Fin 2 → ℝ => r) 1 r := by
  intro i
  refine (ContinuousLinearMap.proj (R := ℝ) (φ := fun _ : Fin 2 => ℝ) i).hasFDerivAt.congr_fderiv ?_
  ext v
  simp [Deriv.form_apply, Matrix.one_apply]

/-! ### C80: control parametrisations and states -/

/-- What `calc` and `calcDiff` of the control wrapper compute. -/
theorem ctlDiff_eq (f : ℝ → (Fin nu → ℝ) → Fin nw → ℝ) (ejac : ℝ) (d : CtlDat nw nu) (t : ℝ) (u : Fin nu → ℝ) :
    let e := ctlDiff f ejac (ctlCalc f d t u) t u
    let h := ejac * max 1 (NumDiff.norm u)
    e.w = f t u ∧ ∀ i j, e.dw i j = (f t (u + Pi.single j h) i - f t u i) / h := by
  intro e h
  refine ⟨rfl, fun i j => ?_⟩
  have H := foldl_touch (ctlBody f t u (f t u) h) (fun s => s.1 = 0) (fun s (b : Fin nw × Fin nu) => s.2 b.1 b.2)
    (fun b => f t (u + Pi.single b.2 h) b.1 - f t u b.1) (fun i b => b.2 = i)
    (by
      intro s i h0
      simp only [ctlBody, h0, Pi.zero_apply, zero_add]
      exact update_zero i h)
    (by
      rintro s i ⟨a, b⟩ h0
      simp only [ctlBody, h0, setCol, Pi.zero_apply, zero_add]
      split_ifs with hb
      · subst hb; rfl
      · rfl) (List.finRange nu) (0, d.dw) rfl
  have := (H.2 (i, j)).1 ⟨j, List.mem_finRange _, rfl⟩
  show ((List.finRange nu).foldl (ctlBody f t u (f t u) h) (0, d.dw)).2 i j / h = _
  rw [this]

/-- **C80 (control).** After `calc(t, u)` and `calcDiff(t, u)`: the value is the parametrisation's, the Jacobian converges
to its derivative as the disturbance goes to `0`, and is exact for every positive disturbance if the parametrisation is linear in
the control parameters (as all those of the library are); the products with the Jacobian are then those of the
parametrisation. Missing, and false: the value after `calc` alone (`C80_control_counterexample`). -/
theorem C80_control_partial (f : ℝ → (Fin nu → ℝ) → Fin nw → ℝ) (d : CtlDat nw nu) (t : ℝ) (u : Fin nu → ℝ) :
    (∀ ejac, (ctlDiff f ejac (ctlCalc f d t u) t u).w = f t u)
    ∧ (∀ D : Matrix (Fin nw) (Fin nu) ℝ, (∀ i j, HasDerivAt (fun s : ℝ => f t (u + Pi.single j s) i) (D i j) 0) →
        ∀ i j, Tendsto (fun ejac => (ctlDiff f ejac (ctlCalc f d t u) t u).dw i j) (𝓝[>] 0) (𝓝 (D i j)))
    ∧ (∀ M : Matrix (Fin nw) (Fin nu) ℝ, (∀ v, f t v = M *ᵥ v) → ∀ ejac, 0 < ejac →
        let e := ctlDiff f ejac (ctlCalc f d t u) t u
        e.dw = M
        ∧ ∀ (p : ℕ) (A : Matrix (Fin p) (Fin nw) ℝ) (B : Matrix (Fin nw) (Fin p) ℝ) (o : Matrix (Fin p) (Fin nu) ℝ)
            (o' : Matrix (Fin nu) (Fin p) ℝ),
          mulJac .setto e A o = A * M ∧ mulJac .addto e A o = o + A * M ∧ mulJac .rmfrom e A o = o - A * M
          ∧ mulJacT .setto e B o' = Mᵀ * B ∧ mulJacT .addto e B o' = o' + Mᵀ * B ∧ mulJacT .rmfrom e B o' = o' - Mᵀ * B) := by
  refine ⟨fun _ => rfl, fun D hD i j => ?_, fun M hM ejac he => ?_⟩
  · refine tendsto_of_quot (maxpos (NumDiff.norm u)) (hD i j) fun e he => ?_
    rw [(ctlDiff_eq f e d t u).2 i j]
    simp
  · intro e
    have : e.dw = M := by
      ext i j
      have hu := mul_pos he (maxpos (NumDiff.norm u))
      rw [(ctlDiff_eq f ejac d t u).2 i j]
      generalize ejac * max 1 (NumDiff.norm u) = h at hu
      rw [hM, hM, mulVec_add]
      simp [mulVec_single]
      field_simp
    refine ⟨this, fun p A B o o' => ?_⟩
    simp only [mulJac, mulJacT, this, and_self]

/-- **C80: the value after `calc`.** `calc(t, u)` alone does not write the value at all: it stays what it was, whatever the
parametrisation and the arguments are. -/
theorem C80_control_counterexample (f : ℝ → (Fin nu → ℝ) → Fin nw → ℝ) (d : CtlDat nw nu) (t : ℝ) (u : Fin nu → ℝ) :
    (ctlCalc f d t u).w = d.w
    ∧ ∃ d0 : CtlDat 1 1, (ctlCalc (fun _ u => u) d0 0 (fun _ => 1)).w ≠ fun _ => 1 := by
  refine ⟨rfl, ⟨0, 0, 0, 0⟩, fun h => ?_⟩
  have := congrFun h 0
  simp [ctlCalc] at this

theorem jdiff_fst (st : StateOps X n) (xnorm : X → ℝ) (e : ℝ) (c : Jc) (hc : c = .first ∨ c = .both) (x0 x1 : X)
    (J : Matrix (Fin n) (Fin n) ℝ × Matrix (Fin n) (Fin n) ℝ) (i j : Fin n) : (jdiff st xnorm e c x0 x1 J).1 i j
      = (st.diff (st.integrate x0 (Pi.single j (e * max 1 (xnorm x0)))) x1 i - st.diff x0 x1 i) / (e * max 1 (xnorm x0)) := by
  unfold jdiff
  dsimp only
  rw [if_pos hc]
  show stLoop _ _ _ i j / _ = _
  rw [stLoop_eq]
  rfl

theorem jdiff_snd (st : StateOps X n) (xnorm : X → ℝ) (e : ℝ) (c : Jc) (hc : c = .second ∨ c = .both) (x0 x1 : X)
    (J : Matrix (Fin n) (Fin n) ℝ × Matrix (Fin n) (Fin n) ℝ) (i j : Fin n) : (jdiff st xnorm e c x0 x1 J).2 i j
      = (st.diff x0 (st.integrate x1 (Pi.single j (e * max 1 (xnorm x1)))) i - st.diff x0 x1 i) / (e * max 1 (xnorm x1)) := by
  unfold jdiff
  dsimp only
  rw [if_pos hc]
  show stLoop _ _ _ i j / _ = _
  rw [stLoop_eq]
  rfl

theorem jint_fst (st : StateOps X n) (xnorm : X → ℝ) (e : ℝ) (c : Jc) (op : AssOp) (hc : c = .first ∨ c = .both) (x : X)
    (v : Fin n → ℝ) (J : Matrix (Fin n) (Fin n) ℝ × Matrix (Fin n) (Fin n) ℝ) (i j : Fin n) :
    (jintegrate st xnorm e c op x v J).1 i j
      = st.diff (st.integrate x v) (st.integrate (st.integrate x (Pi.single j (e * max 1 (xnorm x)))) v) i / (e * max 1 (xnorm x)) := by
  unfold jintegrate
  dsimp only
  rw [if_pos hc]
  show stLoop _ _ _ i j / _ = _
  rw [stLoop_eq]

theorem jint_snd (st : StateOps X n) (xnorm : X → ℝ) (e : ℝ) (c : Jc) (op : AssOp) (hc : c = .second ∨ c = .both) (x : X)
    (v : Fin n → ℝ) (J : Matrix (Fin n) (Fin n) ℝ × Matrix (Fin n) (Fin n) ℝ) (i j : Fin n) :
    (jintegrate st xnorm e c op x v J).2 i j
      = st.diff (st.integrate x v) (st.integrate x (v + Pi.single j (e * max 1 (NumDiff.norm v)))) i
        / (e * max 1 (NumDiff.norm v)) := by
  unfold jintegrate
  dsimp only
  rw [if_pos hc]
  show stLoop _ _ _ i j / _ = _
  rw [stLoop_eq]

/-- **C80 (state).** The Jacobians of `diff` and `integrate` that are asked for are the difference quotients in the tangent
space; they converge to the derivatives as the disturbance goes to `0`; the other argument is left alone. -/
theorem C80_state (st : StateOps X n) (xnorm : X → ℝ) (c : Jc) (op : AssOp) (x0 x1 : X) (v : Fin n → ℝ)
    (h0 : ∀ x, st.integrate x 0 = x) (hd : ∀ x, st.diff x x = 0) (J : Matrix (Fin n) (Fin n) ℝ × Matrix (Fin n) (Fin n) ℝ)
    (D1 D2 I1 I2 : Matrix (Fin n) (Fin n) ℝ)
    (hD1 : ∀ i j, HasDerivAt (fun t : ℝ => st.diff (st.integrate x0 (Pi.single j t)) x1 i) (D1 i j) 0)
    (hD2 : ∀ i j, HasDerivAt (fun t : ℝ => st.diff x0 (st.integrate x1 (Pi.single j t)) i) (D2 i j) 0)
    (hI1 : ∀ i j, HasDerivAt (fun t : ℝ => st.diff (st.integrate x0 v) (st.integrate (st.integrate x0 (Pi.single j t)) v) i) (I1 i j) 0)
    (hI2 : ∀ i j, HasDerivAt (fun t : ℝ => st.diff (st.integrate x0 v) (st.integrate x0 (v + Pi.single j t)) i) (I2 i j) 0) :
    (c ≠ .second → (∀ i j, Tendsto (fun e => (jdiff st xnorm e c x0 x1 J).1 i j) (𝓝[>] 0) (𝓝 (D1 i j)))
      ∧ ∀ i j, Tendsto (fun e => (jintegrate st xnorm e c op x0 v J).1 i j) (𝓝[>] 0) (𝓝 (I1 i j)))
    ∧ (c ≠ .first → (∀ i j, Tendsto (fun e => (jdiff st xnorm e c x0 x1 J).2 i j) (𝓝[>] 0) (𝓝 (D2 i j)))
      ∧ ∀ i j, Tendsto (fun e => (jintegrate st xnorm e c op x0 v J).2 i j) (𝓝[>] 0) (𝓝 (I2 i j)))
    ∧ (c = .second → ∀ e, (jdiff st xnorm e c x0 x1 J).1 = J.1 ∧ (jintegrate st xnorm e c op x0 v J).1 = J.1)
    ∧ (c = .first → ∀ e, (jdiff st xnorm e c x0 x1 J).2 = J.2 ∧ (jintegrate st xnorm e c op x0 v J).2 = J.2) := by
  refine ⟨fun hc => ⟨fun i j => ?_, fun i j => ?_⟩, fun hc => ⟨fun i j => ?_, fun i j => ?_⟩, ?_, ?_⟩
  · have hc : c = .first ∨ c = .both := by cases c <;> simp_all
    refine tendsto_of_quot (maxpos (xnorm x0)) (hD1 i j) fun e he => ?_
    rw [jdiff_fst _ _ _ _ hc, Pi.single_zero, h0]
  · have hc : c = .first ∨ c = .both := by cases c <;> simp_all
    refine tendsto_of_quot (maxpos (xnorm x0)) (hI1 i j) fun e he => ?_
    rw [jint_fst _ _ _ _ _ hc, Pi.single_zero, h0, hd, Pi.zero_apply, sub_zero]
  · have hc : c = .second ∨ c = .both := by cases c <;> simp_all
    refine tendsto_of_quot (maxpos (xnorm x1)) (hD2 i j) fun e he => ?_
    rw [jdiff_snd _ _ _ _ hc, Pi.single_zero, h0]
  · have hc : c = .second ∨ c = .both := by cases c <;> simp_all
    refine tendsto_of_quot (maxpos (NumDiff.norm v)) (hI2 i j) fun e he => ?_
    rw [jint_snd _ _ _ _ _ hc, Pi.single_zero, add_zero, hd, Pi.zero_apply, sub_zero]
  · rintro rfl e; simp [jdiff, jintegrate]
  · rintro rfl e; simp [jdiff, jintegrate]

/-- **C80 (vector state, exact).** On a vector space the Jacobians are `-1`, `1` and `1`, `1`, for every positive disturbance. -/
theorem C80_state_exact (e : ℝ) (he : 0 < e) (op : AssOp) (x0 x1 v : Fin n → ℝ)
    (J : Matrix (Fin n) (Fin n) ℝ × Matrix (Fin n) (Fin n) ℝ) :
    jdiff (euclid n) NumDiff.norm e .both x0 x1 J = (-1, 1)
    ∧ jintegrate (euclid n) NumDiff.norm e .both op x0 v J = (1, 1) := by
  have p0 := (mul_pos he (maxpos (NumDiff.norm x0))).ne'
  have p1 := (mul_pos he (maxpos (NumDiff.norm x1))).ne'
  have p2 := (mul_pos he (maxpos (NumDiff.norm v))).ne'
  have one : ∀ (h : ℝ), h ≠ 0 → ∀ i j : Fin n, (Pi.single j h : Fin n → ℝ) i / h = (1 : Matrix (Fin n) (Fin n) ℝ) i j := by
    intro h hh i j
    rw [Matrix.one_apply, Pi.single_apply]
    split_ifs
    · exact div_self hh
    · simp
  constructor
  · refine Prod.ext ?_ ?_
    · ext i j
      have := one _ p0 i j
      rw [jdiff_fst _ _ _ _ (.inr rfl)]; show _ = -((1 : Matrix (Fin n) (Fin n) ℝ) i j); rw [← this]
      simp only [euclid, Pi.sub_apply, Pi.add_apply]
      ring
    · ext i j
      have := one _ p1 i j
      rw [jdiff_snd _ _ _ _ (.inr rfl)]; show _ = (1 : Matrix (Fin n) (Fin n) ℝ) i j; rw [← this]
      simp only [euclid, Pi.sub_apply, Pi.add_apply]
      ring
  · refine Prod.ext ?_ ?_
    · ext i j
      have := one _ p0 i j
      rw [jint_fst _ _ _ _ _ (.inr rfl)]; show _ = (1 : Matrix (Fin n) (Fin n) ℝ) i j; rw [← this]
      simp only [euclid, Pi.sub_apply, Pi.add_apply]
      ring
    · ext i j
      have := one _ p2 i j
      rw [jint_snd _ _ _ _ _ (.inr rfl)]; show _ = (1 : Matrix (Fin n) (Fin n) ℝ) i j; rw [← this]
      simp only [euclid, Pi.sub_apply, Pi.add_apply]
      ring

/-- **C80: adding to a Jacobian.** `Jintegrate` with `addto` or `rmfrom` overwrites the argument, as with `setto`. -/
theorem C80_assign_counterexample (e : ℝ) (he : 0 < e) (x v : Fin 1 → ℝ) :
    (jintegrate (euclid 1) NumDiff.norm e .both .addto x v (1, 1)).1 = 1
    ∧ (jintegrate (euclid 1) NumDiff.norm e .both .rmfrom x v (1, 1)).1 = 1
    ∧ (1 : Matrix (Fin 1) (Fin 1) ℝ) + 1 ≠ 1 ∧ (1 : Matrix (Fin 1) (Fin 1) ℝ) - 1 ≠ 1 := by
  refine ⟨by rw [(C80_state_exact e he .addto x 0 v (1, 1)).2], by rw [(C80_state_exact e he .rmfrom x 0 v (1, 1)).2], ?_, ?_⟩
  · intro h
    have := congrFun (congrFun h 0) 0
    simp at this
  · intro h
    have := congrFun (congrFun h 0) 0
    simp at this

/-- A state on the line whose displacements are scaled with `1 + x²`. -/
noncomputable def bent : StateOps ℝ 1 where
  zero := 0
  integrate x v := x + v 0 * (1 + x * x)
  diff x0 x1 := fun _ => (x1 - x0) / (1 + x0 * x0)

/-- **C80: transport.** `JintegrateTransport` leaves the matrix alone, also on a state (a valid one: `diff` inverts
`integrate`) where the Jacobian of `integrate` that it should multiply with is not the identity. -/
theorem C80_transport_counterexample :
    (∀ x v, bent.diff x (bent.integrate x v) = v)
    ∧ jtransport (1 : ℝ) (fun _ : Fin 1 => (1 : ℝ)) (1 : Matrix (Fin 1) (Fin 1) ℝ) .first = 1
    ∧ HasDerivAt (fun t : ℝ => bent.diff (bent.integrate 1 fun _ => 1) (bent.integrate (bent.integrate 1 (Pi.single 0 t)) fun _ => 1) 0)
        (3 / 5) 0 ∧ (3 / 5 : ℝ) ≠ 1 := by
  refine ⟨fun x v => ?_, rfl, ?_, by norm_num⟩
  · funext i
    have : i = 0 := Subsingleton.elim _ _
    subst this
    have h : (1 + x * x) ≠ 0 := by nlinarith [mul_self_nonneg x]
    simp only [bent]
    field_simp
    ring
  · have e : (fun t : ℝ => bent.diff (bent.integrate 1 fun _ => 1) (bent.integrate (bent.integrate 1 (Pi.single 0 t)) fun _ => 1) 0)
        = fun t : ℝ => (3 / 5) * t + (2 / 5) * (t * t) := by
      funext t
      simp [bent]
      ring
    rw [e]
    have h1 := (hasDerivAt_id (0 : ℝ)).const_mul (3 / 5)
    have h2 := ((hasDerivAt_id (0 : ℝ)).mul (hasDerivAt_id (0 : ℝ))).const_mul (2 / 5)
    have := h1.add h2
    refine (this.congr_deriv ?_)
    simp

end Verif.NdMore
