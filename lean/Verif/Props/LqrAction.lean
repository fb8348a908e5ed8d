import Verif.Lemmas.LqrAction
import Verif.Model.Lq
import Mathlib.Tactic.NormNum.Basic
import Mathlib.Tactic.NormNum.Inv
import Mathlib.Tactic.NormNum.Ineq
import Mathlib.Algebra.Field.Rat
import Mathlib.LinearAlgebra.Matrix.Notation
import Mathlib.LinearAlgebra.Matrix.Symmetric
import Mathlib.Tactic.FinCases

/-!
# Property C49: the linear-quadratic action models, and C69: their argument checks

`run V p flag ops` is the state after the calls `ops` on a model constructed with parameters `p`;
`Spec.current p ops` are the parameters in force. `V` is one of the two classes.
-/

set_option linter.unusedSectionVars false

namespace Verif.Lqr
open Matrix Deriv Spec

variable {o ι κ γ η : Type} [Fintype ι] [Fintype κ]
variable {K : Type} [Field K]

/-- The class multiplies matrices and states. -/
def Variant.IsProduct (V : Variant o ι K) : Prop :=
  ∀ (ρ : Type) (M : Matrix ρ ι K) (x : ι → K), V.mul M x = M *ᵥ x

/-- Both classes do. -/
theorem discrete_isProduct (nx : ℕ) : (discrete nx K).IsProduct := fun _ _ _ => rfl

theorem differential_isProduct (nq : ℕ) : (differential nq K).IsProduct := by
  intro ρ M x
  funext a
  simp [differential, mulVec, dotProduct, Fintype.sum_sum_type, toCols₁, toCols₂]

/-! ### Histories -/

theorem run_append (V : Variant o ι K) (p : Par o ι κ γ η K) (fl : Bool) (ops ops' : List (Op o ι κ γ η K)) :
    run V p fl (ops ++ ops') = ops'.foldl (step V) (run V p fl ops) := by simp [run]

theorem step_par (V : Variant o ι K) (s : World o ι κ γ η K) (op : Op o ι κ γ η K) :
    (step V s op).model.par = current s.model.par [op] := by
  cases op with
  | set p => rfl
  | create => rfl
  | calcXU i x u => dsimp only [step]; cases s.datas[i]? <;> rfl
  | calcX i x => dsimp only [step]; cases s.datas[i]? <;> rfl
  | diffXU i x u => dsimp only [step]; cases s.datas[i]? <;> rfl
  | diffX i x => dsimp only [step]; cases s.datas[i]? <;> rfl

theorem foldl_par (V : Variant o ι K) (s : World o ι κ γ η K) (ops : List (Op o ι κ γ η K)) :
    (ops.foldl (step V) s).model.par = current s.model.par ops := by
  induction ops generalizing s with
  | nil => rfl
  | cons op ops ih => rw [List.foldl_cons, ih, step_par]; rfl

theorem run_par (V : Variant o ι K) (p : Par o ι κ γ η K) (fl : Bool) (ops : List (Op o ι κ γ η K)) :
    (run V p fl ops).model.par = current p ops := foldl_par V _ ops

theorem step_length (V : Variant o ι K) (s : World o ι κ γ η K) (op : Op o ι κ γ η K) :
    (step V s op).datas.length = s.datas.length + created [op] := by
  cases op with
  | set p => rfl
  | create => simp [step, created]
  | calcXU i x u => dsimp only [step]; cases s.datas[i]? <;> simp [created]
  | calcX i x => dsimp only [step]; cases s.datas[i]? <;> simp [created]
  | diffXU i x u => dsimp only [step]; cases s.datas[i]? <;> simp [created]
  | diffX i x => dsimp only [step]; cases s.datas[i]? <;> simp [created]

theorem created_cons (op : Op o ι κ γ η K) (ops : List (Op o ι κ γ η K)) :
    created (op :: ops) = created [op] + created ops := by
  simp only [created, List.countP_cons, List.countP_nil]; omega

theorem foldl_length (V : Variant o ι K) (s : World o ι κ γ η K) (ops : List (Op o ι κ γ η K)) :
    (ops.foldl (step V) s).datas.length = s.datas.length + created ops := by
  induction ops generalizing s with
  | nil => rfl
  | cons op ops ih => rw [List.foldl_cons, ih, step_length, created_cons op ops]; omega

theorem run_length (V : Variant o ι K) (p : Par o ι κ γ η K) (fl : Bool) (ops : List (Op o ι κ γ η K)) :
    (run V p fl ops).datas.length = created ops := by
  have := foldl_length V ⟨⟨p, fl⟩, []⟩ ops
  simpa [run] using this

/-! ### Values -/

/-- C49: after `calc(data, x, u)` on any data object, after any history, the data hold the next state (or
acceleration), cost and constraints of the parameters in force. -/
theorem C49_value (V : Variant o ι ℝ) (hV : V.IsProduct) (p : Par o ι κ γ η ℝ) (fl : Bool)
    (ops : List (Op o ι κ γ η ℝ)) (i : ℕ) (hi : i < created ops) (x : ι → ℝ) (u : κ → ℝ) :
    ∃ d, (run V p fl (ops ++ [.calcXU i x u])).datas[i]? = some d ∧
      d.out = next (current p ops) x u ∧ d.cost = cost (current p ops) x u ∧
      d.g = ineq (current p ops) x u ∧ d.h = eqc (current p ops) x u := by
  have hV' : ∀ (ρ : Type) (M : Matrix ρ ι ℝ) (x : ι → ℝ), V.mul M x = M *ᵥ x := hV
  rw [run_append]
  have hl := run_length V p fl ops
  have hp := run_par V p fl ops
  generalize run V p fl ops = s at *
  have h1 : s.datas[i]? = some s.datas[i] := List.getElem?_eq_getElem (by omega)
  simp only [List.foldl_cons, List.foldl_nil]
  dsimp only [step]
  rw [h1]
  refine ⟨_, List.getElem?_set_self (by omega), ?_, ?_, ?_, ?_⟩
  · simp only [calcXU, hV', hp]; rfl
  · simp only [calcXU, hp, cost, dotProduct, mulVec, Finset.mul_sum, mul_add]
    have e : ∀ a b : ι, x a * ((current p ops).Q a b * x b) = x a * (current p ops).Q a b * x b := fun a b => by ring
    have e2 : ∀ (a : ι) (b : κ), 1 / 2 * (2 * (x a * (current p ops).N a b * u b)) =
      x a * ((current p ops).N a b * u b) := fun a b => by ring
    simp only [e2, ← mul_assoc]
    ring
  · simp only [calcXU, hV', hp]; rfl
  · simp only [calcXU, hV', hp]; rfl

/-- C49, terminal node: cost and constraints are those with zero control. -/
theorem C49_value_terminal (V : Variant o ι ℝ) (hV : V.IsProduct) (p : Par o ι κ γ η ℝ) (fl : Bool)
    (ops : List (Op o ι κ γ η ℝ)) (i : ℕ) (hi : i < created ops) (x : ι → ℝ) :
    ∃ d, (run V p fl (ops ++ [.calcX i x])).datas[i]? = some d ∧
      d.cost = cost (current p ops) x 0 ∧
      d.g = ineq (current p ops) x 0 ∧ d.h = eqc (current p ops) x 0 := by
  have hV' : ∀ (ρ : Type) (M : Matrix ρ ι ℝ) (x : ι → ℝ), V.mul M x = M *ᵥ x := hV
  rw [run_append]
  have hl := run_length V p fl ops
  have hp := run_par V p fl ops
  generalize run V p fl ops = s at *
  have h1 : s.datas[i]? = some s.datas[i] := List.getElem?_eq_getElem (by omega)
  simp only [List.foldl_cons, List.foldl_nil]
  dsimp only [step]
  rw [h1]
  refine ⟨_, List.getElem?_set_self (by omega), ?_, ?_, ?_⟩
  · simp only [calcX, hp, cost, dotProduct, mulVec, Finset.mul_sum, Pi.zero_apply, mul_zero,
      Finset.sum_const_zero, add_zero, ← mul_assoc]
  · funext a; simp only [calcX, hV', hp]; simp [ineq, mulVec, dotProduct]
  · funext a; simp only [calcX, hV', hp]; simp [eqc, mulVec, dotProduct]

/-- C49, terminal node of the discrete class: the next state is the state itself. -/
theorem C49_terminal_state (nx : ℕ) (m : Model (Fin nx) (Fin nx) κ γ η K) (d : Data (Fin nx) (Fin nx) κ γ η K)
    (x : Fin nx → K) : (calcX (discrete nx K) m d x).out = x := rfl

/-- The stage used by the solver model (`Verif.Lq`) for the parameters `p`. -/
def stage {n m : ℕ} (p : Par (Fin n) (Fin n) (Fin m) γ η K) : Lq.Lqr K n m where
  A := p.A
  B := p.B
  f := p.f
  Q := p.Q
  R := p.R
  N := p.N
  q := p.q
  r := p.r

/-- C49. The stages on which the solver theorems (C29, C30, C65-C67) are stated are this action model: same next state,
cost, terminal cost, and, once the constant blocks are stored, same derivatives. -/
theorem C49_solver_stage {n m : ℕ} (M : Model (Fin n) (Fin n) (Fin m) γ η K) (d : Data (Fin n) (Fin n) (Fin m) γ η K)
    (x : Fin n → K) (u : Fin m → K) :
    (calcXU (discrete n K) M d x u).out = (stage M.par).next x u ∧
    (calcXU (discrete n K) M d x u).cost = (stage M.par).cost x u ∧
    (calcX (discrete n K) M d x).cost = (stage M.par).costT x ∧
    (Holds M.par d → ∀ e, e = (diffXU M d x u).2 →
      (⟨e.Fx, e.Fu, e.Lx, e.Lu, e.Lxx, e.Lxu, e.Luu⟩ : Lq.Derivs K n m) = (stage M.par).derivs x u) := by
  refine ⟨rfl, rfl, rfl, ?_⟩
  rintro ⟨h1, h2, h3, h4, h5, -⟩ e rfl
  simp only [diffXU, stage, Lq.Lqr.derivs]
  split <;> simp [h1, h2, h3, h4, h5]

/-! ### Gradients -/

/-- C49 (partial: for symmetric `Q` and `R`; without symmetry the claim is false,
`C49_asymmetric_counterexample`). After `calcDiff(data, x, u)` on any data object, after any history, `Lx` and
`Lu` are the gradients of the cost of the parameters in force. -/
theorem C49_gradient_partial (V : Variant o ι ℝ) (p : Par o ι κ γ η ℝ) (fl : Bool)
    (ops : List (Op o ι κ γ η ℝ)) (i : ℕ) (hi : i < created ops) (x : ι → ℝ) (u : κ → ℝ)
    (hQ : (current p ops).Q.IsSymm) (hR : (current p ops).R.IsSymm) :
    ∃ d, (run V p fl (ops ++ [.diffXU i x u])).datas[i]? = some d ∧
      HasGrad (cost (current p ops)) d.Lx d.Lu x u := by
  rw [run_append]
  have hl := run_length V p fl ops
  have hp := run_par V p fl ops
  generalize run V p fl ops = s at *
  have h1 : s.datas[i]? = some s.datas[i] := List.getElem?_eq_getElem (by omega)
  simp only [List.foldl_cons, List.foldl_nil]
  dsimp only [step]
  rw [h1]
  refine ⟨_, List.getElem?_set_self (by omega), ?_⟩
  refine (hasGrad_cost (current p ops) x u).congr_grad ?_ ?_
  · rw [hQ.eq]; funext k; simp only [diffXU, hp]; simp; ring
  · rw [hR.eq]; funext k; simp only [diffXU, hp]; simp; ring

theorem hasGrad1_of_hasGrad {f : (ι → ℝ) → (κ → ℝ) → ℝ} {gx : ι → ℝ} {gu : κ → ℝ} {x : ι → ℝ} {u : κ → ℝ}
    (h : HasGrad f gx gu x u) : HasGrad1 (fun y => f y u) gx x := by
  have hc : HasFDerivAt (fun y : ι → ℝ => (y, u)) (ContinuousLinearMap.inl ℝ (ι → ℝ) (κ → ℝ)) x :=
    hasFDerivAt_prodMk_left x u
  refine (HasFDerivAt.comp x (f := fun y : ι → ℝ => (y, u)) h hc).congr_fderiv ?_
  ext v; simp

/-- C49, terminal node (partial: for symmetric `Q`): `Lx` is the gradient of the terminal cost. -/
theorem C49_gradient_terminal_partial (V : Variant o ι ℝ) (p : Par o ι κ γ η ℝ) (fl : Bool)
    (ops : List (Op o ι κ γ η ℝ)) (i : ℕ) (hi : i < created ops) (x : ι → ℝ)
    (hQ : (current p ops).Q.IsSymm) :
    ∃ d, (run V p fl (ops ++ [.diffX i x])).datas[i]? = some d ∧
      HasGrad1 (fun y => cost (current p ops) y 0) d.Lx x := by
  rw [run_append]
  have hl := run_length V p fl ops
  have hp := run_par V p fl ops
  generalize run V p fl ops = s at *
  have h1 : s.datas[i]? = some s.datas[i] := List.getElem?_eq_getElem (by omega)
  simp only [List.foldl_cons, List.foldl_nil]
  dsimp only [step]
  rw [h1]
  refine ⟨_, List.getElem?_set_self (by omega), ?_⟩
  have h := hasGrad1_of_hasGrad (hasGrad_cost (current p ops) x 0)
  have e : (diffX s.model s.datas[i] x).2.Lx =
      (1 / 2 : ℝ) • ((current p ops).Q *ᵥ x + (current p ops).Qᵀ *ᵥ x) + (current p ops).N *ᵥ 0 +
        (current p ops).q := by
    rw [hQ.eq]; funext k; simp only [diffX, hp]; simp; ring
  rw [e]; exact h

/-! ### Constant derivatives -/

theorem holds_calcXU (V : Variant o ι K) (p : Par o ι κ γ η K) (m : Model o ι κ γ η K) (d : Data o ι κ γ η K)
    (x : ι → K) (u : κ → K) : Holds p (calcXU V m d x u) ↔ Holds p d := Iff.rfl

theorem holds_calcX (V : Variant o ι K) (p : Par o ι κ γ η K) (m : Model o ι κ γ η K) (d : Data o ι κ γ η K)
    (x : ι → K) : Holds p (calcX V m d x) ↔ Holds p d := Iff.rfl

theorem holds_diffXU (m : Model o ι κ γ η K) (d : Data o ι κ γ η K) (x : ι → K) (u : κ → K)
    (h : m.updated = true → Holds m.par d) : Holds m.par (diffXU m d x u).2 := by
  by_cases hu : m.updated = true
  · simp only [diffXU, hu, if_true]; exact h hu
  · simp only [diffXU, hu]; exact ⟨rfl, rfl, rfl, rfl, rfl, rfl, rfl, rfl, rfl, rfl, rfl⟩

theorem holdsT_diffX (m : Model o ι κ γ η K) (d : Data o ι κ γ η K) (x : ι → K)
    (h : m.updated = true → HoldsT m.par d) : HoldsT m.par (diffX m d x).2 := by
  by_cases hu : m.updated = true
  · simp only [diffX, hu, if_true]; exact h hu
  · simp only [diffX, hu]; exact ⟨rfl, rfl, rfl, rfl, rfl⟩

theorem holds_diffX_keep (m : Model o ι κ γ η K) (d : Data o ι κ γ η K) (x : ι → K)
    (h : Holds m.par d) : Holds m.par (diffX m d x).2 := by
  obtain ⟨a, b, c, e, f, g, i, j, k, l, n⟩ := h
  by_cases hu : m.updated = true
  · simp only [diffX, hu, if_true]; exact ⟨a, b, c, e, f, g, i, j, k, l, n⟩
  · simp only [diffX, hu]; exact ⟨a, b, rfl, e, f, rfl, rfl, j, rfl, rfl, n⟩

theorem holds_create (m : Model o ι κ γ η K) (he : Even (Fintype.card ι)) : Holds m.par (createData m) := by
  have : 2 * (Fintype.card ι - Fintype.card ι / 2) = Fintype.card ι := by
    obtain ⟨k, hk⟩ := he; omega
  exact ⟨rfl, rfl, rfl, rfl, rfl, rfl, this, rfl, rfl, this, rfl⟩

theorem holds_holdsT (p : Par o ι κ γ η K) (d : Data o ι κ γ η K) (h : Holds p d) : HoldsT p d :=
  ⟨h.2.2.1, h.2.2.2.2.2.1, h.2.2.2.2.2.2.1, h.2.2.2.2.2.2.2.2.1, h.2.2.2.2.2.2.2.2.2.1⟩

/-- The call does not evaluate the derivatives of a terminal node. -/
def NoTerminal (ops : List (Op o ι κ γ η K)) : Prop :=
  ∀ op ∈ ops, match op with | .diffX _ _ => False | _ => True

/-- Invariant of histories with one data object: the flag is raised only when the data are up to date. -/
def Inv (P : Par o ι κ γ η K → Data o ι κ γ η K → Prop) (s : World o ι κ γ η K) : Prop :=
  (s.datas = [] → s.model.updated = true → Even (Fintype.card ι)) ∧
  (∀ d ∈ s.datas, s.model.updated = true → P s.model.par d)

theorem mem_single {s : World o ι κ γ η K} {i : ℕ} {d : Data o ι κ γ η K} (hl : s.datas.length ≤ 1)
    (hi : s.datas[i]? = some d) (d' d'' : Data o ι κ γ η K) (h : d' ∈ s.datas.set i d'') : d' = d'' := by
  have h0 := (List.getElem?_eq_some_iff.mp hi).1
  match hm : s.datas, hl with
  | [e], _ =>
    have : i = 0 := by rw [hm] at h0; simpa using h0
    subst this
    rw [hm] at h; simpa using h
  | [], _ => rw [hm] at h0; simp at h0

theorem inv_step (V : Variant o ι K) (s : World o ι κ γ η K) (op : Op o ι κ γ η K)
    (hop : match op with | .diffX _ _ => False | _ => True)
    (hs : Inv Holds s) (hl : (step V s op).datas.length ≤ 1) : Inv Holds (step V s op) := by
  obtain ⟨h1, h2⟩ := hs
  have hl' := step_length V s op
  cases op with
  | set p => exact ⟨fun _ h => by simp [step, setLQR] at h, fun d _ h => by simp [step, setLQR] at h⟩
  | create =>
    have h0 : s.datas = [] := List.length_eq_zero_iff.mp (by simp [created] at hl'; omega)
    refine ⟨fun h => by simp [step] at h, fun d hd hu => ?_⟩
    simp only [step, h0, List.nil_append, List.mem_singleton] at hd
    subst hd
    exact holds_create _ (h1 h0 hu)
  | calcXU i x u =>
    dsimp only [step]
    cases hi : s.datas[i]? with
    | none => exact ⟨h1, h2⟩
    | some d =>
      refine ⟨fun h => ?_, fun d' hd' hu => ?_⟩
      · exact h1 (by simpa using h)
      · rcases List.mem_or_eq_of_mem_set hd' with h | h
        · exact h2 d' h hu
        · subst h; exact h2 d (List.mem_of_getElem? hi) hu
  | calcX i x =>
    dsimp only [step]
    cases hi : s.datas[i]? with
    | none => exact ⟨h1, h2⟩
    | some d =>
      refine ⟨fun h => ?_, fun d' hd' hu => ?_⟩
      · exact h1 (by simpa using h)
      · rcases List.mem_or_eq_of_mem_set hd' with h | h
        · exact h2 d' h hu
        · subst h; exact h2 d (List.mem_of_getElem? hi) hu
  | diffXU i x u =>
    have hl2 : s.datas.length ≤ 1 := by simp [created] at hl'; omega
    dsimp only [step]
    cases hi : s.datas[i]? with
    | none => exact ⟨h1, h2⟩
    | some d =>
      refine ⟨fun h => ?_, fun d' hd' _ => ?_⟩
      · have : s.datas = [] := by simpa using h
        rw [this] at hi; simp at hi
      · rw [mem_single hl2 hi _ _ hd']
        exact holds_diffXU s.model d x u (h2 d (List.mem_of_getElem? hi))
  | diffX i x => exact hop.elim

theorem invT_step (V : Variant o ι K) (s : World o ι κ γ η K) (op : Op o ι κ γ η K)
    (hs : Inv HoldsT s) (hl : (step V s op).datas.length ≤ 1) : Inv HoldsT (step V s op) := by
  obtain ⟨h1, h2⟩ := hs
  have hl' := step_length V s op
  cases op with
  | set p => exact ⟨fun _ h => by simp [step, setLQR] at h, fun d _ h => by simp [step, setLQR] at h⟩
  | create =>
    have h0 : s.datas = [] := List.length_eq_zero_iff.mp (by simp [created] at hl'; omega)
    refine ⟨fun h => by simp [step] at h, fun d hd hu => ?_⟩
    simp only [step, h0, List.nil_append, List.mem_singleton] at hd
    subst hd
    exact holds_holdsT _ _ (holds_create _ (h1 h0 hu))
  | calcXU i x u =>
    dsimp only [step]
    cases hi : s.datas[i]? with
    | none => exact ⟨h1, h2⟩
    | some d =>
      refine ⟨fun h => ?_, fun d' hd' hu => ?_⟩
      · exact h1 (by simpa using h)
      · rcases List.mem_or_eq_of_mem_set hd' with h | h
        · exact h2 d' h hu
        · subst h; exact h2 d (List.mem_of_getElem? hi) hu
  | calcX i x =>
    dsimp only [step]
    cases hi : s.datas[i]? with
    | none => exact ⟨h1, h2⟩
    | some d =>
      refine ⟨fun h => ?_, fun d' hd' hu => ?_⟩
      · exact h1 (by simpa using h)
      · rcases List.mem_or_eq_of_mem_set hd' with h | h
        · exact h2 d' h hu
        · subst h; exact h2 d (List.mem_of_getElem? hi) hu
  | diffXU i x u =>
    have hl2 : s.datas.length ≤ 1 := by simp [created] at hl'; omega
    dsimp only [step]
    cases hi : s.datas[i]? with
    | none => exact ⟨h1, h2⟩
    | some d =>
      refine ⟨fun h => ?_, fun d' hd' _ => ?_⟩
      · have : s.datas = [] := by simpa using h
        rw [this] at hi; simp at hi
      · rw [mem_single hl2 hi _ _ hd']
        have := h2 d (List.mem_of_getElem? hi)
        by_cases hu : s.model.updated = true
        · simp only [diffXU, hu, if_true]; exact this hu
        · simp only [diffXU, hu]; exact ⟨rfl, rfl, rfl, rfl, rfl⟩
  | diffX i x =>
    have hl2 : s.datas.length ≤ 1 := by simp [created] at hl'; omega
    dsimp only [step]
    cases hi : s.datas[i]? with
    | none => exact ⟨h1, h2⟩
    | some d =>
      refine ⟨fun h => ?_, fun d' hd' _ => ?_⟩
      · have : s.datas = [] := by simpa using h
        rw [this] at hi; simp at hi
      · rw [mem_single hl2 hi _ _ hd']
        exact holdsT_diffX s.model d x (h2 d (List.mem_of_getElem? hi))

theorem inv_foldl (V : Variant o ι K) (ops : List (Op o ι κ γ η K)) (s : World o ι κ γ η K)
    (hop : NoTerminal ops) (hs : Inv Holds s) (hl : s.datas.length + created ops ≤ 1) :
    Inv Holds (ops.foldl (step V) s) := by
  induction ops generalizing s with
  | nil => exact hs
  | cons op ops ih =>
    rw [created_cons] at hl
    have hl' := step_length V s op
    exact ih _ (fun op' h => hop op' (List.mem_cons_of_mem _ h))
      (inv_step V s op (hop op List.mem_cons_self) hs (by omega)) (by omega)

theorem invT_foldl (V : Variant o ι K) (ops : List (Op o ι κ γ η K)) (s : World o ι κ γ η K)
    (hs : Inv HoldsT s) (hl : s.datas.length + created ops ≤ 1) :
    Inv HoldsT (ops.foldl (step V) s) := by
  induction ops generalizing s with
  | nil => exact hs
  | cons op ops ih =>
    rw [created_cons] at hl
    have hl' := step_length V s op
    exact ih _ (invT_step V s op hs (by omega)) (by omega)

/-- C49 (partial: one data object, used for running evaluations only, and an even number of states when the
constructor left the flag raised; otherwise the claim is false: `C49_two_datas_counterexample`,
`C49_terminal_first_counterexample`, `C49_odd_counterexample`). However parameter changes are interleaved, the
derivatives stored after `calcDiff(data, x, u)` are those of the parameters in force: Jacobians of the dynamics
and of the constraints, and the Hessian of the cost as Jacobian of its gradient. -/
theorem C49_derivatives_partial (V : Variant o ι ℝ) (p : Par o ι κ γ η ℝ) (fl : Bool)
    (hfl : fl = true → Even (Fintype.card ι)) (ops : List (Op o ι κ γ η ℝ))
    (h1 : created ops = 1) (hT : NoTerminal ops) (x : ι → ℝ) (u : κ → ℝ) :
    ∃ d, (run V p fl (ops ++ [.diffXU 0 x u])).datas = [d] ∧ Holds (current p ops) d ∧
      HasJac (next (current p ops)) d.Fx d.Fu x u ∧
      HasJac (ineq (current p ops)) d.Gx d.Gu x u ∧
      HasJac (eqc (current p ops)) d.Hx d.Hu x u := by
  have hI : Inv Holds (run V p fl ops) :=
    inv_foldl V ops _ hT ⟨fun _ h => hfl h, fun d hd => by simp at hd⟩ (by simp [h1])
  rw [run_append]
  have hl := run_length V p fl ops
  have hp := run_par V p fl ops
  generalize run V p fl ops = s at *
  match hm : s.datas, hl with
  | [e], _ =>
    simp only [List.foldl_cons, List.foldl_nil]
    dsimp only [step]
    rw [hm]
    simp only [List.getElem?_cons_zero, List.set_cons_zero]
    have hH : Holds (current p ops) (diffXU s.model e x u).2 := by
      rw [← hp]
      exact holds_diffXU s.model e x u (hI.2 e (by rw [hm]; simp))
    refine ⟨_, rfl, hH, ?_, ?_, ?_⟩
    · rw [hH.1, hH.2.1]; exact fun a => hasGrad_affine _ _ _ x u
    · rw [hH.2.2.2.2.2.1, hH.2.2.2.2.2.2.2.1]; exact fun a => hasGrad_affine _ _ _ x u
    · rw [hH.2.2.2.2.2.2.2.2.1, hH.2.2.2.2.2.2.2.2.2.2]; exact fun a => hasGrad_affine _ _ _ x u
  | [], hl => simp [h1] at hl
  | _ :: _ :: _, hl => simp [h1] at hl

/-- C49: data that hold the constants of `p` hold the Hessian of its cost: `(Lxx, Lxu)` and `(Lxuᵀ, Luu)` are the
Jacobians of its gradients. -/
theorem C49_hessian (p : Par o ι κ γ η ℝ) (hQ : p.Q.IsSymm) (hR : p.R.IsSymm) (d : Data o ι κ γ η ℝ)
    (hd : Holds p d) : ∃ Lx : (ι → ℝ) → (κ → ℝ) → ι → ℝ, ∃ Lu : (ι → ℝ) → (κ → ℝ) → κ → ℝ,
      (∀ x u, HasGrad (cost p) (Lx x u) (Lu x u) x u) ∧
      (∀ x u, HasJac Lx d.Lxx d.Lxu x u) ∧ (∀ x u, HasJac Lu d.Lxuᵀ d.Luu x u) := by
  refine ⟨fun x u a => ∑ j, p.Q a j * x j + ∑ j, p.N a j * u j + p.q a,
    fun x u a => ∑ j, p.Nᵀ a j * x j + ∑ j, p.R a j * u j + p.r a, fun x u => ?_, fun x u a => ?_, fun x u a => ?_⟩
  · refine (hasGrad_cost p x u).congr_grad ?_ ?_
    · rw [hQ.eq]; funext k; simp [mulVec, dotProduct]; ring
    · rw [hR.eq]; funext k; simp [mulVec, dotProduct]; ring
  · rw [hd.2.2.1, hd.2.2.2.2.1]; exact hasGrad_affine _ _ _ x u
  · rw [hd.2.2.2.1, hd.2.2.2.2.1]; exact hasGrad_affine _ _ _ x u

/-- C49 (partial: one data object). However parameter changes, running and terminal calls are interleaved, the
derivatives of the terminal node stored after `calcDiff(data, x)` are those of the parameters in force. -/
theorem C49_terminal_partial (V : Variant o ι ℝ) (p : Par o ι κ γ η ℝ) (fl : Bool)
    (hfl : fl = true → Even (Fintype.card ι)) (ops : List (Op o ι κ γ η ℝ))
    (h1 : created ops = 1) (x : ι → ℝ) :
    ∃ d, (run V p fl (ops ++ [.diffX 0 x])).datas = [d] ∧ HoldsT (current p ops) d := by
  have hI : Inv HoldsT (run V p fl ops) :=
    invT_foldl V ops _ ⟨fun _ h => hfl h, fun d hd => by simp at hd⟩ (by simp [h1])
  rw [run_append]
  have hl := run_length V p fl ops
  have hp := run_par V p fl ops
  generalize run V p fl ops = s at *
  match hm : s.datas, hl with
  | [e], _ =>
    simp only [List.foldl_cons, List.foldl_nil]
    dsimp only [step]
    rw [hm]
    simp only [List.getElem?_cons_zero, List.set_cons_zero]
    refine ⟨_, rfl, ?_⟩
    rw [← hp]
    exact holdsT_diffX s.model e x (hI.2 e (by rw [hm]; simp))
  | [], hl => simp [h1] at hl
  | _ :: _ :: _, hl => simp [h1] at hl

/-- C49 (partial: even number of states, parameters not changed once a data object exists). Then any number of
data objects, in any interleaving of running and terminal calls, always hold the constant derivatives. -/
theorem C49_fixed_parameters_partial (V : Variant o ι K) (p : Par o ι κ γ η K) (fl : Bool)
    (he : Even (Fintype.card ι)) (ops : List (Op o ι κ γ η K))
    (hset : ∀ op ∈ ops, match op with | .set _ => False | _ => True) :
    ∀ d ∈ (run V p fl ops).datas, Holds p d := by
  suffices H : ∀ s : World o ι κ γ η K, s.model.par = p → (∀ d ∈ s.datas, Holds p d) →
      ∀ d ∈ (ops.foldl (step V) s).datas, Holds p d from
    H ⟨⟨p, fl⟩, []⟩ rfl (by simp)
  induction ops with
  | nil => intro s _ h; exact h
  | cons op ops ih =>
    intro s hp h
    have hop := hset op List.mem_cons_self
    refine ih (fun op' h' => hset op' (List.mem_cons_of_mem _ h')) _ ?_ ?_
    · rw [step_par, hp]; cases op <;> first | rfl | exact hop.elim
    · cases op with
      | set p => exact hop.elim
      | create =>
        intro d hd
        simp only [step, List.mem_append, List.mem_singleton] at hd
        rcases hd with hd | hd
        · exact h d hd
        · subst hd; rw [← hp]; exact holds_create _ he
      | calcXU i x u =>
        dsimp only [step]
        cases hi : s.datas[i]? with
        | none => exact h
        | some d =>
          intro d' hd'
          rcases List.mem_or_eq_of_mem_set hd' with h' | h'
          · exact h d' h'
          · subst h'; exact h d (List.mem_of_getElem? hi)
      | calcX i x =>
        dsimp only [step]
        cases hi : s.datas[i]? with
        | none => exact h
        | some d =>
          intro d' hd'
          rcases List.mem_or_eq_of_mem_set hd' with h' | h'
          · exact h d' h'
          · subst h'; exact h d (List.mem_of_getElem? hi)
      | diffXU i x u =>
        dsimp only [step]
        cases hi : s.datas[i]? with
        | none => exact h
        | some d =>
          intro d' hd'
          rcases List.mem_or_eq_of_mem_set hd' with h' | h'
          · exact h d' h'
          · subst h'
            rw [← hp]
            exact holds_diffXU _ _ _ _ fun _ => by rw [hp]; exact h d (List.mem_of_getElem? hi)
      | diffX i x =>
        dsimp only [step]
        cases hi : s.datas[i]? with
        | none => exact h
        | some d =>
          intro d' hd'
          rcases List.mem_or_eq_of_mem_set hd' with h' | h'
          · exact h d' h'
          · subst h'
            rw [← hp]
            exact holds_diffX_keep _ _ _ (by rw [hp]; exact h d (List.mem_of_getElem? hi))

/-! ### Counterexamples and non-vacuity -/

/-- A model with two states, one control, one inequality and no equality. -/
def ex (a : K) : Par (Fin 2) (Fin 2) (Fin 1) (Fin 1) (Fin 0) K where
  A := !![a, 0; 0, a]
  B := !![1; a]
  Q := !![1, 0; 0, a]
  R := !![a]
  N := !![0; 0]
  Gx := !![a, 1]
  Gu := !![1]
  Hx := 0
  Hu := 0
  f := 0
  q := 0
  r := 0
  g := 0
  h := 0

/-- C49 is false with two data objects: after `set_LQR`, only the first data evaluated is refreshed. -/
theorem C49_two_datas_counterexample :
    ∃ d, (run (discrete 2 ℚ) (ex 1) false
      [.create, .create, .set (ex 5), .diffXU 0 0 0, .diffXU 1 0 0]).datas[1]? = some d ∧
      d.Fx = (ex 1).A ∧ d.Luu = (ex 1).R ∧ (ex 1).A ≠ (ex 5 : Par _ _ _ _ _ ℚ).A := by
  refine ⟨_, rfl, rfl, rfl, fun h => ?_⟩
  have := congrFun (congrFun h 0) 0
  simp [ex] at this

/-- C49 is false when the derivatives of a terminal node are evaluated first: the flag is raised although the
dynamics were not copied, and the next running evaluation leaves them stale. -/
theorem C49_terminal_first_counterexample :
    ∃ d, (run (discrete 2 ℚ) (ex 1) false
      [.create, .set (ex 5), .diffX 0 0, .diffXU 0 0 0]).datas = [d] ∧
      d.Fx = (ex 1).A ∧ d.Lxx = (ex 5).Q ∧ (ex 1).A ≠ (ex 5 : Par _ _ _ _ _ ℚ).A := by
  refine ⟨_, rfl, rfl, rfl, fun h => ?_⟩
  have := congrFun (congrFun h 0) 0
  simp [ex] at this

/-- C49 fails for an odd number of states: a data object created after the flag was raised keeps constraint
Jacobians with one column too many. -/
theorem C49_odd_counterexample (p : Par (Fin 3) (Fin 3) (Fin 1) (Fin 1) (Fin 0) ℚ) :
    ∃ d, (run (discrete 3 ℚ) p false
      [.create, .diffXU 0 0 0, .create, .diffXU 1 0 0]).datas[1]? = some d ∧ d.gxCols = 4 :=
  ⟨_, rfl, rfl⟩

/-- C49: a non-symmetric `Q` passes the checks of `set_LQR` (they read the lower triangle only); then `Lx` is not
the gradient. Here `Q = [[0, 2], [0, 0]]`, `x = (0, 1)`: `Lx = (2, 0)`, the gradient is `(1, 0)`. -/
theorem C49_asymmetric_counterexample :
    let p : Par (Fin 2) (Fin 2) (Fin 1) (Fin 1) (Fin 0) ℝ := { ex 1 with Q := !![0, 2; 0, 0] }
    (diffXU ⟨p, false⟩ (createData ⟨p, false⟩) ![0, 1] 0).2.Lx = ![2, 0] ∧
    ∃ gu, HasGrad (cost p) ![1, 0] gu ![0, 1] 0 := by
  refine ⟨?_, _, (hasGrad_cost _ _ _).congr_grad ?_ rfl⟩
  · funext k; fin_cases k <;> simp [diffXU, ex]
  · funext k; fin_cases k <;> simp [ex, mulVec, dotProduct, Fin.sum_univ_two]

/-- The hypotheses of the partial theorems are met by histories that change the parameters after creation. -/
example : created [Op.create, .set (ex (2 : ℝ)), .diffXU 0 0 0, .set (ex 3), .calcXU 0 0 0] = 1 ∧
    NoTerminal [Op.create, .set (ex (2 : ℝ)), .diffXU 0 0 0, .set (ex 3), .calcXU 0 0 0] ∧
    (current (ex 1) [Op.create, .set (ex (2 : ℝ)), .diffXU 0 0 0, .set (ex 3), .calcXU 0 0 0]) = ex 3 ∧
    (ex (3 : ℝ)).Q.IsSymm ∧ (ex (3 : ℝ)).R.IsSymm := by
  refine ⟨rfl, by simp [NoTerminal], rfl, ?_, ?_⟩
  · ext i j; fin_cases i <;> fin_cases j <;> simp [ex]
  · ext i j; fin_cases i <;> fin_cases j <;> simp [ex]

/-! ### C69: argument checks -/

/-- The shapes of a consistent set of arguments. -/
def Consistent (nx nu ng nh : ℕ) (s : Shapes) : Prop :=
  s.A = (nx, nx) ∧ s.B = (nx, nu) ∧ s.Q = (nx, nx) ∧ s.R = (nu, nu) ∧ s.N = (nx, nu) ∧
  s.G = (ng, nx + nu) ∧ s.H = (nh, nx + nu) ∧ s.f = nx ∧ s.q = nx ∧ s.r = nu ∧ s.g = ng ∧ s.h = nh

theorem guard_iff (p : Prop) [Decidable p] (q : Bool) :
    (if p then false else q) = true ↔ ¬ p ∧ q = true := by
  by_cases h : p <;> simp [h]

theorem accepts_iff (nx nu ng nh : ℕ) (s : Shapes) (psd : Bool) :
    accepts nx nu ng nh s psd = true ↔ s.A.1 = nx ∧ s.B.1 = nx ∧ (s.Q.1 = nx ∧ s.Q.2 = nx) ∧
      (s.R.1 = nu ∧ s.R.2 = nu) ∧ (s.N.1 = nx ∧ s.N.2 = nu) ∧ (s.G.1 = ng ∧ s.G.2 = nx + nu) ∧
      (s.H.1 = nh ∧ s.H.2 = nx + nu) ∧ s.f = nx ∧ s.q = nx ∧ s.r = nu ∧ s.g = ng ∧ s.h = nh ∧ psd = true := by
  simp only [accepts, guard_iff, Bool.or_eq_true, decide_eq_true_eq, not_or, ne_eq, Decidable.not_not]

/-- C69: the constructor accepts exactly the arguments with consistent sizes whose cost matrix passes the
positive-semidefiniteness check. -/
theorem C69_constructor (s : Shapes) (psd : Bool) :
    ctorAccepts s psd = true ↔ Consistent s.A.2 s.B.2 s.G.1 s.H.1 s ∧ psd = true := by
  obtain ⟨⟨a, a'⟩, ⟨b, b'⟩, ⟨c, c'⟩, ⟨d, d'⟩, ⟨e, e'⟩, ⟨f, f'⟩, ⟨g, g'⟩, h, i, j, k, l⟩ := s
  rw [ctorAccepts, accepts_iff]
  simp only [Consistent, Prod.mk.injEq, and_true, true_and]
  constructor
  · rintro ⟨h1, h2, h3, h4, h5, h6, h7, h8, h9, h10, h11, h12, h13⟩
    exact ⟨⟨h1, h2, h3, h4, h5, h6, h7, h8, h9, h10, h11, h12⟩, h13⟩
  · rintro ⟨⟨h1, h2, h3, h4, h5, h6, h7, h8, h9, h10, h11, h12⟩, h13⟩
    exact ⟨h1, h2, h3, h4, h5, h6, h7, h8, h9, h10, h11, h12, h13⟩

/-- C69 (partial: `A` and `B` are assumed to have the right number of columns; `set_LQR` does not check it,
`C69_set_counterexample`): `set_LQR` accepts exactly consistent arguments. -/
theorem C69_set_partial (nx nu ng nh : ℕ) (s : Shapes) (psd : Bool) (hA : s.A.2 = nx) (hB : s.B.2 = nu) :
    accepts nx nu ng nh s psd = true ↔ Consistent nx nu ng nh s ∧ psd = true := by
  obtain ⟨⟨a, a'⟩, ⟨b, b'⟩, ⟨c, c'⟩, ⟨d, d'⟩, ⟨e, e'⟩, ⟨f, f'⟩, ⟨g, g'⟩, h, i, j, k, l⟩ := s
  simp only at hA hB
  subst hA; subst hB
  rw [accepts_iff]
  simp only [Consistent, Prod.mk.injEq, and_true]
  constructor
  · rintro ⟨h1, h2, h3, h4, h5, h6, h7, h8, h9, h10, h11, h12, h13⟩
    exact ⟨⟨h1, h2, h3, h4, h5, h6, h7, h8, h9, h10, h11, h12⟩, h13⟩
  · rintro ⟨⟨h1, h2, h3, h4, h5, h6, h7, h8, h9, h10, h11, h12⟩, h13⟩
    exact ⟨h1, h2, h3, h4, h5, h6, h7, h8, h9, h10, h11, h12, h13⟩

/-- C69: `set_LQR` stores a state matrix with the wrong number of columns. -/
theorem C69_set_counterexample :
    let s : Shapes := ⟨(2, 5), (2, 1), (2, 2), (1, 1), (2, 1), (0, 3), (0, 3), 2, 2, 1, 0, 0⟩
    accepts 2 1 0 0 s true = true ∧ ¬ Consistent 2 1 0 0 s := by
  refine ⟨rfl, fun h => ?_⟩
  have := h.1
  simp at this

/-- Consistent shapes exist with constraints. -/
example : ctorAccepts ⟨(2, 2), (2, 1), (2, 2), (1, 1), (2, 1), (3, 3), (1, 3), 2, 2, 1, 3, 1⟩ true = true := rfl

end Verif.Lqr
