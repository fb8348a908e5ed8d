import Verif.Model.Unicycle
import Verif.Lemmas.LqrAction
import Mathlib.Analysis.SpecialFunctions.Trigonometric.Deriv
import Mathlib.Tactic.NormNum.Basic
import Mathlib.Tactic.NormNum.Inv
import Mathlib.Tactic.NormNum.Ineq
import Mathlib.Tactic.FinCases

/-!
# Property C50: unicycle
-/

set_option linter.unusedSectionVars false

namespace Verif.Deriv
variable {ι κ : Type*} [Fintype ι] [Fintype κ]

/-- Chain rule with a scalar function. -/
theorem HasGrad.scomp {φ : ℝ → ℝ} {c : ℝ} {f : (ι → ℝ) → (κ → ℝ) → ℝ} {fx : ι → ℝ} {fu : κ → ℝ}
    {x : ι → ℝ} {u : κ → ℝ} (hφ : HasDerivAt φ c (f x u)) (hf : HasGrad f fx fu x u) :
    HasGrad (fun x u => φ (f x u)) (c • fx) (c • fu) x u := by
  refine (HasDerivAt.comp_hasFDerivAt (f := fun p : (ι → ℝ) × (κ → ℝ) => f p.1 p.2) (x, u) hφ hf).congr_fderiv ?_
  ext p <;> simp [form_apply, Finset.mul_sum, mul_assoc]

end Verif.Deriv

namespace Verif.Unicycle
open Verif.Deriv

/-- The unicycle: forward velocity `u₀` and turning rate `u₁`, integrated with Euler steps of length `dt`. -/
noncomputable def unicycle (dt : ℝ) (x : Fin 3 → ℝ) (u : Fin 2 → ℝ) : Fin 3 → ℝ :=
  x + dt • ![u 0 * Real.cos (x 2), u 0 * Real.sin (x 2), u 1]

/-- Its cost `½ (w₀² ‖x‖² + w₁² ‖u‖²)`. -/
noncomputable def unicycleCost (w : Fin 2 → ℝ) (x : Fin 3 → ℝ) (u : Fin 2 → ℝ) : ℝ :=
  1 / 2 * (w 0 ^ 2 * (x 0 ^ 2 + x 1 ^ 2 + x 2 ^ 2) + w 1 ^ 2 * (u 0 ^ 2 + u 1 ^ 2))

/-- Part of the data that only the constructor writes. -/
def Good (d : Data) : Prop :=
  (∀ i j : Fin 3, j ≠ 2 → d.Fx i j = if i = j then 1 else 0) ∧ d.Fx 2 2 = 1 ∧
  d.Fu 0 1 = 0 ∧ d.Fu 1 1 = 0 ∧ d.Fu 2 0 = 0 ∧
  (∀ i j : Fin 3, i ≠ j → d.Lxx i j = 0) ∧ (∀ i j : Fin 2, i ≠ j → d.Luu i j = 0) ∧ d.Lxu = 0

theorem good_create : Good createData := by
  refine ⟨fun i j _ => rfl, rfl, rfl, rfl, rfl, fun i j _ => rfl, fun i j _ => rfl, rfl⟩

theorem good_diffXU (m : Model) (d : Data) (x : Fin 3 → ℝ) (u : Fin 2 → ℝ) (h : Good d) :
    Good (diffXU m d x u) := by
  obtain ⟨h1, h2, h3, h4, h5, h6, h7, h8⟩ := h
  refine ⟨fun i j hj => ?_, ?_, ?_, ?_, ?_, fun i j hij => ?_, fun i j hij => ?_, h8⟩
  · simp only [diffXU, setEntry, hj, and_false, if_false]; exact h1 i j hj
  · simp [diffXU, setEntry, h2]
  · simp [diffXU, setEntry, h3]
  · simp [diffXU, setEntry, h4]
  · simp [diffXU, setEntry, h5]
  · simp [diffXU, setDiag, hij, h6 i j hij]
  · simp [diffXU, setDiag, hij, h7 i j hij]

theorem good_diffX (m : Model) (d : Data) (x : Fin 3 → ℝ) (h : Good d) : Good (diffX m d x) := by
  obtain ⟨h1, h2, h3, h4, h5, h6, h7, h8⟩ := h
  refine ⟨h1, h2, h3, h4, h5, fun i j hij => ?_, h7, h8⟩
  simp [diffX, setDiag, hij, h6 i j hij]

theorem onData_datas (s : World) (i : ℕ) (f : Data → Data) (P : Data → Prop) (hs : ∀ d ∈ s.datas, P d)
    (hf : ∀ d, P d → P (f d)) : ∀ d ∈ (onData s i f).datas, P d := by
  unfold onData
  cases hi : s.datas[i]? with
  | none => exact hs
  | some d =>
    intro d' hd'
    rcases List.mem_or_eq_of_mem_set hd' with h | h
    · exact hs d' h
    · subst h; exact hf d (hs d (List.mem_of_getElem? hi))

theorem good_run (ops : List Op) : ∀ d ∈ (run ops).datas, Good d := by
  suffices H : ∀ s : World, (∀ d ∈ s.datas, Good d) → ∀ d ∈ (ops.foldl step s).datas, Good d from
    H _ (by simp)
  induction ops with
  | nil => intro s h; exact h
  | cons op ops ih =>
    intro s h
    refine ih _ ?_
    cases op with
    | setDt dt => exact h
    | setWeights w => exact h
    | create =>
      intro d hd
      simp only [step, List.mem_append, List.mem_singleton] at hd
      rcases hd with hd | hd
      · exact h d hd
      · subst hd; exact good_create
    | calcXU i x u => exact onData_datas s i _ Good h fun d hd => hd
    | calcX i x => exact onData_datas s i _ Good h fun d hd => hd
    | diffXU i x u => exact onData_datas s i _ Good h fun d hd => good_diffXU _ _ _ _ hd
    | diffX i x => exact onData_datas s i _ Good h fun d hd => good_diffX _ _ _ hd

theorem run_append (ops ops' : List Op) : run (ops ++ ops') = ops'.foldl step (run ops) := by simp [run]

/-- C50: `calc` computes the unicycle step and cost of the parameters in force. -/
theorem C50_value (m : Model) (d : Data) (x : Fin 3 → ℝ) (u : Fin 2 → ℝ) :
    (calcXU m d x u).xnext = unicycle m.dt x u ∧ (calcXU m d x u).cost = unicycleCost m.w x u ∧
    (calcX m d x).xnext = x ∧ (calcX m d x).cost = unicycleCost m.w x 0 := by
  refine ⟨?_, ?_, rfl, ?_⟩
  · funext i
    fin_cases i <;> simp [calcXU, unicycle] <;> ring
  · simp [calcXU, unicycleCost, Fin.sum_univ_five]; ring
  · simp [calcX, unicycleCost]; ring

theorem hasGrad_sq (f : (Fin 3 → ℝ) → (Fin 2 → ℝ) → ℝ) (fx : Fin 3 → ℝ) (fu : Fin 2 → ℝ) (x : Fin 3 → ℝ)
    (u : Fin 2 → ℝ) (h : HasGrad f fx fu x u) :
    HasGrad (fun x u => f x u ^ 2) ((2 * f x u) • fx) ((2 * f x u) • fu) x u := by
  have := h.mul h
  have e : (fun x u => f x u ^ 2) = fun x u => f x u * f x u := by funext x u; ring
  rw [e]
  refine this.congr_grad ?_ ?_ <;> funext k <;> simp <;> ring

theorem hasGrad_unicycleCost (w : Fin 2 → ℝ) (x : Fin 3 → ℝ) (u : Fin 2 → ℝ) :
    HasGrad (unicycleCost w) (fun i => x i * (w 0 * w 0)) (fun i => u i * (w 1 * w 1)) x u := by
  have hx : ∀ i : Fin 3, HasGrad (fun (x : Fin 3 → ℝ) (_ : Fin 2 → ℝ) => x i ^ 2) _ _ x u :=
    fun i => hasGrad_sq _ _ _ x u (hasGrad_fst i x u)
  have hu : ∀ i : Fin 2, HasGrad (fun (_ : Fin 3 → ℝ) (u : Fin 2 → ℝ) => u i ^ 2) _ _ x u :=
    fun i => hasGrad_sq _ _ _ x u (hasGrad_snd i x u)
  have h := ((((hx 0).add (hx 1)).add (hx 2)).const_mul (w 0 ^ 2)).add
    (((hu 0).add (hu 1)).const_mul (w 1 ^ 2)) |>.const_mul (1 / 2)
  refine HasGrad.congr_grad (f := unicycleCost w) h ?_ ?_
  · funext i; fin_cases i <;> simp <;> ring
  · funext i; fin_cases i <;> simp <;> ring

/-- C50: after any history of calls, `calcDiff(data, x, u)` stores in the data object the Jacobians of the unicycle
step and the gradients of its cost, for the parameters in force, and the Hessian of the cost as the Jacobians
of its gradients (the mixed block `Lxu` is zero). -/
theorem C50_derivatives (ops : List Op) (i : ℕ) (x : Fin 3 → ℝ) (u : Fin 2 → ℝ)
    (hi : i < (run ops).datas.length) :
    ∃ d, (run (ops ++ [.diffXU i x u])).datas[i]? = some d ∧
      HasJac (unicycle (run ops).model.dt) d.Fx d.Fu x u ∧
      HasGrad (unicycleCost (run ops).model.w) d.Lx d.Lu x u ∧
      ∃ Lx : (Fin 3 → ℝ) → (Fin 2 → ℝ) → Fin 3 → ℝ, ∃ Lu : (Fin 3 → ℝ) → (Fin 2 → ℝ) → Fin 2 → ℝ,
        (∀ x u, HasGrad (unicycleCost (run ops).model.w) (Lx x u) (Lu x u) x u) ∧
        HasJac Lx d.Lxx d.Lxu x u ∧ HasJac Lu d.Lxu.transpose d.Luu x u := by
  have hg := good_run ops
  rw [run_append]
  generalize run ops = s at *
  have h1 : s.datas[i]? = some s.datas[i] := List.getElem?_eq_getElem hi
  simp only [List.foldl_cons, List.foldl_nil, step, onData]
  rw [h1]
  obtain ⟨g1, g2, g3, g4, g5, g6, g7, g8⟩ := hg s.datas[i] (List.getElem_mem hi)
  generalize s.datas[i] = d at *
  refine ⟨_, List.getElem?_set_self hi, ?_, hasGrad_unicycleCost _ x u, _, _,
    fun x u => hasGrad_unicycleCost _ x u, ?_, ?_⟩
  · have hc := HasGrad.scomp (φ := Real.cos) (Real.hasDerivAt_cos (x 2)) (hasGrad_fst (2 : Fin 3) x u)
    have hs := HasGrad.scomp (φ := Real.sin) (Real.hasDerivAt_sin (x 2)) (hasGrad_fst (2 : Fin 3) x u)
    have hu0 := hasGrad_snd (ι := Fin 3) (0 : Fin 2) x u
    have hu1 := hasGrad_snd (ι := Fin 3) (1 : Fin 2) x u
    have k1 := (hasGrad_fst (κ := Fin 2) (0 : Fin 3) x u).add ((hu0.mul hc).const_mul s.model.dt)
    have k2 := (hasGrad_fst (κ := Fin 2) (1 : Fin 3) x u).add ((hu0.mul hs).const_mul s.model.dt)
    have k3 := (hasGrad_fst (κ := Fin 2) (2 : Fin 3) x u).add (hu1.const_mul s.model.dt)
    have e00 := g1 0 0 (by decide)
    have e01 := g1 0 1 (by decide)
    have e10 := g1 1 0 (by decide)
    have e11 := g1 1 1 (by decide)
    have e20 := g1 2 0 (by decide)
    have e21 := g1 2 1 (by decide)
    simp at e00 e01 e10 e11 e20 e21
    intro a
    fin_cases a
    · refine HasGrad.congr_grad (f := fun y v => unicycle s.model.dt y v 0) k1 ?_ ?_
      · funext j; fin_cases j <;> simp [diffXU, setEntry, e00, e01]
        ring
      · funext j; fin_cases j <;> simp [diffXU, setEntry, g3]
        ring
    · refine HasGrad.congr_grad (f := fun y v => unicycle s.model.dt y v 1) k2 ?_ ?_
      · funext j; fin_cases j <;> simp [diffXU, setEntry, e10, e11]
        ring
      · funext j; fin_cases j <;> simp [diffXU, setEntry, g4]
        ring
    · refine HasGrad.congr_grad (f := fun y v => unicycle s.model.dt y v 2) k3 ?_ ?_
      · funext j; fin_cases j <;> simp [diffXU, setEntry, e20, e21, g2]
      · funext j; fin_cases j <;> simp [diffXU, setEntry, g5]
  · intro a
    have h := (hasGrad_fst (κ := Fin 2) a x u).mul_const (s.model.w 0 * s.model.w 0)
    refine h.congr_grad ?_ ?_
    · funext j
      by_cases hj : a = j
      · simp [diffXU, setDiag, hj]
      · simp [diffXU, setDiag, hj, g6 a j hj]
    · funext j; simp [diffXU, g8]
  · intro a
    have h := (hasGrad_snd (ι := Fin 3) a x u).mul_const (s.model.w 1 * s.model.w 1)
    refine h.congr_grad ?_ ?_
    · funext j; simp [diffXU, g8]
    · funext j
      by_cases hj : a = j
      · simp [diffXU, setDiag, hj]
      · simp [diffXU, setDiag, hj, g7 a j hj]

theorem unicycle_grad1 {f : (Fin 3 → ℝ) → (Fin 2 → ℝ) → ℝ} {gx : Fin 3 → ℝ} {gu : Fin 2 → ℝ} {x : Fin 3 → ℝ}
    {u : Fin 2 → ℝ} (h : HasGrad f gx gu x u) : HasGrad1 (fun y => f y u) gx x := by
  refine (HasFDerivAt.comp x (f := fun y : Fin 3 → ℝ => (y, u)) h (hasFDerivAt_prodMk_left x u)).congr_fderiv ?_
  ext v; simp

/-- C50, terminal node: after any history, `calcDiff(data, x)` stores gradient and Hessian of the terminal cost. -/
theorem C50_terminal (ops : List Op) (i : ℕ) (x : Fin 3 → ℝ) (hi : i < (run ops).datas.length) :
    ∃ d, (run (ops ++ [.diffX i x])).datas[i]? = some d ∧
      HasGrad1 (fun y => unicycleCost (run ops).model.w y 0) d.Lx x ∧
      ∃ Lx : (Fin 3 → ℝ) → Fin 3 → ℝ,
        (∀ x, HasGrad1 (fun y => unicycleCost (run ops).model.w y 0) (Lx x) x) ∧ HasJac1 Lx d.Lxx x := by
  have hg := good_run ops
  rw [run_append]
  generalize run ops = s at *
  have h1 : s.datas[i]? = some s.datas[i] := List.getElem?_eq_getElem hi
  simp only [List.foldl_cons, List.foldl_nil, step, onData]
  rw [h1]
  obtain ⟨-, -, -, -, -, g6, -, -⟩ := hg s.datas[i] (List.getElem_mem hi)
  generalize s.datas[i] = d at *
  refine ⟨_, List.getElem?_set_self hi, unicycle_grad1 (hasGrad_unicycleCost s.model.w x 0),
    _, fun x => unicycle_grad1 (hasGrad_unicycleCost s.model.w x 0), fun a => ?_⟩
  have h := unicycle_grad1 ((hasGrad_fst (κ := Fin 2) a x 0).mul_const (s.model.w 0 * s.model.w 0))
  have e : (diffX s.model d x).Lxx a = (s.model.w 0 * s.model.w 0) • fun j => if a = j then (1 : ℝ) else 0 := by
    funext j
    by_cases hj : a = j
    · simp [diffX, setDiag, hj]
    · simp [diffX, setDiag, hj, g6 a j hj]
  rw [e]; exact h

/-- Two data objects, changed step length and weights: the hypotheses of the two theorems hold. -/
example : 1 < (run [.create, .setDt 3, .create, .setWeights ![1, 2], .diffX 0 0]).datas.length := by
  simp [run, step, onData]

/-- C50: the step length stays positive whatever the calls. -/
theorem C50_dt_pos (ops : List Op) : 0 < (run ops).model.dt := by
  suffices H : ∀ s : World, 0 < s.model.dt → 0 < (ops.foldl step s).model.dt from
    H _ (by simp [Model.init])
  induction ops with
  | nil => intro s h; exact h
  | cons op ops ih =>
    intro s h
    refine ih _ ?_
    have ho : ∀ i f, (onData s i f).model = s.model := by
      intro i f; unfold onData; cases s.datas[i]? <;> rfl
    cases op with
    | setDt dt =>
      simp only [step, setDt]
      split_ifs with hd
      · exact h
      · exact not_le.mp hd
    | setWeights w => exact h
    | create => exact h
    | calcXU i x u => simp only [step, ho]; exact h
    | calcX i x => simp only [step, ho]; exact h
    | diffXU i x u => simp only [step, ho]; exact h
    | diffX i x => simp only [step, ho]; exact h

/-- C70 is false for the unicycle: casting loses the parameters: a unicycle with step length 1 becomes one with step length `1/10`. -/
theorem C70_unicycle_counterexample :
    (castM (run [.setDt 1]).model).dt ≠ (run [.setDt 1]).model.dt := by
  have h : ¬ (1 : ℝ) ≤ 0 := by norm_num
  simp only [castM, run, step, setDt, Model.init, List.foldl_cons, List.foldl_nil, h, if_false]
  norm_num

end Verif.Unicycle
