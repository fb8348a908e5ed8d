import Verif.Spec.NumDiffContact
import Verif.Lemmas.NumDiff
import Verif.Props.NumDiff

/-!
# C106: the finite-difference contact model

`calcX m d x` then `diffX m _ x` is `calc(data, x)` followed by `calcDiff(data, x)`.
-/

set_option linter.unusedSectionVars false
set_option linter.unusedSimpArgs false
set_option linter.unusedVariables false

namespace Verif.NumDiffC

open Matrix
open Verif.NumDiff (StateOps setCol foldl_frame foldl_touch update_zero euclid affine_add sum_single_mul tendsto_quot
  hasDerivAt_line_x)

variable {X P : Type} {n nv nu nc : ℕ}

/-- What the loop over the state does, whatever the re-evaluations do. -/
theorem loop (m : Model X P n nv nu nc) (A : X → Fin nc → ℝ) (J : X → Matrix (Fin nc) (Fin nv) ℝ)
    (hr : Refreshes m A J) (x : X) (h : ℝ) (d : Data P n nv nc) (hd : d.dx = 0) :
    let e := (List.finRange n).foldl (jacX m x h) d
    e.dx = 0 ∧ e.a0 = d.a0 ∧ e.Jc = d.Jc ∧ e.f = d.f ∧ e.d0 = d.d0 ∧
    ∀ i j, e.da0_dx i j = (A (m.st.integrate x (Pi.single j h)) i - d.a0 i) / h := by
  intro e
  let Pr : Data P n nv nc → Prop := fun s => s.dx = 0 ∧ s.a0 = d.a0
  have hP : ∀ s i, Pr s → Pr (jacX m x h s i) := by
    rintro s i ⟨h1, h2⟩
    exact ⟨by simp only [jacX, h1]; exact update_zero i h, h2⟩
  have H := foldl_touch (jacX m x h) Pr (fun s (b : Fin nc × Fin n) => s.da0_dx b.1 b.2)
    (fun b => (A (m.st.integrate x (Pi.single b.2 h)) b.1 - d.a0 b.1) / h) (fun i b => b.2 = i) hP
    (by
      rintro s k ⟨a, b⟩ ⟨h1, h2⟩
      simp only [jacX, h1, h2, setCol]
      split_ifs with hb
      · subst hb
        have := (hr s.pin (m.st.integrate x (Function.update 0 b h))).1
        simp only [runReevals]
        rw [this]; rfl
      · rfl) (List.finRange n) d ⟨hd, rfl⟩
  have F := foldl_frame (jacX m x h) (fun s => (s.a0, s.Jc, s.f, s.d0)) (fun _ _ => rfl) (List.finRange n) d
  simp only [Prod.mk.injEq] at F
  exact ⟨H.1.1, F.1, F.2.1, F.2.2.1, F.2.2.2, fun i j => (H.2 (i, j)).1 ⟨j, List.mem_finRange _, rfl⟩⟩

/-- **C106**, what holds. When the re-evaluations refresh all that the contact reads and `calc` is called with
Pinocchio data of the state `x`, the drift is the contact's and its reported Jacobian is the forward difference
quotient of the drift, whatever the data held before. Missing: the contact Jacobian and the force are not reported,
and the Pinocchio data are left at a disturbed state (see the counterexamples). -/
theorem C106_quotients_partial (m : Model X P n nv nu nc) (A : X → Fin nc → ℝ) (J : X → Matrix (Fin nc) (Fin nv) ℝ)
    (hr : Refreshes m A J) (d : Data P n nv nc) (x : X) (hx : At m A J d.pin x) :
    let e := diffX m (calcX m d x) x
    let h := m.ejac * max 1 (NumDiff.norm (m.st.diff m.st.zero x))
    e.a0 = A x ∧ (∀ i j, e.da0_dx i j = (A (m.st.integrate x (Pi.single j h)) i - A x i) / h) ∧
    e.Jc = d.Jc ∧ e.f = d.f ∧ e.d0.Jc = J x := by
  intro e h
  obtain ⟨-, h2, h3, h4, h5, h6⟩ := loop m A J hr x h { calcX m d x with dx := 0 } rfl
  have ha : (calcX m d x).a0 = A x := hx.1
  refine ⟨h2.trans ha, fun i j => ?_, h3, h4, ?_⟩
  · rw [← ha]; exact h6 i j
  · have : e.d0 = (calcX m d x).d0 := h5
    rw [this]; exact hx.2

/-- On a drift that is affine in the state the reported Jacobian is exact, for every positive disturbance. -/
theorem C106_exact_partial (m : Model (Fin n → ℝ) P n nv nu nc) (hst : m.st = euclid n) (hj : 0 < m.ejac)
    (K : Matrix (Fin nc) (Fin n) ℝ) (b : Fin nc → ℝ) (J : (Fin n → ℝ) → Matrix (Fin nc) (Fin nv) ℝ)
    (hr : Refreshes m (fun x i => ∑ j, K i j * x j + b i) J) (d : Data P n nv nc) (x : Fin n → ℝ)
    (hx : At m (fun x i => ∑ j, K i j * x j + b i) J d.pin x) :
    (diffX m (calcX m d x) x).da0_dx = K := by
  obtain ⟨-, h1, -⟩ := C106_quotients_partial m _ J hr d x hx
  have hpos : 0 < m.ejac * max 1 (NumDiff.norm (m.st.diff m.st.zero x)) :=
    mul_pos hj (lt_of_lt_of_le one_pos (le_max_left _ _))
  ext i j
  rw [h1 i j]
  generalize m.ejac * max 1 (NumDiff.norm (m.st.diff m.st.zero x)) = h at hpos
  have hi : m.st.integrate x (Pi.single j h) = x + Pi.single j h := by rw [hst]; rfl
  rw [hi]
  have : ∑ k, K i k * (x + Pi.single j h : Fin n → ℝ) k = ∑ k, K i k * x k + K i j * h := by
    simp only [Pi.add_apply, mul_add, Finset.sum_add_distrib, sum_single_mul]
  rw [this]
  field_simp
  ring

open Filter Topology in
/-- On any differentiable drift the reported Jacobian converges to the derivative as the disturbance goes to `0`. -/
theorem C106_consistent_partial (m : Model (Fin n → ℝ) P n nv nu nc) (hst : m.st = euclid n)
    (w : ℝ → Model (Fin n → ℝ) P n nv nu nc) (hw : ∀ e, 0 < e → setDisturbance m e = some (w e))
    (A : (Fin n → ℝ) → Fin nc → ℝ) (J : (Fin n → ℝ) → Matrix (Fin nc) (Fin nv) ℝ) (hr : Refreshes m A J)
    (d : Data P n nv nc) (x : Fin n → ℝ) (hx : At m A J d.pin x)
    (K : Matrix (Fin nc) (Fin n) ℝ)
    (hK : ∀ i j, HasDerivAt (fun t : ℝ => A (x + Pi.single j t) i) (K i j) 0) (i : Fin nc) (j : Fin n) :
    Tendsto (fun e => (diffX (w e) (calcX (w e) d x) x).da0_dx i j) (𝓝[>] 0) (𝓝 (K i j)) := by
  have hM : 0 < max 1 (NumDiff.norm (m.st.diff m.st.zero x)) := lt_of_lt_of_le one_pos (le_max_left _ _)
  refine (tendsto_quot (hK i j) _ hM).congr' ?_
  filter_upwards [self_mem_nhdsWithin] with e he
  have he' : 0 < e := he
  have hs : w e = { m with ejac := e } := by
    have := hw e he'
    rw [setDisturbance, if_neg (not_lt.mpr he'.le)] at this
    exact (Option.some.inj this).symm
  rw [hs]
  obtain ⟨-, h1, -⟩ := C106_quotients_partial { m with ejac := e } A J hr d x hx
  rw [h1 i j]
  have hi : ∀ v, m.st.integrate x v = x + v := by intro v; rw [hst]; rfl
  simp only [hi, Pi.single_zero, add_zero]

/-- The calls that are refused: a negative disturbance and a force of the wrong size. -/
theorem C106_refusals (m : Model X P n nv nu nc) (d : Data P n nv nc) (e : ℝ) (force : List ℝ) :
    (setDisturbance m e = none ↔ e < 0) ∧ (updateForce m d force = none ↔ force.length ≠ nc) := by
  constructor
  · unfold setDisturbance; split_ifs with h <;> simp [h]
  · unfold updateForce; split_ifs with h <;> simp [h]

/-! ### A point on a line -/

namespace Toy

/-- A contact in one dimension: the drift is `2 q + 3 v + 1`, the Jacobian `1`, the spatial force along the first axis;
all are read from Pinocchio data that hold the state of the last re-evaluation. -/
noncomputable def contact : Model (Fin 2 → ℝ) (Fin 2 → ℝ) 2 1 1 1 :=
  setReevals (create (euclid 2) (fun p _ _ => 2 * p 0 + 3 * p 1 + 1) (fun _ _ => 1)
    (fun _ f => Function.update 0 0 (f 0)) (1 / 2)) [fun _ x _ => x]

/-- The hypotheses of the theorems above: the drift is affine in the state and the re-evaluation refreshes it. -/
theorem refreshes : Refreshes contact (fun x i => ∑ j, (!![2, 3] : Matrix (Fin 1) (Fin 2) ℝ) i j * x j + ![1] i)
    (fun _ => 1) := by
  intro p x
  refine ⟨?_, rfl⟩
  funext i
  fin_cases i
  simp [contact, setReevals, create, Fin.sum_univ_two]

example : (diffX contact (calcX contact (createData ![5, 7]) ![5, 7]) ![5, 7]).da0_dx = !![2, 3] :=
  C106_exact_partial contact rfl (Real.sqrt_pos.mpr (by norm_num)) _ _ _ refreshes _ _ (refreshes ![0, 0] ![5, 7])

end Toy

/-- The property "the wrapper is a contact with the same constraint" is false: after `calc` and `calcDiff` on new data
the contact Jacobian is still zero, although the differentiated contact has computed it. -/
theorem C106_jacobian_counterexample :
    let e := diffX Toy.contact (calcX Toy.contact (createData ![5, 7]) ![5, 7]) ![5, 7]
    e.Jc = 0 ∧ e.d0.Jc ≠ 0 := by
  obtain ⟨-, -, h3, -, h5⟩ := C106_quotients_partial Toy.contact _ _ Toy.refreshes (createData ![5, 7]) ![5, 7]
    (Toy.refreshes ![0, 0] ![5, 7])
  refine ⟨h3, ?_⟩
  rw [h5]
  exact one_ne_zero

/-- `updateForce` never changes the reported force. -/
theorem C106_force_kept (m : Model X P n nv nu nc) (d d' : Data P n nv nc) (force : List ℝ)
    (h : updateForce m d force = some d') : d'.f = d.f ∧ d'.a0 = d.a0 ∧ d'.da0_dx = d.da0_dx ∧ d'.pin = d.pin := by
  unfold updateForce at h
  split_ifs at h
  obtain rfl := Option.some.inj h
  exact ⟨rfl, rfl, rfl, rfl⟩

/-- So a force of one newton leaves the reported force at zero, although the differentiated contact has it. -/
theorem C106_force_counterexample :
    ∃ d', updateForce Toy.contact (createData ![5, 7]) [1] = some d' ∧ d'.f = 0 ∧ d'.d0.f ≠ 0 := by
  refine ⟨_, rfl, rfl, ?_⟩
  intro h
  have := congrFun h 0
  simp [Toy.contact, setReevals, create] at this

/-- `calcDiff` leaves the shared Pinocchio data at the last disturbed state, for every model with at least one
re-evaluation and one direction: the next contact evaluated on these data reads that state. -/
theorem C106_leaves_disturbed (m : Model X P (n + 1) nv nu nc) (d : Data P (n + 1) nv nc) (x : X) :
    ∃ p, (diffX m d x).pin = runReevals m p
      (m.st.integrate x (Pi.single (Fin.last n) (m.ejac * max 1 (NumDiff.norm (m.st.diff m.st.zero x))))) := by
  generalize hh : m.ejac * max 1 (NumDiff.norm (m.st.diff m.st.zero x)) = h
  have hd : ∀ (l : List (Fin (n + 1))) (s : Data P (n + 1) nv nc), s.dx = 0 → (l.foldl (jacX m x h) s).dx = 0 := by
    intro l
    induction l with
    | nil => intro s hs; exact hs
    | cons a l ih => intro s hs; exact ih _ (by simp only [jacX, hs]; exact update_zero a h)
  have hl : List.finRange (n + 1) = (List.finRange n).map Fin.castSucc ++ [Fin.last n] := by
    rw [List.finRange_succ_last]
  unfold diffX
  simp only [hh, hl, List.foldl_append, List.foldl_cons, List.foldl_nil]
  set s := List.foldl (jacX m x h) { d with dx := 0 } ((List.finRange n).map Fin.castSucc) with hs
  have h0 : s.dx = 0 := hd _ _ rfl
  refine ⟨s.pin, ?_⟩
  simp only [jacX, h0]
  rfl

/-- A second `calc` at the same state, after `calcDiff` and without refreshing the Pinocchio data, reports another
drift. -/
theorem C106_repeat_counterexample :
    let e := diffX Toy.contact (calcX Toy.contact (createData ![0, 0]) ![0, 0]) ![0, 0]
    (calcX Toy.contact e ![0, 0]).a0 ≠ e.a0 := by
  intro e
  obtain ⟨p, hp⟩ := C106_leaves_disturbed Toy.contact (calcX Toy.contact (createData ![0, 0]) ![0, 0]) ![0, 0]
  obtain ⟨h1, -⟩ := C106_quotients_partial Toy.contact _ _ Toy.refreshes (createData ![0, 0]) ![0, 0]
    (Toy.refreshes ![0, 0] ![0, 0])
  intro h
  have h2 := congrFun (h.trans h1) 0
  have h3 : e.pin = ![0, 0] + Pi.single (Fin.last 1) (√(2 * (1 / 2)) * max 1 (NumDiff.norm (![0, 0] - 0 : Fin 2 → ℝ))) := hp
  have h4 : (calcX Toy.contact e ![0, 0]).a0 0 = 2 * e.pin 0 + 3 * e.pin 1 + 1 := rfl
  rw [h4, h3] at h2
  have hl : (Fin.last 1 : Fin 2) = 1 := rfl
  rw [hl] at h2
  simp [Fin.sum_univ_two] at h2
  have hm : (0 : ℝ) < max 1 (NumDiff.norm (![0, 0] : Fin 2 → ℝ)) := lt_of_lt_of_le one_pos (le_max_left _ _)
  linarith

/-- Without registered re-evaluations the Jacobian of a contact that reads only the Pinocchio data is zero. -/
theorem C106_no_reevals_counterexample (x : Fin 2 → ℝ) :
    (diffX (setReevals Toy.contact []) (calcX (setReevals Toy.contact []) (createData x) x) x).da0_dx = 0 := by
  have hr : ∀ (l : List (Fin 2)) (h : ℝ) (s : Data (Fin 2 → ℝ) 2 1 1), s.pin = x → s.a0 0 = 2 * x 0 + 3 * x 1 + 1 →
      s.da0_dx = 0 → (l.foldl (jacX (setReevals Toy.contact []) x h) s).da0_dx = 0 := by
    intro l h
    induction l with
    | nil => intro s _ _ h3; exact h3
    | cons a l ih =>
      intro s h1 h2 h3
      refine ih _ h1 h2 ?_
      funext i j
      fin_cases i
      simp [jacX, setCol, runReevals, setReevals, Toy.contact, create, h1, h2, h3]
  exact hr _ _ _ rfl rfl rfl

/-- C70 is false for this wrapper: the cast loses the disturbance and the re-evaluations. -/
theorem C70_contact_numdiff_counterexample (eps : ℝ) :
    (castM eps Toy.contact).reevals ≠ Toy.contact.reevals ∧
    ∃ w, setDisturbance Toy.contact (√(2 * eps) + 1) = some w ∧ (castM eps w).ejac ≠ w.ejac := by
  refine ⟨by simp [castM, create, Toy.contact, setReevals], { Toy.contact with ejac := √(2 * eps) + 1 }, ?_, ?_⟩
  · unfold setDisturbance; rw [if_neg (not_lt.mpr (by positivity))]
  · exact (lt_add_one _).ne

end Verif.NumDiffC
