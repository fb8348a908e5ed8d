import Verif.Spec.ForceRes
import Verif.Lemmas.ContactFrame

/-!
# C91: residuals of a contact force
-/

namespace Verif.Frc

open Matrix Verif.Con

set_option linter.unusedSectionVars false
set_option linter.unusedSimpArgs false

variable {k : Kind} {ρ : Type} {nr ndx nu : ℕ}

theorem Code.run_append (c : Code k ρ nr) (w : World k ρ nr ndx nu) (a b : List (Op k ρ ndx nu)) :
    c.run w (a ++ b) = c.run (c.run w a) b := List.foldl_append

/-! ### Other nodes -/

theorem Code.step_elsewhere (c : Code k ρ nr) (w : World k ρ nr ndx nu) (i : ℕ) (o : Op k ρ ndx nu) (h : Elsewhere i o) :
    (c.step w o).data i = w.data i ∧ (c.step w o).con i = w.con i ∧ (c.step w o).ref = w.ref ∧ (c.step w o).fwd = w.fwd := by
  cases o with
  | create j =>
    have h : i ≠ j := Ne.symm h
    simp only [Code.step]
    split_ifs <;> simp [World.put, Code.update, Function.update_of_ne h]
  | force j R l => have h : i ≠ j := Ne.symm h; simp [Code.step, World.putCon, Function.update_of_ne h]
  | zeroForce j => have h : i ≠ j := Ne.symm h; simp [Code.step, World.putCon, Function.update_of_ne h]
  | forceDiff j a b => have h : i ≠ j := Ne.symm h; simp [Code.step, World.putCon, Function.update_of_ne h]
  | eval j =>
    have h : i ≠ j := Ne.symm h
    simp only [Code.step]
    cases w.data j <;> simp [World.put, Function.update_of_ne h]
  | evalT j =>
    have h : i ≠ j := Ne.symm h
    simp only [Code.step]
    cases w.data j <;> simp [World.put, Function.update_of_ne h]
  | diff j =>
    have h : i ≠ j := Ne.symm h
    simp only [Code.step]
    cases w.data j with
    | none => simp
    | some d => dsimp only; split_ifs <;> simp [World.put, Code.update, Function.update_of_ne h]
  | diffT j =>
    have h : i ≠ j := Ne.symm h
    simp only [Code.step]
    cases w.data j <;> simp [World.put, Function.update_of_ne h]
  | setRef a => exact h.elim

theorem Code.run_elsewhere (c : Code k ρ nr) (i : ℕ) (ops : List (Op k ρ ndx nu)) (h : ∀ o ∈ ops, Elsewhere i o)
    (w : World k ρ nr ndx nu) :
    (c.run w ops).data i = w.data i ∧ (c.run w ops).con i = w.con i ∧ (c.run w ops).ref = w.ref ∧ (c.run w ops).fwd = w.fwd := by
  induction ops generalizing w with
  | nil => exact ⟨rfl, rfl, rfl, rfl⟩
  | cons o ops ih =>
    obtain ⟨a1, a2, a3, a4⟩ := c.step_elsewhere w i o (h o List.mem_cons_self)
    obtain ⟨b1, b2, b3, b4⟩ := ih (fun o ho => h o (List.mem_cons_of_mem _ ho)) (c.step w o)
    exact ⟨b1.trans a1, b2.trans a2, b3.trans a3, b4.trans a4⟩

/-! ### Any history -/

theorem Code.step_ref (c : Code k ρ nr) (w : World k ρ nr ndx nu) (o : Op k ρ ndx nu) :
    (c.step w o).ref = lastRef w.ref [o] ∧ (c.step w o).fwd = w.fwd := by
  cases o with
  | create j => simp only [Code.step]; split_ifs <;> exact ⟨rfl, rfl⟩
  | eval j => simp only [Code.step]; cases w.data j <;> exact ⟨rfl, rfl⟩
  | evalT j => simp only [Code.step]; cases w.data j <;> exact ⟨rfl, rfl⟩
  | diff j =>
    simp only [Code.step]
    cases w.data j with
    | none => exact ⟨rfl, rfl⟩
    | some d => dsimp only; split_ifs <;> exact ⟨rfl, rfl⟩
  | diffT j => simp only [Code.step]; cases w.data j <;> exact ⟨rfl, rfl⟩
  | _ => exact ⟨rfl, rfl⟩

theorem lastRef_cons (a : ρ) (o : Op k ρ ndx nu) (ops : List (Op k ρ ndx nu)) :
    lastRef a (o :: ops) = lastRef (lastRef a [o]) ops := by cases o <;> rfl

theorem Code.run_ref (c : Code k ρ nr) (ops : List (Op k ρ ndx nu)) (w : World k ρ nr ndx nu) :
    (c.run w ops).ref = lastRef w.ref ops ∧ (c.run w ops).fwd = w.fwd := by
  induction ops generalizing w with
  | nil => exact ⟨rfl, rfl⟩
  | cons o ops ih =>
    obtain ⟨a1, a2⟩ := c.step_ref w o
    obtain ⟨b1, b2⟩ := ih (c.step w o)
    exact ⟨b1.trans (by rw [a1, lastRef_cons w.ref o ops]), b2.trans a2⟩

theorem Code.step_some (c : Code k ρ nr) (w : World k ρ nr ndx nu) (o : Op k ρ ndx nu) (i : ℕ) (h : (w.data i).isSome) :
    ((c.step w o).data i).isSome := by
  have put : ∀ (w : World k ρ nr ndx nu) (j : ℕ) (d : RD nr ndx nu), (w.data i).isSome → ((w.put j d).data i).isSome := by
    intro w j d h
    by_cases e : i = j
    · subst e; simp [World.put]
    · simpa [World.put, Function.update_of_ne e] using h
  cases o with
  | create j =>
    simp only [Code.step]
    split_ifs
    · exact h
    · exact put w j _ h
    · exact put w j _ h
  | eval j =>
    simp only [Code.step]
    cases w.data j with
    | none => exact h
    | some d => exact put w j _ h
  | evalT j =>
    simp only [Code.step]
    cases w.data j with
    | none => exact h
    | some d => exact put w j _ h
  | diff j =>
    simp only [Code.step]
    cases w.data j with
    | none => exact h
    | some d =>
      dsimp only
      split_ifs
      · exact put w j _ h
      · exact h
  | diffT j =>
    simp only [Code.step]
    cases w.data j with
    | none => exact h
    | some d => exact put w j _ h
  | _ => exact h

theorem Code.run_some (c : Code k ρ nr) (ops : List (Op k ρ ndx nu)) (i : ℕ) (w : World k ρ nr ndx nu) (h : (w.data i).isSome) :
    ((c.run w ops).data i).isSome := by
  induction ops generalizing w with
  | nil => exact h
  | cons o ops ih => exact ih _ (c.step_some w o i h)

theorem Code.created (c : Code k ρ nr) (hc : c.throws = false) (ops : List (Op k ρ ndx nu)) (i : ℕ) (h : .create i ∈ ops)
    (w : World k ρ nr ndx nu) : ((c.run w ops).data i).isSome := by
  induction ops generalizing w with
  | nil => simp at h
  | cons o ops ih =>
    rcases List.mem_cons.1 h with e | e
    · subst e
      refine c.run_some ops i _ ?_
      simp only [Code.step, hc]
      split_ifs <;> simp_all [World.put, Code.update]
    · exact ih e _

/-- Forward dynamics: what an evaluation leaves in the data, whatever happened before and happens to other nodes meanwhile. -/
theorem Code.evaluate_eq (c : Code k ρ nr) (w : World k ρ nr ndx nu) (hw : w.fwd = true) (i : ℕ) (hi : (w.data i).isSome) (R : M3)
    (l : Fin k.nc → ℝ) (dfx : Matrix (Fin k.nc) (Fin ndx) ℝ) (dfu : Matrix (Fin k.nc) (Fin nu) ℝ)
    (m1 m2 m3 : List (Op k ρ ndx nu)) (h1 : ∀ o ∈ m1, Elsewhere i o) (h2 : ∀ o ∈ m2, Elsewhere i o) (h3 : ∀ o ∈ m3, Elsewhere i o) :
    (c.run w (evaluate i R l dfx dfu m1 m2 m3)).data i
      = some ⟨c.value w.ref (stored R k l), c.jac w.ref dfx, c.jac w.ref dfu⟩ := by
  obtain ⟨d, hd⟩ := Option.isSome_iff_exists.1 hi
  simp only [evaluate, Code.run_append]
  have s1 : ∀ (w : World k ρ nr ndx nu) (o : Op k ρ ndx nu), c.run w [o] = c.step w o := fun _ _ => rfl
  simp only [s1]
  have a1 : (c.step w (.force i R l)).data i = some d ∧ (c.step w (.force i R l)).con i = { w.con i with f := stored R k l }
      ∧ (c.step w (.force i R l)).ref = w.ref ∧ (c.step w (.force i R l)).fwd = w.fwd := by
    simp [Code.step, World.putCon, hd]
  generalize c.step w (.force i R l) = w1 at a1
  obtain ⟨b1, b2, b3, b4⟩ := c.run_elsewhere i m1 h1 w1
  generalize c.run w1 m1 = w2 at b1 b2 b3 b4
  rw [a1.1] at b1; rw [a1.2.1] at b2; rw [a1.2.2.1] at b3; rw [a1.2.2.2] at b4
  have c1 : (c.step w2 (.eval i)).data i = some { d with r := c.value w.ref (stored R k l) }
      ∧ (c.step w2 (.eval i)).con i = { w.con i with f := stored R k l }
      ∧ (c.step w2 (.eval i)).ref = w.ref ∧ (c.step w2 (.eval i)).fwd = w.fwd := by
    simp [Code.step, b1, World.put, b2, b3, b4]
  generalize c.step w2 (.eval i) = w3 at c1
  obtain ⟨e1, e2, e3, e4⟩ := c.run_elsewhere i m2 h2 w3
  generalize c.run w3 m2 = w4 at e1 e2 e3 e4
  rw [c1.1] at e1; rw [c1.2.1] at e2; rw [c1.2.2.1] at e3; rw [c1.2.2.2] at e4
  have f1 : (c.step w4 (.forceDiff i dfx dfu)).data i = some { d with r := c.value w.ref (stored R k l) }
      ∧ (c.step w4 (.forceDiff i dfx dfu)).con i = { f := stored R k l, dfx := dfx, dfu := dfu }
      ∧ (c.step w4 (.forceDiff i dfx dfu)).ref = w.ref ∧ (c.step w4 (.forceDiff i dfx dfu)).fwd = w.fwd := by
    simp [Code.step, e1, World.putCon, e2, e3, e4]
  generalize c.step w4 (.forceDiff i dfx dfu) = w5 at f1
  obtain ⟨g1, g2, g3, g4⟩ := c.run_elsewhere i m3 h3 w5
  generalize c.run w5 m3 = w6 at g1 g2 g3 g4
  rw [f1.1] at g1; rw [f1.2.1] at g2; rw [f1.2.2.1] at g3; rw [f1.2.2.2] at g4
  simp [Code.step, g1, g2, g3, g4, hw, Code.update, World.put]

/-! ### The products are derivatives -/

theorem hasDerivAt_apply {n : ℕ} {Λ : ℝ → Fin n → ℝ} {v : Fin n → ℝ} (h : HasDerivAt Λ v 0) (j : Fin n) :
    HasDerivAt (fun s => Λ s j) (v j) 0 := hasDerivAt_pi.1 h j

theorem top3_mulVec {n : ℕ} (df : Matrix (Fin 6) (Fin n) ℝ) (δ : Fin n → ℝ) :
    top3 df *ᵥ δ = ![(df *ᵥ δ) 0, (df *ᵥ δ) 1, (df *ᵥ δ) 2] := by
  ext i
  fin_cases i <;> rfl

/-- **C91** (force). -/
theorem C91_exact_force (hk : k ≠ .two) (R : M3) : Exact (force k) R := by
  intro ndx nu a Λ dfx dfu δx δu h
  cases k with
  | two => exact absurd rfl hk
  | one =>
    rw [hasDerivAt_pi]
    intro j
    have := (hasDerivAt_apply h 0).sub_const (a.lin 2)
    fin_cases j
    simpa [force, stored] using this
  | three => exact h.sub_const a.lin
  | six =>
    rw [hasDerivAt_pi]
    intro j
    have := (hasDerivAt_apply h j).sub_const (vec a j)
    refine this.congr_of_eventuallyEq (Filter.Eventually.of_forall fun s => ?_)
    fin_cases j <;> simp [force, stored, vec, ofVec] <;> rfl

/-- **C91** (friction cone), for contacts of three and six dimensions, and of two dimensions whose frame is aligned with its
joint. -/
theorem C91_exact_friction_partial (hk : k ≠ .one) (R : M3) (hR : k = .two → R.col 0 = ![1, 0, 0] ∧ R.col 2 = ![0, 0, 1]) :
    Exact (friction nr k) R := by
  intro ndx nu A Λ dfx dfu δx δu h
  cases k with
  | one => exact absurd rfl hk
  | two =>
    obtain ⟨r0, r2⟩ := hR rfl
    rw [hasDerivAt_pi]
    intro j
    have := ((hasDerivAt_apply h 0).const_mul (A j 0)).add ((hasDerivAt_apply h 1).const_mul (A j 2))
    refine (this.congr_of_eventuallyEq (Filter.Eventually.of_forall fun s => ?_)).congr_deriv ?_
    · simp only [friction, stored, r0, r2]
      simp [Matrix.mulVec, dotProduct, Fin.sum_univ_three]
    · simp only [friction, Matrix.mulVec, dotProduct, Matrix.of_apply, Pi.add_apply, add_mul, Finset.sum_add_distrib, mul_add,
        Finset.mul_sum, mul_assoc]
      ring
  | three =>
    refine (hasDerivAt_mulVec_const (A := A) h).congr_deriv ?_
    simp only [friction, mulVec_add, mulVec_mulVec]
  | six =>
    have h3 : HasDerivAt (fun s => (![Λ s 0, Λ s 1, Λ s 2] : V3)) (top3 dfx *ᵥ δx + top3 dfu *ᵥ δu) 0 := by
      rw [hasDerivAt_pi]
      intro i
      rw [top3_mulVec, top3_mulVec]
      fin_cases i
      · exact hasDerivAt_apply h 0
      · exact hasDerivAt_apply h 1
      · exact hasDerivAt_apply h 2
    refine (hasDerivAt_mulVec_const (A := A) h3).congr_deriv ?_
    simp only [friction, mulVec_add, mulVec_mulVec]

theorem vec_ofVec (l : Fin 6 → ℝ) : vec (ofVec l) = l := by
  ext i
  fin_cases i <;> rfl

/-- **C91** (wrench cone and centre of pressure). -/
theorem C91_exact_wrench (hk : k = .six) (R : M3) : Exact (wrench nr k) R := by
  intro ndx nu A Λ dfx dfu δx δu h
  subst hk
  refine ((hasDerivAt_mulVec_const (A := A) h).congr_of_eventuallyEq (Filter.Eventually.of_forall fun s => ?_)).congr_deriv ?_
  · simp only [wrench, stored, vec_ofVec]
  · simp only [wrench, mulVec_add, mulVec_mulVec]

/-- **C91**. Forward dynamics: in every history of a model and its data objects (nodes evaluated in any order, references changed,
terminal calls in between), evaluating node `i` gives the residual of the force for the last reference, and, if the derivatives of
the force are right, its derivatives. -/
theorem C91_forward (c : Code k ρ nr) (hc : c.throws = false) (ref : ρ) (con : ℕ → CD k ndx nu) (ops : List (Op k ρ ndx nu)) (i : ℕ)
    (hi : .create i ∈ ops) (R : M3) (l : Fin k.nc → ℝ) (dfx : Matrix (Fin k.nc) (Fin ndx) ℝ) (dfu : Matrix (Fin k.nc) (Fin nu) ℝ)
    (m1 m2 m3 : List (Op k ρ ndx nu)) (h1 : ∀ o ∈ m1, Elsewhere i o) (h2 : ∀ o ∈ m2, Elsewhere i o) (h3 : ∀ o ∈ m3, Elsewhere i o) :
    ∃ d, (c.run (init true ref con) (ops ++ evaluate i R l dfx dfu m1 m2 m3)).data i = some d
      ∧ d.r = c.value (lastRef ref ops) (stored R k l)
      ∧ ∀ (Λ : ℝ → Fin k.nc → ℝ) (δx : Fin ndx → ℝ) (δu : Fin nu → ℝ), Exact c R → HasDerivAt Λ (dfx *ᵥ δx + dfu *ᵥ δu) 0 →
          HasDerivAt (fun s => c.value (lastRef ref ops) (stored R k (Λ s))) (d.Rx *ᵥ δx + d.Ru *ᵥ δu) 0 := by
  obtain ⟨e1, e2⟩ := c.run_ref ops (init true ref con)
  have h := c.evaluate_eq (c.run (init true ref con) ops) e2 i (c.created hc ops i hi _) R l dfx dfu m1 m2 m3 h1 h2 h3
  rw [e1] at h
  rw [Code.run_append]
  exact ⟨_, h, rfl, fun Λ δx δu hE hΛ => hE ndx nu _ Λ dfx dfu δx δu hΛ⟩

/-- **C91** (what the residuals are): the force of the contact relative to the reference, the product of the matrix of the cone
and the force, the product of the matrix of the cone or support and the wrench. -/
theorem C91_values (R : M3) (l : Fin k.nc → ℝ) (l6 : Fin 6 → ℝ) (a : Six) (A : Mat nr 3) (B : Mat nr 6) :
    (k ≠ .two → (force k).throws = false ∧ (force k).value a (stored R k l) = l - refOf k a)
    ∧ (k ≠ .one → (friction nr k).throws = false ∧ (friction nr k).value A (stored R k l) = A *ᵥ linear R k l)
    ∧ (wrench nr .six).throws = false ∧ (wrench nr .six).value B (stored R .six l6) = B *ᵥ l6 := by
  refine ⟨fun hk => ?_, fun hk => ?_, rfl, ?_⟩
  · cases k with
    | two => exact absurd rfl hk
    | one => exact ⟨rfl, by ext j; fin_cases j; simp [force, stored, refOf]⟩
    | three => exact ⟨rfl, rfl⟩
    | six => exact ⟨rfl, by ext j; fin_cases j <;> rfl⟩
  · cases k with
    | one => exact absurd rfl hk
    | two => exact ⟨rfl, rfl⟩
    | three => exact ⟨rfl, rfl⟩
    | six => exact ⟨rfl, rfl⟩
  · exact congrArg (B *ᵥ ·) (vec_ofVec l6)

/-- The force the residuals read is the one the contact models store. -/
theorem C91_stored {nv : ℕ} (R : M3) (m1 : C1) (m2 : C2) (m3 : C3) (m6 : C6) (d1 : D1 nv) (d2 : D2 nv) (d3 : D3 nv) (d6 : D6 nv)
    (f1 : Fin 1 → ℝ) (f2 : Fin 2 → ℝ) (f3 : Fin 3 → ℝ) (f6 : Fin 6 → ℝ) :
    (m1.force (f1 0) d1).f = stored R .one f1 ∧ (m2.force f2 d2).f = stored m2.jMf.rot .two f2
    ∧ (m3.force f3 d3).f = stored R .three f3 ∧ (m6.force (ofVec f6) d6).f = stored R .six f6 := by
  refine ⟨?_, rfl, ?_, ?_⟩
  · cases h : m1.type <;> simp [C1.force, stored, h]
  · cases h : m3.type <;> simp [C3.force, stored, h]
  · cases h : m6.type <;> simp [C6.force, stored, h]

/-- **C91 (terminal nodes)**. After any history, `calc` and `calcDiff` without control leave the value and its derivative with
respect to the state zero, in forward and in inverse dynamics, whatever other nodes do meanwhile. -/
theorem C91_terminal (c : Code k ρ nr) (hc : c.throws = false) (fwd : Bool) (ref : ρ) (con : ℕ → CD k ndx nu)
    (ops : List (Op k ρ ndx nu)) (i : ℕ) (hi : .create i ∈ ops) (m : List (Op k ρ ndx nu)) (hm : ∀ o ∈ m, Elsewhere i o) :
    ∃ d, (c.run (init fwd ref con) (ops ++ [.evalT i] ++ m ++ [.diffT i])).data i = some d ∧ d.r = 0 ∧ d.Rx = 0 := by
  obtain ⟨d, hd⟩ := Option.isSome_iff_exists.1 (c.created hc ops i hi (init fwd ref con))
  simp only [Code.run_append]
  have s1 : ∀ (w : World k ρ nr ndx nu) (o : Op k ρ ndx nu), c.run w [o] = c.step w o := fun _ _ => rfl
  simp only [s1]
  have a1 : (c.step (c.run (init fwd ref con) ops) (.evalT i)).data i = some { d with r := 0 } := by
    simp [Code.step, hd, World.put]
  have b1 := (c.run_elsewhere i m hm (c.step (c.run (init fwd ref con) ops) (.evalT i))).1
  rw [a1] at b1
  generalize c.run (c.step (c.run (init fwd ref con) ops) (.evalT i)) m = w at b1
  exact ⟨{ d with r := 0, Rx := 0 }, by simp [Code.step, b1, World.put], rfl, rfl⟩

theorem Code.refused (c : Code k ρ nr) (hc : c.throws = true) (ops : List (Op k ρ ndx nu)) (w : World k ρ nr ndx nu)
    (hw : ∀ i, w.data i = none) (i : ℕ) : (c.run w ops).data i = none := by
  induction ops generalizing w with
  | nil => exact hw i
  | cons o ops ih =>
    refine ih _ fun j => ?_
    cases o <;> simp [Code.step, hc, hw, World.putCon]

/-- **C91 (refused contacts)**. No history creates data for a force residual on a contact of two dimensions, a friction cone on a
contact of one dimension, or a wrench cone or centre of pressure on a contact that has not six dimensions. -/
theorem C91_refused (fwd : Bool) (a : Six) (A : Mat nr 3) (B : Mat nr 6) (i : ℕ) :
    (∀ (con : ℕ → CD .two ndx nu) ops, ((force .two).run (init fwd a con) ops).data i = none)
    ∧ (∀ (con : ℕ → CD .one ndx nu) ops, ((friction nr .one).run (init fwd A con) ops).data i = none)
    ∧ ∀ k, k ≠ .six → ∀ (con : ℕ → CD k ndx nu) ops, ((wrench nr k).run (init fwd B con) ops).data i = none := by
  refine ⟨fun con ops => Code.refused _ rfl ops _ (fun _ => rfl) i, fun con ops => Code.refused _ rfl ops _ (fun _ => rfl) i,
    fun k hk con ops => Code.refused _ ?_ ops _ (fun _ => rfl) i⟩
  cases k <;> first | rfl | exact absurd rfl hk

/-! ### Inverse dynamics -/

theorem Exact.zero {c : Code k ρ nr} {R : M3} (h : Exact c R) (a : ρ) : c.jac a (0 : Matrix (Fin k.nc) (Fin ndx) ℝ) = 0 := by
  ext i j
  have h1 := h ndx 0 a (fun _ => 0) 0 0 (Pi.single j 1) 0 ((hasDerivAt_const (0:ℝ) (0 : Fin k.nc → ℝ)).congr_deriv
    (by rw [Matrix.zero_mulVec, Matrix.zero_mulVec, add_zero]))
  have h2 := h1.unique (hasDerivAt_const (0:ℝ) (c.value a (stored R k 0)))
  have h3 := congrFun h2 i
  simpa using h3

/-- What holds in inverse dynamics after any calls. -/
structure Inv (E : ℕ → Matrix (Fin k.nc) (Fin nu) ℝ) (w : World k ρ nr ndx nu) : Prop where
  fwd : w.fwd = false
  dfx : ∀ i, (w.con i).dfx = 0
  dfu : ∀ i, (w.con i).dfu = E i
  Rx : ∀ i d, w.data i = some d → d.Rx = 0

theorem Inv.put {E : ℕ → Matrix (Fin k.nc) (Fin nu) ℝ} {w : World k ρ nr ndx nu} (h : Inv E w) (j : ℕ) (d : RD nr ndx nu)
    (hd : d.Rx = 0) : Inv E (w.put j d) := by
  refine ⟨h.fwd, h.dfx, h.dfu, fun i e he => ?_⟩
  by_cases ij : i = j
  · subst ij
    simp only [World.put, Function.update_self, Option.some.injEq] at he
    rw [← he, hd]
  · simp only [World.put, Function.update_of_ne ij] at he
    exact h.Rx i e he

theorem Inv.update {c : Code k ρ nr} {R : M3} (hE : Exact c R) {E : ℕ → Matrix (Fin k.nc) (Fin nu) ℝ} {w : World k ρ nr ndx nu}
    (h : Inv E w) (j : ℕ) (d : RD nr ndx nu) : Inv E (c.update w j d) := by
  have := h.put j { d with Rx := c.jac w.ref (w.con j).dfx, Ru := c.jac w.ref (w.con j).dfu } (by
    change c.jac w.ref (w.con j).dfx = 0
    rw [h.dfx, hE.zero])
  exact ⟨this.fwd, this.dfx, this.dfu, this.Rx⟩

theorem Inv.putCon {E : ℕ → Matrix (Fin k.nc) (Fin nu) ℝ} {w : World k ρ nr ndx nu} (h : Inv E w) (j : ℕ) (f : Six) :
    Inv E (w.putCon j { w.con j with f := f }) := by
  refine ⟨h.fwd, fun i => ?_, fun i => ?_, h.Rx⟩ <;>
  · by_cases ij : i = j
    · subst ij; simp [World.putCon, h.dfx, h.dfu]
    · simp [World.putCon, Function.update_of_ne ij, h.dfx, h.dfu]

theorem Inv.step {c : Code k ρ nr} {R : M3} (hE : Exact c R) {E : ℕ → Matrix (Fin k.nc) (Fin nu) ℝ} {w : World k ρ nr ndx nu}
    (h : Inv E w) (o : Op k ρ ndx nu) (ho : Inverse o) : Inv E (c.step w o) := by
  cases o with
  | create j =>
    simp only [Code.step]
    split_ifs
    · exact h
    · exact h.put j _ rfl
    · exact h.update hE j _
  | force j R l => exact h.putCon j _
  | zeroForce j => exact h.putCon j _
  | forceDiff j a b => exact ho.elim
  | eval j =>
    simp only [Code.step]
    cases e : w.data j with
    | none => exact h
    | some d => exact h.put j _ (h.Rx j d e)
  | evalT j =>
    simp only [Code.step]
    cases e : w.data j with
    | none => exact h
    | some d => exact h.put j _ (h.Rx j d e)
  | diff j =>
    simp only [Code.step]
    cases e : w.data j with
    | none => exact h
    | some d =>
      dsimp only
      split_ifs
      · exact h.update hE j _
      · exact h
  | diffT j =>
    simp only [Code.step]
    cases e : w.data j with
    | none => exact h
    | some d => exact h.put j _ rfl
  | setRef a => exact ⟨h.fwd, h.dfx, h.dfu, h.Rx⟩

theorem Inv.run {c : Code k ρ nr} {R : M3} (hE : Exact c R) {E : ℕ → Matrix (Fin k.nc) (Fin nu) ℝ} (ops : List (Op k ρ ndx nu))
    (ho : ∀ o ∈ ops, Inverse o) {w : World k ρ nr ndx nu} (h : Inv E w) : Inv E (c.run w ops) := by
  induction ops generalizing w with
  | nil => exact h
  | cons o ops ih => exact ih (fun o h => ho o (List.mem_cons_of_mem _ h)) (h.step hE o (ho o List.mem_cons_self))

/-- Data `i` has the derivative for reference `a`. -/
def Has (c : Code k ρ nr) (M : Matrix (Fin k.nc) (Fin nu) ℝ) (a : ρ) (w : World k ρ nr ndx nu) (i : ℕ) : Prop :=
  ∀ d, w.data i = some d → d.Ru = c.jac a M

theorem Has.put {c : Code k ρ nr} {M : Matrix (Fin k.nc) (Fin nu) ℝ} {a : ρ} {w : World k ρ nr ndx nu} {i : ℕ} (h : Has c M a w i)
    (j : ℕ) (d : RD nr ndx nu) (hd : j = i → d.Ru = c.jac a M) : Has c M a (w.put j d) i := by
  intro e he
  by_cases ij : i = j
  · subst ij
    simp only [World.put, Function.update_self, Option.some.injEq] at he
    rw [← he, hd rfl]
  · simp only [World.put, Function.update_of_ne ij] at he
    exact h e he

/-- With the reference `a`, a call keeps the derivative of data `i` if it has that of `a` already. -/
theorem Has.step {c : Code k ρ nr} {E : ℕ → Matrix (Fin k.nc) (Fin nu) ℝ} {a : ρ} {w : World k ρ nr ndx nu} {i : ℕ}
    (hI : Inv E w) (hr : w.ref = a) (h : Has c (E i) a w i) (o : Op k ρ ndx nu) (ho : Inverse o)
    (hs : ∀ b, o ≠ .setRef b) : Has c (E i) a (c.step w o) i := by
  have hu : ∀ (j : ℕ) (d : RD nr ndx nu), Has c (E i) a (c.update w j d) i := by
    intro j d
    have := h.put j { d with Rx := c.jac w.ref (w.con j).dfx, Ru := c.jac w.ref (w.con j).dfu } (by
      rintro rfl
      change c.jac w.ref (w.con j).dfu = _
      rw [hr, hI.dfu])
    exact this
  cases o with
  | create j =>
    simp only [Code.step, hI.fwd, Bool.false_eq_true, if_false]
    split_ifs
    · exact h
    · exact hu j _
  | force j R l => exact h
  | zeroForce j => exact h
  | forceDiff j a b => exact ho.elim
  | eval j =>
    simp only [Code.step]
    cases e : w.data j with
    | none => exact h
    | some d => exact h.put j _ (by rintro rfl; exact h d e)
  | evalT j =>
    simp only [Code.step]
    cases e : w.data j with
    | none => exact h
    | some d => exact h.put j _ (by rintro rfl; exact h d e)
  | diff j =>
    simp only [Code.step]
    cases e : w.data j with
    | none => exact h
    | some d =>
      dsimp only
      split_ifs
      · exact hu j _
      · exact h
  | diffT j =>
    simp only [Code.step]
    cases e : w.data j with
    | none => exact h
    | some d => exact h.put j _ (by rintro rfl; exact h d e)
  | setRef b => exact absurd rfl (hs b)

theorem Has.run {c : Code k ρ nr} {R : M3} (hE : Exact c R) {E : ℕ → Matrix (Fin k.nc) (Fin nu) ℝ} {a : ρ} {i : ℕ}
    (ops : List (Op k ρ ndx nu)) (ho : ∀ o ∈ ops, Inverse o) (hs : ∀ o ∈ ops, ∀ b, o ≠ .setRef b) {w : World k ρ nr ndx nu}
    (hI : Inv E w) (hr : w.ref = a) (h : Has c (E i) a w i) : Has c (E i) a (c.run w ops) i := by
  induction ops generalizing w with
  | nil => exact h
  | cons o ops ih =>
    have ho' := ho o List.mem_cons_self
    have hs' := hs o List.mem_cons_self
    refine ih (fun o h => ho o (List.mem_cons_of_mem _ h)) (fun o h => hs o (List.mem_cons_of_mem _ h)) (hI.step hE o ho') ?_
      (Has.step hI hr h o ho' hs')
    rw [(c.step_ref w o).1, ← hr]
    cases o with
    | setRef b => exact absurd rfl (hs' b)
    | _ => rfl

/-- While the flag is set, or data `i` has the derivative already, calls that do not disturb it keep this. -/
theorem fresh_step {c : Code k ρ nr} {E : ℕ → Matrix (Fin k.nc) (Fin nu) ℝ} {a : ρ} {w : World k ρ nr ndx nu} {i : ℕ}
    (hI : Inv E w) (hr : w.ref = a) (h : w.flag = true ∨ Has c (E i) a w i) (o : Op k ρ ndx nu) (ho : Undisturbed i o) :
    (c.step w o).flag = true ∨ Has c (E i) a (c.step w o) i := by
  rcases h with h | h
  · have hu : ∀ (d : RD nr ndx nu), Has c (E i) a (c.update w i d) i := by
      intro d e he
      simp only [Code.update, World.put, Function.update_self, Option.some.injEq] at he
      rw [← he]
      change c.jac w.ref (w.con i).dfu = _
      rw [hr, hI.dfu]
    cases o with
    | create j =>
      have hj : j = i := ho
      subst hj
      simp only [Code.step, hI.fwd, Bool.false_eq_true, if_false]
      split_ifs
      · exact .inl h
      · exact .inr (hu _)
    | forceDiff j a b => exact ho.elim
    | eval j => simp only [Code.step]; cases w.data j <;> exact .inl h
    | evalT j => simp only [Code.step]; cases w.data j <;> exact .inl h
    | diff j =>
      have hj : j = i := ho
      subst hj
      simp only [Code.step]
      cases e : w.data j with
      | none => exact .inl h
      | some d => simp only [h, Bool.or_true, if_true]; exact .inr (hu _)
    | diffT j => simp only [Code.step]; cases w.data j <;> exact .inl h
    | setRef b => exact ho.elim
    | _ => exact .inl h
  · refine .inr (Has.step hI hr h o ?_ ?_)
    · cases o <;> first | trivial | exact ho.elim
    · rintro b rfl; exact ho.elim

theorem fresh_run {c : Code k ρ nr} {R : M3} (hE : Exact c R) {E : ℕ → Matrix (Fin k.nc) (Fin nu) ℝ} {a : ρ} {i : ℕ}
    (ops : List (Op k ρ ndx nu)) (ho : ∀ o ∈ ops, Undisturbed i o) {w : World k ρ nr ndx nu} (hI : Inv E w) (hr : w.ref = a)
    (h : w.flag = true ∨ Has c (E i) a w i) :
    Inv E (c.run w ops) ∧ (c.run w ops).ref = a ∧ ((c.run w ops).flag = true ∨ Has c (E i) a (c.run w ops) i) := by
  induction ops generalizing w with
  | nil => exact ⟨hI, hr, h⟩
  | cons o ops ih =>
    have ho' := ho o List.mem_cons_self
    refine ih (fun o h => ho o (List.mem_cons_of_mem _ h)) (hI.step hE o ?_) ?_ (fresh_step hI hr h o ho')
    · cases o <;> trivial
    · rw [(c.step_ref w o).1, ← hr]
      cases o with
      | setRef b => exact ho'.elim
      | _ => rfl

/-- **C91** (inverse dynamics, partial). The forces are components of the control, `E i` being the matrix that selects them. In
every history, a data object has the derivatives of the residual for the reference of the model if the reference was never
changed since the model was made, or if no other data object of the model was made or evaluated (`calcDiff`) between the last
change and its own `calcDiff`. What is missing: data objects evaluated after another one; see
`C91_shared_counterexample`. -/
theorem C91_inverse_partial (c : Code k ρ nr) (hc : c.throws = false) (R : M3) (hE : Exact c R) (ref : ρ) (con : ℕ → CD k ndx nu)
    (E : ℕ → Matrix (Fin k.nc) (Fin nu) ℝ) (hcon : ∀ i, (con i).dfx = 0 ∧ (con i).dfu = E i) (ops : List (Op k ρ ndx nu))
    (ho : ∀ o ∈ ops, Inverse o) (i : ℕ) (hi : .create i ∈ ops) (U : ℝ → Fin nu → ℝ) (δ : Fin nu → ℝ) (hU : HasDerivAt U δ 0) :
    ((∀ o ∈ ops, ∀ b, o ≠ .setRef b) →
      ∃ d, (c.run (init false ref con) ops).data i = some d ∧ d.Rx = 0
        ∧ HasDerivAt (fun s => c.value ref (stored R k (E i *ᵥ U s))) (d.Ru *ᵥ δ) 0)
    ∧ ∀ (a : ρ) (mid : List (Op k ρ ndx nu)), (∀ o ∈ mid, Undisturbed i o) →
      ∃ d, (c.run (init false ref con) (ops ++ [.setRef a] ++ mid ++ [.diff i])).data i = some d ∧ d.Rx = 0
        ∧ HasDerivAt (fun s => c.value a (stored R k (E i *ᵥ U s))) (d.Ru *ᵥ δ) 0 := by
  have h0 : Inv E (init false ref con : World k ρ nr ndx nu) :=
    ⟨rfl, fun i => (hcon i).1, fun i => (hcon i).2, fun i d h => by simp [init] at h⟩
  have hd : ∀ a : ρ, HasDerivAt (fun s => c.value a (stored R k (E i *ᵥ U s))) (c.jac a (E i) *ᵥ δ) 0 := by
    intro a
    have := hE 0 nu a (fun s => E i *ᵥ U s) 0 (E i) 0 δ ((hasDerivAt_mulVec_const hU).congr_deriv (by simp))
    exact this.congr_deriv (by simp)
  have hcr := c.created hc ops i hi (init false ref con)
  have hI := h0.run hE ops ho
  constructor
  · intro hs
    obtain ⟨d, e⟩ := Option.isSome_iff_exists.1 hcr
    refine ⟨d, e, hI.Rx i d e, ?_⟩
    have := Has.run (i := i) hE ops ho hs h0 rfl (fun d h => by simp [init] at h) d e
    rw [this]
    exact hd ref
  · intro a mid hm
    simp only [Code.run_append]
    generalize c.run (init false ref con) ops = w at hcr hI
    have hI1 : Inv E (c.run w [.setRef a]) := hI.run hE [.setRef a] (by intro o h; simp at h; subst h; trivial)
    obtain ⟨i1, i2, i3⟩ := fresh_run (i := i) (a := a) hE mid hm hI1 rfl (.inl rfl)
    have hcr2 : ((c.run (c.run w [.setRef a]) mid).data i).isSome := c.run_some _ i _ (c.run_some _ i _ hcr)
    generalize c.run (c.run w [.setRef a]) mid = v at i1 i2 i3 hcr2
    obtain ⟨d, e⟩ := Option.isSome_iff_exists.1 hcr2
    have hI2 : Inv E (c.run v [.diff i]) := i1.run hE [.diff i] (by intro o h; simp at h; subst h; trivial)
    obtain ⟨d', e'⟩ := Option.isSome_iff_exists.1 (c.run_some [.diff i] i v hcr2)
    refine ⟨d', e', hI2.Rx i d' e', ?_⟩
    suffices d'.Ru = c.jac a (E i) by rw [this]; exact hd a
    have e2 : (c.step v (.diff i)).data i = some d' := e'
    rcases i3 with f | f
    · simp only [Code.step, e, f, Bool.or_true, if_true, Code.update, World.put, Function.update_self, Option.some.injEq] at e2
      rw [← e2]
      change c.jac v.ref (v.con i).dfu = _
      rw [i2, i1.dfu]
    · exact Has.step i1 i2 f (.diff i) trivial (by simp) d' e2

/-! ### Where it fails -/

/-- **C91** fails for a model shared by two nodes in inverse dynamics: after a change of the cone, the node evaluated second keeps
the derivatives of the old cone. -/
theorem C91_shared_counterexample :
    ∃ (c : Code .three (Mat 1 3) 1) (R : M3) (con : ℕ → CD .three 0 3) (ops : List (Op .three (Mat 1 3) 0 3)) (a : Mat 1 3)
      (d : RD 1 0 3), Exact c R ∧ c = friction 1 .three ∧ (∀ i, (con i).dfx = 0 ∧ (con i).dfu = 1) ∧ (∀ o ∈ ops, Inverse o)
      ∧ lastRef a ops = !![0, 0, 2] ∧ ops.getLast? = some (.diff 1)
      ∧ (c.run (init false a con) ops).data 1 = some d
      ∧ ¬ HasDerivAt (fun s : ℝ => c.value !![0, 0, 2] (stored R .three ((1 : Mat 3 3) *ᵥ ![0, 0, s]))) (d.Ru *ᵥ ![0, 0, 1]) 0 := by
  refine ⟨friction 1 .three, 1, fun _ => ⟨⟨0, 0⟩, 0, 1⟩,
    [.create 0, .create 1, .setRef !![0, 0, 2], .eval 0, .eval 1, .diff 0, .diff 1], !![0, 0, 1],
    ⟨(friction 1 .three).value !![0, 0, 2] ⟨0, 0⟩, 0, (friction 1 .three).jac !![0, 0, 1] 1⟩,
    C91_exact_friction_partial (by simp) 1 (by simp), rfl, fun _ => ⟨rfl, rfl⟩, ?_, rfl, rfl, ?_, ?_⟩
  · intro o ho
    simp at ho
    rcases ho with rfl | rfl | rfl | rfl | rfl | rfl | rfl <;> trivial
  · simp [Code.run, Code.step, init, friction, World.put, Code.update, Function.update]
  · intro h
    have h2 := hasDerivAt_apply h 0
    have h3 : HasDerivAt (fun s : ℝ => 2 * s) 2 0 := by simpa using (hasDerivAt_id' (0:ℝ)).const_mul 2
    have h4 := h2.unique (h3.congr_of_eventuallyEq (Filter.Eventually.of_forall fun s => by
      simp [friction, stored, Matrix.mulVec, dotProduct, Fin.sum_univ_three, vecHead, vecTail]))
    simp [friction, Matrix.mulVec, dotProduct, Fin.sum_univ_three, vecHead, vecTail] at h4

/-- **C91** fails for the friction cone of a contact of two dimensions whose frame is turned in its joint: the residual reads the
force in the axes of the joint, the derivative takes its components to be in the axes of the cone. -/
theorem C91_plane_counterexample :
    ∃ R : M3, Rot R ∧ ¬ Exact (friction 1 .two) R := by
  refine ⟨!![0, 0, 1; 0, 1, 0; -1, 0, 0], ⟨?_, ?_⟩, fun h => ?_⟩
  · ext i j
    fin_cases i <;> fin_cases j <;> simp [Matrix.mul_apply, Fin.sum_univ_three, vecHead, vecTail]
  · simp [Matrix.det_fin_three]
  · have h1 := h 1 0 (!![1, 0, 0] : Mat 1 3) (fun s => ![0, s]) !![0; 1] 0 ![1] 0 (by
      rw [hasDerivAt_pi]
      intro i
      fin_cases i
      · simpa [Matrix.mulVec, dotProduct] using hasDerivAt_const (0:ℝ) (0:ℝ)
      · simpa [Matrix.mulVec, dotProduct] using hasDerivAt_id' (0:ℝ))
    have h2 := hasDerivAt_apply h1 0
    have h4 := h2.unique ((hasDerivAt_id' (0:ℝ)).congr_of_eventuallyEq (Filter.Eventually.of_forall fun s => by
      simp [friction, stored, Matrix.mulVec, dotProduct, Fin.sum_univ_three, vecHead, vecTail]))
    simp [friction, Matrix.mulVec, dotProduct, vecHead, vecTail] at h4

/-- **C91** fails for an inactive contact in inverse dynamics: its force is set to zero whatever the control, so the residual is
constant, but the derivative with respect to the control is the one of an active contact. -/
theorem C91_inactive_counterexample :
    ∃ (con : ℕ → CD .three 0 3) (ops : (Fin 3 → ℝ) → List (Op .three Six 0 3)) (d : (Fin 3 → ℝ) → RD 3 0 3),
      (∀ i, (con i).dfx = 0 ∧ (con i).dfu = 1) ∧ (∀ u, ops u = [.create 0, .zeroForce 0, .eval 0, .diff 0])
      ∧ (∀ u, ((force .three).run (init false ⟨0, 0⟩ con) (ops u)).data 0 = some (d u))
      ∧ (∀ u, (d u).r = 0) ∧ ∀ u, (d u).Ru = 1 := by
  refine ⟨fun _ => ⟨⟨0, 0⟩, 0, 1⟩, fun _ => [.create 0, .zeroForce 0, .eval 0, .diff 0], fun _ => ⟨0, 0, 1⟩, fun _ => ⟨rfl, rfl⟩,
    fun _ => rfl, fun u => ?_, fun _ => rfl, fun _ => rfl⟩
  simp [Code.run, Code.step, init, force, World.put, World.putCon, Code.update]

/-! ### Concrete cases -/

/-- Forward dynamics: two nodes share the cone of a contact, its matrix is changed, node 1 is evaluated while node 0 is. The
residual of node 0 is the new matrix applied to its force, and its derivative the new matrix applied to that of the force. -/
example : ∃ d, ((friction 2 .three).run (init true (0 : Mat 2 3) (fun _ => ⟨⟨0, 0⟩, 0, 0⟩ : ℕ → CD .three 1 1))
      ([.create 0, .create 1, .setRef !![1, 0, 2; 0, 1, 3]]
        ++ evaluate 0 1 ![1, 2, 3] !![1; 0; 0] !![0; 0; 1] [.force 1 1 ![5, 5, 5]] [.eval 1, .forceDiff 1 0 0] [.diff 1])).data 0
        = some d ∧ d.r = ![7, 11] ∧ d.Rx *ᵥ ![1] + d.Ru *ᵥ ![1] = ![3, 3] := by
  obtain ⟨d, h1, h2, h3⟩ := C91_forward (friction 2 .three) rfl (0 : Mat 2 3) (fun _ => ⟨⟨0, 0⟩, 0, 0⟩ : ℕ → CD .three 1 1)
    [.create 0, .create 1, .setRef !![1, 0, 2; 0, 1, 3]] 0 (by simp) 1 ![1, 2, 3] !![1; 0; 0] !![0; 0; 1]
    [.force 1 1 ![5, 5, 5]] [.eval 1, .forceDiff 1 0 0] [.diff 1] (by simp [Elsewhere]) (by simp [Elsewhere]) (by simp [Elsewhere])
  refine ⟨d, h1, ?_, ?_⟩
  · rw [h2]
    ext i
    fin_cases i <;> simp [friction, stored, lastRef, Matrix.mulVec, dotProduct, Fin.sum_univ_three, vecHead, vecTail] <;> norm_num
  · have e := h3 (fun s => ![s, 0, s]) ![1] ![1] (C91_exact_friction_partial (by simp) 1 (by simp)) (by
      rw [hasDerivAt_pi]
      intro i
      fin_cases i
      · simpa [Matrix.mulVec, dotProduct, vecHead, vecTail] using hasDerivAt_id' (0:ℝ)
      · simpa [Matrix.mulVec, dotProduct, vecHead, vecTail] using hasDerivAt_const (0:ℝ) (0:ℝ)
      · simpa [Matrix.mulVec, dotProduct, vecHead, vecTail] using hasDerivAt_id' (0:ℝ))
    refine e.unique ?_
    rw [hasDerivAt_pi]
    intro i
    have e1 := (hasDerivAt_id' (0:ℝ)).const_mul 3
    rw [mul_one] at e1
    fin_cases i
    · refine (e1.congr_of_eventuallyEq (Filter.Eventually.of_forall fun s => ?_)).congr_deriv (by simp)
      simp [friction, stored, lastRef, Matrix.mulVec, dotProduct, Fin.sum_univ_three, vecHead, vecTail]
      ring
    · refine (e1.congr_of_eventuallyEq (Filter.Eventually.of_forall fun s => ?_)).congr_deriv (by simp)
      simp [friction, stored, lastRef, Matrix.mulVec, dotProduct, Fin.sum_univ_three, vecHead, vecTail]

/-- Inverse dynamics: the forces of a contact of six dimensions are the last six of seven controls; after a change of the wrench
cone, and values of another node, node 0 has the derivatives of the new cone. -/
example : ∃ d, ((wrench 1 .six).run (init false (0 : Mat 1 6)
      (fun _ => ⟨⟨0, 0⟩, 0, Matrix.of fun i j => if j.val = i.val + 1 then 1 else 0⟩ : ℕ → CD .six 2 7))
      ([.create 0, .create 1] ++ [.setRef !![1, 2, 3, 4, 5, 6]] ++ [.force 1 1 0, .eval 1, .diffT 1] ++ [.diff 0])).data 0 = some d
        ∧ d.Rx = 0
        ∧ HasDerivAt (fun s : ℝ => (wrench 1 .six).value !![1, 2, 3, 4, 5, 6] (stored 1 .six
          ((Matrix.of fun (i : Fin 6) (j : Fin 7) => if j.val = i.val + 1 then (1:ℝ) else 0) *ᵥ (s • ![0, 1, 0, 0, 0, 0, 1]))))
          (d.Ru *ᵥ ![0, 1, 0, 0, 0, 0, 1]) 0 :=
  (C91_inverse_partial (wrench 1 .six) rfl 1 (C91_exact_wrench rfl 1) (0 : Mat 1 6)
    (fun _ => ⟨⟨0, 0⟩, 0, Matrix.of fun i j => if j.val = i.val + 1 then 1 else 0⟩) _ (fun _ => ⟨rfl, rfl⟩) [.create 0, .create 1]
    (by simp [Inverse]) 0 (by simp) (fun s => s • ![0, 1, 0, 0, 0, 0, 1]) ![0, 1, 0, 0, 0, 0, 1]
    (by simpa using (hasDerivAt_id' (0:ℝ)).smul_const (![0, 1, 0, 0, 0, 0, 1] : Fin 7 → ℝ))).2 !![1, 2, 3, 4, 5, 6]
    [.force 1 1 0, .eval 1, .diffT 1] (by simp [Undisturbed])

end Verif.Frc
