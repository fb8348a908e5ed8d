import Verif.Spec.JointRes
import Verif.Lemmas.ContactFrame
import Mathlib.Analysis.SpecialFunctions.Trigonometric.Deriv

/-!
# C92: residuals of efforts, accelerations, gravity, centre of mass and momentum
-/

namespace Verif.Jr

open Matrix Verif.Con

set_option linter.unusedSectionVars false
set_option linter.unusedSimpArgs false

variable {nr nv nu : ℕ} {Q F M D S U : Type}

theorem Code.run_append (c : Code M D S U) (w : World M D S) (a b : List (Op S U)) :
    c.run w (a ++ b) = (c.run w a).bind fun v => c.run v b := by
  induction a generalizing w with
  | nil => rfl
  | cons o a ih =>
    simp only [List.cons_append, Code.run]
    cases c.step w o with
    | none => rfl
    | some v => exact ih v

/-- An invariant of the calls holds after every list of calls, and none of them is undefined. -/
theorem Code.run_inv (c : Code M D S U) (I : List (Op S U) → World M D S → Prop) (w : World M D S) (h0 : I [] w)
    (h : ∀ ops v o, I ops v → ∃ v', c.step v o = some v' ∧ I (ops ++ [o]) v') (ops : List (Op S U)) :
    ∃ v, c.run w ops = some v ∧ I ops v := by
  induction ops using List.reverseRecOn with
  | nil => exact ⟨w, rfl, h0⟩
  | append_singleton ops o ih =>
    obtain ⟨v, e, i⟩ := ih
    obtain ⟨v', e', i'⟩ := h ops v o i
    refine ⟨v', ?_, i'⟩
    rw [Code.run_append, e]
    simp [Code.run, e']

theorem lastVec_append (n : ℕ) (a : Fin n → ℝ) (ops more : List (Op S Vec)) :
    lastVec n a (ops ++ more) = lastVec n (lastVec n a ops) more := by
  induction ops generalizing a with
  | nil => rfl
  | cons o ops ih => cases o <;> simp only [List.cons_append, lastVec] <;> exact ih _

theorem lastSet_append (a : U) (ops more : List (Op S U)) : lastSet a (ops ++ more) = lastSet (lastSet a ops) more := by
  induction ops generalizing a with
  | nil => rfl
  | cons o ops ih => cases o <;> simp only [List.cons_append, lastSet] <;> exact ih _

theorem minus_same (a b : Fin nr → ℝ) : minus a ⟨nr, b⟩ = some (a - b) := by simp [minus]

/-! ### Joint effort -/

/-- What holds of a joint-effort residual after any calls. -/
structure EffortInv (a : Fin nr → ℝ) (f : Bool) (ops : List (Op (Joint nr nv nu) Vec))
    (w : World Effort (Cell nr nv nu) (Joint nr nv nu)) : Prop where
  ref : w.m.ref = ⟨nr, lastVec nr a ops⟩
  fwd : w.m.fwd = some f
  xdep : w.m.xdep = !f
  zero : f = true → w.d.left = 0 ∧ w.d.right = 0

theorem effort_inv (a : Fin nr → ℝ) (f : Bool) (s0 : Joint nr nv nu) (ops : List (Op (Joint nr nv nu) Vec)) :
    ∃ v, effort.run ⟨.make1 ⟨nr, a⟩ f, s0, fresh⟩ ops = some v ∧ EffortInv a f ops v := by
  refine effort.run_inv (EffortInv a f) _ ⟨rfl, rfl, rfl, fun _ => ⟨rfl, rfl⟩⟩ (fun ops v o h => ?_) ops
  obtain ⟨h1, h2, h3, h4⟩ := h
  cases o with
  | share s => exact ⟨_, rfl, by rw [h1, lastVec_append]; rfl, h2, h3, h4⟩
  | value =>
    exact ⟨⟨v.m, v.s, { v.d with r := v.s.tau - lastVec nr a ops }⟩, by simp [Code.step, effort, h1, minus_same],
      by rw [lastVec_append]; exact h1, h2, h3, h4⟩
  | valueT =>
    cases f with
    | true => exact ⟨⟨v.m, v.s, { v.d with r := 0 }⟩, by simp [Code.step, effort, h2], by rw [lastVec_append]; exact h1, h2, h3, h4⟩
    | false =>
      exact ⟨⟨v.m, v.s, { v.d with r := v.s.tau - lastVec nr a ops }⟩, by simp [Code.step, effort, h2, h1, minus_same],
        by rw [lastVec_append]; exact h1, h2, h3, h4⟩
  | diff =>
    cases f with
    | true => exact ⟨⟨v.m, v.s, { v.d with Ru := v.s.tauDu }⟩, by simp [Code.step, effort, h3], by rw [lastVec_append]; exact h1, h2, h3, h4⟩
    | false =>
      exact ⟨⟨v.m, v.s, { v.d with left := v.s.tauDq, right := v.s.tauDv, Ru := v.s.tauDu }⟩, by simp [Code.step, effort, h3],
        by rw [lastVec_append]; exact h1, h2, h3, by simp⟩
  | diffT =>
    cases f with
    | true =>
      exact ⟨⟨v.m, v.s, { v.d with left := 0, right := 0 }⟩, by simp [Code.step, effort, h2], by rw [lastVec_append]; exact h1, h2, h3,
        fun _ => ⟨rfl, rfl⟩⟩
    | false =>
      exact ⟨⟨v.m, v.s, { v.d with left := v.s.tauDq, right := v.s.tauDv, Ru := v.s.tauDu }⟩, by simp [Code.step, effort, h2],
        by rw [lastVec_append]; exact h1, h2, h3, by simp⟩
  | set b =>
    refine ⟨_, rfl, ?_, ?_, ?_, h4⟩
    · obtain ⟨n, b⟩ := b
      rw [lastVec_append]
      by_cases e : n = nr
      · subst e; simp [effort, lastVec]
      · simp [effort, lastVec, e, h1]
    · by_cases e : b.1 = nr <;> simp [effort, e, h2]
    · by_cases e : b.1 = nr <;> simp [effort, e, h3]

/-- **C92** (joint effort). After any history of calls, in which references of the wrong size are refused, an evaluation gives the
efforts less the last reference and its derivatives; nothing is undefined. In forward dynamics (`f`), where the efforts are the
controls and so do not depend on the state, the derivative with respect to the state is zero, and the residual of a terminal node
is zero with zero derivative. The other two constructors that set the flag are special cases (`C92_effort_makers`). -/
theorem C92_effort (a : Fin nr → ℝ) (f : Bool) (s0 : Joint nr nv nu) (ops : List (Op (Joint nr nv nu) Vec)) (s t : Joint nr nv nu) :
    (∃ w, effort.run ⟨.make1 ⟨nr, a⟩ f, s0, fresh⟩ (ops ++ evaluate s t) = some w
      ∧ w.d.r = s.tau - lastVec nr a ops
      ∧ ∀ (T : ℝ → Fin nr → ℝ) (δq δv : Fin nv → ℝ) (δu : Fin nu → ℝ), Der T t.tauDq t.tauDv t.tauDu δq δv δu →
          (f = true → t.tauDq = 0 ∧ t.tauDv = 0) → w.d.Right (fun e => T e - lastVec nr a ops) δq δv δu)
    ∧ (∃ w, effort.run ⟨.make1 ⟨nr, a⟩ f, s0, fresh⟩ (ops ++ evaluateT s t) = some w
      ∧ (f = true → w.d.r = 0 ∧ w.d.left = 0 ∧ w.d.right = 0)
      ∧ (f = false → w.d.r = s.tau - lastVec nr a ops
        ∧ ∀ (T : ℝ → Fin nr → ℝ) (δq δv : Fin nv → ℝ) (δu : Fin nu → ℝ), Der T t.tauDq t.tauDv t.tauDu δq δv δu →
          w.d.Right (fun e => T e - lastVec nr a ops) δq δv δu)) := by
  obtain ⟨v, e, h1, h2, h3, h4⟩ := effort_inv a f s0 ops
  constructor
  · cases f with
    | true =>
      refine ⟨⟨v.m, t, { v.d with r := s.tau - lastVec nr a ops, Ru := t.tauDu }⟩, ?_, rfl, fun T δq δv δu hT hz => ?_⟩
      · rw [Code.run_append, e]
        simp [evaluate, Code.run, Code.step, effort, h1, h3, minus_same]
      · obtain ⟨z1, z2⟩ := hz rfl
        obtain ⟨z3, z4⟩ := h4 rfl
        rw [z1, z2] at hT
        simp only [Cell.Right, z3, z4]
        exact hT.sub_const _
    | false =>
      refine ⟨⟨v.m, t, ⟨s.tau - lastVec nr a ops, t.tauDq, t.tauDv, t.tauDu⟩⟩, ?_, rfl, fun T δq δv δu hT _ => hT.sub_const _⟩
      rw [Code.run_append, e]
      simp [evaluate, Code.run, Code.step, effort, h1, h3, minus_same]
  · cases f with
    | true =>
      refine ⟨⟨v.m, t, { v.d with r := 0, left := 0, right := 0 }⟩, ?_, fun _ => ⟨rfl, rfl, rfl⟩, by simp⟩
      rw [Code.run_append, e]
      simp [evaluateT, Code.run, Code.step, effort, h2]
    | false =>
      refine ⟨⟨v.m, t, ⟨s.tau - lastVec nr a ops, t.tauDq, t.tauDv, t.tauDu⟩⟩, ?_, by simp,
        fun _ => ⟨rfl, fun T δq δv δu hT => hT.sub_const _⟩⟩
      rw [Code.run_append, e]
      simp [evaluateT, Code.run, Code.step, effort, h1, h2, minus_same]

/-- The constructors with a reference or with `nu` are that of `C92_effort` for inverse dynamics. -/
theorem C92_effort_makers (ref : Vec) (nr : ℕ) :
    Effort.make2 ref = .make1 ref false ∧ Effort.make3 nr = .make1 ⟨nr, 0⟩ false := ⟨rfl, rfl⟩

/-- **C92** fails for the constructor from state and actuation: it leaves the flag uninitialised, and the first call of a terminal
node reads it. -/
theorem C92_effort_uninitialised_counterexample (s : Joint nr nv nu) :
    (effort (nv := nv) (nu := nu)).run ⟨.make4 nr, s, fresh⟩ [.valueT] = none := rfl

/-- **C92** fails for the other constructors: they accept a reference of any size, which the setter would refuse, and `calc` then
reads beyond it. -/
theorem C92_effort_size_counterexample (n : ℕ) (h : n ≠ nr) (b : Fin n → ℝ) (f : Bool) (s : Joint nr nv nu) :
    effort.run ⟨.make1 ⟨n, b⟩ f, s, fresh⟩ [.value] = none
    ∧ (effort (nv := nv) (nu := nu) (nr := nr)).set (.make1 ⟨nr, 0⟩ f) ⟨n, b⟩ = none := by
  simp [Code.run, Code.step, effort, Effort.make1, minus, h]

/-! ### Joint acceleration -/

theorem acceleration_inv (a : Fin nv → ℝ) (s0 : Joint nr nv nu) (ops : List (Op (Joint nr nv nu) Vec)) :
    ∃ v, acceleration.run ⟨⟨nv, a⟩, s0, fresh⟩ ops = some v ∧ v.m = ⟨nv, lastVec nv a ops⟩ := by
  refine acceleration.run_inv (fun ops v => v.m = ⟨nv, lastVec nv a ops⟩) _ rfl (fun ops v o h => ?_) ops
  cases o with
  | set b =>
    refine ⟨_, rfl, ?_⟩
    obtain ⟨n, b⟩ := b
    simp only [lastVec_append]
    by_cases e : n = nv
    · subst e; simp [acceleration, lastVec]
    · simp [acceleration, lastVec, e, h]
  | value =>
    exact ⟨⟨v.m, v.s, { v.d with r := v.s.a - lastVec nv a ops }⟩, by simp [Code.step, acceleration, h, minus_same],
      by simp only [lastVec_append]; exact h⟩
  | _ => exact ⟨_, rfl, by simp only [lastVec_append]; exact h⟩

/-- **C92** (joint acceleration). The constructor refuses a reference of the wrong size. After any history of calls an evaluation
gives the accelerations less the last reference and its derivatives, and the residual of a terminal node is zero. What is missing:
the derivative of a terminal node, see `C92_acceleration_counterexample`. -/
theorem C92_acceleration_partial (ref : Vec) (s0 : Joint nr nv nu) (ops : List (Op (Joint nr nv nu) Vec)) (s t : Joint nr nv nu) :
    (makeAcc nv ref = none ↔ ref.1 ≠ nv)
    ∧ ∀ m, makeAcc nv ref = some m → ∃ a : Fin nv → ℝ, ref = ⟨nv, a⟩
      ∧ (∃ w, acceleration.run ⟨m, s0, fresh⟩ (ops ++ evaluate s t) = some w ∧ w.d.r = s.a - lastVec nv a ops
        ∧ ∀ (A : ℝ → Fin nv → ℝ) (δq δv : Fin nv → ℝ) (δu : Fin nu → ℝ), Der A t.aDq t.aDv t.aDu δq δv δu →
          w.d.Right (fun e => A e - lastVec nv a ops) δq δv δu)
      ∧ ∃ w, acceleration.run ⟨m, s0, fresh⟩ (ops ++ evaluateT s t) = some w ∧ w.d.r = 0 := by
  obtain ⟨n, b⟩ := ref
  by_cases h : n = nv
  · subst h
    refine ⟨by simp [makeAcc], fun m hm => ⟨b, rfl, ?_⟩⟩
    have hm' : m = ⟨n, b⟩ := by simpa [makeAcc, eq_comm] using hm
    subst hm'
    obtain ⟨v, e, hv⟩ := acceleration_inv b s0 ops
    refine ⟨⟨⟨v.m, t, ⟨s.a - lastVec n b ops, t.aDq, t.aDv, t.aDu⟩⟩, ?_, rfl, fun A δq δv δu hA => hA.sub_const _⟩,
      ⟨⟨v.m, t, ⟨0, t.aDq, t.aDv, t.aDu⟩⟩, ?_, rfl⟩⟩
    · rw [Code.run_append, e]
      simp [evaluate, Code.run, Code.step, acceleration, hv, minus_same]
    · rw [Code.run_append, e]
      simp [evaluateT, Code.run, Code.step, acceleration]
  · refine ⟨by simp [makeAcc, h], fun m hm => ?_⟩
    simp [makeAcc, h] at hm

/-- **C92** fails for the acceleration of a terminal node: the residual is zero whatever the state, but its derivative is the one
that an earlier evaluation with a control has left in the shared data, here not zero. -/
theorem C92_acceleration_counterexample :
    ∃ (s : Joint 1 1 1) (w : World Vec (Cell 1 1 1) (Joint 1 1 1)),
      acceleration.run ⟨⟨1, 0⟩, s, fresh⟩ (evaluate s s ++ [.valueT, .diffT]) = some w ∧ w.d.r = 0
      ∧ ¬ w.d.Right (fun _ => 0) ![1] ![0] ![0] := by
  refine ⟨⟨0, 0, 0, 0, 0, 1, 0, 0⟩, ⟨⟨1, 0⟩, ⟨0, 0, 0, 0, 0, 1, 0, 0⟩, ⟨0, 1, 0, 0⟩⟩, ?_, rfl, fun h => ?_⟩
  · simp [evaluate, Code.run, Code.step, acceleration, minus_same]
  · have := congrFun (h.unique (hasDerivAt_const (0:ℝ) (0 : Fin 1 → ℝ))) 0
    simp at this

/-! ### Gravity -/

theorem gravity_inv (G : Gravity Q F nv) (s0 : Act Q F nv nu) (ops : List (Op (Act Q F nv nu) Empty)) :
    ∃ v, (gravity G).run ⟨(), s0, fresh⟩ ops = some v ∧ v.d.right = 0 := by
  refine (gravity G).run_inv (fun _ v => v.d.right = 0) _ rfl (fun ops v o h => ?_) ops
  cases o <;> exact ⟨_, rfl, h⟩

/-- **C92** (control gravity). After any history of calls, an evaluation gives the joint torques less those of gravity, and its
derivatives if the torques do not depend on the state; a terminal node has the torques of gravity alone. What is missing: torques
that depend on the state, see `C92_gravity_counterexample`. -/
theorem C92_gravity_partial (G : Gravity Q F nv) (s0 : Act Q F nv nu) (ops : List (Op (Act Q F nv nu) Empty)) (s t : Act Q F nv nu)
    (hq : t.q = s.q) :
    (∃ w, (gravity G).run ⟨(), s0, fresh⟩ (ops ++ evaluate s t) = some w ∧ w.d.r = s.tau - G.g s.q
      ∧ ∀ (T : ℝ → Fin nv → ℝ) (q : ℝ → Q) (δq δv : Fin nv → ℝ) (δu : Fin nu → ℝ), q 0 = s.q →
          Der T t.tauDq t.tauDv t.tauDu δq δv δu → HasDerivAt (fun e => G.g (q e)) (G.dg (q 0) *ᵥ δq) 0 →
          t.tauDq = 0 → t.tauDv = 0 → w.d.Right (fun e => T e - G.g (q e)) δq δv δu)
    ∧ ∃ w, (gravity G).run ⟨(), s0, fresh⟩ (ops ++ evaluateT s t) = some w ∧ w.d.r = -G.g s.q
      ∧ ∀ (q : ℝ → Q) (δq δv : Fin nv → ℝ), q 0 = s.q → HasDerivAt (fun e => G.g (q e)) (G.dg (q 0) *ᵥ δq) 0 →
          w.d.Right (fun e => -G.g (q e)) δq δv 0 := by
  obtain ⟨v, e, hr⟩ := gravity_inv G s0 ops
  refine ⟨⟨⟨(), t, ⟨s.tau - G.g s.q, -G.dg s.q, v.d.right, t.tauDu⟩⟩, ?_, rfl, fun T q δq δv δu h0 hT hg z1 z2 => ?_⟩,
    ⟨⟨(), t, ⟨-G.g s.q, -G.dg s.q, v.d.right, v.d.Ru⟩⟩, ?_, rfl, fun q δq δv h0 hg => ?_⟩⟩
  · rw [Code.run_append, e]
    simp [evaluate, Code.run, Code.step, gravity, hq]
  · rw [z1, z2] at hT
    rw [h0] at hg
    simp only [Cell.Right, hr]
    refine (HasDerivAt.sub hT hg).congr_deriv ?_
    simp only [zero_mulVec, neg_mulVec, zero_add, add_zero]
    abel
  · rw [Code.run_append, e]
    simp [evaluateT, Code.run, Code.step, gravity, hq]
  · rw [h0] at hg
    simp only [Cell.Right, hr]
    refine hg.neg.congr_deriv ?_
    simp [neg_mulVec]

/-- **C92** fails for the control gravity when the torques depend on the state, as for an actuation with springs: the derivative
of the torques with respect to the state is left out. -/
theorem C92_gravity_counterexample :
    ∃ (G : Gravity Unit Unit 1) (s : Act Unit Unit 1 1) (w : World Unit (Cell 1 1 1) (Act Unit Unit 1 1)) (T : ℝ → Fin 1 → ℝ),
      (gravity G).run ⟨(), s, fresh⟩ (evaluate s s) = some w ∧ T 0 = s.tau ∧ Der T s.tauDq s.tauDv s.tauDu ![1] ![0] ![0]
      ∧ HasDerivAt (fun _ : ℝ => G.g ()) (G.dg () *ᵥ ![1]) 0
      ∧ ¬ w.d.Right (fun e => T e - G.g ()) ![1] ![0] ![0] := by
  refine ⟨⟨0, 0, 0, 0⟩, ⟨(), 0, 1, 0, 1, ()⟩, ⟨(), ⟨(), 0, 1, 0, 1, ()⟩, ⟨0, 0, 0, 1⟩⟩, fun e => ![e], ?_, ?_, ?_, ?_, fun h => ?_⟩
  · simp [evaluate, Code.run, Code.step, gravity, fresh]
  · ext i; fin_cases i; rfl
  · simp only [Der]
    rw [hasDerivAt_pi]
    intro i
    fin_cases i
    simpa using hasDerivAt_id' (0:ℝ)
  · simpa using hasDerivAt_const (0:ℝ) (0 : Fin 1 → ℝ)
  · have h1 : HasDerivAt (fun e : ℝ => (![e] : Fin 1 → ℝ)) ![1] 0 := by
      rw [hasDerivAt_pi]
      intro i
      fin_cases i
      simpa using hasDerivAt_id' (0:ℝ)
    have := congrFun (h.unique (h1.sub_const 0)) 0
    simp at this

theorem contactGravity_inv (G : Gravity Q F nv) (s0 : Act Q F nv nu) (ops : List (Op (Act Q F nv nu) Empty)) :
    ∃ v, (contactGravity G).run ⟨(), s0, ⟨fresh, s0.fext⟩⟩ ops = some v ∧ v.d.cell.right = 0 ∧ v.d.fext = s0.fext := by
  refine (contactGravity G).run_inv (fun _ v => v.d.cell.right = 0 ∧ v.d.fext = s0.fext) _ ⟨rfl, rfl⟩ (fun ops v o h => ?_) ops
  cases o <;> exact ⟨_, rfl, h⟩

/-- **C92** (control gravity in contact): after any history, the residual is that of the external forces at the time the data were
created, with its derivatives. What is missing: the forces of the contacts, see `C92_contact_gravity_counterexample`. -/
theorem C92_contact_gravity_partial (G : Gravity Q F nv) (s0 : Act Q F nv nu) (ops : List (Op (Act Q F nv nu) Empty))
    (s t : Act Q F nv nu) (hq : t.q = s.q) :
    (∃ w, (contactGravity G).run ⟨(), s0, ⟨fresh, s0.fext⟩⟩ (ops ++ evaluate s t) = some w
      ∧ w.d.cell.r = s.tau - G.st s.q s0.fext
      ∧ ∀ (T : ℝ → Fin nv → ℝ) (q : ℝ → Q) (δq δv : Fin nv → ℝ) (δu : Fin nu → ℝ), q 0 = s.q →
          Der T t.tauDq t.tauDv t.tauDu δq δv δu → HasDerivAt (fun e => G.st (q e) s0.fext) (G.dst (q 0) s0.fext *ᵥ δq) 0 →
          t.tauDq = 0 → t.tauDv = 0 → w.d.cell.Right (fun e => T e - G.st (q e) s0.fext) δq δv δu)
    ∧ ∃ w, (contactGravity G).run ⟨(), s0, ⟨fresh, s0.fext⟩⟩ (ops ++ evaluateT s t) = some w ∧ w.d.cell.r = -G.g s.q
      ∧ ∀ (q : ℝ → Q) (δq δv : Fin nv → ℝ), q 0 = s.q → HasDerivAt (fun e => G.g (q e)) (G.dg (q 0) *ᵥ δq) 0 →
          w.d.cell.Right (fun e => -G.g (q e)) δq δv 0 := by
  obtain ⟨v, e, hr, hf⟩ := contactGravity_inv G s0 ops
  refine ⟨⟨⟨(), t, ⟨⟨s.tau - G.st s.q s0.fext, -G.dst s.q s0.fext, v.d.cell.right, t.tauDu⟩, s0.fext⟩⟩, ?_, rfl,
      fun T q δq δv δu h0 hT hg z1 z2 => ?_⟩,
    ⟨⟨(), t, ⟨⟨-G.g s.q, -G.dg s.q, v.d.cell.right, v.d.cell.Ru⟩, s0.fext⟩⟩, ?_, rfl, fun q δq δv h0 hg => ?_⟩⟩
  · rw [Code.run_append, e]
    simp [evaluate, Code.run, Code.step, contactGravity, hq, hf]
  · rw [z1, z2] at hT
    rw [h0] at hg
    simp only [Cell.Right, hr]
    refine (HasDerivAt.sub hT hg).congr_deriv ?_
    simp only [zero_mulVec, neg_mulVec, zero_add, add_zero]
    abel
  · rw [Code.run_append, e]
    simp [evaluateT, Code.run, Code.step, contactGravity, hq, hf]
  · rw [h0] at hg
    simp only [Cell.Right, hr]
    refine hg.neg.congr_deriv ?_
    simp [neg_mulVec]

/-- **C92** fails for the control gravity in contact: it is meant to be the torque less what holds the robot against gravity and
the contact forces, but the forces are those the data had at creation, zero. Here a torque that balances a contact force of one
newton has a residual. -/
theorem C92_contact_gravity_counterexample :
    ∃ (G : Gravity Unit (Fin 1 → ℝ) 1) (s0 s : Act Unit (Fin 1 → ℝ) 1 1) (w : World Unit (DG (Fin 1 → ℝ) 1 1) (Act Unit (Fin 1 → ℝ) 1 1)),
      s0.fext = 0 ∧ (contactGravity G).run ⟨(), s0, ⟨fresh, s0.fext⟩⟩ (evaluate s s) = some w
      ∧ s.tau - G.st s.q s.fext = 0 ∧ w.d.cell.r ≠ 0 := by
  refine ⟨⟨0, 0, fun _ f => -f, 0⟩, ⟨(), 0, 0, 0, 1, 0⟩, ⟨(), ![-1], 0, 0, 1, ![1]⟩,
    ⟨(), ⟨(), ![-1], 0, 0, 1, ![1]⟩, ⟨⟨![-1], 0, 0, 1⟩, 0⟩⟩, rfl, ?_, ?_, fun h => ?_⟩
  · simp [evaluate, Code.run, Code.step, contactGravity, fresh]
  · ext i; fin_cases i; simp
  · have := congrFun h 0
    simp at this

/-! ### Centre of mass and momentum -/

theorem com_inv (a : V3) (s0 : Mass nv) (ops : List (Op (Mass nv) V3)) :
    ∃ v, (comPosition (nu := nu)).run ⟨a, s0, fresh⟩ ops = some v ∧ v.m = lastSet a ops ∧ v.d.right = 0 ∧ v.d.Ru = 0 := by
  refine comPosition.run_inv (fun ops v => v.m = lastSet a ops ∧ v.d.right = 0 ∧ v.d.Ru = 0) _ ⟨rfl, rfl, rfl⟩ (fun ops v o h => ?_) ops
  simp only [lastSet_append]
  cases o <;> exact ⟨_, rfl, by first | exact h.1 | rfl, h.2⟩

/-- **C92** (centre of mass): after any history an evaluation, with or without control, gives the position of the centre of mass
less the last reference, and its derivatives. -/
theorem C92_com (a : V3) (s0 : Mass nv) (ops : List (Op (Mass nv) V3)) (s t : Mass nv) (c : List (Op (Mass nv) V3))
    (hc : c = evaluate s t ∨ c = evaluateT s t) :
    ∃ w, (comPosition (nu := nu)).run ⟨a, s0, fresh⟩ (ops ++ c) = some w ∧ w.d.r = s.com - lastSet a ops
      ∧ ∀ (C : ℝ → V3) (δq δv : Fin nv → ℝ) (δu : Fin nu → ℝ), HasDerivAt C (t.jcom *ᵥ δq) 0 →
          w.d.Right (fun e => C e - lastSet a ops) δq δv δu := by
  obtain ⟨v, e, h1, h2, h3⟩ := com_inv (nu := nu) a s0 ops
  refine ⟨⟨v.m, t, ⟨s.com - lastSet a ops, t.jcom, v.d.right, v.d.Ru⟩⟩, ?_, rfl, fun C δq δv δu hC => ?_⟩
  · rw [Code.run_append, e]
    rcases hc with rfl | rfl <;> simp [evaluate, evaluateT, Code.run, Code.step, comPosition, h1]
  · simp only [Cell.Right, h2, h3]
    refine (hC.sub_const _).congr_deriv ?_
    simp

theorem momentum_inv (a : Fin 6 → ℝ) (s0 : Mass nv) (ops : List (Op (Mass nv) (Fin 6 → ℝ))) :
    ∃ v, (momentum (nu := nu)).run ⟨a, s0, fresh⟩ ops = some v ∧ v.m = lastSet a ops ∧ v.d.Ru = 0 := by
  refine momentum.run_inv (fun ops v => v.m = lastSet a ops ∧ v.d.Ru = 0) _ ⟨rfl, rfl⟩ (fun ops v o h => ?_) ops
  simp only [lastSet_append]
  cases o <;> exact ⟨_, rfl, by first | exact h.1 | rfl, h.2⟩

/-- **C92** (momentum): the same for the centroidal momentum. -/
theorem C92_momentum (a : Fin 6 → ℝ) (s0 : Mass nv) (ops : List (Op (Mass nv) (Fin 6 → ℝ))) (s t : Mass nv)
    (c : List (Op (Mass nv) (Fin 6 → ℝ))) (hc : c = evaluate s t ∨ c = evaluateT s t) :
    ∃ w, (momentum (nu := nu)).run ⟨a, s0, fresh⟩ (ops ++ c) = some w ∧ w.d.r = s.hg - lastSet a ops
      ∧ ∀ (H : ℝ → Fin 6 → ℝ) (δq δv : Fin nv → ℝ) (δu : Fin nu → ℝ), HasDerivAt H (t.hgDq *ᵥ δq + t.hgDv *ᵥ δv) 0 →
          w.d.Right (fun e => H e - lastSet a ops) δq δv δu := by
  obtain ⟨v, e, h1, h3⟩ := momentum_inv (nu := nu) a s0 ops
  refine ⟨⟨v.m, t, ⟨s.hg - lastSet a ops, t.hgDq, t.hgDv, v.d.Ru⟩⟩, ?_, rfl, fun C δq δv δu hC => ?_⟩
  · rw [Code.run_append, e]
    rcases hc with rfl | rfl <;> simp [evaluate, evaluateT, Code.run, Code.step, momentum, h1]
  · simp only [Cell.Right, h3]
    refine (hC.sub_const _).congr_deriv ?_
    simp

/-! ### Impulses -/

theorem impulse_inv (P : Com Q nv) (s0 : Imp Q nv) (d0 : DI Q nv) (hd : d0.cell = fresh) (ops : List (Op (Imp Q nv) Empty)) :
    ∃ v, (impulseCom P).run ⟨(), s0, d0⟩ ops = some v ∧ v.d.cell.Ru = 0 := by
  refine (impulseCom P).run_inv (fun _ v => v.d.cell.Ru = 0) _ (by rw [hd]; rfl) (fun ops v o h => ?_) ops
  cases o <;> exact ⟨_, rfl, h⟩

/-- **C92** (impulse): after any history an evaluation, with or without control, gives the jump of the velocity of the centre of
mass that the jump of the joint velocity makes, and its derivatives along every curve of states: for Pinocchio's velocity of the
centre of mass linear in the joint velocity and its derivative with respect to the configuration right. -/
theorem C92_impulse (P : Com Q nv) (s0 : Imp Q nv) (d0 : DI Q nv) (hd : d0.cell = fresh) (ops : List (Op (Imp Q nv) Empty))
    (s t : Imp Q nv) (c : List (Op (Imp Q nv) Empty)) (hc : c = evaluate s t ∨ c = evaluateT s t)
    (hP : ∀ q v, P.vcom q v = P.jcom q *ᵥ v) :
    ∃ w, (impulseCom P).run ⟨(), s0, d0⟩ (ops ++ c) = some w ∧ w.d.cell.r = P.jcom s.q *ᵥ (s.vnext - s.v)
      ∧ ∀ (q : ℝ → Q) (v n : ℝ → Fin nv → ℝ) (δq δv : Fin nv → ℝ), q 0 = s.q → v 0 = s.v → n 0 = s.vnext →
          (∀ u, HasDerivAt (fun e => P.vcom (q e) u) (P.dq (q 0) u *ᵥ δq) 0) →
          HasDerivAt v δv 0 → HasDerivAt n (t.nextDq *ᵥ δq + t.nextDv *ᵥ δv) 0 →
          w.d.cell.Right (fun e => P.jcom (q e) *ᵥ (n e - v e)) δq δv 0 := by
  obtain ⟨v, e, h3⟩ := impulse_inv P s0 d0 hd ops
  refine ⟨⟨(), t, ⟨⟨P.vcom s.q (s.vnext - s.v), P.dq s.q (s.vnext - s.v) + P.jcom s.q * t.nextDq,
    P.jcom s.q * (t.nextDv - 1), v.d.cell.Ru⟩, s.q, s.vnext - s.v⟩⟩, ?_, hP _ _, fun q v n δq δv hq hv hn hdq dv dn => ?_⟩
  · rw [Code.run_append, e]
    rcases hc with rfl | rfl <;> simp [evaluate, evaluateT, Code.run, Code.step, impulseCom]
  · simp only [Cell.Right, h3]
    have hcol : ∀ i j, HasDerivAt (fun e => P.jcom (q e) i j) ((Matrix.of fun i j => (P.dq (q 0) (Pi.single j 1) *ᵥ δq) i) i j) 0 := by
      intro i j
      have := hasDerivAt_pi.1 (hdq (Pi.single j 1)) i
      simpa [hP] using this
    have h1 := hasDerivAt_mulVec (A := fun e => P.jcom (q e)) hcol (HasDerivAt.sub dn dv)
    have h2 := (hdq (s.vnext - s.v)).unique ((hasDerivAt_mulVec (A := fun e => P.jcom (q e)) hcol
      (hasDerivAt_const (0:ℝ) (s.vnext - s.v))).congr_of_eventuallyEq (Filter.Eventually.of_forall fun e => hP _ _))
    refine h1.congr_deriv ?_
    rw [mulVec_zero, add_zero] at h2
    simp only [Pi.sub_apply, hv, hn]
    rw [← h2, hq]
    simp only [add_mulVec, sub_mulVec, ← mulVec_mulVec, one_mulVec, mulVec_sub, mulVec_add, mulVec_zero, add_zero]
    abel

/-! ### Concrete cases -/

/-- Efforts of two joints in inverse dynamics: the reference is set twice, the second time with a wrong size. -/
example : ∃ w, (effort (nr := 2) (nv := 2) (nu := 2)).run ⟨.make3 2, ⟨0, 0, 0, 0, 0, 0, 0, 0⟩, fresh⟩
      ([.set ⟨2, ![1, 2]⟩, .value, .diffT, .set ⟨3, ![4, 5, 6]⟩] ++ evaluate ⟨![5, 5], 0, 0, 0, 0, 0, 0, 0⟩ ⟨![5, 5], 1, 0, !![2, 0; 0, 2], 0, 0, 0, 0⟩)
      = some w ∧ w.d.r = ![4, 3] ∧ w.d.Right (fun e => ![5 + 3 * e, 5 + 2 * e] - ![1, 2]) ![1, 0] ![0, 0] ![1, 1] := by
  obtain ⟨w, h1, h2, h3⟩ := (C92_effort (0 : Fin 2 → ℝ) false (⟨0, 0, 0, 0, 0, 0, 0, 0⟩ : Joint 2 2 2)
    [.set ⟨2, ![1, 2]⟩, .value, .diffT, .set ⟨3, ![4, 5, 6]⟩] ⟨![5, 5], 0, 0, 0, 0, 0, 0, 0⟩ ⟨![5, 5], 1, 0, !![2, 0; 0, 2], 0, 0, 0, 0⟩).1
  have e : lastVec 2 (0 : Fin 2 → ℝ) ([.set ⟨2, ![1, 2]⟩, .value, .diffT, .set ⟨3, ![4, 5, 6]⟩] : List (Op (Joint 2 2 2) Vec))
      = ![1, 2] := rfl
  rw [e] at h2 h3
  refine ⟨w, h1, ?_, h3 _ _ _ _ ?_ (by simp)⟩
  · rw [h2]
    ext i
    fin_cases i <;> norm_num
  · simp only [Der]
    rw [hasDerivAt_pi]
    intro i
    fin_cases i
    · have := ((hasDerivAt_id' (0:ℝ)).const_mul 3).const_add 5
      refine this.congr_deriv ?_
      simp [mulVec, dotProduct, Fin.sum_univ_two, Matrix.one_apply]
      norm_num
    · have := ((hasDerivAt_id' (0:ℝ)).const_mul 2).const_add 5
      refine this.congr_deriv ?_
      simp [mulVec, dotProduct, Fin.sum_univ_two, Matrix.one_apply]

/-- A pendulum: the torque of gravity is `sin q`; the residual at the horizontal, its derivative along `q` and `u`. -/
example : ∃ w, (gravity (⟨fun q => ![Real.sin q], fun q => !![Real.cos q], fun q _ => ![Real.sin q], fun q _ => !![Real.cos q]⟩ :
      Gravity ℝ Unit 1)).run ⟨(), ⟨0, 0, 0, 0, 0, ()⟩, fresh⟩
      ([.valueT, .diffT] ++ evaluate ⟨0, ![2], 0, 0, 1, ()⟩ ⟨0, ![2], 0, 0, 1, ()⟩) = some w
      ∧ w.d.Right (fun e => ![2 + 4 * e] - ![Real.sin e]) ![1] ![0] ![4] := by
  obtain ⟨w, h1, -, h3⟩ := (C92_gravity_partial (⟨fun q => ![Real.sin q], fun q => !![Real.cos q], fun q _ => ![Real.sin q],
    fun q _ => !![Real.cos q]⟩ : Gravity ℝ Unit 1) ⟨0, 0, 0, 0, 0, ()⟩ [.valueT, .diffT] ⟨0, ![2], 0, 0, 1, ()⟩
    (⟨0, ![2], 0, 0, 1, ()⟩ : Act ℝ Unit 1 1) rfl).1
  refine ⟨w, h1, h3 (fun e => ![2 + 4 * e]) (fun e => e) _ _ _ rfl ?_ ?_ rfl rfl⟩
  · simp only [Der]
    rw [hasDerivAt_pi]
    intro i
    fin_cases i
    simpa using ((hasDerivAt_id' (0:ℝ)).const_mul 4).const_add 2
  · rw [hasDerivAt_pi]
    intro i
    fin_cases i
    simpa [mulVec, dotProduct] using Real.hasDerivAt_sin 0

/-- `C92_com` for a point on a circle of radius one, at the end of a trajectory. -/
example : ∃ w, (comPosition (nv := 1) (nu := 0)).run ⟨0, ⟨0, 0, 0, 0, 0⟩, fresh⟩
      ([.set ![1, 1, 1], .valueT] ++ evaluateT ⟨![1, 0, 0], 0, 0, 0, 0⟩ ⟨![1, 0, 0], !![0; 1; 0], 0, 0, 0⟩) = some w
      ∧ w.d.Right (fun e => ![Real.cos e, Real.sin e, 0] - ![1, 1, 1]) ![1] ![7] 0 := by
  obtain ⟨w, h1, -, h3⟩ := C92_com (nu := 0) (0 : V3) (⟨0, 0, 0, 0, 0⟩ : Mass 1) [.set ![1, 1, 1], .valueT] ⟨![1, 0, 0], 0, 0, 0, 0⟩
    ⟨![1, 0, 0], !![0; 1; 0], 0, 0, 0⟩ _ (.inr rfl)
  refine ⟨w, h1, h3 (fun e => ![Real.cos e, Real.sin e, 0]) _ _ _ ?_⟩
  rw [hasDerivAt_pi]
  intro i
  fin_cases i
  · simpa [mulVec, dotProduct] using Real.hasDerivAt_cos 0
  · simpa [mulVec, dotProduct] using Real.hasDerivAt_sin 0
  · simpa [mulVec, dotProduct] using hasDerivAt_const (0:ℝ) (0:ℝ)

/-- Jump of the centre of mass of a point on a circle of radius one: configuration `q` and joint velocity one-dimensional. -/
noncomputable def circle : Com ℝ 1 where
  vcom q v := v 0 • ![-Real.sin q, Real.cos q, 0]
  dq q v := Matrix.of fun i _ => v 0 * ![-Real.cos q, -Real.sin q, 0] i
  jcom q := Matrix.of fun i _ => ![-Real.sin q, Real.cos q, 0] i

/-- `C92_impulse` for the circle: the joint stops at the impulse. -/
example : ∃ w, (impulseCom circle).run ⟨(), ⟨0, 0, 0, 0, 0⟩, ⟨fresh, 0, 0⟩⟩
      ([.value, .diff] ++ evaluate ⟨0, ![3], ![0], 0, 0⟩ ⟨0, ![3], ![0], 0, 0⟩) = some w ∧ w.d.cell.r = ![0, -3, 0]
      ∧ w.d.cell.Right (fun e => circle.jcom e *ᵥ (![0] - ![3])) ![1] ![0] 0 := by
  obtain ⟨w, h1, h2, h3⟩ := C92_impulse circle ⟨0, 0, 0, 0, 0⟩ ⟨fresh, 0, 0⟩ rfl [.value, .diff] ⟨0, ![3], ![0], 0, 0⟩
    ⟨0, ![3], ![0], 0, 0⟩ _ (.inl rfl) (fun q v => by
      ext i
      fin_cases i <;> simp [circle, mulVec, dotProduct, mul_comm])
  refine ⟨w, h1, ?_, h3 (fun e => e) (fun _ => ![3]) (fun _ => ![0]) ![1] ![0] rfl rfl rfl (fun u => ?_) ?_ ?_⟩
  · rw [h2]
    ext i
    fin_cases i <;> simp [circle, mulVec, dotProduct]
  · rw [hasDerivAt_pi]
    intro i
    fin_cases i
    · have := (Real.hasDerivAt_sin 0).neg.const_mul (u 0)
      simpa [circle, mulVec, dotProduct] using this
    · have := (Real.hasDerivAt_cos 0).const_mul (u 0)
      simpa [circle, mulVec, dotProduct] using this
    · simpa [circle, mulVec, dotProduct] using hasDerivAt_const (0:ℝ) (0:ℝ)
  · exact (hasDerivAt_const (0:ℝ) (![3] : Fin 1 → ℝ)).congr_deriv (by ext i; fin_cases i; rfl)
  · simpa using hasDerivAt_const (0:ℝ) (![0] : Fin 1 → ℝ)

end Verif.Jr
