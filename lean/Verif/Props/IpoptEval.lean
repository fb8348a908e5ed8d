import Verif.Props.Ipopt
import Mathlib.Analysis.Calculus.Deriv.Add
import Mathlib.Analysis.Calculus.Deriv.Mul
import Mathlib.Analysis.Calculus.Deriv.Pow
import Mathlib.Tactic.FinCases
import Mathlib.Tactic.NormNum.Ineq

/-!
# C60, C71: values and derivatives given to Ipopt
-/

set_option linter.unusedSectionVars false
set_option linter.unusedSimpArgs false

namespace Verif.Ipopt

open Spec

variable {K X D : Type*}

theorem pointOf_eq (P : Prob) (L : Layout) (N : Nodes K X D) (hL : Good P L) (xs : ℕ → X) (x : ℕ → K) (t : ℕ)
    (ht : t ≤ P.T) : pointOf N L xs x t = stateAt P N xs x t := by
  unfold pointOf stateAt dxOf
  simp only [hL.1 t ht, Slot.index]

theorem uOf_eq (P : Prob) (L : Layout) (hL : Good P L) (x : ℕ → K) (t : ℕ) (ht : t ≤ P.T) :
    uOf P L x t = ctrlAt P x t := by
  unfold uOf ctrlAt
  simp only [hL.1 t ht, Slot.index]

theorem nextOf_eq (P : Prob) (L : Layout) (N : Nodes K X D) (hL : Good P L) (xs : ℕ → X) (x : ℕ → K) (t : ℕ)
    (ht : t < P.T) : nextOf P N L xs x t = stateAt P N xs x (t + 1) := by
  unfold nextOf stateAt dxnextOf
  simp only [hL.1 t ht.le, Slot.index, start_succ, Nat.add_assoc]

theorem dxOf_eq (P : Prob) (L : Layout) (hL : Good P L) (x : ℕ → K) (t : ℕ) (ht : t ≤ P.T) :
    dxOf L x t = fun j => x ((Slot.state t j).index P) := by
  unfold dxOf
  simp only [hL.1 t ht, Slot.index]

/-- **C60 (objective).** `eval_f` leaves the value passed in plus the total cost of the trajectory that
the variables stand for, whatever the action data held before. Ipopt passes the output variable of the
objective, which `eval_f` does not set to zero: the result is the total cost exactly when the value
passed in is zero. -/
theorem C60_objective_partial [Field K] (P0 : Prob) (Ps : List Prob) (N : Nodes K X D) (ell : ℕ → X → (ℕ → K) → K)
    (hcost : ∀ t d x u, N.cost (N.eval t d x u) = ell t x u) (xs : ℕ → X) (ds : ℕ → D) (x : ℕ → K) (obj : K) :
    let P := (history P0 Ps).1
    let L := (history P0 Ps).2
    (evalF P N L xs ds x obj).2 = obj + objective P N ell xs x
    ∧ ((evalF P N L xs ds x obj).2 = objective P N ell xs x ↔ obj = 0) := by
  intro P L
  have hL : Good P L := history_good P0 Ps
  have h : (evalF P N L xs ds x obj).2 = obj + objective P N ell xs x := by
    have fold : ∀ (n : ℕ) (c : ℕ → K), (List.range n).foldl (fun o t => o + c t) obj = obj + ∑ t ∈ Finset.range n, c t := by
      intro n c
      induction n with
      | zero => simp
      | succ n ih => rw [List.range_succ, List.foldl_append, List.foldl_cons, List.foldl_nil, ih, Finset.sum_range_succ, add_assoc]
    simp only [evalF, objective]
    rw [fold, Finset.sum_range_succ, add_assoc]
    congr 2
    · refine Finset.sum_congr rfl fun t ht => ?_
      have ht' := (Finset.mem_range.1 ht).le
      rw [if_pos ht', hcost, pointOf_eq P L N hL xs x t ht', uOf_eq P L hL x t ht']
    · rw [if_pos le_rfl, hcost, pointOf_eq P L N hL xs x P.T le_rfl, uOf_eq P L hL x P.T le_rfl]
  refine ⟨h, ?_⟩
  rw [h]
  exact add_eq_right

/-! ### Moving one variable -/

theorem state_congr (P : Prob) (N : Nodes K X D)
    (hint : ∀ t x dx dx', (∀ j, j < P.ndx t → dx j = dx' j) → N.integrate t x dx = N.integrate t x dx')
    (xs : ℕ → X) (x : ℕ → K) (s : Slot) (hs : s.Valid P) (t : ℕ) (ht : t ≤ P.T)
    (h : ∀ j, s ≠ .state t j) (r : K) :
    stateAt P N xs (Function.update x (s.index P) r) t = stateAt P N xs x t := by
  refine hint _ _ _ _ fun j hj => Function.update_of_ne ?_ _ _
  intro e
  exact h j (index_inj P hs (show Slot.Valid P (.state t j) from ⟨ht, hj⟩) e.symm)

theorem ctrl_congr (P : Prob) (x : ℕ → K) (s : Slot) (hs : s.Valid P) (t : ℕ)
    (h : ∀ j, s ≠ .ctrl t j) (r : K) (j : ℕ) (ht : t < P.T) (hj : j < P.nu t) :
    ctrlAt P (Function.update x (s.index P) r) t j = ctrlAt P x t j := by
  refine Function.update_of_ne ?_ _ _
  intro e
  exact h j (index_inj P hs (show Slot.Valid P (.ctrl t j) from ⟨ht, hj⟩) e.symm)

theorem state_update (P : Prob) (N : Nodes K X D) (xs : ℕ → X) (x : ℕ → K) (t j : ℕ) (r : K) :
    stateAt P N xs (Function.update x ((Slot.state t j).index P) r) t
      = N.integrate t (xs t) (Function.update (fun k => x ((Slot.state t k).index P)) j r) := by
  unfold stateAt
  congr 1
  funext k
  by_cases hk : k = j
  · subst hk; rw [Function.update_self, Function.update_self]
  · rw [Function.update_of_ne hk, Function.update_of_ne]
    simp only [Slot.index]; omega

theorem ctrl_update (P : Prob) (x : ℕ → K) (t j : ℕ) (r : K) :
    ctrlAt P (Function.update x ((Slot.ctrl t j).index P) r) t = Function.update (ctrlAt P x t) j r := by
  funext k
  unfold ctrlAt
  by_cases hk : k = j
  · subst hk; rw [Function.update_self, Function.update_self]
  · rw [Function.update_of_ne hk, Function.update_of_ne]
    simp only [Slot.index]; omega

/-- **C60 (gradient).** For every variable, the entry that `eval_grad_f` writes at its place is the
partial derivative of the total cost with respect to it, whatever the data and the array held before. -/
theorem C60_gradient (P0 : Prob) (Ps : List Prob) (N : Nodes ℝ X D) (ell : ℕ → X → (ℕ → ℝ) → ℝ)
    (vel : ℕ → (ℝ → X) → ℝ → (ℕ → ℝ) → Prop) (hN : Exact (history P0 Ps).1 vel N ell)
    (xs : ℕ → X) (ds : ℕ → D) (x : ℕ → ℝ) (grad : ℕ → ℝ) (s : Slot) :
    let P := (history P0 Ps).1
    let L := (history P0 Ps).2
    s.Valid P →
    HasDerivAt (fun r => objective P N ell xs (Function.update x (s.index P) r))
      ((evalGrad P N L xs ds x grad).2 (s.index P)) (x (s.index P)) := by
  intro P L hs
  have hL : Good P L := history_good P0 Ps
  obtain ⟨w1, w2, _⟩ := writeNodes_spec P L hL grad
    (fun t j => ∑ i ∈ Finset.range (P.ndx t), N.jint t (xs t) (dxOf L x t) i j
      * N.lx (if t ≤ P.T then N.diff t (N.eval t (ds t) (pointOf N L xs x t) (uOf P L x t)) (pointOf N L xs x t) (uOf P L x t) else ds t) i)
    (fun t j => N.lu (if t ≤ P.T then N.diff t (N.eval t (ds t) (pointOf N L xs x t) (uOf P L x t)) (pointOf N L xs x t) (uOf P L x t) else ds t) j)
  have hnode := (valid_pos P s hs).1
  have main : ∀ (v : ℝ), HasDerivAt (fun r => ell s.node (stateAt P N xs (Function.update x (s.index P) r) s.node)
        (ctrlAt P (Function.update x (s.index P) r) s.node)) v (x (s.index P)) →
      HasDerivAt (fun r => objective P N ell xs (Function.update x (s.index P) r)) v (x (s.index P)) := by
    intro v hv
    have e : v = ∑ t ∈ Finset.range (P.T + 1), if t = s.node then v else 0 := by
      rw [Finset.sum_ite_eq' , if_pos (Finset.mem_range.2 (by omega))]
    rw [e]
    unfold objective
    refine HasDerivAt.fun_sum fun t ht => ?_
    have ht' : t ≤ P.T := by have := Finset.mem_range.1 ht; omega
    by_cases h : t = s.node
    · rw [if_pos h, h]; exact hv
    · rw [if_neg h]
      have hc : (fun r => ell t (stateAt P N xs (Function.update x (s.index P) r) t)
          (ctrlAt P (Function.update x (s.index P) r) t)) = fun _ => ell t (stateAt P N xs x t) (ctrlAt P x t) := by
        funext r
        rw [state_congr P N hN.integrate_congr xs x s hs t ht' (fun j e => h (by rw [e]; rfl))]
        exact hN.ell_congr _ _ _ _ fun j h1 h2 => ctrl_congr P x s hs t (fun j e => h (by rw [e]; rfl)) r j h1 h2
      rw [hc]
      exact hasDerivAt_const _ _
  apply main
  cases s with
  | state t j =>
    have ht : t ≤ P.T := hs.1
    have hj : j < P.ndx t := hs.2
    have hv : (evalGrad P N L xs ds x grad).2 ((Slot.state t j).index P)
        = ∑ i ∈ Finset.range (P.ndx t), N.lx (N.diff t (N.eval t (ds t) (stateAt P N xs x t) (ctrlAt P x t)) (stateAt P N xs x t) (ctrlAt P x t)) i
          * N.jint t (xs t) (fun k => x ((Slot.state t k).index P)) i j := by
      have := w1 t j ht hj
      simp only [evalGrad, Slot.index]
      rw [this, if_pos ht, pointOf_eq P L N hL xs x t ht, uOf_eq P L hL x t ht, dxOf_eq P L hL x t ht]
      exact Finset.sum_congr rfl fun i _ => mul_comm _ _
    rw [hv]
    simp only [Slot.node, state_update]
    have hx : x ((Slot.state t j).index P) = (fun k => x ((Slot.state t k).index P)) j := rfl
    have hc : (fun r => ell t (N.integrate t (xs t) (Function.update (fun k => x ((Slot.state t k).index P)) j r))
        (ctrlAt P (Function.update x ((Slot.state t j).index P) r) t))
        = fun r => ell t (N.integrate t (xs t) (Function.update (fun k => x ((Slot.state t k).index P)) j r)) (ctrlAt P x t) := by
      funext r
      exact hN.ell_congr _ _ _ _ fun k h1 h2 => ctrl_congr P x (.state t j) hs t (fun _ => by simp) r k h1 h2
    rw [hc]
    refine hN.lx t (ds t) (stateAt P N xs x t) (ctrlAt P x t) _ _ _ (hN.jint t (xs t) (fun k => x ((Slot.state t k).index P)) j hj) ?_
    simp only [Function.update_eq_self, stateAt]
  | ctrl t j =>
    have ht : t < P.T := hs.1
    have hj : j < P.nu t := hs.2
    have hv : (evalGrad P N L xs ds x grad).2 ((Slot.ctrl t j).index P)
        = N.lu (N.diff t (N.eval t (ds t) (stateAt P N xs x t) (ctrlAt P x t)) (stateAt P N xs x t) (ctrlAt P x t)) j := by
      have := w2 t j ht hj
      simp only [evalGrad, Slot.index]
      rw [this, if_pos ht.le, pointOf_eq P L N hL xs x t ht.le, uOf_eq P L hL x t ht.le]
    rw [hv]
    simp only [Slot.node, ctrl_update]
    have hc : (fun r => ell t (stateAt P N xs (Function.update x ((Slot.ctrl t j).index P) r) t) (Function.update (ctrlAt P x t) j r))
        = fun r => ell t (stateAt P N xs x t) (Function.update (ctrlAt P x t) j r) := by
      funext r
      rw [state_congr P N hN.integrate_congr xs x (.ctrl t j) hs t ht.le (fun _ => by simp)]
    rw [hc]
    exact hN.lu t (ds t) (stateAt P N xs x t) (ctrlAt P x t) j ht hj

/-! ### Constraints -/

theorem writeRows_spec (P : Prob) (g : ℕ → K) (F : ℕ → ℕ → K) (n : ℕ) :
    let s := (List.range n).foldl (fun (s : ℕ × (ℕ → K)) t => (s.1 + P.ndx t, writeRange s.2 s.1 (P.ndx t) (F t))) (0, g)
    s.1 = rowStart P n ∧ ∀ t r, t < n → r < P.ndx t → s.2 (rowStart P t + r) = F t r := by
  induction n with
  | zero => exact ⟨by simp [rowStart], fun t r h => by omega⟩
  | succ n ih =>
    obtain ⟨h1, h2⟩ := ih
    simp only [List.range_succ, List.foldl_append, List.foldl_cons, List.foldl_nil] at h1 h2 ⊢
    refine ⟨by rw [h1, rowStart_succ], fun t r ht hr => ?_⟩
    rw [h1]
    rcases Nat.lt_succ_iff_lt_or_eq.1 ht with h | h
    · rw [writeRange_out _ _ _ _ _ (Or.inl (off_lt (rowStart_succ P) h hr)), h2 t r h hr]
    · subst h; exact writeRange_in _ _ _ _ _ hr

/-- **C60 (constraints).** `eval_g` writes at the place of every constraint its value: the gap between
the predicted and the actual next state, and between the first and the initial state. -/
theorem C60_constraints (P0 : Prob) (Ps : List Prob) (N : Nodes K X D) (Dy : Dyn K X D) (f : ℕ → X → (ℕ → K) → X)
    (hint : ∀ t x dx dx', (∀ j, j < (history P0 Ps).1.ndx t → dx j = dx' j) → N.integrate t x dx = N.integrate t x dx')
    (hf : ∀ t d x u, Dy.xnext (N.eval t d x u) = f t x u) (xs : ℕ → X) (x0 : X) (ds : ℕ → D) (x g : ℕ → K) (c : Con) :
    let P := (history P0 Ps).1
    let L := (history P0 Ps).2
    c.Valid P → (evalG P N Dy L xs x0 ds x g).2 (c.row P) = constraint P N Dy f xs x0 x c := by
  intro P L hc
  have hL : Good P L := history_good P0 Ps
  obtain ⟨h1, h2⟩ := writeRows_spec P g (fun t => Dy.diff t (Dy.xnext (if t < P.T then
    N.eval t (ds t) (pointOf N L xs x t) (uOf P L x t) else ds t)) (nextOf P N L xs x t)) P.T
  simp only [evalG]
  rw [h1]
  cases c with
  | dyn t r =>
    have ht : t < P.T := hc.1
    have hr : r < P.ndx t := hc.2
    simp only [Con.row, constraint]
    rw [writeRange_out _ _ _ _ _ (Or.inl (off_lt (rowStart_succ P) ht hr)), h2 t r ht hr, if_pos ht, hf,
      pointOf_eq P L N hL xs x t ht.le, uOf_eq P L hL x t ht.le, nextOf_eq P L N hL xs x t ht]
  | init r =>
    simp only [Con.row, constraint]
    rw [writeRange_in _ _ _ _ _ hc]
    unfold stateAt
    simp only [Slot.index, start, Finset.range_zero, Finset.sum_empty, Nat.zero_add]

/-- **C60 (constraint Jacobian, partial).** When the last evaluation was `eval_g` at the same point, the
blocks that `eval_jac_g` computes are the partial derivatives of every constraint with respect to every
variable (the places are those of `C60_jacobian`). Missing, and false: the same after an evaluation at
another point, since `eval_jac_g` does not call `calc` (`C60_stale_counterexample`). -/
theorem C60_constraint_jacobian_partial (P0 : Prob) (Ps : List Prob) (N : Nodes ℝ X D) (Dy : Dyn ℝ X D)
    (ell : ℕ → X → (ℕ → ℝ) → ℝ) (f : ℕ → X → (ℕ → ℝ) → X)
    (vel : ℕ → (ℝ → X) → ℝ → (ℕ → ℝ) → Prop) (hN : Exact (history P0 Ps).1 vel N ell)
    (hD : ExactDyn (history P0 Ps).1 vel N Dy f)
    (xs : ℕ → X) (x0 : X) (ds : ℕ → D) (x g : ℕ → ℝ) (c : Con) (s : Slot) :
    let P := (history P0 Ps).1
    let L := (history P0 Ps).2
    c.Valid P → s.Valid P →
    HasDerivAt (fun r => constraint P N Dy f xs x0 (Function.update x (s.index P) r) c)
      (jac (evalJBlocks P N Dy L xs x0 (evalG P N Dy L xs x0 ds x g).1 x).2 c s) (x (s.index P)) := by
  intro P L hc hs
  have hL : Good P L := history_good P0 Ps
  have hself : ∀ t, t ≤ P.T → N.integrate t (xs t) (fun k => x ((Slot.state t k).index P)) = stateAt P N xs x t := fun t _ => rfl
  cases c with
  | dyn t r =>
    have ht : t < P.T := hc.1
    have hr : r < P.ndx t := hc.2
    -- the data after both calls
    have hd : (evalJBlocks P N Dy L xs x0 (evalG P N Dy L xs x0 ds x g).1 x).1 t
        = N.diff t (N.eval t (ds t) (stateAt P N xs x t) (ctrlAt P x t)) (stateAt P N xs x t) (ctrlAt P x t) := by
      simp only [evalJBlocks, evalG]
      rw [if_pos ht, if_pos ht, pointOf_eq P L N hL xs x t ht.le, uOf_eq P L hL x t ht.le]
    simp only [constraint]
    cases s with
    | state u j =>
      have hu : u ≤ P.T := hs.1
      have hj : j < P.ndx u := hs.2
      have hctrl : ∀ r, f t (stateAt P N xs (Function.update x ((Slot.state u j).index P) r) t)
          (ctrlAt P (Function.update x ((Slot.state u j).index P) r) t)
          = f t (stateAt P N xs (Function.update x ((Slot.state u j).index P) r) t) (ctrlAt P x t) := fun r =>
        hD.f_congr _ _ _ _ fun k h1 h2 => ctrl_congr P x (.state u j) hs t (fun _ => by simp) r k h1 h2
      simp only [hctrl]
      simp only [jac]
      by_cases h1 : u = t
      · subst h1
        rw [if_pos rfl]
        have hnext : ∀ r, stateAt P N xs (Function.update x ((Slot.state u j).index P) r) (u + 1) = stateAt P N xs x (u + 1) :=
          fun r => state_congr P N hN.integrate_congr xs x _ hs (u + 1) ht (fun k e => by injection e; omega) r
        simp only [hnext, state_update]
        have hvel := hN.jint u (xs u) (fun k => x ((Slot.state u k).index P)) j hj
        have hvel2 := hD.fx u (ds u) (stateAt P N xs x u) (ctrlAt P x u) _ _ _ hvel
          (by simp only [Function.update_eq_self]; rfl)
        have := hD.jdiff1 u _ _ _ (stateAt P N xs x (u + 1)) r hvel2
        simp only [Function.update_eq_self] at this
        convert this using 1
        simp only [evalJBlocks] at hd ⊢
        rw [hd, hD.xnext_diff, hD.xnext, nextOf_eq P L N hL xs x u ht, dxOf_eq P L hL x u ht.le]
        rfl
      · rw [if_neg h1]
        have hstay : ∀ r, stateAt P N xs (Function.update x ((Slot.state u j).index P) r) t = stateAt P N xs x t :=
          fun r => state_congr P N hN.integrate_congr xs x _ hs t ht.le (fun k e => by injection e; omega) r
        simp only [hstay]
        by_cases h2 : u = t + 1
        · subst h2
          rw [if_pos rfl]
          simp only [state_update]
          have hvel := hN.jint (t + 1) (xs (t + 1)) (fun k => x ((Slot.state (t + 1) k).index P)) j hj
          have := hD.jdiff2 t _ _ _ (f t (stateAt P N xs x t) (ctrlAt P x t)) r hvel
          simp only [Function.update_eq_self] at this
          convert this using 1
          simp only [evalJBlocks] at hd ⊢
          rw [hd, hD.xnext_diff, hD.xnext, nextOf_eq P L N hL xs x t ht]
          have e : dxnextOf P L x t = fun k => x ((Slot.state (t + 1) k).index P) := by
            unfold dxnextOf
            simp only [hL.1 t ht.le, Slot.index, start_succ, Nat.add_assoc]
          rw [e]
          rfl
        · rw [if_neg h2]
          have hnext : ∀ r, stateAt P N xs (Function.update x ((Slot.state u j).index P) r) (t + 1) = stateAt P N xs x (t + 1) :=
            fun r => state_congr P N hN.integrate_congr xs x _ hs (t + 1) ht (fun k e => by injection e; omega) r
          simp only [hnext]
          exact hasDerivAt_const _ _
    | ctrl u j =>
      have hu : u < P.T := hs.1
      have hj : j < P.nu u := hs.2
      have hst : ∀ q r, q ≤ P.T → stateAt P N xs (Function.update x ((Slot.ctrl u j).index P) r) q = stateAt P N xs x q :=
        fun q r hq => state_congr P N hN.integrate_congr xs x _ hs q hq (fun k e => by cases e) r
      simp only [hst t _ ht.le, hst (t + 1) _ ht]
      simp only [jac]
      by_cases h1 : u = t
      · subst h1
        rw [if_pos rfl]
        simp only [ctrl_update]
        have hvel := hD.fu u (ds u) (stateAt P N xs x u) (ctrlAt P x u) j hu hj
        have := hD.jdiff1 u _ _ _ (stateAt P N xs x (u + 1)) r hvel
        simp only [Function.update_eq_self] at this
        convert this using 1
        simp only [evalJBlocks] at hd ⊢
        rw [hd, hD.xnext_diff, hD.xnext, nextOf_eq P L N hL xs x u ht]
        rfl
      · rw [if_neg h1]
        have hc' : ∀ r, f t (stateAt P N xs x t) (ctrlAt P (Function.update x ((Slot.ctrl u j).index P) r) t)
            = f t (stateAt P N xs x t) (ctrlAt P x t) := fun r =>
          hD.f_congr _ _ _ _ fun k h3 h4 => ctrl_congr P x (.ctrl u j) hs t (fun k e => by injection e; omega) r k h3 h4
        simp only [hc']
        exact hasDerivAt_const _ _
  | init r =>
    have hr : r < P.ndx 0 := hc
    simp only [constraint]
    cases s with
    | state u j =>
      have hu : u ≤ P.T := hs.1
      have hj : j < P.ndx u := hs.2
      simp only [jac]
      by_cases h1 : u = 0
      · subst h1
        rw [if_pos rfl]
        simp only [state_update]
        have hvel := hN.jint 0 (xs 0) (fun k => x ((Slot.state 0 k).index P)) j hj
        have := hD.jdiff1 0 _ _ _ x0 r hvel
        simp only [Function.update_eq_self] at this
        convert this using 1
        simp only [evalJBlocks]
        have e : (fun k => x ((Slot.state 0 k).index P)) = x := by
          funext k
          simp only [Slot.index, start, Finset.range_zero, Finset.sum_empty, Nat.zero_add]
        rw [e]
      · rw [if_neg h1]
        have hst : ∀ r, stateAt P N xs (Function.update x ((Slot.state u j).index P) r) 0 = stateAt P N xs x 0 :=
          fun r => state_congr P N hN.integrate_congr xs x _ hs 0 (Nat.zero_le _) (fun k e => by injection e; omega) r
        simp only [hst]
        exact hasDerivAt_const _ _
    | ctrl u j =>
      simp only [jac]
      have hst : ∀ r, stateAt P N xs (Function.update x ((Slot.ctrl u j).index P) r) 0 = stateAt P N xs x 0 :=
        fun r => state_congr P N hN.integrate_congr xs x _ hs 0 (Nat.zero_le _) (fun k e => by cases e) r
      simp only [hst]
      exact hasDerivAt_const _ _

/-! ### Hessian -/

/-- **C60 (Hessian blocks, partial).** When the last evaluation was `eval_f` at the same point and the
Jacobian of the state integration does not depend on the increment (vector states), the blocks that
`eval_h` computes are the partial derivatives of the gradient entries that `eval_grad_f` writes, which
are the partial derivatives of the total cost (`C60_gradient`). Missing: states with a nonlinear
integration, where the code drops the derivative of `Jintegrate`, and, false, other histories of
evaluations (`C60_stale_counterexample`). -/
theorem C60_hessian_blocks_partial (P0 : Prob) (Ps : List Prob) (N : Nodes ℝ X D) (ell : ℕ → X → (ℕ → ℝ) → ℝ)
    (vel : ℕ → (ℝ → X) → ℝ → (ℕ → ℝ) → Prop) (hN : Exact (history P0 Ps).1 vel N ell)
    (h2 : Exact2 (history P0 Ps).1 vel N) (hflat : ∀ t x dx dx', N.jint t x dx = N.jint t x dx')
    (xs : ℕ → X) (ds : ℕ → D) (x grad : ℕ → ℝ) (obj : ℝ) (s s' : Slot) :
    let P := (history P0 Ps).1
    let L := (history P0 Ps).2
    s.Valid P → s'.Valid P →
    HasDerivAt (fun r => (evalGrad P N L xs ds (Function.update x (s'.index P) r) grad).2 (s.index P))
      (hess (evalHBlocks P N L xs (evalF P N L xs ds x obj).1 x).2 s s') (x (s'.index P)) := by
  intro P L hs hs'
  have hL : Good P L := history_good P0 Ps
  have hstate : ∀ (y : ℕ → ℝ) (t j : ℕ), t ≤ P.T → j < P.ndx t →
      (evalGrad P N L xs ds y grad).2 ((Slot.state t j).index P)
        = ∑ i ∈ Finset.range (P.ndx t), N.jint t (xs t) (dxOf L x t) i j
          * N.lx (N.diff t (N.eval t (ds t) (stateAt P N xs y t) (ctrlAt P y t)) (stateAt P N xs y t) (ctrlAt P y t)) i := by
    intro y t j ht hj
    have := (writeNodes_spec P L hL grad
      (fun t j => ∑ i ∈ Finset.range (P.ndx t), N.jint t (xs t) (dxOf L y t) i j
        * N.lx (if t ≤ P.T then N.diff t (N.eval t (ds t) (pointOf N L xs y t) (uOf P L y t)) (pointOf N L xs y t) (uOf P L y t) else ds t) i)
      (fun t j => N.lu (if t ≤ P.T then N.diff t (N.eval t (ds t) (pointOf N L xs y t) (uOf P L y t)) (pointOf N L xs y t) (uOf P L y t) else ds t) j)).1 t j ht hj
    simp only [evalGrad, Slot.index]
    rw [this, if_pos ht, pointOf_eq P L N hL xs y t ht, uOf_eq P L hL y t ht, hflat t (xs t) (dxOf L y t) (dxOf L x t)]
  have hctrl : ∀ (y : ℕ → ℝ) (t j : ℕ), t < P.T → j < P.nu t →
      (evalGrad P N L xs ds y grad).2 ((Slot.ctrl t j).index P)
        = N.lu (N.diff t (N.eval t (ds t) (stateAt P N xs y t) (ctrlAt P y t)) (stateAt P N xs y t) (ctrlAt P y t)) j := by
    intro y t j ht hj
    have := (writeNodes_spec P L hL grad
      (fun t j => ∑ i ∈ Finset.range (P.ndx t), N.jint t (xs t) (dxOf L y t) i j
        * N.lx (if t ≤ P.T then N.diff t (N.eval t (ds t) (pointOf N L xs y t) (uOf P L y t)) (pointOf N L xs y t) (uOf P L y t) else ds t) i)
      (fun t j => N.lu (if t ≤ P.T then N.diff t (N.eval t (ds t) (pointOf N L xs y t) (uOf P L y t)) (pointOf N L xs y t) (uOf P L y t) else ds t) j)).2.1 t j ht hj
    simp only [evalGrad, Slot.index]
    rw [this, if_pos ht.le, pointOf_eq P L N hL xs y t ht.le, uOf_eq P L hL y t ht.le]
  -- the data of `eval_h`
  have hdata : ∀ t, t ≤ P.T → ∃ d, (evalHBlocks P N L xs (evalF P N L xs ds x obj).1 x).1 t
      = N.diff t (N.eval t d (stateAt P N xs x t) (ctrlAt P x t)) (stateAt P N xs x t) (ctrlAt P x t) := by
    intro t ht
    simp only [evalHBlocks, evalF]
    rcases Nat.lt_or_eq_of_le ht with h | h
    · refine ⟨ds t, ?_⟩
      rw [if_pos h, if_pos ht, pointOf_eq P L N hL xs x t ht, uOf_eq P L hL x t ht]
    · refine ⟨N.eval t (ds t) (pointOf N L xs x t) (uOf P L x t), ?_⟩
      rw [if_neg (by omega), if_pos h, if_pos ht, pointOf_eq P L N hL xs x t ht, uOf_eq P L hL x t ht]
  -- the control of a node seen by the derivatives
  have hcongr : ∀ (t : ℕ) (z : X) (u u' : ℕ → ℝ), (∀ j, t < P.T → j < P.nu t → u j = u' j) →
      (∀ i, N.lx (N.diff t (N.eval t (ds t) z u) z u) i = N.lx (N.diff t (N.eval t (ds t) z u') z u') i)
      ∧ ∀ i, N.lu (N.diff t (N.eval t (ds t) z u) z u) i = N.lu (N.diff t (N.eval t (ds t) z u') z u') i :=
    fun t z u u' h => ⟨fun i => h2.lx_congr t (ds t) z u u' i h, fun i => h2.lu_congr t (ds t) z u u' i h⟩
  cases s with
  | state t i =>
    have ht : t ≤ P.T := hs.1
    have hi : i < P.ndx t := hs.2
    obtain ⟨d, hd⟩ := hdata t ht
    simp only [hstate _ t i ht hi]
    cases s' with
    | state t' j =>
      have hj : j < P.ndx t' := hs'.2
      simp only [hess]
      by_cases h : t' = t
      · subst h
        rw [if_pos rfl]
        simp only [fun r => fun k => (hcongr t' (stateAt P N xs (Function.update x ((Slot.state t' j).index P) r) t') _ _
          (fun q h3 h4 => ctrl_congr P x (.state t' j) hs' t' (fun _ => by simp) r q h3 h4)).1 k]
        have hv := hN.jint t' (xs t') (fun k => x ((Slot.state t' k).index P)) j hj
        have := HasDerivAt.fun_sum (u := Finset.range (P.ndx t')) (fun k _ =>
          (h2.lxx t' (ds t') d (stateAt P N xs x t') (ctrlAt P x t') k _ _ _ hv (by simp only [Function.update_eq_self]; rfl)).const_mul
            (N.jint t' (xs t') (dxOf L x t') k i))
        simp only [state_update]
        refine HasDerivAt.congr_deriv this ?_
        simp only [evalHBlocks] at hd ⊢
        rw [hd, dxOf_eq P L hL x t' ht]
        refine Finset.sum_congr rfl fun k _ => ?_
        symm
        rw [Finset.mul_sum]
        exact Finset.sum_congr rfl fun _ _ => by ring
      · rw [if_neg h]
        simp only [state_congr P N hN.integrate_congr xs x _ hs' t ht (fun k e => h (by injection e))]
        simp only [fun r => fun k => (hcongr t (stateAt P N xs x t) _ _
          (fun q h3 h4 => ctrl_congr P x (.state t' j) hs' t (fun _ => by simp) r q h3 h4)).1 k]
        exact hasDerivAt_const _ _
    | ctrl t' j =>
      have ht' : t' < P.T := hs'.1
      have hj : j < P.nu t' := hs'.2
      simp only [hess]
      simp only [state_congr P N hN.integrate_congr xs x (.ctrl t' j) hs' t ht (fun k e => by cases e)]
      by_cases h : t' = t
      · subst h
        rw [if_pos rfl]
        simp only [ctrl_update]
        have := HasDerivAt.fun_sum (u := Finset.range (P.ndx t')) (fun k _ =>
          (h2.lxu t' (ds t') d (stateAt P N xs x t') (ctrlAt P x t') k j ht' hj).const_mul (N.jint t' (xs t') (dxOf L x t') k i))
        refine HasDerivAt.congr_deriv this ?_
        simp only [evalHBlocks] at hd ⊢
        rw [hd]
      · rw [if_neg h]
        simp only [fun r => fun k => (hcongr t (stateAt P N xs x t) _ _
          (fun q h3 h4 => ctrl_congr P x (.ctrl t' j) hs' t (fun k e => h (by injection e)) r q h3 h4)).1 k]
        exact hasDerivAt_const _ _
  | ctrl t i =>
    have ht : t < P.T := hs.1
    have hi : i < P.nu t := hs.2
    obtain ⟨d, hd⟩ := hdata t ht.le
    simp only [hctrl _ t i ht hi]
    cases s' with
    | state t' j =>
      have hj : j < P.ndx t' := hs'.2
      simp only [hess]
      by_cases h : t' = t
      · subst h
        rw [if_pos rfl]
        simp only [fun r => fun k => (hcongr t' (stateAt P N xs (Function.update x ((Slot.state t' j).index P) r) t') _ _
          (fun q h3 h4 => ctrl_congr P x (.state t' j) hs' t' (fun _ => by simp) r q h3 h4)).2 k]
        have hv := hN.jint t' (xs t') (fun k => x ((Slot.state t' k).index P)) j hj
        have := h2.lux t' (ds t') d (stateAt P N xs x t') (ctrlAt P x t') i _ _ _ ht hi hv (by simp only [Function.update_eq_self]; rfl)
        simp only [state_update]
        refine HasDerivAt.congr_deriv this ?_
        simp only [evalHBlocks] at hd ⊢
        rw [hd, dxOf_eq P L hL x t' ht.le]
        symm
        exact Finset.sum_congr rfl fun k _ => mul_comm _ _
      · rw [if_neg h]
        simp only [state_congr P N hN.integrate_congr xs x _ hs' t ht.le (fun k e => h (by injection e))]
        simp only [fun r => fun k => (hcongr t (stateAt P N xs x t) _ _
          (fun q h3 h4 => ctrl_congr P x (.state t' j) hs' t (fun _ => by simp) r q h3 h4)).2 k]
        exact hasDerivAt_const _ _
    | ctrl t' j =>
      have hj : j < P.nu t' := hs'.2
      simp only [hess]
      simp only [state_congr P N hN.integrate_congr xs x (.ctrl t' j) hs' t ht.le (fun k e => by cases e)]
      by_cases h : t' = t
      · subst h
        rw [if_pos rfl]
        simp only [ctrl_update]
        have := h2.luu t' (ds t') d (stateAt P N xs x t') (ctrlAt P x t') i j ht hi hj
        refine HasDerivAt.congr_deriv this ?_
        simp only [evalHBlocks] at hd ⊢
        rw [hd]
      · rw [if_neg h]
        simp only [fun r => fun k => (hcongr t (stateAt P N xs x t) _ _
          (fun q h3 h4 => ctrl_congr P x (.ctrl t' j) hs' t (fun k e => h (by injection e)) r q h3 h4)).2 k]
        exact hasDerivAt_const _ _

/-- **C60: the terminal Hessian is not multiplied by the objective factor.** -/
theorem C60_factor_counterexample [Field K] (P0 : Prob) (Ps : List Prob) (H : HessBlocks K) (f : K) :
    let P := (history P0 Ps).1
    let L := (history P0 Ps).2
    0 < P.ndx P.T → f ≠ 1 → H.dxdx P.T 0 0 ≠ 0 →
    dense (hessStruct P L.ixu) (hessVals P H f) ((Slot.state P.T 0).index P) ((Slot.state P.T 0).index P)
      ≠ f * hess H (.state P.T 0) (.state P.T 0) := by
  intro P L h0 hf hH
  rw [C60_hessian_partial P0 Ps H f (.state P.T 0) (.state P.T 0) ⟨le_rfl, h0⟩ ⟨le_rfl, h0⟩, if_pos le_rfl,
    if_neg (show ¬ (Slot.node (.state P.T 0)) < P.T by simp [Slot.node])]
  simp only [hess, if_true]
  intro e
  apply hf
  have : (f - 1) * H.dxdx P.T 0 0 = 0 := by rw [sub_mul, one_mul, ← e, sub_self]
  rcases mul_eq_zero.1 this with h | h
  · exact sub_eq_zero.1 h
  · exact absurd h hH

/-! ### C71: starting point, solution and bounds -/

/-- **C71 (warm start).** The variables of the starting point stand for the candidate trajectory: their
states are the candidate states and their controls the candidate controls, and the solution read back
from any final variables is the trajectory they stand for. -/
theorem C71_warm_start [Zero K] (P0 : Prob) (Ps : List Prob) (N : Nodes K X D)
    (hint : ∀ t x dx, (∀ j, j < (history P0 Ps).1.ndx t → dx j = 0) → N.integrate t x dx = x)
    (xs : ℕ → X) (us : ℕ → ℕ → K) (x y : ℕ → K) (t : ℕ) :
    let P := (history P0 Ps).1
    let L := (history P0 Ps).2
    (t ≤ P.T → stateAt P N xs (startingPoint P L us x) t = xs t)
    ∧ (∀ j, t < P.T → j < P.nu t → ctrlAt P (startingPoint P L us x) t j = us t j)
    ∧ (t ≤ P.T → (finalize P N L xs us y).1 t = stateAt P N xs y t)
    ∧ (t < P.T → (finalize P N L xs us y).2 t = ctrlAt P y t) := by
  intro P L
  have hL : Good P L := history_good P0 Ps
  obtain ⟨w1, w2, _⟩ := writeNodes_spec P L hL x (fun _ _ => (0 : K)) us
  refine ⟨fun ht => ?_, fun j ht hj => ?_, fun ht => ?_, fun ht => ?_⟩
  · exact hint _ _ _ fun j hj => w1 t j ht hj
  · exact w2 t j ht hj
  · simp only [finalize]
    rw [if_pos ht, pointOf_eq P L N hL xs y t ht]
  · simp only [finalize]
    rw [if_pos ht, uOf_eq P L hL y t ht.le]

/-- **C71 (bounds).** The bounds given to Ipopt for a component of a control are the control limits of
its node when it has limits and the extreme numbers otherwise; the state increments are unbounded. -/
theorem C71_bounds (P0 : Prob) (Ps : List Prob) (lim : ℕ → Limits K) (lo hi : K) (xl xu : ℕ → K) :
    let P := (history P0 Ps).1
    let L := (history P0 Ps).2
    let b := boundsInfo P L lim lo hi xl xu
    (∀ t j, t ≤ P.T → j < P.ndx t →
      b.1 ((Slot.state t j).index P) = lo ∧ b.2 ((Slot.state t j).index P) = hi)
    ∧ ∀ t j, t < P.T → j < P.nu t →
      ((lim t).has = true → b.1 ((Slot.ctrl t j).index P) = (lim t).lb j ∧ b.2 ((Slot.ctrl t j).index P) = (lim t).ub j)
      ∧ ((lim t).has = false → b.1 ((Slot.ctrl t j).index P) = lo ∧ b.2 ((Slot.ctrl t j).index P) = hi) := by
  intro P L b
  have hL : Good P L := history_good P0 Ps
  obtain ⟨w1, w2, _⟩ := writeNodes_spec P L hL xl (fun _ _ => lo) (fun t j => if (lim t).has then (lim t).lb j else lo)
  obtain ⟨w3, w4, _⟩ := writeNodes_spec P L hL xu (fun _ _ => hi) (fun t j => if (lim t).has then (lim t).ub j else hi)
  refine ⟨fun t j ht hj => ⟨w1 t j ht hj, w3 t j ht hj⟩, fun t j ht hj => ⟨fun h => ⟨?_, ?_⟩, fun h => ⟨?_, ?_⟩⟩⟩
  · exact (w2 t j ht hj).trans (if_pos h)
  · exact (w4 t j ht hj).trans (if_pos h)
  · exact (w2 t j ht hj).trans (if_neg (by simp [h]))
  · exact (w4 t j ht hj).trans (if_neg (by simp [h]))

/-! ### A concrete problem -/

/-- One running node and a terminal node over the real line. -/
def exProb : Prob := ⟨1, fun _ => 1, fun _ => 1⟩

/-- Action data of the node below; `sq` is kept by `calc` for `calcDiff`. -/
structure ExData where
  sq : ℝ
  cost : ℝ
  xnext : ℝ
  lx : ℝ
  lu : ℝ
  lxx : ℝ
  luu : ℝ
  fx : ℝ
  fu : ℝ

/-- Cost `x⁴ + u²` (no control at the terminal node) and dynamics `x³ + u`; `calcDiff` uses the square
that `calc` kept. -/
noncomputable def exNodes : Nodes ℝ ℝ ExData where
  integrate _ x dx := x + dx 0
  jint _ _ _ _ _ := 1
  eval t d x u := { d with sq := x ^ 2, cost := (x ^ 2) ^ 2 + (if t = 0 then u 0 ^ 2 else 0),
                           xnext := x ^ 2 * x + (if t = 0 then u 0 else 0) }
  diff t d x u := { d with lx := 4 * d.sq * x, lu := if t = 0 then 2 * u 0 else 0, lxx := 12 * d.sq, luu := 2, fx := 3 * d.sq, fu := 1 }
  cost d := d.cost
  lx d _ := d.lx
  lu d _ := d.lu
  lxx d _ _ := d.lxx
  lxu _ _ _ := 0
  luu d _ _ := d.luu

noncomputable def exDyn : Dyn ℝ ℝ ExData where
  xnext d := d.xnext
  fx d _ _ := d.fx
  fu d _ _ := d.fu
  diff _ a b _ := b - a
  jdiff1 _ _ _ _ _ := -1
  jdiff2 _ _ _ _ _ := 1

def exVel : ℕ → (ℝ → ℝ) → ℝ → (ℕ → ℝ) → Prop := fun _ γ s w => HasDerivAt γ (w 0) s

theorem hda {f g : ℝ → ℝ} {a b s : ℝ} (h : HasDerivAt f a s) (e : ∀ r, g r = f r) (e' : b = a) : HasDerivAt g b s := by
  rw [e', show g = f from funext e]
  exact h

theorem ex_exact : Exact exProb exVel exNodes (fun t x u => (x ^ 2) ^ 2 + (if t = 0 then u 0 ^ 2 else 0)) where
  cost _ _ _ _ := rfl
  lx t d x u γ s w hv hx := by
    have h : HasDerivAt γ (w 0) s := hv
    refine hda (((h.pow 2).pow 2).add_const (if t = 0 then u 0 ^ 2 else 0)) (fun r => rfl) ?_
    simp only [exProb, exNodes, Finset.range_one, Finset.sum_singleton, ← hx, Pi.pow_apply]
    norm_num
    ring
  lu t d x u j ht hj := by
    have ht0 : t = 0 := by simp only [exProb] at ht; omega
    have hj0 : j = 0 := by simp only [exProb] at hj; omega
    subst ht0 hj0
    exact hda (((hasDerivAt_id (u 0)).pow 2).const_add ((x ^ 2) ^ 2)) (fun r => by simp) (by simp [exNodes])
  jint t x dx j hj := by
    have hj0 : j = 0 := by simp only [exProb] at hj; omega
    subst hj0
    exact hda ((hasDerivAt_id (dx 0)).const_add x) (fun r => by simp [exNodes]) (by simp [exNodes])
  integrate_congr t x dx dx' h := by
    simp only [exNodes, h 0 (by simp [exProb])]
  ell_congr t x u u' h := by
    by_cases ht : t = 0
    · simp only [if_pos ht, h 0 (by simp [exProb, ht]) (by simp [exProb])]
    · simp only [if_neg ht]

theorem ex_exactDyn : ExactDyn exProb exVel exNodes exDyn (fun t x u => x ^ 2 * x + (if t = 0 then u 0 else 0)) where
  xnext _ _ _ _ := rfl
  xnext_diff _ _ _ _ := rfl
  fx t d x u γ s w hv hx := by
    have h : HasDerivAt γ (w 0) s := hv
    refine hda (((h.pow 2).mul h).add_const (if t = 0 then u 0 else 0)) (fun r => rfl) ?_
    simp only [exProb, exNodes, exDyn, Finset.range_one, Finset.sum_singleton, ← hx, Pi.pow_apply]
    norm_num
    ring
  fu t d x u j ht hj := by
    have ht0 : t = 0 := by simp only [exProb] at ht; omega
    have hj0 : j = 0 := by simp only [exProb] at hj; omega
    subst ht0 hj0
    exact hda ((hasDerivAt_id (u 0)).const_add (x ^ 2 * x)) (fun r => by simp) rfl
  jdiff1 t γ s w b i hv := by
    have h : HasDerivAt γ (w 0) s := hv
    exact hda (h.const_sub b) (fun r => rfl) (by simp [exProb, exDyn])
  jdiff2 t γ s w a i hv := by
    have h : HasDerivAt γ (w 0) s := hv
    exact hda (h.sub_const a) (fun r => rfl) (by simp [exProb, exDyn])
  f_congr t x u u' h := by
    by_cases ht : t = 0
    · simp only [if_pos ht, h 0 (by simp [exProb, ht]) (by simp [exProb])]
    · simp only [if_neg ht]

theorem ex_exact2 : Exact2 exProb exVel exNodes where
  lx_congr _ _ _ _ _ _ _ := rfl
  lu_congr t d x u u' i h := by
    by_cases ht : t = 0
    · simp only [exNodes, h 0 (by simp [exProb, ht]) (by simp [exProb])]
    · simp only [exNodes, if_neg ht]
  lxx t d d' x u i γ s w hv hx := by
    have h : HasDerivAt γ (w 0) s := hv
    refine hda ((((h.pow 2).const_mul 4).mul h)) (fun r => rfl) ?_
    simp only [exProb, exNodes, Finset.range_one, Finset.sum_singleton, ← hx, Pi.pow_apply]
    norm_num
    ring
  lxu t d d' x u i j ht hj := hda (hasDerivAt_const (u j) (4 * x ^ 2 * x)) (fun r => by simp [exNodes]) (by simp [exNodes])
  lux t d d' x u j γ s w ht hj hv hx := by
    have ht0 : t = 0 := by simp only [exProb] at ht; omega
    subst ht0
    exact hda (hasDerivAt_const s (2 * u 0)) (fun r => by simp [exNodes]) (by simp [exNodes])
  luu t d d' x u i j ht hi hj := by
    have ht0 : t = 0 := by simp only [exProb] at ht; omega
    have hj0 : j = 0 := by simp only [exProb] at hj; omega
    subst ht0 hj0
    exact hda ((hasDerivAt_id (u 0)).const_mul 2) (fun r => by simp [exNodes]) (by simp [exNodes])

/-- The history of a concrete interface that was resized. -/
example : (history exProb [exProb, exProb]).1 = exProb ∧ (history exProb [exProb, exProb]).2.nvar = 3
    ∧ (Slot.ctrl 0 0).Valid exProb ∧ (Slot.ctrl 0 0).index exProb = 1 := by
  refine ⟨rfl, rfl, ⟨by simp [exProb], by simp [exProb]⟩, rfl⟩

/-- The hypotheses of `C60_gradient` hold for the concrete node. -/
example (x grad : ℕ → ℝ) (ds : ℕ → ExData) (xs : ℕ → ℝ) :
    HasDerivAt (fun r => objective exProb exNodes (fun t x u => (x ^ 2) ^ 2 + (if t = 0 then u 0 ^ 2 else 0)) xs
        (Function.update x 2 r))
      ((evalGrad exProb exNodes (make exProb) xs ds x grad).2 2) (x 2) :=
  C60_gradient exProb [] exNodes _ exVel ex_exact xs ds x grad (.state 1 0) ⟨by simp [history, exProb], by simp [history, exProb]⟩

/-- The hypotheses of `C60_constraint_jacobian_partial` hold for the concrete node. -/
example (x g : ℕ → ℝ) (ds : ℕ → ExData) (xs : ℕ → ℝ) (x0 : ℝ) :
    HasDerivAt (fun r => constraint exProb exNodes exDyn (fun t x u => x ^ 2 * x + (if t = 0 then u 0 else 0)) xs x0
        (Function.update x 0 r) (.dyn 0 0))
      (jac (evalJBlocks exProb exNodes exDyn (make exProb) xs x0 (evalG exProb exNodes exDyn (make exProb) xs x0 ds x g).1 x).2
        (.dyn 0 0) (.state 0 0)) (x 0) :=
  C60_constraint_jacobian_partial exProb [] exNodes exDyn _ _ exVel ex_exact ex_exactDyn xs x0 ds x g (.dyn 0 0) (.state 0 0)
    ⟨by simp [history, exProb], by simp [history, exProb]⟩ ⟨by simp [history, exProb], by simp [history, exProb]⟩

/-- **C60: stale data.** After `eval_g` at `x = 0`, `eval_jac_g` at `x = 1` gives a constraint
derivative, and after `eval_f` at `x = 0`, `eval_h` at `x = 1` gives a second derivative, that are not
the derivatives at `x = 1`. -/
theorem C60_stale_counterexample :
    ∃ (x y : ℕ → ℝ) (xs : ℕ → ℝ) (ds : ℕ → ExData),
      ¬ HasDerivAt (fun r => constraint exProb exNodes exDyn (fun t x u => x ^ 2 * x + (if t = 0 then u 0 else 0)) xs 0
          (Function.update x ((Slot.state 0 0).index exProb) r) (.dyn 0 0))
        (jac (evalJBlocks exProb exNodes exDyn (make exProb) xs 0 (evalG exProb exNodes exDyn (make exProb) xs 0 ds y y).1 x).2
          (.dyn 0 0) (.state 0 0)) (x ((Slot.state 0 0).index exProb))
      ∧ ¬ HasDerivAt (fun r => (evalGrad exProb exNodes (make exProb) xs ds (Function.update x ((Slot.state 0 0).index exProb) r) y).2
            ((Slot.state 0 0).index exProb))
        (hess (evalHBlocks exProb exNodes (make exProb) xs (evalF exProb exNodes (make exProb) xs ds y 0).1 x).2
          (.state 0 0) (.state 0 0)) (x ((Slot.state 0 0).index exProb)) := by
  refine ⟨fun _ => 1, fun _ => 0, fun _ => 0, fun _ => ⟨0, 0, 0, 0, 0, 0, 0, 0, 0⟩, fun h => ?_, fun h => ?_⟩
  · have h' := C60_constraint_jacobian_partial exProb [] exNodes exDyn _ _ exVel ex_exact ex_exactDyn (fun _ => 0) 0
      (fun _ => ⟨0, 0, 0, 0, 0, 0, 0, 0, 0⟩) (fun _ => 1) (fun _ => 0) (.dyn 0 0) (.state 0 0)
      ⟨by simp [history, exProb], by simp [history, exProb]⟩ ⟨by simp [history, exProb], by simp [history, exProb]⟩
    have e := h.unique h'
    simp [jac, evalJBlocks, evalG, exNodes, exDyn, exProb, history, pointOf, dxOf] at e
  · have h' := C60_hessian_blocks_partial exProb [] exNodes _ exVel ex_exact ex_exact2 (fun _ _ _ _ => rfl) (fun _ => 0)
      (fun _ => ⟨0, 0, 0, 0, 0, 0, 0, 0, 0⟩) (fun _ => 1) (fun _ => 0) 0 (.state 0 0) (.state 0 0)
      ⟨by simp [history, exProb], by simp [history, exProb]⟩ ⟨by simp [history, exProb], by simp [history, exProb]⟩
    have e := h.unique h'
    simp [hess, evalHBlocks, evalF, exNodes, exProb, history, pointOf, dxOf] at e

/-- The hypotheses of `C71_warm_start` hold for the concrete node. -/
example (xs : ℕ → ℝ) (us : ℕ → ℕ → ℝ) (x : ℕ → ℝ) :
    stateAt exProb exNodes xs (startingPoint exProb (make exProb) us x) 1 = xs 1 :=
  (C71_warm_start exProb [] exNodes (fun t x dx h => by simp [exNodes, h 0 (by simp [history, exProb])]) xs us x x 1).1
    (by simp [history, exProb])

end Verif.Ipopt
