import Verif.Model.IpoptPlay
import Verif.Props.IpoptSolve

set_option linter.unusedSectionVars false

/-! # C126 for SolverIpopt: earlier solves and the data of the problem do not matter -/

namespace Verif.Ipopt
open Spec

variable {K X D : Type*}

/-- The calls that run `calc` at the nodes. -/
def Call.calcs : Call K → Prop
  | .evalF _ _ | .evalGrad _ _ | .evalG _ _ => True
  | _ => False

/-- The calls that run `calcDiff` on what `calc` left in the data. -/
def Call.reuses : Call K → Prop
  | .evalJac _ | .evalH _ => True
  | _ => False

/-- The answers to calls that ran `calc` at the nodes. -/
def Ans.ofCalc : Ans K → Prop
  | .obj _ | .grad _ | .con _ => True
  | _ => False

/-- Action models without memory. `R t d d'` says that `calc` left the same in the data `d` and `d'` of node `t`: it holds after
`calc` at the same point whatever the data held, `calcDiff` keeps it, and then the cost, the next state and, after `calcDiff`, the
derivatives are the same. -/
structure Memoryless (N : Nodes K X D) (Dy : Dyn K X D) (R : ℕ → D → D → Prop) : Prop where
  eval : ∀ t d d' x u, R t (N.eval t d x u) (N.eval t d' x u)
  diff : ∀ t d d' x u, R t d d' → R t (N.diff t d x u) (N.diff t d' x u)
  cost : ∀ t d d', R t d d' → N.cost d = N.cost d'
  xnext : ∀ t d d', R t d d' → Dy.xnext d = Dy.xnext d'
  lx : ∀ t d d' x u, R t d d' → N.lx (N.diff t d x u) = N.lx (N.diff t d' x u)
  lu : ∀ t d d' x u, R t d d' → N.lu (N.diff t d x u) = N.lu (N.diff t d' x u)
  lxx : ∀ t d d' x u, R t d d' → N.lxx (N.diff t d x u) = N.lxx (N.diff t d' x u)
  lxu : ∀ t d d' x u, R t d d' → N.lxu (N.diff t d x u) = N.lxu (N.diff t d' x u)
  luu : ∀ t d d' x u, R t d d' → N.luu (N.diff t d x u) = N.luu (N.diff t d' x u)
  fx : ∀ t d d' x u, R t d d' → Dy.fx (N.diff t d x u) = Dy.fx (N.diff t d' x u)
  fu : ∀ t d d' x u, R t d d' → Dy.fu (N.diff t d x u) = Dy.fu (N.diff t d' x u)

section
variable [Semiring K] {P : Prob} {N : Nodes K X D} {Dy : Dyn K X D} {L : Layout} {x0 : X} {R : ℕ → D → D → Prop}

theorem foldl_range_congr {A : Type*} {f g : A → ℕ → A} {n : ℕ} (h : ∀ t < n, ∀ a, f a t = g a t) (a : A) :
    (List.range n).foldl f a = (List.range n).foldl g a := by
  refine List.foldl_ext _ _ _ fun a t ht => h t (List.mem_range.1 ht) a

theorem writeNodes_congr {x : ℕ → K} {fx fx' fu fu' : ℕ → ℕ → K} (h1 : ∀ t ≤ P.T, fx t = fx' t) (h2 : ∀ t < P.T, fu t = fu' t) :
    writeNodes P L x fx fu = writeNodes P L x fx' fu' := by
  unfold writeNodes
  rw [h1 P.T le_rfl]
  congr 1
  exact foldl_range_congr (fun t ht a => by rw [h1 t ht.le, h2 t ht]) x

theorem jacVals_congr {J J' : JacBlocks K} (h1 : ∀ t < P.T, J.dx t = J'.dx t) (h2 : ∀ t < P.T, J.u t = J'.u t)
    (h3 : ∀ t < P.T, J.dxnext t = J'.dxnext t) (h4 : J.ic = J'.ic) : jacVals P J = jacVals P J' := by
  unfold jacVals
  rw [h4]
  congr 1
  refine List.flatMap_congr fun t ht => ?_
  rw [h1 t (List.mem_range.1 ht), h2 t (List.mem_range.1 ht), h3 t (List.mem_range.1 ht)]

theorem hessVals_congr {H H' : HessBlocks K} (h1 : ∀ t ≤ P.T, H.dxdx t = H'.dxdx t) (h2 : ∀ t < P.T, H.dxu t = H'.dxu t)
    (h3 : ∀ t < P.T, H.uu t = H'.uu t) (f : K) : hessVals P H f = hessVals P H' f := by
  unfold hessVals
  rw [h1 P.T le_rfl]
  congr 1
  refine List.flatMap_congr fun t ht => ?_
  have ht := List.mem_range.1 ht
  rw [h1 t ht.le, h2 t ht, h3 t ht]

/-- Calls that run `calc` get the same answer whatever the data held, and leave related data. -/
theorem calcs_same (hM : Memoryless N Dy R) {i i' : Iface K X D} (hx : i.xs = i'.xs) {c : Call K} (hc : c.calcs) :
    i.answer P N Dy L x0 c = i'.answer P N Dy L x0 c ∧
    ∀ t < P.T, R t ((i.call P N Dy L x0 c).ds t) ((i'.call P N Dy L x0 c).ds t) := by
  cases c with
  | evalF x obj =>
    simp only [Iface.answer, Iface.call, evalF, hx]
    refine ⟨?_, fun t ht => ?_⟩
    · congr 1
      simp only [le_refl, if_true]
      rw [hM.cost P.T _ _ (hM.eval P.T (i.ds P.T) (i'.ds P.T) _ _)]
      congr 1
      refine foldl_range_congr (fun t ht a => ?_) obj
      rw [if_pos ht.le, if_pos ht.le, hM.cost t _ _ (hM.eval t (i.ds t) (i'.ds t) _ _)]
    · rw [if_pos ht.le, if_pos ht.le]; exact hM.eval _ _ _ _ _
  | evalGrad x g =>
    simp only [Iface.answer, Iface.call, evalGrad, hx]
    refine ⟨?_, fun t ht => ?_⟩
    · congr 1
      refine writeNodes_congr (fun t ht => ?_) fun t ht => ?_
      · funext j
        simp only [if_pos ht]
        rw [hM.lx t _ _ _ _ (hM.eval t (i.ds t) (i'.ds t) _ _)]
      · simp only [if_pos ht.le]
        rw [hM.lu t _ _ _ _ (hM.eval t (i.ds t) (i'.ds t) _ _)]
    · rw [if_pos ht.le, if_pos ht.le]; exact hM.diff _ _ _ _ _ (hM.eval _ _ _ _ _)
  | evalG x g =>
    simp only [Iface.answer, Iface.call, evalG, hx]
    refine ⟨?_, fun t ht => ?_⟩
    · have e : (List.range P.T).foldl (fun (s : ℕ × (ℕ → K)) t => (s.1 + P.ndx t, writeRange s.2 s.1 (P.ndx t)
          (Dy.diff t (Dy.xnext (if t < P.T then N.eval t (i.ds t) (pointOf N L i'.xs x t) (uOf P L x t) else i.ds t))
            (nextOf P N L i'.xs x t)))) (0, g) =
          (List.range P.T).foldl (fun (s : ℕ × (ℕ → K)) t => (s.1 + P.ndx t, writeRange s.2 s.1 (P.ndx t)
          (Dy.diff t (Dy.xnext (if t < P.T then N.eval t (i'.ds t) (pointOf N L i'.xs x t) (uOf P L x t) else i'.ds t))
            (nextOf P N L i'.xs x t)))) (0, g) := by
        refine foldl_range_congr (fun t ht a => ?_) _
        rw [if_pos ht, if_pos ht, hM.xnext t _ _ (hM.eval t (i.ds t) (i'.ds t) _ _)]
      rw [e]
    · rw [if_pos ht, if_pos ht]; exact hM.eval _ _ _ _ _
  | evalJac x => exact hc.elim
  | evalH x => exact hc.elim
  | finalize x obj => exact hc.elim

/-- Calls that do not run `calc` get the same answer from related data, and leave related data. -/
theorem reuses_same (hM : Memoryless N Dy R) {i i' : Iface K X D} (hx : i.xs = i'.xs)
    (hR : ∀ t < P.T, R t (i.ds t) (i'.ds t)) {c : Call K} (hc : c.reuses) :
    i.answer P N Dy L x0 c = i'.answer P N Dy L x0 c ∧
    ∀ t < P.T, R t ((i.call P N Dy L x0 c).ds t) ((i'.call P N Dy L x0 c).ds t) := by
  cases c with
  | evalJac x =>
    simp only [Iface.answer, Iface.call, evalJBlocks, hx]
    refine ⟨?_, fun t ht => ?_⟩
    · congr 1
      refine jacVals_congr (fun t ht => ?_) (fun t ht => ?_) (fun t ht => ?_) rfl
      · simp only [if_pos ht, hM.xnext t _ _ (hM.diff t _ _ (pointOf N L i'.xs x t) (uOf P L x t) (hR t ht)),
          hM.fx t _ _ (pointOf N L i'.xs x t) (uOf P L x t) (hR t ht)]
      · simp only [if_pos ht, hM.xnext t _ _ (hM.diff t _ _ (pointOf N L i'.xs x t) (uOf P L x t) (hR t ht)),
          hM.fu t _ _ (pointOf N L i'.xs x t) (uOf P L x t) (hR t ht)]
      · simp only [if_pos ht, hM.xnext t _ _ (hM.diff t _ _ (pointOf N L i'.xs x t) (uOf P L x t) (hR t ht))]
    · rw [if_pos ht, if_pos ht]; exact hM.diff _ _ _ _ _ (hR t ht)
  | evalH x =>
    simp only [Iface.answer, Iface.call, evalHBlocks, hx]
    refine ⟨?_, fun t ht => ?_⟩
    · congr 1
      funext f
      refine hessVals_congr (fun t ht => ?_) (fun t ht => ?_) (fun t ht => ?_) f
      · rcases Nat.lt_or_eq_of_le ht with h | h
        · simp only [if_pos h, hM.lxx t _ _ (pointOf N L i'.xs x t) (uOf P L x t) (hR t h)]
        · subst h
          simp only [lt_irrefl, if_false, if_true,
            hM.lxx P.T _ _ (pointOf N L i'.xs x P.T) (uOf P L x P.T) (hM.eval P.T (i.ds P.T) (i'.ds P.T) _ _)]
      · simp only [if_pos ht, hM.lxu t _ _ (pointOf N L i'.xs x t) (uOf P L x t) (hR t ht)]
      · simp only [if_pos ht, hM.luu t _ _ (pointOf N L i'.xs x t) (uOf P L x t) (hR t ht)]
    · rw [if_pos ht, if_pos ht]; exact hM.diff _ _ _ _ _ (hR t ht)
  | evalF x obj => exact hc.elim
  | evalGrad x g => exact hc.elim
  | evalG x g => exact hc.elim
  | finalize x obj => exact hc.elim

theorem call_xs (i i' : Iface K X D) (hx : i.xs = i'.xs) (hu : i.us = i'.us) (c : Call K) :
    (i.call P N Dy L x0 c).xs = (i'.call P N Dy L x0 c).xs ∧ (i.call P N Dy L x0 c).us = (i'.call P N Dy L x0 c).us ∧
    ((i.cost = i'.cost ∨ ¬ c.isEval) → (i.call P N Dy L x0 c).cost = (i'.call P N Dy L x0 c).cost) := by
  cases c with
  | finalize x obj => exact ⟨by simp only [Iface.call, hx, hu], by simp only [Iface.call, hx, hu], fun _ => rfl⟩
  | _ => exact ⟨hx, hu, fun h => h.elim id fun h => (h trivial).elim⟩

/-- Folding the same calls over two interfaces with the same trajectories. -/
theorem calls_xs (cs : List (Call K)) (i i' : Iface K X D) (hx : i.xs = i'.xs) (hu : i.us = i'.us) :
    (cs.foldl (Iface.call P N Dy L x0) i).xs = (cs.foldl (Iface.call P N Dy L x0) i').xs ∧
    (cs.foldl (Iface.call P N Dy L x0) i).us = (cs.foldl (Iface.call P N Dy L x0) i').us ∧
    ((i.cost = i'.cost ∨ ∃ c ∈ cs, ¬ c.isEval) →
      (cs.foldl (Iface.call P N Dy L x0) i).cost = (cs.foldl (Iface.call P N Dy L x0) i').cost) := by
  induction cs generalizing i i' with
  | nil => exact ⟨hx, hu, fun h => h.elim id fun ⟨c, h, _⟩ => by simp at h⟩
  | cons c cs ih =>
    obtain ⟨h1, h2, h3⟩ := call_xs (P := P) (N := N) (Dy := Dy) (L := L) (x0 := x0) i i' hx hu c
    obtain ⟨g1, g2, g3⟩ := ih _ _ h1 h2
    refine ⟨g1, g2, fun h => g3 ?_⟩
    rcases h with h | ⟨c', hc, he⟩
    · exact .inl (h3 (.inl h))
    · rcases List.mem_cons.1 hc with rfl | hc
      · exact .inl (h3 (.inr he))
      · exact .inr ⟨c', hc, he⟩

theorem ofCalc_answer (i : Iface K X D) (c : Call K) : (i.answer P N Dy L x0 c).ofCalc ↔ c.calcs := by
  cases c <;> rfl

theorem play_same (hM : Memoryless N Dy R) {opt : Strategy K}
    (hopt : ∀ as c, opt as = .inl c → c.reuses → ∃ a ∈ as, a.ofCalc) (n : ℕ) (as : List (Ans K)) (i i' : Iface K X D)
    (hx : i.xs = i'.xs) (hu : i.us = i'.us) (hR : (∃ a ∈ as, a.ofCalc) → ∀ t < P.T, R t (i.ds t) (i'.ds t)) :
    play P N Dy L x0 opt n as i = play P N Dy L x0 opt n as i' := by
  induction n generalizing as i i' with
  | zero => rfl
  | succ n ih =>
    unfold play
    cases h : opt as with
    | inr e => rfl
    | inl c =>
      dsimp only
      obtain ⟨h1, h2, -⟩ := call_xs (P := P) (N := N) (Dy := Dy) (L := L) (x0 := x0) i i' hx hu c
      have key : i.answer P N Dy L x0 c = i'.answer P N Dy L x0 c ∧
          ((∃ a ∈ as ++ [i.answer P N Dy L x0 c], a.ofCalc) →
            ∀ t < P.T, R t ((i.call P N Dy L x0 c).ds t) ((i'.call P N Dy L x0 c).ds t)) := by
        by_cases hc : c.calcs
        · obtain ⟨g1, g2⟩ := calcs_same (P := P) (L := L) (x0 := x0) hM hx hc
          exact ⟨g1, fun _ => g2⟩
        · by_cases hr : c.reuses
          · obtain ⟨g1, g2⟩ := reuses_same (P := P) (L := L) (x0 := x0) hM hx (hR (hopt as c h hr)) hr
            exact ⟨g1, fun _ => g2⟩
          · cases c with
            | finalize x obj =>
              refine ⟨rfl, fun ⟨a, ha, hf⟩ => hR ?_⟩
              rcases List.mem_append.1 ha with ha | ha
              · exact ⟨a, ha, hf⟩
              · rw [List.mem_singleton.1 ha] at hf; exact hf.elim
            | _ => first | exact (hc trivial).elim | exact (hr trivial).elim
      rw [← key.1, ih _ _ _ h1 h2 key.2]

/-- C126 for SolverIpopt. Two solvers with any histories, on data of the problem that hold anything, with the same tolerance: from the
same guess with the same deterministic optimiser, the returned value, states, controls, flag and iteration count are the same, and so is
the cost if the optimiser hands over a solution. The optimiser asks for a Jacobian or Hessian only after it has asked for some
objective, gradient or constraints (`hopt`); the action models have no memory. Missing: the cost when no solution is handed over and
optimisers that begin with the Jacobian, both false, see the counterexamples. -/
theorem C126_ipopt_partial (hM : Memoryless N Dy R) (opt : (ℕ → K) → K → ℕ → Strategy K)
    (hopt : ∀ x tol m as c, opt x tol m as = .inl c → c.reuses → ∃ a ∈ as, a.ofCalc) (mem : ℕ → K) (fuel : ℕ)
    (xs : ℕ → X) (us : ℕ → ℕ → K) (maxiter : ℕ) (feas : Bool) (s s' : Sol K X D) (htol : s.tol = s'.tol)
    {o : Bool × Sol K X D} (ho : s.optimise P N Dy L x0 opt mem fuel xs us maxiter feas = some o) :
    ∃ o', s'.optimise P N Dy L x0 opt mem fuel xs us maxiter feas = some o' ∧ o'.1 = o.1 ∧ o'.2.xs = o.2.xs ∧ o'.2.us = o.2.us ∧
      o'.2.feas = o.2.feas ∧ o'.2.iter = o.2.iter ∧
      (∀ r, play P N Dy L x0 (opt (startingPoint P L us mem) s.tol maxiter) fuel [] { s.iface with xs := xs, us := us } = some r →
        (∃ c ∈ r.calls, ¬ c.isEval) → o'.2.cost = o.2.cost) := by
  unfold Sol.optimise at ho ⊢
  have e := play_same (P := P) (L := L) (x0 := x0) hM (hopt (startingPoint P L us mem) s.tol maxiter) fuel []
    { s.iface with xs := xs, us := us } { s'.iface with xs := xs, us := us } rfl rfl (fun ⟨a, h, _⟩ => by simp at h)
  rw [← htol, ← e]
  obtain ⟨r, hr, rfl⟩ := Option.map_eq_some_iff.1 ho
  rw [hr]
  obtain ⟨h1, h2, h3⟩ := calls_xs (P := P) (N := N) (Dy := Dy) (L := L) (x0 := x0) r.calls
    { s'.iface with xs := xs, us := us } { s.iface with xs := xs, us := us } rfl rfl
  refine ⟨_, rfl, rfl, h1, h2, rfl, rfl, fun r' hr' hc => ?_⟩
  obtain rfl := Option.some.inj hr'
  exact h3 (.inr hc)

end

/-! ### The violations, and non-vacuity -/

/-- An optimiser that stops at once without a solution. -/
def quits : (ℕ → ℝ) → ℝ → ℕ → Strategy ℝ := fun _ _ _ _ => .inr (.other, 0)

/-- **C126, Ipopt: the cost.** If the optimiser stops without a solution, the reported cost is that of the solve before. -/
theorem C126_ipopt_cost_counterexample :
    let used := (exSol.solve exProb exNodes exDyn (make exProb) 1 exRun (fun _ => 0) (fun _ _ => 0) 100 false).2
    (exSol.optimise exProb exNodes exDyn (make exProb) 1 quits (fun _ => 0) 1 (fun _ => 3) (fun _ _ => 0) 100 false).map
        (fun o => o.2.cost) = some none ∧
    (used.optimise exProb exNodes exDyn (make exProb) 1 quits (fun _ => 0) 1 (fun _ => 3) (fun _ _ => 0) 100 false).map
        (fun o => o.2.cost) = some (some 18) :=
  ⟨rfl, rfl⟩

/-- An optimiser that asks for the Jacobian first and hands over a point that depends on the answer. -/
noncomputable def jacFirst : (ℕ → ℝ) → ℝ → ℕ → Strategy ℝ := fun x _ _ as =>
  match as with
  | [] => .inl (.evalJac x)
  | [.jac l] => .inl (.finalize (fun _ => l.headD 0) 0)
  | _ => .inr (.succeeded, 1)

/-- **C126, Ipopt: data of an earlier solve.** `eval_jac_g` does not run `calc`. With an optimiser that begins with the Jacobian, the
control found by a new solver is 0 and the control found by a solver that evaluated the objective elsewhere before is -3. -/
theorem C126_ipopt_stale_counterexample :
    let used := (exSol.solve exProb exNodes exDyn (make exProb) 1 ⟨[.evalF (fun _ => 1) 0], .other, 0⟩ (fun _ => 0) (fun _ _ => 0) 100 false).2
    (exSol.optimise exProb exNodes exDyn (make exProb) 1 jacFirst (fun _ => 0) 3 (fun _ => 0) (fun _ _ => 0) 100 false).map
        (fun o => (o.1, o.2.us 0 0)) = some (true, 0) ∧
    (used.optimise exProb exNodes exDyn (make exProb) 1 jacFirst (fun _ => 0) 3 (fun _ => 0) (fun _ _ => 0) 100 false).map
        (fun o => (o.1, o.2.us 0 0)) = some (true, -3) := by
  constructor
  · simp [Sol.optimise, play, jacFirst, Sol.solve, Iface.call, Iface.answer, finalize, jacVals, evalJBlocks, exProb, exNodes, exDyn,
      exSol, uOf, List.range_succ]
  · simp [Sol.optimise, play, jacFirst, Sol.solve, Iface.call, Iface.answer, finalize, jacVals, evalJBlocks, evalF, exProb, exNodes,
      exDyn, exSol, uOf, pointOf, dxOf, List.range_succ]

theorem ex_memoryless : Memoryless exNodes exDyn fun _ d d' => d.sq = d'.sq ∧ d.cost = d'.cost ∧ d.xnext = d'.xnext where
  eval _ _ _ _ _ := ⟨rfl, rfl, rfl⟩
  diff _ _ _ _ _ h := h
  cost _ _ _ h := h.2.1
  xnext _ _ _ h := h.2.2
  lx _ _ _ _ _ h := by simp only [exNodes, h.1]
  lu _ _ _ _ _ _ := rfl
  lxx _ _ _ _ _ h := by simp only [exNodes, h.1]
  lxu _ _ _ _ _ _ := rfl
  luu _ _ _ _ _ _ := rfl
  fx _ _ _ _ _ h := by simp only [exNodes, exDyn, h.1]
  fu _ _ _ _ _ _ := rfl

/-- An optimiser that asks for the constraints, then for the Jacobian, and hands over a point that depends on both answers. -/
noncomputable def conFirst : (ℕ → ℝ) → ℝ → ℕ → Strategy ℝ := fun x _ _ as =>
  match as with
  | [] => .inl (.evalG x fun _ => 0)
  | [.con _] => .inl (.evalJac x)
  | [.con g, .jac l] => .inl (.finalize (fun v => g v + l.headD 0) 0)
  | _ => .inr (.succeeded, 1)

/-- The hypotheses of `C126_ipopt_partial` are met: on the example problem the optimiser `conFirst` ends after three calls with the same
control for all histories of the solver. -/
example (s : Sol ℝ ℝ ExData) (hs : s.tol = 1) :
    ∃ o o', exSol.optimise exProb exNodes exDyn (make exProb) 1 conFirst (fun _ => 0) 4 (fun _ => 2) (fun _ _ => 0) 100 false = some o ∧
      s.optimise exProb exNodes exDyn (make exProb) 1 conFirst (fun _ => 0) 4 (fun _ => 2) (fun _ _ => 0) 100 false = some o' ∧
      o'.1 = true ∧ o'.2.us = o.2.us ∧ o'.2.cost = o.2.cost := by
  have hopt : ∀ x tol m as c, conFirst x tol m as = .inl c → c.reuses → ∃ a ∈ as, a.ofCalc := by
    intro x tol m as c h hr
    unfold conFirst at h
    split at h
    · obtain rfl := Sum.inl.inj h
      exact hr.elim
    · exact ⟨_, List.mem_cons_self, trivial⟩
    · exact ⟨_, List.mem_cons_self, trivial⟩
    · cases h
  obtain ⟨r, hr, hc⟩ : ∃ r, play exProb exNodes exDyn (make exProb) 1
      (conFirst (startingPoint exProb (make exProb) (fun _ _ => 0) fun _ => 0) exSol.tol 100) 4 []
      { exSol.iface with xs := fun _ => 2, us := fun _ _ => 0 } = some r ∧ (∃ c ∈ r.calls, ¬ c.isEval) ∧ r.status = .succeeded := by
    refine ⟨_, rfl, ⟨_, List.mem_cons_of_mem _ (List.mem_cons_of_mem _ List.mem_cons_self), fun h => h⟩, rfl⟩
  have ho : exSol.optimise exProb exNodes exDyn (make exProb) 1 conFirst (fun _ => 0) 4 (fun _ => 2) (fun _ _ => 0) 100 false =
      some (exSol.solve exProb exNodes exDyn (make exProb) 1 r (fun _ => 2) (fun _ _ => 0) 100 false) := by
    unfold Sol.optimise
    rw [hr]
    rfl
  obtain ⟨o', h1, h2, -, h4, -, -, h6⟩ := C126_ipopt_partial ex_memoryless conFirst hopt (fun _ => 0) 4 (fun _ => 2) (fun _ _ => 0) 100
    false exSol s hs.symm ho
  refine ⟨_, o', ho, h1, h2.trans ?_, h4, h6 r hr hc.1⟩
  simp [Sol.solve, hc.2]

end Verif.Ipopt
