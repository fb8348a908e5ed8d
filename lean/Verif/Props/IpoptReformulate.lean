import Verif.Model.IpoptPlay
import Verif.Props.IpoptSolve

set_option linter.unusedSectionVars false

/-! # C132 for SolverIpopt: constants in the costs -/

namespace Verif.Ipopt
open Spec

variable {K X D : Type*} [Semiring K]

/-- The nodes with a constant added to each cost: `κ d` for the node whose data are `d`. -/
def Nodes.plus (N : Nodes K X D) (κ : D → K) : Nodes K X D := { N with cost := fun d => N.cost d + κ d }

/-- `κ` is constant during a run: `calc` and `calcDiff` do not change it. -/
def Nodes.Keeps (N : Nodes K X D) (κ : D → K) : Prop :=
  ∀ t d x u, κ (N.eval t d x u) = κ d ∧ κ (N.diff t d x u) = κ d

/-- The answer with `c` added to the objective. -/
def Ans.shift (c : K) : Ans K → Ans K
  | .obj v => .obj (v + c)
  | .grad a => .grad a
  | .con a => .con a
  | .jac l => .jac l
  | .hess f => .hess f
  | .nothing => .nothing

/-- The call with `c` added to the final objective that it reports, if it does. -/
def Call.shift (c : K) : Call K → Call K
  | .finalize x obj => .finalize x (obj + c)
  | .evalF x obj => .evalF x obj
  | .evalGrad x g => .evalGrad x g
  | .evalG x g => .evalG x g
  | .evalJac x => .evalJac x
  | .evalH x => .evalH x

/-- An optimiser that only compares objectives: with `c` added to all objectives it makes the same calls, and reports a final objective
with `c` added. -/
def Strategy.Compares (opt : Strategy K) (c : K) : Prop :=
  ∀ as, opt (as.map (Ans.shift c)) = (opt as).map (Call.shift c) id

/-- The interface with `c` added to its cost. -/
def Iface.shift (c : K) (i : Iface K X D) : Iface K X D := { i with cost := i.cost.map (· + c) }

/-- The solver with `c` added to its costs. -/
def Sol.shift (c : K) (s : Sol K X D) : Sol K X D := { s with iface := s.iface.shift c, cost := s.cost.map (· + c) }

variable {P : Prob} {N : Nodes K X D} {Dy : Dyn K X D} {L : Layout} {x0 : X} {κ : D → K}

theorem call_keeps (hκ : N.Keeps κ) (i : Iface K X D) (a : Call K) (t : ℕ) : κ ((i.call P N Dy L x0 a).ds t) = κ (i.ds t) := by
  cases a <;> simp only [Iface.call, evalF, evalGrad, evalG, evalJBlocks, evalHBlocks] <;> split_ifs <;> simp only [hκ _ _ _ _]

theorem call_shift (i : Iface K X D) (a : Call K) (c : K) :
    (i.shift c).call P (N.plus κ) Dy L x0 (a.shift c) = (i.call P N Dy L x0 a).shift c := by
  cases a <;> rfl

theorem calls_shift (l : List (Call K)) (i : Iface K X D) (c : K) :
    (l.map (Call.shift c)).foldl (Iface.call P (N.plus κ) Dy L x0) (i.shift c) =
      (l.foldl (Iface.call P N Dy L x0) i).shift c := by
  induction l generalizing i with
  | nil => rfl
  | cons a l ih => rw [List.map_cons, List.foldl_cons, List.foldl_cons, call_shift]; exact ih _

theorem foldl_plus (f g : ℕ → K) (T : ℕ) (o : K) :
    (List.range T).foldl (fun o t => o + (f t + g t)) o = (List.range T).foldl (fun o t => o + f t) o + ∑ t ∈ Finset.range T, g t := by
  induction T with
  | zero => simp
  | succ T ih =>
    rw [List.range_succ, List.foldl_append, List.foldl_append, ih, Finset.sum_range_succ]
    simp only [List.foldl_cons, List.foldl_nil]
    abel

theorem answer_shift (hκ : N.Keeps κ) (i : Iface K X D) (a : Call K) (c : K) (hc : c = ∑ t ∈ Finset.range (P.T + 1), κ (i.ds t)) :
    (i.shift c).answer P (N.plus κ) Dy L x0 (a.shift c) = (i.answer P N Dy L x0 a).shift c := by
  cases a with
  | evalF x obj =>
    have hd : ∀ t, κ ((evalF P N L i.xs i.ds x obj).1 t) = κ (i.ds t) := fun t => call_keeps (P := P) (Dy := Dy) (L := L) (x0 := x0) hκ i (.evalF x obj) t
    show Ans.obj ((List.range P.T).foldl (fun o t => o + (N.cost ((evalF P N L i.xs i.ds x obj).1 t) +
        κ ((evalF P N L i.xs i.ds x obj).1 t))) obj + (N.cost ((evalF P N L i.xs i.ds x obj).1 P.T) +
        κ ((evalF P N L i.xs i.ds x obj).1 P.T))) =
      Ans.obj ((List.range P.T).foldl (fun o t => o + N.cost ((evalF P N L i.xs i.ds x obj).1 t)) obj +
        N.cost ((evalF P N L i.xs i.ds x obj).1 P.T) + c)
    congr 1
    rw [foldl_plus, hc, Finset.sum_range_succ]
    simp only [hd]
    abel
  | _ => rfl

theorem play_shift (hκ : N.Keeps κ) (opt : Strategy K) (c : K) (ho : opt.Compares c) (n : ℕ) (as : List (Ans K)) (i : Iface K X D)
    (hc : c = ∑ t ∈ Finset.range (P.T + 1), κ (i.ds t)) :
    play P (N.plus κ) Dy L x0 opt n (as.map (Ans.shift c)) (i.shift c) =
      (play P N Dy L x0 opt n as i).map fun r => ⟨r.calls.map (Call.shift c), r.status, r.iters⟩ := by
  induction n generalizing as i with
  | zero => rfl
  | succ n ih =>
    unfold play
    rw [ho as]
    cases opt as with
    | inr e => rfl
    | inl a =>
      have h := ih (as ++ [i.answer P N Dy L x0 a]) (i.call P N Dy L x0 a) (by rw [hc]; simp only [call_keeps hκ])
      rw [List.map_append, List.map_cons, List.map_nil] at h
      simp only [Sum.map_inl, answer_shift hκ i a c hc, call_shift, h, Option.map_map]
      rfl

/-- C132 for SolverIpopt: constants in the costs. Take an optimiser that only compares objectives. Adding a constant to the cost of each
node changes nothing in the result of `solve` but the reported cost, by the sum `c` of the constants: same returned value, states, controls,
iterations and flags. (A solver that has not solved yet has no cost, and then `s.shift c = s`.) Missing: other changes of the description, and that
Ipopt only compares objectives, which is an assumption on the library. -/
theorem C132_ipopt_partial (hκ : N.Keeps κ) (opt : (ℕ → K) → K → ℕ → Strategy K) (s : Sol K X D) (c : K)
    (hc : c = ∑ t ∈ Finset.range (P.T + 1), κ (s.iface.ds t)) (ho : ∀ x tol m, (opt x tol m).Compares c) (mem : ℕ → K) (fuel : ℕ)
    (xs : ℕ → X) (us : ℕ → ℕ → K) (maxiter : ℕ) (feas : Bool) :
    (s.shift c).optimise P (N.plus κ) Dy L x0 opt mem fuel xs us maxiter feas =
      (s.optimise P N Dy L x0 opt mem fuel xs us maxiter feas).map fun r => (r.1, r.2.shift c) := by
  have h := play_shift (P := P) (Dy := Dy) (L := L) (x0 := x0) hκ (opt (startingPoint P L us mem) s.tol maxiter) c (ho _ _ _) fuel []
    { s.iface with xs := xs, us := us } hc
  have h' : play P (N.plus κ) Dy L x0 (opt (startingPoint P L us mem) (s.shift c).tol maxiter) fuel []
      { (s.shift c).iface with xs := xs, us := us } = _ := h
  unfold Sol.optimise
  rw [h', Option.map_map, Option.map_map]
  congr 1
  funext r
  have e := calls_shift (P := P) (N := N) (Dy := Dy) (L := L) (x0 := x0) (κ := κ) r.calls { s.iface with xs := xs, us := us } c
  have e' : (r.calls.map (Call.shift c)).foldl (Iface.call P (N.plus κ) Dy L x0) { (s.shift c).iface with xs := xs, us := us } = _ := e
  simp only [Function.comp_apply, Sol.solve, e']
  rfl

/-- An optimiser that evaluates the objective at the starting point and at another point and reports the better one. -/
noncomputable def better : (ℕ → ℝ) → ℝ → ℕ → Strategy ℝ := fun x _ _ as =>
  match as with
  | [] => .inl (.evalF x 0)
  | [.obj _] => .inl (.evalF (fun v => x v + 1) 0)
  | [.obj v, .obj w] =>
    .inl (.finalize (if v ≤ w then x else fun v => x v + 1) (min v w))
  | _ => .inr (.succeeded, 1)

theorem better_compares (x : ℕ → ℝ) (tol : ℝ) (m : ℕ) (c : ℝ) : (better x tol m).Compares c := by
  intro as
  match as with
  | [] => rfl
  | [.obj _] => rfl
  | [.obj v, .obj w] =>
    simp only [better, List.map_cons, List.map_nil, Ans.shift, add_le_add_iff_right, min_add_add_right]
    rfl
  | [.grad _] | [.con _] | [.jac _] | [.hess _] | [.nothing] => rfl
  | [.obj _, .grad _] | [.obj _, .con _] | [.obj _, .jac _] | [.obj _, .hess _] | [.obj _, .nothing] => rfl
  | .grad _ :: _ :: _ | .con _ :: _ :: _ | .jac _ :: _ :: _ | .hess _ :: _ :: _ | .nothing :: _ :: _ => rfl
  | .obj _ :: .obj _ :: _ :: _ | .obj _ :: .grad _ :: _ :: _ | .obj _ :: .con _ :: _ :: _ | .obj _ :: .jac _ :: _ :: _
  | .obj _ :: .hess _ :: _ :: _ | .obj _ :: .nothing :: _ :: _ => rfl

/-- The hypotheses are met: with 5 added to the cost of each node of the example problem the optimiser `better` ends with the same control and
a larger cost. -/
example : ∃ o, exSol.optimise exProb exNodes exDyn (make exProb) 1 better (fun _ => 0) 4 (fun _ => 2) (fun _ _ => 0) 100 false = some o ∧
    (exSol.shift (∑ t ∈ Finset.range (exProb.T + 1), 5)).optimise exProb (exNodes.plus fun _ => 5) exDyn (make exProb) 1 better (fun _ => 0) 4 (fun _ => 2) (fun _ _ => 0) 100
      false = some (o.1, o.2.shift (∑ t ∈ Finset.range (exProb.T + 1), 5)) := by
  have h := C132_ipopt_partial (P := exProb) (N := exNodes) (Dy := exDyn) (L := make exProb) (x0 := 1) (κ := fun _ => 5)
    (fun _ _ _ _ => ⟨rfl, rfl⟩) better exSol _ rfl (fun x tol m => better_compares x tol m _) (fun _ => 0) 4 (fun _ => 2) (fun _ _ => 0) 100 false
  obtain ⟨o, ho⟩ : ∃ o, exSol.optimise exProb exNodes exDyn (make exProb) 1 better (fun _ => 0) 4 (fun _ => 2) (fun _ _ => 0) 100 false = some o :=
    ⟨_, rfl⟩
  exact ⟨o, ho, by rw [h, ho]; rfl⟩

end Verif.Ipopt
