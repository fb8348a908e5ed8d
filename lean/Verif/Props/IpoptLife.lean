import Verif.Model.IpoptLife
import Verif.Props.Ipopt

set_option linter.unusedSectionVars false

/-! # C127 for SolverIpopt: problems that change -/

namespace Verif.Ipopt
open Spec

variable {K : Type*}

/-- Two problems with the same dimensions at every node. -/
def SameDims (P Q : Prob) : Prop := P.T = Q.T ∧ (∀ t, t ≤ P.T → P.ndx t = Q.ndx t) ∧ ∀ t, t < P.T → P.nu t = Q.nu t

/-- Whenever `solve` is called, the problem has the dimensions that it had at the last `resizeData`, or at the construction of the solver if there
was none. `Q`: the problem then; `P`: the problem now. -/
def Tidy : Prob → Prob → List Act → Prop
  | _, _, [] => True
  | Q, _, .update P :: as => Tidy Q P as
  | Q, P, .solve :: as => SameDims Q P ∧ Tidy Q P as
  | _, P, .resizeData :: as => Tidy P P as

theorem start_same {P Q : Prob} (h : SameDims P Q) (t : ℕ) (ht : t ≤ P.T) : start P t = start Q t := by
  unfold start
  refine Finset.sum_congr rfl fun s hs => ?_
  have := Finset.mem_range.1 hs
  rw [h.2.1 s (by omega), h.2.2 s (by omega)]

theorem life_good (as : List Act) (Q P : Prob) (L : Layout) (h : Tidy Q P as) (hg : Good Q L) :
    ∀ q ∈ life as P L, Good q.1 q.2 := by
  induction as generalizing Q P L with
  | nil => intro q hq; simp [life] at hq
  | cons a as ih =>
    cases a with
    | update P' => exact ih Q P' L h hg
    | solve =>
      intro q hq
      rcases List.mem_cons.1 hq with rfl | hq
      · obtain ⟨hs, -⟩ := h
        refine ⟨fun t ht => ?_, ?_⟩
        · have ht' : t ≤ Q.T := by rw [hs.1]; exact ht
          exact (hg.1 t ht').trans (start_same hs t ht')
        · show L.nvar = start P P.T + P.ndx P.T
          have e : L.nvar = start Q Q.T + Q.ndx Q.T := hg.2
          rw [e, start_same hs Q.T (le_refl Q.T), hs.2.1 Q.T (le_refl Q.T), hs.1]
      · exact ih Q P L h.2 hg q hq
    | resizeData => exact ih P P (resize P L) h (layout_end P _ rfl).1

/-- C127 for SolverIpopt. If the client calls `resizeData` after every change of the dimensions of the problem, then at every `solve` each variable of the
problem as it is then has its own place below the announced number of variables, and there are no others. Missing, and false: the
same when the client does not (`C127_ipopt_counterexample`), and the number of constraints (`C59_resize_counterexample`,
`C127_ipopt_no_remedy_counterexample`). -/
theorem C127_ipopt_partial (P0 : Prob) (as : List Act) (h : Tidy P0 P0 as) :
    ∀ q ∈ life as P0 (make P0),
      (∀ t, t ≤ q.1.T → q.2.ixu t = start q.1 t) ∧ (∀ s : Slot, s.Valid q.1 → s.index q.1 < q.2.nvar) ∧
      ∀ v, v < q.2.nvar → ∃! s : Slot, s.Valid q.1 ∧ s.index q.1 = v := by
  intro q hq
  obtain ⟨g1, g2⟩ := life_good as P0 P0 (make P0) h (history_good P0 []) q hq
  obtain ⟨-, c2, c3⟩ := C59_variables q.1 []
  have e : q.2.nvar = (make q.1).nvar := g2.trans (history_good q.1 []).2.symm
  refine ⟨g1, fun s hs => ?_, fun v hv => c3 v ?_⟩
  · rw [e]; exact c2 s hs
  · rw [e] at hv; exact hv

/-- The problem `P` with `k` more controls at node `t`. -/
def moreControls (P : Prob) (t k : ℕ) : Prob := { P with nu := Function.update P.nu t (P.nu t + k) }

/-- C127, SolverIpopt does not notice changed nodes. For every problem, if a node is replaced by one with `k` more controls and `solve`
is called, the interface announces `k` variables too few, and its first new control is the same variable as the first component of
the next state. -/
theorem C127_ipopt_counterexample (P : Prob) (t k : ℕ) (ht : t < P.T) :
    life [.update (moreControls P t k), .solve] P (make P) = [(moreControls P t k, make P)] ∧
    (make P).nvar + k = (make (moreControls P t k)).nvar ∧
    ∀ x : ℕ → K, uOf (moreControls P t k) (make P) x t (P.nu t) = dxOf (make P) x (t + 1) 0 := by
  obtain ⟨g1, g2⟩ := history_good P []
  obtain ⟨h1, h2⟩ := history_good (moreControls P t k) []
  refine ⟨rfl, ?_, fun x => ?_⟩
  · have e : start (moreControls P t k) P.T = start P P.T + k := by
      unfold start moreControls
      have hs : ∀ s ∈ Finset.range P.T, P.ndx s + Function.update P.nu t (P.nu t + k) s =
          (P.ndx s + P.nu s) + if s = t then k else 0 := by
        intro s _
        by_cases hs : s = t
        · subst hs; simp; omega
        · simp [Function.update_of_ne hs, hs]
      rw [Finset.sum_congr rfl hs, Finset.sum_add_distrib, Finset.sum_ite_eq' (Finset.range P.T) t, if_pos (Finset.mem_range.2 ht)]
    have a : (make P).nvar = start P P.T + P.ndx P.T := g2
    have b : (make (moreControls P t k)).nvar = start (moreControls P t k) P.T + P.ndx P.T := h2
    rw [a, b, e]
    omega
  · have a : (make P).ixu t = start P t := g1 t ht.le
    have b : (make P).ixu (t + 1) = start P (t + 1) := g1 (t + 1) ht
    unfold uOf dxOf
    rw [a, b, start_succ]
    congr 1
    show start P t + P.ndx t + P.nu t = _
    omega

/-- C127, SolverIpopt writes outside Ipopt's array. If the last node is replaced by one with `k` more controls, more than the dimension of
the last state, then `get_starting_point` writes the last control at a place at or beyond the number of variables that was announced. -/
theorem C127_ipopt_overflow_counterexample [Zero K] (P : Prob) (t k : ℕ) (ht : t + 1 = P.T) (hk : P.ndx P.T < k) (us : ℕ → ℕ → K)
    (x : ℕ → K) :
    ∃ v, (make P).nvar ≤ v ∧ startingPoint (moreControls P t k) (make P) us x v = us t (P.nu t + k - 1) := by
  obtain ⟨g1, g2⟩ := history_good P []
  have a : (make P).nvar = start P P.T + P.ndx P.T := g2
  have b : (make P).ixu t = start P t := g1 t (by show t ≤ P.T; omega)
  have c : (make P).ixu P.T = start P P.T := g1 P.T (le_refl P.T)
  have e : start P P.T = start P t + (P.ndx t + P.nu t) := by rw [← ht, start_succ]
  refine ⟨start P t + P.ndx t + (P.nu t + k - 1), by rw [a, e]; omega, ?_⟩
  have hT : (moreControls P t k).T = t + 1 := ht.symm
  have hn : (moreControls P t k).nu t = P.nu t + k := by simp [moreControls]
  have hd : (moreControls P t k).ndx = P.ndx := rfl
  unfold startingPoint writeNodes
  rw [hT, hd, List.range_succ, List.foldl_append, List.foldl_cons, List.foldl_nil, hn, ht, c, b, e]
  unfold writeRange
  rw [if_neg (by omega), if_pos (by omega)]
  congr 1
  omega

theorem make_nconst (P : Prob) : (make P).nconst = rowStart P P.T + P.ndx 0 := by
  have := (layout_end P ⟨fun _ => 0, 0, 0⟩ rfl).2
  simpa [make] using this

theorem resize_nconst (P : Prob) (L : Layout) : (resize P L).nconst = L.nconst + (make P).nconst := by
  rw [make_nconst]
  exact (layout_end P { L with nvar := 0 } rfl).2

theorem make_nconst_same {P Q : Prob} (hT : P.T = Q.T) (hn : P.ndx = Q.ndx) : (make P).nconst = (make Q).nconst := by
  rw [make_nconst, make_nconst]
  unfold rowStart
  rw [hT, hn]

theorem life_numbers (P0 : Prob) (h0 : 0 < P0.ndx 0) (as : List Act) (hu : ∀ P, .update P ∈ as → P.T = P0.T ∧ P.ndx = P0.ndx) (P : Prob)
    (hP : P.T = P0.T ∧ P.ndx = P0.ndx) (L : Layout) (hc : (make P0).nconst ≤ L.nconst)
    (hL : L.nvar = (make P0).nvar ∨ (make P0).nconst < L.nconst) :
    ∀ q ∈ life as P L, (q.1.T = P0.T ∧ q.1.ndx = P0.ndx) ∧ (q.2.nvar = (make P0).nvar ∨ (make P0).nconst < q.2.nconst) := by
  induction as generalizing P L with
  | nil => intro q hq; simp [life] at hq
  | cons a as ih =>
    have hu' : ∀ P, .update P ∈ as → P.T = P0.T ∧ P.ndx = P0.ndx := fun P h => hu P (List.mem_cons_of_mem _ h)
    cases a with
    | update P' => exact ih hu' P' (hu P' List.mem_cons_self) L hc hL
    | solve =>
      intro q hq
      rcases List.mem_cons.1 hq with rfl | hq
      · exact ⟨hP, hL⟩
      · exact ih hu' P hP L hc hL q hq
    | resizeData =>
      have e := resize_nconst P L
      have e0 : (make P0).nconst = rowStart P0 P0.T + P0.ndx 0 := make_nconst P0
      rw [make_nconst_same hP.1 hP.2] at e
      exact ih hu' P hP (resize P L) (by omega) (.inr (by omega))

/-- C127, no sequence of calls helps SolverIpopt. Take any problem and any history in which the nodes are replaced by nodes with the same
state dimensions (`updateModel` accepts no others, `shooting.hxx` L375-382) but any numbers of controls. Whenever `solve` is called while the number of variables differs from that at construction, the
interface announces a wrong number of variables or a wrong number of constraints, whether or not the client called `resizeData`. -/
theorem C127_ipopt_no_remedy_counterexample (P0 : Prob) (h0 : 0 < P0.ndx 0) (as : List Act)
    (hu : ∀ P, .update P ∈ as → P.T = P0.T ∧ P.ndx = P0.ndx) :
    ∀ q ∈ life as P0 (make P0), (make q.1).nvar ≠ (make P0).nvar → q.2.nvar ≠ (make q.1).nvar ∨ q.2.nconst ≠ (make q.1).nconst := by
  intro q hq hne
  obtain ⟨⟨hT, hn⟩, h⟩ := life_numbers P0 h0 as hu P0 ⟨rfl, rfl⟩ (make P0) (le_refl _) (.inl rfl) q hq
  rcases h with h | h
  · left; rw [h]; exact fun e => hne e.symm
  · right; rw [make_nconst_same hT hn]; omega

/-- The hypotheses are met: a problem with two nodes, solved, then with a node replaced by another with the same dimensions and solved, then
with three more controls at its last node. -/
example : Tidy ⟨2, fun _ => 1, fun _ => 1⟩ ⟨2, fun _ => 1, fun _ => 1⟩ [.solve, .update ⟨2, fun _ => 1, fun _ => 1⟩, .solve,
      .update (moreControls ⟨2, fun _ => 1, fun _ => 1⟩ 1 3), .resizeData, .solve] ∧
    life [.solve, .update ⟨2, fun _ => 1, fun _ => 1⟩, .solve, .update (moreControls ⟨2, fun _ => 1, fun _ => 1⟩ 1 3), .resizeData, .solve]
      ⟨2, fun _ => 1, fun _ => 1⟩ (make ⟨2, fun _ => 1, fun _ => 1⟩) ≠ [] ∧
    (1 + 1 = (⟨2, fun _ => 1, fun _ => 1⟩ : Prob).T) ∧ (⟨2, fun _ => 1, fun _ => 1⟩ : Prob).ndx 2 < 3 :=
  ⟨⟨⟨rfl, fun _ _ => rfl, fun _ _ => rfl⟩, ⟨rfl, fun _ _ => rfl, fun _ _ => rfl⟩, ⟨rfl, fun _ _ => rfl, fun _ _ => rfl⟩, trivial⟩,
    by simp [life], rfl, by decide⟩

/-- The hypotheses of `C127_ipopt_no_remedy_counterexample` are met: one more control, then `resizeData`. -/
example : (∀ P, Act.update P ∈ [Act.update (moreControls ⟨2, fun _ => 1, fun _ => 1⟩ 1 1), .resizeData, .solve] → P.T = 2 ∧ P.ndx = fun _ => 1) ∧
    ∃ q ∈ life [.update (moreControls ⟨2, fun _ => 1, fun _ => 1⟩ 1 1), .resizeData, .solve] ⟨2, fun _ => 1, fun _ => 1⟩
      (make ⟨2, fun _ => 1, fun _ => 1⟩), (make q.1).nvar ≠ (make ⟨2, fun _ => 1, fun _ => 1⟩).nvar := by
  refine ⟨fun P h => ?_, ⟨_, List.mem_cons_self, by decide⟩⟩
  obtain rfl : P = moreControls ⟨2, fun _ => 1, fun _ => 1⟩ 1 1 := by simpa using h
  exact ⟨rfl, rfl⟩

end Verif.Ipopt
