import Verif.Lemmas.SolverBase
import Mathlib.Algebra.Order.Ring.Unbundled.Rat
import Mathlib.Algebra.Field.Rat
import Mathlib.Algebra.Order.Archimedean.Basic
import Mathlib.Algebra.Order.Ring.Pow
import Mathlib.Tactic.NormNum.Basic
import Mathlib.Tactic.NormNum.Inv
import Mathlib.Tactic.NormNum.Ineq
import Mathlib.Tactic.NormNum.Pow
import Mathlib.Tactic.FieldSimp
import Mathlib.Tactic.Positivity

/-! # Properties C20–C23 of the solver base class and its parameters -/

set_option linter.unusedSectionVars false

namespace Verif.Solver
open Verif

section norms
variable {K : Type} [Field K] [LinearOrder K] [IsStrictOrderedRing K] {X : Type}

/-! ## C20 feasibility measures -/

/-- C20 (dynamics). On a non-empty horizon the dynamic feasibility is the selected norm of all gaps. -/
theorem C20_dynamic (n : Norm) (diff : X → X → List K) (x0 : X) (xs xnexts : List X)
    (hT : xnexts ≠ []) (hx : xs.length = xnexts.length + 1) :
    ∃ fs r, GapsOf diff x0 xs xnexts fs ∧ dynFeas n diff x0 xs xnexts = some r ∧
      IsNorm n fs.flatten r := by
  cases xs with
  | nil => simp at hx
  | cons x xs =>
    have hlen : xs.length = xnexts.length := by simpa using hx
    have h0 : xnexts.length ≠ 0 := by simpa using hT
    refine ⟨diff x x0 :: List.zipWith diff xs xnexts,
      (match n with
        | .linf => (List.zipWith diff xs xnexts).foldl (fun a f => max a (lpInf f))
            (max 0 (lpInf (diff x x0)))
        | .l1 => (List.zipWith diff xs xnexts).foldl (fun a f => a + lp1 f) (lp1 (diff x x0))),
      ⟨?_, ?_, ?_⟩, ?_, ?_⟩
    · simp [hlen]
    · simp
    · intro t y hy z hz
      simp only [List.getElem?_cons_succ, Option.mem_def] at *
      simp [List.getElem?_zipWith, hy, hz]
    · cases n <;> simp [dynFeas, gaps, hT]
    · cases n
      · exact maxabs_flatten (ls := diff x x0 :: List.zipWith diff xs xnexts)
      · have := sum_flatten (ls := diff x x0 :: List.zipWith diff xs xnexts)
        simpa [IsNorm] using this

/-- C20 (equalities). The equality feasibility is the selected norm of all equality residuals, running
and terminal. -/
theorem C20_equality (n : Norm) (hs : List (List K)) (hT : List K) :
    IsNorm n (hs ++ [hT]).flatten (eqFeas n hs hT) := by
  cases n
  · have e : eqFeas .linf hs hT = (hs ++ [hT]).foldl (fun a f => max a (lpInf f)) 0 := by
      have e1 : ∀ (hs : List (List K)) (a : K), 0 ≤ a →
          hs.foldl (fun a h => if 0 < h.length then max a (lpInf h) else a) a =
          hs.foldl (fun a f => max a (lpInf f)) a := by
        intro hs
        induction hs with
        | nil => intros; rfl
        | cons h hs ih =>
          intro a ha
          cases h with
          | nil => simp only [List.foldl_cons, List.length_nil, lt_irrefl, if_false]
                   rw [ih _ ha]; simp [lpInf, ha]
          | cons y h => simp only [List.foldl_cons, List.length_cons, Nat.zero_lt_succ, if_true]
                        exact ih _ (ha.trans (le_max_left _ _))
      have h0 := (foldl_max_spec (fun f : List K => lpInf f) hs 0).1
      simp only [eqFeas, List.foldl_append, List.foldl_cons, List.foldl_nil]
      rw [e1 hs 0 le_rfl]
      cases hT with
      | nil => simpa [lpInf] using h0
      | cons y h => simp
    rw [e]; exact maxabs_flatten
  · have e : eqFeas .l1 hs hT = (hs ++ [hT]).foldl (fun a f => a + lp1 f) 0 := by
      have e1 : (fun (a : K) (h : List K) => if 0 < h.length then a + lp1 h else a) =
          (fun a f => a + lp1 f) := by
        funext a h
        cases h with
        | nil => simp [lp1]
        | cons y h => simp
      simp only [eqFeas, List.foldl_append, List.foldl_cons, List.foldl_nil]
      rw [e1]
      cases hT with
      | nil => simp [lp1]
      | cons y h => simp
    show _ = _
    rw [e]; exact sum_flatten

omit [IsStrictOrderedRing K] in
/-- The inequality measure, without the guards on empty constraints. -/
theorem ineqFeas_linf (cs : List (Ineq K)) (cT : Ineq K) :
    ineqFeas .linf cs cT = (cs.map Ineq.viol).foldl (fun a f => max a (lpInf f)) 0 + lpInf cT.viol := by
  have e1 : ∀ (cs : List (Ineq K)) (a : K), 0 ≤ a →
      cs.foldl (fun a c => if 0 < c.g.length then max a (lpInf c.viol) else a) a =
      (cs.map Ineq.viol).foldl (fun a f => max a (lpInf f)) a := by
    intro cs
    induction cs with
    | nil => intros; rfl
    | cons c cs ih =>
      intro a ha
      simp only [List.foldl_cons, List.map_cons]
      by_cases h : 0 < c.g.length
      · rw [if_pos h]; exact ih _ (ha.trans (le_max_left _ _))
      · have : c.viol = [] := by
          have : c.g = [] := List.length_eq_zero_iff.1 (by omega)
          simp [Ineq.viol, this]
        rw [if_neg h, ih _ ha, this]; simp [lpInf, ha]
  simp only [ineqFeas]
  rw [e1 cs 0 le_rfl]
  split
  · rfl
  · rename_i h
    have : cT.viol = [] := by
      have : cT.g = [] := List.length_eq_zero_iff.1 (by omega)
      simp [Ineq.viol, this]
    simp [this, lpInf]

theorem ineqFeas_l1 (cs : List (Ineq K)) (cT : Ineq K) :
    ineqFeas .l1 cs cT = (cs.map Ineq.viol).foldl (fun a f => max a (lp1 f)) 0 + lp1 cT.viol := by
  have e1 : ∀ (cs : List (Ineq K)) (a : K), 0 ≤ a →
      cs.foldl (fun a c => if 0 < c.g.length then max a (lp1 c.viol) else a) a =
      (cs.map Ineq.viol).foldl (fun a f => max a (lp1 f)) a := by
    intro cs
    induction cs with
    | nil => intros; rfl
    | cons c cs ih =>
      intro a ha
      simp only [List.foldl_cons, List.map_cons]
      by_cases h : 0 < c.g.length
      · rw [if_pos h]; exact ih _ (ha.trans (le_max_left _ _))
      · rw [if_neg h, ih _ ha, c.viol_nil h]; simp [lp1, ha]
  simp only [ineqFeas]
  rw [e1 cs 0 le_rfl]
  split
  · rfl
  · rename_i h
    rw [cT.viol_nil h]; simp [lp1]

theorem maxabs_map_abs {l : List K} {r : K} : IsMaxAbs (l.map abs) r ↔ IsMaxAbs l r := by
  simp [IsMaxAbs]

/-- Missing from C20 for inequalities: with the l-infinity norm the terminal violation is added to, not
maximised with, the running ones (so this is stated without terminal constraints). -/
theorem C20_inequality_linf_partial (cs : List (Ineq K)) (cT : Ineq K)
    (hwf : ∀ c ∈ cs, c.WF) (hT : cT.g = []) :
    IsNorm .linf ((cs.map Ineq.excesses).flatten) (ineqFeas .linf cs cT) := by
  rw [ineqFeas_linf, cT.viol_nil (by simp [hT])]
  have e : (cs.map Ineq.excesses) = (cs.map Ineq.viol).map (List.map abs) := by
    rw [List.map_map]
    exact List.map_congr_left fun c hc => (c.viol_abs (hwf c hc)).symm
  have h := maxabs_flatten (ls := cs.map Ineq.viol)
  rw [← maxabs_map_abs, List.map_flatten, ← e] at h
  simpa [lpInf, IsNorm] using h

/-- Missing from C20 for inequalities: with the l1 norm the running nodes are combined by their maximum,
so this is stated for at most one running node with inequality constraints. -/
theorem C20_inequality_l1_partial (pre post : List (Ineq K)) (c cT : Ineq K)
    (hc : c.WF) (hT : cT.WF) (hpre : ∀ d ∈ pre ++ post, d.g = []) :
    IsNorm .l1 (((pre ++ c :: post ++ [cT]).map Ineq.excesses).flatten)
      (ineqFeas .l1 (pre ++ c :: post) cT) := by
  have hnil : ∀ l : List (Ineq K), (∀ d ∈ l, d.g = []) → (l.map Ineq.excesses).flatten = [] := by
    intro l hl
    rw [List.flatten_eq_nil_iff]
    intro x hx
    obtain ⟨d, hd, rfl⟩ := List.mem_map.1 hx
    simp [Ineq.excesses, Ineq.entries, hl d hd]
  have hfold : ∀ (l : List (Ineq K)) (a : K), 0 ≤ a → (∀ d ∈ l, d.g = []) →
      (l.map Ineq.viol).foldl (fun a f => max a (lp1 f)) a = a := by
    intro l
    induction l with
    | nil => intros; rfl
    | cons d l ih =>
      intro a ha hl
      have hd : d.viol = [] := d.viol_nil (by simp [hl d List.mem_cons_self])
      simp only [List.map_cons, List.foldl_cons, hd]
      have : max a (lp1 ([] : List K)) = a := by simp [lp1, ha]
      rw [this]
      exact ih a ha fun d hd => hl d (List.mem_cons_of_mem _ hd)
  have h1 := fun d (hd : d ∈ pre) => hpre d (List.mem_append_left _ hd)
  have h2 := fun d (hd : d ∈ post) => hpre d (List.mem_append_right _ hd)
  have habs : ∀ c : Ineq K, c.WF → (c.excesses.map abs).sum = lp1 c.viol := by
    intro c hc
    rw [lp1_spec, ← c.viol_abs hc, List.map_map]
    congr 1
    exact List.map_congr_left fun x _ => by simp
  show _ = _
  rw [ineqFeas_l1]
  simp only [List.map_append, List.map_cons, List.foldl_append, List.foldl_cons, List.flatten_append,
    List.flatten_cons, hnil _ h1, hnil _ h2, List.map_nil, List.flatten_nil, List.nil_append,
    List.append_nil, List.sum_append, habs _ hc, habs _ hT]
  rw [hfold pre 0 le_rfl h1, max_eq_right (lp1_nonneg _), hfold post _ (lp1_nonneg _) h2]

/-- C20 (inequalities, both norms): the measure is zero exactly when every inequality constraint of every
running node and of the terminal node is within its bounds. -/
theorem C20_inequality_zero_iff (n : Norm) (cs : List (Ineq K)) (cT : Ineq K)
    (hwf : ∀ c ∈ cs, c.WF) (hT : cT.WF) :
    0 ≤ ineqFeas n cs cT ∧
    (ineqFeas n cs cT = 0 ↔ ∀ c ∈ cs ++ [cT], ∀ e ∈ c.entries, Within e.1 e.2.1 e.2.2) := by
  have key : ∀ (f : List K → K), (∀ v, 0 ≤ f v) → (∀ v, f v = 0 ↔ ∀ x ∈ v, |x| = 0) →
      0 ≤ (cs.map Ineq.viol).foldl (fun a v => max a (f v)) 0 + f cT.viol ∧
      ((cs.map Ineq.viol).foldl (fun a v => max a (f v)) 0 + f cT.viol = 0 ↔
        ∀ c ∈ cs ++ [cT], ∀ e ∈ c.entries, Within e.1 e.2.1 e.2.2) := by
    intro f hf hz
    obtain ⟨a1, a2, a3⟩ := foldl_max_spec f (cs.map Ineq.viol) 0
    have hnode : ∀ c : Ineq K, c.WF →
        (f c.viol = 0 ↔ ∀ e ∈ c.entries, Within e.1 e.2.1 e.2.2) := by
      intro c hc
      have hv := c.viol_abs hc
      rw [hz]
      have : (∀ x ∈ c.viol, |x| = 0) ↔ ∀ y ∈ c.viol.map abs, y = 0 := by simp
      rw [this, hv]
      simp only [Ineq.excesses, List.mem_map, forall_exists_index, and_imp]
      constructor
      · intro h e he; exact (excess_eq_zero_iff _ _ _).1 (h _ e he rfl)
      · rintro h y e he rfl; exact (excess_eq_zero_iff _ _ _).2 (h e he)
    refine ⟨add_nonneg a1 (hf _), ?_⟩
    rw [add_eq_zero_iff_of_nonneg a1 (hf _)]
    simp only [List.mem_append, List.mem_singleton, or_imp, forall_and, forall_eq]
    refine and_congr ?_ (hnode cT hT)
    constructor
    · intro h c hc
      rw [← hnode c (hwf c hc)]
      exact le_antisymm (h ▸ a2 _ (List.mem_map_of_mem hc)) (hf _)
    · intro h
      rcases a3 with a3 | ⟨v, hv, a3⟩
      · exact a3
      · obtain ⟨c, hc, rfl⟩ := List.mem_map.1 hv
        rw [← a3, hnode c (hwf c hc)]
        exact h c hc
  cases n
  · rw [ineqFeas_linf]
    refine key lpInf (fun v => (lpInf_spec v).1) (fun v => ?_)
    obtain ⟨b1, b2, b3⟩ := lpInf_spec v
    constructor
    · intro h x hx; exact le_antisymm (h ▸ b2 x hx) (abs_nonneg x)
    · intro h
      rcases b3 with b3 | ⟨x, hx, b3⟩
      · exact b3
      · rw [← b3, h x hx]
  · rw [ineqFeas_l1]
    refine key lp1 lp1_nonneg (fun v => ?_)
    rw [lp1_spec]
    induction v with
    | nil => simp
    | cons x v ih =>
      have h0 : 0 ≤ (v.map abs).sum := by rw [← lp1_spec]; exact lp1_nonneg v
      simp only [List.map_cons, List.sum_cons, List.mem_cons, forall_eq_or_imp, ← ih]
      exact add_eq_zero_iff_of_nonneg (abs_nonneg x) h0

end norms

/-- C20 fails for the l-infinity norm with terminal inequality constraints: one running and one terminal
violation of size 1 are reported as 2. -/
theorem C20_inequality_linf_counterexample :
    let c : Ineq ℚ := ⟨[2], [none], [some 1]⟩
    c.WF ∧ ineqFeas .linf [c] c = 2 ∧ ¬ IsNorm .linf (([c, c].map Ineq.excesses).flatten) 2 := by
  refine ⟨⟨rfl, rfl, by simp⟩, ?_, ?_⟩
  · norm_num [ineqFeas, Ineq.viol, Ineq.adj, lpInf, clampLo, clampHi]
  · intro h
    rcases h.2.2 with h | ⟨v, hv, h⟩
    · norm_num at h
    · norm_num [Ineq.excesses, Ineq.entries, excess] at hv
      subst hv; norm_num at h

/-- C20 fails for the l1 norm with two constrained running nodes: two violations of size 1 are reported
as 1. -/
theorem C20_inequality_l1_counterexample :
    let c : Ineq ℚ := ⟨[2], [none], [some 1]⟩
    let cT : Ineq ℚ := ⟨[], [], []⟩
    c.WF ∧ ineqFeas .l1 [c, c] cT = 1 ∧ ¬ IsNorm .l1 (([c, c, cT].map Ineq.excesses).flatten) 1 := by
  refine ⟨⟨rfl, rfl, by simp⟩, ?_, ?_⟩
  · norm_num [ineqFeas, Ineq.viol, Ineq.adj, lp1, clampLo, clampHi]
  · intro h
    norm_num [IsNorm, Ineq.excesses, Ineq.entries, excess] at h

/-- C20 does not extend to the empty horizon, where the first running model is read. -/
theorem C20_empty_horizon_counterexample (n : Norm) (diff : ℚ → ℚ → List ℚ) (x0 x : ℚ) :
    dynFeas n diff x0 [x] [] = none := rfl

/-- A two-node instance of `C20_dynamic`: gaps 1, -2, 3. -/
example : dynFeas .linf (fun a b : ℚ => [b - a]) 1 [0, 3, 1] [1, 4] = some 3 ∧
    dynFeas .l1 (fun a b : ℚ => [b - a]) 1 [0, 3, 1] [1, 4] = some 6 := by
  constructor <;> norm_num [dynFeas, gaps, lpInf, lp1]

/-- A well-formed two-sided node, and one with infinite bounds. -/
example : (⟨[3, 0], [some 1, none], [some 2, some 0]⟩ : Ineq ℚ).WF ∧
    ineqFeas .linf [(⟨[3, 0], [some 1, none], [some 2, some 0]⟩ : Ineq ℚ)] ⟨[], [], []⟩ = 1 := by
  refine ⟨⟨rfl, rfl, ?_⟩, ?_⟩
  · simp
  · norm_num [ineqFeas, Ineq.viol, Ineq.adj, lpInf, clampLo, clampHi]

/-! ## C21 candidates -/

section cand
variable {K : Type} [Zero K]

/-- The size checks on the states, as a proposition. -/
theorem xs_checks (models : List (Dims K)) (term : Dims K) (xs : List (List K)) :
    xs.map List.length = models.map Dims.nx ++ [term.nx] ↔
    xs.length = models.length + 1 ∧
    ((xs.zip models).any fun p => p.1.length != p.2.nx) = false ∧
    xs[models.length]?.map List.length = some term.nx := by
  induction models generalizing xs with
  | nil =>
    rcases xs with _ | ⟨x, _ | ⟨y, xs⟩⟩ <;> simp
  | cons m ms ih =>
    rcases xs with _ | ⟨x, xs⟩
    · simp
    · have := ih xs
      simp only [List.map_cons, List.cons_append, List.cons.injEq, List.length_cons,
        List.zip_cons_cons, List.any_cons, Bool.or_eq_false_iff, List.getElem?_cons_succ,
        Nat.add_right_cancel_iff, this]
      simp only [bne_eq_false_iff_eq]
      tauto

theorem us_checks (models : List (Dims K)) (us : List (List K)) :
    us.map List.length = models.map Dims.nu ↔
    us.length = models.length ∧ ((us.zip models).any fun p => p.1.length != p.2.nu) = false := by
  induction models generalizing us with
  | nil => rcases us with _ | ⟨u, us⟩ <;> simp
  | cons m ms ih =>
    rcases us with _ | ⟨u, us⟩
    · simp
    · have := ih us
      simp only [List.map_cons, List.cons.injEq, List.length_cons,
        List.zip_cons_cons, List.any_cons, Bool.or_eq_false_iff,
        Nat.add_right_cancel_iff, this]
      simp only [bne_eq_false_iff_eq]
      tauto

theorem candXs_fit {models : List (Dims K)} {term : Dims K} {xs : List (List K)} {c : Cand K}
    (hx : c.xs.length = models.length + 1) (h : XsFit models term xs) :
    candXs models term xs c = .ok () { c with xs := xsOrZero models term xs } := by
  have hlast : (models.map Dims.zero ++ c.xs.drop models.length).dropLast = models.map Dims.zero := by
    have : (c.xs.drop models.length).length = 1 := by simp [hx]
    obtain ⟨y, hy⟩ := List.length_eq_one_iff.1 this
    simp [hy]
  have n1 : ¬ (c.xs.length < models.length ∨ c.xs.length = 0) := by omega
  by_cases hx0 : xs = []
  · subst hx0
    simp only [candXs, List.length_nil, if_true, if_neg n1, hlast, xsOrZero]
  · obtain ⟨a1, a2, a3⟩ := (xs_checks models term xs).1 (h.resolve_left hx0)
    have : c.xs.drop (models.length + 1) = [] := by simp [hx]
    have h0 : ¬ models.length + 1 = 0 := by omega
    simp only [candXs, a1, a2, a3, hx, xsOrZero, hx0, h0, this, lt_irrefl, ne_eq, not_true, if_false,
      Bool.false_eq_true, List.append_nil]

theorem candXs_unfit {models : List (Dims K)} {term : Dims K} {xs : List (List K)} {c : Cand K}
    (h : ¬ XsFit models term xs) : candXs models term xs c = .throw c := by
  have hx0 : xs ≠ [] := fun h0 => h (.inl h0)
  have h' := fun h' => h (.inr ((xs_checks models term xs).2 h'))
  simp only [candXs, List.length_eq_zero_iff, if_neg hx0]
  split
  · rfl
  · split
    · rfl
    · split
      · rfl
      · exfalso; apply h'; simp_all

theorem candUs_fit {models : List (Dims K)} {us : List (List K)} {c : Cand K}
    (hu : c.us.length = models.length) (h : UsFit models us) :
    candUs models us c = .ok () { c with us := usOrZero models us } := by
  have hd : c.us.drop models.length = [] := by simp [hu]
  by_cases hu0 : us = []
  · subst hu0
    simp [candUs, hu, usOrZero, hd]
  · obtain ⟨a1, a2⟩ := (us_checks models us).1 (h.resolve_left hu0)
    have : us.length ≠ 0 := by simpa using hu0
    rw [a1] at this
    simp only [candUs, a1, if_neg this, ne_eq, not_true, if_false, a2, hu, lt_irrefl, usOrZero,
      if_neg hu0, hd, List.append_nil, Bool.false_eq_true]

theorem candUs_unfit {models : List (Dims K)} {us : List (List K)} {c : Cand K}
    (h : ¬ UsFit models us) : candUs models us c = .throw c := by
  have hu0 : us ≠ [] := fun h0 => h (.inl h0)
  have h' := fun h' => h (.inr ((us_checks models us).2 h'))
  simp only [candUs, List.length_eq_zero_iff, if_neg hu0]
  split
  · rfl
  · split
    · rfl
    · exfalso; apply h'; simp_all

/-- C21 (success). With the stored vectors sized for the problem, `setCandidate` succeeds exactly when
both arguments fit, and then stores exactly them (zeros for empty ones) and the declared flag. -/
theorem C21_success (models : List (Dims K)) (term : Dims K) (xs us : List (List K)) (feas : Bool)
    (c : Cand K) (hx : c.xs.length = models.length + 1) (hu : c.us.length = models.length) :
    (XsFit models term xs ∧ UsFit models us →
      setCandidate models term xs us feas c =
        .ok () ⟨xsOrZero models term xs, usOrZero models us, feas⟩) ∧
    (¬ (XsFit models term xs ∧ UsFit models us) →
      ∃ c', setCandidate models term xs us feas c = .throw c') := by
  constructor
  · rintro ⟨h1, h2⟩
    simp only [setCandidate, Cpp.bind_apply, candXs_fit hx h1]
    rw [candUs_fit (by exact hu) h2]
    rfl
  · intro h
    by_cases h1 : XsFit models term xs
    · have h2 : ¬ UsFit models us := fun h2 => h ⟨h1, h2⟩
      simp only [setCandidate, Cpp.bind_apply, candXs_fit hx h1, candUs_unfit h2]
      exact ⟨_, rfl⟩
    · simp only [setCandidate, Cpp.bind_apply, candXs_unfit h1]
      exact ⟨_, rfl⟩

/-- Missing from C21: a throw caused by the controls leaves the new states installed. What holds: on any
throw the stored controls and the feasibility flag are unchanged; the states are unchanged when it is
the states that do not fit, and otherwise they are exactly the given ones. -/
theorem C21_throw_partial (models : List (Dims K)) (term : Dims K) (xs us : List (List K)) (feas : Bool)
    (c c' : Cand K) (hx : c.xs.length = models.length + 1)
    (h : setCandidate models term xs us feas c = .throw c') :
    c'.us = c.us ∧ c'.feas = c.feas ∧ (¬ XsFit models term xs → c' = c) ∧
    (XsFit models term xs → c'.xs = xsOrZero models term xs) := by
  by_cases h1 : XsFit models term xs
  · simp only [setCandidate, Cpp.bind_apply, candXs_fit hx h1] at h
    by_cases h2 : UsFit models us
    · have : ∀ d : Cand K, (∃ d', candUs models us d = .ok () d') ∨ candUs models us d = .ub := by
        intro d
        rcases h2 with rfl | h2
        · simp only [candUs, List.length_nil, if_true]; split <;> simp
        · obtain ⟨a1, a2⟩ := (us_checks models us).1 h2
          simp only [candUs]
          split
          · split <;> simp
          · simp only [a1, ne_eq, not_true, if_false, a2]
            split
            · contradiction
            · split <;> simp
      rcases this { c with xs := xsOrZero models term xs } with ⟨d, hd⟩ | hd
      · rw [hd] at h; simp at h
      · rw [hd] at h; simp at h
    · rw [candUs_unfit h2] at h
      simp only [Res.throw.injEq] at h
      subst h
      exact ⟨rfl, rfl, fun hn => absurd h1 hn, fun _ => rfl⟩
  · simp only [setCandidate, Cpp.bind_apply, candXs_unfit h1, Res.throw.injEq] at h
    subst h
    exact ⟨rfl, rfl, fun _ => rfl, fun h => absurd h h1⟩

/-- C21 (setters). `set_xs` and `set_us` are atomic: they store the argument or throw and change
nothing. -/
theorem C21_set_xs_us (models : List (Dims K)) (nx : Nat) (v : List (List K)) (c : Cand K) :
    (v.map List.length = List.replicate (models.length + 1) nx →
      setXs models.length nx v c = .ok () { c with xs := v }) ∧
    (v.map List.length ≠ List.replicate (models.length + 1) nx →
      setXs models.length nx v c = .throw c) ∧
    (v.map List.length = models.map Dims.nu → setUs models v c = .ok () { c with us := v }) ∧
    (v.map List.length ≠ models.map Dims.nu → setUs models v c = .throw c) := by
  have hxs : v.map List.length = List.replicate (models.length + 1) nx ↔
      v.length = models.length + 1 ∧ ((v.take models.length).any fun x => x.length != nx) = false ∧
        v[models.length]?.map List.length = some nx := by
    generalize models.length = T
    rw [List.eq_replicate_iff]
    simp only [List.length_map]
    constructor
    · rintro ⟨h1, h2⟩
      refine ⟨h1, ?_, ?_⟩
      · rw [List.any_eq_false]
        intro x hx
        simpa using h2 _ (List.mem_map_of_mem (List.mem_of_mem_take hx))
      · rw [List.getElem?_eq_getElem (by omega)]
        simp [h2 _ (List.mem_map_of_mem (List.getElem_mem _))]
    · rintro ⟨h1, h2, h3⟩
      refine ⟨h1, ?_⟩
      intro b hb
      obtain ⟨x, hx, rfl⟩ := List.mem_map.1 hb
      obtain ⟨i, hi, rfl⟩ := List.mem_iff_getElem.1 hx
      rcases Nat.lt_or_ge i T with h | h
      · rw [List.any_eq_false] at h2
        have := h2 v[i] (List.mem_take_iff_getElem.2 ⟨i, by omega, rfl⟩)
        simpa using this
      · have : i = T := by omega
        subst this
        rw [List.getElem?_eq_getElem (by omega)] at h3
        simpa using h3
  refine ⟨?_, ?_, ?_, ?_⟩
  · intro h
    obtain ⟨a1, a2, a3⟩ := hxs.1 h
    simp only [setXs, Cpp.bind_apply, Cpp.throwIf_apply, Cpp.modify_apply, a1, a2, a3, bne_self_eq_false,
      Bool.false_eq_true, if_false]
  · intro h
    have h' := fun h' => h (hxs.2 h')
    simp only [setXs, Cpp.bind_apply, Cpp.throwIf_apply, Cpp.modify_apply]
    by_cases b1 : v.length = models.length + 1
    · cases b2 : ((v.take models.length).any fun x => x.length != nx)
      · by_cases b3 : v[models.length]?.map List.length = some nx
        · exact absurd ⟨b1, b2, b3⟩ h'
        · have b3' : (v[models.length]?.map List.length != some nx) = true := by simpa using b3
          simp only [b1, b3', bne_self_eq_false, Bool.false_eq_true, if_false, if_true]
      · simp only [b1, bne_self_eq_false, Bool.false_eq_true, if_false, if_true]
    · have b1' : (v.length != models.length + 1) = true := by simpa using b1
      simp only [b1', if_true]
  · intro h
    obtain ⟨a1, a2⟩ := (us_checks models v).1 h
    simp [setUs, a1, a2]
  · intro h
    have h' := fun h' => h ((us_checks models v).2 h')
    simp only [setUs, Cpp.bind_apply, Cpp.throwIf_apply, Cpp.modify_apply]
    by_cases b1 : v.length = models.length <;>
    by_cases b2 : ((v.zip models).any fun p => p.1.length != p.2.nu) = false <;>
    simp_all

end cand

/-- C21 fails: states that fit together with controls that do not: the call throws, but the stored
states have been replaced while the flag still describes the old candidate. -/
theorem C21_atomic_counterexample :
    let m : Dims ℤ := ⟨1, 1, [0]⟩
    let c : Cand ℤ := ⟨[[0], [0]], [[0]], true⟩
    ∃ c', setCandidate [m] m [[1], [2]] [[1, 1]] false c = .throw c' ∧ c' ≠ c ∧
      c'.xs = [[1], [2]] ∧ c'.us = [[0]] ∧ c'.feas = true := by
  exact ⟨⟨[[1], [2]], [[0]], true⟩, by decide, by decide, rfl, rfl, rfl⟩

/-- Instances: a fitting call and one with default states. -/
example : let m : Dims ℤ := ⟨1, 2, [7]⟩
    setCandidate [m] m [[1], [2]] [[1, 1]] true ⟨[[0], [0]], [[0, 0]], false⟩ =
      .ok () ⟨[[1], [2]], [[1, 1]], true⟩ ∧
    setCandidate [m] m [] [] true ⟨[[0], [0]], [[3, 3]], false⟩ =
      .ok () ⟨[[7], [7]], [[0, 0]], true⟩ := by decide

/-! ## C22 parameters -/

section params
variable {K : Type} [Field K] [LinearOrder K] [IsStrictOrderedRing K]

/-- For numbers, a setter rejects exactly the values outside the documented range (all setters but the
box QP's `set_th_acceptstep`). -/
theorem rejects_iff (p : Param) (hp : p ≠ .qpThAcceptstep) (v : Flt K) (hv : v ≠ .nan) :
    rejects p v = false ↔ InRange p v := by
  cases p <;> first | exact absurd rfl hp | skip
  all_goals
    cases v <;>
      simp_all [rejects, InRange, Flt.ltb, Flt.leb, NonNeg, Pos, AboveOne, UnitOC]

/-- C22 (one call). A setter given a number accepts it exactly when it lies in the documented range; it
then stores it and nothing else changes; otherwise it throws and changes nothing. Missing: the box QP's
`set_th_acceptstep` and NaN. -/
theorem C22_setter_partial (p : Param) (hp : p ≠ .qpThAcceptstep) (v : Flt K) (hv : v ≠ .nan)
    (s : Params K) :
    (InRange p v → ∃ s', setParam p v s = .ok () s' ∧ s'.val p = v ∧ s'.alphas = s.alphas ∧
      ∀ q, q ≠ p → s'.val q = s.val q) ∧
    (¬ InRange p v → setParam p v s = .throw s) := by
  rw [← rejects_iff p hp v hv]
  constructor
  · intro h
    refine ⟨{ s with val := fun q => if q = p then v else s.val q }, by simp [setParam, h], by simp, rfl, ?_⟩
    intro q hq; simp [hq]
  · intro h
    simp [setParam, h]

/-- C22 (rejection). Whatever the arguments, a setter that throws has changed nothing. -/
theorem C22_rejected_unchanged (op : SetOp K) (s s' : Params K) (h : op.run s = .throw s') : s' = s := by
  cases op with
  | scalar p v =>
    simp only [SetOp.run, setParam, Cpp.bind_apply, Cpp.throwIf_apply, Cpp.modify_apply] at h
    cases hr : rejects p v <;> simp_all
  | regfactor v =>
    simp only [SetOp.run, setRegfactor, setParam, rejects, Cpp.bind_apply, Cpp.throwIf_apply,
      Cpp.modify_apply] at h
    cases hr : v.leb (.fin 1) <;> simp_all
  | alphas o as =>
    cases as with
    | nil => simp [SetOp.run, setAlphas] at h
    | cons a as =>
      simp only [SetOp.run, setAlphas, Cpp.bind_apply, Cpp.throwIf_apply, Cpp.modify_apply] at h
      cases hr : alphasReject a as <;> simp_all

/-- The decreasing tail of step lengths. -/
theorem alphasReject_iff (a : Flt K) (as : List (Flt K)) (ha : a ≠ .nan) (has : ∀ b ∈ as, b ≠ .nan) :
    alphasReject a as = false ↔ (∀ b ∈ as, Pos b) ∧ (a :: as).Pairwise Above := by
  have hpos : ∀ b : Flt K, b ≠ .nan → (b.leb (.fin 0) = false ↔ Pos b) := by
    intro b hb; cases b <;> simp_all [Flt.leb, Pos]
  have habove : ∀ a b : Flt K, a ≠ .nan → b ≠ .nan → (a.leb b = false ↔ Above a b) := by
    intro a b ha hb; cases a <;> cases b <;> simp_all [Flt.leb, Above]
  have htrans : ∀ a b c : Flt K, Above a b → Above b c → Above a c := by
    intro a b c h1 h2
    cases a <;> cases b <;> cases c <;> simp_all [Above]
    exact lt_trans h2 h1
  induction as generalizing a with
  | nil => simp [alphasReject]
  | cons b as ih =>
    have hb := has b List.mem_cons_self
    have has' := fun c hc => has c (List.mem_cons_of_mem b hc)
    simp only [alphasReject, Bool.or_eq_false_iff, ih b hb has', hpos b hb, habove a b ha hb,
      List.mem_cons, forall_eq_or_imp]
    constructor
    · rintro ⟨⟨h1, h2⟩, h3, h4⟩
      refine ⟨⟨h1, h3⟩, List.pairwise_cons.2 ⟨?_, h4⟩⟩
      intro c hc
      rcases List.mem_cons.1 hc with rfl | hc
      · exact h2
      · exact htrans _ _ _ h2 ((List.pairwise_cons.1 h4).1 c hc)
    · rintro ⟨⟨h1, h2⟩, h3⟩
      obtain ⟨h4, h5⟩ := List.pairwise_cons.1 h3
      exact ⟨⟨h1, h4 b List.mem_cons_self⟩, h2, h5⟩

/-- C22 (step lengths, one call). A list of at least two numbers is accepted exactly when it is positive
and strictly decreasing. Missing: a single step length is never checked, and NaN. -/
theorem C22_alphas_partial (o : AlphaOwner) (as : List (Flt K)) (hlen : 2 ≤ as.length)
    (hn : ∀ a ∈ as, a ≠ .nan) (s : Params K) :
    (AlphasOk as → ∃ s', setAlphas o as s = .ok () s' ∧ s'.alphas o = as ∧ s'.val = s.val ∧
      ∀ q, q ≠ o → s'.alphas q = s.alphas q) ∧
    (¬ AlphasOk as → setAlphas o as s = .throw s) := by
  rcases as with _ | ⟨a, as⟩
  · simp at hlen
  · have hiff : alphasReject a as = false ↔ AlphasOk (a :: as) := by
      rw [alphasReject_iff a as (hn a List.mem_cons_self) fun b hb => hn b (List.mem_cons_of_mem _ hb)]
      simp only [AlphasOk, ne_eq, reduceCtorEq, not_false_iff, true_and, List.mem_cons,
        forall_eq_or_imp]
      constructor
      · rintro ⟨h1, h2⟩
        refine ⟨⟨?_, h1⟩, h2⟩
        rcases as with _ | ⟨b, as⟩
        · simp at hlen
        · have hb := h1 b List.mem_cons_self
          have := (List.pairwise_cons.1 h2).1 b List.mem_cons_self
          clear hn hlen h2
          cases a <;> cases b <;> simp_all [Above, Pos]
          exact h1.1.trans this
      · rintro ⟨⟨_, h1⟩, h2⟩; exact ⟨h1, h2⟩
    rw [← hiff]
    constructor
    · intro h
      refine ⟨{ s with alphas := fun q => if q = o then a :: as else s.alphas q },
        by simp [setAlphas, h], by simp, rfl, fun q hq => by simp [hq]⟩
    · intro h
      simp [setAlphas, h]

/-- All scalar parameters but one are in range, and the step lengths decrease. -/
def ParamsOk (s : Params K) : Prop :=
  (∀ p, p ≠ .qpThAcceptstep → InRange p (s.val p)) ∧
  ∀ o, s.alphas o ≠ [] ∧ (∀ a ∈ (s.alphas o).tail, Pos a) ∧ (s.alphas o).Pairwise Above

theorem ParamsOk.setParam {s s' : Params K} {p : Param} {v : Flt K} (hv : v ≠ .nan) (h : ParamsOk s)
    (hr : setParam p v s = .ok () s') : ParamsOk s' := by
  simp only [Solver.setParam, Cpp.bind_apply, Cpp.throwIf_apply, Cpp.modify_apply] at hr
  cases hj : rejects p v
  · simp only [hj, Bool.false_eq_true, if_false, Res.ok.injEq, true_and] at hr
    subst hr
    refine ⟨fun q hq => ?_, h.2⟩
    by_cases e : q = p
    · subst e
      simpa using (rejects_iff q hq v hv).1 hj
    · simpa [e] using h.1 q hq
  · simp [hj] at hr

theorem ParamsOk.next {s s' : Params K} {op : SetOp K} (hn : op.NoNaN) (h : ParamsOk s)
    (hr : op.next s = some s') : ParamsOk s' := by
  unfold SetOp.next at hr
  cases hrun : op.run s with
  | ub => simp [hrun] at hr
  | throw t =>
    simp only [hrun, Option.some.injEq] at hr
    subst hr
    rw [C22_rejected_unchanged op s t hrun]; exact h
  | ok u t =>
    simp only [hrun, Option.some.injEq] at hr
    subst hr
    cases op with
    | scalar p v => exact h.setParam hn hrun
    | regfactor v =>
      simp only [SetOp.run, setRegfactor, Cpp.bind_apply, Cpp.throwIf_apply] at hrun
      cases hl : v.leb (.fin 1)
      · simp only [hl, Bool.false_eq_true, if_false] at hrun
        cases h1 : Solver.setParam .regInc v s with
        | ok u1 s1 => rw [h1] at hrun; exact (h.setParam hn h1).setParam hn hrun
        | throw s1 => rw [h1] at hrun; simp at hrun
        | ub => rw [h1] at hrun; simp at hrun
      · simp [hl] at hrun
    | alphas o as =>
      cases as with
      | nil => simp [SetOp.run, setAlphas] at hrun
      | cons a as =>
        simp only [SetOp.run, setAlphas, Cpp.bind_apply, Cpp.throwIf_apply, Cpp.modify_apply] at hrun
        cases hj : alphasReject a as
        · simp only [hj, Bool.false_eq_true, if_false, Res.ok.injEq, true_and] at hrun
          subst hrun
          have hk := (alphasReject_iff a as (hn a List.mem_cons_self)
            (fun b hb => hn b (List.mem_cons_of_mem _ hb))).1 hj
          refine ⟨h.1, fun q => ?_⟩
          by_cases e : q = o
          · subst e; simpa using hk
          · simpa [e] using h.2 q
        · simp [hj] at hrun

/-- C22 (histories). From a solver with valid parameters, any sequence of setter calls with numbers as
arguments, each accepted or rejected, leaves every parameter in its documented range, and the step
lengths decreasing and positive after the first. Missing: the box QP's acceptance threshold, the
positivity of a first step length without successors, NaN arguments, and the empty list of step lengths
(undefined behaviour). -/
theorem C22_history_partial (ops : List (SetOp K)) (hn : ∀ op ∈ ops, op.NoNaN) (s s' : Params K)
    (h : ParamsOk s) (hr : runSets ops s = some s') :
    (∀ p, p ≠ .qpThAcceptstep → InRange p (s'.val p)) ∧
    ∀ o, s'.alphas o ≠ [] ∧ (∀ a ∈ (s'.alphas o).tail, Pos a) ∧ (s'.alphas o).Pairwise Above := by
  induction ops generalizing s with
  | nil =>
    simp only [runSets, Option.some.injEq] at hr
    subst hr; exact h
  | cons op ops ih =>
    simp only [runSets, Option.bind_eq_some_iff] at hr
    obtain ⟨t, h1, h2⟩ := hr
    exact ih (fun o ho => hn o (List.mem_cons_of_mem _ ho)) t
      (h.next (hn op List.mem_cons_self) h1) h2

/-- The constructor's parameters are valid. -/
theorem C22_init : ParamsOk (Params.init : Params ℚ) := by
  constructor
  · intro p hp
    cases p <;> first | exact absurd rfl hp | skip
    all_goals norm_num [InRange, Params.init, NonNeg, Pos, AboveOne, UnitOC]
  · intro o
    refine ⟨by simp [Params.init], ?_, ?_⟩
    · norm_num [Params.init, List.range, List.range.loop, Pos]
    · norm_num [Params.init, List.range, List.range.loop, Above]

end params

/-- C22 fails for NaN: no guard rejects it. -/
theorem C22_nan_counterexample (p : Param) (s : Params ℚ) :
    (∃ s', setParam p .nan s = .ok () s' ∧ s'.val p = .nan) ∧ ¬ InRange p (.nan : Flt ℚ) := by
  constructor
  · refine ⟨{ s with val := fun q => if q = p then .nan else s.val q }, ?_, by simp⟩
    cases p <;> simp [setParam, rejects, Flt.ltb, Flt.leb]
  · cases p <;> simp [InRange, NonNeg, Pos, AboveOne, UnitOC, HalfOO]

/-- C22 fails for the box QP's acceptance threshold: its guard `0 >= th && th >= 0.5` never holds, every
value is stored. -/
theorem C22_boxqp_counterexample (v : Flt ℚ) (s : Params ℚ) :
    ∃ s', setParam .qpThAcceptstep v s = .ok () s' ∧ s'.val .qpThAcceptstep = v := by
  refine ⟨{ s with val := fun q => if q = .qpThAcceptstep then v else s.val q }, ?_, by simp⟩
  have : rejects .qpThAcceptstep v = false := by
    cases v <;> simp [rejects, Flt.leb]
    intro h; linarith
  simp [setParam, this]

/-- C22 fails for a single step length: a non-positive one is stored. -/
theorem C22_alphas_counterexample (o : AlphaOwner) (v : Flt ℚ) (s : Params ℚ) :
    (∃ s', setAlphas o [v] s = .ok () s' ∧ s'.alphas o = [v]) ∧
    setAlphas o [] s = .ub := by
  exact ⟨⟨{ s with alphas := fun q => if q = o then [v] else s.alphas q }, rfl, by simp⟩, rfl⟩

/-- A history with an accepted, a rejected and a list-valued call. -/
example : ∃ s, runSets [.scalar .thStop (.fin 1), .scalar .preg (.fin (-1)),
      .alphas .ddp [.fin 1, .fin (1/2)]] (Params.init : Params ℚ) = some s ∧
      s.val .thStop = .fin 1 ∧ s.val .preg = .fin 0 ∧ s.alphas .ddp = [.fin 1, .fin (1/2)] := by
  norm_num [runSets, SetOp.next, SetOp.run, setParam, setAlphas, rejects, alphasReject, Flt.leb, Flt.ltb,
    Params.init]
  decide

/-! ## C23 regularisation -/

section reg
variable {K : Type} [Field K] [LinearOrder K] [IsStrictOrderedRing K]

/-- C23 (bounds). With ordered bounds, any sequence of increases and decreases started within the bounds
stays within them. -/
theorem C23_bounds (r : Reg K) (hinc : 1 < r.inc) (hdec : 1 < r.dec) (h0 : 0 ≤ r.min)
    (hmm : r.min ≤ r.max) (ops : List RegOp) (p : K) (hp : r.min ≤ p ∧ p ≤ r.max) :
    r.min ≤ regAfter r ops p ∧ regAfter r ops p ≤ r.max := by
  induction ops generalizing p with
  | nil => exact hp
  | cons op ops ih =>
    have hp0 : 0 ≤ p := h0.trans hp.1
    cases op
    · apply ih
      simp only [increase]
      split
      · exact ⟨hmm, le_rfl⟩
      · exact ⟨hp.1.trans (le_mul_of_one_le_right hp0 hinc.le), by linarith⟩
    · apply ih
      simp only [decrease]
      split
      · exact ⟨le_rfl, hmm⟩
      · exact ⟨by linarith, (div_le_self hp0 hdec.le).trans hp.2⟩

/-- C23 (back-off). From a positive value, finitely many increases reach `reg_max`, and further increases
stay there. -/
theorem C23_reaches_max [Archimedean K] (r : Reg K) (hinc : 1 < r.inc) (hmax : 0 ≤ r.max) (p : K)
    (hp : 0 < p) : ∃ n, ∀ m, n ≤ m → regAfter r (List.replicate m .inc) p = r.max := by
  have hfix : ∀ m, regAfter r (List.replicate m .inc) r.max = r.max := by
    intro m
    induction m with
    | zero => rfl
    | succ m ih =>
      simp only [List.replicate_succ, regAfter, increase]
      have : r.max ≤ r.max * r.inc := le_mul_of_one_le_right hmax hinc.le
      split
      · exact ih
      · rw [le_antisymm (not_lt.1 ‹_›) this]; exact ih
  obtain ⟨n, hn⟩ := pow_unbounded_of_one_lt (r.max / p) hinc
  have hn' : r.max < p * r.inc ^ n := by
    rw [div_lt_iff₀ hp] at hn; linarith
  refine ⟨n + 1, fun m hm => ?_⟩
  have key : ∀ n m p, 0 < p → r.max < p * r.inc ^ n → n + 1 ≤ m →
      regAfter r (List.replicate m .inc) p = r.max := by
    intro n
    induction n with
    | zero =>
      intro m p hp h hm
      obtain ⟨m, rfl⟩ : ∃ k, m = k + 1 := ⟨m - 1, by omega⟩
      simp only [List.replicate_succ, regAfter, increase]
      have h1 : p ≤ p * r.inc := le_mul_of_one_le_right hp.le hinc.le
      rw [if_pos (by simp at h; linarith)]
      exact hfix m
    | succ n ih =>
      intro m p hp h hm
      obtain ⟨m, rfl⟩ : ∃ k, m = k + 1 := ⟨m - 1, by omega⟩
      simp only [List.replicate_succ, regAfter, increase]
      split
      · exact hfix m
      · refine ih m _ (by positivity) ?_ (by omega)
        rw [pow_succ] at h; linarith [mul_assoc p r.inc (r.inc ^ n), mul_comm r.inc (r.inc ^ n)]
  exact key n m p hp hn' hm

end reg

/-- C23 fails when `reg_min` was set above `reg_max`, which no setter prevents: starting in bounds for
`reg_max`, a decrease raises the value above `reg_max`. -/
theorem C23_bounds_counterexample :
    (∃ s, runSets [.scalar .regMin (.fin 3), .scalar .regMax (.fin 2)] (Params.init : Params ℚ) = some s ∧
      s.val .regMin = .fin 3 ∧ s.val .regMax = .fin 2) ∧
    regAfter (⟨10, 10, 3, 2⟩ : Reg ℚ) [.dec] 1 = 3 := by
  constructor
  · norm_num [runSets, SetOp.next, SetOp.run, setParam, rejects, Flt.leb, Flt.ltb, Params.init]
    decide
  · norm_num [regAfter, decrease]

/-- C23 fails from zero (`solve(..., reg_init = 0)`, or `set_reg_min(0)`): no number of increases leaves
zero. -/
theorem C23_zero_counterexample (r : Reg ℚ) (h : 0 < r.max) (n : Nat) :
    regAfter r (List.replicate n .inc) 0 = 0 := by
  induction n with
  | zero => rfl
  | succ n ih =>
    have : increase r 0 = 0 := by simp [increase, h.le]
    simp only [List.replicate_succ, regAfter, this]
    exact ih

/-- The default parameters satisfy the hypotheses of `C23_bounds` and `C23_reaches_max`. -/
example : let r : Reg ℚ := ⟨10, 10, 1 / 10 ^ 9, 10 ^ 9⟩
    1 < r.inc ∧ 1 < r.dec ∧ 0 ≤ r.min ∧ r.min ≤ r.max ∧ 0 < r.min := by norm_num

end Verif.Solver
