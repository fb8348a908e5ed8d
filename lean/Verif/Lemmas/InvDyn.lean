import Verif.Spec.InvDyn
import Verif.Lemmas.FwdDyn
import Verif.Props.Actuation

/-!
# Lemmas on the inverse dynamics
-/

set_option linter.unusedSectionVars false

namespace Verif.Inv

open Matrix Verif.Fwd

variable {X : Type} {nv nc nu m : ℕ}

/-! ### Writing rows -/

section rows

variable {α : Type} {n : ℕ}

theorem writeStep_none (skip : Fin n → Bool) (src : Fin n → α) (L : List (Fin n)) :
    L.foldl (writeStep (m := m) skip src) none = none := by
  induction L with
  | nil => rfl
  | cons k L ih => simpa [writeStep] using ih

theorem writeStep_fold (skip : Fin n → Bool) (src : Fin n → α) (L U : List (Fin n)) (hU : (L.filter fun k => !skip k) = U)
    (i : ℕ) (d : Fin m → α) :
    L.foldl (writeStep skip src) (some (i, d)) =
      if i + U.length ≤ m ∨ U = [] then
        some (i + U.length, fun j => if h : i ≤ j.val ∧ j.val - i < U.length then src (U[j.val - i]) else d j)
      else none := by
  induction L generalizing i d U with
  | nil =>
    rw [List.filter_nil] at hU
    subst hU
    simp
  | cons k L ih =>
    rw [List.foldl_cons]
    by_cases hk : skip k = true
    · have : writeStep skip src (some (i, d)) k = some (i, d) := by simp [writeStep, hk]
      rw [this]
      exact ih U (by simpa [hk] using hU) i d
    · obtain ⟨V, rfl, hV⟩ : ∃ V, U = k :: V ∧ (L.filter fun k => !skip k) = V :=
        ⟨_, by rw [← hU]; simp [hk], rfl⟩
      by_cases hi : i < m
      · have : writeStep skip src (some (i, d)) k = some (i + 1, Function.update d ⟨i, hi⟩ (src k)) := by
          simp [writeStep, hk, hi]
        rw [this, ih V hV]
        simp only [List.length_cons, reduceCtorEq, or_false]
        have hc : (i + 1 + V.length ≤ m ∨ V = []) ↔ i + (V.length + 1) ≤ m := by
          constructor
          · rintro (h | h)
            · omega
            · rw [h]; simp; omega
          · intro h; left; omega
        by_cases hm : i + (V.length + 1) ≤ m
        · rw [if_pos (hc.2 hm), if_pos hm]
          congr 2
          · omega
          · funext j
            by_cases h1 : i ≤ j.val
            · rcases h1.eq_or_lt with h2 | h2
              · have hj : j = ⟨i, hi⟩ := Fin.ext h2.symm
                subst hj
                simp
              · by_cases h3 : j.val - i < V.length + 1
                · rw [dif_pos ⟨h2, by omega⟩, dif_pos ⟨h1, h3⟩]
                  congr 1
                  have : j.val - i = (j.val - (i + 1)) + 1 := by omega
                  simp only [this, List.getElem_cons_succ]
                · rw [dif_neg (by omega), dif_neg (by omega)]
                  rw [Function.update_of_ne]
                  intro h; rw [h] at h2; exact lt_irrefl _ h2
            · rw [dif_neg (by omega), dif_neg (by omega), Function.update_of_ne]
              intro h; rw [h] at h1; exact h1 le_rfl
        · rw [if_neg (fun h => hm (hc.1 h)), if_neg hm]
      · have : writeStep skip src (some (i, d)) k = none := by simp [writeStep, hk, hi]
        rw [this, writeStep_none, if_neg]
        simp only [List.length_cons, reduceCtorEq, or_false]
        omega

/-- The rows that are written, if there is room for them. -/
theorem writeRows_eq (skip : Fin n → Bool) (src : Fin n → α) (dst : Fin m → α)
    (h : ((List.finRange n).filter fun k => !skip k).length ≤ m) :
    writeRows skip src dst = some fun j =>
      if h : j.val < ((List.finRange n).filter fun k => !skip k).length
      then src (((List.finRange n).filter fun k => !skip k)[j.val]) else dst j := by
  have h1 := writeStep_fold skip src (List.finRange n) _ rfl 0 dst
  rw [if_pos (Or.inl (by omega))] at h1
  have : writeRows skip src dst = ((List.finRange n).foldl (writeStep skip src) (some (0, dst))).map (·.2) := rfl
  rw [this, h1]
  simp

/-- There is no room. -/
theorem writeRows_none (skip : Fin n → Bool) (src : Fin n → α) (dst : Fin m → α)
    (h : m < ((List.finRange n).filter fun k => !skip k).length) : writeRows skip src dst = none := by
  have h1 := writeStep_fold skip src (List.finRange n) _ rfl 0 dst
  rw [if_neg] at h1
  · have : writeRows skip src dst = ((List.finRange n).foldl (writeStep skip src) (some (0, dst))).map (·.2) := rfl
    rw [this, h1]
    rfl
  · rintro (h2 | h2)
    · omega
    · rw [h2] at h; simp at h

/-- The rows fit exactly. -/
theorem writeRows_full (skip : Fin n → Bool) (src : Fin n → α) (dst : Fin m → α)
    (h : ((List.finRange n).filter fun k => !skip k).length = m) :
    writeRows skip src dst = some fun j => src (((List.finRange n).filter fun k => !skip k)[j.val]'(by omega)) := by
  rw [writeRows_eq skip src dst h.le]
  congr 1
  funext j
  rw [dif_pos (by omega)]

end rows

/-! ### Actuation -/

theorem run_snoc (A : Act.Model ℝ X nv nu (nv + nv)) (ops : List (Act.Op ℝ X nv nu)) (o : Act.Op ℝ X nv nu) :
    A.step (A.run ops) o = A.run (ops ++ [o]) := by
  simp [Act.Model.run]

theorem count_ge {nfb : ℕ} (h : nfb ≤ nv) :
    ((List.finRange nv).filter fun k => !decide (nfb ≤ k.val)).length = nfb := by
  have h1 : ((List.finRange nv).filter fun k => !decide (nfb ≤ k.val)).length
      = (Finset.univ.filter fun k : Fin nv => k.val < nfb).card := by
    rw [← List.toFinset_card_of_nodup ((List.nodup_finRange nv).filter _)]
    congr 1
    ext k
    simp
  rw [h1, Fin.card_filter_val_lt]
  omega

/-- The floating base drives all joints but the first `nfb`. -/
theorem floating_drives {nfb : ℕ} (h : nfb ≤ nv) :
    Drives (Act.floating nv nfb : Act.Model ℝ X nv (nv - nfb) (nv + nv)) (fun k => decide (nfb ≤ k.val))
      (Act.Spec.select nv nfb) where
  eval ops x u := (Act.C57_floating h ops x u 0).2.1
  cmd ops x τ := by
    have := (Act.C57_floating (ndx := nv + nv) h ops x 0 τ).2.2.2.2.2.2.2.1
    rw [this, (Act.floating_inv h ops).2.2.2.1]
  mtau ops := (Act.floating_inv h ops).2.2.2.1
  dx ops := (Act.floating_inv h ops).2.1
  du ops := (Act.floating_inv h ops).2.2.1
  set ops := funext fun j => (Act.floating_inv h ops).2.2.2.2 j
  orth := by
    have := (Act.C57_floating (K := ℝ) (X := Unit) (ndx := 0) h [] () 0 0).2.2.2.2.2.2.1
    rwa [(Act.floating_inv h []).2.2.2.1, (Act.floating_inv h []).2.2.1] at this
  free u k hk := by
    rw [Act.select_mulVec h, dif_neg (by simpa using hk)]
  onto τ hτ := by
    have h1 := (Act.C57_floating (K := ℝ) (X := Unit) (ndx := 0) h [] () 0 τ).2.2.2.2.2.1 fun j hj =>
      hτ j (by simpa using hj)
    have h2 := (Act.C57_floating (K := ℝ) (X := Unit) (ndx := 0) h [.commands () τ] ()
      ((Act.Spec.select nv nfb : Mat nv (nv - nfb))ᵀ *ᵥ τ) 0).2.1
    have h3 := (Act.C57_floating (K := ℝ) (X := Unit) (ndx := 0) h [] () 0 τ).2.2.2.2.2.2.2.1
    rw [(Act.floating_inv h []).2.2.2.1] at h3
    rw [h3] at h1
    rw [← h2]
    exact h1
  count := by rw [count_ge h]; omega

theorem full_drives [Inhabited X] : Drives (Act.full : Act.Model ℝ X nv nv (nv + nv)) (fun _ => true) 1 where
  eval ops x u := by rw [one_mulVec]; exact (Act.C57_full ops x u 0).1
  cmd ops x τ := by
    have h := Act.C57_full (ndx := nv + nv) ops x 0 τ
    rw [h.2.2.2.2.2.2.2.1, h.2.2.2.2.2.2.1, transpose_one]
  mtau ops := by
    rw [transpose_one]
    exact (Act.C57_full (ndx := nv + nv) ops default 0 0).2.2.2.2.2.2.1
  dx ops := (Act.C57_full (ndx := nv + nv) ops default 0 0).2.2.2.1
  du ops := (Act.C57_full (ndx := nv + nv) ops default 0 0).2.2.1
  set ops := funext (Act.C57_full (ndx := nv + nv) ops default 0 0).2.2.2.2.2.2.2.2
  orth := by simp
  free u k hk := by simp at hk
  onto τ _ := by simp
  count := by simp

/-! ### The calls -/

section calls

variable {P : Plant X nv nc} {A : Act.Model ℝ X nv nu (nv + nv)} {rest : X → X}
  {pinv : Matrix (Fin nv) (Fin nu ⊕ Fin nc) ℝ → Matrix (Fin nu ⊕ Fin nc) (Fin nv) ℝ} {S : Fin nv → Bool} {B : Mat nv nu}

/-- What the calls keep: the actuation data has a history, the derivatives of the acceleration are never written. -/
def Kept (A : Act.Model ℝ X nv nu (nv + nv)) (d : Dat nv nc nu m) : Prop :=
  (∃ ops, d.act = A.run ops) ∧ d.Fx = 0 ∧ d.Fu = fromCols 1 0

theorem Reach.kept {d : Dat nv nc nu m} (h : Reach P A rest pinv d) : Kept A d := by
  induction h with
  | create => exact ⟨⟨[], rfl⟩, rfl, rfl⟩
  | @value d e on x u _ he ih =>
    obtain ⟨⟨ops, ho⟩, h1, h2⟩ := ih
    simp only [invCalc] at he
    split at he
    · cases he
    · rw [Option.some.injEq] at he
      subst he
      generalize hτ : P.rnea x u.1 (P.lay.seen on fun i => if on i then u.2 i else 0) = τ
      refine ⟨⟨ops ++ [.commands x τ] ++ [.eval x (A.commands d.act x τ).u], ?_⟩, h1, h2⟩
      rw [← run_snoc, ← run_snoc, ← ho]
      rfl
  | @diff d e on x u _ he ih =>
    obtain ⟨⟨ops, ho⟩, h1, h2⟩ := ih
    simp only [invDiff] at he
    split at he
    · rw [Option.some.injEq] at he
      subst he
      refine ⟨⟨ops ++ [.calcDiff x d.jtau] ++ [.torque x d.jtau], ?_⟩, h1, h2⟩
      rw [← run_snoc, ← run_snoc, ← ho]
      rfl
    · cases he
  | @static d e u on x _ he ih =>
    obtain ⟨⟨ops, ho⟩, h1, h2⟩ := ih
    simp only [invStatic] at he
    split at he
    · cases he
    · rw [Option.some.injEq, Prod.mk.injEq] at he
      obtain ⟨he, -⟩ := he
      subst he
      refine ⟨⟨ops ++ [.eval (rest x) 0] ++ [.calcDiff (rest x) 0], ?_⟩, h1, h2⟩
      rw [← run_snoc, ← run_snoc, ← ho]
      rfl

/-- The joints that are not driven. -/
abbrev undriven (S : Fin nv → Bool) : List (Fin nv) := (List.finRange nv).filter fun k => !S k

/-- The result of `calc`. -/
theorem invCalc_spec (hA : Drives A S B) (hm : m + nu = nv) {d : Dat nv nc nu m} (hd : Kept A d) (on : Fin nc → Bool) (x : X)
    (a : Vec nv) (f : Vec nc) :
    ∃ e, invCalc P A on d x (a, f) = some e ∧ Kept A e ∧ e.xout = a ∧ e.ja = a ∧ e.f = forces on f
      ∧ e.Jc = of (fun i => if on i then P.J x i else 0)
      ∧ e.ptau = P.rnea x a (P.lay.seen on (forces on f)) ∧ e.jtau = Bᵀ *ᵥ e.ptau ∧ e.act.tau = B *ᵥ e.jtau
      ∧ (∃ h : (undriven S).length = m, ∀ j, e.r j = e.ptau ((undriven S)[j.val]'(by omega)))
      ∧ (∀ i, e.rc i = if on i then P.acc x a i else 0) := by
  obtain ⟨⟨ops, ho⟩, h1, h2⟩ := hd
  have hlen : (undriven S).length = m := by
    have h : (undriven S).length + nu = nv := hA.count
    omega
  have hf : (fun i => if on i then f i else 0) = forces on f := rfl
  set τ := P.rnea x a (P.lay.seen on (forces on f)) with hτ
  set d1 := A.commands d.act x τ with hd1
  have hd1r : d1 = A.run (ops ++ [.commands x τ]) := by rw [← run_snoc, ← ho]; rfl
  have hu : d1.u = Bᵀ *ᵥ τ := by rw [hd1, ho]; exact hA.cmd ops x τ
  set d2 := A.eval d1 x d1.u with hd2
  have hd2r : d2 = A.run (ops ++ [.commands x τ] ++ [.eval x d1.u]) := by rw [← run_snoc, ← hd1r]; rfl
  have hset : d2.tauSet = S := by rw [hd2r]; exact hA.set _
  have htau : d2.tau = B *ᵥ d1.u := by rw [hd2, hd1r]; exact hA.eval _ x _
  have hw : writeRows d2.tauSet τ d.r = some fun j => τ ((undriven S)[j.val]'(by omega)) := by
    rw [hset]; exact writeRows_full S τ d.r hlen
  have hc : invCalc P A on d x (a, f) = some { d with
      xout := a, ptau := τ, act := d2, ja := a, jtau := d1.u, f := forces on f
      Jc := of fun i => if on i = true then P.J x i else 0
      r := fun j => τ ((undriven S)[j.val]'(by omega))
      rc := fun i => if on i = true then P.acc x a i else forces on f i } := by
    simp only [invCalc, hf, ← hτ, ← hd1, ← hd2, hw]
    rfl
  refine ⟨_, hc, ⟨⟨_, hd2r⟩, h1, h2⟩, rfl, rfl, rfl, rfl, rfl, hu, htau,
    ⟨hlen, fun j => rfl⟩, fun i => ?_⟩
  change (if on i then P.acc x a i else forces on f i) = _
  by_cases hi : on i = true <;> simp [forces, hi]

/-- `calc` with any actuation: what becomes of the residual "tau". -/
theorem invCalc_rows {d : Dat nv nc nu m} {on : Fin nc → Bool} {x : X} {a : Vec nv} {f : Vec nc} {τ : Vec nv}
    (hτ : P.rnea x a (P.lay.seen on (forces on f)) = τ) {S : Fin nv → Bool}
    (hS : (A.eval (A.commands d.act x τ) x (A.commands d.act x τ).u).tauSet = S) :
    (∀ r, writeRows S τ d.r = some r → ∃ e, invCalc P A on d x (a, f) = some e ∧ e.r = r)
    ∧ (writeRows S τ d.r = none → invCalc P A on d x (a, f) = none) := by
  have hf : (fun i => if on i then f i else 0) = forces on f := rfl
  constructor
  · intro r hr
    simp only [invCalc, hf, hτ, hS, hr]
    exact ⟨_, rfl, rfl⟩
  · intro hr
    simp only [invCalc, hf, hτ, hS, hr]

/-- The result of `calcDiff`. -/
theorem invDiff_spec (hA : Drives A S B) (hm : m + nu = nv) {d : Dat nv nc nu m} (hd : Kept A d) (on : Fin nc → Bool) (x : X)
    (a : Vec nv) (f : Vec nc) :
    ∃ e, invDiff P A on d x (a, f) = some e ∧ Kept A e ∧ e.xout = d.xout ∧ e.r = d.r ∧ e.rc = d.rc ∧ e.jtau = d.jtau
      ∧ e.pdtau = P.rneaDx x a (P.lay.seen on d.f) + fromCols (P.dtau x d.f) 0 ∧ e.pM = mirror (P.M x)
      ∧ e.jdtau_dx = Bᵀ * e.pdtau ∧ e.jdtau_du = fromCols (Bᵀ * e.pM) (-Bᵀ * d.Jcᵀ)
      ∧ (∃ h : (undriven S).length = m,
          (∀ j, e.Rx j = e.pdtau ((undriven S)[j.val]'(by omega)))
          ∧ ∀ j, e.Ru j = (fromCols e.pM (-d.Jcᵀ) : Matrix (Fin nv) (Fin nv ⊕ Fin nc) ℝ) ((undriven S)[j.val]'(by omega)))
      ∧ (∀ i, e.Cx i = if on i then P.da0 x a i else 0)
      ∧ (∀ i, e.Cu i = if on i then Sum.elim (P.J x i) 0 else Sum.elim 0 (Pi.single i 1)) := by
  obtain ⟨⟨ops, ho⟩, h1, h2⟩ := hd
  have hlen : (undriven S).length = m := by
    have h : (undriven S).length + nu = nv := hA.count
    omega
  set d1 := A.calcDiff d.act x d.jtau with hd1
  have hd1r : d1 = A.run (ops ++ [.calcDiff x d.jtau]) := by rw [← run_snoc, ← ho]; rfl
  set d2 := A.torque d1 x d.jtau with hd2
  have hd2r : d2 = A.run (ops ++ [.calcDiff x d.jtau] ++ [.torque x d.jtau]) := by rw [← run_snoc, ← hd1r]; rfl
  have hset : d2.tauSet = S := by rw [hd2r]; exact hA.set _
  have hmt : d2.mtau = Bᵀ := by rw [hd2r]; exact hA.mtau _
  have hdx : d2.dtauDx = 0 := by rw [hd2r]; exact hA.dx _
  have hw1 : ∀ (src : Fin nv → Tan nv → ℝ) dst, writeRows (m := m) d2.tauSet src dst
      = some fun j => src ((undriven S)[j.val]'(by omega)) := by
    intro src dst; rw [hset]; exact writeRows_full S src dst hlen
  have hw2 : ∀ (src : Fin nv → Fin nv ⊕ Fin nc → ℝ) dst, writeRows (m := m) d2.tauSet src dst
      = some fun j => src ((undriven S)[j.val]'(by omega)) := by
    intro src dst; rw [hset]; exact writeRows_full S src dst hlen
  let pd := P.rneaDx x a (P.lay.seen on d.f) + fromCols (P.dtau x d.f) 0
  have hc : invDiff P A on d x (a, f) = some { d with
      pdtau := pd, pM := mirror (P.M x), act := d2
      jdtau_dx := d2.mtau * pd, jdtau_du := fromCols (d2.mtau * mirror (P.M x)) (-d2.mtau * d.Jcᵀ)
      Rx := of fun j => (pd - cols d2.dtauDx) ((undriven S)[j.val]'(by omega))
      Ru := of fun j => (fromCols (mirror (P.M x)) (-d.Jcᵀ) : Matrix (Fin nv) (Fin nv ⊕ Fin nc) ℝ)
        ((undriven S)[j.val]'(by omega))
      Cx := of fun i => if on i then P.da0 x a i else 0
      Cu := of fun i => if on i then Sum.elim (P.J x i) 0 else Sum.elim 0 (Pi.single i 1) } := by
    simp only [invDiff, ← hd1, ← hd2, hw1, hw2]
    rfl
  refine ⟨_, hc, ⟨⟨_, hd2r⟩, h1, h2⟩, rfl, rfl, rfl, rfl, rfl, rfl, ?_, ?_,
    ⟨hlen, fun j => ?_, fun j => rfl⟩, fun i => rfl, fun i => rfl⟩
  · change d2.mtau * pd = Bᵀ * pd
    rw [hmt]
  · change fromCols (d2.mtau * mirror (P.M x)) (-d2.mtau * d.Jcᵀ) = _
    rw [hmt]
  · change (pd - cols d2.dtauDx) _ = pd _
    rw [hdx]
    have : cols (0 : Matrix (Fin nv) (Fin (nv + nv)) ℝ) = 0 := rfl
    rw [this, sub_zero]

theorem seen_forces {L : Layout nc} {on : Fin nc → Bool} (h : Apart L on) (f : Vec nc) :
    L.seen on (forces on f) = forces on f := by
  funext i
  simp only [Layout.seen, forces]
  by_cases hi : on i = true
  · rw [if_pos ⟨hi, fun k hk hj => (h k i hk hi hj).le⟩]
  · rw [if_neg (fun hh => hi hh.1), if_neg hi]

theorem rows_forces (J : Mat nc nv) (on : Fin nc → Bool) (f : Vec nc) :
    (of fun i => if on i then J i else 0 : Mat nc nv)ᵀ *ᵥ f = Jᵀ *ᵥ forces on f := by
  ext k
  simp only [mulVec, dotProduct, transpose_apply, of_apply, forces]
  refine Finset.sum_congr rfl fun i _ => ?_
  by_cases hi : on i = true <;> simp [hi]

theorem mirror_symm {M : Mat nv nv} (h : Mᵀ = M) : mirror M = M := by
  ext i j
  simp only [mirror, of_apply]
  split
  · exact congrFun (congrFun h i) j
  · rfl

theorem undriven_all {S : Fin nv → Bool} {q : Fin nv → ℝ} :
    (∀ j : Fin (undriven S).length, q (undriven S)[j] = 0) ↔ ∀ k, S k = false → q k = 0 := by
  constructor
  · intro h k hk
    have hmem : k ∈ undriven S := by simp [undriven, hk]
    obtain ⟨n, hn, rfl⟩ := List.getElem_of_mem hmem
    exact h ⟨n, hn⟩
  · intro h j
    refine h _ ?_
    have : (undriven S)[j] ∈ undriven S := List.getElem_mem _
    have := (List.mem_filter.1 this).2
    simpa using this

end calls

end Verif.Inv
