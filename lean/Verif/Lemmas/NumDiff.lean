import Verif.Spec.NumDiff
import Mathlib.Tactic.Ring
import Mathlib.Tactic.Linarith

/-! # Loops of the finite-difference model -/

set_option linter.unusedSectionVars false
set_option linter.unusedSimpArgs false

namespace Verif.NumDiff

/-- A loop that leaves a projection alone leaves it alone. -/
theorem foldl_frame {S I T : Type} (step : S → I → S) (π : S → T) (h : ∀ s i, π (step s i) = π s)
    (l : List I) (s : S) : π (l.foldl step s) = π s := by
  induction l generalizing s with
  | nil => rfl
  | cons i l ih => rw [List.foldl_cons, ih, h]

/-- A loop in which iteration `i` writes the values `c` at the places it touches. -/
theorem foldl_touch {S I B A : Type} (step : S → I → S) (P : S → Prop) (val : S → B → A) (c : B → A)
    (touch : I → B → Prop) [∀ i b, Decidable (touch i b)] (hP : ∀ s i, P s → P (step s i))
    (hv : ∀ s i b, P s → val (step s i) b = if touch i b then c b else val s b) (l : List I) (s : S)
    (hs : P s) :
    P (l.foldl step s) ∧ ∀ b, ((∃ i ∈ l, touch i b) → val (l.foldl step s) b = c b) ∧
      ((∀ i ∈ l, ¬ touch i b) → val (l.foldl step s) b = val s b) := by
  induction l generalizing s with
  | nil => exact ⟨hs, fun b => ⟨fun ⟨i, h, _⟩ => by simp at h, fun _ => rfl⟩⟩
  | cons i l ih =>
    obtain ⟨h1, h2⟩ := ih (step s i) (hP s i hs)
    refine ⟨h1, fun b => ⟨fun h => ?_, fun h => ?_⟩⟩
    · by_cases hl : ∃ i ∈ l, touch i b
      · exact (h2 b).1 hl
      · have hi : touch i b := by
          obtain ⟨k, hk, hb⟩ := h
          rcases List.mem_cons.mp hk with rfl | hk
          · exact hb
          · exact absurd ⟨k, hk, hb⟩ hl
        rw [List.foldl_cons, (h2 b).2 (fun k hk hb => hl ⟨k, hk, hb⟩), hv s i b hs, if_pos hi]
    · rw [List.foldl_cons, (h2 b).2 (fun k hk => h k (List.mem_cons_of_mem _ hk)), hv s i b hs,
        if_neg (h i List.mem_cons_self)]

variable {X : Type} {n nu nr ng nh : ℕ}

theorem update_zero {k : ℕ} (i : Fin k) (a : ℝ) :
    Function.update (Function.update (0 : Fin k → ℝ) i a) i 0 = 0 := by
  rw [Function.update_idem]; exact Function.update_eq_self i (0 : Fin k → ℝ)

/-- What the state loop leaves alone. -/
def frameX (d : Data X n nu nr ng nh) :=
  (d.d0, d.xnext, d.cost, d.g, d.h, d.Fu, d.Lu, d.Ru, d.Gu, d.Hu, d.Lxx, d.Lxu, d.Luu, d.du)

theorem jacX_frame (m : Model X n nu nr ng nh) (ev : X → Res X nr ng nh) (fx : Bool) (x : X) (h : ℝ)
    (l : List (Fin n)) (d : Data X n nu nr ng nh) :
    frameX (l.foldl (jacX m ev fx x h) d) = frameX d :=
  foldl_frame (jacX m ev fx x h) frameX (fun _ _ => rfl) l d

/-- The state loop: difference quotients in every column. -/
theorem jacX_fold (m : Model X n nu nr ng nh) (ev : X → Res X nr ng nh) (fx : Bool) (x : X) (h : ℝ)
    (d : Data X n nu nr ng nh) (hd : d.dx = 0) :
    let e := (List.finRange n).foldl (jacX m ev fx x h) d
    let p := fun j : Fin n => ev (m.st.integrate x (Pi.single j h))
    e.dx = 0 ∧ (∀ i j, fx = true → e.Fx i j = m.st.diff d.d0.xnext (p j).xnext i) ∧
    (fx = false → e.Fx = d.Fx) ∧
    (∀ j, e.Lx j = ((p j).cost - d.d0.cost) / h) ∧
    (∀ i j, m.gauss = true → e.Rx i j = ((p j).r i - d.d0.r i) / h) ∧
    (∀ i j, e.Gx i j = ((p j).g i - d.g i) / h) ∧
    (∀ i j, e.Hx i j = ((p j).h i - d.h i) / h) := by
  intro e p
  let P : Data X n nu nr ng nh → Prop := fun s => s.dx = 0 ∧ s.d0 = d.d0 ∧ s.g = d.g ∧ s.h = d.h
  have hP : ∀ s i, P s → P (jacX m ev fx x h s i) := by
    rintro s i ⟨h1, h2, h3, h4⟩
    exact ⟨by simp only [jacX, h1]; exact update_zero i h, h2, h3, h4⟩
  have hPd : P d := ⟨hd, rfl, rfl, rfl⟩
  have key : ∀ {B : Type} (val : Data X n nu nr ng nh → B → ℝ) (c : B → ℝ) (col : B → Fin n)
      (_ : ∀ s i b, P s → val (jacX m ev fx x h s i) b = if col b = i then c b else val s b) (b : B),
      val e b = c b := by
    intro B val c col hv b
    exact ((foldl_touch _ P val c (fun i b => col b = i) hP hv (List.finRange n) d hPd).2 b).1
      ⟨col b, List.mem_finRange _, rfl⟩
  refine ⟨?_, ?_, ?_, ?_, ?_, ?_, ?_⟩
  · exact (foldl_touch (jacX m ev fx x h) P (fun _ (_ : Unit) => (0 : ℝ)) (fun _ => 0) (fun _ _ => True) hP
      (fun _ _ _ _ => by simp) (List.finRange n) d hPd).1.1
  · intro i j hfx
    refine key (fun s (b : Fin n × Fin n) => s.Fx b.1 b.2)
      (fun b => m.st.diff d.d0.xnext (p b.2).xnext b.1) (fun b => b.2) ?_ (i, j)
    rintro s k ⟨a, b⟩ ⟨h1, h2, h3, h4⟩
    simp only [jacX, h1, h2, hfx, if_true, setCol]
    split_ifs with hb
    · subst hb; rfl
    · rfl
  · intro hfx
    refine foldl_frame _ (fun s : Data X n nu nr ng nh => s.Fx) (fun s i => ?_) _ d
    simp [jacX, hfx]
  · intro j
    refine key (fun s b => s.Lx b) (fun b => ((p b).cost - d.d0.cost) / h) id ?_ j
    rintro s k b ⟨h1, h2, h3, h4⟩
    simp only [jacX, h1, h2, Function.update_apply, id]
    split_ifs with hb
    · subst hb; rfl
    · rfl
  · intro i j hg
    refine key (fun s (b : Fin nr × Fin n) => s.Rx b.1 b.2)
      (fun b => ((p b.2).r b.1 - d.d0.r b.1) / h) (fun b => b.2) ?_ (i, j)
    rintro s k ⟨a, b⟩ ⟨h1, h2, h3, h4⟩
    simp only [jacX, h1, h2, hg, if_true, setCol]
    split_ifs with hb
    · subst hb; rfl
    · rfl
  · intro i j
    refine key (fun s (b : Fin ng × Fin n) => s.Gx b.1 b.2)
      (fun b => ((p b.2).g b.1 - d.g b.1) / h) (fun b => b.2) ?_ (i, j)
    rintro s k ⟨a, b⟩ ⟨h1, h2, h3, h4⟩
    simp only [jacX, h1, h3, setCol]
    split_ifs with hb
    · subst hb; rfl
    · rfl
  · intro i j
    refine key (fun s (b : Fin nh × Fin n) => s.Hx b.1 b.2)
      (fun b => ((p b.2).h b.1 - d.h b.1) / h) (fun b => b.2) ?_ (i, j)
    rintro s k ⟨a, b⟩ ⟨h1, h2, h3, h4⟩
    simp only [jacX, h1, h4, setCol]
    split_ifs with hb
    · subst hb; rfl
    · rfl

/-- What the control loop leaves alone. -/
def frameU (d : Data X n nu nr ng nh) :=
  (d.d0, d.xnext, d.cost, d.g, d.h, d.Fx, d.Lx, d.Rx, d.Gx, d.Hx, d.Lxx, d.Lxu, d.Luu, d.dx)

theorem jacU_frame (m : Model X n nu nr ng nh) (x : X) (u : Fin nu → ℝ) (h : ℝ)
    (l : List (Fin nu)) (d : Data X n nu nr ng nh) :
    frameU (l.foldl (jacU m x u h) d) = frameU d :=
  foldl_frame (jacU m x u h) frameU (fun _ _ => rfl) l d

/-- The control loop: difference quotients in every column. -/
theorem jacU_fold (m : Model X n nu nr ng nh) (x : X) (u : Fin nu → ℝ) (h : ℝ)
    (d : Data X n nu nr ng nh) (hd : d.du = 0) :
    let e := (List.finRange nu).foldl (jacU m x u h) d
    let p := fun j : Fin nu => m.ev x (u + Pi.single j h)
    e.du = 0 ∧ (∀ i j, e.Fu i j = m.st.diff d.d0.xnext (p j).xnext i) ∧
    (∀ j, e.Lu j = ((p j).cost - d.d0.cost) / h) ∧
    (∀ i j, m.gauss = true → e.Ru i j = ((p j).r i - d.d0.r i) / h) ∧
    (∀ i j, e.Gu i j = ((p j).g i - d.g i) / h) ∧
    (∀ i j, e.Hu i j = ((p j).h i - d.h i) / h) := by
  intro e p
  let P : Data X n nu nr ng nh → Prop := fun s => s.du = 0 ∧ s.d0 = d.d0 ∧ s.g = d.g ∧ s.h = d.h
  have hP : ∀ s i, P s → P (jacU m x u h s i) := by
    rintro s i ⟨h1, h2, h3, h4⟩
    exact ⟨by simp only [jacU, h1]; exact update_zero i h, h2, h3, h4⟩
  have hPd : P d := ⟨hd, rfl, rfl, rfl⟩
  have key : ∀ {B : Type} (val : Data X n nu nr ng nh → B → ℝ) (c : B → ℝ) (col : B → Fin nu)
      (_ : ∀ s i b, P s → val (jacU m x u h s i) b = if col b = i then c b else val s b) (b : B),
      val e b = c b := by
    intro B val c col hv b
    exact ((foldl_touch _ P val c (fun i b => col b = i) hP hv (List.finRange nu) d hPd).2 b).1
      ⟨col b, List.mem_finRange _, rfl⟩
  refine ⟨?_, ?_, ?_, ?_, ?_, ?_⟩
  · exact (foldl_touch (jacU m x u h) P (fun _ (_ : Unit) => (0 : ℝ)) (fun _ => 0) (fun _ _ => True) hP
      (fun _ _ _ _ => by simp) (List.finRange nu) d hPd).1.1
  · intro i j
    refine key (fun s (b : Fin n × Fin nu) => s.Fu b.1 b.2)
      (fun b => m.st.diff d.d0.xnext (p b.2).xnext b.1) (fun b => b.2) ?_ (i, j)
    rintro s k ⟨a, b⟩ ⟨h1, h2, h3, h4⟩
    simp only [jacU, h1, h2, setCol]
    split_ifs with hb
    · subst hb; rfl
    · rfl
  · intro j
    refine key (fun s b => s.Lu b) (fun b => ((p b).cost - d.d0.cost) / h) id ?_ j
    rintro s k b ⟨h1, h2, h3, h4⟩
    simp only [jacU, h1, h2, Function.update_apply, id]
    split_ifs with hb
    · subst hb; rfl
    · rfl
  · intro i j hg
    refine key (fun s (b : Fin nr × Fin nu) => s.Ru b.1 b.2)
      (fun b => ((p b.2).r b.1 - d.d0.r b.1) / h) (fun b => b.2) ?_ (i, j)
    rintro s k ⟨a, b⟩ ⟨h1, h2, h3, h4⟩
    simp only [jacU, h1, h2, hg, if_true, setCol]
    split_ifs with hb
    · subst hb; rfl
    · rfl
  · intro i j
    refine key (fun s (b : Fin ng × Fin nu) => s.Gu b.1 b.2)
      (fun b => ((p b.2).g b.1 - d.g b.1) / h) (fun b => b.2) ?_ (i, j)
    rintro s k ⟨a, b⟩ ⟨h1, h2, h3, h4⟩
    simp only [jacU, h1, h3, setCol]
    split_ifs with hb
    · subst hb; rfl
    · rfl
  · intro i j
    refine key (fun s (b : Fin nh × Fin nu) => s.Hu b.1 b.2)
      (fun b => ((p b.2).h b.1 - d.h b.1) / h) (fun b => b.2) ?_ (i, j)
    rintro s k ⟨a, b⟩ ⟨h1, h2, h3, h4⟩
    simp only [jacU, h1, h4, setCol]
    split_ifs with hb
    · subst hb; rfl
    · rfl

/-! ### Hessian loops -/

section
variable {k : ℕ} (ev evm : (Fin k → ℝ) → ℝ) (c0 h : ℝ)

theorem update_single (i j : Fin k) (hij : i ≠ j) :
    Function.update (Pi.single i h : Fin k → ℝ) j h = Pi.single i h + Pi.single j h := by
  funext a
  by_cases h1 : a = j
  · subst h1; simp [Function.update_apply, Pi.single_apply, hij.symm]
  · simp [Function.update_apply, Pi.single_apply, h1]

theorem update_single_zero (i j : Fin k) (hij : i ≠ j) :
    Function.update (Pi.single i h + Pi.single j h : Fin k → ℝ) i 0 = Pi.single j h := by
  funext a
  by_cases h1 : a = i
  · subst h1; simp [hij]
  · simp [Function.update_apply, Pi.single_apply, h1]

theorem hessInner_step (i j : Fin k) (hij : i < j) (L : Matrix (Fin k) (Fin k) ℝ) :
    (hessInner ev c0 (ev (Pi.single i h)) h i (Pi.single i h, L) j).1 = Pi.single i h ∧
    ∀ b : Fin k × Fin k, (hessInner ev c0 (ev (Pi.single i h)) h i (Pi.single i h, L) j).2 b.1 b.2 =
      if (b.1 = i ∧ b.2 = j) ∨ (b.1 = j ∧ b.2 = i) then mixed ev c0 h i j else L b.1 b.2 := by
  have hne : i ≠ j := ne_of_lt hij
  constructor
  · simp only [hessInner, update_single h i j hne, update_single_zero h i j hne]
    funext a
    by_cases h1 : a = j
    · subst h1; simp [hne.symm]
    · by_cases h2 : a = i
      · subst h2; simp [Function.update_apply, h1]
      · simp [Function.update_apply, Pi.single_apply, h1, h2]
  · rintro ⟨a, b⟩
    simp only [hessInner, update_single h i j hne, update_single_zero h i j hne, setAt]
    by_cases h1 : a = j ∧ b = i
    · simp [h1, mixed]
    · by_cases h2 : a = i ∧ b = j
      · simp [h2, hne, hne.symm, mixed]
      · simp [h1, h2]

theorem hessRow_inner (i : Fin k) (L : Matrix (Fin k) (Fin k) ℝ) (l : List (Fin k)) (hl : ∀ j ∈ l, i < j) :
    (l.foldl (hessInner ev c0 (ev (Pi.single i h)) h i) (Pi.single i h, L)).1 = Pi.single i h ∧
    ∀ b : Fin k × Fin k,
      ((b.1 = i ∧ b.2 ∈ l) → (l.foldl (hessInner ev c0 (ev (Pi.single i h)) h i) (Pi.single i h, L)).2 b.1 b.2
        = mixed ev c0 h i b.2) ∧
      ((b.2 = i ∧ b.1 ∈ l) → (l.foldl (hessInner ev c0 (ev (Pi.single i h)) h i) (Pi.single i h, L)).2 b.1 b.2
        = mixed ev c0 h i b.1) ∧
      (¬ (b.1 = i ∧ b.2 ∈ l) → ¬ (b.2 = i ∧ b.1 ∈ l) →
        (l.foldl (hessInner ev c0 (ev (Pi.single i h)) h i) (Pi.single i h, L)).2 b.1 b.2 = L b.1 b.2) := by
  induction l generalizing L with
  | nil => exact ⟨rfl, fun b => ⟨by simp, by simp, by simp⟩⟩
  | cons j l ih =>
    have hij := hl j List.mem_cons_self
    obtain ⟨s1, s2⟩ := hessInner_step ev c0 h i j hij L
    rw [List.foldl_cons]
    have e : hessInner ev c0 (ev (Pi.single i h)) h i (Pi.single i h, L) j =
        (Pi.single i h, (hessInner ev c0 (ev (Pi.single i h)) h i (Pi.single i h, L) j).2) :=
      Prod.ext s1 rfl
    rw [e]
    obtain ⟨i1, i2⟩ := ih (hessInner ev c0 (ev (Pi.single i h)) h i (Pi.single i h, L) j).2
      (fun j' hj' => hl j' (List.mem_cons_of_mem _ hj'))
    refine ⟨i1, fun ⟨a, b⟩ => ?_⟩
    obtain ⟨k1, k2, k3⟩ := i2 (a, b)
    have hs := s2 (a, b)
    simp only at k1 k2 k3 hs ⊢
    refine ⟨fun ⟨ha, hb⟩ => ?_, fun ⟨hb, ha⟩ => ?_, fun n1 n2 => ?_⟩
    · by_cases hbl : b ∈ l
      · exact k1 ⟨ha, hbl⟩
      · have hbj : b = j := (List.mem_cons.mp hb).resolve_right hbl
        rw [k3 (fun h => hbl h.2) (fun h => by
          have := hl b hb; rw [h.1] at this; exact lt_irrefl _ this), hs, if_pos (Or.inl ⟨ha, hbj⟩), hbj]
    · by_cases hal : a ∈ l
      · exact k2 ⟨hb, hal⟩
      · have haj : a = j := (List.mem_cons.mp ha).resolve_right hal
        rw [k3 (fun h => by
          have := hl a ha; rw [h.1] at this; exact lt_irrefl _ this) (fun h => hal h.2), hs,
          if_pos (Or.inr ⟨haj, hb⟩), haj]
    · rw [k3 (fun h => n1 ⟨h.1, List.mem_cons_of_mem _ h.2⟩) (fun h => n2 ⟨h.1, List.mem_cons_of_mem _ h.2⟩),
        hs, if_neg]
      rintro (⟨ha, hb⟩ | ⟨ha, hb⟩)
      · exact n1 ⟨ha, by simp [hb]⟩
      · exact n2 ⟨hb, by simp [ha]⟩

theorem mem_after (i j : Fin k) : j ∈ after i ↔ i < j := by simp [after]

theorem hessRow_step (i : Fin k) (L : Matrix (Fin k) (Fin k) ℝ) :
    (hessRow ev evm c0 h (0, L) i).1 = 0 ∧
    ∀ b : Fin k × Fin k, (hessRow ev evm c0 h (0, L) i).2 b.1 b.2 =
      if (b.1 = i ∧ i ≤ b.2) ∨ (b.2 = i ∧ i ≤ b.1) then hessEntry ev evm c0 h b else L b.1 b.2 := by
  have h0 : Function.update (0 : Fin k → ℝ) i h = Pi.single i h := rfl
  obtain ⟨a1, a2⟩ := hessRow_inner ev c0 h i
    (setAt L i i ((ev (Pi.single i h) - 2 * c0 + evm (Pi.single i h)) / (h * h))) (after i)
    (fun j hj => (mem_after i j).mp hj)
  constructor
  · simp only [hessRow, h0, a1]; exact update_zero i h
  · rintro ⟨a, b⟩
    obtain ⟨k1, k2, k3⟩ := a2 (a, b)
    simp only [hessRow, h0, mem_after] at *
    by_cases hc1 : a = i ∧ i < b
    · rw [k1 hc1, if_pos (Or.inl ⟨hc1.1, hc1.2.le⟩), hessEntry]
      simp only
      rw [hc1.1, if_neg (ne_of_lt hc1.2), if_pos hc1.2]
    · by_cases hc2 : b = i ∧ i < a
      · rw [k2 hc2, if_pos (Or.inr ⟨hc2.1, hc2.2.le⟩), hessEntry]
        simp only
        rw [hc2.1, if_neg (ne_of_gt hc2.2), if_neg (not_lt.mpr hc2.2.le)]
      · rw [k3 hc1 hc2]
        by_cases hd : a = i ∧ b = i
        · obtain ⟨rfl, rfl⟩ := hd
          simp [setAt, hessEntry, second]
        · rw [if_neg]
          · simp only [setAt]; rw [if_neg hd]
          · rintro (⟨h1, h2⟩ | ⟨h1, h2⟩)
            · rcases lt_or_eq_of_le h2 with h3 | h3
              · exact hc1 ⟨h1, h3⟩
              · exact hd ⟨h1, h3.symm⟩
            · rcases lt_or_eq_of_le h2 with h3 | h3
              · exact hc2 ⟨h1, h3⟩
              · exact hd ⟨h3.symm, h1⟩

/-- The Hessian loops fill the whole block. -/
theorem hessRow_fold (L : Matrix (Fin k) (Fin k) ℝ) :
    ((List.finRange k).foldl (hessRow ev evm c0 h) (0, L)).1 = 0 ∧
    ∀ a b, ((List.finRange k).foldl (hessRow ev evm c0 h) (0, L)).2 a b = hessEntry ev evm c0 h (a, b) := by
  have H := foldl_touch (hessRow ev evm c0 h) (fun s => s.1 = 0) (fun s (b : Fin k × Fin k) => s.2 b.1 b.2)
    (hessEntry ev evm c0 h) (fun i b => (b.1 = i ∧ i ≤ b.2) ∨ (b.2 = i ∧ i ≤ b.1))
    (by
      rintro ⟨dx, L⟩ i hs
      simp only at hs; subst hs
      exact (hessRow_step ev evm c0 h i L).1)
    (by
      rintro ⟨dx, L⟩ i b hs
      simp only at hs; subst hs
      exact (hessRow_step ev evm c0 h i L).2 b) (List.finRange k) (0, L) rfl
  refine ⟨H.1, fun a b => (H.2 (a, b)).1 ?_⟩
  rcases le_total a b with hab | hab
  · exact ⟨a, List.mem_finRange _, Or.inl ⟨rfl, hab⟩⟩
  · exact ⟨b, List.mem_finRange _, Or.inr ⟨rfl, hab⟩⟩

theorem hessEntry_symm (a b : Fin k) : hessEntry ev evm c0 h (a, b) = hessEntry ev evm c0 h (b, a) := by
  unfold hessEntry
  simp only
  rcases lt_trichotomy a b with h1 | h1 | h1
  · rw [if_neg (ne_of_lt h1), if_pos h1, if_neg (ne_of_gt h1), if_neg (not_lt.mpr h1.le)]
  · subst h1; rfl
  · rw [if_neg (ne_of_gt h1), if_neg (not_lt.mpr h1.le), if_neg (ne_of_lt h1), if_pos h1]

end

/-- What the mixed loop leaves alone. -/
def frameXU (d : Data X n nu nr ng nh) :=
  (d.d0, d.xnext, d.cost, d.g, d.h, (d.Fx, d.Fu, d.Lx, d.Lu, d.Rx, d.Ru, d.Gx, d.Gu, d.Hx, d.Hu), d.Lxx, d.Luu)

/-- The mixed loop. -/
theorem hessXU_fold (m : Model X n nu nr ng nh) (x : X) (u : Fin nu → ℝ) (hx hu : ℝ)
    (d : Data X n nu nr ng nh) (h1 : d.dx = 0) (h2 : d.du = 0) :
    let e := (List.finRange n).foldl (fun d ix => (List.finRange nu).foldl (hessXU m x u hx hu ix) d) d
    frameXU e = frameXU d ∧
    ∀ i j, e.Lxu i j =
      ((m.ev (m.st.integrate x (Pi.single i hx)) (u + Pi.single j hu)).cost
        - (m.ev (m.st.integrate x (Pi.single i hx)) (u - Pi.single j hu)).cost
        - (m.ev (m.st.integrate x (-Pi.single i hx)) (u + Pi.single j hu)).cost
        + (m.ev (m.st.integrate x (-Pi.single i hx)) (u - Pi.single j hu)).cost) / (4 * hx * hu) := by
  let c : Fin n × Fin nu → ℝ := fun b =>
    ((m.ev (m.st.integrate x (Pi.single b.1 hx)) (u + Pi.single b.2 hu)).cost
        - (m.ev (m.st.integrate x (Pi.single b.1 hx)) (u - Pi.single b.2 hu)).cost
        - (m.ev (m.st.integrate x (-Pi.single b.1 hx)) (u + Pi.single b.2 hu)).cost
        + (m.ev (m.st.integrate x (-Pi.single b.1 hx)) (u - Pi.single b.2 hu)).cost) / (4 * hx * hu)
  let P : Data X n nu nr ng nh → Prop := fun s => s.dx = 0 ∧ s.du = 0
  have inner : ∀ (i : Fin n) (s : Data X n nu nr ng nh), P s →
      P ((List.finRange nu).foldl (hessXU m x u hx hu i) s) ∧
      ∀ b : Fin n × Fin nu, (((List.finRange nu).foldl (hessXU m x u hx hu i) s)).Lxu b.1 b.2 =
        if b.1 = i then c b else s.Lxu b.1 b.2 := by
    intro i s hs
    have H := foldl_touch (hessXU m x u hx hu i) P (fun s (b : Fin n × Fin nu) => s.Lxu b.1 b.2) c
      (fun j b => b.1 = i ∧ b.2 = j)
      (by
        rintro s j ⟨a1, a2⟩
        simp only [P, hessXU, a1, a2]
        exact ⟨update_zero i hx, update_zero j hu⟩)
      (by
        rintro s j ⟨a, b⟩ ⟨a1, a2⟩
        simp only [hessXU, a1, a2, setAt]
        split_ifs with hb
        · obtain ⟨rfl, rfl⟩ := hb; rfl
        · rfl) (List.finRange nu) s hs
    refine ⟨H.1, fun b => ?_⟩
    split_ifs with hb
    · exact (H.2 b).1 ⟨b.2, List.mem_finRange _, hb, rfl⟩
    · exact (H.2 b).2 fun j _ hj => hb hj.1
  intro e
  constructor
  · exact foldl_frame (fun d ix => (List.finRange nu).foldl (hessXU m x u hx hu ix) d) frameXU
      (fun s i => foldl_frame (hessXU m x u hx hu i) frameXU (fun s j => rfl) _ _) _ _
  · intro i j
    exact ((foldl_touch (fun d ix => (List.finRange nu).foldl (hessXU m x u hx hu ix) d) P
      (fun s (b : Fin n × Fin nu) => s.Lxu b.1 b.2) c (fun i b => b.1 = i)
      (fun s i hs => (inner i s hs).1) (fun s i b hs => (inner i s hs).2 b) (List.finRange n) d ⟨h1, h2⟩).2
      (i, j)).1 ⟨i, List.mem_finRange _, rfl⟩

end Verif.NumDiff
