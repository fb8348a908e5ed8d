import Verif.Spec.DataCopy

/-! # Lemmas on copies of data -/

set_option linter.unusedSectionVars false

namespace Verif.DataCopy

section
variable {X U Pin Jt R A F G C : Type}
variable (f : Fns X U Pin Jt R A F G C)

theorem put_same {α : Type} (h : Nat → Option α) (a : Nat) (v : α) : put h a v a = some v := by simp [put]

theorem put_ne {α : Type} (h : Nat → Option α) {a b : Nat} (v : α) (hb : b ≠ a) : put h a v b = h b := by simp [put, hb]

theorem put_put {α : Type} (h : Nat → Option α) (a : Nat) (v v' : α) : put (put h a v) a v' = put h a v' := by
  funext b; by_cases hb : b = a <;> simp [put, hb]

/-- An object made by `createData`, in the state `v`. -/
structure Own (w : World Pin Jt R A F G C) (a : Nat) (v : Val Pin Jt R A F G C) : Prop where
  data : w.datas a = some ⟨v.pin, a, a, a, v.xout, v.fx, v.l, v.cost⟩
  joint : w.joints a = some v.jt
  cost : ∃ k, w.costs a = some ⟨a, a, v.r, k⟩

theorem calc_own {w : World Pin Jt R A F G C} {a : Nat} {v : Val Pin Jt R A F G C} (h : Own w a v) (x : X) (u : U) :
    ∃ w', calcData f a x u w = some w' ∧ Own w' a (v.calc f x u) ∧ w'.fresh = w.fresh ∧
      (∀ b, b ≠ a → w'.datas b = w.datas b ∧ w'.joints b = w.joints b ∧ w'.costs b = w.costs b) := by
  obtain ⟨hd, hj, k, hc⟩ := h
  refine ⟨{ datas := put w.datas a ⟨(v.calc f x u).pin, a, a, a, (v.calc f x u).xout, (v.calc f x u).fx,
              (v.calc f x u).l, (v.calc f x u).cost⟩
            joints := put w.joints a (v.calc f x u).jt
            costs := put w.costs a ⟨a, a, (v.calc f x u).r, (v.calc f x u).cost⟩
            fresh := w.fresh }, ?_, ?_, rfl, ?_⟩
  · simp only [calcData, hd, hc, collect, put_same, put_put, Option.bind_eq_bind, Option.bind_some, Option.pure_def]
    rfl
  · exact ⟨put_same _ _ _, put_same _ _ _, _, put_same _ _ _⟩
  · intro b hb
    exact ⟨put_ne _ _ hb, put_ne _ _ hb, put_ne _ _ hb⟩

theorem calcDiff_own {w : World Pin Jt R A F G C} {a : Nat} {v : Val Pin Jt R A F G C} (h : Own w a v) (x : X) (u : U) :
    ∃ w', calcDiffData f a x u w = some w' ∧ Own w' a (v.calcDiff f x u) ∧ w'.fresh = w.fresh ∧
      (∀ b, b ≠ a → w'.datas b = w.datas b ∧ w'.joints b = w.joints b ∧ w'.costs b = w.costs b) := by
  obtain ⟨hd, hj, k, hc⟩ := h
  refine ⟨{ datas := put w.datas a ⟨(v.calcDiff f x u).pin, a, a, a, (v.calcDiff f x u).xout, (v.calcDiff f x u).fx,
              (v.calcDiff f x u).l, (v.calcDiff f x u).cost⟩
            joints := put w.joints a (v.calcDiff f x u).jt
            costs := put w.costs a ⟨a, a, (v.calcDiff f x u).r, k⟩
            fresh := w.fresh }, ?_, ?_, rfl, ?_⟩
  · simp only [calcDiffData, hd, hc, hj, collect, put_same, put_put, Option.bind_eq_bind, Option.bind_some,
      Option.pure_def]
    rfl
  · exact ⟨put_same _ _ _, put_same _ _ _, _, put_same _ _ _⟩
  · intro b hb
    exact ⟨put_ne _ _ hb, put_ne _ _ hb, put_ne _ _ hb⟩

/-- The memory `w` holds the objects `s`. -/
structure Holds (w : World Pin Jt R A F G C) (s : Vals Pin Jt R A F G C) : Prop where
  fresh : w.fresh = s.fresh
  none : ∀ a, s.fresh ≤ a → s.vals a = none
  own : ∀ a v, s.vals a = some (true, v) → Own w a v
  out : ∀ a, (w.datas a).map Data.out = (s.vals a).map fun v => v.2.out

theorem holds_empty : Holds (World.empty : World Pin Jt R A F G C) Vals.empty :=
  ⟨rfl, fun _ _ => rfl, fun _ _ h => by simp [Vals.empty] at h, fun _ => rfl⟩

theorem own_frame {w w' : World Pin Jt R A F G C} {b : Nat} {v : Val Pin Jt R A F G C} (h : Own w b v)
    (e : w'.datas b = w.datas b ∧ w'.joints b = w.joints b ∧ w'.costs b = w.costs b) : Own w' b v :=
  ⟨e.1.trans h.data, e.2.1.trans h.joint, h.cost.imp fun _ hk => e.2.2.trans hk⟩

theorem holds_eval {w w' : World Pin Jt R A F G C} {s : Vals Pin Jt R A F G C} (h : Holds w s) {a : Nat}
    {v v' : Val Pin Jt R A F G C} (hv : s.vals a = some (true, v)) (how : Own w' a v') (hf : w'.fresh = w.fresh)
    (hframe : ∀ b, b ≠ a → w'.datas b = w.datas b ∧ w'.joints b = w.joints b ∧ w'.costs b = w.costs b)
    (g : Bool × Val Pin Jt R A F G C → Bool × Val Pin Jt R A F G C) (hg : g (true, v) = (true, v')) :
    Holds w' ⟨fun b => if b = a then (s.vals a).map g else s.vals b, s.fresh⟩ := by
  refine ⟨hf.trans h.fresh, ?_, ?_, ?_⟩
  · intro b hb
    have hba : b ≠ a := by
      rintro rfl
      rw [h.none b hb] at hv; exact absurd hv (by simp)
    simpa [hba] using h.none b hb
  · intro b v'' hb
    by_cases hba : b = a
    · subst hba
      simp only [if_true, hv, Option.map_some, hg, Option.some.injEq, Prod.mk.injEq, true_and] at hb
      exact hb ▸ how
    · simp only [hba, if_false] at hb
      exact own_frame (h.own b v'' hb) (hframe b hba)
  · intro b
    by_cases hba : b = a
    · subst hba
      simp [hv, hg, how.data, Data.out, Val.out]
    · simpa [hba, (hframe b hba).1] using h.out b

theorem isSome_of_holds {w : World Pin Jt R A F G C} {s : Vals Pin Jt R A F G C} (h : Holds w s) (a : Nat) :
    (w.datas a).isSome = (s.vals a).isSome := by
  have := congrArg Option.isSome (h.out a)
  simpa using this

theorem holds_step {w : World Pin Jt R A F G C} {s : Vals Pin Jt R A F G C} (h : Holds w s) (op : Op X U)
    (hl : ∀ a ∈ op.target, (s.vals a).isSome)
    (hc : op.evaluates = true → ∀ a ∈ op.target, ∀ v ∈ s.vals a, v.1 = true) :
    ∃ w', step f op w = some w' ∧ Holds w' (s.step f op) := by
  cases op with
  | create =>
    refine ⟨_, rfl, by simp [create, Vals.step, h.fresh], ?_, ?_, ?_⟩
    · intro a ha
      simp only [Vals.step] at ha ⊢
      rw [put_ne _ _ (by omega)]
      exact h.none a (by omega)
    · intro a v hv
      simp only [Vals.step] at hv
      by_cases ha : a = s.fresh
      · subst ha
        rw [put_same, Option.some.injEq, Prod.mk.injEq] at hv
        obtain ⟨_, rfl⟩ := hv
        rw [← h.fresh]
        exact ⟨put_same _ _ _, put_same _ _ _, _, put_same _ _ _⟩
      · rw [put_ne _ _ ha] at hv
        have ha' : a ≠ w.fresh := by rw [h.fresh]; exact ha
        exact own_frame (h.own a v hv) ⟨put_ne _ _ ha', put_ne _ _ ha', put_ne _ _ ha'⟩
    · intro a
      by_cases ha : a = s.fresh
      · subst ha
        simp [create, Vals.step, h.fresh, put_same, Data.out, Val.out, Val.new]
      · simpa [create, Vals.step, h.fresh, put_ne _ _ ha] using h.out a
  | copy a =>
    have hs := hl a rfl
    obtain ⟨d, hd⟩ := Option.isSome_iff_exists.1 ((isSome_of_holds h a).trans hs)
    refine ⟨{ w with datas := put w.datas w.fresh d, fresh := w.fresh + 1 }, by simp [step, copy, hd], ?_, ?_, ?_, ?_⟩
    · simp [Vals.step, h.fresh]
    · intro b hb
      simp only [Vals.step] at hb ⊢
      rw [if_neg (by omega)]
      exact h.none b (by omega)
    · intro b v hv
      simp only [Vals.step] at hv
      by_cases hb : b = s.fresh
      · simp [hb, Option.map_eq_some_iff] at hv
      · rw [if_neg hb] at hv
        have hb' : b ≠ w.fresh := by rw [h.fresh]; exact hb
        exact own_frame (h.own b v hv) ⟨put_ne _ _ hb', rfl, rfl⟩
    · intro b
      by_cases hb : b = s.fresh
      · subst hb
        have := h.out a
        rw [hd] at this
        simp only [Vals.step, h.fresh, put_same, if_true, Option.map_map]
        rw [Option.map_some] at this ⊢
        rw [this]; rfl
      · simpa [Vals.step, h.fresh, put_ne _ _ hb, hb] using h.out b
  | destroy a =>
    have hs := (isSome_of_holds h a).trans (hl a rfl)
    refine ⟨destroy a w, by simp [step, hs], h.fresh, ?_, ?_, ?_⟩
    · intro b hb
      simp only [Vals.step] at hb ⊢
      split
      · rfl
      · exact h.none b hb
    · intro b v hv
      simp only [Vals.step] at hv
      by_cases hb : b = a
      · simp [hb] at hv
      · rw [if_neg hb] at hv
        exact own_frame (h.own b v hv) ⟨by simp [destroy, hb], rfl, rfl⟩
    · intro b
      by_cases hb : b = a
      · simp [destroy, Vals.step, hb]
      · simpa [destroy, Vals.step, hb] using h.out b
  | «calc» a x u =>
    obtain ⟨⟨fl, v⟩, hv⟩ := Option.isSome_iff_exists.1 (hl a rfl)
    have hfl : fl = true := hc rfl a rfl _ hv
    subst hfl
    obtain ⟨w', h1, h2, h3, h4⟩ := calc_own f (h.own a v hv) x u
    exact ⟨w', h1, holds_eval h hv h2 h3 h4 _ rfl⟩
  | calcDiff a x u =>
    obtain ⟨⟨fl, v⟩, hv⟩ := Option.isSome_iff_exists.1 (hl a rfl)
    have hfl : fl = true := hc rfl a rfl _ hv
    subst hfl
    obtain ⟨w', h1, h2, h3, h4⟩ := calcDiff_own f (h.own a v hv) x u
    exact ⟨w', h1, holds_eval h hv h2 h3 h4 _ rfl⟩

theorem holds_run (ops : List (Op X U)) : ∀ {w : World Pin Jt R A F G C} {s : Vals Pin Jt R A F G C}, Holds w s →
    Live f ops s → CopiesRead f ops s → ∃ w', run f ops w = some w' ∧ Holds w' (Vals.run f ops s) := by
  induction ops with
  | nil => intro w s h _ _; exact ⟨w, rfl, h⟩
  | cons op ops ih =>
    intro w s h hl hc
    obtain ⟨w1, h1, h2⟩ := holds_step f h op hl.1 hc.1
    obtain ⟨w2, h3, h4⟩ := ih h2 hl.2 hc.2
    exact ⟨w2, by simp [run, h1, h3], h4⟩

/-! ### Integrated data -/

/-- Two values with the same hidden part (kinematics, joint data, residuals). -/
def Same (v v' : Val Pin Jt R A F G C) : Prop := v.pin = v'.pin ∧ v.jt = v'.jt ∧ v.r = v'.r

/-- The memory `w` of integrated data holds the values `s`, with the families `m`. -/
structure IHolds (w : IWorld Pin Jt R A F G C) (s : Vals Pin Jt R A F G C) (m : Families) : Prop where
  fresh : w.fresh = s.fresh
  fresh' : m.fresh = s.fresh
  none : ∀ a, s.fresh ≤ a → s.vals a = none
  own : ∀ b < w.base.fresh, ∃ v, Own w.base b v
  diff : ∀ a d, w.idatas a = some d → d.differential < w.base.fresh
  origin : ∀ a d, w.idatas a = some d → m.origin a < m.fresh
  older : ∀ o, m.last o < m.fresh ∨ m.last o = o
  family : ∀ a b d d', w.idatas a = some d → w.idatas b = some d' → d.differential = d'.differential →
    m.origin a = m.origin b
  out : ∀ a, (w.idatas a).map IData.out = (s.vals a).map fun v => v.2.out
  last : ∀ a, m.last (m.origin a) = a → ∀ d v, w.idatas a = some d → s.vals a = some v →
    ∃ v', Own w.base d.differential v' ∧ Same v' v.2

theorem iholds_empty : IHolds (IWorld.empty : IWorld Pin Jt R A F G C) Vals.empty Families.empty where
  fresh := rfl
  fresh' := rfl
  none _ _ := rfl
  own _ h := absurd h (Nat.not_lt_zero _)
  diff _ _ h := by simp [IWorld.empty] at h
  origin _ _ h := by simp [IWorld.empty] at h
  older _ := .inr rfl
  family _ _ _ _ h := by simp [IWorld.empty] at h
  out _ := rfl
  last _ _ _ _ h := by simp [IWorld.empty] at h

theorem IHolds.of_vals {w : IWorld Pin Jt R A F G C} {s s' : Vals Pin Jt R A F G C} {m : Families}
    (h : IHolds w s m) (e : s = s') : IHolds w s' m := e ▸ h

theorem isSome_of_iholds {w : IWorld Pin Jt R A F G C} {s : Vals Pin Jt R A F G C} {m : Families}
    (h : IHolds w s m) (a : Nat) : (w.idatas a).isSome = (s.vals a).isSome := by
  have := congrArg Option.isSome (h.out a)
  simpa using this

theorem lt_of_idatas {w : IWorld Pin Jt R A F G C} {s : Vals Pin Jt R A F G C} {m : Families}
    (h : IHolds w s m) {a : Nat} {d} (hd : w.idatas a = some d) : a < s.fresh := by
  by_contra hc
  have := isSome_of_iholds h a
  rw [hd, h.none a (by omega)] at this
  simp at this

/-- A step that replaces the data of the differential model of `a` and the outputs of `a`. -/
theorem iholds_eval {w : IWorld Pin Jt R A F G C} {s : Vals Pin Jt R A F G C} {m : Families} (h : IHolds w s m)
    {a : Nat} {d : IData A F G C} {fl : Bool} {v v2 v' : Val Pin Jt R A F G C} {b' : World Pin Jt R A F G C}
    {d2 : IData A F G C} (hd : w.idatas a = some d) (hv : s.vals a = some (fl, v))
    (h2 : Own b' d.differential v') (h3 : b'.fresh = w.base.fresh)
    (h4 : ∀ b, b ≠ d.differential → b'.datas b = w.base.datas b ∧ b'.joints b = w.base.joints b ∧
      b'.costs b = w.base.costs b)
    (hd2 : d2.differential = d.differential) (ho : d2.out = v2.out) (hs : Same v' v2) :
    IHolds { w with base := b', idatas := put w.idatas a d2 }
      ⟨fun b => if b = a then (s.vals a).map fun v => (v.1, v2) else s.vals b, s.fresh⟩
      { m with last := Function.update m.last (m.origin a) a } where
  fresh := h.fresh
  fresh' := h.fresh'
  none b hb := by
    have hba : b ≠ a := by
      rintro rfl
      rw [h.none b hb] at hv; exact absurd hv (by simp)
    simp only [if_neg hba]
    exact h.none b hb
  own b hb := by
    by_cases hbd : b = d.differential
    · subst hbd; exact ⟨_, h2⟩
    · obtain ⟨v', hv'⟩ := h.own b (h3 ▸ hb)
      exact ⟨v', own_frame hv' (h4 b hbd)⟩
  diff b d' hd' := by
    show _ < b'.fresh
    rw [h3]
    by_cases hb : b = a
    · subst hb
      simp only [put_same, Option.some.injEq] at hd'
      subst hd'
      rw [hd2]
      exact h.diff b d hd
    · simp only [put_ne _ _ hb] at hd'
      exact h.diff b d' hd'
  origin b d' hd' := by
    by_cases hb : b = a
    · subst hb; exact h.origin b d hd
    · simp only [put_ne _ _ hb] at hd'
      exact h.origin b d' hd'
  older o := by
    show Function.update m.last (m.origin a) a o < m.fresh ∨ Function.update m.last (m.origin a) a o = o
    by_cases e : o = m.origin a
    · rw [e, Function.update_self, h.fresh']
      exact .inl (lt_of_idatas h hd)
    · rw [Function.update_of_ne e]
      exact h.older o
  family b c e e' he he' hee := by
    have key : ∀ b e, put w.idatas a d2 b = some e → ∃ e0, w.idatas b = some e0 ∧ e0.differential = e.differential := by
      intro b e he
      by_cases hb : b = a
      · subst hb
        rw [put_same] at he
        obtain rfl := Option.some.inj he
        exact ⟨d, hd, hd2.symm⟩
      · rw [put_ne _ _ hb] at he
        exact ⟨e, he, rfl⟩
    obtain ⟨e0, k1, k2⟩ := key b e he
    obtain ⟨e0', k1', k2'⟩ := key c e' he'
    exact h.family b c e0 e0' k1 k1' (by rw [k2, k2', hee])
  out b := by
    by_cases hb : b = a
    · subst hb
      simp [put_same, hv, ho]
    · simpa [put_ne _ _ hb, hb] using h.out b
  last b hb e v0 he hv0 := by
    by_cases hba : b = a
    · subst hba
      simp only [put_same, Option.some.injEq] at he
      simp only [if_true, hv, Option.map_some, Option.some.injEq] at hv0
      subst he hv0
      exact ⟨v', hd2 ▸ h2, hs⟩
    · simp only [put_ne _ _ hba] at he
      simp only [if_neg hba] at hv0
      have hor : m.origin b ≠ m.origin a := by
        intro e
        simp only [e, Function.update_self] at hb
        exact hba hb.symm
      simp only [Function.update_of_ne hor] at hb
      obtain ⟨v3, k1, k2⟩ := h.last b hb e v0 he hv0
      refine ⟨v3, own_frame k1 (h4 _ fun hee => hor ?_), k2⟩
      exact h.family b a e d he hd hee

theorem iholds_step {w : IWorld Pin Jt R A F G C} {s : Vals Pin Jt R A F G C} {m : Families}
    (h : IHolds w s m) (op : Op X U)
    (hl : ∀ a ∈ op.target, (s.vals a).isSome)
    (hp : ∀ a x u, op = .calcDiff a x u → m.last (m.origin a) = a) :
    ∃ w', istep f op w = some w' ∧ IHolds w' (s.step f op) (m.step op) := by
  have e1 := h.fresh
  have e2 := h.fresh'
  cases op with
  | create =>
    have hold : ∀ a d, put w.idatas w.fresh (⟨w.base.fresh, f.xout0, f.fx0, f.l0, f.cost0⟩ : IData A F G C) a = some d →
        a ≠ s.fresh → w.idatas a = some d := by
      intro a d hd ha
      rwa [put_ne _ _ (by omega)] at hd
    have hnew : ∀ d, put w.idatas w.fresh (⟨w.base.fresh, f.xout0, f.fx0, f.l0, f.cost0⟩ : IData A F G C) s.fresh = some d →
        d.differential = w.base.fresh := by
      intro d hd
      rw [← e1, put_same] at hd
      obtain rfl := Option.some.inj hd
      rfl
    refine ⟨_, rfl, ?_, ?_, ?_, ?_, ?_, ?_, ?_, ?_, ?_, ?_⟩
    · simp [icreate, Vals.step, h.fresh]
    · simp [Families.step, Vals.step, h.fresh']
    · intro a ha
      simp only [Vals.step] at ha ⊢
      rw [put_ne _ _ (by omega)]
      exact h.none a (by omega)
    · intro b hb
      by_cases hb' : b = w.base.fresh
      · subst hb'
        exact ⟨Val.new f, put_same _ _ _, put_same _ _ _, _, put_same _ _ _⟩
      · have : b < w.base.fresh := by simp [icreate, create] at hb; omega
        obtain ⟨v, hv⟩ := h.own b this
        exact ⟨v, own_frame hv ⟨put_ne _ _ hb', put_ne _ _ hb', put_ne _ _ hb'⟩⟩
    · intro a d hd
      simp only [icreate, create] at hd ⊢
      by_cases ha : a = s.fresh
      · subst ha
        rw [hnew d hd]; omega
      · exact Nat.lt_succ_of_lt (h.diff a d (hold a d hd ha))
    · intro a d hd
      simp only [Families.step]
      by_cases ha : a = s.fresh
      · rw [ha, ← e2, Function.update_self]; omega
      · rw [Function.update_of_ne (by omega)]
        exact Nat.lt_succ_of_lt (h.origin a d (hold a d hd ha))
    · intro o
      simp only [Families.step]
      by_cases e : o = m.fresh
      · rw [e, Function.update_self]; omega
      · rw [Function.update_of_ne e]
        have := h.older o
        omega
    · intro a b d d' hd hd' hdd
      simp only [Families.step]
      by_cases ha : a = s.fresh <;> by_cases hb : b = s.fresh
      · rw [ha, hb]
      · subst ha
        have := h.diff b d' (hold b d' hd' hb)
        rw [← hdd, hnew d hd] at this
        omega
      · subst hb
        have := h.diff a d (hold a d hd ha)
        rw [hdd, hnew d' hd'] at this
        omega
      · rw [Function.update_of_ne (by omega), Function.update_of_ne (by omega)]
        exact h.family a b d d' (hold a d hd ha) (hold b d' hd' hb) hdd
    · intro a
      by_cases ha : a = s.fresh
      · subst ha
        simp [icreate, Vals.step, h.fresh, put_same, IData.out, Val.out, Val.new]
      · simpa [icreate, Vals.step, h.fresh, put_ne _ _ ha] using h.out a
    · intro a ha d v hd hv
      by_cases hs : a = s.fresh
      · subst hs
        rw [hnew d hd]
        simp only [Vals.step, put_same, Option.some.injEq] at hv
        subst hv
        exact ⟨Val.new f, ⟨put_same _ _ _, put_same _ _ _, _, put_same _ _ _⟩, rfl, rfl, rfl⟩
      · have hd' := hold a d hd hs
        simp only [Families.step] at ha
        rw [Function.update_of_ne (show a ≠ m.fresh by omega)] at ha
        rw [Function.update_of_ne (by have := h.origin a d hd'; omega)] at ha
        simp only [Vals.step] at hv
        rw [put_ne _ _ hs] at hv
        obtain ⟨v', k1, k2⟩ := h.last a ha d v hd' hv
        have hne : d.differential ≠ w.base.fresh := Nat.ne_of_lt (h.diff a d hd')
        exact ⟨v', own_frame k1 ⟨put_ne _ _ hne, put_ne _ _ hne, put_ne _ _ hne⟩, k2⟩
  | copy a =>
    have hs := hl a rfl
    obtain ⟨d, hd⟩ := Option.isSome_iff_exists.1 ((isSome_of_iholds h a).trans hs)
    have key : ∀ b e, put w.idatas w.fresh d b = some e →
        ∃ b0, w.idatas b0 = some e ∧ (m.step (.copy a : Op X U)).origin b = m.origin b0 ∧ (b ≠ s.fresh → b0 = b) := by
      intro b e he
      by_cases hb : b = w.fresh
      · subst hb
        rw [put_same] at he
        obtain rfl := Option.some.inj he
        exact ⟨a, hd, by simp [Families.step, e1, e2], fun hne => absurd e1 hne⟩
      · rw [put_ne _ _ hb] at he
        refine ⟨b, he, ?_, fun _ => rfl⟩
        simp only [Families.step]
        rw [Function.update_of_ne (by omega)]
    refine ⟨{ w with idatas := put w.idatas w.fresh d, fresh := w.fresh + 1 }, by simp [istep, icopy, hd], ?_, ?_, ?_,
      h.own, ?_, ?_, ?_, ?_, ?_, ?_⟩
    · simp [Vals.step, h.fresh]
    · simp [Families.step, Vals.step, h.fresh']
    · intro b hb
      simp only [Vals.step] at hb ⊢
      rw [if_neg (by omega)]
      exact h.none b (by omega)
    · intro b e he
      obtain ⟨b0, k, -⟩ := key b e he
      exact h.diff b0 e k
    · intro b e he
      obtain ⟨b0, k, k2, -⟩ := key b e he
      rw [k2]
      exact Nat.lt_succ_of_lt (h.origin b0 e k)
    · intro o
      simp only [Families.step]
      have := h.older o
      omega
    · intro b c e e' he he' hee
      obtain ⟨b0, k, k2, -⟩ := key b e he
      obtain ⟨c0, l, l2, -⟩ := key c e' he'
      rw [k2, l2]
      exact h.family b0 c0 e e' k l hee
    · intro b
      by_cases hb : b = s.fresh
      · subst hb
        have := h.out a
        rw [hd] at this
        simp only [Vals.step, h.fresh, put_same, if_true, Option.map_some, Option.map_map]
        rw [Option.map_some] at this
        rw [this]; rfl
      · simpa [Vals.step, h.fresh, put_ne _ _ hb, hb] using h.out b
    · intro b hb e v he hv
      obtain ⟨b0, k, k2, k3⟩ := key b e he
      rw [k2] at hb
      by_cases hs : b = s.fresh
      · -- the copy is not the one evaluated last
        exfalso
        have := h.origin b0 e k
        have := h.older (m.origin b0)
        simp only [Families.step] at hb
        omega
      · obtain rfl := k3 hs
        simp only [Vals.step, if_neg hs] at hv
        exact h.last b0 hb e v k hv
  | destroy a =>
    have hs := (isSome_of_iholds h a).trans (hl a rfl)
    have key : ∀ b e, (idestroy a w).idatas b = some e → w.idatas b = some e := by
      intro b e he
      simp only [idestroy] at he
      split at he
      · simp at he
      · exact he
    refine ⟨idestroy a w, by simp [istep, hs], h.fresh, h.fresh', ?_, h.own, fun b e he => h.diff b e (key b e he),
      fun b e he => h.origin b e (key b e he), h.older, fun b c e e' he he' => h.family b c e e' (key b e he) (key c e' he'), ?_, ?_⟩
    · intro b hb
      simp only [Vals.step] at hb ⊢
      split
      · rfl
      · exact h.none b hb
    · intro b
      by_cases hb : b = a
      · simp [idestroy, Vals.step, hb]
      · simpa [idestroy, Vals.step, hb] using h.out b
    · intro b hb e v he hv
      simp only [Vals.step] at hv
      split at hv
      · cases hv
      · exact h.last b hb e v (key b e he) hv
  | «calc» a x u =>
    obtain ⟨⟨fl, v⟩, hv⟩ := Option.isSome_iff_exists.1 (hl a rfl)
    obtain ⟨d, hd⟩ := Option.isSome_iff_exists.1 ((isSome_of_iholds h a).trans (hl a rfl))
    have hod := h.out a
    rw [hd, hv] at hod
    simp only [Option.map_some, Option.some.injEq, IData.out, Val.out, Out.mk.injEq] at hod
    obtain ⟨v0, hv0⟩ := h.own _ (h.diff a d hd)
    obtain ⟨b', h1, h2, h3, h4⟩ := calc_own f hv0 x u
    have := iholds_eval h (v2 := v.calc f x u) (d2 := { d with
        xout := (v0.calc f x u).xout, cost := (v0.calc f x u).cost }) hd hv h2 h3 h4 rfl
        (by simp [IData.out, Val.out, Val.calc, hod]) ⟨rfl, rfl, rfl⟩
    refine ⟨_, ?_, this.of_vals (by simp [Vals.step, hv])⟩
    simp [istep, icalc, hd, h1, h2.data]
  | calcDiff a x u =>
    have hlast := hp a x u rfl
    obtain ⟨⟨fl, v⟩, hv⟩ := Option.isSome_iff_exists.1 (hl a rfl)
    obtain ⟨d, hd⟩ := Option.isSome_iff_exists.1 ((isSome_of_iholds h a).trans (hl a rfl))
    have hod := h.out a
    rw [hd, hv] at hod
    simp only [Option.map_some, Option.some.injEq, IData.out, Val.out, Out.mk.injEq] at hod
    obtain ⟨v0, hv0, s1, s2, s3⟩ := h.last a hlast d _ hd hv
    simp only at s1 s2 s3
    obtain ⟨b', h1, h2, h3, h4⟩ := calcDiff_own f hv0 x u
    have := iholds_eval h (v2 := v.calcDiff f x u) (d2 := { d with
        fx := (v0.calcDiff f x u).fx, l := (v0.calcDiff f x u).l }) hd hv h2 h3 h4 rfl
        (by simp [IData.out, Val.out, Val.calcDiff, hod, s1, s2, s3])
        ⟨by simp [Val.calcDiff, s1], by simp [Val.calcDiff, s2], by simp [Val.calcDiff, s1, s2, s3]⟩
    have hup : Function.update m.last (m.origin a) a = m.last := by
      funext o
      by_cases e : o = m.origin a
      · rw [e, Function.update_self, hlast]
      · rw [Function.update_of_ne e]
    rw [hup] at this
    refine ⟨_, ?_, this.of_vals (by simp [Vals.step, hv])⟩
    simp [istep, icalcDiff, hd, h1, h2.data]

theorem iholds_run (ops : List (Op X U)) : ∀ {w : IWorld Pin Jt R A F G C} {s : Vals Pin Jt R A F G C}
    {m : Families}, IHolds w s m → Live f ops s → Turns ops m →
    ∃ w' m', irun f ops w = some w' ∧ IHolds w' (Vals.run f ops s) m' := by
  induction ops with
  | nil => intro w s m h _ _; exact ⟨w, m, rfl, h⟩
  | cons op ops ih =>
    intro w s m h hl hc
    obtain ⟨w1, h1, h2⟩ := iholds_step f h op hl.1 hc.1
    obtain ⟨w2, m2, h3, h4⟩ := ih h2 hl.2 hc.2
    exact ⟨w2, m2, by simp [irun, h1, h3], h4⟩

end
end Verif.DataCopy
