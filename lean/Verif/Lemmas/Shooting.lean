import Verif.Model.Shooting

/-! Helper lemmas for the shooting-problem properties. -/

namespace Verif.Shooting
open Verif
variable {K M : Type}

/-- The list after moving elements `i+1, …, i+n` one place to the left. -/
def shifted {α : Type} (l : List α) (i n : Nat) : List α :=
  l.take i ++ (l.drop (i + 1)).take n ++ l.drop (i + n)

theorem shifted_zero {α : Type} (l : List α) (i : Nat) : shifted l i 0 = l := by
  simp [shifted]

theorem length_shifted {α : Type} (l : List α) (i n : Nat) (h : i + n < l.length) :
    (shifted l i n).length = l.length := by
  simp [shifted]; omega

theorem shifted_set {α : Type} (l : List α) (i n : Nat) (a : α) (h : l[i+1]? = some a)
    (hn : i + 1 + n < l.length) :
    shifted (l.set i a) (i + 1) n = shifted l i (n + 1) := by
  have hi : i + 1 < l.length := by omega
  have ha : l[i+1] = a := by
    rw [List.getElem?_eq_getElem hi] at h; exact Option.some.inj h
  apply List.ext_getElem
  · rw [length_shifted _ _ _ (by simp; omega), length_shifted _ _ _ (by omega)]; simp
  · intro k h1 h2
    simp only [shifted, List.getElem_append, List.getElem_take, List.getElem_drop,
      List.length_append, List.length_take, List.length_drop, List.length_set, List.getElem_set]
    split <;> split <;> split <;> try (split)
    all_goals (try split)
    all_goals (try omega)
    all_goals (first | rfl | (subst ha; congr 1; omega) | (congr 1; omega))

theorem shiftLoop (n : Nat) : ∀ (i : Nat) (s : Problem K M),
    i + n < s.models.length → i + n < s.datas.length →
    Cpp.forLoop i n shiftNode s =
      .ok () { s with models := shifted s.models i n, datas := shifted s.datas i n } := by
  induction n with
  | zero => intro i s _ _; simp [shifted_zero]
  | succ n ih =>
    intro i s hm hd
    have hm1 : i + 1 < s.models.length := by omega
    have hd1 : i + 1 < s.datas.length := by omega
    rw [Cpp.forLoop_succ]
    have hb : shiftNode i s = .ok ()
        { s with models := s.models.set i s.models[i+1], datas := s.datas.set i s.datas[i+1] } := by
      have : i < s.models.length ∧ i < s.datas.length := by omega
      simp [shiftNode, List.getElem?_eq_getElem hm1, List.getElem?_eq_getElem hd1, this]
    rw [Cpp.cbind_apply, hb]
    simp only []
    rw [ih (i+1) _ (by simp; omega) (by simp; omega)]
    simp only [Res.ok.injEq, true_and]
    congr 1
    · exact shifted_set _ _ _ _ (by simp [List.getElem?_eq_getElem hm1]) (by omega)
    · exact shifted_set _ _ _ _ (by simp [List.getElem?_eq_getElem hd1]) (by omega)

theorem shifted_all_set {α : Type} (l : List α) (a : α) (h : l ≠ []) :
    (shifted l 0 (l.length - 1)).set (l.length - 1) a = l.tail ++ [a] := by
  have hl : 0 < l.length := List.length_pos_iff.mpr h
  apply List.ext_getElem
  · rw [List.length_set, length_shifted _ _ _ (by omega)]; simp; omega
  · intro k h1 h2
    rw [List.length_set, length_shifted _ _ _ (by omega)] at h1
    simp only [shifted, List.getElem_set, List.getElem_append, List.getElem_take, List.getElem_drop,
      List.length_append, List.length_take, List.length_drop, List.length_tail, List.getElem_tail]
    split
    · rename_i hk
      rw [dif_neg (by omega)]
      simp
    · simp only [List.take_zero, List.length_nil, Nat.zero_min, Nat.min_zero, Nat.zero_add,
        Nat.not_lt_zero, dite_false, Nat.sub_zero]
      split <;> split <;> first | omega | (congr 1; omega) | skip

/-- Complete description of the effect of shifting and replacing the last node. -/
theorem shift_setBack (m : M) (d : Data M) (s : Problem K M) (hT : s.T ≠ 0)
    (hm : s.models.length = s.T) (hd : s.datas.length = s.T) :
    (Cpp.bind (Cpp.forLoop 0 (s.T - 1) shiftNode) (fun _ => setBack m d)) s =
      .ok () { s with models := s.models.tail ++ [m], datas := s.datas.tail ++ [d] } := by
  rw [Cpp.cbind_apply, shiftLoop _ _ _ (by omega) (by omega)]
  have e1 : (shifted s.models 0 (s.T - 1)).length = s.T := by
    rw [length_shifted _ _ _ (by omega), hm]
  have e2 : (shifted s.datas 0 (s.T - 1)).length = s.T := by
    rw [length_shifted _ _ _ (by omega), hd]
  have n1 : s.models ≠ [] := by intro h; rw [h] at hm; simp at hm; omega
  have n2 : s.datas ≠ [] := by intro h; rw [h] at hd; simp at hd; omega
  have n3 : shifted s.models 0 (s.T - 1) ≠ [] := by intro h; rw [h] at e1; simp at e1; omega
  have n4 : shifted s.datas 0 (s.T - 1) ≠ [] := by intro h; rw [h] at e2; simp at e2; omega
  simp only [setBack, Cpp.bind_apply, Cpp.get_apply, n3, n4, or_self, if_false, Cpp.modify_apply]
  rw [e1, e2]
  have h1 := shifted_all_set s.models m n1
  have h2 := shifted_all_set s.datas d n2
  rw [hm] at h1; rw [hd] at h2
  rw [h1, h2]

theorem circularAppendData_run (e : Env M) (m : M) (d : Data M) (s : Problem K M) (hT : s.T ≠ 0)
    (hm : s.models.length = s.T) (hd : s.datas.length = s.T) :
    circularAppendData e m d s =
      if e.checkData m d = true ∧ e.nx m = s.nx ∧ e.ndx m = s.ndx then
        .ok () { s with updated := true, models := s.models.tail ++ [m],
                        datas := s.datas.tail ++ [d] }
      else .throw s := by
  unfold circularAppendData
  by_cases hc : e.checkData m d = true <;> by_cases hx : e.nx m = s.nx <;>
    by_cases hdx : e.ndx m = s.ndx <;> simp [hc, hx, hdx, hT]
  have := shift_setBack m d { s with updated := true } hT hm hd
  simpa using this

theorem circularAppend_run (e : Env M) (m : M) (s : Problem K M) (hT : s.T ≠ 0)
    (hm : s.models.length = s.T) (hd : s.datas.length = s.T) :
    circularAppend e m s =
      if e.nx m = s.nx ∧ e.ndx m = s.ndx then
        .ok () { s with updated := true, models := s.models.tail ++ [m],
                        datas := s.datas.tail ++ [⟨s.fresh, m⟩], fresh := s.fresh + 1 }
      else .throw s := by
  unfold circularAppend
  by_cases hx : e.nx m = s.nx <;> by_cases hdx : e.ndx m = s.ndx <;> simp [hx, hdx, hT]
  have := shift_setBack m ⟨s.fresh, m⟩ { s with updated := true } hT hm hd
  rw [Cpp.cbind_apply] at this
  have e1 : (shifted s.models 0 (s.T - 1)).length = s.T := by
    rw [length_shifted _ _ _ (by omega), hm]
  have e2 : (shifted s.datas 0 (s.T - 1)).length = s.T := by
    rw [length_shifted _ _ _ (by omega), hd]
  have n3 : shifted s.models 0 (s.T - 1) ≠ [] := by intro h; rw [h] at e1; simp at e1; omega
  have n4 : shifted s.datas 0 (s.T - 1) ≠ [] := by intro h; rw [h] at e2; simp at e2; omega
  rw [shiftLoop _ _ _ (by simp; omega) (by simp; omega)] at this ⊢
  simp [createData, setBack, n3, n4] at this ⊢
  exact this

theorem updateNode_run (e : Env M) (i : Nat) (m : M) (d : Data M) (s : Problem K M)
    (hm : s.models.length = s.T) (hd : s.datas.length = s.T) :
    updateNode e i m d s =
      if i ≤ s.T ∧ e.checkData m d = true ∧ e.nx m = s.nx ∧ e.ndx m = s.ndx then
        .ok () (if i = s.T then { s with updated := true, tmodel := m, tdata := d }
          else { s with updated := true, models := s.models.set i m, datas := s.datas.set i d })
      else .throw s := by
  unfold updateNode
  by_cases hi : i ≤ s.T
  · have hi' : ¬ (i ≥ s.T + 1) := by omega
    by_cases hc : e.checkData m d = true <;> by_cases hx : e.nx m = s.nx <;>
      by_cases hdx : e.ndx m = s.ndx <;> simp [hi, hi', hc, hx, hdx]
    by_cases h : i = s.T
    · simp [h]
    · have h1 : i < s.models.length ∧ i < s.datas.length := by omega
      simp [h, setNode, h1]
  · have hi' : i ≥ s.T + 1 := by omega
    simp [hi, hi']

theorem updateModel_run (e : Env M) (i : Nat) (m : M) (s : Problem K M)
    (hm : s.models.length = s.T) (hd : s.datas.length = s.T) :
    updateModel e i m s =
      if i ≤ s.T ∧ e.nx m = s.nx ∧ e.ndx m = s.ndx then
        .ok () (if i = s.T then
            { s with updated := true, tmodel := m, tdata := ⟨s.fresh, m⟩, fresh := s.fresh + 1 }
          else { s with updated := true, models := s.models.set i m,
                        datas := s.datas.set i ⟨s.fresh, m⟩, fresh := s.fresh + 1 })
      else .throw s := by
  unfold updateModel
  by_cases hi : i ≤ s.T
  · have hi' : ¬ (i ≥ s.T + 1) := by omega
    by_cases hx : e.nx m = s.nx <;>
      by_cases hdx : e.ndx m = s.ndx <;> simp [hi, hi', hx, hdx, createData]
    by_cases h : i = s.T
    · simp [h]
    · have h1 : i < s.models.length ∧ i < s.datas.length := by omega
      simp [h, setNode, h1]
  · have hi' : i ≥ s.T + 1 := by omega
    simp [hi, hi']

theorem setX0_run (x : List K) (s : Problem K M) :
    setX0 x s = if x.length = s.x0.length then .ok () { s with x0 := x } else .throw s := by
  by_cases h : x.length = s.x0.length <;> simp [setX0, h]

theorem setTerminalModel_run (e : Env M) (m : M) (s : Problem K M) :
    setTerminalModel e m s =
      if e.nx m = s.nx ∧ e.ndx m = s.ndx then
        .ok () { s with updated := true, tmodel := m, tdata := ⟨s.fresh, m⟩, fresh := s.fresh + 1 }
      else .throw s := by
  by_cases hx : e.nx m = s.nx <;> by_cases hdx : e.ndx m = s.ndx <;>
    simp [setTerminalModel, hx, hdx, createData]

theorem isUpdated_run (s : Problem K M) :
    isUpdated s = .ok s.updated { s with updated := false } := by
  simp [isUpdated]

/-- The validation loop of `set_runningModels` never changes the problem. -/
theorem checkLoop_cases (e : Env M) (ms : List M) (n : Nat) : ∀ (i : Nat) (s : Problem K M),
    Cpp.forLoop i n (checkNewModel e ms) s = .ok () s ∨
    Cpp.forLoop i n (checkNewModel e ms) s = .throw s ∨
    Cpp.forLoop i n (checkNewModel e ms) s = .ub := by
  induction n with
  | zero => intro i s; simp
  | succ n ih =>
    intro i s
    rw [Cpp.forLoop_succ]
    cases h : ms[i]? with
    | none => simp [checkNewModel, h]
    | some m =>
      by_cases hx : e.nx m = s.nx <;> by_cases hdx : e.ndx m = s.ndx <;>
        simp [checkNewModel, h, hx, hdx, ih]

theorem length_allocDatas (ms : List M) : ∀ a, (allocDatas a ms).length = ms.length := by
  induction ms with
  | nil => intro a; rfl
  | cons m ms ih => intro a; simp [allocDatas, ih]

theorem getElem?_allocDatas (ms : List M) : ∀ (a i : Nat),
    (allocDatas a ms)[i]? = ms[i]?.map (fun m => ⟨a + i, m⟩) := by
  induction ms with
  | nil => intro a i; simp [allocDatas]
  | cons m ms ih =>
    intro a i
    cases i with
    | zero => simp [allocDatas]
    | succ i => simp [allocDatas, ih]; congr 1; funext m; congr 1; omega

end Verif.Shooting
