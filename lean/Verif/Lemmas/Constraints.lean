import Verif.Spec.Constraints

/-! Characterisation of the constraint-manager mutators and of the stacking loops. -/

namespace Verif.Constraints
open Verif
variable {N K D : Type} [LinearOrder N] [Sub K] [Zero K] [LE K] [DecidableLE K] [DecidableEq K]
variable {nu : Nat} {maxv : K}

theorem next_add (w : World N K) (hs : OrdMap.Sorted w.mgr.items) (n : N) (a : Nat) (act : Bool) :
    (Op.add n a act).next nu maxv w =
      if (w.heap a).nu = nu ∧ OrdMap.find n w.mgr.items = none then
        { w with mgr :=
          if act then
            { (w.mgr.countUp (w.heap a)).resizeBounds with
              items := (OrdMap.insert n ⟨a, act⟩ w.mgr.items).1, active := insert n w.mgr.active }
          else { w.mgr with items := (OrdMap.insert n ⟨a, act⟩ w.mgr.items).1
                            inactive := insert n w.mgr.inactive } }
      else w := by
  simp only [Op.next, Op.run, addConstraint, Cpp.bind_apply, Cpp.throwIf_apply, Cpp.get_apply]
  by_cases h : (w.heap a).nu = nu
  · simp only [h, bne_self_eq_false, Bool.false_eq_true, if_false, Cpp.set_apply, true_and]
    by_cases hf : OrdMap.find n w.mgr.items = none
    · have := ((OrdMap.insert_spec n ⟨a, act⟩ w.mgr.items hs).1 hf).1
      rw [if_pos hf, this]
      cases act <;> simp [Mgr.countUp, Mgr.resizeBounds]
    · rw [if_neg hf, (OrdMap.insert_spec n ⟨a, act⟩ w.mgr.items hs).2 hf]
      simp
  · have : ((w.heap a).nu != nu) = true := by simpa using h
    simp [this, h]

theorem next_remove (w : World N K) (n : N) :
    (Op.remove n : Op N K).next nu maxv w =
      match OrdMap.find n w.mgr.items with
      | some it =>
        { w with mgr :=
          if it.active then
            { (w.mgr.countDown (w.heap it.con)).resizeBounds with
              items := OrdMap.erase n w.mgr.items, active := w.mgr.active.erase n }
          else { w.mgr with items := OrdMap.erase n w.mgr.items
                            inactive := w.mgr.inactive.erase n } }
      | none => w := by
  simp only [Op.next, Op.run, removeConstraint, Cpp.bind_apply, Cpp.get_apply]
  cases OrdMap.find n w.mgr.items with
  | none => rfl
  | some it => cases hia : it.active <;> simp [hia, Mgr.countDown, Mgr.resizeBounds]

theorem next_status (w : World N K) (n : N) (a : Bool) :
    (Op.status n a : Op N K).next nu maxv w =
      match OrdMap.find n w.mgr.items with
      | some it =>
        if it.active = a then w
        else { w with mgr :=
          if a then
            { (w.mgr.countUp (w.heap it.con)).resizeBounds with
              items := OrdMap.adjust n (fun i => { i with active := a }) w.mgr.items
              active := insert n w.mgr.active, inactive := w.mgr.inactive.erase n }
          else
            { (w.mgr.countDown (w.heap it.con)).resizeBounds with
              items := OrdMap.adjust n (fun i => { i with active := a }) w.mgr.items
              active := w.mgr.active.erase n, inactive := insert n w.mgr.inactive } }
      | none => w := by
  simp only [Op.next, Op.run, changeConstraintStatus, Cpp.bind_apply, Cpp.get_apply]
  cases OrdMap.find n w.mgr.items with
  | none => rfl
  | some it =>
    cases hia : it.active <;> cases a <;> simp [hia, Mgr.countDown, Mgr.countUp, Mgr.resizeBounds]

theorem next_onCon (w : World N K) (op : Op N K) (a : Nat)
    (h : (∃ l u, op = .updateBounds a l u) ∨ op = .removeBounds a) :
    (op.next nu maxv w).mgr = w.mgr ∧
      ∀ b, b ≠ a → (op.next nu maxv w).heap b = w.heap b := by
  have key : ∀ f : Cpp (Con K) Unit,
      (match onCon (N := N) a f w with | .ok _ w' => w' | .throw w' => w' | .ub => w).mgr = w.mgr ∧
      ∀ b, b ≠ a →
        (match onCon (N := N) a f w with | .ok _ w' => w' | .throw w' => w' | .ub => w).heap b
          = w.heap b := by
    intro f
    simp only [onCon]
    cases f (w.heap a) <;> exact ⟨rfl, fun b hb => by simp [hb]⟩
  rcases h with ⟨l, u, rfl⟩ | rfl
  · exact key _
  · exact key removeBounds

theorem updateBounds_eq (maxv : K) (l u : List (Flt K)) (c : Con K) :
    updateBounds maxv l u c =
      if (u.length != c.ngInt || l.length != c.ngInt) ||
         ((u.zip l).any fun p => p.1.subLeZero p.2) ||
         (c.lb.any (fun v => v == .pinf) || c.lb.any (fun v => v == .fin maxv)) ||
         (c.ub.any (fun v => v == .ninf) || c.ub.any (fun v => v == .ninf)) then .throw c
      else .ok () { c with ng := c.ngInt, nh := c.nhInt, lb := l, ub := u
                           type := if c.nhInt = 0 then .inequality else .both } := by
  simp only [updateBounds, Cpp.bind_apply, Cpp.get_apply, Cpp.throwIf_apply, Cpp.set_apply]
  cases (u.length != c.ngInt || l.length != c.ngInt) <;>
  cases ((u.zip l).any fun p => p.1.subLeZero p.2) <;>
  cases (c.lb.any (fun v => v == .pinf) || c.lb.any (fun v => v == .fin maxv)) <;>
  cases (c.ub.any (fun v => v == .ninf) || c.ub.any (fun v => v == .ninf)) <;> rfl

theorem resizeVec_length {α : Type} (n : Nat) (v : List (Option α)) :
    (resizeVec n v).length = n := by
  unfold resizeVec; split <;> simp_all

/-! ### Stacking -/

omit [Sub K] [Zero K] [LE K] [DecidableLE K] [DecidableEq K] [LinearOrder N]

/-- Number of rows contributed by the selected items. -/
def rows (heap : Nat → Con K) (sel : Item → Bool) (f : Con K → Nat) (ms : List (N × Item)) : Nat :=
  ((ms.filter fun kv => sel kv.2).map fun kv => f (heap kv.2.con)).sum

theorem stack_cons {α : Type} (heap : Nat → Con K) (sel : Item → Bool) (f : Con K → D → D)
    (out : Con K → D → List α) (m : N × Item) (ms : List (N × Item)) (d : N × D) (ds : List (N × D)) :
    stack heap sel f out (m :: ms) (d :: ds) =
      (if sel m.2 then out (heap m.2.con) (f (heap m.2.con) d.2) else []) ++
        stack heap sel f out ms ds := by
  cases h : sel m.2 <;> simp [stack, h]

theorem rows_cons (heap : Nat → Con K) (sel : Item → Bool) (f : Con K → Nat) (m : N × Item)
    (ms : List (N × Item)) :
    rows heap sel f (m :: ms) = (if sel m.2 then f (heap m.2.con) else 0) + rows heap sel f ms := by
  cases h : sel m.2 <;> simp [rows, h]

theorem calcLoop_spec (e : Env K D) (heap : Nat → Con K) (sel : Item → Bool) (f : Con K → D → D)
    (ms : List (N × Item)) : ∀ (ds : List (N × D)) (ngi nhi : Nat) (b : CalcBufs K),
    ms.length = ds.length →
    (∀ p ∈ ms.zip ds, sel p.1.2 = true →
      (e.g (f (heap p.1.2.con) p.2.2)).length = (heap p.1.2.con).ng ∧
      (e.h (f (heap p.1.2.con) p.2.2)).length = (heap p.1.2.con).nh ∧
      (heap p.1.2.con).lb.length = (heap p.1.2.con).ng ∧
      (heap p.1.2.con).ub.length = (heap p.1.2.con).ng) →
    ngi + rows heap sel Con.ng ms ≤ b.g.length →
    nhi + rows heap sel Con.nh ms ≤ b.h.length →
    ngi + rows heap sel Con.ng ms ≤ b.lb.length →
    ngi + rows heap sel Con.ng ms ≤ b.ub.length →
    calcLoop e heap sel f ms ds ngi nhi b = some (evaluated heap sel f ms ds,
      ⟨overlay b.g ngi (stack heap sel f (fun _ d => e.g d) ms ds),
       overlay b.h nhi (stack heap sel f (fun _ d => e.h d) ms ds),
       overlay b.lb ngi (stack heap sel f (fun c _ => c.lb) ms ds),
       overlay b.ub ngi (stack heap sel f (fun c _ => c.ub) ms ds)⟩) := by
  induction ms with
  | nil =>
    intro ds ngi nhi b hlen _ _ _ _ _
    cases ds with
    | nil => simp [calcLoop, evaluated, stack, overlay_nil]
    | cons => simp at hlen
  | cons m ms ih =>
    intro ds ngi nhi b hlen hsz hg hh hlb hub
    cases ds with
    | nil => simp at hlen
    | cons d ds =>
      obtain ⟨mn, it⟩ := m
      obtain ⟨dn, d⟩ := d
      simp only [List.length_cons, Nat.add_right_cancel_iff] at hlen
      have hsz' := fun p hp => hsz p (List.mem_cons_of_mem _ hp)
      simp only [rows_cons] at hg hh hlb hub
      by_cases hsel : sel it = true
      · obtain ⟨s1, s2, s3, s4⟩ := hsz ((mn, it), (dn, d)) (by simp) hsel
        simp only at s1 s2 s3 s4
        simp only [hsel, if_true] at hg hh hlb hub
        have t1 : ngi + (e.g (f (heap it.con) d)).length ≤ b.g.length := by omega
        have t2 : nhi + (e.h (f (heap it.con) d)).length ≤ b.h.length := by omega
        have t3 : ngi + (heap it.con).lb.length ≤ b.lb.length := by omega
        have t4 : ngi + (heap it.con).ub.length ≤ b.ub.length := by omega
        simp only [calcLoop, hsel, if_true]
        rw [writeSeg_overlay s1 (by omega), writeSeg_overlay s2 (by omega),
          writeSeg_overlay s3 (by omega), writeSeg_overlay s4 (by omega)]
        simp only [Option.bind_eq_bind, Option.bind_some]
        rw [ih ds _ _ _ hlen hsz' (by simp only [overlay_length t1]; omega)
          (by simp only [overlay_length t2]; omega) (by simp only [overlay_length t3]; omega)
          (by simp only [overlay_length t4]; omega)]
        simp only [Option.bind_some, stack_cons, hsel, if_true]
        rw [← overlay_overlay t1, ← overlay_overlay t2, ← overlay_overlay t3, ← overlay_overlay t4,
          s1, s2, s3, s4]
        simp [evaluated, hsel]
      · have hf : sel it = false := by simpa using hsel
        simp only [hf, Bool.false_eq_true, if_false, Nat.zero_add] at hg hh hlb hub
        simp only [calcLoop, hf, Bool.false_eq_true, if_false]
        rw [ih ds _ _ _ hlen hsz' hg hh hlb hub]
        simp [stack_cons, hf, evaluated]

theorem diffLoop_spec (e : Env K D) (heap : Nat → Con K) (sel : Item → Bool) (f : Con K → D → D)
    (term : Bool) (ms : List (N × Item)) : ∀ (ds : List (N × D)) (ngi nhi : Nat) (b : DiffBufs K),
    ms.length = ds.length →
    (∀ p ∈ ms.zip ds, sel p.1.2 = true →
      (e.Gx (f (heap p.1.2.con) p.2.2)).length = (heap p.1.2.con).ng ∧
      (e.Hx (f (heap p.1.2.con) p.2.2)).length = (heap p.1.2.con).nh ∧
      (term = false → (e.Gu (f (heap p.1.2.con) p.2.2)).length = (heap p.1.2.con).ng ∧
        (e.Hu (f (heap p.1.2.con) p.2.2)).length = (heap p.1.2.con).nh)) →
    ngi + rows heap sel Con.ng ms ≤ b.Gx.length →
    nhi + rows heap sel Con.nh ms ≤ b.Hx.length →
    (term = false → ngi + rows heap sel Con.ng ms ≤ b.Gu.length ∧
      nhi + rows heap sel Con.nh ms ≤ b.Hu.length) →
    diffLoop e heap sel f term ms ds ngi nhi b = some (evaluated heap sel f ms ds,
      ⟨overlay b.Gx ngi (stack heap sel f (fun _ d => e.Gx d) ms ds),
       if term then b.Gu else overlay b.Gu ngi (stack heap sel f (fun _ d => e.Gu d) ms ds),
       overlay b.Hx nhi (stack heap sel f (fun _ d => e.Hx d) ms ds),
       if term then b.Hu else overlay b.Hu nhi (stack heap sel f (fun _ d => e.Hu d) ms ds)⟩) := by
  induction ms with
  | nil =>
    intro ds ngi nhi b hlen _ _ _ _
    cases ds with
    | nil => simp [diffLoop, evaluated, stack, overlay_nil]
    | cons => simp at hlen
  | cons m ms ih =>
    intro ds ngi nhi b hlen hsz hg hh hu
    cases ds with
    | nil => simp at hlen
    | cons d ds =>
      obtain ⟨mn, it⟩ := m
      obtain ⟨dn, d⟩ := d
      simp only [List.length_cons, Nat.add_right_cancel_iff] at hlen
      have hsz' := fun p hp => hsz p (List.mem_cons_of_mem _ hp)
      simp only [rows_cons] at hg hh hu
      by_cases hsel : sel it = true
      · obtain ⟨s1, s2, s3⟩ := hsz ((mn, it), (dn, d)) (by simp) hsel
        simp only at s1 s2 s3
        simp only [hsel, if_true] at hg hh hu
        have t1 : ngi + (e.Gx (f (heap it.con) d)).length ≤ b.Gx.length := by omega
        have t2 : nhi + (e.Hx (f (heap it.con) d)).length ≤ b.Hx.length := by omega
        simp only [diffLoop, hsel, if_true]
        rw [writeSeg_overlay s1 (by omega), writeSeg_overlay s2 (by omega)]
        cases term with
        | true =>
          simp only [Option.bind_eq_bind, Option.bind_some, if_true]
          rw [ih ds _ _ _ hlen hsz' (by simp only [overlay_length t1]; omega)
            (by simp only [overlay_length t2]; omega) (by simp)]
          simp only [Option.bind_some, stack_cons, hsel, if_true]
          rw [← overlay_overlay t1, ← overlay_overlay t2, s1, s2]
          simp [evaluated, hsel]
        | false =>
          obtain ⟨s4, s5⟩ := s3 rfl
          obtain ⟨hu1, hu2⟩ := hu rfl
          have t3 : ngi + (e.Gu (f (heap it.con) d)).length ≤ b.Gu.length := by omega
          have t4 : nhi + (e.Hu (f (heap it.con) d)).length ≤ b.Hu.length := by omega
          simp only [Bool.false_eq_true, if_false]
          rw [writeSeg_overlay s4 (by omega), writeSeg_overlay s5 (by omega)]
          simp only [Option.bind_eq_bind, Option.bind_some]
          rw [ih ds _ _ _ hlen hsz' (by simp only [overlay_length t1]; omega)
            (by simp only [overlay_length t2]; omega)
            (fun _ => by simp only [overlay_length t3, overlay_length t4]; omega)]
          simp only [Option.bind_some, stack_cons, hsel, if_true, Bool.false_eq_true, if_false]
          rw [← overlay_overlay t1, ← overlay_overlay t2, ← overlay_overlay t3, ← overlay_overlay t4,
            s1, s2, s4, s5]
          simp [evaluated, hsel]
      · have hf : sel it = false := by simpa using hsel
        simp only [hf, Bool.false_eq_true, if_false, Nat.zero_add] at hg hh hu
        simp only [diffLoop, hf, Bool.false_eq_true, if_false]
        rw [ih ds _ _ _ hlen hsz' hg hh hu]
        simp [stack_cons, hf, evaluated]

end Verif.Constraints
