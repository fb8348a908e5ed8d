import Verif.Spec.Contacts

/-! Characterisation of the multi-contact mutators and loops. -/

namespace Verif.Contacts
open Verif
variable {N K M D F : Type}

section
variable [LinearOrder N] (e : Env K M D F) (nu : Nat)

theorem insertItem_eq (s : Multi N M) (hs : OrdMap.Sorted s.items) (n : N) (c : M) (a : Bool) :
    insertItem e n c a s = .ok () (
      if OrdMap.find n s.items = none then
        { items := (OrdMap.insert n ⟨c, a⟩ s.items).1
          nc := if a then s.nc + UInt64.ofNat (e.ncOf c) else s.nc
          ncTotal := s.ncTotal + UInt64.ofNat (e.ncOf c)
          active := if a then insert n s.active else s.active
          inactive := if a then s.inactive else insert n s.inactive
          all := s.all }
      else s) := by
  simp only [insertItem, Cpp.bind_apply, Cpp.get_apply]
  by_cases hf : OrdMap.find n s.items = none
  · have := ((OrdMap.insert_spec n ⟨c, a⟩ s.items hs).1 hf).1
    rw [if_pos hf, this]
    cases a <;> simp
  · rw [if_neg hf, (OrdMap.insert_spec n ⟨c, a⟩ s.items hs).2 hf]
    simp

theorem next_remove (s : Multi N M) (n : N) :
    (Op.remove n : Op N M).next e nu s =
      match OrdMap.find n s.items with
      | some it =>
        { items := OrdMap.erase n s.items
          nc := s.nc - UInt64.ofNat (e.ncOf it.contact)
          ncTotal := s.ncTotal - UInt64.ofNat (e.ncOf it.contact)
          active := s.active.erase n
          inactive := s.inactive.erase n
          all := s.all }
      | none => s := by
  simp only [Op.next, Op.run, removeItem, Cpp.bind_apply, Cpp.get_apply]
  cases OrdMap.find n s.items <;> rfl

theorem next_status (s : Multi N M) (n : N) (a : Bool) :
    (Op.status n a : Op N M).next e nu s =
      match OrdMap.find n s.items with
      | some it =>
        { items := OrdMap.adjust n (fun i => { i with active := a }) s.items
          nc := if it.active = a then s.nc else if a then s.nc + UInt64.ofNat (e.ncOf it.contact)
                else s.nc - UInt64.ofNat (e.ncOf it.contact)
          ncTotal := s.ncTotal
          active := if it.active = a then s.active else if a then insert n s.active
                    else s.active.erase n
          inactive := if it.active = a then s.inactive else if a then s.inactive.erase n
                      else insert n s.inactive
          all := s.all }
      | none => s := by
  simp only [Op.next, Op.run, changeStatus, Cpp.bind_apply, Cpp.get_apply]
  cases OrdMap.find n s.items with
  | none => rfl
  | some it => cases ha : it.active <;> cases a <;> simp [ha]

theorem next_addContact (s : Multi N M) (n : N) (c : M) (a : Bool) :
    (Op.addContact n c a).next e nu s =
      if e.nuOf c = nu then (Op.addImpulse n c a).next e nu s else s := by
  simp only [Op.next, Op.run, addContact, addImpulse, Cpp.bind_apply, Cpp.throwIf_apply]
  by_cases h : e.nuOf c = nu
  · simp [h]
  · have : (e.nuOf c != nu) = true := by simpa using h
    simp [this, h]

theorem next_addImpulse (s : Multi N M) (hs : OrdMap.Sorted s.items) (n : N) (c : M) (a : Bool) :
    (Op.addImpulse n c a).next e nu s =
      if OrdMap.find n s.items = none then
        { items := (OrdMap.insert n ⟨c, a⟩ s.items).1
          nc := if a then s.nc + UInt64.ofNat (e.ncOf c) else s.nc
          ncTotal := s.ncTotal + UInt64.ofNat (e.ncOf c)
          active := if a then insert n s.active else s.active
          inactive := if a then s.inactive else insert n s.inactive
          all := s.all }
      else s := by
  simp only [Op.next, Op.run, addImpulse, insertItem_eq e s hs]

end

/-! ### Loops -/

theorem stacked_cons {α : Type} (e : Env K M D F) (all : Bool) (zero : α) (f : M → D → D)
    (out : D → List α) (m : N × Item M) (ms : List (N × Item M)) (d : N × D) (ds : List (N × D)) :
    stacked e all zero f out (m :: ms) (d :: ds) =
      (if m.2.active then out (f m.2.contact d.2)
       else if all then List.replicate (e.ncOf m.2.contact) zero else []) ++
        stacked e all zero f out ms ds := rfl

/-- Total number of rows. -/
def rowSum (e : Env K M D F) (all : Bool) (ms : List (N × Item M)) : Nat :=
  (ms.map fun m => rowsOf e all m.2).sum

theorem rowSum_cons (e : Env K M D F) (all : Bool) (m : N × Item M) (ms : List (N × Item M)) :
    rowSum e all (m :: ms) = rowsOf e all m.2 + rowSum e all ms := rfl

theorem stacked_length {α : Type} (e : Env K M D F) (all : Bool) (zero : α) (f : M → D → D)
    (out : D → List α) (hout : ∀ m d, (out (f m d)).length = e.ncOf m) (ms : List (N × Item M)) :
    ∀ (ds : List (N × D)), ms.length = ds.length →
    (stacked e all zero f out ms ds).length = rowSum e all ms := by
  induction ms with
  | nil => intro ds _; simp [stacked, rowSum]
  | cons m ms ih =>
    intro ds hl
    cases ds with
    | nil => simp at hl
    | cons d ds =>
      rw [stacked_cons, rowSum_cons, List.length_append, ih ds (by simpa using hl)]
      cases ha : m.2.active <;> cases all <;> simp [rowsOf, ha, hout]

theorem calcLoop_spec [Zero K] (e : Env K M D F) (he : Sized e) (nv : Nat) (all : Bool) (x : List K)
    (ms : List (N × Item M)) : ∀ (ds : List (N × D)) (nc : Nat) (a0 : List (Option K))
      (Jc : List (Option (List K))), ms.length = ds.length →
    nc + rowSum e all ms ≤ a0.length → nc + rowSum e all ms ≤ Jc.length →
    calcLoop e nv all x ms ds nc a0 Jc = some
      (evaluated (fun m d => e.calcF m x d) (fun _ d => d) ms ds,
       overlay a0 nc (stacked e all 0 (fun m d => e.calcF m x d) e.a0 ms ds),
       overlay Jc nc (stacked e all (List.replicate nv 0) (fun m d => e.calcF m x d) e.Jc ms ds)) := by
  induction ms with
  | nil =>
    intro ds nc a0 Jc hl _ _
    cases ds with
    | nil => simp [calcLoop, evaluated, stacked, overlay_nil]
    | cons => simp at hl
  | cons m ms ih =>
    intro ds nc a0 Jc hl h1 h2
    cases ds with
    | nil => simp at hl
    | cons d ds =>
      obtain ⟨mn, it⟩ := m
      obtain ⟨dn, d⟩ := d
      have hl' : ms.length = ds.length := by simpa using hl
      rw [rowSum_cons] at h1 h2
      have key : ∀ (va : List K) (vj : List (List K)), va.length = e.ncOf it.contact →
          vj.length = e.ncOf it.contact → rowsOf e all it = e.ncOf it.contact →
          writeSeg a0 nc (e.ncOf it.contact) va = some (overlay a0 nc va) ∧
          writeSeg Jc nc (e.ncOf it.contact) vj = some (overlay Jc nc vj) ∧
          calcLoop e nv all x ms ds (nc + e.ncOf it.contact) (overlay a0 nc va) (overlay Jc nc vj) =
          some (evaluated (fun m d => e.calcF m x d) (fun _ d => d) ms ds,
            overlay a0 nc (va ++ stacked e all 0 (fun m d => e.calcF m x d) e.a0 ms ds),
            overlay Jc nc (vj ++ stacked e all (List.replicate nv 0)
              (fun m d => e.calcF m x d) e.Jc ms ds)) := by
        intro va vj hva hvj hr
        simp only [hr] at h1 h2
        have t1 : nc + va.length ≤ a0.length := by omega
        have t2 : nc + vj.length ≤ Jc.length := by omega
        refine ⟨writeSeg_overlay hva (by omega), writeSeg_overlay hvj (by omega), ?_⟩
        rw [ih ds _ _ _ hl' (by rw [overlay_length t1]; omega) (by rw [overlay_length t2]; omega),
          ← overlay_overlay t1, ← overlay_overlay t2, hva, hvj]
      cases ha : it.active with
      | true =>
        obtain ⟨k1, k2, k3⟩ := key (e.a0 (e.calcF it.contact x d)) (e.Jc (e.calcF it.contact x d))
          (he.a0 _ _ _) (he.Jc _ _ _) (by simp [rowsOf, ha])
        simp only [calcLoop, ha, if_true, k1, k2, k3, Option.bind_eq_bind, Option.bind_some,
          stacked_cons]
        simp [evaluated, ha]
      | false =>
        cases all with
        | true =>
          obtain ⟨k1, k2, k3⟩ := key (List.replicate (e.ncOf it.contact) 0)
            (List.replicate (e.ncOf it.contact) (List.replicate nv 0))
            (by simp) (by simp) (by simp [rowsOf])
          simp only [calcLoop, ha, if_true, Bool.false_eq_true, if_false, k1, k2, k3,
            Option.bind_eq_bind, Option.bind_some, stacked_cons]
          simp [evaluated, ha]
        | false =>
          have hr : rowsOf e false it = 0 := by simp [rowsOf, ha]
          simp only [hr, Nat.zero_add] at h1 h2
          simp only [calcLoop, ha, Bool.false_eq_true, if_false, stacked_cons]
          rw [ih ds _ _ _ hl' h1 h2]
          simp [evaluated, ha]

theorem diffLoop_spec [Zero K] (e : Env K M D F) (he : Sized e) (ndx : Nat) (all : Bool) (x : List K)
    (ms : List (N × Item M)) : ∀ (ds : List (N × D)) (nc : Nat) (da0 : List (Option (List K))),
    ms.length = ds.length → nc + rowSum e all ms ≤ da0.length →
    diffLoop e ndx all x ms ds nc da0 = some
      (evaluated (fun m d => e.diffF m x d) (fun _ d => d) ms ds,
       overlay da0 nc (stacked e all (List.replicate ndx 0) (fun m d => e.diffF m x d) e.da0 ms ds)) := by
  induction ms with
  | nil =>
    intro ds nc a0 hl _
    cases ds with
    | nil => simp [diffLoop, evaluated, stacked, overlay_nil]
    | cons => simp at hl
  | cons m ms ih =>
    intro ds nc a0 hl h1
    cases ds with
    | nil => simp at hl
    | cons d ds =>
      obtain ⟨mn, it⟩ := m
      obtain ⟨dn, d⟩ := d
      have hl' : ms.length = ds.length := by simpa using hl
      rw [rowSum_cons] at h1
      have key : ∀ (va : List (List K)), va.length = e.ncOf it.contact →
          rowsOf e all it = e.ncOf it.contact →
          writeSeg a0 nc (e.ncOf it.contact) va = some (overlay a0 nc va) ∧
          diffLoop e ndx all x ms ds (nc + e.ncOf it.contact) (overlay a0 nc va) =
          some (evaluated (fun m d => e.diffF m x d) (fun _ d => d) ms ds,
            overlay a0 nc (va ++ stacked e all (List.replicate ndx 0)
              (fun m d => e.diffF m x d) e.da0 ms ds)) := by
        intro va hva hr
        simp only [hr] at h1
        have t1 : nc + va.length ≤ a0.length := by omega
        refine ⟨writeSeg_overlay hva (by omega), ?_⟩
        rw [ih ds _ _ hl' (by rw [overlay_length t1]; omega), ← overlay_overlay t1, hva]
      cases ha : it.active with
      | true =>
        obtain ⟨k1, k3⟩ := key (e.da0 (e.diffF it.contact x d)) (he.da0 _ _ _) (by simp [rowsOf, ha])
        simp only [diffLoop, ha, if_true, k1, k3, Option.bind_eq_bind, Option.bind_some,
          stacked_cons]
        simp [evaluated, ha]
      | false =>
        cases all with
        | true =>
          obtain ⟨k1, k3⟩ := key (List.replicate (e.ncOf it.contact) (List.replicate ndx 0))
            (by simp) (by simp [rowsOf])
          simp only [diffLoop, ha, if_true, Bool.false_eq_true, if_false, k1, k3,
            Option.bind_eq_bind, Option.bind_some, stacked_cons]
          simp [evaluated, ha]
        | false =>
          have hr : rowsOf e false it = 0 := by simp [rowsOf, ha]
          simp only [hr, Nat.zero_add] at h1
          simp only [diffLoop, ha, Bool.false_eq_true, if_false, stacked_cons]
          rw [ih ds _ _ hl' h1]
          simp [evaluated, ha]

theorem forceLoop_spec (e : Env K M D F) (all : Bool) (force : List K) (ms : List (N × Item M)) :
    ∀ (ds : List (N × D)) (nc : Nat) (fext : List F), ms.length = ds.length →
    nc + rowSum e all ms = force.length →
    (∀ m f d, e.joint (e.updateForce m f d) < fext.length) →
    ∃ segs : List (List K), segs.length = ms.length ∧ segs.flatten = force.drop nc ∧
      segs.map List.length = ms.map (fun m => rowsOf e all m.2) ∧
      ∃ fext', forceLoop e all force ms ds nc fext = some (applied e.updateForce e.setZeroForce ms segs ds, fext') ∧
        fext'.length = fext.length ∧
        ∀ j, j < fext.length → fext'[j]? =
          ((forcesOn e j ms (applied e.updateForce e.setZeroForce ms segs ds)).getLast?).or fext[j]? := by
  induction ms with
  | nil =>
    intro ds nc fext hl hn _
    cases ds with
    | nil =>
      refine ⟨[], rfl, ?_, rfl, fext, rfl, rfl, ?_⟩
      · simp [rowSum] at hn; simp [hn]
      · intro j hj; simp [forcesOn]
    | cons => simp at hl
  | cons m ms ih =>
    intro ds nc fext hl hn hj
    cases ds with
    | nil => simp at hl
    | cons d ds =>
      obtain ⟨mn, it⟩ := m
      obtain ⟨dn, d⟩ := d
      have hl' : ms.length = ds.length := by simpa using hl
      rw [rowSum_cons] at hn
      cases ha : it.active with
      | true =>
        have hr : rowsOf e all it = e.ncOf it.contact := by simp [rowsOf, ha]
        simp only [hr] at hn
        have hread : readSeg force nc (e.ncOf it.contact) =
            some ((force.drop nc).take (e.ncOf it.contact)) := by
          simp only [readSeg]; rw [if_pos (by omega)]
        generalize hseg : (force.drop nc).take (e.ncOf it.contact) = seg at hread
        have hseglen : seg.length = e.ncOf it.contact := by
          rw [← hseg]; simp; omega
        obtain ⟨segs, s1, s2, s3, fext', f1, f2, f3⟩ := ih ds (nc + e.ncOf it.contact)
          (fext.set (e.joint (e.updateForce it.contact seg d)) (e.fext (e.updateForce it.contact seg d)))
          hl' (by omega) (by intro m f d; rw [List.length_set]; exact hj m f d)
        refine ⟨seg :: segs, by simp [s1], ?_, ?_, fext', ?_, ?_, ?_⟩
        · rw [List.flatten_cons, s2, ← hseg, ← List.drop_drop, List.take_append_drop]
        · simp [s3, hseglen, hr]
        · simp only [forceLoop, ha, if_true, hread, Option.bind_eq_bind, Option.bind_some, hj, f1, applied]
        · rw [f2, List.length_set]
        · intro j hjl
          rw [f3 j (by rw [List.length_set]; exact hjl)]
          rw [List.length_set] at f2
          simp only [forcesOn, applied, List.zip_cons_cons, ha, if_true, List.filter_cons,
            Bool.true_and]
          by_cases hjj : e.joint (e.updateForce it.contact seg d) = j
          · simp only [hjj, beq_self_eq_true, if_true, List.map_cons]
            rw [List.getLast?_cons, List.getElem?_set_self (by omega)]
            cases ((((ms.zip (applied e.updateForce e.setZeroForce ms segs ds)).filter _).map _).getLast?) <;> rfl
          · have : (e.joint (e.updateForce it.contact seg d) == j) = false := by simpa using hjj
            simp only [this, Bool.false_eq_true, if_false]
            rw [List.getElem?_set_ne hjj]
      | false =>
        cases all with
        | true =>
          have hr : rowsOf e true it = e.ncOf it.contact := by simp [rowsOf]
          simp only [hr] at hn
          obtain ⟨segs, s1, s2, s3, fext', f1, f2, f3⟩ := ih ds (nc + e.ncOf it.contact) fext
            hl' (by omega) hj
          refine ⟨(force.drop nc).take (e.ncOf it.contact) :: segs, by simp [s1], ?_, ?_, fext', ?_, f2, ?_⟩
          · rw [List.flatten_cons, s2, ← List.drop_drop, List.take_append_drop]
          · simp [s3, hr]; omega
          · simp only [forceLoop, ha, Bool.false_eq_true, if_false, if_true, f1, Option.bind_eq_bind,
              Option.bind_some, applied]
          · intro j hjl
            rw [f3 j hjl]
            simp [forcesOn, applied, ha]
        | false =>
          have hr : rowsOf e false it = 0 := by simp [rowsOf, ha]
          simp only [hr, Nat.zero_add] at hn
          obtain ⟨segs, s1, s2, s3, fext', f1, f2, f3⟩ := ih ds nc fext hl' hn hj
          refine ⟨[] :: segs, by simp [s1], ?_, ?_, fext', ?_, f2, ?_⟩
          · simp [s2]
          · simp [s3, hr]
          · simp only [forceLoop, ha, Bool.false_eq_true, if_false, f1, Option.bind_eq_bind,
              Option.bind_some, applied]
          · intro j hjl
            rw [f3 j hjl]
            simp [forcesOn, applied, ha]

theorem forceDiffLoop_spec (e : Env K M D F) (all : Bool) (fx fu : List (List K))
    (ms : List (N × Item M)) : ∀ (ds : List (N × D)) (nc : Nat), ms.length = ds.length →
    nc + rowSum e all ms = fx.length → nc + rowSum e all ms = fu.length →
    ∃ segs : List (List (List K) × List (List K)), segs.length = ms.length ∧
      (segs.map Prod.fst).flatten = fx.drop nc ∧ (segs.map Prod.snd).flatten = fu.drop nc ∧
      segs.map (fun s => s.1.length) = ms.map (fun m => rowsOf e all m.2) ∧
      segs.map (fun s => s.2.length) = ms.map (fun m => rowsOf e all m.2) ∧
      forceDiffLoop e all fx fu ms ds nc = some (applied (fun m s d => e.updateForceDiff m s.1 s.2 d)
        e.setZeroForceDiff ms segs ds) := by
  induction ms with
  | nil =>
    intro ds nc hl hn hn'
    cases ds with
    | nil =>
      refine ⟨[], rfl, ?_, ?_, rfl, rfl, rfl⟩
      · simp [rowSum] at hn; simp [hn]
      · simp [rowSum] at hn'; simp [hn']
    | cons => simp at hl
  | cons m ms ih =>
    intro ds nc hl hn hn'
    cases ds with
    | nil => simp at hl
    | cons d ds =>
      obtain ⟨mn, it⟩ := m
      obtain ⟨dn, d⟩ := d
      have hl' : ms.length = ds.length := by simpa using hl
      rw [rowSum_cons] at hn hn'
      by_cases hr : rowsOf e all it = e.ncOf it.contact ∧ (it.active || all) = true
      · obtain ⟨hr, hac⟩ := hr
        simp only [hr] at hn hn'
        have r1 : readSeg fx nc (e.ncOf it.contact) = some ((fx.drop nc).take (e.ncOf it.contact)) := by
          simp only [readSeg]; rw [if_pos (by omega)]
        have r2 : readSeg fu nc (e.ncOf it.contact) = some ((fu.drop nc).take (e.ncOf it.contact)) := by
          simp only [readSeg]; rw [if_pos (by omega)]
        obtain ⟨segs, s1, s2, s3, s4, s5, s6⟩ := ih ds (nc + e.ncOf it.contact) hl' (by omega) (by omega)
        refine ⟨((fx.drop nc).take (e.ncOf it.contact), (fu.drop nc).take (e.ncOf it.contact)) :: segs,
          by simp [s1], ?_, ?_, ?_, ?_, ?_⟩
        · rw [List.map_cons, List.flatten_cons, s2, ← List.drop_drop, List.take_append_drop]
        · rw [List.map_cons, List.flatten_cons, s3, ← List.drop_drop, List.take_append_drop]
        · simp [s4, hr]; omega
        · simp [s5, hr]; omega
        · cases ha : it.active with
          | true => simp [forceDiffLoop, ha, r1, r2, s6, applied]
          | false =>
            have : all = true := by simpa [ha] using hac
            subst this
            simp [forceDiffLoop, ha, s6, applied]
      · have hac : (it.active || all) = false := by
          rw [← Bool.not_eq_true]; intro h; exact hr ⟨by simp only [rowsOf, h, if_true], h⟩
        have hr0 : rowsOf e all it = 0 := by simp [rowsOf, hac]
        have h1 : it.active = false := by cases h : it.active <;> simp_all
        have h2 : all = false := by cases h : all <;> simp_all
        subst h2
        simp only [hr0, Nat.zero_add] at hn hn'
        obtain ⟨segs, s1, s2, s3, s4, s5, s6⟩ := ih ds nc hl' hn hn'
        refine ⟨([], []) :: segs, by simp [s1], ?_, ?_, ?_, ?_, ?_⟩
        · simp [s2]
        · simp [s3]
        · simp [s4, hr0]
        · simp [s5, hr0]
        · simp [forceDiffLoop, h1, s6, applied]

end Verif.Contacts
