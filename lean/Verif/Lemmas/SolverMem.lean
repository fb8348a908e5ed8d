import Verif.Spec.SolverMem
import Verif.Props.Shooting

/-! Lemmas on the memory of the solvers. -/

namespace Verif.SolverMem
open Verif Verif.Shooting
set_option linter.unusedSectionVars false

variable {K M : Type}

theorem sizes_resizeArr (f : M → Nat × Nat) : ∀ (ms : List M) (l : List Shape), ms.length ≤ l.length →
    ∃ l', resizeArr f ms l = some l' ∧ sizes l' = ms.map f ++ (sizes l).drop ms.length
  | [], l, _ => ⟨l, rfl, by simp⟩
  | m :: ms, [], h => by simp at h
  | m :: ms, s :: l, h => by
    obtain ⟨l', h1, h2⟩ := sizes_resizeArr f ms l (by simpa using h)
    refine ⟨s.conservative (f m).1 (f m).2 :: l', by simp [resizeArr, h1], ?_⟩
    simp [sizes, Shape.conservative] at h2 ⊢
    exact h2

theorem sizes_resizeBack (r c : Nat) (l : List Shape) (h : l ≠ []) :
    ∃ l', resizeBack r c l = some l' ∧ sizes l' = (sizes l).dropLast ++ [(r, c)] := by
  rw [resizeBack, if_neg h, List.getLast?_eq_some_getLast h]
  refine ⟨_, rfl, ?_⟩
  simp [sizes, Shape.conservative, List.map_dropLast]

theorem length_sizes (l : List Shape) : (sizes l).length = l.length := by simp [sizes]

/-- Resizing a table resizes its arrays and leaves the others. -/
theorem resizeTable_spec (ms : List M) : ∀ (tbl : List (Arr × (M → Nat × Nat))) (mem : Mem),
    (tbl.map Prod.fst).Nodup → (∀ r ∈ tbl, ms.length ≤ (mem r.1).length) →
    ∃ mem', resizeTable tbl ms mem = some mem' ∧
      (∀ r ∈ tbl, sizes (mem' r.1) = ms.map r.2 ++ (sizes (mem r.1)).drop ms.length) ∧
      (∀ a, a ∉ tbl.map Prod.fst → mem' a = mem a)
  | [], mem, _, _ => ⟨mem, rfl, by simp, by simp⟩
  | r :: tbl, mem, hn, hl => by
    obtain ⟨l, h1, h2⟩ := sizes_resizeArr r.2 ms (mem r.1) (hl r (by simp))
    have hnd : r.1 ∉ tbl.map Prod.fst := by
      simp only [List.map_cons, List.nodup_cons] at hn; exact hn.1
    let mem1 : Mem := fun b => if b = r.1 then l else mem b
    have hne : ∀ q ∈ tbl, q.1 ≠ r.1 := fun q hq he =>
      hnd (he ▸ List.mem_map_of_mem hq)
    obtain ⟨mem', h3, h4, h5⟩ := resizeTable_spec ms tbl mem1
      (by simp only [List.map_cons, List.nodup_cons] at hn; exact hn.2)
      (fun q hq => by simp only [mem1, if_neg (hne q hq)]; exact hl q (by simp [hq]))
    refine ⟨mem', ?_, ?_, ?_⟩
    · simp only [resizeTable, List.foldlM_cons, on, h1, Option.map_some] at h3 ⊢
      exact h3
    · intro q hq
      rcases List.mem_cons.mp hq with rfl | hq
      · rw [h5 _ hnd]; simp only [mem1, if_true]; exact h2
      · rw [h4 q hq]; simp only [mem1, if_neg (hne q hq)]
    · intro a ha
      simp only [List.map_cons, List.mem_cons, not_or] at ha
      rw [h5 a ha.2]; simp only [mem1, if_neg ha.1]

/-- The number of elements of each array. -/
def Sized (kind : Kind) (p : Problem K M) (d : Dims M) (mem : Mem) : Prop :=
  ∀ a ∈ arrays kind, (mem a).length = (need d p a).length

/-- The arrays whose sizes depend on the states only. -/
def stateArrays : List Arr := [.xs, .fs, .Vxx, .Vx, .Qxx, .Qx, .xsTry, .dx]

/-- The arrays that depend on the states only are right. -/
def StateFits (kind : Kind) (p : Problem K M) (d : Dims M) (mem : Mem) : Prop :=
  ∀ a ∈ arrays kind, a ∈ stateArrays → sizes (mem a) = need d p a

theorem Fits.sized {kind : Kind} {p : Problem K M} {d : Dims M} {mem : Mem} (h : Fits d kind p mem) :
    Sized kind p d mem := fun a ha => by rw [← h a ha, length_sizes]

theorem Fits.state {kind : Kind} {p : Problem K M} {d : Dims M} {mem : Mem} (h : Fits d kind p mem) :
    StateFits kind p d mem := fun a ha _ => h a ha

theorem resizeBase_fits (d : Dims M) (p : Problem K M) (mem : Mem)
    (hus : (mem .us).length = p.models.length) (hg : (mem .gAdj).length = p.models.length + 1) :
    ∃ mem', resizeBase d p mem = some mem' ∧ sizes (mem' .us) = need d p .us ∧
      sizes (mem' .gAdj) = need d p .gAdj ∧ (∀ a, a ≠ .us → a ≠ .gAdj → mem' a = mem a) := by
  obtain ⟨m1, h1, h2, h3⟩ := resizeTable_spec p.models (baseTable d) mem (by simp [baseTable])
    (by intro r hr; simp [baseTable] at hr; rcases hr with rfl | rfl <;> simp only <;> omega)
  have hu := h2 (.us, fun m => (d.nu m, 1)) (by simp [baseTable])
  have hg' := h2 (.gAdj, fun m => (d.ng m, 1)) (by simp [baseTable])
  have hlen : (m1 .gAdj).length = p.models.length + 1 := by
    have := congrArg List.length hg'
    simp only [length_sizes, List.length_append, List.length_map, List.length_drop] at this
    omega
  obtain ⟨l, h4, h5⟩ := sizes_resizeBack (d.ngT p.tmodel) 1 (m1 .gAdj)
    (by intro h; rw [h] at hlen; simp at hlen)
  refine ⟨fun b => if b = .gAdj then l else m1 b, ?_, ?_, ?_, ?_⟩
  · simp [resizeBase, h1, on, h4]
  · simp only [reduceCtorEq, if_false, hu, need, running]
    rw [List.drop_of_length_le (by rw [length_sizes]; omega), List.append_nil]
  · simp only [if_true, h5, hg', need, all]
    congr 1
    rw [List.dropLast_append_of_ne_nil]
    · have : ((sizes (mem .gAdj)).drop p.models.length).length = 1 := by
        rw [List.length_drop, length_sizes]; omega
      obtain ⟨x, hx⟩ := List.length_eq_one_iff.mp this
      rw [hx]; simp
    · intro h
      have := congrArg List.length h
      rw [List.length_drop, length_sizes] at this
      simp at this; omega
  · intro a ha hb
    simp only [if_neg hb]
    exact h3 a (by simp [baseTable, ha, hb])

/-- Resizing a table of arrays with one element per running node gives what is needed, if the table says so. -/
theorem resizeTable_running (d : Dims M) (p : Problem K M) (tbl : List (Arr × (M → Nat × Nat))) (mem : Mem)
    (hn : (tbl.map Prod.fst).Nodup) (hl : ∀ r ∈ tbl, (mem r.1).length = p.models.length)
    (hneed : ∀ r ∈ tbl, running p r.2 = need d p r.1) :
    ∃ mem', resizeTable tbl p.models mem = some mem' ∧
      (∀ a ∈ tbl.map Prod.fst, sizes (mem' a) = need d p a) ∧ (∀ a, a ∉ tbl.map Prod.fst → mem' a = mem a) := by
  obtain ⟨m1, h1, h2, h3⟩ := resizeTable_spec p.models tbl mem hn (fun r hr => (hl r hr).ge)
  refine ⟨m1, h1, fun a ha => ?_, h3⟩
  obtain ⟨r, hr, rfl⟩ := List.mem_map.mp ha
  rw [h2 r hr, List.drop_of_length_le (by rw [length_sizes]; exact (hl r hr).le), List.append_nil,
    ← hneed r hr]
  rfl

theorem sizes_clear (l : List Shape) : ∃ l', clear l = some l' ∧ sizes l' = sizes l := by
  refine ⟨_, rfl, ?_⟩
  simp only [sizes, List.map_map]
  apply List.map_congr_left
  intro s _
  by_cases h : s.rows ≠ 0
  · simp only [Function.comp, if_pos h]
  · simp only [Function.comp, if_neg h]

theorem resizeDdp_fits (d : Dims M) (p : Problem K M) (mem : Mem)
    (hs : Sized .ddp p d mem) (hst : StateFits .ddp p d mem) :
    ∃ mem', resizeDdp d p mem = some mem' ∧ Fits d .ddp p mem' ∧ (∀ a, a ∉ arrays .ddp → mem' a = mem a) := by
  obtain ⟨m1, h1, hus, hg, hrest⟩ := resizeBase_fits d p mem
    (by simpa [need, running] using hs .us (by simp [arrays]))
    (by simpa [need, all] using hs .gAdj (by simp [arrays]))
  obtain ⟨m2, h2, ht, hrest2⟩ := resizeTable_running d p (ddpTable d p.ndx) m1 (by simp [ddpTable])
    (by
      intro r hr
      have key : ∀ a, a ≠ .us → a ≠ .gAdj → a ∈ arrays .ddp → (need d p a).length = p.models.length →
          (m1 a).length = p.models.length := fun a h1 h2 h3 h4 => by rw [hrest a h1 h2, hs a h3, h4]
      simp only [ddpTable, List.mem_cons, List.not_mem_nil, or_false] at hr
      rcases hr with rfl | rfl | rfl | rfl | rfl | rfl | rfl | rfl <;>
        exact key _ (by simp) (by simp) (by simp [arrays]) (by simp [need, running]))
    (by
      intro r hr
      simp only [ddpTable, List.mem_cons, List.not_mem_nil, or_false] at hr
      rcases hr with rfl | rfl | rfl | rfl | rfl | rfl | rfl | rfl <;> rfl)
  obtain ⟨l, h3, h4⟩ := sizes_clear (m2 .FuTVxx)
  refine ⟨fun b => if b = .FuTVxx then l else m2 b, ?_, ?_, ?_⟩
  · simp [resizeDdp, h1, h2, on, h3]
  · have hF : ∀ a, a ∈ arrays .ddp → sizes (m2 a) = need d p a := by
      intro a ha
      by_cases hk : a ∈ (ddpTable d p.ndx).map Prod.fst
      · exact ht a hk
      · rw [hrest2 a hk]
        by_cases hu : a = .us
        · subst hu; exact hus
        · by_cases hgg : a = .gAdj
          · subst hgg; exact hg
          · rw [hrest a hu hgg]
            refine hst a ha ?_
            revert ha hk hu hgg
            cases a <;> simp [arrays, ddpTable, stateArrays]
    intro a ha
    by_cases hb : a = .FuTVxx
    · subst hb; simp only [if_true, h4]; exact hF _ ha
    · simp only [if_neg hb]; exact hF a ha
  · intro a ha
    have h1 : a ≠ .FuTVxx := by rintro rfl; simp [arrays] at ha
    have h2 : a ∉ (ddpTable d p.ndx).map Prod.fst := by
      intro h; apply ha; revert h; cases a <;> simp [ddpTable, arrays]
    simp only [if_neg h1]
    rw [hrest2 a h2, hrest a (by rintro rfl; simp [arrays] at ha) (by rintro rfl; simp [arrays] at ha)]

/-- Extending `resizeDdp` by a table. -/
theorem resizeExt_fits (kind : Kind) (tbl : List (Arr × (M → Nat × Nat))) (d : Dims M) (p : Problem K M) (mem : Mem)
    (harr : arrays kind = arrays .ddp ++ tbl.map Prod.fst)
    (hnd : (arrays kind).Nodup) (hneed : ∀ r ∈ tbl, running p r.2 = need d p r.1)
    (hs : Sized kind p d mem) (hst : StateFits kind p d mem) :
    ∃ mem', (resizeDdp d p mem).bind (resizeTable tbl p.models) = some mem' ∧ Fits d kind p mem' := by
  rw [harr, List.nodup_append] at hnd
  have hin : ∀ a ∈ arrays .ddp, a ∈ arrays kind := fun a ha => by rw [harr]; exact List.mem_append_left _ ha
  obtain ⟨m1, h1, h2, h3⟩ := resizeDdp_fits d p mem (fun a ha => hs a (hin a ha))
    (fun a ha hb => hst a (hin a ha) hb)
  have hout : ∀ a ∈ tbl.map Prod.fst, a ∉ arrays .ddp := fun a ha hb => hnd.2.2 a hb a ha rfl
  obtain ⟨m2, h4, h5, h6⟩ := resizeTable_running d p tbl m1 hnd.2.1
    (fun r hr => by
      have hk : r.1 ∈ tbl.map Prod.fst := List.mem_map_of_mem hr
      rw [h3 _ (hout _ hk), hs _ (by rw [harr]; exact List.mem_append_right _ hk), ← hneed r hr]
      simp [running])
    hneed
  refine ⟨m2, by rw [h1]; exact h4, ?_⟩
  intro a ha
  rw [harr] at ha
  by_cases hk : a ∈ tbl.map Prod.fst
  · exact h5 a hk
  · rw [h6 a hk]
    exact h2 a ((List.mem_append.mp ha).resolve_right hk)

/-- `resizeData` of all solvers but `SolverKKT` makes every array fit. -/
theorem resize_fits (kind : Kind) (hk : kind ≠ .kkt) (d : Dims M) (p : Problem K M) (mem : Mem)
    (hs : Sized kind p d mem) (hst : StateFits kind p d mem) :
    ∃ mem', resize d kind p mem = some mem' ∧ Fits d kind p mem' := by
  have hd : ∀ mem, Sized .ddp p d mem → StateFits .ddp p d mem → ∃ mem', resizeDdp d p mem = some mem' ∧
      Fits d .ddp p mem' := fun mem h1 h2 =>
    let ⟨m, h3, h4, _⟩ := resizeDdp_fits d p mem h1 h2; ⟨m, h3, h4⟩
  have hb : ∀ k, k = .boxDdp ∨ k = .boxFddp → Sized k p d mem → StateFits k p d mem →
      ∃ mem', (resizeDdp d p mem).bind (resizeTable (boxTable d) p.models) = some mem' ∧ Fits d k p mem' := by
    intro k hk h1 h2
    refine resizeExt_fits k (boxTable d) d p mem ?_ ?_ ?_ h1 h2
    · rcases hk with rfl | rfl <;> rfl
    · rcases hk with rfl | rfl <;> decide
    · intro r hr
      simp only [boxTable, List.mem_cons, List.not_mem_nil, or_false] at hr
      rcases hr with rfl | rfl | rfl <;> rfl
  cases kind with
  | ddp => exact hd mem hs hst
  | fddp => exact hd mem hs hst
  | boxDdp => exact hb _ (Or.inl rfl) hs hst
  | boxFddp => exact hb _ (Or.inr rfl) hs hst
  | intro =>
    refine resizeExt_fits .intro (introTable d p.ndx) d p mem rfl (by decide) ?_ hs hst
    intro r hr
    simp only [introTable, List.mem_cons, List.not_mem_nil, or_false] at hr
    rcases hr with rfl | rfl | rfl | rfl | rfl | rfl | rfl | rfl | rfl | rfl | rfl | rfl <;> rfl
  | kkt => exact absurd rfl hk

section
variable (e : Env M) (d : Dims M)

theorem sizes_perNode (p : Problem K M) (f : M → Shape) :
    sizes (perNode p f) = running p fun m => ((f m).rows, (f m).cols) := by
  simp [sizes, perNode, running]

theorem sizes_withLast (p : Problem K M) (f : M → Shape) (l : Shape) :
    sizes (withLast p f l) = all p (fun m => ((f m).rows, (f m).cols)) (l.rows, l.cols) := by
  simp [sizes, withLast, all]

theorem all_nx (p : Problem K M) (hwf : WellFormed e p) :
    all p (fun m => (e.nx m, 1)) (e.nx p.tmodel, 1) = all p (fun _ => (p.nx, 1)) (p.nx, 1) := by
  rw [all, all, hwf.tdims.1]
  congr 1
  exact List.map_congr_left fun m hm => by rw [(hwf.dims m hm).1]

theorem all_set_zero (p : Problem K M) (hwf : WellFormed e p) (l : List Shape)
    (h : sizes l = all p (fun _ => (p.nx, 1)) (p.nx, 1)) :
    sizes (l.set 0 (zeros p.x0.length 1)) = all p (fun _ => (p.nx, 1)) (p.nx, 1) := by
  rw [← h]
  cases l with
  | nil => rfl
  | cons s l =>
    have : (s.rows, s.cols) = (p.nx, 1) := by
      have h' := congrArg List.head? h
      simp only [sizes, List.map_cons, List.head?_cons, all] at h'
      cases hm : p.models with
      | nil => rw [hm] at h'; simpa using h'
      | cons m ms => rw [hm] at h'; simpa using h'
    simp only [List.set_cons_zero, sizes, List.map_cons, zeros, hwf.x0size, this]

/-- The constructors give every array the dimensions of the problem. -/
theorem construct_fits (kind : Kind) (p : Problem K M) (hwf : WellFormed e p) :
    Fits d kind p (construct e d kind p) := by
  have hx := all_nx e p hwf
  have hk : (p.models.map fun _ => ((p.nx, 1) : Nat × Nat)) ++ [(e.nx p.tmodel, 1)] =
    all p (fun _ => (p.nx, 1)) (p.nx, 1) := by rw [hwf.tdims.1]; rfl
  have hset := all_set_zero e p hwf
  intro a ha
  cases kind <;> revert ha <;> cases a <;>
    simp only [arrays, List.mem_cons, List.not_mem_nil, or_false, reduceCtorEq, or_self, or_true, true_or,
      false_or, false_imp_iff, true_imp_iff, construct, allocBase, allocDdp, allocBox, allocIntro, allocKkt, need,
      sizes_perNode, sizes_withLast, zeros] <;>
    first
    | rfl
    | exact hx
    | exact hset _ (by rw [sizes_withLast]; exact hx)
    | exact hset _ (by rw [sizes_withLast]; exact hk)

/-- The beginning of `solve` keeps arrays that fit. -/
theorem candidate_fits (kind : Kind) (p : Problem K M) (hwf : WellFormed e p) (mem : Mem)
    (h : Fits d kind p mem) : Fits d kind p (candidate e d kind p mem) := by
  intro a ha
  by_cases h1 : a = .xs
  · subst h1; simp only [candidate, sizes_withLast, need]; exact all_nx e p hwf
  by_cases h2 : a = .us
  · subst h2; simp only [candidate, sizes_perNode, need]; rfl
  by_cases h3 : a = .xsTry
  · subst h3
    simp only [candidate]
    split
    · exact h _ ha
    · exact all_set_zero e p hwf _ (h _ ha)
  have : candidate e d kind p mem a = mem a := by
    cases a <;> first | rfl | exact absurd rfl h1 | exact absurd rfl h2 | exact absurd rfl h3
  rw [this]; exact h a ha

end

/-- A call that is not a query either marks the problem or leaves its nodes. -/
theorem step_marks (e : Env M) (hw : Nat) (en : Bool) (p : Problem K M) (hwf : WellFormed e p) (op : Op K M)
    (hop : op.notSetRunning) (hq : op.isQuery = false) :
    ∃ p', (op.run e hw en p = .ok () p' ∨ op.run e hw en p = .throw p') ∧ WellFormed e p' ∧
      p'.T = p.T ∧ p'.nx = p.nx ∧ p'.ndx = p.ndx ∧
      (p'.updated = true ∨ (p'.updated = p.updated ∧ p'.models = p.models ∧ p'.tmodel = p.tmodel)) := by
  obtain ⟨p1, hrun, hwf1, hT1, hx1, hd1⟩ := wf_step e hw en p hwf op hop
  refine ⟨p1, hrun, hwf1, hT1, hx1, hd1, ?_⟩
  rcases hrun with h | h
  · have hT : p.T ≠ 0 := by have := hwf.pos; omega
    cases op with
    | circularAppendData m d =>
      simp only [Op.run] at h
      rw [circularAppendData_run e m d p hT hwf.nmodels hwf.ndatas] at h
      split at h
      · injection h with _ h; rw [← h]; exact Or.inl rfl
      · cases h
    | circularAppend m =>
      simp only [Op.run] at h
      rw [circularAppend_run e m p hT hwf.nmodels hwf.ndatas] at h
      split at h
      · injection h with _ h; rw [← h]; exact Or.inl rfl
      · cases h
    | updateNode i m d =>
      simp only [Op.run] at h
      rw [updateNode_run e i m d p hwf.nmodels hwf.ndatas] at h
      split at h
      · injection h with _ h; rw [← h]; left; split <;> rfl
      · cases h
    | updateModel i m =>
      simp only [Op.run] at h
      rw [updateModel_run e i m p hwf.nmodels hwf.ndatas] at h
      split at h
      · injection h with _ h; rw [← h]; left; split <;> rfl
      · cases h
    | setX0 x =>
      simp only [Op.run] at h
      rw [setX0_run] at h
      split at h
      · injection h with _ h; rw [← h]; exact Or.inr ⟨rfl, rfl, rfl⟩
      · cases h
    | setTerminalModel m =>
      simp only [Op.run] at h
      rw [setTerminalModel_run] at h
      split at h
      · injection h with _ h; rw [← h]; exact Or.inl rfl
      · cases h
    | setNthreads n =>
      simp [Op.run, setNthreads] at h
      rw [← h]; exact Or.inr ⟨rfl, rfl, rfl⟩
    | isUpdated => simp [Op.isQuery] at hq
    | setRunningModels ms => exact absurd hop (by simp [Op.notSetRunning])
  · have hp : p1 = p := C02_rejected_unchanged e hw en p hwf.nmodels hwf.ndatas op p1 h
    subst hp
    exact Or.inr ⟨rfl, rfl, rfl⟩

end Verif.SolverMem
