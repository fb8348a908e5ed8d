import Verif.Model.NumDiffDiff
import Verif.Lemmas.NumDiff

/-! # Loops of the finite-difference differential model -/

set_option linter.unusedSectionVars false
set_option linter.unusedSimpArgs false

namespace Verif.NumDiffD

open Verif.NumDiff (StateOps setCol setAt hessRow foldl_frame foldl_touch update_zero hessRow_fold hessEntry)

variable {X : Type} {nv n nu nr ng nh : ℕ}

/-- What the state loop leaves alone. -/
def frameX (d : Data nv n nu nr ng nh) :=
  (d.d0, d.xout, d.cost, d.g, d.h, d.Fu, d.Lu, d.Ru, d.Gu, d.Hu, d.Lxx, d.Lxu, d.Luu, d.du)

theorem jacX_frame (m : Model X nv n nu nr ng nh) (ev : X → Res nv nr ng nh) (fx : Bool) (x : X) (h : ℝ)
    (l : List (Fin n)) (d : Data nv n nu nr ng nh) :
    frameX (l.foldl (jacX m ev fx x h) d) = frameX d :=
  foldl_frame (jacX m ev fx x h) frameX (fun _ _ => rfl) l d

/-- The state loop: difference quotients in every column. -/
theorem jacX_fold (m : Model X nv n nu nr ng nh) (ev : X → Res nv nr ng nh) (fx : Bool) (x : X) (h : ℝ)
    (d : Data nv n nu nr ng nh) (hd : d.dx = 0) :
    let e := (List.finRange n).foldl (jacX m ev fx x h) d
    let p := fun j : Fin n => ev (m.st.integrate x (Pi.single j h))
    e.dx = 0 ∧ (∀ i j, fx = true → e.Fx i j = ((p j).xout i - d.d0.xout i) / h) ∧
    (fx = false → e.Fx = d.Fx) ∧
    (∀ j, e.Lx j = ((p j).cost - d.d0.cost) / h) ∧
    (∀ i j, e.Rx i j = ((p j).r i - d.d0.r i) / h) ∧
    (∀ i j, e.Gx i j = ((p j).g i - d.g i) / h) ∧
    (∀ i j, e.Hx i j = ((p j).h i - d.h i) / h) := by
  intro e p
  let P : Data nv n nu nr ng nh → Prop := fun s => s.dx = 0 ∧ s.d0 = d.d0 ∧ s.g = d.g ∧ s.h = d.h
  have hP : ∀ s i, P s → P (jacX m ev fx x h s i) := by
    rintro s i ⟨h1, h2, h3, h4⟩
    exact ⟨by simp only [jacX, h1]; exact update_zero i h, h2, h3, h4⟩
  have hPd : P d := ⟨hd, rfl, rfl, rfl⟩
  have key : ∀ {B : Type} (val : Data nv n nu nr ng nh → B → ℝ) (c : B → ℝ) (col : B → Fin n)
      (_ : ∀ s i b, P s → val (jacX m ev fx x h s i) b = if col b = i then c b else val s b) (b : B),
      val e b = c b := by
    intro B val c col hv b
    exact ((foldl_touch _ P val c (fun i b => col b = i) hP hv (List.finRange n) d hPd).2 b).1
      ⟨col b, List.mem_finRange _, rfl⟩
  refine ⟨?_, ?_, ?_, ?_, ?_, ?_, ?_⟩
  · exact (foldl_touch (jacX m ev fx x h) P (fun _ (_ : Unit) => (0 : ℝ)) (fun _ => 0) (fun _ _ => True) hP
      (fun _ _ _ _ => by simp) (List.finRange n) d hPd).1.1
  · intro i j hfx
    refine key (fun s (b : Fin nv × Fin n) => s.Fx b.1 b.2)
      (fun b => ((p b.2).xout b.1 - d.d0.xout b.1) / h) (fun b => b.2) ?_ (i, j)
    rintro s k ⟨a, b⟩ ⟨h1, h2, h3, h4⟩
    simp only [jacX, h1, h2, hfx, if_true, setCol]
    split_ifs with hb
    · subst hb; rfl
    · rfl
  · intro hfx
    refine foldl_frame _ (fun s : Data nv n nu nr ng nh => s.Fx) (fun s i => ?_) _ d
    simp [jacX, hfx]
  · intro j
    refine key (fun s b => s.Lx b) (fun b => ((p b).cost - d.d0.cost) / h) id ?_ j
    rintro s k b ⟨h1, h2, h3, h4⟩
    simp only [jacX, h1, h2, Function.update_apply, id]
    split_ifs with hb
    · subst hb; rfl
    · rfl
  · intro i j
    refine key (fun s (b : Fin nr × Fin n) => s.Rx b.1 b.2)
      (fun b => ((p b.2).r b.1 - d.d0.r b.1) / h) (fun b => b.2) ?_ (i, j)
    rintro s k ⟨a, b⟩ ⟨h1, h2, h3, h4⟩
    simp only [jacX, h1, h2, setCol]
    split_ifs with hb
    · subst hb; rfl
    · rfl
  · intro i j
    refine key (fun s (b : Fin ng × Fin n) => s.Gx b.1 b.2)
      (fun b => ((p b.2).g b.1 - d.g b.1) / h) (fun b => b.2) ?_ (i, j)
    rintro s k ⟨a, b⟩ ⟨h1, h2, h3, h4⟩
    simp only [jacX, h1, h3, setCol]
    split_ifs with hb
    · subst hb; rfl
    · rfl
  · intro i j
    refine key (fun s (b : Fin nh × Fin n) => s.Hx b.1 b.2)
      (fun b => ((p b.2).h b.1 - d.h b.1) / h) (fun b => b.2) ?_ (i, j)
    rintro s k ⟨a, b⟩ ⟨h1, h2, h3, h4⟩
    simp only [jacX, h1, h4, setCol]
    split_ifs with hb
    · subst hb; rfl
    · rfl

/-- What the control loop leaves alone. -/
def frameU (d : Data nv n nu nr ng nh) :=
  (d.d0, d.xout, d.cost, d.g, d.h, d.Fx, d.Lx, d.Rx, d.Gx, d.Hx, d.Lxx, d.Lxu, d.Luu, d.dx)

theorem jacU_frame (m : Model X nv n nu nr ng nh) (x : X) (u : Fin nu → ℝ) (h : ℝ)
    (l : List (Fin nu)) (d : Data nv n nu nr ng nh) :
    frameU (l.foldl (jacU m x u h) d) = frameU d :=
  foldl_frame (jacU m x u h) frameU (fun _ _ => rfl) l d

/-- The control loop: difference quotients in every column. -/
theorem jacU_fold (m : Model X nv n nu nr ng nh) (x : X) (u : Fin nu → ℝ) (h : ℝ)
    (d : Data nv n nu nr ng nh) (hd : d.du = 0) :
    let e := (List.finRange nu).foldl (jacU m x u h) d
    let p := fun j : Fin nu => m.ev x (u + Pi.single j h)
    e.du = 0 ∧ (∀ i j, e.Fu i j = ((p j).xout i - d.d0.xout i) / h) ∧
    (∀ j, e.Lu j = ((p j).cost - d.d0.cost) / h) ∧
    (∀ i j, e.Ru i j = ((p j).r i - d.d0.r i) / h) ∧
    (∀ i j, e.Gu i j = ((p j).g i - d.g i) / h) ∧
    (∀ i j, e.Hu i j = ((p j).h i - d.h i) / h) := by
  intro e p
  let P : Data nv n nu nr ng nh → Prop := fun s => s.du = 0 ∧ s.d0 = d.d0 ∧ s.g = d.g ∧ s.h = d.h
  have hP : ∀ s i, P s → P (jacU m x u h s i) := by
    rintro s i ⟨h1, h2, h3, h4⟩
    exact ⟨by simp only [jacU, h1]; exact update_zero i h, h2, h3, h4⟩
  have hPd : P d := ⟨hd, rfl, rfl, rfl⟩
  have key : ∀ {B : Type} (val : Data nv n nu nr ng nh → B → ℝ) (c : B → ℝ) (col : B → Fin nu)
      (_ : ∀ s i b, P s → val (jacU m x u h s i) b = if col b = i then c b else val s b) (b : B),
      val e b = c b := by
    intro B val c col hv b
    exact ((foldl_touch _ P val c (fun i b => col b = i) hP hv (List.finRange nu) d hPd).2 b).1
      ⟨col b, List.mem_finRange _, rfl⟩
  refine ⟨?_, ?_, ?_, ?_, ?_, ?_⟩
  · exact (foldl_touch (jacU m x u h) P (fun _ (_ : Unit) => (0 : ℝ)) (fun _ => 0) (fun _ _ => True) hP
      (fun _ _ _ _ => by simp) (List.finRange nu) d hPd).1.1
  · intro i j
    refine key (fun s (b : Fin nv × Fin nu) => s.Fu b.1 b.2)
      (fun b => ((p b.2).xout b.1 - d.d0.xout b.1) / h) (fun b => b.2) ?_ (i, j)
    rintro s k ⟨a, b⟩ ⟨h1, h2, h3, h4⟩
    simp only [jacU, h1, h2, setCol]
    split_ifs with hb
    · subst hb; rfl
    · rfl
  · intro j
    refine key (fun s b => s.Lu b) (fun b => ((p b).cost - d.d0.cost) / h) id ?_ j
    rintro s k b ⟨h1, h2, h3, h4⟩
    simp only [jacU, h1, h2, Function.update_apply, id]
    split_ifs with hb
    · subst hb; rfl
    · rfl
  · intro i j
    refine key (fun s (b : Fin nr × Fin nu) => s.Ru b.1 b.2)
      (fun b => ((p b.2).r b.1 - d.d0.r b.1) / h) (fun b => b.2) ?_ (i, j)
    rintro s k ⟨a, b⟩ ⟨h1, h2, h3, h4⟩
    simp only [jacU, h1, h2, setCol]
    split_ifs with hb
    · subst hb; rfl
    · rfl
  · intro i j
    refine key (fun s (b : Fin ng × Fin nu) => s.Gu b.1 b.2)
      (fun b => ((p b.2).g b.1 - d.g b.1) / h) (fun b => b.2) ?_ (i, j)
    rintro s k ⟨a, b⟩ ⟨h1, h2, h3, h4⟩
    simp only [jacU, h1, h3, setCol]
    split_ifs with hb
    · subst hb; rfl
    · rfl
  · intro i j
    refine key (fun s (b : Fin nh × Fin nu) => s.Hu b.1 b.2)
      (fun b => ((p b.2).h b.1 - d.h b.1) / h) (fun b => b.2) ?_ (i, j)
    rintro s k ⟨a, b⟩ ⟨h1, h2, h3, h4⟩
    simp only [jacU, h1, h4, setCol]
    split_ifs with hb
    · subst hb; rfl
    · rfl

/-- What the mixed loop leaves alone. -/
def frameXU (d : Data nv n nu nr ng nh) :=
  (d.d0, d.xout, d.cost, d.g, d.h, (d.Fx, d.Fu, d.Lx, d.Lu, d.Rx, d.Ru, d.Gx, d.Gu, d.Hx, d.Hu), d.Lxx, d.Luu)

/-- The mixed loop. -/
theorem hessXU_fold (m : Model X nv n nu nr ng nh) (x : X) (u : Fin nu → ℝ) (hx hu : ℝ)
    (d : Data nv n nu nr ng nh) (h1 : d.dx = 0) (h2 : d.du = 0) :
    let e := (List.finRange n).foldl (fun d ix => (List.finRange nu).foldl (hessXU m x u hx hu ix) d) d
    frameXU e = frameXU d ∧
    ∀ i j, e.Lxu i j =
      ((m.ev (m.st.integrate x (Pi.single i hx)) (u + Pi.single j hu)).cost
        - (m.ev (m.st.integrate x (Pi.single i hx)) (u - Pi.single j hu)).cost
        - (m.ev (m.st.integrate x (-Pi.single i hx)) (u + Pi.single j hu)).cost
        + (m.ev (m.st.integrate x (-Pi.single i hx)) (u - Pi.single j hu)).cost) / (4 * hx * hu) := by
  let c : Fin n × Fin nu → ℝ := fun b =>
    ((m.ev (m.st.integrate x (Pi.single b.1 hx)) (u + Pi.single b.2 hu)).cost
        - (m.ev (m.st.integrate x (Pi.single b.1 hx)) (u - Pi.single b.2 hu)).cost
        - (m.ev (m.st.integrate x (-Pi.single b.1 hx)) (u + Pi.single b.2 hu)).cost
        + (m.ev (m.st.integrate x (-Pi.single b.1 hx)) (u - Pi.single b.2 hu)).cost) / (4 * hx * hu)
  let P : Data nv n nu nr ng nh → Prop := fun s => s.dx = 0 ∧ s.du = 0
  have inner : ∀ (i : Fin n) (s : Data nv n nu nr ng nh), P s →
      P ((List.finRange nu).foldl (hessXU m x u hx hu i) s) ∧
      ∀ b : Fin n × Fin nu, (((List.finRange nu).foldl (hessXU m x u hx hu i) s)).Lxu b.1 b.2 =
        if b.1 = i then c b else s.Lxu b.1 b.2 := by
    intro i s hs
    have H := foldl_touch (hessXU m x u hx hu i) P (fun s (b : Fin n × Fin nu) => s.Lxu b.1 b.2) c
      (fun j b => b.1 = i ∧ b.2 = j)
      (by
        rintro s j ⟨a1, a2⟩
        simp only [P, hessXU, a1, a2]
        exact ⟨update_zero i hx, update_zero j hu⟩)
      (by
        rintro s j ⟨a, b⟩ ⟨a1, a2⟩
        simp only [hessXU, a1, a2, setAt]
        split_ifs with hb
        · obtain ⟨rfl, rfl⟩ := hb; rfl
        · rfl) (List.finRange nu) s hs
    refine ⟨H.1, fun b => ?_⟩
    split_ifs with hb
    · exact (H.2 b).1 ⟨b.2, List.mem_finRange _, hb, rfl⟩
    · exact (H.2 b).2 fun j _ hj => hb hj.1
  intro e
  constructor
  · exact foldl_frame (fun d ix => (List.finRange nu).foldl (hessXU m x u hx hu ix) d) frameXU
      (fun s i => foldl_frame (hessXU m x u hx hu i) frameXU (fun s j => rfl) _ _) _ _
  · intro i j
    exact ((foldl_touch (fun d ix => (List.finRange nu).foldl (hessXU m x u hx hu ix) d) P
      (fun s (b : Fin n × Fin nu) => s.Lxu b.1 b.2) c (fun i b => b.1 = i)
      (fun s i hs => (inner i s hs).1) (fun s i b hs => (inner i s hs).2 b) (List.finRange n) d ⟨h1, h2⟩).2
      (i, j)).1 ⟨i, List.mem_finRange _, rfl⟩

end Verif.NumDiffD
