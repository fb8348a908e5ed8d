import Verif.Spec.CodeGen

/-!
# Writing and reading flat buffers
-/

namespace Verif.Cg

variable {K B : Type}

theorem put_length (b : List K) (off : ℕ) (v : List K) (h : off + v.length ≤ b.length) : (put b off v).length = b.length := by
  simp [put]; omega

theorem put_zero (b v : List K) : put b 0 v = v ++ b.drop v.length := by simp [put]

theorem put_append (a b v : List K) : put (a ++ b) a.length v = a ++ v ++ b.drop v.length := by
  simp [put, List.drop_append]

/-- The cells fit their blocks, and the index moves by the size of the block. -/
def Fits (cs : List (Cell K)) : Prop :=
  ∀ c ∈ cs, c.val.rows = c.rows ∧ c.val.cols = c.cols ∧ c.val.Ok ∧ c.adv = c.rows * c.cols

def flat (cs : List (Cell K)) : List K := cs.flatMap fun c => c.val.data

theorem write_append (cs : List (Cell K)) (h : Fits cs) (a b : List K) (hb : (flat cs).length ≤ b.length) :
    write (a ++ b) a.length cs = some (a ++ flat cs ++ b.drop (flat cs).length) := by
  induction cs generalizing a b with
  | nil => simp [write, flat]
  | cons c cs ih =>
    obtain ⟨h1, h2, h3, h4⟩ := h c (by simp)
    have hf : flat (c :: cs) = c.val.data ++ flat cs := by simp [flat]
    rw [hf, List.length_append] at hb
    have hd : c.val.data.length = c.rows * c.cols := by rw [← h1, ← h2]; exact h3
    have hput : put (a ++ b) a.length c.val.data = (a ++ c.val.data) ++ b.drop c.val.data.length := put_append ..
    have hoff : a.length + c.adv = (a ++ c.val.data).length := by simp [h4, hd]
    rw [write, if_pos ⟨h1, h2, by simp only [List.length_append]; omega⟩, hput, hoff,
      ih (fun c' hc' => h c' (by simp [hc'])) (a ++ c.val.data) (b.drop c.val.data.length) (by simp; omega), hf]
    simp [List.append_assoc, Nat.add_comm]

theorem write_full (cs : List (Cell K)) (h : Fits cs) (b : List K) (hb : b.length = (flat cs).length) :
    write b 0 cs = some (flat cs) := by
  have := write_append cs h [] b hb.ge
  simpa [← hb] using this

theorem read_append (Ms : List (Mx K)) (h : ∀ M ∈ Ms, M.Ok) (a b : List K) :
    read (a ++ (Ms.flatMap Mx.data) ++ b) a.length (Ms.map fun M => (M.rows, M.cols)) = some Ms := by
  induction Ms generalizing a with
  | nil => simp [read]
  | cons M Ms ih =>
    have hM : M.data.length = M.rows * M.cols := h M (by simp)
    have e : a ++ (M :: Ms).flatMap Mx.data ++ b = (a ++ M.data) ++ Ms.flatMap Mx.data ++ b := by simp
    have hv : view (a ++ (M :: Ms).flatMap Mx.data ++ b) a.length M.rows M.cols = some M := by
      rw [view, if_pos (by simp [hM])]
      congr 1
      ext1
      · rfl
      · rfl
      · simp [← hM, List.append_assoc]
    have hoff : a.length + M.rows * M.cols = (a ++ M.data).length := by simp [hM]
    rw [List.map_cons, read, hv, hoff, e, ih (fun M' hM' => h M' (by simp [hM'])) (a ++ M.data)]
    rfl

theorem read_full (Ms : List (Mx K)) (h : ∀ M ∈ Ms, M.Ok) :
    read (Ms.flatMap Mx.data) 0 (Ms.map fun M => (M.rows, M.cols)) = some Ms := by
  simpa using read_append Ms h [] []

theorem write_fails (b : List K) (off : ℕ) (pre : List (Cell K)) (c : Cell K) (post : List (Cell K))
    (h : ¬ (c.val.rows = c.rows ∧ c.val.cols = c.cols)) : write b off (pre ++ c :: post) = none := by
  induction pre generalizing b off with
  | nil => rw [List.nil_append, write, if_neg fun h' => h ⟨h'.1, h'.2.1⟩]
  | cons d pre ih =>
    rw [List.cons_append, write]
    split
    · exact ih ..
    · rfl

end Verif.Cg
