import Verif.Spec.Fresh

/-!
# C93: costs read quantities of the state they are evaluated at
-/

namespace Verif.Fsh

variable {Q V : Type}

theorem Act.run_append (T : Table) (z : V) (A : Act) (s : Stamps Q V) (a b : List (Op Q V)) :
    A.run T z s (a ++ b) = A.run T z (A.run T z s a) b := List.foldl_append

/-- **C93**. Whatever Pinocchio's algorithms write beyond the table `assumed`, and whatever was called before: when an action model
evaluates its costs at a state, the quantities of Pinocchio's data that a supported residual reads are those of that state. Which
residuals each action model supports are the tables `supported` and `supportedD` (`supportedT`, `supportedTD` for terminal nodes).
What is missing: the other residuals, see `C93_stale_counterexample`. -/
theorem C93_fresh_partial (T : Table) (hT : Covers T) (z : V) (A : Act) (s : Stamps Q V) (ops : List (Op Q V)) (q : Q) (v next : V)
    (r : Res) :
    (supported A r = true → ∀ y ∈ r.value, Fresh (A.run T z s (ops ++ [.calc q v])) q v y)
    ∧ (supportedD A r = true → ∀ y ∈ r.diff, Fresh (A.run T z s (ops ++ [.calc q v, .diff q v next])) q v y)
    ∧ (supportedT A r = true → ∀ y ∈ r.value, Fresh (A.run T z s (ops ++ [.calcT q v])) q v y)
    ∧ (supportedTD r = true → ∀ y ∈ r.diff, Fresh (A.run T z s (ops ++ [.calcT q v, .diffT q v next])) q v y) := by
  have hT' : ∀ k y, assumed k y = true → T k y = true := hT
  simp only [Act.run_append]
  generalize A.run T z s ops = s
  have a1 := hT' .allTerms .place rfl
  have a2 := hT' .allTerms .vel rfl
  have a3 := hT' .allTerms .jac rfl
  have a4 := hT' .allTerms .com rfl
  have a5 := hT' .allTerms .jcom rfl
  have f1 := hT' .fk .loc rfl
  have f2 := hT' .fk .place rfl
  have f3 := hT' .fk .vel rfl
  have r1 := hT' .rnea .loc rfl
  have r2 := hT' .rnea .vel rfl
  have b1 := hT' .aba .loc rfl
  have b2 := hT' .aba .vel rfl
  have c1 := hT' .com .place rfl
  have c2 := hT' .com .vel rfl
  have c3 := hT' .com .com rfl
  have d1 := hT' .rneaD .place rfl
  have d2 := hT' .rneaD .jac rfl
  have d3 := hT' .rneaD .velD rfl
  have d4 := hT' .rneaD .hgD rfl
  have e1 := hT' .abaD .place rfl
  have e2 := hT' .abaD .jac rfl
  have e3 := hT' .abaD .velD rfl
  have g1 := hT' .fkD .place rfl
  have g2 := hT' .fkD .jac rfl
  rcases A with (_ | _) | _ | _ | _ | _ <;> cases r <;>
    simp [supported, supportedD, supportedT, supportedTD, Res.value, Res.diff, Fresh, Qty.dynamic, Act.run, Act.step, Act.calls, invHead, Alg.apply,
      a1, a2, a3, a4, a5, f1, f2, f3, r1, r2, b1, b2, c1, c2, c3, d1, d2, d3, d4, e1, e2, e3, g1, g2] <;>
    repeat' split <;> simp_all

/-- **C93** fails for the residuals outside the tables (but for the `undecided` ones): for every table within `allowed` there
are calls after which the residual reads a quantity of another state, in its value or in its derivative. Without armature, free
forward dynamics leave the centre of mass and the momentum of earlier calls; so do free inverse dynamics, and contact inverse
dynamics the momentum; impulses differentiate velocities and momentum at another velocity than that of the state; at terminal nodes
only poses and the centre of mass are differentiated at the state. -/
theorem C93_stale_counterexample (T : Table) (hT : Within T) (A : Act) (r : Res) :
    (supported A r = false → undecided A r = false →
      ∃ (s : Stamps Nat Nat) (q v : Nat), ∃ y ∈ r.value, ¬ Fresh (A.run T 0 s [.calc q v]) q v y)
    ∧ (supportedD A r = false → undecidedD A r = false → ∃ (s : Stamps Nat Nat) (q v next : Nat),
      ∃ y ∈ r.diff, ¬ Fresh (A.run T 0 s [.calc q v, .diff q v next]) q v y)
    ∧ (supportedT A r = false → undecidedT A r = false →
      ∃ (s : Stamps Nat Nat) (q v : Nat), ∃ y ∈ r.value, ¬ Fresh (A.run T 0 s [.calcT q v]) q v y)
    ∧ (supportedTD r = false → ∃ (s : Stamps Nat Nat) (q v next : Nat),
      ∃ y ∈ r.diff, ¬ Fresh (A.run T 0 s [.calcT q v, .diffT q v next]) q v y) := by
  have no : ∀ k y, allowed k y = false → T k y = false := fun k y h => by
    cases hk : T k y
    · rfl
    · rw [hT k y hk] at h; cases h
  have a1 := no .allTerms .velD rfl
  have a2 := no .allTerms .hgD rfl
  have b1 := no .aba .com rfl
  have b2 := no .aba .hg rfl
  have c1 := no .rnea .com rfl
  have c2 := no .rnea .hg rfl
  have d1 := no .fk .hg rfl
  have e1 := no .com .hg rfl
  refine ⟨fun h h' => ⟨fun _ => (0, 0), 1, 1, ?_⟩, fun h h' => ⟨fun _ => (0, 0), 1, 1, 2, ?_⟩, fun h h' => ⟨fun _ => (0, 0), 1, 1, ?_⟩,
    fun h => ⟨fun _ => (0, 0), 1, 1, 2, ?_⟩⟩ <;>
    revert h <;> try revert h'
  all_goals
    rcases A with (_ | _) | _ | _ | _ | _ <;> cases r <;> simp [supported, supportedD, supportedT, supportedTD, undecided, undecidedD, undecidedT, Res.value,
      Res.diff, Fresh, Qty.dynamic, Act.run, Act.step, Act.calls, invHead, Alg.apply, a1, a2, b1, b2, c1, c2, d1, e1] <;>
    (repeat' split) <;> simp_all

/-- The table `assumed` itself meets the hypothesis, and contact forward dynamics support a cost on the momentum. -/
example : Covers assumed ∧ supported .contactFwd .momentum = true := ⟨fun _ _ h => h, rfl⟩

/-- After evaluations elsewhere and a `quasiStatic`, the momentum that a cost of a contact node reads is that of the state. -/
example : (Act.contactFwd.run assumed 0 (fun _ => (0, 0)) [.calc 3 4, .quasiStatic 5, .diffT 6 7 8, .calc 1 2] : Stamps Nat Nat) .hg
    = (1, 2) := by
  have := ((C93_fresh_partial assumed (fun _ _ h => h) (0 : Nat) .contactFwd (fun _ => ((0 : Nat), 0))
    [.calc 3 4, .quasiStatic 5, .diffT 6 7 8] 1 2 0 .momentum).1 rfl) .hg (by simp [Res.value])
  exact this

/-- The table `assumed` lies within `allowed`, and a cost on the centre of mass in free forward dynamics is one of the stale ones. -/
example : Within assumed ∧ supported (.freeFwd false) .com = false ∧ undecided (.freeFwd false) .com = false := by
  refine ⟨fun k y => ?_, rfl, rfl⟩
  cases k <;> cases y <;> decide

/-- **C93 (contacts)**. Whatever was called before, the placements, velocities and Jacobians that the contacts and impulses read in
`calc` are those of the state; in `calcDiff` the placements, Jacobians and terms of the derivatives of velocities are those of the
state, for impulses with the velocity after the impact; in `quasiStatic` they are those of the configuration at rest. -/
theorem C93_contacts (T : Table) (hT : Covers T) (z : V) (A : Act) (s : Stamps Q V) (ops : List (Op Q V)) (q : Q) (v next : V) :
    (∀ l, A.toContacts z (.calc q v) = some l → ∀ y ∈ contactReads, Fresh (l.foldl (Alg.apply T) (A.run T z s ops)) q v y)
    ∧ (∀ l, A.toContacts z (.calcT q v) = some l → ∀ y ∈ contactReads, Fresh (l.foldl (Alg.apply T) (A.run T z s ops)) q v y)
    ∧ (∀ l, A.toContacts z (.diff q v next) = some l →
        ∀ y ∈ contactReadsD, Fresh (l.foldl (Alg.apply T) (A.run T z s ops)) q (if A = .impulse then next else v) y)
    ∧ (∀ l, A.toContacts z (.diffT q v next) = some l →
        ∀ y ∈ contactReadsD, Fresh (l.foldl (Alg.apply T) (A.run T z s ops)) q next y)
    ∧ ∀ l, A.toContacts z (.quasiStatic q) = some l → ∀ y ∈ contactReads, Fresh (l.foldl (Alg.apply T) (A.run T z s ops)) q z y := by
  have hT' : ∀ k y, assumed k y = true → T k y = true := hT
  generalize A.run T z s ops = s
  have a1 := hT' .allTerms .place rfl
  have a2 := hT' .allTerms .vel rfl
  have a3 := hT' .allTerms .jac rfl
  have f2 := hT' .fk .place rfl
  have f3 := hT' .fk .vel rfl
  have d1 := hT' .rneaD .place rfl
  have d2 := hT' .rneaD .jac rfl
  have d3 := hT' .rneaD .velD rfl
  have g1 := hT' .fkD .place rfl
  have g2 := hT' .fkD .jac rfl
  have g3 := hT' .fkD .velD rfl
  have r2 := hT' .rnea .vel rfl
  rcases A with (_ | _) | _ | _ | _ | _ <;>
    simp [Act.toContacts, contactReads, contactReadsD, Fresh, Qty.dynamic, Act.calls, invHead, Alg.apply,
      a1, a2, a3, f2, f3, d1, d2, d3, g1, g2, g3, r2] <;>
    repeat' split <;> simp_all

/-- Contacts and impulses are evaluated in `calc`, `calcDiff` and `quasiStatic` of the models that have them. -/
example (z q v : Nat) : Act.contactInv.toContacts z (.calc q v) = some [.run .fk q v, .jacobians]
    ∧ (Act.contactInv.toContacts z (.quasiStatic q : Op Nat Nat)).isSome ∧ (Act.contactFwd.toContacts z (.calc q v)).isSome
    ∧ (Act.impulse.toContacts z (.diffT q v 0)).isSome := ⟨rfl, rfl, rfl, rfl⟩

end Verif.Fsh
