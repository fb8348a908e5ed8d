import Verif.Model.NumDiffContact

/-!
# Specification of the finite-difference contact model

The drift as a function of the state alone, when the registered re-evaluations refresh all that the contact reads.
-/

namespace Verif.NumDiffC

variable {X P : Type} {n nv nu nc : ℕ}

/-- `A` and `J` are the drift and the Jacobian of the contact as functions of the state: the registered re-evaluations
bring the Pinocchio data, whatever they contain, to a state in which `calc` returns them. -/
def Refreshes (m : Model X P n nv nu nc) (A : X → Fin nc → ℝ) (J : X → Matrix (Fin nc) (Fin nv) ℝ) : Prop :=
  ∀ p x, m.a0 (m.reevals.foldl (fun p r => r p x 0) p) x = A x ∧ m.Jc (m.reevals.foldl (fun p r => r p x 0) p) x = J x

/-- The Pinocchio data hold the quantities of the state `x`: what `calc` of the contact returns is `A x` and `J x`. -/
def At (m : Model X P n nv nu nc) (A : X → Fin nc → ℝ) (J : X → Matrix (Fin nc) (Fin nv) ℝ) (p : P) (x : X) : Prop :=
  m.a0 p x = A x ∧ m.Jc p x = J x

end Verif.NumDiffC
