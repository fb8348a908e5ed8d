import Verif.Model.Limits

/-!
# C98: what the limits of a model should be
-/

namespace Verif.Limits

/-- The last vector of the right size among those of a history, or the default. -/
def lastSet (n : ℕ) (dflt : List EReal) : List (List EReal) → List EReal
  | [] => dflt
  | v :: vs => lastSet n (if v.length = n then v else dflt) vs

/-- The vectors given to `set_u_lb` in a history. -/
def lows : List Op → List (List EReal)
  | [] => []
  | .ulb v :: ops => v :: lows ops
  | _ :: ops => lows ops

/-- The vectors given to `set_u_ub` in a history. -/
def ups : List Op → List (List EReal)
  | [] => []
  | .uub v :: ops => v :: ups ops
  | _ :: ops => ups ops

/-- The vectors given to `set_g_lb` in a history. -/
def gLows : List Op → List (List EReal)
  | [] => []
  | .glb v :: ops => v :: gLows ops
  | _ :: ops => gLows ops

/-- The vectors given to `set_g_ub` in a history. -/
def gUps : List Op → List (List EReal)
  | [] => []
  | .gub v :: ops => v :: gUps ops
  | _ :: ops => gUps ops

/-- Some control is limited from one side. -/
def Limited (lb ub : List EReal) : Prop :=
  (∃ r : ℝ, (r : EReal) ∈ lb) ∨ ∃ r : ℝ, (r : EReal) ∈ ub

/-- `u` satisfies the limits. -/
def Within (u lb ub : List EReal) : Prop :=
  ∀ i (h : i < u.length), (∀ h' : i < lb.length, lb[i] ≤ u[i]) ∧ ∀ h' : i < ub.length, u[i] ≤ ub[i]

/-- The limits of the integrated model are those of the differential model, for each block of parameters, and the two flags
agree. -/
structure Agree (p : Pair) : Prop where
  lb : p.act.ulb = (List.replicate p.parts p.diff.ulb).flatten
  ub : p.act.uub = (List.replicate p.parts p.diff.uub).flatten
  has : p.act.has = p.diff.has

end Verif.Limits
