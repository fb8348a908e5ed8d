import Verif.Model.Fresh

/-!
# Which state the quantities that costs read were computed at: what is assumed of Pinocchio, what the residuals read
-/

namespace Verif.Fsh

variable {Q V : Type}

/-- What Pinocchio's algorithms are assumed to compute at least. Pinocchio is not in the repository and was not available: this table
was written from knowledge of its interface and has not been checked against its source or its documentation. -/
def assumed : Table
  | .allTerms, y => y ∈ [Qty.loc, .place, .vel, .jac, .com, .jcom]
  | .fk, y => y ∈ [Qty.loc, .place, .vel]
  | .rnea, y => y ∈ [Qty.loc, .vel]
  | .aba, y => y ∈ [Qty.loc, .vel]
  | .com, y => y ∈ [Qty.loc, .place, .vel, .com]
  | .rneaD, y => y ∈ [Qty.loc, .place, .vel, .jac, .velD, .hgD]
  | .abaD, y => y ∈ [Qty.loc, .place, .vel, .jac, .velD]
  | .fkD, y => y ∈ [Qty.loc, .place, .vel, .jac, .velD]

/-- A table that has at least the entries of `assumed`. -/
def Covers (T : Table) : Prop := ∀ k y, assumed k y = true → T k y = true

/-- What Pinocchio's algorithms are assumed to compute at most (unchecked too, and generous): `computeAllTerms` may compute the
momentum, `aba` and `rnea` no centre of mass, Jacobian, momentum or term of a derivative, and only the algorithms for derivatives the
terms of derivatives. -/
def allowed : Table
  | .allTerms, y => y ∉ [Qty.velD, .hgD]
  | .fk, y => y ∈ [Qty.loc, .place, .vel]
  | .rnea, y => y ∈ [Qty.loc, .place, .vel]
  | .aba, y => y ∈ [Qty.loc, .place, .vel]
  | .com, y => y ∈ [Qty.loc, .place, .vel, .com, .jcom]
  | .rneaD, _ => true
  | .abaD, _ => true
  | .fkD, _ => true

/-- A table that has no entry beyond `allowed`. -/
def Within (T : Table) : Prop := ∀ k y, T k y = true → allowed k y = true

/-- Quantities that depend on the velocity too. -/
def Qty.dynamic : Qty → Bool
  | .vel | .hg | .velD | .hgD => true
  | _ => false

/-- The quantity is that of the state. -/
def Fresh (s : Stamps Q V) (q : Q) (v : V) (y : Qty) : Prop :=
  if y.dynamic then s y = (q, v) else (s y).1 = q

/-- Residuals that read Pinocchio's data. -/
inductive Res
  | pose | velocity | com | momentum
  deriving DecidableEq, Repr

/-- What `calc` of the residual reads. -/
def Res.value : Res → List Qty
  | .pose => [.place]
  | .velocity => [.place, .vel]
  | .com => [.com]
  | .momentum => [.hg]

/-- What `calcDiff` of the residual reads. -/
def Res.diff : Res → List Qty
  | .pose => [.place, .jac]
  | .velocity => [.place, .velD, .jac]
  | .com => [.jcom]
  | .momentum => [.hgD]

/-- What the contacts and impulses read, in `calc` and in `calcDiff`. -/
def contactReads : List Qty := [.place, .vel, .jac]

/-- What the contacts and impulses read in `calcDiff`. -/
def contactReadsD : List Qty := [.place, .velD, .jac]

/-- What depends on whether `computeAllTerms` computes the momentum: its value in free dynamics that call it. -/
def undecided : Act → Res → Bool
  | .freeFwd true, .momentum => true
  | _, _ => false

/-- What depends on whether the algorithms for derivatives of the free dynamics compute the Jacobian of the centre of mass and the
derivatives of the momentum. -/
def undecidedD : Act → Res → Bool
  | .freeFwd false, .com | .freeFwd false, .momentum | .freeInv, .com => true
  | _, _ => false

/-- The value at terminal nodes. -/
def undecidedT : Act → Res → Bool
  | .freeFwd _, .momentum | .freeInv, .momentum => true
  | _, _ => false

/-- The residuals whose value is right in an action model, evaluated with a control. -/
def supported : Act → Res → Bool
  | .freeFwd false, r => r ∈ [Res.pose, .velocity]
  | .freeFwd true, r => r ∈ [Res.pose, .velocity, .com]
  | .contactFwd, _ => true
  | .impulse, _ => true
  | .freeInv, r => r ∈ [Res.pose, .velocity]
  | .contactInv, r => r ∈ [Res.pose, .velocity, .com]

/-- The residuals whose derivative is right in an action model, evaluated with a control. -/
def supportedD : Act → Res → Bool
  | .freeFwd false, r => r ∈ [Res.pose, .velocity]
  | .freeFwd true, r => r ∈ [Res.pose, .velocity, .com, .momentum]
  | .contactFwd, _ => true
  | .impulse, r => r ∈ [Res.pose, .com]
  | .freeInv, r => r ∈ [Res.pose, .velocity, .momentum]
  | .contactInv, _ => true

/-- The residuals whose value is right at terminal nodes. -/
def supportedT : Act → Res → Bool
  | .freeFwd _, r => r ∈ [Res.pose, .velocity, .com]
  | .freeInv, r => r ∈ [Res.pose, .velocity, .com]
  | _, _ => true

/-- The residuals whose derivative is right at terminal nodes. -/
def supportedTD : Res → Bool
  | r => r ∈ [Res.pose, .com]

end Verif.Fsh
