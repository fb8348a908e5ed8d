import Verif.Model.FwdDyn
import Verif.Model.Actuation
import Mathlib.Algebra.BigOperators.Fin

/-!
# Inverse dynamics

`include/crocoddyl/multibody/actions/free-invdyn.{hpp,hxx}` and `contact-invdyn.{hpp,hxx}`. The control is the acceleration
and the contact forces (none in the free case, which is the same code with `nc = 0` and without the lines on contacts);
the equations of motion become constraints.

The rows of all contacts, active or not, are indexed by `Fin nc`; `on` tells whether the contact of a row is active (rows of
one contact are consecutive and share it). The constraint manager stacks the rows (C13); here they are the two vectors
`r` ("tau") and `rc` (for each contact "_acc" if it is active, "_force" otherwise, contact-invdyn.hxx L161-168,
L242-249).

Simplifications: real scalars; costs and the user's constraints are left out; contacts have 1, 3 or 6 dimensions (the force
residual does nothing for 2, contact-force.hxx L66-78, L123-138); dimension checks are in the types.
-/

namespace Verif.Inv

open Matrix Verif.Fwd

noncomputable section

/-- What Pinocchio and the contacts compute: mass matrix, `rnea` with external forces (those of contacts in the place of
each row), `computeRNEADerivatives`, what `updateRneaDiff` adds to it, contact Jacobians, `a0` of the contacts after forward
kinematics with an acceleration, and its derivative. -/
structure Plant (X : Type) (nv nc : ℕ) where
  M : X → Mat nv nv
  rnea : X → Vec nv → Vec nc → Vec nv
  rneaDx : X → Vec nv → Vec nc → Matrix (Fin nv) (Tan nv) ℝ
  dtau : X → Vec nc → Mat nv nv
  J : X → Mat nc nv
  acc : X → Vec nv → Vec nc
  da0 : X → Vec nv → Matrix (Fin nc) (Tan nv) ℝ
  lay : Layout nc

variable {X : Type} {nv nc nu m : ℕ}

/-- The part of the data that is modelled; `m` is the size of the residual "tau". -/
structure Dat (nv nc nu m : ℕ) where
  xout : Vec nv
  Fx : Matrix (Fin nv) (Tan nv) ℝ
  Fu : Matrix (Fin nv) (Fin nv ⊕ Fin nc) ℝ
  ptau : Vec nv
  pM : Mat nv nv
  pdtau : Matrix (Fin nv) (Tan nv) ℝ
  act : Act.Data ℝ nv nu (nv + nv)
  ja : Vec nv
  jtau : Vec nu
  jdtau_dx : Matrix (Fin nu) (Tan nv) ℝ
  jdtau_du : Matrix (Fin nu) (Fin nv ⊕ Fin nc) ℝ
  /-- Jacobian of the contact container, the forces of the contacts. -/
  Jc : Mat nc nv
  f : Vec nc
  r : Fin m → ℝ
  Rx : Matrix (Fin m) (Tan nv) ℝ
  Ru : Matrix (Fin m) (Fin nv ⊕ Fin nc) ℝ
  rc : Vec nc
  Cx : Matrix (Fin nc) (Tan nv) ℝ
  Cu : Matrix (Fin nc) (Fin nv ⊕ Fin nc) ℝ

/-- One iteration of the loops below: row `k` of `src`, unless skipped, goes to the next row of the destination. -/
def writeStep {α : Type} {n m : ℕ} (skip : Fin n → Bool) (src : Fin n → α) (s : Option (ℕ × (Fin m → α))) (k : Fin n) :
    Option (ℕ × (Fin m → α)) :=
  match s with
  | none => none
  | some (i, d) =>
    if skip k then some (i, d)
    else if h : i < m then some (i + 1, Function.update d ⟨i, h⟩ (src k)) else none

/-- The loops that write some rows one after the other: over the joints in the residual "tau" (free-invdyn.hpp L310-317, L346-353;
contact-invdyn.hpp L329-336, L367-374), over the active contacts in `calc` of the container (multiple-contacts.hxx
L131-148). The entries of `src` that are not skipped go to the rows `0, 1, ...` of `dst`. `none`: a row beyond
the last is written. -/
def writeRows {α : Type} {n m : ℕ} (skip : Fin n → Bool) (src : Fin n → α) (dst : Fin m → α) : Option (Fin m → α) :=
  ((List.finRange n).foldl (writeStep skip src) (some (0, dst))).map (·.2)

/-- The columns of a matrix of the actuation, as configuration and velocity. -/
def cols (B : Matrix (Fin nv) (Fin (nv + nv)) ℝ) : Matrix (Fin nv) (Tan nv) ℝ := B.submatrix id finSumFinEquiv

/-- The data constructor: `Fx` zero, `Fu` the identity on the acceleration (free-invdyn.hpp L436-452, contact-invdyn.hpp
L619-675), everything else zero. -/
def create (A : Act.Model ℝ X nv nu (nv + nv)) : Dat nv nc nu m :=
  { xout := 0, Fx := 0, Fu := fromCols 1 0, ptau := 0, pM := 0, pdtau := 0, act := A.create, ja := 0, jtau := 0,
    jdtau_dx := 0, jdtau_du := 0, Jc := 0, f := 0, r := 0, Rx := 0, Ru := 0, rc := 0, Cx := 0, Cu := 0 }

/-- `calc(data, x, u)`, free-invdyn.hxx L80-111, contact-invdyn.hxx L121-171, with the residuals of the constraints "tau"
(free-invdyn.hpp L304-318, contact-invdyn.hpp L323-337), "_acc" (contact-invdyn.hpp L500-506) and "_force"
(contact-force.hxx L60-79, zero reference). Inactive contacts have zero rows in `Jc` and no force
(multiple-contacts.hxx L124-127, L256-258); the value of "_force" is the force that was set to zero. -/
def invCalc (P : Plant X nv nc) (A : Act.Model ℝ X nv nu (nv + nv)) (on : Fin nc → Bool) (d : Dat nv nc nu m) (x : X)
    (u : Vec nv × Vec nc) : Option (Dat nv nc nu m) :=
  let d := { d with xout := u.1, Jc := of fun i => if on i then P.J x i else 0, f := fun i => if on i then u.2 i else 0 }
  let d := { d with ptau := P.rnea x u.1 (P.lay.seen on d.f) }
  let d := { d with act := A.commands d.act x d.ptau, ja := u.1 }
  let d := { d with jtau := d.act.u }
  let d := { d with act := A.eval d.act x d.jtau }
  match writeRows d.act.tauSet d.ptau d.r with
  | none => none
  | some r => some { d with r := r, rc := fun i => if on i then P.acc x u.1 i else d.f i }

/-- `calcDiff(data, x, u)`, free-invdyn.hxx L138-173, contact-invdyn.hxx L198-252, with the Jacobians of the residuals "tau"
(free-invdyn.hpp L336-354, contact-invdyn.hpp L355-375), "_acc" (contact-invdyn.hpp L524-531) and "_force", which keeps
the derivatives stored for all contacts when the data was made (contact-invdyn.hpp L640-658, contact-force.hxx
L110-112): the identity on the force. -/
def invDiff (P : Plant X nv nc) (A : Act.Model ℝ X nv nu (nv + nv)) (on : Fin nc → Bool) (d : Dat nv nc nu m) (x : X)
    (u : Vec nv × Vec nc) : Option (Dat nv nc nu m) :=
  let d := { d with pdtau := P.rneaDx x u.1 (P.lay.seen on d.f), pM := P.M x }
  let d := { d with pdtau := d.pdtau + fromCols (P.dtau x d.f) 0 }
  let d := { d with pM := mirror d.pM }
  let d := { d with act := A.calcDiff d.act x d.jtau }
  let d := { d with act := A.torque d.act x d.jtau }
  let d := { d with jdtau_dx := d.act.mtau * d.pdtau, jdtau_du := fromCols (d.act.mtau * d.pM) (-d.act.mtau * d.Jcᵀ) }
  let dx := d.pdtau - cols d.act.dtauDx
  let du : Matrix (Fin nv) (Fin nv ⊕ Fin nc) ℝ := fromCols d.pM (-d.Jcᵀ)
  match writeRows d.act.tauSet (fun k => dx k) (fun i => d.Rx i), writeRows d.act.tauSet (fun k => du k) (fun i => d.Ru i) with
  | some Rx, some Ru => some { d with
      Rx := of Rx, Ru := of Ru
      Cx := of fun i => if on i then P.da0 x u.1 i else 0
      Cu := of fun i => if on i then Sum.elim (P.J x i) 0 else Sum.elim 0 (Pi.single i 1) }
  | _, _ => none

/-- Number of active rows before row `i`: the counter `nc_r` of `quasiStatic`, contact-invdyn.hxx L321-335. -/
def rank (on : Fin nc → Bool) (i : Fin nc) : ℕ := ((List.finRange nc).filter fun k => on k && decide (k < i)).length

/-- `quasiStatic` with contacts, contact-invdyn.hxx L277-338: only the active contacts are computed, and their rows packed at the
top of `Jc` (multiple-contacts.hxx L131-148), of which `nc_total` rows are used; the forces are read back in that order. The
accelerations are zero. `rest x` is the state with the same configuration and no velocity, `pinv` is `pseudoInverse`. -/
def invStatic (P : Plant X nv nc) (A : Act.Model ℝ X nv nu (nv + nv)) (on : Fin nc → Bool) (rest : X → X)
    (pinv : Matrix (Fin nv) (Fin nu ⊕ Fin nc) ℝ → Matrix (Fin nu ⊕ Fin nc) (Fin nv) ℝ) (d : Dat nv nc nu m) (x : X) :
    Option (Dat nv nc nu m × (Vec nv × Vec nc)) :=
  let tau := P.rnea (rest x) 0 0
  let d := { d with act := A.eval d.act (rest x) 0 }
  let d := { d with act := A.calcDiff d.act (rest x) 0 }
  match writeRows (fun i => !on i) (fun i => P.J (rest x) i) (fun i => d.Jc i) with
  | none => none
  | some Jc =>
    let z := pinv (fromCols d.act.dtauDu (of Jc)ᵀ) *ᵥ tau
    some ({ d with Jc := of Jc, ptau := 0 },
      (0, fun i => if on i then (if h : rank on i < nc then z (Sum.inr ⟨rank on i, h⟩) else 0) else 0))

/-- The actuation with thrusters as an actuation model, for thrusters that are not replaced after `createData`
(floating-base-thrusters.hpp L200-265; `createData` clears the flag that `calc` reads). -/
def thrusters {nj nt : ℕ} (eps : ℝ) (t : Act.Thr ℝ nj nt) : Act.Model ℝ X (6 + nj) (nj + nt) ((6 + nj) + (6 + nj)) :=
  { create := (t.updateData eps Act.Data.zero).2
    eval := fun d _ u => ((t.updateData eps d).1.calc eps d u).2
    calcDiff := fun d _ _ => d
    commands := fun d _ tau => { d with u := d.mtau *ᵥ tau }
    torque := fun d _ _ => d }

end
end Verif.Inv
