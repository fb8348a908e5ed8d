import Verif.Model.NumDiff

/-!
# Finite differences of a contact model (`ContactModelNumDiffTpl`)

Files modelled: `/repo/include/crocoddyl/multibody/numdiff/contact.hxx` and `contact.hpp`. The differentiated contact
reads the shared Pinocchio data (`P`) and the state; the registered `reevals` rewrite the Pinocchio data. What the
differentiated model computes and the size of the state are parameters. Real arithmetic.
-/

namespace Verif.NumDiffC

noncomputable section

open Verif.NumDiff (StateOps setCol)

/-- What the differentiated contact writes in its own data: drift, Jacobian and force. -/
structure Out (nc nv : ℕ) where
  a0 : Fin nc → ℝ
  Jc : Matrix (Fin nc) (Fin nv) ℝ
  f : Fin 6 → ℝ

/-- The wrapper: `model_` (state; drift and Jacobian computed by `calc` from the Pinocchio data and the state; spatial
force of `updateForce`), `e_jac_` and `reevals_`. -/
structure Model (X P : Type) (n nv nu nc : ℕ) where
  st : StateOps X n
  a0 : P → X → Fin nc → ℝ
  Jc : P → X → Matrix (Fin nc) (Fin nv) ℝ
  force : P → (Fin nc → ℝ) → Fin 6 → ℝ
  ejac : ℝ
  reevals : List (P → X → (Fin nu → ℝ) → P)

/-- `ContactDataNumDiff` (contact.hpp L131-173): the fields of the contact data (`a0`, `Jc`, `f`, `da0_dx`), `data_0`,
`dx`, and the Pinocchio data shared with the differentiated contact. -/
structure Data (P : Type) (n nv nc : ℕ) where
  pin : P
  a0 : Fin nc → ℝ
  Jc : Matrix (Fin nc) (Fin nv) ℝ
  f : Fin 6 → ℝ
  da0_dx : Matrix (Fin nc) (Fin n) ℝ
  d0 : Out nc nv
  dx : Fin n → ℝ

variable {X P : Type} {n nv nu nc : ℕ}

/-- The constructor, L14-20 (`eps` is the machine epsilon): no re-evaluation is registered. -/
def create (st : StateOps X n) (a0 : P → X → Fin nc → ℝ) (Jc : P → X → Matrix (Fin nc) (Fin nv) ℝ)
    (force : P → (Fin nc → ℝ) → Fin 6 → ℝ) (eps : ℝ) : Model X P n nv nu nc :=
  { st := st, a0 := a0, Jc := Jc, force := force, ejac := √(2 * eps), reevals := [] }

/-- `createData`, L73-79: everything is zero (contact-base.hpp L194-204, force-base.hpp). -/
def createData (pin : P) : Data P n nv nc :=
  { pin := pin, a0 := 0, Jc := 0, f := 0, da0_dx := 0, d0 := ⟨0, 0, 0⟩, dx := 0 }

/-- `cast()`, L81-87: the wrapper of the cast contact, newly constructed. The cast of the differentiated contact is
taken to be the contact itself. -/
def castM (eps : ℝ) (m : Model X P n nv nu nc) : Model X P n nv nu nc := create m.st m.a0 m.Jc m.force eps

/-- `set_disturbance`, L100-106: `none` is the exception for a negative value. -/
def setDisturbance (m : Model X P n nv nu nc) (e : ℝ) : Option (Model X P n nv nu nc) :=
  if e < 0 then none else some { m with ejac := e }

/-- `set_reevals`, L108-112. -/
def setReevals (m : Model X P n nv nu nc) (l : List (P → X → (Fin nu → ℝ) → P)) : Model X P n nv nu nc :=
  { m with reevals := l }

/-- The loop over `reevals_`, L50-52: each is called with the state and a zero control. -/
def runReevals (m : Model X P n nv nu nc) (p : P) (x : X) : P := m.reevals.foldl (fun p r => r p x 0) p

/-- `calc`, L22-29: the differentiated contact writes `data_0`; only its drift is copied. -/
def calcX (m : Model X P n nv nu nc) (d : Data P n nv nc) (x : X) : Data P n nv nc :=
  { d with d0 := { d.d0 with a0 := m.a0 d.pin x, Jc := m.Jc d.pin x }, a0 := m.a0 d.pin x }

/-- Body of the loop over the state, L46-56. -/
def jacX (m : Model X P n nv nu nc) (x : X) (h : ℝ) (d : Data P n nv nc) (ix : Fin n) : Data P n nv nc :=
  let dx := Function.update d.dx ix h
  let xp := m.st.integrate x dx
  let pin := runReevals m d.pin xp
  { d with
    pin := pin
    da0_dx := setCol d.da0_dx ix (fun i => (m.a0 pin xp i - d.a0 i) / h)
    dx := Function.update dx ix 0 }

/-- `calcDiff`, L31-57. -/
def diffX (m : Model X P n nv nu nc) (d : Data P n nv nc) (x : X) : Data P n nv nc :=
  let h := m.ejac * max 1 (NumDiff.norm (m.st.diff m.st.zero x))
  (List.finRange n).foldl (jacX m x h) { d with dx := 0 }

/-- `updateForce`, L59-71: `none` is the exception for a force of the wrong size; otherwise the differentiated contact
writes the force in `data_0`. -/
def updateForce (m : Model X P n nv nu nc) (d : Data P n nv nc) (force : List ℝ) : Option (Data P n nv nc) :=
  if h : force.length = nc then
    some { d with d0 := { d.d0 with f := m.force d.pin (fun i => force.get (i.cast h.symm)) } }
  else none

end

end Verif.NumDiffC
