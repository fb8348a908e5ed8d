import Verif.Model.Lq

/-!
# Model of the equality-constrained solver `SolverIntro`: gains and value function

Files modelled: `/repo/src/core/solvers/intro.cpp` L226-399 (`calcDiff`, `computeValueFunction`,
`computeGains`) on top of the backward pass of `ddp.cpp` (`Model/Lq.lean`).

Each node `t` has `nu t` controls and `nh t` equality constraints. Eigen's factorisations are arbitrary
functions here (`Fact`); what the theorems assume of them is in `Spec/Intro.lean`. `solveInPlace` and `inverse` are exact
inverses. The null-space bases are computed in `calcDiff` and used in `computeGains`; the model computes
them where they are used.
-/

namespace Verif.Intro
open Verif Verif.Lq Matrix

/-- The equality-constraint part of an action data: `h`, `Hx`, `Hu`. -/
structure EqDerivs (K : Type) (n m p : Nat) where
  h : Fin p → K
  Hx : Matrix (Fin p) (Fin n) K
  Hu : Matrix (Fin p) (Fin m) K

/-- `EqualitySolverType` (intro.hpp). -/
inductive EqSolver where
  | luNull | qrNull | schur
deriving DecidableEq

/-- Eigen's factorisations. `llt`: success test of `LLT`. `luRank`, `luPerm`, `luKer`: `FullPivLU` of `Hu`:
`rank()`, the rows of `permutationP() * Hu`, `kernel()`. `qrRank`, `qrQ`: `ColPivHouseholderQR` of `Huᵀ`:
`rank()`, `householderQ()`. -/
structure Fact (K : Type) where
  llt : ∀ m, Matrix (Fin m) (Fin m) K → Bool
  luRank : ∀ {p m : Nat}, Matrix (Fin p) (Fin m) K → Nat
  luPerm : ∀ {p m : Nat}, Matrix (Fin p) (Fin m) K → Fin p → Fin p
  luKer : ∀ {p m : Nat}, Matrix (Fin p) (Fin m) K → Matrix (Fin m) (Fin (m - p)) K
  qrRank : ∀ {p m : Nat}, Matrix (Fin p) (Fin m) K → Nat
  qrQ : ∀ {p m : Nat}, Matrix (Fin p) (Fin m) K → Matrix (Fin m) (Fin m) K

/-- A result, `throw_pretty`, or undefined behaviour. -/
inductive Res3 (α : Type) where
  | ok (a : α)
  | throw
  | ub

noncomputable section
variable {K : Type} [Field K] {n m p : Nat}

/-- `YZ_[t]`: the blocks `Y` (left) and `Z` (right), intro.cpp L245-250 and L274-278. `none`: the rank of `Hu` is
not the number of constraints; then the blocks have sizes that do not fit (L246, L251-252, L279-280), an Eigen
assertion in debug builds and undefined otherwise. -/
def nullBasis (F : Fact K) (es : EqSolver) (Hu : Matrix (Fin p) (Fin m) K) :
    Option (Matrix (Fin m) (Fin p) K × Matrix (Fin m) (Fin (m - p)) K) :=
  match es with
  | .luNull =>
    if F.luRank Hu = p then some (fun i j => Hu (F.luPerm Hu j) i, F.luKer Hu) else none
  | .qrNull =>
    if h : F.qrRank Hu = p ∧ p ≤ m then
      some (fun i j => F.qrQ Hu i (Fin.castLE h.2 j),
        fun i j => F.qrQ Hu i ⟨m - (m - p) + j.val, by omega⟩)
    else none
  | .schur => none

/-- `kz_[t]`, `Kz_[t]`, intro.cpp L251-258, L279-286: the step in the range of `Y` that satisfies the
constraints. -/
def rangeStep (Y : Matrix (Fin m) (Fin p) K) (e : EqDerivs K n m p) :
    (Fin m → K) × Matrix (Fin m) (Fin n) K :=
  let Hy := e.Hu * Y
  (Y *ᵥ (Hy⁻¹ *ᵥ e.h), Y * (Hy⁻¹ * e.Hx))

/-- `computeGains`, null-space variants, intro.cpp L341-369. `QzzinvQzu` and `Qzx` are views on `Quz_` and
`Qxz_`, solved in place. -/
def nullGains (F : Fact K) (Z : Matrix (Fin m) (Fin (m - p)) K) (kz : Fin m → K)
    (Kz : Matrix (Fin m) (Fin n) K) (Q : QTerms K n m) :
    Res3 ((Fin m → K) × Matrix (Fin m) (Fin n) K) :=
  let Quz := Q.Quu * Z
  let Qzz := Zᵀ * Quz
  if F.llt (m - p) Qzz then
    let QzzinvQzu := Qzz⁻¹ * Quzᵀ
    let Qz := Qzz⁻¹ *ᵥ (Zᵀ *ᵥ Q.Qu) - QzzinvQzu *ᵥ kz
    let Qzx := Qzz⁻¹ * (Q.Qxu * Z)ᵀ - QzzinvQzu * Kz
    .ok (kz + Z *ᵥ Qz, Kz + Z * Qzx)
  else .throw

/-- `computeGains`, Schur complement, intro.cpp L374-394, after `SolverFDDP::computeGains`. -/
def schurGains (F : Fact K) (e : EqDerivs K n m p) (Q : QTerms K n m) :
    Res3 ((Fin m → K) × Matrix (Fin m) (Fin n) K) :=
  match computeGains F.llt Q with
  | none => .throw
  | some (k, Kfb) =>
    let QuuinvHuT := Q.Quu⁻¹ * e.Huᵀ
    let Qzz := e.Hu * QuuinvHuT
    if F.llt p Qzz then
      let QuuinvHuT := (Qzz⁻¹ * QuuinvHuTᵀ)ᵀ
      let ks := e.h - e.Hu *ᵥ k
      let Ks := e.Hx - e.Hu * Kfb
      .ok (k + QuuinvHuT *ᵥ ks, Kfb + QuuinvHuT * Ks)
    else .throw

/-- `computeGains`, intro.cpp L329-399: nodes without controls or without constraints use
`SolverFDDP::computeGains`. -/
def gains (F : Fact K) (es : EqSolver) (e : EqDerivs K n m p) (Q : QTerms K n m) :
    Res3 ((Fin m → K) × Matrix (Fin m) (Fin n) K) :=
  if m = 0 ∨ p = 0 then
    match computeGains F.llt Q with
    | none => .throw
    | some g => .ok g
  else match es with
    | .schur => schurGains F e Q
    | _ =>
      match nullBasis F es e.Hu with
      | none => .ub
      | some (Y, Z) => nullGains F Z (rangeStep Y e).1 (rangeStep Y e).2 Q

/-- `computeValueFunction`, intro.cpp L297-327; `f` is `fs_[t]`. -/
def computeValue (preg : Option K) (feas : Bool) (Q : QTerms K n m) (k : Fin m → K)
    (Kfb : Matrix (Fin m) (Fin n) K) (f : Fin n → K) : Value K n :=
  let Vx := Q.Qx - Q.Qxu *ᵥ k - Kfbᵀ *ᵥ (Q.Qu - Q.Quu *ᵥ k)
  let M := Q.Qxx + (Kfbᵀ * Q.Quu - (2 : K) • Q.Qxu) * Kfb
  let Vxx := addDiag preg ((1 / 2 : K) • (M + Mᵀ))
  { Vx := if feas then Vx else Vx + Vxx *ᵥ f, Vxx := Vxx }

/-- Body of the loop of `backwardPass`, ddp.cpp L228-248, with the virtual functions of `SolverIntro`. -/
def backNode (F : Fact K) (es : EqSolver) (preg : Option K) (feas : Bool) (d : Derivs K n m)
    (e : EqDerivs K n m p) (V : Value K n) (f : Fin n → K) : Res3 (NodeOut K n m) :=
  let Q := actionValue preg d V
  match gains F es e Q with
  | .throw => .throw
  | .ub => .ub
  | .ok (k, Kfb) => .ok ⟨Q, k, Kfb, computeValue preg feas Q k Kfb f⟩

/-- The loop of `backwardPass`, ddp.cpp L229-250, for the nodes below `t`. -/
def backLoop {nu nh : Nat → Nat} (F : Fact K) (es : EqSolver) (preg : Option K) (feas : Bool)
    (d : ∀ t, Derivs K n (nu t)) (e : ∀ t, EqDerivs K n (nu t) (nh t)) (f : Nat → Fin n → K) :
    Nat → Arrays K n nu → Res3 (Arrays K n nu)
  | 0, s => .ok s
  | t + 1, s =>
    match backNode F es preg feas (d t) (e t) (s.V (t + 1)) (f t) with
    | .throw => .throw
    | .ub => .ub
    | .ok o => backLoop F es preg feas d e f t ⟨Function.update s.V t o.V, Function.update s.out t o⟩

/-- `backwardPass`, ddp.cpp L212-251, on the arrays `s` left by earlier calls. The terminal constraints are not used. -/
def backwardPass {nu nh : Nat → Nat} (F : Fact K) (es : EqSolver) (preg : Option K) (feas : Bool) (T : Nat)
    (d : ∀ t, Derivs K n (nu t)) (e : ∀ t, EqDerivs K n (nu t) (nh t)) (LxT : Fin n → K)
    (LxxT : Matrix (Fin n) (Fin n) K) (f : Nat → Fin n → K) (s : Arrays K n nu) : Res3 (Arrays K n nu) :=
  backLoop F es preg feas d e f T { s with V := Function.update s.V T (termValue preg feas LxT LxxT (f T)) }

end
end Verif.Intro
