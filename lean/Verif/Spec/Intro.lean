import Verif.Model.Intro
import Verif.Spec.Lq
import Mathlib.Logic.Function.Defs

/-! # Specification vocabulary for equality-constrained problems -/

namespace Verif.Intro
open Verif Verif.Lq Matrix

variable {K : Type} [Field K] {n : Nat} {nu nh : Nat → Nat}

/-- The quadratic model of the cost-to-go at a node, as a function of the state and control increments. -/
def quadModel {m : Nat} (Q : QTerms K n m) (dx : Fin n → K) (du : Fin m → K) : K :=
  Q.Qx ⬝ᵥ dx + Q.Qu ⬝ᵥ du + (1/2) * (dx ⬝ᵥ (Q.Qxx *ᵥ dx)) + dx ⬝ᵥ (Q.Qxu *ᵥ du)
    + (1/2) * (du ⬝ᵥ (Q.Quu *ᵥ du))

/-- The local problem of a node: the quadratic expansion of the stage cost, plus the value function of the next
node after the linearised dynamics, plus the control regularisation `r`. -/
def localModel {m : Nat} (d : Derivs K n m) (V : Value K n) (r : K) (dx : Fin n → K) (du : Fin m → K) : K :=
  d.Lx ⬝ᵥ dx + d.Lu ⬝ᵥ du + (1/2) * (dx ⬝ᵥ (d.Lxx *ᵥ dx)) + dx ⬝ᵥ (d.Lxu *ᵥ du) + (1/2) * (du ⬝ᵥ (d.Luu *ᵥ du))
    + V.Vx ⬝ᵥ (d.Fx *ᵥ dx + d.Fu *ᵥ du)
    + (1/2) * ((d.Fx *ᵥ dx + d.Fu *ᵥ du) ⬝ᵥ (V.Vxx *ᵥ (d.Fx *ᵥ dx + d.Fu *ᵥ du))) + (r/2) * (du ⬝ᵥ du)

/-- The linearised equality constraint at the increments `dx`, `du`. -/
def linCon {m p : Nat} (e : EqDerivs K n m p) (dx : Fin n → K) (du : Fin m → K) : Fin p → K :=
  e.h + e.Hx *ᵥ dx + e.Hu *ᵥ du

/-- What exact factorisations deliver. `LLT` succeeds only on positive definite matrices. A matrix whose
computed rank is its number of rows has independent rows; then `kernel()` is a basis of the kernel, and the last
columns of `householderQ()`, an orthogonal matrix, lie in the kernel. -/
structure FactOk [LinearOrder K] (F : Fact K) : Prop where
  llt : LltSound F.llt
  luRank : ∀ {p m : Nat} (H : Matrix (Fin p) (Fin m) K), F.luRank H = p → ∀ v, Hᵀ *ᵥ v = 0 → v = 0
  luPerm : ∀ {p m : Nat} (H : Matrix (Fin p) (Fin m) K), Function.Bijective (F.luPerm H)
  luKer : ∀ {p m : Nat} (H : Matrix (Fin p) (Fin m) K), F.luRank H = p →
    (∀ u, H *ᵥ u = 0 ↔ ∃ w, u = F.luKer H *ᵥ w) ∧ ∀ w, F.luKer H *ᵥ w = 0 → w = 0
  qrRank : ∀ {p m : Nat} (H : Matrix (Fin p) (Fin m) K), F.qrRank H = p → ∀ v, Hᵀ *ᵥ v = 0 → v = 0
  qrQ : ∀ {p m : Nat} (H : Matrix (Fin p) (Fin m) K), F.qrRank H = p → (F.qrQ H)ᵀ * F.qrQ H = 1
  qrKer : ∀ {p m : Nat} (H : Matrix (Fin p) (Fin m) K), F.qrRank H = p →
    ∀ j : Fin m, p ≤ j.val → H *ᵥ (fun i => F.qrQ H i j) = 0

/-- The rows of a matrix are independent: the constraints do not repeat or contradict each other. -/
def FullRank {p m : Nat} (H : Matrix (Fin p) (Fin m) K) : Prop := ∀ v, Hᵀ *ᵥ v = 0 → v = 0

/-- Exact factorisations also succeed when they can: `LLT` on symmetric positive definite matrices, and the rank is
found on matrices with independent rows. -/
structure FactComplete [LinearOrder K] (F : Fact K) : Prop where
  llt : LltComplete F.llt
  luRank : ∀ {p m : Nat} (H : Matrix (Fin p) (Fin m) K), FullRank H → F.luRank H = p
  qrRank : ∀ {p m : Nat} (H : Matrix (Fin p) (Fin m) K), FullRank H → F.qrRank H = p

/-- The affine constraint `C x + D u + c = 0` of a linear-quadratic stage (lqr.hxx L126-128). -/
structure Affine (K : Type) (n m p : Nat) where
  C : Matrix (Fin p) (Fin n) K
  D : Matrix (Fin p) (Fin m) K
  c : Fin p → K

/-- The value of the constraint. -/
def Affine.eval {m p : Nat} (a : Affine K n m p) (x : Fin n → K) (u : Fin m → K) : Fin p → K :=
  a.C *ᵥ x + a.D *ᵥ u + a.c

/-- Its linearisation at a point. -/
def Affine.derivs {m p : Nat} (a : Affine K n m p) (x : Fin n → K) (u : Fin m → K) : EqDerivs K n m p :=
  ⟨a.eval x u, a.C, a.D⟩

/-- The controls `vs`, applied from state `x` at node `t0`, satisfy the constraints of all nodes that have
controls. -/
def Satisfies (P : LqProb K n nu) (cs : ∀ t, Affine K n (nu t) (nh t)) (vs : ∀ t, Fin (nu t) → K) (t0 : Nat)
    (x : Fin n → K) : Prop :=
  ∀ i, t0 + i < P.T → 0 < nu (t0 + i) → (cs (t0 + i)).eval (traj P vs t0 x i) (vs (t0 + i)) = 0

end Verif.Intro
