import Verif.Model.StateMultibody
import Verif.Spec.Deriv

/-!
# C100: what is assumed of Pinocchio and what the state should compute
-/

namespace Verif.Mb

open Verif.Dense Verif.StateVector Verif.Deriv

/-- What is assumed of the operations of Pinocchio on configurations. `V` are the valid configurations (quaternions have norm
one), `Same` relates configurations that describe the same placement (a quaternion and its opposite), `Small` are the
velocities before the first cut of the group, and `Reg` are the pairs away from it. -/
structure Pin.Group (P : Pin) (V : (Fin P.nq → ℝ) → Prop) (Same : (Fin P.nq → ℝ) → (Fin P.nq → ℝ) → Prop)
    (Small : (Fin P.nv → ℝ) → Prop) (Reg : (Fin P.nq → ℝ) → (Fin P.nq → ℝ) → Prop) : Prop where
  neutral : V P.neutral
  closed : ∀ q v, V q → V (P.integrate q v)
  int_zero : ∀ q, V q → P.integrate q 0 = q
  int_diff : ∀ q q', V q → V q' → Same (P.integrate q (P.difference q q')) q'
  small : ∀ᶠ v in nhds 0, Small v
  diff_int : ∀ q v, V q → Small v → P.difference q (P.integrate q v) = v
  dInt : ∀ q v, V q →
    HasJac (fun w d => P.difference (P.integrate q v) (P.integrate (P.integrate q w) (v + d))) (P.dInt false q v) (P.dInt true q v) 0 0
  dDiff0 : ∀ q q', V q → V q' → Reg q q' → HasJac1 (fun w => P.difference (P.integrate q w) q') (P.dDiff false q q') 0
  dDiff1 : ∀ q q', V q → V q' → Reg q q' → HasJac1 (fun w => P.difference q (P.integrate q' w)) (P.dDiff true q q') 0
  transport : ∀ arg q v c (M : Matrix (Fin P.nv) (Fin c) ℝ), V q → P.transport arg q v c M = P.dInt arg q v * M

/-- The configuration in a state vector. -/
def conf (P : Pin) (x : DVec ℝ) : Fin P.nq → ℝ := fun i => x.e i

/-- The velocity in a state vector. -/
def veloc (P : Pin) (x : DVec ℝ) : Fin P.nv → ℝ := fun i => x.e (P.nq + i)

/-- A state vector of the right size with a valid configuration. -/
def Valid (P : Pin) (V : (Fin P.nq → ℝ) → Prop) (x : DVec ℝ) : Prop := x.size = P.nq + P.nv ∧ V (conf P x)

/-- The two states are the same. -/
def SameState (P : Pin) (Same : (Fin P.nq → ℝ) → (Fin P.nq → ℝ) → Prop) (x y : DVec ℝ) : Prop :=
  x.size = y.size ∧ Same (conf P x) (conf P y) ∧ veloc P x = veloc P y

/-- The vector of run-time size with the given entries. -/
def dvec {n : ℕ} (w : Fin n → ℝ) : DVec ℝ := ⟨n, fun i => if h : i < n then w ⟨i, h⟩ else 0⟩

/-- The first `n` entries of a vector of run-time size. -/
def vec (n : ℕ) (x : DVec ℝ) : Fin n → ℝ := fun i => x.e i

/-- The matrix in a buffer. -/
def mat (n : ℕ) (J : DMat ℝ) : Matrix (Fin n) (Fin n) ℝ := fun i j => J.e i j

/-- A square buffer. -/
def Square (n : ℕ) (J : DMat ℝ) : Prop := J.rows = n ∧ J.cols = n

/-- The entries of the buffer that are neither in the upper left corner nor on the diagonal are zero. -/
def CleanOff (n : ℕ) (J : DMat ℝ) : Prop := ∀ i < 2 * n, ∀ j < 2 * n, (n ≤ i ∨ n ≤ j) → i ≠ j → J.e i j = 0

/-- `K` is what the mode leaves in a buffer with the matrix `J` when it is given `D`. -/
def Wrote (n : ℕ) (op : AssignOp) (J K : DMat ℝ) (D : Matrix (Fin n) (Fin n) ℝ) : Prop :=
  Square n K ∧ match op with
    | .setto => mat n K = D
    | .addto => mat n K = mat n J + D
    | .rmfrom => mat n K = mat n J - D

/-- The sizes of the limits of a Pinocchio model. -/
structure Pin.Sized (P : Pin) : Prop where
  lower : P.lower.length = P.nq
  upper : P.upper.length = P.nq
  vel : P.vel.length = P.nv
  root : ∀ i n, P.root = some (i, n) → i + n ≤ P.nq

end Verif.Mb
